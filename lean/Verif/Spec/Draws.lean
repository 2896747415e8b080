import Mathlib.MeasureTheory.Measure.Lebesgue.Basic
import Mathlib.Probability.Independence.InfinitePi

/-!
# Uniform random draws

What "random numbers between 0 and 1" means, for the properties about chances. The generator of numpy is not modelled: its draws are
taken to be independent and uniform.
-/

namespace Verif.Spec

open MeasureTheory ProbabilityTheory

variable {Ω : Type*} [MeasurableSpace Ω]

/-- `X` is a uniform draw in [0, 1): the chance that it lies in a set is the length of the part of the set in [0, 1). -/
def IsUniform (μ : Measure Ω) (X : Ω → ℝ) : Prop :=
  Measurable X ∧ ∀ A : Set ℝ, MeasurableSet A → μ {ω | X ω ∈ A} = volume (A ∩ Set.Ico 0 1)

/-- Uniform draws, independent of each other. -/
def AreUniform {ι : Type*} (μ : Measure Ω) (X : ι → Ω → ℝ) : Prop := (∀ i, IsUniform μ (X i)) ∧ iIndepFun X μ

/-- Repeated independent draws of the same law: the chance that one of them lies in a set is what the law says. -/
structure AreDraws {ι β : Type*} [MeasurableSpace β] (μ : Measure Ω) (X : ι → Ω → β) (law : Measure β) : Prop where
  measurable : ∀ s, Measurable (X s)
  chance : ∀ s, ∀ A : Set β, MeasurableSet A → μ {ω | X s ω ∈ A} = law A
  independent : iIndepFun X μ

/-- The law of a uniform draw. -/
noncomputable def unitLaw : Measure ℝ := volume.restrict (Set.Ico 0 1)

instance : IsProbabilityMeasure unitLaw := ⟨by simp [unitLaw]⟩

theorem isUniform_iff {μ : Measure Ω} {X : Ω → ℝ} : IsUniform μ X ↔ Measurable X ∧ μ.map X = unitLaw := by
  unfold IsUniform unitLaw
  constructor
  · rintro ⟨h, hA⟩
    refine ⟨h, Measure.ext fun A hm => ?_⟩
    rw [Measure.map_apply h hm, Measure.restrict_apply hm]
    exact hA A hm
  · rintro ⟨h, hm⟩
    refine ⟨h, fun A hA => ?_⟩
    rw [← Measure.restrict_apply hA, ← hm, Measure.map_apply h hA]
    rfl

/-- There are such draws, as many as needed. -/
theorem exists_areUniform (ι : Type) : ∃ (Ω : Type) (_ : MeasurableSpace Ω) (μ : Measure Ω) (_ : IsProbabilityMeasure μ)
    (X : ι → Ω → ℝ), AreUniform μ X := by
  refine ⟨ι → ℝ, inferInstance, Measure.infinitePi fun _ => unitLaw, inferInstance, fun i ω => ω i, fun i => ?_, ?_⟩
  · rw [isUniform_iff]
    refine ⟨measurable_pi_apply i, ?_⟩
    exact Measure.infinitePi_map_eval _ i
  · exact iIndepFun_infinitePi (P := fun _ => unitLaw) (X := fun _ x => x) fun i => measurable_id

/-- Anything computed from each draw is again a repeated draw. -/
theorem AreDraws.comp {ι β γ : Type*} [MeasurableSpace β] [MeasurableSpace γ] {μ : Measure Ω} {X : ι → Ω → β} {law : Measure β}
    (h : AreDraws μ X law) {f : β → γ} (hf : Measurable f) : AreDraws μ (fun s ω => f (X s ω)) (law.map f) where
  measurable s := hf.comp (h.measurable s)
  chance s A hA := by
    rw [Measure.map_apply hf hA]
    exact h.chance s _ (hf hA)
  independent := h.independent.comp (fun _ => f) fun _ => hf

/-- There are draws of any law, as many as needed. -/
theorem exists_areDraws (ι : Type) {β : Type} [MeasurableSpace β] (law : Measure β) [IsProbabilityMeasure law] :
    ∃ (Ω : Type) (_ : MeasurableSpace Ω) (μ : Measure Ω) (_ : IsProbabilityMeasure μ) (X : ι → Ω → β), AreDraws μ X law := by
  refine ⟨ι → β, inferInstance, Measure.infinitePi fun _ => law, inferInstance, fun i ω => ω i, ⟨measurable_pi_apply, ?_, ?_⟩⟩
  · intro i A hA
    have := Measure.infinitePi_map_eval (fun _ : ι => law) i
    conv_rhs => rw [← this]
    rw [Measure.map_apply (measurable_pi_apply i) hA]
    rfl
  · exact iIndepFun_infinitePi (P := fun _ => law) (X := fun _ x => x) fun i => measurable_id

end Verif.Spec
