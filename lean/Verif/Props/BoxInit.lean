import Verif.Model.Box

/-!
# C119: box size and centre of a new catalog
-/

namespace Verif.Props.BoxInit

open Verif Verif.Model

variable {ρ : Type}

/-! ### Specification -/

/-- The vector meant by a number or a 3-vector. -/
def Means : SizeArg → V3 ℝ → Prop
  | .none, _ => False
  | .scalar a, v => v.x = a ∧ v.y = a ∧ v.z = a
  | .vec w, v => v = w

/-- Default value of the argument `boxcenter`. -/
def defaultCenter : SizeArg := .scalar 0

/-- Default value of the argument `boxsize`, and entries missing in `attrs`. -/
def missing : SizeArg := .none

theorem means_iff {a : SizeArg} {v : V3 ℝ} : Means a v ↔ a.toVec = some v := by
  cases a with
  | none => simp [Means, SizeArg.toVec]
  | scalar a =>
    simp only [Means, SizeArg.toVec, V3.const, Option.some.injEq]
    constructor
    · rintro ⟨h1, h2, h3⟩
      cases v; simp_all
    · rintro rfl; exact ⟨rfl, rfl, rfl⟩
  | vec w =>
    simp only [Means, SizeArg.toVec, Option.some.injEq]
    exact eq_comm

/-! ### Theorems -/

/-- C119. The box size and centre given as arguments are those of the catalog, whatever `attrs`. Rows are those given. -/
theorem C119_arguments (rows : List (Row ρ)) {size center : SizeArg} {v c : V3 ℝ} (hs : Means size v) (hc : Means center c)
    (attrsSize attrsCenter : SizeArg) : Box.fromDict rows size center attrsSize attrsCenter = .ok ⟨v, c, rows⟩ := by
  rw [means_iff] at hs hc
  simp [Box.fromDict, hs, hc]

/-- C119. Without argument, the box size is that of `attrs`, and the constructor raises if there is none. -/
theorem C119_size (rows : List (Row ρ)) (center : SizeArg) (attrsCenter : SizeArg) :
    (∀ attrsSize v, Means attrsSize v → ∃ c, Box.fromDict rows missing center attrsSize attrsCenter = .ok ⟨v, c, rows⟩) ∧
    Box.fromDict rows missing center missing attrsCenter = .error .valueError := by
  refine ⟨?_, rfl⟩
  intro attrsSize v hv
  rw [means_iff] at hv
  have hm : missing.toVec = Option.none := rfl
  simp [Box.fromDict, hm, hv]

/-- C119. The box centre is that of `attrs` if the argument is `None`, zero if there is none. -/
theorem C119_center_partial (rows : List (Row ρ)) {size : SizeArg} {v : V3 ℝ} (hs : Means size v) (attrsSize : SizeArg) :
    (∀ attrsCenter c, Means attrsCenter c → Box.fromDict rows size .none attrsSize attrsCenter = .ok ⟨v, c, rows⟩) ∧
    Box.fromDict rows size .none attrsSize missing = .ok ⟨v, ⟨0, 0, 0⟩, rows⟩ := by
  rw [means_iff] at hs
  have hn : SizeArg.none.toVec = Option.none := rfl
  refine ⟨?_, by simp [Box.fromDict, hs, missing, hn, V3.const]⟩
  intro attrsCenter c hc
  rw [means_iff] at hc
  simp [Box.fromDict, hs, hc, hn]

/-- C119 violated: with default arguments the box size is that of `attrs` and the box centre is not, for each centre of `attrs` other
than zero. -/
theorem C119_center_violated (rows : List (Row ρ)) {attrsSize attrsCenter : SizeArg} {v c : V3 ℝ} (hs : Means attrsSize v)
    (hc : Means attrsCenter c) (h0 : c ≠ ⟨0, 0, 0⟩) :
    ∃ b, Box.fromDict rows missing defaultCenter attrsSize attrsCenter = .ok b ∧ b.boxsize = v ∧ b.boxcenter ≠ c := by
  rw [means_iff] at hs
  refine ⟨⟨v, ⟨0, 0, 0⟩, rows⟩, ?_, rfl, h0.symm⟩
  have hm : missing.toVec = Option.none := rfl
  have hd : defaultCenter.toVec = some ⟨0, 0, 0⟩ := rfl
  simp [Box.fromDict, hs, hm, hd]

/-- The hypotheses are met. -/
example : Means (.scalar 100) ⟨100, 100, 100⟩ ∧ Means (.vec ⟨1, 2, 3⟩) ⟨1, 2, 3⟩ ∧ (⟨1, 2, 3⟩ : V3 ℝ) ≠ ⟨0, 0, 0⟩ := by
  refine ⟨⟨rfl, rfl, rfl⟩, rfl, by simp⟩

end Verif.Props.BoxInit
