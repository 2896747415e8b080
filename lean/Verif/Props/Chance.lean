import Verif.Spec.Draws
import Verif.Props.Mask
import Mathlib.MeasureTheory.Integral.Bochner.Basic
import Mathlib.Probability.Independence.Integration
import Mathlib.Probability.Moments.Variance

/-!
# C100: chances of selection by masks

With independent uniform draws, each row is kept with its own probability, independently of the others, so that the numbers of rows
that are expected are sums of probabilities.
-/

namespace Verif.Props.Chance

open Verif Verif.Model Verif.Spec MeasureTheory ProbabilityTheory

variable {Ω : Type*} [MeasurableSpace Ω] {μ : Measure Ω}

/-- The chance of a draw below `p`. -/
theorem uniform_le {X : Ω → ℝ} (h : IsUniform μ X) (p : ℝ) : μ {ω | X ω ≤ p} = ENNReal.ofReal (max 0 (min p 1)) := by
  have := h.2 (Set.Iic p) measurableSet_Iic
  simp only [Set.mem_Iic] at this
  rw [this]
  rcases lt_or_ge p 0 with hp | hp
  · have e : Set.Iic p ∩ Set.Ico 0 1 = ∅ := by
      ext x; simp only [Set.mem_inter_iff, Set.mem_Iic, Set.mem_Ico, Set.mem_empty_iff_false, iff_false]; intro h; linarith [h.1, h.2.1]
    rw [e]
    have : max 0 (min p 1) = 0 := max_eq_left ((min_le_left _ _).trans hp.le)
    simp [this]
  · rcases lt_or_ge p 1 with h1 | h1
    · have e : Set.Iic p ∩ Set.Ico 0 1 = Set.Icc 0 p := by
        ext x; simp only [Set.mem_inter_iff, Set.mem_Iic, Set.mem_Ico, Set.mem_Icc]
        constructor
        · intro h; exact ⟨h.2.1, h.1⟩
        · intro h; exact ⟨h.2, h.1, lt_of_le_of_lt h.2 h1⟩
      rw [e, Real.volume_Icc, sub_zero, min_eq_left h1.le, max_eq_right hp]
    · have e : Set.Iic p ∩ Set.Ico 0 1 = Set.Ico 0 1 := by
        ext x; simp only [Set.mem_inter_iff, Set.mem_Iic, Set.mem_Ico]
        constructor
        · intro h; exact h.2
        · intro h; exact ⟨h.2.le.trans h1, h⟩
      rw [e, Real.volume_Ico, min_eq_right h1]
      norm_num

theorem uniform_gt [IsProbabilityMeasure μ] {X : Ω → ℝ} (h : IsUniform μ X) (p : ℝ) :
    μ {ω | p < X ω} = ENNReal.ofReal (1 - max 0 (min p 1)) := by
  have hm : MeasurableSet {ω | X ω ≤ p} := h.1 measurableSet_Iic
  have : {ω | p < X ω} = {ω | X ω ≤ p}ᶜ := by ext; simp
  rw [this, prob_compl_eq_one_sub hm, uniform_le h, ← ENNReal.ofReal_one, ENNReal.ofReal_sub _ (le_max_left _ _)]

/-- The chance that a row of probability `p` is kept (`true`) or not. -/
noncomputable def chance (p : ℝ) (keep : Bool) : ℝ := if keep then max 0 (min p 1) else 1 - max 0 (min p 1)

/-- C100. Each row is kept with its own probability, independently of the others: the chance that a catalog of `n` rows is selected as
`m` says is the product of the probabilities of the rows that are kept and of the complements for the others. -/
theorem C100_pattern [IsProbabilityMeasure μ] {n : ℕ} {u : Fin n → Ω → ℝ} (hu : AreUniform μ u) (prob : Fin n → ℝ) (m : Fin n → Bool) :
    μ {ω | maskCall (List.ofFn prob) (List.ofFn fun i => u i ω) = List.ofFn m} = ∏ i, ENNReal.ofReal (chance (prob i) (m i)) := by
  have hset : {ω | maskCall (List.ofFn prob) (List.ofFn fun i => u i ω) = List.ofFn m} =
      ⋂ i ∈ (Finset.univ : Finset (Fin n)), u i ⁻¹' (if m i then Set.Iic (prob i) else Set.Ioi (prob i)) := by
    ext ω
    simp only [Set.mem_ofPred_eq, Set.mem_iInter, Finset.mem_univ, true_implies, Set.mem_preimage]
    unfold maskCall
    constructor
    · intro h i
      have := congrArg (fun l => l[(i : ℕ)]?) h
      simp only [List.getElem?_zipWith, List.getElem?_ofFn, i.2, dif_pos, Option.some.injEq] at this
      cases hm : m i
      · simp only [hm, decide_eq_false_iff_not, not_le] at this
        simpa using this
      · simp only [hm, decide_eq_true_eq] at this
        simpa using this
    · intro h
      apply List.ext_getElem
      · simp
      · intro k h1 h2
        have hk : k < n := by simpa using h2
        have := h ⟨k, hk⟩
        simp only [List.getElem_zipWith, List.getElem_ofFn]
        cases hm : m ⟨k, hk⟩
        · simpa [hm] using this
        · simpa [hm] using this
  rw [hset, (iIndepFun_iff_measure_inter_preimage_eq_mul.1 hu.2) Finset.univ]
  · apply Finset.prod_congr rfl
    intro i _
    unfold chance
    cases hm : m i
    · simp only [Bool.false_eq_true, if_false]
      exact uniform_gt (hu.1 i) (prob i)
    · simp only [if_true]
      exact uniform_le (hu.1 i) (prob i)
  · intro i _
    split
    · exact measurableSet_Iic
    · exact measurableSet_Ioi

/-- C100. A row is kept with its probability. -/
theorem C100_row {prob : List ℝ} {i : ℕ} {p : ℝ} (hp : prob[i]? = some p) {u : Ω → List ℝ} {X : Ω → ℝ} (hX : ∀ ω, (u ω)[i]? = some (X ω))
    (h : IsUniform μ X) : μ {ω | (maskCall prob (u ω))[i]? = some true} = ENNReal.ofReal (max 0 (min p 1)) := by
  rw [← uniform_le h]
  congr 1
  ext ω
  simp [maskCall, List.getElem?_zipWith, hp, hX]

theorem integral_indicator_le [IsProbabilityMeasure μ] {X : Ω → ℝ} (h : IsUniform μ X) (p : ℝ) :
    ∫ ω, (if X ω ≤ p then (1 : ℝ) else 0) ∂μ = max 0 (min p 1) := by
  have hm : MeasurableSet {ω | X ω ≤ p} := h.1 measurableSet_Iic
  have : (fun ω => if X ω ≤ p then (1 : ℝ) else 0) = Set.indicator {ω | X ω ≤ p} 1 := by
    ext ω; simp [Set.indicator]
  rw [this, integral_indicator_one hm, Measure.real, uniform_le h, ENNReal.toReal_ofReal (le_max_left _ _)]

theorem sum_pick {α : Type} (f : α → ℝ) : ∀ (n : ℕ) (rows : Fin n → α) (mask : Fin n → Bool),
    ((pick (List.ofFn rows) (List.ofFn mask)).map f).sum = ∑ i, if mask i then f (rows i) else 0
  | 0, _, _ => by simp [pick]
  | n + 1, rows, mask => by
    have ih := sum_pick f n (fun i => rows i.succ) (fun i => mask i.succ)
    unfold pick at ih ⊢
    rw [List.ofFn_succ, List.ofFn_succ, List.zip_cons_cons, Fin.sum_univ_succ, ← ih, List.filter_cons]
    cases mask 0 <;> simp

theorem maskCall_ofFn {n : ℕ} (prob u : Fin n → ℝ) :
    maskCall (List.ofFn prob) (List.ofFn u) = List.ofFn fun i => decide (u i ≤ prob i) := by
  unfold maskCall
  apply List.ext_getElem
  · simp
  · intro k h1 h2
    simp

theorem integrable_indicator_le [IsProbabilityMeasure μ] {X : Ω → ℝ} (h : IsUniform μ X) (p c : ℝ) :
    Integrable (fun ω => if X ω ≤ p then c else 0) μ := by
  have hm : MeasurableSet {ω | X ω ≤ p} := h.1 measurableSet_Iic
  have : (fun ω => if X ω ≤ p then c else 0) = Set.indicator {ω | X ω ≤ p} fun _ => c := by
    ext ω; simp [Set.indicator]
  rw [this]
  exact (integrable_const c).indicator hm

/-- C100. The expected sum of any quantity over the rows that are kept is the sum over all rows, weighted with probabilities: with `f`
one, the expected number of rows, with `f` one in some region, that in the region. Draws may depend on each other. -/
theorem C100_expected [IsProbabilityMeasure μ] {α : Type} {n : ℕ} {u : Fin n → Ω → ℝ} (hu : ∀ i, IsUniform μ (u i)) (prob : Fin n → ℝ)
    (rows : Fin n → α) (f : α → ℝ) :
    ∫ ω, ((pick (List.ofFn rows) (maskCall (List.ofFn prob) (List.ofFn fun i => u i ω))).map f).sum ∂μ =
      ∑ i, max 0 (min (prob i) 1) * f (rows i) := by
  simp only [maskCall_ofFn, sum_pick, decide_eq_true_eq]
  rw [integral_finsetSum _ fun i _ => integrable_indicator_le (hu i) _ _]
  apply Finset.sum_congr rfl
  intro i _
  rw [← integral_indicator_le (hu i) (prob i), ← integral_mul_const]
  congr 1
  ext ω
  split <;> simp

/-- C100. In particular the expected number of rows. -/
theorem C100_number [IsProbabilityMeasure μ] {α : Type} {n : ℕ} {u : Fin n → Ω → ℝ} (hu : ∀ i, IsUniform μ (u i)) (prob : Fin n → ℝ)
    (rows : Fin n → α) :
    ∫ ω, ((pick (List.ofFn rows) (maskCall (List.ofFn prob) (List.ofFn fun i => u i ω))).length : ℝ) ∂μ =
      ∑ i, max 0 (min (prob i) 1) := by
  have := C100_expected hu prob rows fun _ => 1
  simpa using this

/-- C100. The number of rows scatters around the expected one with the variance of independent choices. -/
theorem C100_scatter [IsProbabilityMeasure μ] {α : Type} {n : ℕ} {u : Fin n → Ω → ℝ} (hu : AreUniform μ u) (prob : Fin n → ℝ)
    (rows : Fin n → α) :
    ∫ ω, (((pick (List.ofFn rows) (maskCall (List.ofFn prob) (List.ofFn fun i => u i ω))).length : ℝ) - ∑ i, max 0 (min (prob i) 1)) ^ 2 ∂μ =
      ∑ i, max 0 (min (prob i) 1) * (1 - max 0 (min (prob i) 1)) := by
  set X : Fin n → Ω → ℝ := fun i ω => if u i ω ≤ prob i then 1 else 0 with hX
  have hlen : ∀ ω, ((pick (List.ofFn rows) (maskCall (List.ofFn prob) (List.ofFn fun i => u i ω))).length : ℝ) = ∑ i, X i ω := by
    intro ω
    have := sum_pick (fun _ => 1) n rows (fun i => decide (u i ω ≤ prob i))
    rw [maskCall_ofFn]
    simpa [X] using this
  have hmean : ∀ i, ∫ ω, X i ω ∂μ = max 0 (min (prob i) 1) := fun i => integral_indicator_le (hu.1 i) _
  have hmeas : ∀ i, Measurable (X i) := fun i =>
    Measurable.ite (hu.1 i |>.1 measurableSet_Iic) measurable_const measurable_const
  have hL2 : ∀ i, MemLp (X i) 2 μ := fun i => by
    apply MemLp.of_bound (hmeas i).aestronglyMeasurable 1
    filter_upwards with ω
    simp only [X]
    split <;> simp
  have hind : iIndepFun X μ := hu.2.comp (fun i x => if x ≤ prob i then (1 : ℝ) else 0)
    fun i => Measurable.ite measurableSet_Iic measurable_const measurable_const
  have hvar : variance (fun ω => ∑ i, X i ω) μ = ∑ i, variance (X i) μ := by
    have := IndepFun.variance_sum (s := Finset.univ) (X := X) (fun i _ => hL2 i) fun i _ j _ hij => hind.indepFun hij
    rw [← this]
    congr 1
    ext ω
    simp
  have hi : ∫ ω, ∑ i, X i ω ∂μ = ∑ i, max 0 (min (prob i) 1) := by
    rw [integral_finsetSum _ fun i _ => (hL2 i).integrable (by norm_num)]
    exact Finset.sum_congr rfl fun i _ => hmean i
  simp only [hlen]
  rw [← hi, ← variance_eq_integral (Measurable.aemeasurable (by fun_prop)), hvar]
  apply Finset.sum_congr rfl
  intro i _
  rw [variance_eq_sub (hL2 i), hmean i]
  have : (X i) ^ 2 = X i := by
    ext ω
    simp only [X, Pi.pow_apply]
    split <;> simp
  rw [this, hmean i]
  ring

theorem zipWith_and_ofFn {n : ℕ} (a b : Fin n → Bool) :
    List.zipWith (· && ·) (List.ofFn a) (List.ofFn b) = List.ofFn fun i => a i && b i := by
  apply List.ext_getElem
  · simp
  · intro k h1 h2
    simp

/-- C100. With a radial and an angular mask, whose draws for one row are independent, the expected sum of any quantity over the rows
of the cut-sky catalog is the sum over all rows of the box, each weighted with the product of the probabilities of the two masks at its
distance and direction. -/
theorem C100_cutsky [IsProbabilityMeasure μ] {ρ : Type} (b : Box ρ) (iso : Isom) (rdd : Rdd) (pr : ℝ → ℝ) (pa : ℝ → Option ℝ → ℝ)
    {n : ℕ} (rows : Fin n → Row ρ) (hb : b.rows = List.ofFn rows) {u v : Fin n → Ω → ℝ} (hu : ∀ i, IsUniform μ (u i))
    (hv : ∀ i, IsUniform μ (v i)) (huv : ∀ i, IndepFun (u i) (v i) μ) (f : SkyRow ρ → ℝ) :
    ∫ ω, ((cutskyFromIsometry b iso (some ⟨pr, List.ofFn fun i => u i ω⟩) (some ⟨pa, List.ofFn fun i => v i ω⟩) rdd).map f).sum ∂μ =
      ∑ i, max 0 (min (pr (cartesianToSky ((rows i).transform iso).pos).dist) 1) *
        max 0 (min (pa (cartesianToSky ((rows i).transform iso).pos).ra (cartesianToSky ((rows i).transform iso).pos).dec) 1) *
        f (skyRow iso rdd (rows i)).1 := by
  have hsky : ∀ i, (skyRow iso rdd (rows i)).2 = cartesianToSky ((rows i).transform iso).pos := fun i => rfl
  simp only [← hsky]
  unfold cutskyFromIsometry
  simp only [hb, List.map_ofFn, maskCall_ofFn, zipWith_and_ofFn, sum_pick, Bool.and_eq_true, decide_eq_true_eq, Function.comp_def]
  have hmu : ∀ i p, Measurable fun ω => if u i ω ≤ p then (1 : ℝ) else 0 := fun i p =>
    Measurable.ite ((hu i).1 measurableSet_Iic) measurable_const measurable_const
  have hmv : ∀ i p, Measurable fun ω => if v i ω ≤ p then (1 : ℝ) else 0 := fun i p =>
    Measurable.ite ((hv i).1 measurableSet_Iic) measurable_const measurable_const
  have hprod : ∀ i p q (c : ℝ), (fun ω => if u i ω ≤ p ∧ v i ω ≤ q then c else 0) =
      fun ω => (if u i ω ≤ p then (1 : ℝ) else 0) * (if v i ω ≤ q then (1 : ℝ) else 0) * c := by
    intro i p q c
    ext ω
    by_cases h1 : u i ω ≤ p <;> by_cases h2 : v i ω ≤ q <;> simp [h1, h2]
  have hind : ∀ i p q, IndepFun (fun ω => if u i ω ≤ p then (1 : ℝ) else 0) (fun ω => if v i ω ≤ q then (1 : ℝ) else 0) μ :=
    fun i p q => (huv i).comp (φ := fun x => if x ≤ p then (1 : ℝ) else 0) (ψ := fun x => if x ≤ q then (1 : ℝ) else 0)
      (Measurable.ite measurableSet_Iic measurable_const measurable_const)
      (Measurable.ite measurableSet_Iic measurable_const measurable_const)
  have hint : ∀ i p q (c : ℝ), Integrable (fun ω => if u i ω ≤ p ∧ v i ω ≤ q then c else 0) μ := by
    intro i p q c
    rw [hprod]
    exact ((hind i p q).integrable_mul (integrable_indicator_le (hu i) p 1) (integrable_indicator_le (hv i) q 1)).mul_const c
  rw [integral_finsetSum _ fun i _ => hint i _ _ _]
  apply Finset.sum_congr rfl
  intro i _
  rw [hprod, integral_mul_const]
  congr 1
  have := (hind i (pr (skyRow iso rdd (rows i)).2.dist) (pa (skyRow iso rdd (rows i)).2.ra (skyRow iso rdd (rows i)).2.dec)).integral_fun_mul_eq_mul_integral
    (hmu i _).aestronglyMeasurable (hmv i _).aestronglyMeasurable
  rw [this, integral_indicator_le (hu i), integral_indicator_le (hv i)]

/-- C100, not vacuous: there are such draws, for any number of rows; with probability 1/2 for each of ten rows, five are expected. -/
example : ∃ (Ω : Type) (_ : MeasurableSpace Ω) (μ : Measure Ω) (_ : IsProbabilityMeasure μ) (u : Fin 10 → Ω → ℝ), AreUniform μ u ∧
    ∫ ω, ((pick (List.ofFn fun i : Fin 10 => i) (maskCall (List.ofFn fun _ : Fin 10 => 1 / 2) (List.ofFn fun i => u i ω))).length : ℝ) ∂μ = 5 := by
  obtain ⟨Ω, _, μ, _, u, hu⟩ := exists_areUniform (Fin 10)
  refine ⟨Ω, _, μ, ‹_›, u, hu, ?_⟩
  rw [C100_number hu.1]
  norm_num

/-- Same for `C100_cutsky`: draws of the two masks that are independent of each other. -/
example (n : ℕ) : ∃ (Ω : Type) (_ : MeasurableSpace Ω) (μ : Measure Ω) (_ : IsProbabilityMeasure μ) (u v : Fin n → Ω → ℝ),
    (∀ i, IsUniform μ (u i)) ∧ (∀ i, IsUniform μ (v i)) ∧ ∀ i, IndepFun (u i) (v i) μ := by
  obtain ⟨Ω, _, μ, _, u, hu⟩ := exists_areUniform (Fin n ⊕ Fin n)
  exact ⟨Ω, _, μ, ‹_›, fun i => u (.inl i), fun i => u (.inr i), fun i => hu.1 _, fun i => hu.1 _, fun i => hu.2.indepFun (by simp)⟩

end Verif.Props.Chance
