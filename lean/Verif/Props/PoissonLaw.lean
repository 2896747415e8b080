import Verif.Spec.Draws
import Verif.Props.Poisson
import Mathlib.Data.List.Indexes
import Mathlib.Probability.Distributions.Poisson.Basic
import Mathlib.Probability.Independence.CharacteristicFunction
import Mathlib.Probability.Independence.InfinitePi
import Mathlib.Probability.Independence.Integration
import Mathlib.MeasureTheory.Measure.Lebesgue.EqHaar
import Mathlib.MeasureTheory.Function.Floor

/-!
# C105: Poisson sampling gives a Poisson process

With Poisson counts and uniform positions within cells, the catalog of `poisson_sample` is a Poisson process: the numbers of particles
in disjoint regions, of any shape, are independent, and each follows a Poisson law, the mean of which is the integral of the density
over the region.
-/

namespace Verif.Props.PoissonLaw

open Verif Verif.Model Verif.Spec Verif.Props Verif.Lemmas.Mesh MeasureTheory ProbabilityTheory

variable {Ω : Type*} [MeasurableSpace Ω] {μ : Measure Ω}

/-! ### Specification -/

/-- Independent draws of Poisson laws. -/
structure ArePoisson {ι : Type*} (μ : Measure Ω) (N : ι → Ω → ℕ) (mean : ι → ℝ) : Prop where
  measurable : ∀ i, Measurable (N i)
  chance : ∀ i n, μ {ω | N i ω = n} = ENNReal.ofReal (Real.exp (-mean i) * mean i ^ n / n.factorial)
  independent : iIndepFun N μ

/-- The density of objects is (1 + delta) nbar of the node in the cell of each node; its integral over a region. -/
noncomputable def expected (M : Mesh) (s : M.Fields) (A : Set (Fin 3 → ℝ)) : ℝ :=
  ∑ i, (1 + s.delta i) * s.nbarAt i * (volume (A ∩ {p | InCell M i p})).toReal

open Classical in
/-- Number of positions in a region. -/
noncomputable def number (A : Set (Fin 3 → ℝ)) (ps : List (Fin 3 → ℝ)) : ℕ := ps.countP fun p => decide (p ∈ A)

/-! ### Uniform draws three by three -/

/-- The law of three uniform draws. -/
noncomputable def cubeLaw : Measure (Fin 3 → ℝ) := Measure.pi fun _ => unitLaw

instance : IsProbabilityMeasure cubeLaw := by unfold cubeLaw; infer_instance

theorem triples [IsProbabilityMeasure μ] {U : ℕ × Fin 3 → Ω → ℝ} (hU : AreUniform μ U) :
    AreDraws μ (fun (j : ℕ) ω (d : Fin 3) => U (j, d) ω) cubeLaw := by
  have hm : ∀ q, Measurable (U q) := fun q => (hU.1 q).1
  have hlaw : ∀ q, μ.map (U q) = unitLaw := fun q => (isUniform_iff.1 (hU.1 q)).2
  have h1 : μ.map (fun ω q => U q ω) = Measure.infinitePi fun _ : ℕ × Fin 3 => unitLaw := by
    rw [(iIndepFun_iff_map_fun_eq_infinitePi_map (by fun_prop)).1 hU.2]
    simp only [hlaw]
  have h2 : μ.map (fun ω (j : ℕ) (d : Fin 3) => U (j, d) ω) = Measure.infinitePi fun _ : ℕ => Measure.infinitePi fun _ : Fin 3 => unitLaw := by
    rw [← Measure.infinitePi_map_curry (fun _ _ => unitLaw), ← h1, Measure.map_map (by fun_prop) (by fun_prop)]
    rfl
  have h3 : ∀ j : ℕ, μ.map (fun ω (d : Fin 3) => U (j, d) ω) = Measure.infinitePi fun _ : Fin 3 => unitLaw := by
    intro j
    rw [← Measure.infinitePi_map_eval (fun _ : ℕ => Measure.infinitePi fun _ : Fin 3 => unitLaw) j, ← h2,
      Measure.map_map (by fun_prop) (by fun_prop)]
    rfl
  refine ⟨fun j => by fun_prop, fun j A hA => ?_, ?_⟩
  · unfold cubeLaw
    rw [← Measure.infinitePi_eq_pi, ← h3 j, Measure.map_apply (by fun_prop) hA]
    rfl
  · rw [iIndepFun_iff_map_fun_eq_infinitePi_map (by fun_prop), h2]
    simp only [h3]

theorem draws_map {ι β : Type*} [MeasurableSpace β] {X : ι → Ω → β} {law : Measure β} (h : AreDraws μ X law) (i : ι) :
    μ.map (X i) = law := by
  ext A hA
  rw [Measure.map_apply (h.measurable i) hA]
  exact h.chance i A hA

/-! ### Positions in cells -/

variable (M : Mesh)

/-- Position in the cell of a node, given three draws. -/
noncomputable def pos (i : M.Idx) (u : Fin 3 → ℝ) : Fin 3 → ℝ := fun d =>
  M.cellCorner i d + (0 + (M.cell d - 0) * u d) + (M.boxcenter d - M.boxsize d / 2)

theorem measurable_pos (i : M.Idx) : Measurable (pos M i) := by
  unfold pos
  fun_prop

theorem dv_pos (hL : ∀ d, 0 < M.boxsize d) : 0 < M.dv := by
  unfold Mesh.dv Mesh.cell
  exact Finset.prod_pos fun d _ => div_pos (hL d) (n_pos' M d)

theorem cube_apply (S : Set (Fin 3 → ℝ)) (hS : MeasurableSet S) : cubeLaw S = volume (S ∩ Set.univ.pi fun _ => Set.Ico 0 1) := by
  unfold cubeLaw unitLaw
  rw [← Measure.restrict_pi_pi, Measure.restrict_apply hS]
  rfl

/-- The chance that a particle of the cell lies in a region. -/
theorem chance_cell (hL : ∀ d, 0 < M.boxsize d) (i : M.Idx) {A : Set (Fin 3 → ℝ)} (hA : MeasurableSet A) :
    cubeLaw (pos M i ⁻¹' A) = ENNReal.ofReal M.dv⁻¹ * volume (A ∩ {p | InCell M i p}) := by
  have hc : ∀ d, 0 < M.cell d := fun d => div_pos (hL d) (n_pos' M d)
  rw [cube_apply _ (measurable_pos M i hA)]
  have hset : pos M i ⁻¹' A ∩ (Set.univ.pi fun _ => Set.Ico 0 1) =
      Matrix.toLin' (Matrix.diagonal M.cell) ⁻¹' ((fun x => x + fun d => M.cellCorner i d + (M.boxcenter d - M.boxsize d / 2)) ⁻¹'
        (A ∩ {p | InCell M i p})) := by
    have hp : ∀ u, Matrix.toLin' (Matrix.diagonal M.cell) u + (fun d => M.cellCorner i d + (M.boxcenter d - M.boxsize d / 2)) = pos M i u := by
      intro u
      funext d
      rw [Pi.add_apply, Matrix.toLin'_apply, Matrix.mulVec_diagonal]
      unfold pos
      ring
    ext u
    rw [Set.mem_preimage, Set.mem_preimage, hp]
    simp only [Set.mem_inter_iff, Set.mem_preimage, Set.mem_ofPred_eq, Set.mem_pi, Set.mem_univ, true_implies, Set.mem_Ico]
    refine and_congr_right fun _ => forall_congr' fun d => ?_
    have h1 : pos M i u d = nodeAt M i d + M.cell d * u d := by
      unfold pos nodeAt Mesh.cellCorner Mesh.cell
      ring
    rw [h1]
    change _ ↔ _ ∧ _ < nodeAt M i d + M.cell d
    have := hc d
    constructor
    · rintro ⟨h2, h3⟩
      constructor <;> nlinarith
    · rintro ⟨h2, h3⟩
      constructor
      · by_contra h
        push Not at h
        nlinarith
      · by_contra h
        push Not at h
        nlinarith
  have hdet : LinearMap.det (Matrix.toLin' (Matrix.diagonal M.cell)) = M.dv := by
    rw [LinearMap.det_toLin', Matrix.det_diagonal]
    rfl
  rw [hset, Measure.addHaar_preimage_linearMap _ (by rw [hdet]; exact (dv_pos M hL).ne'), hdet, measure_preimage_add_right,
    abs_of_pos (inv_pos.2 (dv_pos M hL))]

/-! ### The catalog -/

/-- The catalog is made of a list of cells, that depends on the counts only, with one position each. -/
theorem sample_eq (s : M.Fields) (hs : ∀ i, 0 ≤ M.cellMean s i) {ranks : List (List M.Idx)} (hr : Decomposition M ranks) :
    ∃ l : (M.Idx → ℕ) → List M.Idx, (∀ c i, (l c).count i = c i) ∧
      ∀ c u, M.poissonSample s ranks c u = .ok ((l c).mapIdx fun j i => pos M i (u j)) := by
  refine ⟨fun c => (ranks.flatten.flatMap fun i => List.replicate (c i) i).mergeSort fun a b => decide (M.cellId a ≤ M.cellId b),
    fun c i => ?_, fun c u => ?_⟩
  · rw [(List.mergeSort_perm _ _).count_eq, List.count_flatMap, (hr.map _).sum_eq, Finset.sum_map_toList]
    simp [List.count_replicate]
  · unfold Mesh.poissonSample
    rw [if_neg (by push Not; exact hs)]
    unfold Mesh.mpsort
    have e : ranks.flatMap (M.repeated c) = (ranks.flatten.flatMap fun i => List.replicate (c i) i).map fun i => (M.cellId i, M.cellCorner i) := by
      rw [repeated_flatMap, List.map_flatMap]
      simp only [List.map_replicate]
    rw [e, ← List.map_mergeSort (r := fun a b => decide (M.cellId a ≤ M.cellId b)) (fun a _ b _ => rfl), List.map_map, List.mapIdx_eq_ofFn,
      List.mapIdx_eq_ofFn]
    congr 1
    apply List.ext_getElem
    · simp
    · intro j h1 h2
      simp only [List.getElem_ofFn, List.get_eq_getElem, List.getElem_map, Function.comp_apply]
      rfl

theorem prod_count {α : Type} [Fintype α] [DecidableEq α] (l : List α) (a : α → ℂ) : (l.map a).prod = ∏ i, a i ^ l.count i := by
  rw [Finset.prod_list_map_count]
  refine Finset.prod_subset (Finset.subset_univ _) fun i _ h => ?_
  rw [List.count_eq_zero_of_not_mem (by simpa using h), pow_zero]

theorem integral_pow_poisson [IsProbabilityMeasure μ] {N : Ω → ℕ} (hm : Measurable N) {m : ℝ} (h0 : 0 ≤ m)
    (hN : ∀ n, μ {ω | N ω = n} = ENNReal.ofReal (Real.exp (-m) * m ^ n / n.factorial)) (a : ℂ) :
    ∫ ω, a ^ N ω ∂μ = Complex.exp (m * (a - 1)) := by
  have hlaw : μ.map N = poissonMeasure m.toNNReal := by
    refine Measure.ext_of_singleton fun n => ?_
    rw [Measure.map_apply hm (measurableSet_singleton n), poissonMeasure_singleton, Real.coe_toNNReal m h0]
    exact hN n
  have : ∫ ω, a ^ N ω ∂μ = ∫ n, a ^ n ∂(μ.map N) := (integral_map hm.aemeasurable (by fun_prop)).symm
  rw [this, hlaw, integral_poissonMeasure]
  simp only [Real.coe_toNNReal m h0, Complex.real_smul]
  calc ∑' n : ℕ, ((Real.exp (-m) * m ^ n / n.factorial : ℝ) : ℂ) * a ^ n
      = ∑' n : ℕ, ((Real.exp (-m) : ℝ) : ℂ) * ((m * a) ^ n / n.factorial) := by
        congr with n
        push_cast
        rw [mul_pow]
        ring
    _ = ((Real.exp (-m) : ℝ) : ℂ) * ∑' n : ℕ, ((m * a) ^ n / n.factorial) := tsum_mul_left
    _ = ((Real.exp (-m) : ℝ) : ℂ) * Complex.exp (m * a) := by
        rw [(NormedSpace.expSeries_div_hasSum_exp (m * a)).tsum_eq, Complex.exp_eq_exp_ℂ]
    _ = Complex.exp (m * (a - 1)) := by
        rw [Complex.ofReal_exp, ← Complex.exp_add]
        push_cast
        ring_nf

section
variable {M}
variable [IsProbabilityMeasure μ] {N : M.Idx → Ω → ℕ} {U : ℕ × Fin 3 → Ω → ℝ} {m : M.Idx → ℝ}

/-- Product over particles of a function of their position, given counts. -/
noncomputable def prodOver (f : (Fin 3 → ℝ) → ℂ) (l : List M.Idx) (u : ℕ × Fin 3 → ℝ) : ℂ :=
  (l.mapIdx fun j i => f (pos M i fun d => u (j, d))).prod

theorem prodOver_eq (f : (Fin 3 → ℝ) → ℂ) (l : List M.Idx) (u : ℕ × Fin 3 → ℝ) :
    prodOver f l u = ∏ j : Fin l.length, f (pos M (l.get j) fun d => u (j, d)) := by
  unfold prodOver
  rw [List.mapIdx_eq_ofFn, List.prod_ofFn]

theorem measurable_prodOver {f : (Fin 3 → ℝ) → ℂ} (hf : Measurable f) (l : List M.Idx) : Measurable (prodOver f l) := by
  simp only [funext (prodOver_eq f l)]
  refine Finset.measurable_fun_prod _ fun j _ => hf.comp ((measurable_pos M _).comp (by fun_prop))

theorem norm_prodOver {f : (Fin 3 → ℝ) → ℂ} (h1 : ∀ x, ‖f x‖ ≤ 1) (l : List M.Idx) (u : ℕ × Fin 3 → ℝ) : ‖prodOver f l u‖ ≤ 1 := by
  rw [prodOver_eq, norm_prod]
  exact Finset.prod_le_one (fun _ _ => norm_nonneg _) fun _ _ => h1 _

/-- Given counts, positions are independent. -/
theorem given_counts (hU : AreUniform μ U) {f : (Fin 3 → ℝ) → ℂ} (hf : Measurable f) (l : List M.Idx) :
    ∫ ω, prodOver f l (fun q => U q ω) ∂μ = (l.map fun i => ∫ u, f (pos M i u) ∂cubeLaw).prod := by
  have ht := triples hU
  simp only [prodOver_eq]
  have hind : iIndepFun (fun (j : Fin l.length) ω (d : Fin 3) => U ((j : ℕ), d) ω) μ :=
    ht.independent.precomp (g := fun j : Fin l.length => (j : ℕ)) Fin.val_injective
  have := hind.integral_fun_prod_comp (f := fun j u => f (pos M (l.get j) u)) (fun j => (ht.measurable j).aemeasurable)
    (fun j => ((hf.comp (measurable_pos M _)).aestronglyMeasurable))
  rw [this]
  have e : ∀ j : Fin l.length, ∫ ω, f (pos M (l.get j) fun d => U ((j : ℕ), d) ω) ∂μ = ∫ u, f (pos M (l.get j) u) ∂cubeLaw := by
    intro j
    have h := integral_map (μ := μ) (f := fun u => f (pos M (l.get j) u)) (ht.measurable j).aemeasurable
      (hf.comp (measurable_pos M _)).aestronglyMeasurable
    rw [← h, draws_map ht j]
  simp only [e]
  rw [← List.prod_ofFn]
  congr 1
  conv_rhs => rw [← List.ofFn_get l, List.map_ofFn]
  rfl

/-- Generating functional of the catalog. -/
theorem generating (hN : ArePoisson μ N m) (hm : ∀ i, 0 ≤ m i) (hU : AreUniform μ U) (hNU : IndepFun (fun ω i => N i ω) (fun ω q => U q ω) μ)
    {l : (M.Idx → ℕ) → List M.Idx} (hl : ∀ c i, (l c).count i = c i) {f : (Fin 3 → ℝ) → ℂ} (hf : Measurable f) (h1 : ∀ x, ‖f x‖ ≤ 1) :
    ∫ ω, prodOver f (l fun i => N i ω) (fun q => U q ω) ∂μ =
      Complex.exp (∑ i, m i * ((∫ u, f (pos M i u) ∂cubeLaw) - 1)) := by
  have mN : Measurable fun ω i => N i ω := measurable_pi_lambda _ hN.measurable
  have mU : Measurable fun ω q => U q ω := measurable_pi_lambda _ fun q => (hU.1 q).1
  have hG : Measurable fun x : (M.Idx → ℕ) × (ℕ × Fin 3 → ℝ) => prodOver f (l x.1) x.2 :=
    measurable_from_prod_countable_right fun c => measurable_prodOver hf (l c)
  have h := (indepFun_iff_map_prod_eq_prod_map_map mN.aemeasurable mU.aemeasurable).1 hNU
  have e1 : ∫ ω, prodOver f (l fun i => N i ω) (fun q => U q ω) ∂μ =
      ∫ x : (M.Idx → ℕ) × (ℕ × Fin 3 → ℝ), prodOver f (l x.1) x.2 ∂(μ.map fun ω => (fun i => N i ω, fun q => U q ω)) :=
    (integral_map (mN.prodMk mU).aemeasurable hG.aestronglyMeasurable).symm
  have hI : Integrable (fun x : (M.Idx → ℕ) × (ℕ × Fin 3 → ℝ) => prodOver f (l x.1) x.2)
      ((μ.map fun ω i => N i ω).prod (μ.map fun ω q => U q ω)) := by
    have : IsProbabilityMeasure (μ.map fun ω i => N i ω) := Measure.isProbabilityMeasure_map mN.aemeasurable
    have : IsProbabilityMeasure (μ.map fun ω q => U q ω) := Measure.isProbabilityMeasure_map mU.aemeasurable
    exact (integrable_const (1 : ℝ)).mono' hG.aestronglyMeasurable (Filter.Eventually.of_forall fun x => norm_prodOver h1 _ _)
  have : IsProbabilityMeasure (μ.map fun ω i => N i ω) := Measure.isProbabilityMeasure_map mN.aemeasurable
  have : IsProbabilityMeasure (μ.map fun ω q => U q ω) := Measure.isProbabilityMeasure_map mU.aemeasurable
  rw [e1, h, integral_prod _ hI]
  have e2 : ∀ c : M.Idx → ℕ, ∫ u, prodOver f (l c) u ∂(μ.map fun ω q => U q ω) = ∏ i, (∫ u, f (pos M i u) ∂cubeLaw) ^ c i := by
    intro c
    rw [integral_map mU.aemeasurable (measurable_prodOver hf _).aestronglyMeasurable, given_counts hU hf, prod_count]
    simp only [hl]
  simp only [e2]
  rw [integral_map mN.aemeasurable (by
    refine Measurable.aestronglyMeasurable ?_
    exact measurable_of_countable _)]
  rw [hN.independent.integral_fun_prod_comp (f := fun i n => (∫ u, f (pos M i u) ∂cubeLaw) ^ n) (fun i => (hN.measurable i).aemeasurable)
    (fun i => by fun_prop)]
  simp only [fun i => integral_pow_poisson (hN.measurable i) (hm i) (hN.chance i) (∫ u, f (pos M i u) ∂cubeLaw)]
  rw [← Complex.exp_sum]

/-! ### Numbers in regions -/

open Classical in
/-- A phase for each region. -/
noncomputable def phase {ι : Type*} [Fintype ι] (A : ι → Set (Fin 3 → ℝ)) (t : ι → ℝ) (x : Fin 3 → ℝ) : ℂ :=
  Complex.exp ((∑ a, if x ∈ A a then t a else 0 : ℝ) * Complex.I)

theorem phase_norm {ι : Type*} [Fintype ι] (A : ι → Set (Fin 3 → ℝ)) (t : ι → ℝ) (x : Fin 3 → ℝ) : ‖phase A t x‖ = 1 :=
  Complex.norm_exp_ofReal_mul_I _

theorem phase_measurable {ι : Type*} [Fintype ι] {A : ι → Set (Fin 3 → ℝ)} (hA : ∀ a, MeasurableSet (A a)) (t : ι → ℝ) :
    Measurable (phase A t) := by
  classical
  unfold phase
  have : Measurable fun x => ∑ a, if x ∈ A a then t a else 0 :=
    Finset.measurable_fun_sum _ fun a _ => Measurable.ite (hA a) measurable_const measurable_const
  fun_prop

open Classical in
theorem phase_eq {ι : Type*} [Fintype ι] {A : ι → Set (Fin 3 → ℝ)} (hd : Pairwise fun a b => Disjoint (A a) (A b)) (t : ι → ℝ)
    (x : Fin 3 → ℝ) : phase A t x = 1 + ∑ a, (A a).indicator (fun _ => Complex.exp (t a * Complex.I) - 1) x := by
  unfold phase
  by_cases h : ∃ a, x ∈ A a
  · obtain ⟨a, ha⟩ := h
    have hn : ∀ b, b ≠ a → x ∉ A b := fun b hb hx => (Set.disjoint_left.1 (hd hb)) hx ha
    rw [Finset.sum_eq_single a (fun b _ hb => if_neg (hn b hb)) (by simp), if_pos ha,
      Finset.sum_eq_single a (fun b _ hb => Set.indicator_of_notMem (hn b hb) _) (by simp), Set.indicator_of_mem ha]
    ring
  · push Not at h
    rw [Finset.sum_eq_zero fun a _ => if_neg (h a), Finset.sum_eq_zero fun a _ => Set.indicator_of_notMem (h a) _]
    simp

theorem prod_phase {ι : Type*} [Fintype ι] (A : ι → Set (Fin 3 → ℝ)) (t : ι → ℝ) (ps : List (Fin 3 → ℝ)) :
    (ps.map (phase A t)).prod = Complex.exp ((∑ a, t a * number (A a) ps : ℝ) * Complex.I) := by
  classical
  induction ps with
  | nil => simp [number]
  | cons p ps ih =>
    rw [List.map_cons, List.prod_cons, ih, phase, ← Complex.exp_add, ← add_mul, ← Complex.ofReal_add, ← Finset.sum_add_distrib]
    congr 3
    refine Finset.sum_congr rfl fun a _ => ?_
    unfold number
    rw [List.countP_cons]
    by_cases h : p ∈ A a
    · simp only [h, if_true, decide_true]
      push_cast
      ring
    · simp [h]

theorem integral_phase {ι : Type*} [Fintype ι] (hL : ∀ d, 0 < M.boxsize d) {A : ι → Set (Fin 3 → ℝ)} (hA : ∀ a, MeasurableSet (A a))
    (hd : Pairwise fun a b => Disjoint (A a) (A b)) (t : ι → ℝ) (i : M.Idx) :
    (∫ u, phase A t (pos M i u) ∂cubeLaw) - 1 =
      ∑ a, ((M.dv⁻¹ * (volume (A a ∩ {p | InCell M i p})).toReal : ℝ) : ℂ) * (Complex.exp (t a * Complex.I) - 1) := by
  have e : ∀ u, phase A t (pos M i u) = 1 + ∑ a, (pos M i ⁻¹' A a).indicator (fun _ => Complex.exp (t a * Complex.I) - 1) u := by
    intro u
    rw [phase_eq hd]
    rfl
  have hm : ∀ a, MeasurableSet (pos M i ⁻¹' A a) := fun a => measurable_pos M i (hA a)
  have hI : ∀ a, Integrable ((pos M i ⁻¹' A a).indicator fun _ => Complex.exp (t a * Complex.I) - 1) cubeLaw := fun a =>
    (integrable_const _).indicator (hm a)
  simp only [e]
  rw [integral_add (integrable_const _) (integrable_finsetSum _ fun a _ => hI a), integral_finsetSum _ fun a _ => hI a]
  simp only [integral_const, probReal_univ, one_smul, add_sub_cancel_left]
  refine Finset.sum_congr rfl fun a _ => ?_
  rw [integral_indicator_const _ (hm a), Measure.real, chance_cell M hL i (hA a), ENNReal.toReal_mul,
    ENNReal.toReal_ofReal (inv_nonneg.2 (dv_pos M hL).le), Complex.real_smul]

variable {s : M.Fields} {l : (M.Idx → ℕ) → List M.Idx}

/-- The catalog. -/
noncomputable def catalog (l : (M.Idx → ℕ) → List M.Idx) (N : M.Idx → Ω → ℕ) (U : ℕ × Fin 3 → Ω → ℝ) (ω : Ω) : List (Fin 3 → ℝ) :=
  (l fun i => N i ω).mapIdx fun j i => pos M i fun d => U (j, d) ω

/-- Joint characteristic function of the numbers of particles in disjoint regions. -/
theorem characteristic {ι : Type*} [Fintype ι] (hL : ∀ d, 0 < M.boxsize d) (hs : ∀ i, 0 ≤ M.cellMean s i)
    (hN : ArePoisson μ N (M.cellMean s)) (hU : AreUniform μ U) (hNU : IndepFun (fun ω i => N i ω) (fun ω q => U q ω) μ)
    (hl : ∀ c i, (l c).count i = c i) {A : ι → Set (Fin 3 → ℝ)} (hA : ∀ a, MeasurableSet (A a))
    (hd : Pairwise fun a b => Disjoint (A a) (A b)) (t : ι → ℝ) :
    ∫ ω, Complex.exp ((∑ a, t a * number (A a) (catalog l N U ω) : ℝ) * Complex.I) ∂μ =
      ∏ a, Complex.exp (expected M s (A a) * (Complex.exp (t a * Complex.I) - 1)) := by
  have h := generating hN hs hU hNU hl (phase_measurable hA t) fun x => (phase_norm A t x).le
  have e : ∀ ω, prodOver (phase A t) (l fun i => N i ω) (fun q => U q ω) =
      Complex.exp ((∑ a, t a * number (A a) (catalog l N U ω) : ℝ) * Complex.I) := by
    intro ω
    unfold prodOver
    rw [← prod_phase, catalog, List.mapIdx_eq_ofFn, List.mapIdx_eq_ofFn, List.map_ofFn]
    rfl
  simp only [e] at h
  rw [h, ← Complex.exp_sum]
  congr 1
  simp only [integral_phase hL hA hd t, Finset.mul_sum]
  rw [Finset.sum_comm]
  refine Finset.sum_congr rfl fun a _ => ?_
  unfold expected
  push_cast
  rw [Finset.sum_mul]
  refine Finset.sum_congr rfl fun i _ => ?_
  have := (dv_pos M hL).ne'
  have h' : (M.dv : ℂ) ≠ 0 := by exact_mod_cast this
  unfold Mesh.cellMean
  push_cast
  field_simp

theorem expected_nonneg (hL : ∀ d, 0 < M.boxsize d) (hs : ∀ i, 0 ≤ M.cellMean s i) (A : Set (Fin 3 → ℝ)) : 0 ≤ expected M s A := by
  unfold expected
  refine Finset.sum_nonneg fun i _ => mul_nonneg ?_ ENNReal.toReal_nonneg
  have := hs i
  unfold Mesh.cellMean at this
  exact nonneg_of_mul_nonneg_left this (dv_pos M hL)

open Classical in
theorem number_eq (A : Set (Fin 3 → ℝ)) (ps : List (Fin 3 → ℝ)) : number A ps = (ps.map fun p => if p ∈ A then 1 else 0).sum := by
  induction ps with
  | nil => rfl
  | cons p ps ih =>
    rw [List.map_cons, List.sum_cons, ← ih]
    unfold number
    rw [List.countP_cons, add_comm]
    by_cases h : p ∈ A <;> simp [h]

omit [IsProbabilityMeasure μ] in
open Classical in
theorem measurable_number (hN : ArePoisson μ N (M.cellMean s)) (hU : AreUniform μ U) {A : Set (Fin 3 → ℝ)} (hA : MeasurableSet A) :
    Measurable fun ω => number A (catalog l N U ω) := by
  have mN : Measurable fun ω i => N i ω := measurable_pi_lambda _ hN.measurable
  have mU : Measurable fun ω q => U q ω := measurable_pi_lambda _ fun q => (hU.1 q).1
  have hG : Measurable fun x : (M.Idx → ℕ) × (ℕ × Fin 3 → ℝ) => number A ((l x.1).mapIdx fun j i => pos M i fun d => x.2 (j, d)) := by
    refine measurable_from_prod_countable_right fun c => ?_
    have : ∀ u : ℕ × Fin 3 → ℝ, number A ((l c).mapIdx fun j i => pos M i fun d => u (j, d)) =
        ∑ j : Fin (l c).length, if pos M ((l c).get j) (fun d => u ((j : ℕ), d)) ∈ A then 1 else 0 := by
      intro u
      rw [number_eq, List.mapIdx_eq_ofFn, List.map_ofFn, List.sum_ofFn]
      rfl
    simp only [this]
    exact Finset.measurable_fun_sum _ fun j _ => Measurable.ite (((measurable_pos M _).comp (by fun_prop)) hA) measurable_const
      measurable_const
  exact hG.comp (mN.prodMk mU)

/-- C105. If counts are independent Poisson draws of mean (1 + delta) nbar dv, and positions within cells independent uniform draws,
independent of counts, the catalog, on any number of ranks, is a Poisson process: in any disjoint regions, the numbers of particles are
independent, and each follows the Poisson law the mean of which is the integral of (1 + delta) nbar over the region. -/
theorem C105_process (hL : ∀ d, 0 < M.boxsize d) (hs : ∀ i, 0 ≤ M.cellMean s i) {ranks : List (List M.Idx)} (hr : Decomposition M ranks)
    (hN : ArePoisson μ N fun i => (1 + s.delta i) * s.nbarAt i * (M.boxsize 0 / M.n 0 * (M.boxsize 1 / M.n 1) * (M.boxsize 2 / M.n 2)))
    (hU : AreUniform μ U) (hNU : IndepFun (fun ω i => N i ω) (fun ω q => U q ω) μ) :
    ∃ ps : Ω → List (Fin 3 → ℝ), (∀ ω, M.poissonSample s ranks (fun i => N i ω) (fun j d => U (j, d) ω) = .ok (ps ω)) ∧
      ∀ (ι : Type) [Fintype ι] (A : ι → Set (Fin 3 → ℝ)), (∀ a, MeasurableSet (A a)) → (Pairwise fun a b => Disjoint (A a) (A b)) →
        ArePoisson μ (fun a ω => number (A a) (ps ω)) fun a => expected M s (A a) := by
  have hN' : ArePoisson μ N (M.cellMean s) := by
    have : M.cellMean s = fun i => (1 + s.delta i) * s.nbarAt i * (M.boxsize 0 / M.n 0 * (M.boxsize 1 / M.n 1) * (M.boxsize 2 / M.n 2)) := by
      funext i
      unfold Mesh.cellMean Mesh.dv Mesh.cell
      rw [Fin.prod_univ_three]
    rw [this]
    exact hN
  obtain ⟨l, hl, hps⟩ := sample_eq M s hs hr
  refine ⟨catalog l N U, fun ω => hps _ _, fun ι _ A hA hd => ?_⟩
  have hmeas : ∀ a, Measurable fun ω => number (A a) (catalog l N U ω) := fun a => measurable_number hN' hU (hA a)
  have hmr : ∀ a, Measurable fun ω => (number (A a) (catalog l N U ω) : ℝ) := fun a => measurable_from_nat.comp (hmeas a)
  have hlaw : ∀ a, μ.map (fun ω => (number (A a) (catalog l N U ω) : ℝ)) = (poissonMeasure (expected M s (A a)).toNNReal).map (Nat.cast : ℕ → ℝ) := by
    intro a
    have : IsProbabilityMeasure (μ.map fun ω => (number (A a) (catalog l N U ω) : ℝ)) := Measure.isProbabilityMeasure_map (hmr a).aemeasurable
    have : IsProbabilityMeasure ((poissonMeasure (expected M s (A a)).toNNReal).map (Nat.cast : ℕ → ℝ)) :=
      Measure.isProbabilityMeasure_map measurable_from_nat.aemeasurable
    refine Measure.ext_of_charFun (funext fun t => ?_)
    rw [charFun_map_cast_poissonMeasure, charFun_apply_real, integral_map (hmr a).aemeasurable (by fun_prop)]
    have h := characteristic (ι := Unit) hL hs hN' hU hNU hl (A := fun _ => A a) (fun _ => hA a) (fun x y h => absurd (Subsingleton.elim x y) h)
      fun _ => t
    simp only [Finset.univ_unique, Finset.sum_singleton, Finset.prod_singleton] at h
    rw [Real.coe_toNNReal _ (expected_nonneg hL hs _), ← h]
    congr 1
    funext ω
    push_cast
    rfl
  refine ⟨hmeas, fun a n => ?_, ?_⟩
  · have h1 : {ω | number (A a) (catalog l N U ω) = n} = (fun ω => (number (A a) (catalog l N U ω) : ℝ)) ⁻¹' {(n : ℝ)} := by
      ext ω
      simp
    rw [h1, ← Measure.map_apply (hmr a) (measurableSet_singleton _), hlaw a,
      Measure.map_apply measurable_from_nat (measurableSet_singleton _)]
    have h2 : (Nat.cast : ℕ → ℝ) ⁻¹' {(n : ℝ)} = {n} := by
      ext k
      simp
    rw [h2, poissonMeasure_singleton, Real.coe_toNNReal _ (expected_nonneg hL hs _)]
  · have hi : iIndepFun (fun a ω => (number (A a) (catalog l N U ω) : ℝ)) μ := by
      rw [iIndepFun_iff_charFun_pi fun a => (hmr a).aemeasurable]
      intro t
      have hv : Measurable fun ω => WithLp.toLp 2 fun a => (number (A a) (catalog l N U ω) : ℝ) := by fun_prop
      rw [charFun_apply, integral_map hv.aemeasurable (by fun_prop)]
      have h := characteristic hL hs hN' hU hNU hl hA hd t
      simp only [hlaw, charFun_map_cast_poissonMeasure, Real.coe_toNNReal _ (expected_nonneg hL hs _)]
      rw [← h]
      congr 1
    have := hi.comp (fun _ => Nat.floor) fun _ => Nat.measurable_floor
    refine this.congr fun a => ?_
    exact Filter.Eventually.of_forall fun ω => by simp

/-- C105. The whole catalog: its size follows a Poisson law; with a constant mean density and a contrast of zero mean over the mesh, the
mean size is the density times the volume of the box. -/
theorem C105_size (hL : ∀ d, 0 < M.boxsize d) (hs : ∀ i, 0 ≤ M.cellMean s i) {ranks : List (List M.Idx)} (hr : Decomposition M ranks)
    {nbar : ℝ} (hn : s.nbar = .inl nbar) (h0 : ∑ i, s.delta i = 0)
    (hN : ArePoisson μ N fun i => (1 + s.delta i) * s.nbarAt i * (M.boxsize 0 / M.n 0 * (M.boxsize 1 / M.n 1) * (M.boxsize 2 / M.n 2)))
    (hU : AreUniform μ U) (hNU : IndepFun (fun ω i => N i ω) (fun ω q => U q ω) μ) (n : ℕ) :
    μ {ω | ∃ ps, M.poissonSample s ranks (fun i => N i ω) (fun j d => U (j, d) ω) = .ok ps ∧ ps.length = n} =
      ENNReal.ofReal (Real.exp (-(nbar * (M.boxsize 0 * M.boxsize 1 * M.boxsize 2))) *
        (nbar * (M.boxsize 0 * M.boxsize 1 * M.boxsize 2)) ^ n / n.factorial) := by
  obtain ⟨ps, h1, h2⟩ := C105_process hL hs hr hN hU hNU
  have h := (h2 Unit (fun _ => Set.univ) (fun _ => MeasurableSet.univ) fun x y h => absurd (Subsingleton.elim x y) h).chance () n
  have e : expected M s Set.univ = nbar * (M.boxsize 0 * M.boxsize 1 * M.boxsize 2) := by
    rw [← C40_mean M s nbar hn h0]
    unfold expected Mesh.cellMean
    refine Finset.sum_congr rfl fun i _ => ?_
    congr 1
    have := chance_cell M hL i MeasurableSet.univ
    rw [Set.preimage_univ, measure_univ] at this
    have h3 := congrArg ENNReal.toReal this
    rw [ENNReal.toReal_mul, ENNReal.toReal_ofReal (inv_nonneg.2 (dv_pos M hL).le), ENNReal.toReal_one] at h3
    have := (dv_pos M hL).ne'
    field_simp at h3
    exact h3.symm
  simp only [e] at h
  rw [← h]
  congr 1
  ext ω
  simp [h1, number]

end

/-! ### Non-vacuity -/

/-- There are such draws, for all means at once. -/
theorem exists_family (ι : Type) [Countable ι] : ∃ (Ω : Type) (_ : MeasurableSpace Ω) (N : ι → Ω → ℕ) (U : ℕ × Fin 3 → Ω → ℝ),
    ∀ m : ι → ℝ, (∀ i, 0 ≤ m i) → ∃ (μ : Measure Ω) (_ : IsProbabilityMeasure μ),
      ArePoisson μ N m ∧ AreUniform μ U ∧ IndepFun (fun ω i => N i ω) (fun ω q => U q ω) μ := by
  obtain ⟨Ω', mΩ', ν, hν, V, hV⟩ := exists_areUniform (ℕ × Fin 3)
  refine ⟨(ι → ℕ) × Ω', inferInstance, fun i x => x.1 i, fun q x => V q x.2, fun m hm => ?_⟩
  let P := Measure.infinitePi fun i : ι => poissonMeasure (m i).toNNReal
  have hind : IndepFun (fun x : (ι → ℕ) × Ω' => x.1) (fun x => x.2) (P.prod ν) := indepFun_prod measurable_id measurable_id
  have mV : Measurable fun ω q => V q ω := measurable_pi_lambda _ fun q => (hV.1 q).1
  refine ⟨P.prod ν, inferInstance, ⟨fun i => by fun_prop, ?_, ?_⟩, ⟨?_, ?_⟩, ?_⟩
  · intro i n
    have h1 : {x : (ι → ℕ) × Ω' | x.1 i = n} = ((fun c : ι → ℕ => c i) ⁻¹' {n}) ×ˢ Set.univ := by
      ext x
      simp
    rw [h1, Measure.prod_prod, measure_univ, mul_one, ← Measure.map_apply (measurable_pi_apply i) (measurableSet_singleton n)]
    have := Measure.infinitePi_map_eval (fun i : ι => poissonMeasure (m i).toNNReal) i
    rw [this, poissonMeasure_singleton, Real.coe_toNNReal _ (hm i)]
  · have h2 : iIndepFun (fun (i : ι) (c : ι → ℕ) => c i) P :=
      iIndepFun_infinitePi (P := fun i => poissonMeasure (m i).toNNReal) (X := fun _ x => x) fun i => measurable_id
    have hp : MeasurePreserving (Prod.fst : (ι → ℕ) × Ω' → _) (P.prod ν) P := measurePreserving_fst
    have := (iIndepFun_iff_map_fun_eq_infinitePi_map (by fun_prop)).1 h2
    rw [iIndepFun_iff_map_fun_eq_infinitePi_map (by fun_prop)]
    have e : ∀ i, (P.prod ν).map (fun x : (ι → ℕ) × Ω' => x.1 i) = P.map fun c => c i := fun i => by
      conv_rhs => rw [← hp.map_eq, Measure.map_map (measurable_pi_apply i) measurable_fst]
      rfl
    simp only [e]
    rw [← this]
    conv_rhs => rw [← hp.map_eq, Measure.map_map (by fun_prop) measurable_fst]
    rfl
  · intro q
    refine ⟨(hV.1 q).1.comp measurable_snd, fun A hA => ?_⟩
    have h1 : {x : (ι → ℕ) × Ω' | V q x.2 ∈ A} = Set.univ ×ˢ {ω | V q ω ∈ A} := by
      ext x
      simp
    rw [h1, Measure.prod_prod, measure_univ, one_mul]
    exact (hV.1 q).2 A hA
  · have hp : MeasurePreserving (Prod.snd : (ι → ℕ) × Ω' → _) (P.prod ν) ν := measurePreserving_snd
    have := (iIndepFun_iff_map_fun_eq_infinitePi_map fun q => (hV.1 q).1).1 hV.2
    have mV' : ∀ q, Measurable (V q) := fun q => (hV.1 q).1
    rw [iIndepFun_iff_map_fun_eq_infinitePi_map (by fun_prop)]
    have e : ∀ q, (P.prod ν).map (fun x : (ι → ℕ) × Ω' => V q x.2) = ν.map (V q) := fun q => by
      conv_rhs => rw [← hp.map_eq, Measure.map_map (mV' q) measurable_snd]
      rfl
    simp only [e]
    rw [← this]
    conv_rhs => rw [← hp.map_eq, Measure.map_map mV measurable_snd]
    rfl
  · exact hind.comp (φ := fun c i => c i) (ψ := fun ω q => V q ω) measurable_id mV

/-- There are such draws. -/
theorem exists_draws {ι : Type} [Countable ι] (m : ι → ℝ) (hm : ∀ i, 0 ≤ m i) : ∃ (Ω : Type) (_ : MeasurableSpace Ω) (μ : Measure Ω) (_ : IsProbabilityMeasure μ)
    (N : ι → Ω → ℕ) (U : ℕ × Fin 3 → Ω → ℝ), ArePoisson μ N m ∧ AreUniform μ U ∧ IndepFun (fun ω i => N i ω) (fun ω q => U q ω) μ := by
  obtain ⟨Ω, mΩ, N, U, h⟩ := exists_family ι
  obtain ⟨μ, hμ, h⟩ := h m hm
  exact ⟨Ω, mΩ, μ, hμ, N, U, h⟩

/-- Hypotheses of `C105_process` and `C105_size`: a contrast of 1/2 and -1/2 on both halves of a mesh of 4³ nodes, with density 2. -/
example : ∃ (s : mesh4.Fields) (ranks : List (List mesh4.Idx)), (∀ i, 0 < mesh4.cellMean s i) ∧ Decomposition mesh4 ranks ∧ s.nbar = .inl 2 ∧
    (∃ i, s.delta i ≠ 0) ∧ ∑ i, s.delta i = 0 ∧ ∃ (Ω : Type) (_ : MeasurableSpace Ω) (μ : Measure Ω) (_ : IsProbabilityMeasure μ)
    (N : mesh4.Idx → Ω → ℕ) (U : ℕ × Fin 3 → Ω → ℝ),
    ArePoisson μ N (fun i => (1 + s.delta i) * s.nbarAt i * (mesh4.boxsize 0 / mesh4.n 0 * (mesh4.boxsize 1 / mesh4.n 1) * (mesh4.boxsize 2 / mesh4.n 2))) ∧
    AreUniform μ U ∧ IndepFun (fun ω i => N i ω) (fun ω q => U q ω) μ := by
  let i0 : mesh4.Idx := fun _ => (1 : ZMod 4)
  have h01 : (0 : mesh4.Idx) ≠ i0 := fun h => absurd (congrFun h 0) (show (0 : ZMod 4) ≠ 1 by decide)
  let s : mesh4.Fields := ⟨fun i => if i = 0 then 1 / 2 else if i = i0 then -1 / 2 else 0, .inl 2, fun _ _ => 0⟩
  have hb : ∀ d, 0 < mesh4.boxsize d := fun d => by norm_num [mesh4]
  have hp : ∀ i, 0 < (1 + s.delta i) * s.nbarAt i := by
    intro i
    simp only [s, Mesh.Fields.nbarAt]
    split_ifs <;> norm_num
  refine ⟨s, [Finset.univ.toList], fun i => mul_pos (hp i) (dv_pos mesh4 hb), by simp [Decomposition], rfl, ⟨0, by simp [s]⟩, ?_, ?_⟩
  · have : ∀ i, s.delta i = (if i = 0 then 1 / 2 else 0) + if i = i0 then -1 / 2 else 0 := by
      intro i
      simp only [s]
      by_cases h : i = 0
      · rw [if_pos h, if_pos h, if_neg (by rw [h]; exact h01), add_zero]
      · rw [if_neg h, if_neg h, zero_add]
    simp only [this, Finset.sum_add_distrib, Finset.sum_ite_eq', Finset.mem_univ, if_true]
    norm_num
  · refine exists_draws _ fun i => mul_nonneg (hp i).le ?_
    have := hb 0
    have := hb 1
    have := hb 2
    positivity

end Verif.Props.PoissonLaw
