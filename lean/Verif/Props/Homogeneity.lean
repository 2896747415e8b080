import Verif.Props.FieldStats
import Verif.Props.PoissonLaw

/-!
# C106: homogeneity of mocks

If the law of the noise of pmesh does not change under translations by cells, neither does the law of the density contrast, with or
without bias, lognormal transform and redshift-space distortions along a fixed line of sight. Lognormal mocks then have on average the
density given by the user, in any region, and the pairs of their particles follow the correlation function of the field.
-/

namespace Verif.Props.Homogeneity

open Verif Verif.Model Verif.Spec Verif.Props Verif.Lemmas.Mesh Verif.Props.PoissonLaw MeasureTheory ProbabilityTheory

variable {Ω : Type*} [MeasurableSpace Ω] {μ : Measure Ω} {M : Mesh}

/-! ### Specification -/

/-- The law of the noise, as a field in real space, does not change when it is translated by any number of cells. -/
structure HomogeneousNoise (M : Mesh) (μ : Measure Ω) (W : M.Idx → Ω → ℂ) : Prop where
  measurable : ∀ k, Measurable (W k)
  translated : ∀ m, μ.map (fun ω i => M.c2r (fun k => W k ω) (i + m)) = μ.map fun ω => M.c2r (fun k => W k ω)

/-- A bias that is the same everywhere: none, a number, or a (measurable) function of the density contrast. -/
inductive SameBias : Mesh.Bias → Prop
  | none : SameBias .none
  | const (b : ℝ) : SameBias (.const b)
  | fn (b : ℝ → ℝ) (hb : Measurable b) : SameBias (.fn fun x _ => b x)

/-! ### Translations -/

/-- A translation in real space is a phase in Fourier space. -/
theorem c2r_translated (F : M.Idx → ℂ) (m i : M.Idx) : M.c2r (fun k => F k * M.char m k) i = M.c2r F (i + m) := by
  unfold Mesh.c2r
  refine Finset.sum_congr rfl fun k _ => ?_
  rw [char_add]
  ring

theorem measurable_c2r : Measurable M.c2r := by
  unfold Mesh.c2r
  fun_prop

theorem measurable_r2c : Measurable M.r2c := by
  unfold Mesh.r2c
  fun_prop

theorem HomogeneousNoise.phases {W : M.Idx → Ω → ℂ} (hW : HomogeneousNoise M μ W) (m : M.Idx) :
    μ.map (fun ω k => W k ω * M.char m k) = μ.map fun ω k => W k ω := by
  have mW : Measurable fun ω k => W k ω := measurable_pi_lambda _ hW.measurable
  have h := congrArg (Measure.map M.r2c) (hW.translated m)
  have mc : Measurable fun ω => M.c2r (fun k => W k ω) := measurable_c2r.comp mW
  have mt : Measurable fun ω i => M.c2r (fun k => W k ω) (i + m) := measurable_pi_lambda _ fun i => (measurable_pi_apply (i + m)).comp mc
  rw [Measure.map_map measurable_r2c mt, Measure.map_map measurable_r2c mc] at h
  have e1 : (M.r2c ∘ fun ω i => M.c2r (fun k => W k ω) (i + m)) = fun ω k => W k ω * M.char m k := by
    funext ω k
    have : (fun i => M.c2r (fun k => W k ω) (i + m)) = M.c2r fun k => W k ω * M.char m k := funext fun i => (c2r_translated _ m i).symm
    rw [Function.comp_apply, this, r2c_c2r]
  have e2 : (M.r2c ∘ fun ω => M.c2r fun k => W k ω) = fun ω k => W k ω := by
    funext ω k
    rw [Function.comp_apply, r2c_c2r]
  rwa [e1, e2] at h

/-- What is computed from the noise, and is translated when the noise is, has the same law after a translation. -/
theorem law_translated {W : M.Idx → Ω → ℂ} (hW : HomogeneousNoise M μ W) {Φ : (M.Idx → ℂ) → M.Idx → ℝ} (hΦ : Measurable Φ)
    (ht : ∀ w m i, Φ (fun k => w k * M.char m k) i = Φ w (i + m)) (m : M.Idx) :
    μ.map (fun ω i => Φ (fun k => W k ω) (i + m)) = μ.map fun ω => Φ fun k => W k ω := by
  have mW : Measurable fun ω k => W k ω := measurable_pi_lambda _ hW.measurable
  have mW' : Measurable fun ω k => W k ω * M.char m k := measurable_pi_lambda _ fun k => (hW.measurable k).mul_const _
  have e : (fun ω i => Φ (fun k => W k ω) (i + m)) = Φ ∘ fun ω k => W k ω * M.char m k := by
    funext ω i
    exact (ht _ m i).symm
  rw [e, ← Measure.map_map hΦ mW', hW.phases, Measure.map_map hΦ mW]
  rfl

omit [MeasurableSpace Ω] in
/-- The modes are the noise times numbers. -/
theorem modes_mul {p : Mesh.Power} {inverted : Bool} {W F : M.Idx → Ω → ℂ}
    (hF : ∀ ω k, M.complexDelta p inverted (fun k => W k ω) k = some (F k ω)) : ∃ a : M.Idx → ℂ, ∀ ω k, F k ω = W k ω * a k := by
  classical
  refine ⟨fun k => (if inverted then -1 else 1) *
    (Real.sqrt ((if Real.sqrt (M.k2 k) = 0 then 0 else p.at M k) * (1 / ∏ d, M.boxsize d)) : ℝ), fun ω k => ?_⟩
  have h := hF ω k
  unfold Mesh.complexDelta at h
  dsimp only at h ⊢
  generalize (if Real.sqrt (M.k2 k) = 0 then 0 else p.at M k) = pw at h ⊢
  split at h
  · exact absurd h (by simp)
  · rw [← Option.some.inj h]
    cases inverted <;> simp

theorem same_bias {b : Mesh.Bias} (hb : SameBias b) : ∃ g : ℝ → ℝ, Measurable g ∧ ∀ (f : M.Idx → ℝ) i, M.biased b f i = g (f i) := by
  cases hb with
  | none => exact ⟨id, measurable_id, fun _ _ => rfl⟩
  | const b => exact ⟨fun x => x * b, by fun_prop, fun _ _ => rfl⟩
  | fn b hb => exact ⟨b, hb, fun _ _ => rfl⟩

theorem cmean_translated (f : M.Idx → ℝ) (m : M.Idx) : M.cmean (fun i => f (i + m)) = M.cmean f := by
  unfold Mesh.cmean
  congr 1
  exact Equiv.sum_comp (Equiv.addRight m) f

theorem realDelta_translated {b : Mesh.Bias} (hb : SameBias b) (lognormal : Bool) (F : M.Idx → ℂ) (m i : M.Idx) :
    M.realDelta b lognormal (fun k => F k * M.char m k) i = M.realDelta b lognormal F (i + m) := by
  obtain ⟨g, _, hg⟩ := same_bias (M := M) hb
  have h : M.biased b (M.c2rReal fun k => F k * M.char m k) = fun i => M.biased b (M.c2rReal F) (i + m) := by
    funext i
    rw [hg, hg]
    unfold Mesh.c2rReal
    rw [c2r_translated]
  unfold Mesh.realDelta
  rw [h]
  cases lognormal with
  | false => rfl
  | true =>
    simp only [if_true]
    unfold Mesh.lognormal
    rw [cmean_translated fun j => Real.exp (M.biased b (M.c2rReal F) j)]

theorem measurable_realDelta {b : Mesh.Bias} (hb : SameBias b) (lognormal : Bool) : Measurable (M.realDelta b lognormal) := by
  obtain ⟨g, mg, hg⟩ := same_bias (M := M) hb
  have h : Measurable fun F : M.Idx → ℂ => M.biased b (M.c2rReal F) := by
    refine measurable_pi_lambda _ fun i => ?_
    simp only [hg]
    exact mg.comp (Complex.measurable_re.comp ((measurable_pi_apply i).comp measurable_c2r))
  cases lognormal with
  | false => exact h
  | true =>
    change Measurable fun F => M.lognormal (M.biased b (M.c2rReal F))
    have : Measurable (M.lognormal) := by
      unfold Mesh.lognormal Mesh.cmean
      fun_prop
    exact this.comp h

section
variable {p : Mesh.Power} {inverted : Bool} {W F : M.Idx → Ω → ℂ} {b : Mesh.Bias}

/-- C106. The law of the density contrast, at all nodes jointly, is the same after a translation by any number of cells. -/
theorem C106_field (hW : HomogeneousNoise M μ W) (hF : ∀ ω k, M.complexDelta p inverted (fun k => W k ω) k = some (F k ω))
    (hb : SameBias b) (lognormal : Bool) (m : M.Idx) :
    μ.map (fun ω i => M.realDelta b lognormal (fun k => F k ω) (i + m)) = μ.map fun ω => M.realDelta b lognormal fun k => F k ω := by
  obtain ⟨a, ha⟩ := modes_mul hF
  simp only [ha]
  refine law_translated hW (Φ := fun w => M.realDelta b lognormal fun k => w k * a k)
    ((measurable_realDelta hb lognormal).comp (by fun_prop)) (fun w m i => ?_) m
  rw [← realDelta_translated hb]
  congr 1
  funext k
  ring

/-- C106. The same in redshift space, with a fixed line of sight and a constant growth rate. -/
theorem C106_rsd (hW : HomogeneousNoise M μ W) (hF : ∀ ω k, M.complexDelta p inverted (fun k => W k ω) k = some (F k ω))
    (hb : SameBias b) (lognormal : Bool) {los : Axis} (hlos : los ≠ .none) {n : V3 ℝ} (hn : getLos los = .ok n) (f : ℝ) :
    ∃ out : Ω → M.Idx → ℝ, (∀ ω, M.eulerianRsd (.const f) los (fun k => F k ω) (M.realDelta b lognormal fun k => F k ω) =
        .ok fun i => some (out ω i)) ∧ ∀ m, μ.map (fun ω i => out ω (i + m)) = μ.map out := by
  obtain ⟨a, ha⟩ := modes_mul hF
  refine ⟨fun ω => M.eulerianFixed (.const f) ![n.x, n.y, n.z] (fun k => F k ω) (M.realDelta b lognormal fun k => F k ω), fun ω => ?_,
    fun m => ?_⟩
  · unfold Mesh.eulerianRsd
    cases los with
    | none => exact absurd rfl hlos
    | _ => simp only [hn]
  · simp only [ha]
    refine law_translated hW (Φ := fun w => M.eulerianFixed (.const f) ![n.x, n.y, n.z] (fun k => w k * a k)
      (M.realDelta b lognormal fun k => w k * a k)) ?_ (fun w m i => ?_) m
    · have h1 : Measurable fun w : M.Idx → ℂ => M.realDelta b lognormal fun k => w k * a k :=
        (measurable_realDelta hb lognormal).comp (by fun_prop)
      refine measurable_pi_lambda _ fun i => ?_
      unfold Mesh.eulerianFixed Mesh.c2rReal Mesh.c2r
      have := (measurable_pi_apply i).comp h1
      simp only [Function.comp_def] at this
      fun_prop
    · have e : (fun k => w k * M.char m k * a k) = fun k => w k * a k * M.char m k := funext fun k => by ring
      unfold Mesh.eulerianFixed
      simp only [Mesh.factorAt, e]
      rw [realDelta_translated hb]
      congr 2
      unfold Mesh.c2rReal
      rw [← c2r_translated]
      congr 3
      funext k
      ring

/-! ### Lognormal fields -/

theorem lognormal_bounds (f : M.Idx → ℝ) (i : M.Idx) : -1 < M.lognormal f i ∧ M.lognormal f i ≤ Fintype.card M.Idx := by
  have hc : (0 : ℝ) < Fintype.card M.Idx := by
    have : 0 < Fintype.card M.Idx := Fintype.card_pos
    exact_mod_cast this
  have hs : Real.exp (f i) ≤ ∑ j, Real.exp (f j) := Finset.single_le_sum (f := fun j => Real.exp (f j)) (fun j _ => (Real.exp_pos _).le) (Finset.mem_univ i)
  have hp : 0 < ∑ j, Real.exp (f j) := lt_of_lt_of_le (Real.exp_pos _) hs
  unfold Mesh.lognormal Mesh.cmean
  constructor
  · have : 0 < Real.exp (f i) / ((∑ j, Real.exp (f j)) / Fintype.card M.Idx) := div_pos (Real.exp_pos _) (div_pos hp hc)
    linarith
  · have : Real.exp (f i) / ((∑ j, Real.exp (f j)) / Fintype.card M.Idx) ≤ Fintype.card M.Idx := by
      rw [div_div_eq_mul_div, div_le_iff₀ hp, mul_comm]
      exact mul_le_mul_of_nonneg_left hs hc.le
    linarith

theorem lognormal_sum (f : M.Idx → ℝ) : ∑ i, M.lognormal f i = 0 := by
  have hc : (0 : ℝ) < Fintype.card M.Idx := by
    have : 0 < Fintype.card M.Idx := Fintype.card_pos
    exact_mod_cast this
  have hp : 0 < ∑ j, Real.exp (f j) := Finset.sum_pos (fun j _ => Real.exp_pos _) Finset.univ_nonempty
  unfold Mesh.lognormal Mesh.cmean
  rw [Finset.sum_sub_distrib, ← Finset.sum_div, Finset.sum_const, Finset.card_univ, nsmul_eq_mul, mul_one]
  field_simp
  ring

theorem measurable_delta (hW : HomogeneousNoise M μ W) (hF : ∀ ω k, M.complexDelta p inverted (fun k => W k ω) k = some (F k ω))
    (hb : SameBias b) (lognormal : Bool) : Measurable fun ω => M.realDelta b lognormal fun k => F k ω := by
  obtain ⟨a, ha⟩ := modes_mul hF
  have : Measurable fun ω k => F k ω := by
    refine measurable_pi_lambda _ fun k => ?_
    simp only [ha]
    exact (hW.measurable k).mul_const _
  exact (measurable_realDelta hb lognormal).comp this

theorem integrable_lognormal [IsProbabilityMeasure μ] (hW : HomogeneousNoise M μ W)
    (hF : ∀ ω k, M.complexDelta p inverted (fun k => W k ω) k = some (F k ω)) (hb : SameBias b) (i : M.Idx) :
    MemLp (fun ω => M.realDelta b true (fun k => F k ω) i) 2 μ := by
  have hm := (measurable_pi_apply i).comp (measurable_delta hW hF hb true)
  refine MemLp.of_bound hm.aestronglyMeasurable (Fintype.card M.Idx) (Filter.Eventually.of_forall fun ω => ?_)
  have h := lognormal_bounds (M.biased b (M.c2rReal fun k => F k ω)) i
  have hc : (1 : ℝ) ≤ Fintype.card M.Idx := by
    have : 1 ≤ Fintype.card M.Idx := Fintype.card_pos
    exact_mod_cast this
  have e : M.realDelta b true (fun k => F k ω) i = M.lognormal (M.biased b (M.c2rReal fun k => F k ω)) i := rfl
  rw [Real.norm_eq_abs, abs_le, e]
  exact ⟨by linarith [h.1], h.2⟩

/-- C106. A lognormal density contrast has zero mean at each node, on average over realisations. -/
theorem C106_mean [IsProbabilityMeasure μ] (hW : HomogeneousNoise M μ W)
    (hF : ∀ ω k, M.complexDelta p inverted (fun k => W k ω) k = some (F k ω)) (hb : SameBias b) (i : M.Idx) :
    ∫ ω, M.realDelta b true (fun k => F k ω) i ∂μ = 0 := by
  have hint : ∀ i, Integrable (fun ω => M.realDelta b true (fun k => F k ω) i) μ := fun i =>
    (integrable_lognormal hW hF hb i).integrable (by norm_num)
  have hsame : ∀ j, ∫ ω, M.realDelta b true (fun k => F k ω) j ∂μ = ∫ ω, M.realDelta b true (fun k => F k ω) i ∂μ := by
    intro j
    have h := C106_field hW hF hb true (j - i)
    have hm := measurable_delta hW hF hb true
    have hm' : Measurable fun ω i' => M.realDelta b true (fun k => F k ω) (i' + (j - i)) :=
      measurable_pi_lambda _ fun i' => (measurable_pi_apply (i' + (j - i))).comp hm
    have h1 := integral_map hm'.aemeasurable (μ := μ) (f := fun f : M.Idx → ℝ => f i) (measurable_pi_apply i).aestronglyMeasurable
    have h2 := integral_map hm.aemeasurable (μ := μ) (f := fun f : M.Idx → ℝ => f i) (measurable_pi_apply i).aestronglyMeasurable
    rw [h] at h1
    rw [h1] at h2
    simpa using h2
  have hs : ∑ j, ∫ ω, M.realDelta b true (fun k => F k ω) j ∂μ = 0 := by
    rw [← integral_finsetSum _ fun j _ => hint j]
    have : ∀ ω, ∑ j, M.realDelta b true (fun k => F k ω) j = 0 := fun ω => lognormal_sum _
    simp only [this, integral_zero]
  simp only [hsame] at hs
  rw [Finset.sum_const, Finset.card_univ, nsmul_eq_mul] at hs
  have hc : (Fintype.card M.Idx : ℝ) ≠ 0 := by exact_mod_cast Fintype.card_ne_zero
  exact (mul_eq_zero.1 hs).resolve_left hc

/-- C106. The covariance of the density contrast at two nodes does not change under a translation. -/
theorem C106_covariance (hW : HomogeneousNoise M μ W)
    (hF : ∀ ω k, M.complexDelta p inverted (fun k => W k ω) k = some (F k ω)) (hb : SameBias b) (lognormal : Bool) (i j m : M.Idx) :
    ∫ ω, M.realDelta b lognormal (fun k => F k ω) (i + m) * M.realDelta b lognormal (fun k => F k ω) (j + m) ∂μ =
      ∫ ω, M.realDelta b lognormal (fun k => F k ω) i * M.realDelta b lognormal (fun k => F k ω) j ∂μ := by
  have h := C106_field hW hF hb lognormal m
  have hm := measurable_delta hW hF hb lognormal
  have hm' : Measurable fun ω i => M.realDelta b lognormal (fun k => F k ω) (i + m) :=
    measurable_pi_lambda _ fun i => (measurable_pi_apply (i + m)).comp hm
  have h1 := integral_map hm'.aemeasurable (μ := μ) (f := fun f : M.Idx → ℝ => f i * f j) (by fun_prop)
  have h2 := integral_map hm.aemeasurable (μ := μ) (f := fun f : M.Idx → ℝ => f i * f j) (by fun_prop)
  rw [h] at h1
  rw [h1] at h2
  exact h2

end

/-! ### Moments of Poisson draws -/

theorem poisson_sum (r : ℝ) : HasSum (fun n : ℕ => Real.exp (-r) * r ^ n / n.factorial) 1 := by
  have h : HasSum (fun n : ℕ => Real.exp (-r) * (r ^ n / n.factorial)) (Real.exp (-r) * Real.exp r) := by
    rw [Real.exp_eq_exp_ℝ]
    exact (NormedSpace.expSeries_div_hasSum_exp r).mul_left _
  rw [← Real.exp_add, neg_add_cancel, Real.exp_zero] at h
  refine h.congr_fun fun n => ?_
  ring

theorem poisson_mean (r : ℝ) : HasSum (fun n : ℕ => Real.exp (-r) * r ^ n / n.factorial * n) r := by
  rw [← hasSum_nat_add_iff' 1]
  simp only [Finset.range_one, Finset.sum_singleton, Nat.cast_zero, mul_zero, sub_zero]
  have h2 := (poisson_sum r).mul_left r
  rw [mul_one] at h2
  refine h2.congr_fun fun n => ?_
  rw [Nat.factorial_succ]
  have : ((n : ℝ) + 1) ≠ 0 := by positivity
  push_cast
  field_simp
  ring

theorem poisson_pairs (r : ℝ) : HasSum (fun n : ℕ => Real.exp (-r) * r ^ n / n.factorial * (n * (n - 1))) (r ^ 2) := by
  rw [← hasSum_nat_add_iff' 1]
  simp only [Finset.range_one, Finset.sum_singleton, Nat.cast_zero, zero_mul, mul_zero, sub_zero]
  have h2 := (poisson_mean r).mul_left r
  rw [← sq] at h2
  refine h2.congr_fun fun n => ?_
  rw [Nat.factorial_succ]
  have : ((n : ℝ) + 1) ≠ 0 := by positivity
  push_cast
  field_simp
  ring

/-- Means of functions of a Poisson draw. -/
theorem poisson_integral [IsProbabilityMeasure μ] {N : Ω → ℕ} (hm : Measurable N) {m : ℝ} (h0 : 0 ≤ m)
    (hN : ∀ n, μ {ω | N ω = n} = ENNReal.ofReal (Real.exp (-m) * m ^ n / n.factorial)) {f : ℕ → ℝ} (hf : ∀ n, 0 ≤ f n) {x : ℝ}
    (h : HasSum (fun n : ℕ => Real.exp (-m) * m ^ n / n.factorial * f n) x) :
    Integrable (fun ω => f (N ω)) μ ∧ ∫ ω, f (N ω) ∂μ = x := by
  have hlaw : μ.map N = poissonMeasure m.toNNReal := by
    refine Measure.ext_of_singleton fun n => ?_
    rw [Measure.map_apply hm (measurableSet_singleton n), poissonMeasure_singleton, Real.coe_toNNReal _ h0, ← hN n]
    rfl
  have hi : Integrable f (poissonMeasure m.toNNReal) := by
    rw [integrable_poissonMeasure_iff, Real.coe_toNNReal _ h0]
    refine h.summable.congr fun n => ?_
    rw [Real.norm_eq_abs, abs_of_nonneg (hf n)]
  constructor
  · have : Integrable f (μ.map N) := by rw [hlaw]; exact hi
    exact this.comp_measurable hm
  · have := integral_map hm.aemeasurable (μ := μ) (f := f) (by fun_prop)
    rw [← this, hlaw, integral_poissonMeasure, Real.coe_toNNReal _ h0]
    exact h.tsum_eq

theorem _root_.Verif.Props.PoissonLaw.ArePoisson.mean_eq {ι : Type*} [IsProbabilityMeasure μ] {N : ι → Ω → ℕ} {m : ι → ℝ} (h : ArePoisson μ N m) (hm : ∀ i, 0 ≤ m i) (i : ι) :
    Integrable (fun ω => (N i ω : ℝ)) μ ∧ ∫ ω, (N i ω : ℝ) ∂μ = m i :=
  poisson_integral (h.measurable i) (hm i) (h.chance i) (f := fun n => (n : ℝ)) (fun _ => Nat.cast_nonneg _) (poisson_mean _)

theorem _root_.Verif.Props.PoissonLaw.ArePoisson.pairs_eq {ι : Type*} [IsProbabilityMeasure μ] {N : ι → Ω → ℕ} {m : ι → ℝ} (h : ArePoisson μ N m) (hm : ∀ i, 0 ≤ m i) (i : ι) :
    ∫ ω, (N i ω : ℝ) * (N i ω - 1) ∂μ = m i ^ 2 := by
  refine (poisson_integral (h.measurable i) (hm i) (h.chance i) (f := fun n => (n : ℝ) * (n - 1)) (fun n => ?_) (poisson_pairs _)).2
  rcases Nat.eq_zero_or_pos n with h | h
  · simp [h]
  · have : (1 : ℝ) ≤ n := by exact_mod_cast h
    exact mul_nonneg (Nat.cast_nonneg _) (by linarith)

/-! ### Catalogs -/

/-- Mean density at a node. -/
def densityAt (nbar : ℝ ⊕ (M.Idx → ℝ)) (i : M.Idx) : ℝ := Sum.elim (fun x => x) (fun f => f i) nbar

/-- Volume of the part of a region in the cell of a node. -/
noncomputable def cellVolume (M : Mesh) (A : Set (Fin 3 → ℝ)) (i : M.Idx) : ℝ := (MeasureTheory.volume (A ∩ {p | InCell M i p})).toReal

theorem cells_volume (hL : ∀ d, 0 < M.boxsize d) {A : Set (Fin 3 → ℝ)} (hA : MeasurableSet A) :
    ∑ i, cellVolume M A i =
      (MeasureTheory.volume (A ∩ {p | ∀ d, M.boxcenter d - M.boxsize d / 2 ≤ p d ∧ p d < M.boxcenter d + M.boxsize d / 2})).toReal := by
  have hcell : ∀ i, MeasurableSet {p : Fin 3 → ℝ | InCell M i p} := fun i => by
    have : {p : Fin 3 → ℝ | InCell M i p} = Set.univ.pi fun d => Set.Ico (nodeAt M i d) (nodeAt M i d + M.boxsize d / M.n d) := by
      ext p
      simp [InCell]
    rw [this]
    exact MeasurableSet.univ_pi fun d => measurableSet_Ico
  have hu : A ∩ {p | ∀ d, M.boxcenter d - M.boxsize d / 2 ≤ p d ∧ p d < M.boxcenter d + M.boxsize d / 2} =
      ⋃ i ∈ (Finset.univ : Finset M.Idx), A ∩ {p | InCell M i p} := by
    ext p
    simp only [Set.mem_inter_iff, Set.mem_ofPred_eq, Set.mem_iUnion, Finset.mem_univ, exists_prop, true_and]
    constructor
    · rintro ⟨h1, h2⟩
      obtain ⟨i, hi, _⟩ := C40_cells M hL p h2
      exact ⟨i, h1, hi⟩
    · rintro ⟨i, h1, h2⟩
      exact ⟨h1, C40_inside M hL i p h2⟩
  have hfin : ∀ i, MeasureTheory.volume (A ∩ {p | InCell M i p}) ≠ ⊤ := fun i => by
    have h := chance_cell M hL i hA
    intro ht
    rw [ht, ENNReal.mul_top (by simpa using dv_pos M hL)] at h
    exact absurd h (measure_ne_top _ _)
  rw [hu, measure_biUnion_finset, ENNReal.toReal_sum fun i _ => hfin i]
  · rfl
  · intro i _ j _ hij
    refine Set.disjoint_left.2 fun p h1 h2 => hij ?_
    exact (C40_cells M hL p (C40_inside M hL i p h1.2)).unique h1.2 h2.2
  · exact fun i _ => hA.inter (hcell i)

section
variable {p : Mesh.Power} {inverted : Bool} {W F : M.Idx → Ω → ℂ} {b : Mesh.Bias}
variable {Ω' : Type*} [MeasurableSpace Ω'] {κ : Ω → Measure Ω'} [∀ ω, IsProbabilityMeasure (κ ω)] {N : M.Idx → Ω' → ℕ} {U : ℕ × Fin 3 → Ω' → ℝ}

/-- C106. Catalogs of lognormal mocks: given the density contrast, counts are Poisson draws of the means passed to numpy and positions in
cells are uniform draws (`κ` is their law for each realisation of the field). Averaging over draws and over realisations of the field:
- the number of particles in any region is the integral of the mean density;
- the number of pairs of particles in two disjoint regions is the integral of the product of mean densities times 1 + xi, with xi the
  covariance of the density contrast;
- so is the number of (ordered) pairs of different particles in one region. -/
theorem C106_catalog [IsProbabilityMeasure μ] (hL : ∀ d, 0 < M.boxsize d) (hW : HomogeneousNoise M μ W)
    (hF : ∀ ω k, M.complexDelta p inverted (fun k => W k ω) k = some (F k ω)) (hb : SameBias b)
    (nbar : ℝ ⊕ (M.Idx → ℝ)) (hn : ∀ i, 0 ≤ densityAt nbar i) (disp : Ω → Fin 3 → M.Idx → ℝ)
    {ranks : List (List M.Idx)} (hr : Decomposition M ranks)
    (hN : ∀ ω, ArePoisson (κ ω) N fun i => (1 + M.realDelta b true (fun k => F k ω) i) * densityAt nbar i *
      (M.boxsize 0 / M.n 0 * (M.boxsize 1 / M.n 1) * (M.boxsize 2 / M.n 2)))
    (hU : ∀ ω, AreUniform (κ ω) U) (hNU : ∀ ω, IndepFun (fun x i => N i x) (fun x q => U q x) (κ ω)) :
    ∃ ps : Ω → Ω' → List (Fin 3 → ℝ),
      (∀ ω x, M.poissonSample ⟨M.realDelta b true fun k => F k ω, nbar, disp ω⟩ ranks (fun i => N i x) (fun j d => U (j, d) x) =
        .ok (ps ω x)) ∧
      (∀ A, MeasurableSet A → ∫ ω, ∫ x, (number A (ps ω x) : ℝ) ∂κ ω ∂μ = ∑ i, densityAt nbar i * cellVolume M A i) ∧
      (∀ A B, MeasurableSet A → MeasurableSet B → Disjoint A B →
        ∫ ω, ∫ x, (number A (ps ω x) : ℝ) * number B (ps ω x) ∂κ ω ∂μ = ∑ i, ∑ j,
          (1 + ∫ ω, M.realDelta b true (fun k => F k ω) i * M.realDelta b true (fun k => F k ω) j ∂μ) *
            (densityAt nbar i * cellVolume M A i) * (densityAt nbar j * cellVolume M B j)) ∧
      (∀ A, MeasurableSet A →
        ∫ ω, ∫ x, (number A (ps ω x) : ℝ) * (number A (ps ω x) - 1) ∂κ ω ∂μ = ∑ i, ∑ j,
          (1 + ∫ ω, M.realDelta b true (fun k => F k ω) i * M.realDelta b true (fun k => F k ω) j ∂μ) *
            (densityAt nbar i * cellVolume M A i) * (densityAt nbar j * cellVolume M A j)) := by
  set s : Ω → M.Fields := fun ω => ⟨M.realDelta b true fun k => F k ω, nbar, disp ω⟩ with hsdef
  have hat : ∀ ω i, (s ω).nbarAt i = densityAt nbar i := fun ω i => by cases nbar <;> rfl
  have hdl : ∀ ω i, 0 ≤ 1 + M.realDelta b true (fun k => F k ω) i := fun ω i => by
    have h := (lognormal_bounds (M.biased b (M.c2rReal fun k => F k ω)) i).1
    have e : M.realDelta b true (fun k => F k ω) i = M.lognormal (M.biased b (M.c2rReal fun k => F k ω)) i := rfl
    rw [e]
    linarith
  have hs : ∀ ω i, 0 ≤ M.cellMean (s ω) i := fun ω i => by
    unfold Mesh.cellMean
    rw [hat]
    exact mul_nonneg (mul_nonneg (hdl ω i) (hn i)) (dv_pos M hL).le
  have hN' : ∀ ω, ArePoisson (κ ω) N fun i => (1 + (s ω).delta i) * (s ω).nbarAt i *
      (M.boxsize 0 / M.n 0 * (M.boxsize 1 / M.n 1) * (M.boxsize 2 / M.n 2)) := fun ω => by
    simp only [hat]
    exact hN ω
  choose ps h1 h2 using fun ω => C105_process hL (hs ω) hr (hN' ω) (hU ω) (hNU ω)
  have hex : ∀ ω A, expected M (s ω) A = ∑ i, (1 + M.realDelta b true (fun k => F k ω) i) * (densityAt nbar i * cellVolume M A i) := by
    intro ω A
    unfold expected
    simp only [hat, mul_assoc]
    rfl
  have hnn : ∀ ω A, 0 ≤ expected M (s ω) A := fun ω A => expected_nonneg hL (hs ω) A
  have hi : ∀ i, Integrable (fun ω => M.realDelta b true (fun k => F k ω) i) μ := fun i =>
    (integrable_lognormal hW hF hb i).integrable (by norm_num)
  have hij : ∀ i j, Integrable (fun ω => M.realDelta b true (fun k => F k ω) i * M.realDelta b true (fun k => F k ω) j) μ := fun i j =>
    (integrable_lognormal hW hF hb i).integrable_mul (integrable_lognormal hW hF hb j)
  have hprod : ∀ A B, ∫ ω, expected M (s ω) A * expected M (s ω) B ∂μ = ∑ i, ∑ j,
      (1 + ∫ ω, M.realDelta b true (fun k => F k ω) i * M.realDelta b true (fun k => F k ω) j ∂μ) *
        (densityAt nbar i * cellVolume M A i) * (densityAt nbar j * cellVolume M B j) := by
    intro A B
    have e : ∀ i j ω, (1 + M.realDelta b true (fun k => F k ω) i) * (densityAt nbar i * cellVolume M A i) *
        ((1 + M.realDelta b true (fun k => F k ω) j) * (densityAt nbar j * cellVolume M B j)) =
        (1 + M.realDelta b true (fun k => F k ω) i + M.realDelta b true (fun k => F k ω) j +
          M.realDelta b true (fun k => F k ω) i * M.realDelta b true (fun k => F k ω) j) *
        ((densityAt nbar i * cellVolume M A i) * (densityAt nbar j * cellVolume M B j)) := fun i j ω => by ring
    have i1 : ∀ i, Integrable (fun ω => 1 + M.realDelta b true (fun k => F k ω) i) μ := fun i => (integrable_const 1).add (hi i)
    have i2 : ∀ i j, Integrable (fun ω => 1 + M.realDelta b true (fun k => F k ω) i + M.realDelta b true (fun k => F k ω) j) μ :=
      fun i j => (i1 i).add (hi j)
    have i3 : ∀ i j, Integrable (fun ω => 1 + M.realDelta b true (fun k => F k ω) i + M.realDelta b true (fun k => F k ω) j +
          M.realDelta b true (fun k => F k ω) i * M.realDelta b true (fun k => F k ω) j) μ := fun i j => (i2 i j).add (hij i j)
    simp only [hex, Finset.sum_mul_sum, e]
    rw [integral_finsetSum _ fun i _ => integrable_finsetSum _ fun j _ => (i3 i j).mul_const _]
    refine Finset.sum_congr rfl fun i _ => ?_
    rw [integral_finsetSum _ fun j _ => (i3 i j).mul_const _]
    refine Finset.sum_congr rfl fun j _ => ?_
    rw [integral_mul_const, integral_add (i2 i j) (hij i j), integral_add (i1 i) (hi j), integral_add (integrable_const 1) (hi i),
      C106_mean hW hF hb, C106_mean hW hF hb]
    simp only [integral_const, probReal_univ, smul_eq_mul, mul_one, add_zero]
    ring
  have hone : ∀ ω A, MeasurableSet A → ArePoisson (κ ω) (fun (_ : Unit) x => number A (ps ω x)) fun _ => expected M (s ω) A := fun ω A hA =>
    h2 ω Unit (fun _ => A) (fun _ => hA) fun x y h => absurd (Subsingleton.elim x y) h
  refine ⟨ps, h1, fun A hA => ?_, fun A B hA hB hd => ?_, fun A hA => ?_⟩
  · have : ∀ ω, ∫ x, (number A (ps ω x) : ℝ) ∂κ ω = expected M (s ω) A := fun ω => ((hone ω A hA).mean_eq (fun _ => hnn ω A) ()).2
    simp only [this, hex]
    have i1 : ∀ i, Integrable (fun ω => 1 + M.realDelta b true (fun k => F k ω) i) μ := fun i => (integrable_const 1).add (hi i)
    rw [integral_finsetSum _ fun i _ => (i1 i).mul_const _]
    refine Finset.sum_congr rfl fun i _ => ?_
    rw [integral_mul_const, integral_add (integrable_const 1) (hi i), C106_mean hW hF hb]
    simp
  · rw [← hprod]
    refine integral_congr_ae (Filter.Eventually.of_forall fun ω => ?_)
    have h := h2 ω Bool (fun c => cond c A B) (fun c => by cases c <;> assumption) (fun x y hxy => by
      cases x <;> cases y
      · exact absurd rfl hxy
      · exact hd.symm
      · exact hd
      · exact absurd rfl hxy)
    have hm := h.mean_eq (fun c => hnn ω _)
    have hI : IndepFun (fun x => (number A (ps ω x) : ℝ)) (fun x => (number B (ps ω x) : ℝ)) (κ ω) :=
      (h.independent.indepFun (i := true) (j := false) (by simp)).comp (φ := fun n : ℕ => (n : ℝ)) (ψ := fun n : ℕ => (n : ℝ))
        measurable_from_nat measurable_from_nat
    have := hI.integral_fun_mul_eq_mul_integral (hm true).1.aestronglyMeasurable (hm false).1.aestronglyMeasurable
    dsimp only
    rw [this, (hone ω A hA).mean_eq (fun _ => hnn ω A) () |>.2, (hone ω B hB).mean_eq (fun _ => hnn ω B) () |>.2]
  · rw [← hprod]
    refine integral_congr_ae (Filter.Eventually.of_forall fun ω => ?_)
    dsimp only
    rw [(hone ω A hA).pairs_eq (fun _ => hnn ω A) (), sq]

/-- C106. With a constant mean density, the mean number of particles in any region of the box is the density times its volume. -/
theorem C106_density [IsProbabilityMeasure μ] (hL : ∀ d, 0 < M.boxsize d) (hW : HomogeneousNoise M μ W)
    (hF : ∀ ω k, M.complexDelta p inverted (fun k => W k ω) k = some (F k ω)) (hb : SameBias b)
    {nbar : ℝ} (hn : 0 ≤ nbar) (disp : Ω → Fin 3 → M.Idx → ℝ) {ranks : List (List M.Idx)} (hr : Decomposition M ranks)
    (hN : ∀ ω, ArePoisson (κ ω) N fun i => (1 + M.realDelta b true (fun k => F k ω) i) * nbar *
      (M.boxsize 0 / M.n 0 * (M.boxsize 1 / M.n 1) * (M.boxsize 2 / M.n 2)))
    (hU : ∀ ω, AreUniform (κ ω) U) (hNU : ∀ ω, IndepFun (fun x i => N i x) (fun x q => U q x) (κ ω)) :
    ∃ ps : Ω → Ω' → List (Fin 3 → ℝ),
      (∀ ω x, M.poissonSample ⟨M.realDelta b true fun k => F k ω, .inl nbar, disp ω⟩ ranks (fun i => N i x) (fun j d => U (j, d) x) =
        .ok (ps ω x)) ∧
      ∀ A, MeasurableSet A → (∀ x ∈ A, ∀ d, M.boxcenter d - M.boxsize d / 2 ≤ x d ∧ x d < M.boxcenter d + M.boxsize d / 2) →
        ∫ ω, ∫ x, (number A (ps ω x) : ℝ) ∂κ ω ∂μ = nbar * (MeasureTheory.volume A).toReal := by
  obtain ⟨ps, h1, h2, _⟩ := C106_catalog hL hW hF hb (.inl nbar) (fun _ => hn) disp hr hN hU hNU
  refine ⟨ps, h1, fun A hA hin => ?_⟩
  rw [h2 A hA]
  change ∑ i, nbar * cellVolume M A i = _
  have hsub : A ⊆ {p | ∀ d, M.boxcenter d - M.boxsize d / 2 ≤ p d ∧ p d < M.boxcenter d + M.boxsize d / 2} := fun x hx => hin x hx
  rw [← Finset.mul_sum, cells_volume hL hA, Set.inter_eq_left.2 hsub]

end

/-! ### Non-vacuity -/

/-- Independent noise at nodes, all of the same law, is homogeneous. -/
theorem homogeneous_of_draws {g : M.Idx → Ω → ℝ} {law : Measure ℝ} [IsProbabilityMeasure μ] (hg : AreDraws μ g law) (c : ℂ) :
    HomogeneousNoise M μ fun k ω => c * M.r2c (fun i => (g i ω : ℂ)) k := by
  have hc : ∀ ω i, M.c2r (fun k => c * M.r2c (fun i => (g i ω : ℂ)) k) i = c * g i ω := fun ω i => by
    have := c2r_r2c M (fun i => (g i ω : ℂ)) i
    rw [← this]
    unfold Mesh.c2r
    rw [Finset.mul_sum]
    exact Finset.sum_congr rfl fun k _ => by ring
  refine ⟨fun k => ?_, fun m => ?_⟩
  · have := hg.measurable
    unfold Mesh.r2c
    fun_prop
  · simp only [hc]
    have hcm : Measurable fun (f : M.Idx → ℝ) i => c * (f i : ℂ) := by fun_prop
    have m1 : Measurable fun ω i => g i ω := measurable_pi_lambda _ hg.measurable
    have m2 : Measurable fun ω i => g (i + m) ω := measurable_pi_lambda _ fun i => hg.measurable _
    have e1 : (fun ω i => c * (g (i + m) ω : ℂ)) = (fun (f : M.Idx → ℝ) i => c * (f i : ℂ)) ∘ fun ω i => g (i + m) ω := rfl
    have e2 : (fun ω => M.c2r fun k => c * M.r2c (fun i => (g i ω : ℂ)) k) = (fun (f : M.Idx → ℝ) i => c * (f i : ℂ)) ∘ fun ω i => g i ω := by
      funext ω i
      exact hc ω i
    rw [e1, e2, ← Measure.map_map hcm m2, ← Measure.map_map hcm m1]
    congr 1
    have h1 := (iIndepFun_iff_map_fun_eq_infinitePi_map hg.measurable).1 hg.independent
    have h2 := (iIndepFun_iff_map_fun_eq_infinitePi_map fun i => hg.measurable (i + m)).1
      (hg.independent.precomp (g := fun i => i + m) (add_left_injective m))
    rw [h1, h2]
    congr 1
    funext i
    rw [draws_map hg, draws_map hg]

/-- Hypotheses of the theorems above: on a mesh of 4³ nodes with P(k) = k, bias 2 and density 3, there is homogeneous noise, with a field
of modes made of it, and draws given the field. -/
theorem witness : ∃ (Ω : Type) (_ : MeasurableSpace Ω) (μ : Measure Ω) (_ : IsProbabilityMeasure μ) (W F : mesh4.Idx → Ω → ℂ)
    (Ω' : Type) (_ : MeasurableSpace Ω') (κ : Ω → Measure Ω') (_ : ∀ ω, IsProbabilityMeasure (κ ω)) (N : mesh4.Idx → Ω' → ℕ)
    (U : ℕ × Fin 3 → Ω' → ℝ) (ranks : List (List mesh4.Idx)),
    HomogeneousNoise mesh4 μ W ∧ (∀ d, 0 < mesh4.boxsize d) ∧ Decomposition mesh4 ranks ∧
    (∀ ω k, mesh4.complexDelta (.iso fun k => k) false (fun k => W k ω) k = some (F k ω)) ∧ SameBias (.const 2) ∧
    (∀ ω, ArePoisson (κ ω) N fun i => (1 + mesh4.realDelta (.const 2) true (fun k => F k ω) i) * 3 *
      (mesh4.boxsize 0 / mesh4.n 0 * (mesh4.boxsize 1 / mesh4.n 1) * (mesh4.boxsize 2 / mesh4.n 2))) ∧
    (∀ ω, AreUniform (κ ω) U) ∧ ∀ ω, IndepFun (fun x i => N i x) (fun x q => U q x) (κ ω) := by
  obtain ⟨Ω, mΩ, μ, hμ, g, hg⟩ := exists_areDraws mesh4.Idx (gaussianReal 0 1)
  have hL : ∀ d, 0 < mesh4.boxsize d := fun d => by norm_num [mesh4]
  have hp : ∀ k, k ≠ 0 → 0 < powerOf mesh4 (.iso fun k => k) k := fun k h0 => by
    simp only [powerOf]
    rw [← sqrt_k2]
    exact Real.sqrt_pos.2 (lt_of_le_of_ne (k2_nonneg _ _) fun h => h0 ((k2_zero_iff mesh4 hL k).1 h.symm))
  let W : mesh4.Idx → Ω → ℂ := fun k ω => 1 * mesh4.r2c (fun i => (g i ω : ℂ)) k
  let F : mesh4.Idx → Ω → ℂ := fun k ω => if k = 0 then 0 else
    W k ω * (Real.sqrt (powerOf mesh4 (.iso fun k => k) k / Props.volume mesh4) : ℝ)
  obtain ⟨Ω', mΩ', N, U, h⟩ := exists_family mesh4.Idx
  have hpos : ∀ ω i, 0 ≤ (1 + mesh4.realDelta (.const 2) true (fun k => F k ω) i) * 3 *
      (mesh4.boxsize 0 / mesh4.n 0 * (mesh4.boxsize 1 / mesh4.n 1) * (mesh4.boxsize 2 / mesh4.n 2)) := fun ω i => by
    have h := (lognormal_bounds (mesh4.biased (.const 2) (mesh4.c2rReal fun k => F k ω)) i).1
    have e : mesh4.realDelta (.const 2) true (fun k => F k ω) i = mesh4.lognormal (mesh4.biased (.const 2) (mesh4.c2rReal fun k => F k ω)) i := rfl
    rw [e]
    have := hL 0
    have := hL 1
    have := hL 2
    have h1 : 0 ≤ 1 + mesh4.lognormal (mesh4.biased (.const 2) (mesh4.c2rReal fun k => F k ω)) i := by linarith
    positivity
  choose κ hκ h1 h2 h3 using fun ω => h _ (hpos ω)
  refine ⟨Ω, mΩ, μ, hμ, W, F, Ω', mΩ', κ, hκ, N, U, [Finset.univ.toList], homogeneous_of_draws hg 1, hL, by simp [Decomposition],
    fun ω k => ?_, .const 2, h1, h2, h3⟩
  by_cases h0 : k = 0
  · simp only [F, if_pos h0]
    rw [h0, C60_zero mesh4 _ false _ hL]
  · simp only [F, if_neg h0]
    rw [C60_mode mesh4 hL _ false _ k h0 (hp k h0).le]
    simp

end Verif.Props.Homogeneity
