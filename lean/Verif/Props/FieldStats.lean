import Verif.Spec.Draws
import Verif.Props.Chance
import Verif.Props.GaussField
import Verif.Props.Kaiser
import Mathlib.MeasureTheory.Integral.Bochner.ContinuousLinearMap
import Mathlib.MeasureTheory.Function.LpSeminorm.Monotonicity
import Mathlib.Probability.Distributions.Gaussian.HasGaussianLaw.Independence

/-!
# C104: statistics of Gaussian fields

If the noise of pmesh is white (modes of unit variance, without correlation between modes), the fields have the power spectrum given
by the user: in Fourier space, as a correlation function in real space, and with the Kaiser factor in redshift space.
-/

namespace Verif.Props.FieldStats

open Verif Verif.Model Verif.Spec Verif.Props Verif.Lemmas.Mesh MeasureTheory ProbabilityTheory ComplexConjugate

variable {Ω : Type*} [MeasurableSpace Ω] {μ : Measure Ω} (M : Mesh)

/-! ### Specification -/

/-- White noise in Fourier space: the modes of a real field, of zero mean, unit variance, uncorrelated. Nothing is assumed about the
zero mode, which pmesh sets to a fixed value. -/
structure WhiteModes (μ : Measure Ω) (W : M.Idx → Ω → ℂ) : Prop where
  square : ∀ k, MemLp (W k) 2 μ
  real : ∀ ω, Hermitian M fun k => W k ω
  mean : ∀ k, k ≠ 0 → ∫ ω, W k ω ∂μ = 0
  unit : ∀ k, k ≠ 0 → ∫ ω, W k ω * conj (W k ω) ∂μ = 1
  uncorrelated : ∀ k k', k ≠ 0 → k' ≠ 0 → k ≠ k' → ∫ ω, W k ω * conj (W k' ω) ∂μ = 0

/-- Scalar product of a wave vector and the separation of two nodes. -/
noncomputable def kdotr (k i j : M.Idx) : ℝ :=
  M.kvec k 0 * (nodeAt M i 0 - nodeAt M j 0) + M.kvec k 1 * (nodeAt M i 1 - nodeAt M j 1) + M.kvec k 2 * (nodeAt M i 2 - nodeAt M j 2)

/-- Correlation function of a power spectrum `P` (given for each mode) in a box: the sum over modes other than the zero mode of
P / V cos(k.(x - y)). -/
noncomputable def corr (P : M.Idx → ℝ) (i j : M.Idx) : ℝ :=
  ∑ k ∈ Finset.univ.filter (fun k : M.Idx => k ≠ 0), P k / Props.volume M * Real.cos (kdotr M k i j)

/-! ### Auxiliary facts -/

theorem std_exp (d : Fin 3) (a b : ℤ) : (ZMod.stdAddChar ((a : ZMod (M.n d)) * (b : ZMod (M.n d))) : ℂ) =
    Complex.exp (2 * Real.pi * Complex.I * (a * b) / M.n d) := by
  rw [← Int.cast_mul, ZMod.stdAddChar_coe]
  push_cast
  rfl

/-- The characters of the discrete Fourier transform are plane waves. -/
theorem char_wave (hL : ∀ d, 0 < M.boxsize d) (i j k : M.Idx) : M.char (i - j) k = Complex.exp (Complex.I * kdotr M k i j) := by
  have hd : ∀ d, (ZMod.stdAddChar ((i - j) d * k d) : ℂ) =
      Complex.exp (Complex.I * (M.kvec k d * (nodeAt M i d - nodeAt M j d) : ℝ)) := by
    intro d
    have h1 : (i - j) d = ((((i d).val : ℤ) - (j d).val : ℤ) : ZMod (M.n d)) := by
      push_cast
      simp
    have h2 : k d = ((M.freq d (k d) : ℤ) : ZMod (M.n d)) := (M.freq_cast d (k d)).symm
    rw [h1]
    conv_lhs => rw [h2]
    rw [std_exp]
    congr 1
    unfold Mesh.kvec nodeAt
    have hn := (n_pos' M d).ne'
    have hl := (hL d).ne'
    have hn' : (M.n d : ℂ) ≠ 0 := by exact_mod_cast hn
    have hl' : (M.boxsize d : ℂ) ≠ 0 := by exact_mod_cast hl
    push_cast
    field_simp
    ring
  unfold Mesh.char
  rw [Fin.prod_univ_three, hd 0, hd 1, hd 2, ← Complex.exp_add, ← Complex.exp_add]
  congr 1
  unfold kdotr
  push_cast
  ring

theorem conj_memLp {f : Ω → ℂ} (h : MemLp f 2 μ) : MemLp (fun ω => conj (f ω)) 2 μ := h.star

theorem int_mul_conj {f g : Ω → ℂ} (hf : MemLp f 2 μ) (hg : MemLp g 2 μ) : Integrable (fun ω => f ω * conj (g ω)) μ :=
  hf.integrable_mul (conj_memLp hg)

/-- Covariance of two linear combinations. -/
theorem cov_sum {ι : Type*} [Fintype ι] {G : ι → Ω → ℂ} (hG : ∀ k, MemLp (G k) 2 μ) (a b : ι → ℂ) :
    ∫ ω, (∑ k, G k ω * a k) * conj (∑ k, G k ω * b k) ∂μ = ∑ k, ∑ k', a k * conj (b k') * ∫ ω, G k ω * conj (G k' ω) ∂μ := by
  have e : ∀ ω, (∑ k, G k ω * a k) * conj (∑ k, G k ω * b k) = ∑ k, ∑ k', a k * conj (b k') * (G k ω * conj (G k' ω)) := by
    intro ω
    rw [map_sum, Finset.sum_mul_sum]
    refine Finset.sum_congr rfl fun k _ => Finset.sum_congr rfl fun k' _ => ?_
    rw [map_mul]
    ring
  simp only [e]
  rw [integral_finsetSum _ fun k _ => integrable_finsetSum _ fun k' _ => (int_mul_conj (hG k) (hG k')).const_mul _]
  refine Finset.sum_congr rfl fun k _ => ?_
  rw [integral_finsetSum _ fun k' _ => (int_mul_conj (hG k) (hG k')).const_mul _]
  exact Finset.sum_congr rfl fun k' _ => integral_const_mul _ _

/-- A field whose modes are uncorrelated, of variances `v`: its covariance in real space. -/
theorem cov_field (hL : ∀ d, 0 < M.boxsize d) {G : M.Idx → Ω → ℂ} (hG : ∀ k, MemLp (G k) 2 μ) (hr : ∀ ω, Hermitian M fun k => G k ω)
    (v : M.Idx → ℝ) (hv : ∀ k k', ∫ ω, G k ω * conj (G k' ω) ∂μ = if k = k' then (v k : ℂ) else 0) (i j : M.Idx) :
    ∫ ω, M.c2rReal (fun k => G k ω) i * M.c2rReal (fun k => G k ω) j ∂μ = ∑ k, v k * Real.cos (kdotr M k i j) := by
  have hre : ∀ ω i, (M.c2rReal (fun k => G k ω) i : ℂ) = M.c2r (fun k => G k ω) i := fun ω i =>
    Complex.ext (by simp [Mesh.c2rReal]) (by simp [(C43_real_iff M _).2 (hr ω) i])
  have hc : ∀ ω, ((M.c2rReal (fun k => G k ω) i * M.c2rReal (fun k => G k ω) j : ℝ) : ℂ) =
      (∑ k, G k ω * M.char i k) * conj (∑ k, G k ω * M.char j k) := by
    intro ω
    have h2 : conj (M.c2r (fun k => G k ω) j) = M.c2r (fun k => G k ω) j := by rw [← hre, Complex.conj_ofReal]
    push_cast
    rw [hre, hre, ← h2]
    rfl
  have hC : ((∫ ω, M.c2rReal (fun k => G k ω) i * M.c2rReal (fun k => G k ω) j ∂μ : ℝ) : ℂ) = ∑ k, (v k : ℂ) * M.char (i - j) k := by
    rw [← integral_complex_ofReal]
    rw [integral_congr_ae (Filter.Eventually.of_forall hc), cov_sum hG]
    refine Finset.sum_congr rfl fun k _ => ?_
    simp only [hv]
    rw [Finset.sum_eq_single k (fun k' _ h => by rw [if_neg (Ne.symm h), mul_zero]) (by simp), if_pos rfl, conj_char, sub_eq_add_neg,
      char_add, char_neg_swap]
    ring
  have := congrArg Complex.re hC
  rw [Complex.ofReal_re] at this
  rw [this, Complex.re_sum]
  refine Finset.sum_congr rfl fun k _ => ?_
  rw [Complex.re_ofReal_mul, char_wave M hL, mul_comm Complex.I, Complex.exp_ofReal_mul_I_re]

theorem mean_field {G : M.Idx → Ω → ℂ} (hG : ∀ k, Integrable (G k) μ) (h0 : ∀ k, ∫ ω, G k ω ∂μ = 0) (i : M.Idx) :
    ∫ ω, M.c2rReal (fun k => G k ω) i ∂μ = 0 := by
  have hI : Integrable (fun ω => ∑ k, G k ω * M.char i k) μ := integrable_finsetSum _ fun k _ => (hG k).mul_const _
  have : ∫ ω, M.c2rReal (fun k => G k ω) i ∂μ = (∫ ω, ∑ k, G k ω * M.char i k ∂μ).re := by
    have := integral_re (𝕜 := ℂ) hI
    exact this
  rw [this, integral_finsetSum _ fun k _ => (hG k).mul_const _]
  simp [integral_mul_const, h0]

section
variable {M}
variable {p : Mesh.Power} {inverted : Bool} {W F : M.Idx → Ω → ℂ}

theorem sqrt_even (hsym : ∀ k, powerOf M p (-k) = powerOf M p k) (k : M.Idx) :
    Real.sqrt (powerOf M p (-k) / Props.volume M) = Real.sqrt (powerOf M p k / Props.volume M) := by rw [hsym]

omit [MeasurableSpace Ω] in
/-- Modes: zero for the zero mode, otherwise noise times the amplitude. -/
theorem modes_eq (hL : ∀ d, 0 < M.boxsize d) (hp : ∀ k, k ≠ 0 → 0 ≤ powerOf M p k)
    (hF : ∀ ω k, M.complexDelta p inverted (fun k => W k ω) k = some (F k ω)) (k : M.Idx) :
    F k = fun ω => if k = 0 then 0 else (if inverted then -1 else 1) * W k ω * (Real.sqrt (powerOf M p k / Props.volume M) : ℝ) := by
  funext ω
  have h := hF ω k
  split
  · rename_i h0
    rw [h0, C60_zero M p inverted _ hL] at h
    rw [h0]
    exact (Option.some.inj h).symm
  · rename_i h0
    rw [C60_mode M hL p inverted _ k h0 (hp k h0)] at h
    exact (Option.some.inj h).symm

theorem modes_memLp (hL : ∀ d, 0 < M.boxsize d) (hp : ∀ k, k ≠ 0 → 0 ≤ powerOf M p k) (hW : WhiteModes M μ W)
    (hF : ∀ ω k, M.complexDelta p inverted (fun k => W k ω) k = some (F k ω)) (k : M.Idx) : MemLp (F k) 2 μ := by
  rw [modes_eq hL hp hF k]
  split
  · exact MemLp.zero
  · exact (((hW.square k).const_mul _).mul_const _)

theorem modes_hermitian (hL : ∀ d, 0 < M.boxsize d) (hp : ∀ k, k ≠ 0 → 0 ≤ powerOf M p k) (hsym : ∀ k, powerOf M p (-k) = powerOf M p k)
    (hW : WhiteModes M μ W) (hF : ∀ ω k, M.complexDelta p inverted (fun k => W k ω) k = some (F k ω)) (ω : Ω) :
    Hermitian M fun k => F k ω := by
  intro k
  simp only [modes_eq hL hp hF]
  by_cases h0 : k = 0
  · simp [h0]
  · have h := hW.real ω k
    dsimp only at h
    rw [if_neg h0, if_neg (by simpa using h0), hsym, h]
    cases inverted <;> simp

/-- C104. The modes of the field are uncorrelated, and the variance of each is the power spectrum over the volume of the box; the zero
mode vanishes. -/
theorem C104_modes (hL : ∀ d, 0 < M.boxsize d) (hp : ∀ k, k ≠ 0 → 0 ≤ powerOf M p k) (hW : WhiteModes M μ W)
    (hF : ∀ ω k, M.complexDelta p inverted (fun k => W k ω) k = some (F k ω)) (k k' : M.Idx) :
    ∫ ω, F k ω * conj (F k' ω) ∂μ = if k = k' ∧ k ≠ 0 then ((powerOf M p k / Props.volume M : ℝ) : ℂ) else 0 := by
  rw [modes_eq hL hp hF k, modes_eq hL hp hF k']
  by_cases h0 : k = 0
  · simp [h0]
  by_cases h0' : k' = 0
  · rw [if_neg (show ¬(k = k' ∧ k ≠ 0) from fun h => h0 (h.1.trans h0'))]
    simp [h0']
  simp only [if_neg h0, if_neg h0']
  set s : ℂ := if inverted then -1 else 1 with hs
  have hs1 : s * conj s = 1 := by rw [hs]; cases inverted <;> simp
  have e : ∀ ω, s * W k ω * ((Real.sqrt (powerOf M p k / Props.volume M) : ℝ) : ℂ) *
      conj (s * W k' ω * ((Real.sqrt (powerOf M p k' / Props.volume M) : ℝ) : ℂ)) =
      ((Real.sqrt (powerOf M p k / Props.volume M) * Real.sqrt (powerOf M p k' / Props.volume M) : ℝ) : ℂ) * (W k ω * conj (W k' ω)) := by
    intro ω
    rw [map_mul, map_mul, Complex.conj_ofReal]
    push_cast
    linear_combination ((Real.sqrt (powerOf M p k / Props.volume M) : ℝ) : ℂ) * ((Real.sqrt (powerOf M p k' / Props.volume M) : ℝ) : ℂ) *
      (W k ω * conj (W k' ω)) * hs1
  simp only [e]
  rw [integral_const_mul]
  by_cases hk : k = k'
  · subst hk
    rw [if_pos ⟨rfl, h0⟩, hW.unit k h0, mul_one, Real.mul_self_sqrt (div_nonneg (hp k h0) (volume_pos M hL).le)]
  · rw [if_neg (by tauto), hW.uncorrelated k k' h0 h0' hk, mul_zero]

theorem cov_delta (P : M.Idx → ℝ) (i j : M.Idx) :
    ∑ k, (if k ≠ 0 then P k / Props.volume M else 0) * Real.cos (kdotr M k i j) = corr M P i j := by
  unfold corr
  rw [Finset.sum_filter]
  refine Finset.sum_congr rfl fun k _ => ?_
  split <;> simp

/-- C104. Measuring the power spectrum, as the volume times the squared modulus of modes averaged over any set of modes, gives on
average the mean of the power spectrum over these modes. -/
theorem C104_measured (hL : ∀ d, 0 < M.boxsize d) (hp : ∀ k, k ≠ 0 → 0 ≤ powerOf M p k) (hW : WhiteModes M μ W)
    (hF : ∀ ω k, M.complexDelta p inverted (fun k => W k ω) k = some (F k ω)) (bin : Finset M.Idx) (h0 : (0 : M.Idx) ∉ bin) :
    ∫ ω, (∑ k ∈ bin, Props.volume M * ‖F k ω‖ ^ 2) / bin.card ∂μ = (∑ k ∈ bin, powerOf M p k) / bin.card := by
  have hsq : ∀ k ω, ((‖F k ω‖ ^ 2 : ℝ) : ℂ) = F k ω * conj (F k ω) := fun k ω => by
    rw [Complex.mul_conj, Complex.normSq_eq_norm_sq]
  have hI : ∀ k, Integrable (fun ω => ‖F k ω‖ ^ 2) μ := fun k => (modes_memLp hL hp hW hF k).integrable_norm_pow (by norm_num)
  rw [integral_div, integral_finsetSum _ fun k _ => (hI k).const_mul _]
  congr 1
  refine Finset.sum_congr rfl fun k hk => ?_
  have hk0 : k ≠ 0 := fun h => h0 (h ▸ hk)
  rw [integral_const_mul]
  have : ((∫ ω, ‖F k ω‖ ^ 2 ∂μ : ℝ) : ℂ) = ((powerOf M p k / Props.volume M : ℝ) : ℂ) := by
    rw [← integral_complex_ofReal]
    rw [integral_congr_ae (Filter.Eventually.of_forall fun ω => hsq k ω), C104_modes hL hp hW hF k k, if_pos ⟨rfl, hk0⟩]
  rw [Complex.ofReal_injective this]
  have := (volume_pos M hL).ne'
  field_simp

/-- C104. In real space the density contrast, with a constant bias, has zero mean, and its covariance at two nodes is the correlation
function of the power spectrum times the square of the bias: it depends on their separation only. The power spectrum is assumed
to be symmetric, which it is if it does not depend on the line of sight. -/
theorem C104_correlation [IsProbabilityMeasure μ] (hL : ∀ d, 0 < M.boxsize d) (hp : ∀ k, k ≠ 0 → 0 ≤ powerOf M p k)
    (hsym : ∀ k, powerOf M p (-k) = powerOf M p k) (hW : WhiteModes M μ W)
    (hF : ∀ ω k, M.complexDelta p inverted (fun k => W k ω) k = some (F k ω)) (b : ℝ) :
    (∀ i, ∫ ω, M.realDelta (.const b) false (fun k => F k ω) i ∂μ = 0) ∧
    ∀ i j, ∫ ω, M.realDelta (.const b) false (fun k => F k ω) i * M.realDelta (.const b) false (fun k => F k ω) j ∂μ =
      b ^ 2 * corr M (powerOf M p) i j := by
  have hm := modes_memLp hL hp hW hF
  have hr : ∀ ω i, M.realDelta (.const b) false (fun k => F k ω) i = b * M.c2rReal (fun k => F k ω) i := fun ω i => by
    simp [Mesh.realDelta, Mesh.biased, mul_comm]
  simp only [hr]
  constructor
  · intro i
    rw [integral_const_mul, mean_field M (fun k => (hm k).integrable (by norm_num)), mul_zero]
    intro k
    rw [modes_eq hL hp hF k]
    by_cases h0 : k = 0
    · simp [h0]
    · simp only [if_neg h0]
      rw [integral_mul_const, integral_const_mul, hW.mean k h0]
      simp
  · intro i j
    rw [← cov_delta, ← cov_field M hL hm (modes_hermitian hL hp hsym hW hF) (fun k => if k ≠ 0 then powerOf M p k / Props.volume M else 0)
      (fun k k' => ?_) i j, ← integral_const_mul]
    · congr 1
      funext ω
      ring
    · rw [C104_modes hL hp hW hF k k']
      by_cases h : k = k'
      · subst h
        by_cases h0 : k = 0 <;> simp [h0]
      · simp [h]

/-- C104. In particular with a power spectrum that does not depend on the line of sight. -/
theorem C104_isotropic [IsProbabilityMeasure μ] (hL : ∀ d, 0 < M.boxsize d) {P : ℝ → ℝ} (hP : ∀ k, 0 ≤ P k) (hW : WhiteModes M μ W)
    (hF : ∀ ω k, M.complexDelta (.iso P) inverted (fun k => W k ω) k = some (F k ω)) (b : ℝ) (i j : M.Idx) :
    ∫ ω, M.realDelta (.const b) false (fun k => F k ω) i * M.realDelta (.const b) false (fun k => F k ω) j ∂μ =
      b ^ 2 * corr M (fun k => P (waveNumber M k)) i j := by
  have hp : ∀ k, 0 ≤ powerOf M (.iso P) k := fun k => hP _
  refine (C104_correlation hL (fun k _ => hp k) (fun k => ?_) hW hF b).2 i j
  simp only [powerOf]
  rw [← sqrt_k2, ← sqrt_k2, k2_neg]

/-- C104. With a fixed line of sight, the field in redshift space has the power spectrum (b + f mu²)² P(k). Missing for the full claim:
lines of sight that are not along an axis, with even mesh sizes, see `C42_modes_partial`. -/
theorem C104_kaiser_partial (hL : ∀ d, 0 < M.boxsize d) (hp : ∀ k, k ≠ 0 → 0 ≤ powerOf M p k)
    (hsym : ∀ k, powerOf M p (-k) = powerOf M p k) (hW : WhiteModes M μ W)
    (hF : ∀ ω k, M.complexDelta p inverted (fun k => W k ω) k = some (F k ω)) (b f : ℝ) {los : Axis} (hlos : los ≠ .none) {n : V3 ℝ}
    (hn : getLos los = .ok n) (hm : AlongAxis ![n.x, n.y, n.z] ∨ ∀ d, Odd (M.n d)) :
    ∃ out : Ω → M.Idx → ℝ, (∀ ω, M.eulerianRsd (.const f) los (fun k => F k ω) (M.realDelta (.const b) false fun k => F k ω) =
        .ok fun i => some (out ω i)) ∧
      ∀ i j, ∫ ω, out ω i * out ω j ∂μ = corr M (fun k => (b + f * cosSq M n k) ^ 2 * powerOf M p k) i j := by
  have hH := modes_hermitian hL hp hsym hW hF
  have hr : ∀ ω, M.realDelta (.const b) false (fun k => F k ω) = fun i => b * M.c2rReal (fun k => F k ω) i := fun ω => by
    funext i
    simp [Mesh.realDelta, Mesh.biased, mul_comm]
  choose out h1 h2 using fun ω => C42_modes_partial M hL hlos hn f b (fun k => F k ω) (hH ω) hm
  refine ⟨out, fun ω => by rw [hr]; exact h1 ω, fun i j => ?_⟩
  set G : M.Idx → Ω → ℂ := fun k ω => ((b + f * cosSq M n k : ℝ) : ℂ) * F k ω with hG
  have hmodes : ∀ ω, (fun k => G k ω) = M.r2c fun i => (out ω i : ℂ) := fun ω => (funext fun k => (h2 ω k)).symm
  have hout : ∀ ω i, out ω i = M.c2rReal (fun k => G k ω) i := by
    intro ω i
    rw [hmodes]
    unfold Mesh.c2rReal
    rw [c2r_r2c, Complex.ofReal_re]
  simp only [hout]
  have hGm : ∀ k, MemLp (G k) 2 μ := fun k => (modes_memLp hL hp hW hF k).const_mul _
  have hGh : ∀ ω, Hermitian M fun k => G k ω := fun ω => by rw [hmodes]; exact hermitian_r2c M _
  rw [cov_field M hL hGm hGh (fun k => if k ≠ 0 then (b + f * cosSq M n k) ^ 2 * powerOf M p k / Props.volume M else 0) (fun k k' => ?_)]
  · exact cov_delta _ i j
  · have e : ∀ ω, G k ω * conj (G k' ω) = (((b + f * cosSq M n k) * (b + f * cosSq M n k') : ℝ) : ℂ) * (F k ω * conj (F k' ω)) := by
      intro ω
      simp only [hG, map_mul, Complex.conj_ofReal]
      push_cast
      ring
    simp only [e]
    rw [integral_const_mul, C104_modes hL hp hW hF k k']
    by_cases h : k = k'
    · subst h
      by_cases h0 : k = 0
      · simp [h0]
      · simp only [h0, ne_eq, not_false_eq_true, and_self, if_true]
        push_cast
        ring
    · simp [h]

/-- C104. `set_real_white_noise` adds a noise of variance 1 / (nbar dv) at each node, without correlation between nodes, if the noise
of pmesh in real space is white and not correlated with the field. -/
theorem C104_noise [IsProbabilityMeasure μ] {delta g : M.Idx → Ω → ℝ} (hd : ∀ i, MemLp (delta i) 2 μ) (hg : ∀ i, MemLp (g i) 2 μ)
    (hgg : ∀ i j, ∫ ω, g i ω * g j ω ∂μ = if i = j then 1 else 0) (hdg : ∀ i j, ∫ ω, delta i ω * g j ω ∂μ = 0)
    (nbar : M.Idx → ℝ) (hL : ∀ d, 0 < M.boxsize d) (hn : ∀ i, 0 < nbar i) (disp : Fin 3 → M.Idx → ℝ) :
    ∃ out : M.Idx → Ω → ℝ, (∀ i ω, M.whiteNoise ⟨fun i => delta i ω, .inr nbar, disp⟩ (fun i => g i ω) i = some (out i ω)) ∧
      ∀ i j, ∫ ω, out i ω * out j ω ∂μ = ∫ ω, delta i ω * delta j ω ∂μ +
        if i = j then 1 / (nbar i * (M.boxsize 0 / M.n 0 * (M.boxsize 1 / M.n 1) * (M.boxsize 2 / M.n 2))) else 0 := by
  have hdv : M.dv = M.boxsize 0 / M.n 0 * (M.boxsize 1 / M.n 1) * (M.boxsize 2 / M.n 2) := by
    unfold Mesh.dv Mesh.cell
    rw [Fin.prod_univ_three]
  have hpos : 0 < M.dv := by
    unfold Mesh.dv Mesh.cell
    exact Finset.prod_pos fun d _ => div_pos (hL d) (n_pos' M d)
  have hs : ∀ i, 0 < nbar i * M.dv := fun i => mul_pos (hn i) hpos
  set c : M.Idx → ℝ := fun i => (Real.sqrt (nbar i * M.dv))⁻¹ with hc
  refine ⟨fun i ω => delta i ω + c i * g i ω, fun i ω => ?_, fun i j => ?_⟩
  · unfold Mesh.whiteNoise
    rw [if_neg (by simpa [Mesh.Fields.nbarAt] using hs i)]
    simp only [Mesh.Fields.nbarAt, hc, Option.some.injEq]
    ring
  · have e : ∀ ω, (delta i ω + c i * g i ω) * (delta j ω + c j * g j ω) =
        delta i ω * delta j ω + c j * (delta i ω * g j ω) + (c i * (delta j ω * g i ω) + c i * c j * (g i ω * g j ω)) := fun ω => by ring
    simp only [e]
    have i1 : Integrable (fun ω => delta i ω * delta j ω) μ := (hd i).integrable_mul (hd j)
    have i2 : ∀ i j, Integrable (fun ω => delta i ω * g j ω) μ := fun i j => (hd i).integrable_mul (hg j)
    have i3 : Integrable (fun ω => g i ω * g j ω) μ := (hg i).integrable_mul (hg j)
    have j1 : Integrable (fun ω => delta i ω * delta j ω + c j * (delta i ω * g j ω)) μ := i1.add ((i2 i j).const_mul _)
    have j2 : Integrable (fun ω => c i * (delta j ω * g i ω) + c i * c j * (g i ω * g j ω)) μ :=
      ((i2 j i).const_mul _).add (i3.const_mul _)
    rw [integral_add j1 j2, integral_add i1 ((i2 i j).const_mul _), integral_add ((i2 j i).const_mul _) (i3.const_mul _)]
    simp only [integral_const_mul, hdg, hgg, mul_zero, add_zero, zero_add]
    congr 1
    by_cases h : i = j
    · subst h
      rw [if_pos rfl, if_pos rfl, mul_one, ← hdv]
      simp only [hc]
      rw [← mul_inv, Real.mul_self_sqrt (hs i).le, one_div]
    · rw [if_neg h, if_neg h, mul_zero]

/-- C104. The density contrast is a Gaussian field if the noise is: all nodes jointly follow a Gaussian law. At each node the mean is
zero and the variance is the square of the bias times the sum of the power spectrum over modes, over the volume. -/
theorem C104_gaussian [IsProbabilityMeasure μ] (hL : ∀ d, 0 < M.boxsize d) (hp : ∀ k, k ≠ 0 → 0 ≤ powerOf M p k)
    (hsym : ∀ k, powerOf M p (-k) = powerOf M p k) (hW : WhiteModes M μ W) (hg : HasGaussianLaw (fun ω k => W k ω) μ)
    (hF : ∀ ω k, M.complexDelta p inverted (fun k => W k ω) k = some (F k ω)) (b : ℝ) :
    HasGaussianLaw (fun ω => M.realDelta (.const b) false (fun k => F k ω)) μ ∧
    ∀ i, μ.map (fun ω => M.realDelta (.const b) false (fun k => F k ω) i) = gaussianReal 0
      (b ^ 2 * ∑ k ∈ Finset.univ.filter (fun k : M.Idx => k ≠ 0), powerOf M p k / Props.volume M).toNNReal := by
  let a : M.Idx → ℂ := fun k => if k = 0 then 0 else (if inverted then -1 else 1) * (Real.sqrt (powerOf M p k / Props.volume M) : ℝ)
  let L : (M.Idx → ℂ) →ₗ[ℝ] (M.Idx → ℝ) :=
    { toFun := fun w i => (∑ k, w k * (a k * M.char i k)).re * b
      map_add' := fun v w => by
        funext i
        simp only [Pi.add_apply, add_mul, Finset.sum_add_distrib, Complex.add_re]
      map_smul' := fun c w => by
        funext i
        simp only [Pi.smul_apply, RingHom.id_apply, smul_eq_mul, Complex.real_smul, mul_assoc, ← Finset.mul_sum, Complex.re_ofReal_mul] }
  have hd : (fun ω => M.realDelta (.const b) false (fun k => F k ω)) = fun ω => LinearMap.toContinuousLinearMap L (fun k => W k ω) := by
    funext ω i
    change _ = (∑ k, W k ω * (a k * M.char i k)).re * b
    simp only [Mesh.realDelta, Mesh.biased, Bool.false_eq_true, if_false, Mesh.c2rReal, Mesh.c2r]
    congr 2
    refine Finset.sum_congr rfl fun k _ => ?_
    rw [modes_eq hL hp hF k]
    by_cases h0 : k = 0
    · simp [a, h0]
    · simp only [a, if_neg h0]
      ring
  have hG : HasGaussianLaw (fun ω => M.realDelta (.const b) false (fun k => F k ω)) μ := by
    rw [hd]
    exact hg.map_fun _
  refine ⟨hG, fun i => ?_⟩
  obtain ⟨h1, h2⟩ := C104_correlation hL hp hsym hW hF b
  have hi : HasGaussianLaw (fun ω => M.realDelta (.const b) false (fun k => F k ω) i) μ :=
    HasGaussianLaw.eval (X := fun i ω => M.realDelta (.const b) false (fun k => F k ω) i) hG i
  rw [hi.map_eq_gaussianReal, h1 i, variance_of_integral_eq_zero hi.aemeasurable (h1 i)]
  have := h2 i i
  simp only [← sq] at this
  rw [this]
  congr 4
  unfold corr
  refine Finset.sum_congr rfl fun k _ => ?_
  simp [kdotr]

end

/-! ### Lognormal fields, nonlinear biases -/

/-- Mean and variance of a linear function of a Gaussian vector of zero mean. -/
theorem gauss_dual {ι Ω : Type*} [Fintype ι] [DecidableEq ι] [MeasurableSpace Ω] {μ : Measure Ω} {X : ι → Ω → ℝ}
    (hX : HasGaussianLaw (fun ω i => X i ω) μ) (mX : ∀ i, ∫ ω, X i ω ∂μ = 0) (L : StrongDual ℝ (ι → ℝ)) :
    ∫ ω, L (fun i => X i ω) ∂μ = 0 ∧
    Var[fun ω => L (fun i => X i ω); μ] = ∑ i, ∑ j, L (Pi.single i 1) * L (Pi.single j 1) * ∫ ω, X i ω * X j ω ∂μ := by
  have h2 : ∀ i, MemLp (X i) 2 μ := fun i => (hX.eval i).memLp_two
  have hL : ∀ ω, L (fun i => X i ω) = ∑ i, L (Pi.single i 1) * X i ω := by
    intro ω
    have := LinearMap.pi_apply_eq_sum_univ (L : (ι → ℝ) →ₗ[ℝ] ℝ) (fun i => X i ω)
    simp only [ContinuousLinearMap.coe_coe, smul_eq_mul] at this
    rw [this]
    refine Finset.sum_congr rfl fun i _ => ?_
    rw [mul_comm]
    congr 2
    funext j
    simp [Pi.single_apply, eq_comm]
  have h0 : ∫ ω, L (fun i => X i ω) ∂μ = 0 := by
    have := hX.isProbabilityMeasure
    simp only [hL]
    rw [integral_finsetSum _ fun i _ => ((h2 i).integrable (by norm_num)).const_mul _]
    refine Finset.sum_eq_zero fun i _ => ?_
    rw [integral_const_mul, mX, mul_zero]
  refine ⟨h0, ?_⟩
  rw [variance_of_integral_eq_zero (hX.map_fun L).aemeasurable h0]
  have e : ∀ ω, L (fun i => X i ω) ^ 2 = ∑ i, ∑ j, L (Pi.single i 1) * L (Pi.single j 1) * (X i ω * X j ω) := by
    intro ω
    rw [hL, sq, Finset.sum_mul_sum]
    exact Finset.sum_congr rfl fun i _ => Finset.sum_congr rfl fun j _ => by ring
  simp only [e]
  have hi : ∀ i j, Integrable (fun ω => X i ω * X j ω) μ := fun i j => (h2 i).integrable_mul (h2 j)
  rw [integral_finsetSum _ fun i _ => integrable_finsetSum _ fun j _ => (hi i j).const_mul _]
  refine Finset.sum_congr rfl fun i _ => ?_
  rw [integral_finsetSum _ fun j _ => (hi i j).const_mul _]
  exact Finset.sum_congr rfl fun j _ => integral_const_mul _ _

/-- The law of a Gaussian vector of zero mean is given by its covariance. -/
theorem gauss_law {ι Ω Ω' : Type*} [Fintype ι] [DecidableEq ι] [MeasurableSpace Ω] {μ : Measure Ω} [MeasurableSpace Ω'] {ν : Measure Ω'}
    {X : ι → Ω → ℝ} {Y : ι → Ω' → ℝ}
    (hX : HasGaussianLaw (fun ω i => X i ω) μ) (hY : HasGaussianLaw (fun ω i => Y i ω) ν) (mX : ∀ i, ∫ ω, X i ω ∂μ = 0)
    (mY : ∀ i, ∫ ω, Y i ω ∂ν = 0) (hc : ∀ i j, ∫ ω, X i ω * X j ω ∂μ = ∫ ω, Y i ω * Y j ω ∂ν) :
    μ.map (fun ω i => X i ω) = ν.map (fun ω i => Y i ω) := by
  have := hX.isProbabilityMeasure
  have := hY.isProbabilityMeasure
  have := Measure.isProbabilityMeasure_map hX.aemeasurable
  have := Measure.isProbabilityMeasure_map hY.aemeasurable
  refine Measure.ext_of_charFunDual ?_
  funext L
  rw [hX.charFunDual_map_eq_fun, hY.charFunDual_map_eq_fun]
  obtain ⟨a1, a2⟩ := gauss_dual hX mX L
  obtain ⟨b1, b2⟩ := gauss_dual hY mY L
  rw [a1, a2, b1, b2]
  simp only [hc]

/-- Mean of the exponential of a Gaussian variable of zero mean. -/
theorem exp_mean {X : Ω → ℝ} (hX : HasGaussianLaw X μ) (h0 : ∫ ω, X ω ∂μ = 0) :
    Integrable (fun ω => Real.exp (X ω)) μ ∧ ∫ ω, Real.exp (X ω) ∂μ = Real.exp ((∫ ω, X ω ^ 2 ∂μ) / 2) := by
  have := hX.isProbabilityMeasure
  have hm := hX.map_eq_gaussianReal
  have hv : 0 ≤ Var[X; μ] := variance_nonneg _ _
  have h := mgf_gaussianReal hm 1
  constructor
  · have hi := integrable_exp_mul_gaussianReal (μ := ∫ ω, X ω ∂μ) (v := Var[X; μ].toNNReal) 1
    rw [← hm] at hi
    have := hi.comp_aemeasurable hX.aemeasurable
    simpa [Function.comp_def] using this
  · simp only [mgf, one_mul] at h
    rw [h, h0, variance_of_integral_eq_zero hX.aemeasurable h0, Real.coe_toNNReal _ (integral_nonneg fun ω => sq_nonneg _)]
    simp

section
variable {M}
variable {p : Mesh.Power} {inverted : Bool} {W F : M.Idx → Ω → ℂ}

/-- The field before the bias. -/
theorem base [IsProbabilityMeasure μ] (hL : ∀ d, 0 < M.boxsize d) (hp : ∀ k, k ≠ 0 → 0 ≤ powerOf M p k)
    (hsym : ∀ k, powerOf M p (-k) = powerOf M p k) (hW : WhiteModes M μ W) (hg : HasGaussianLaw (fun ω k => W k ω) μ)
    (hF : ∀ ω k, M.complexDelta p inverted (fun k => W k ω) k = some (F k ω)) :
    HasGaussianLaw (fun ω i => M.c2rReal (fun k => F k ω) i) μ ∧ (∀ i, ∫ ω, M.c2rReal (fun k => F k ω) i ∂μ = 0) ∧
    ∀ i j, ∫ ω, M.c2rReal (fun k => F k ω) i * M.c2rReal (fun k => F k ω) j ∂μ = corr M (powerOf M p) i j := by
  have e : ∀ ω, M.realDelta (.const 1) false (fun k => F k ω) = fun i => M.c2rReal (fun k => F k ω) i := fun ω => by
    funext i
    simp [Mesh.realDelta, Mesh.biased]
  have h1 := (C104_gaussian hL hp hsym hW hg hF 1).1
  obtain ⟨h2, h3⟩ := C104_correlation hL hp hsym hW hF 1
  simp only [e] at h1 h2 h3
  exact ⟨h1, h2, fun i j => by simpa using h3 i j⟩

/-- A bias that can be integrated. -/
def MeasurableBias : Mesh.Bias → Prop
  | .none => True
  | .const _ => True
  | .fn b => ∀ r, Measurable fun d => b d r

/-- C104. The law of the density contrast is given by the power spectrum. Take two mocks with noises of any origin, white and Gaussian,
on spaces of their own, of the same power spectrum, with inverted phases or not. With the same bias, any
function of the density contrast and of the distance, with or without the lognormal transform, all nodes jointly follow the same law. -/
theorem C104_law [IsProbabilityMeasure μ] {Ω' : Type*} [MeasurableSpace Ω'] {ν : Measure Ω'} [IsProbabilityMeasure ν]
    {inverted' : Bool} {W' F' : M.Idx → Ω' → ℂ} (hL : ∀ d, 0 < M.boxsize d) (hp : ∀ k, k ≠ 0 → 0 ≤ powerOf M p k)
    (hsym : ∀ k, powerOf M p (-k) = powerOf M p k) (hW : WhiteModes M μ W) (hg : HasGaussianLaw (fun ω k => W k ω) μ)
    (hF : ∀ ω k, M.complexDelta p inverted (fun k => W k ω) k = some (F k ω))
    (hW' : WhiteModes M ν W') (hg' : HasGaussianLaw (fun ω k => W' k ω) ν)
    (hF' : ∀ ω k, M.complexDelta p inverted' (fun k => W' k ω) k = some (F' k ω)) (b : Mesh.Bias) (hb : MeasurableBias b) (lognormal : Bool) :
    μ.map (fun ω => M.realDelta b lognormal (fun k => F k ω)) = ν.map (fun ω => M.realDelta b lognormal (fun k => F' k ω)) := by
  obtain ⟨a1, a2, a3⟩ := base hL hp hsym hW hg hF
  obtain ⟨b1, b2, b3⟩ := base hL hp hsym hW' hg' hF'
  have h := gauss_law a1 b1 a2 b2 fun i j => by rw [a3, b3]
  have hB : Measurable fun (d : M.Idx → ℝ) (i : M.Idx) => M.biased b d i := by
    refine measurable_pi_lambda _ fun i => ?_
    cases b with
    | none => exact measurable_pi_apply i
    | const b => exact Measurable.mul_const (f := fun d : M.Idx → ℝ => d i) (measurable_pi_apply i) b
    | fn b => exact (hb (M.rnorm i)).comp (measurable_pi_apply i)
  let T : (M.Idx → ℝ) → M.Idx → ℝ := fun d => if lognormal then M.lognormal (M.biased b d) else M.biased b d
  have hT : Measurable T := by
    cases lognormal with
    | false => simpa [T] using hB
    | true =>
      simp only [T, if_true]
      have : Measurable fun d : M.Idx → ℝ => M.lognormal d := by
        refine measurable_pi_lambda _ fun i => ?_
        unfold Mesh.lognormal Mesh.cmean
        fun_prop
      exact this.comp hB
  have e1 := AEMeasurable.map_map_of_aemeasurable hT.aemeasurable a1.aemeasurable
  have e2 := AEMeasurable.map_map_of_aemeasurable hT.aemeasurable b1.aemeasurable
  rw [← h] at e2
  exact e1.symm.trans e2

/-- C104. Nonlinear biases: with a bias that is a function of the density contrast, the law of the contrasts at two nodes depends only on
the correlation of the Gaussian field between them, for an isotropic power spectrum on the separation of the nodes. -/
theorem C104_nonlinear [IsProbabilityMeasure μ] (hL : ∀ d, 0 < M.boxsize d) (hp : ∀ k, k ≠ 0 → 0 ≤ powerOf M p k)
    (hsym : ∀ k, powerOf M p (-k) = powerOf M p k) (hW : WhiteModes M μ W) (hg : HasGaussianLaw (fun ω k => W k ω) μ)
    (hF : ∀ ω k, M.complexDelta p inverted (fun k => W k ω) k = some (F k ω)) {g : ℝ → ℝ} (hgm : Measurable g) {i j i' j' : M.Idx}
    (hc : corr M (powerOf M p) i j = corr M (powerOf M p) i' j') :
    μ.map (fun ω => (M.realDelta (.fn fun d _ => g d) false (fun k => F k ω) i, M.realDelta (.fn fun d _ => g d) false (fun k => F k ω) j)) =
    μ.map (fun ω => (M.realDelta (.fn fun d _ => g d) false (fun k => F k ω) i', M.realDelta (.fn fun d _ => g d) false (fun k => F k ω) j')) := by
  obtain ⟨a1, a2, a3⟩ := base hL hp hsym hW hg hF
  have hs : ∀ i i' : M.Idx, corr M (powerOf M p) i i = corr M (powerOf M p) i' i' := by
    intro i i'
    simp [corr, kdotr]
  have hr : ∀ i j : M.Idx, corr M (powerOf M p) i j = corr M (powerOf M p) j i := fun i j => by
    rw [← a3, ← a3]
    exact integral_congr_ae (.of_forall fun ω => mul_comm _ _)
  have hp2 : ∀ u : Fin 2 → M.Idx, HasGaussianLaw (fun ω (t : Fin 2) => M.c2rReal (fun k => F k ω) (u t)) μ := by
    intro u
    let L : (M.Idx → ℝ) →L[ℝ] (Fin 2 → ℝ) := ContinuousLinearMap.pi fun t => ContinuousLinearMap.proj (u t)
    exact a1.map_fun L
  have h := gauss_law (hp2 ![i, j]) (hp2 ![i', j']) (fun t => a2 _) (fun t => a2 _) fun s t => by
    rw [a3, a3]
    fin_cases s <;> fin_cases t
    · exact hs _ _
    · exact hc
    · exact (hr _ _).trans (hc.trans (hr _ _))
    · exact hs _ _
  let T : (Fin 2 → ℝ) → ℝ × ℝ := fun v => (g (v 0), g (v 1))
  have hT : Measurable T := (hgm.comp (measurable_pi_apply 0)).prodMk (hgm.comp (measurable_pi_apply 1))
  have e1 := AEMeasurable.map_map_of_aemeasurable hT.aemeasurable (hp2 ![i, j]).aemeasurable
  have e2 := AEMeasurable.map_map_of_aemeasurable hT.aemeasurable (hp2 ![i', j']).aemeasurable
  rw [← h] at e2
  exact e1.symm.trans e2

/-- The same, for pairs of nodes of the same separation. -/
theorem C104_nonlinear_homogeneous [IsProbabilityMeasure μ] (hL : ∀ d, 0 < M.boxsize d) (hp : ∀ k, k ≠ 0 → 0 ≤ powerOf M p k)
    (hsym : ∀ k, powerOf M p (-k) = powerOf M p k) (hW : WhiteModes M μ W) (hg : HasGaussianLaw (fun ω k => W k ω) μ)
    (hF : ∀ ω k, M.complexDelta p inverted (fun k => W k ω) k = some (F k ω)) {g : ℝ → ℝ} (hgm : Measurable g) (i j s : M.Idx) :
    μ.map (fun ω => (M.realDelta (.fn fun d _ => g d) false (fun k => F k ω) (i + s), M.realDelta (.fn fun d _ => g d) false (fun k => F k ω) (j + s))) =
    μ.map (fun ω => (M.realDelta (.fn fun d _ => g d) false (fun k => F k ω) i, M.realDelta (.fn fun d _ => g d) false (fun k => F k ω) j)) := by
  refine C104_nonlinear hL hp hsym hW hg hF hgm ?_
  unfold corr
  refine Finset.sum_congr rfl fun k _ => ?_
  have h := (char_wave M hL (i + s) (j + s) k).symm.trans ((congrArg (fun t => M.char t k) (add_sub_add_right_eq_sub i j s)).trans (char_wave M hL i j k))
  rw [mul_comm Complex.I, mul_comm Complex.I] at h
  have := congrArg Complex.re h
  rw [Complex.exp_ofReal_mul_I_re, Complex.exp_ofReal_mul_I_re] at this
  rw [this]

/-- C104. Lognormal fields. `set_real_delta_field(lognormal_transform=True)` divides the exponential of the (biased) Gaussian contrast
by its mean over the nodes of the mesh. One plus the contrast, times this mean, has the same expectation at every node, and the
correlation of lognormal fields: the product at two nodes is that of the expectations, times exp of the correlation of the Gaussian
contrasts. -/
theorem C104_lognormal [IsProbabilityMeasure μ] (hL : ∀ d, 0 < M.boxsize d) (hp : ∀ k, k ≠ 0 → 0 ≤ powerOf M p k)
    (hsym : ∀ k, powerOf M p (-k) = powerOf M p k) (hW : WhiteModes M μ W) (hg : HasGaussianLaw (fun ω k => W k ω) μ)
    (hF : ∀ ω k, M.complexDelta p inverted (fun k => W k ω) k = some (F k ω)) (b : ℝ) :
    ∃ mean : Ω → ℝ, (∀ ω, mean ω = (∑ i, Real.exp (M.realDelta (.const b) false (fun k => F k ω) i)) / Fintype.card M.Idx) ∧
      (∀ ω, 0 < mean ω) ∧
      (∀ i, ∫ ω, mean ω * (1 + M.realDelta (.const b) true (fun k => F k ω) i) ∂μ = ∫ ω, mean ω ∂μ) ∧
      ∀ i j, ∫ ω, mean ω * (1 + M.realDelta (.const b) true (fun k => F k ω) i) *
          (mean ω * (1 + M.realDelta (.const b) true (fun k => F k ω) j)) ∂μ =
        (∫ ω, mean ω ∂μ) ^ 2 * Real.exp (b ^ 2 * corr M (powerOf M p) i j) := by
  set D : M.Idx → Ω → ℝ := fun i ω => M.realDelta (.const b) false (fun k => F k ω) i with hD
  obtain ⟨c1, c2⟩ := C104_correlation hL hp hsym hW hF b
  have hG : HasGaussianLaw (fun ω i => D i ω) μ := (C104_gaussian hL hp hsym hW hg hF b).1
  have hi : ∀ i, HasGaussianLaw (D i) μ := fun i => hG.eval i
  have hcard : (0 : ℝ) < Fintype.card M.Idx := by exact_mod_cast Fintype.card_pos
  have hpos : ∀ ω, 0 < (∑ i, Real.exp (D i ω)) / Fintype.card M.Idx := fun ω =>
    div_pos (Finset.sum_pos (fun i _ => Real.exp_pos _) Finset.univ_nonempty) hcard
  have hout : ∀ ω i, (∑ i, Real.exp (D i ω)) / Fintype.card M.Idx * (1 + M.realDelta (.const b) true (fun k => F k ω) i) = Real.exp (D i ω) := by
    intro ω i
    have : M.realDelta (.const b) true (fun k => F k ω) i = Real.exp (D i ω) / ((∑ i, Real.exp (D i ω)) / Fintype.card M.Idx) - 1 := rfl
    rw [this]
    have := (hpos ω).ne'
    field_simp
    ring
  have hv : ∀ i j : M.Idx, ∫ ω, D i ω ^ 2 ∂μ = ∫ ω, D j ω ^ 2 ∂μ := fun i j => by
    simp only [sq]
    rw [c2, c2]
    simp [corr, kdotr]
  have h1 : ∀ i j : M.Idx, ∫ ω, Real.exp (D i ω) ∂μ = ∫ ω, Real.exp (D j ω) ∂μ := fun i j => by
    rw [(exp_mean (hi i) (c1 i)).2, (exp_mean (hi j) (c1 j)).2, hv i j]
  have hmean : ∀ i, ∫ ω, (∑ i, Real.exp (D i ω)) / Fintype.card M.Idx ∂μ = ∫ ω, Real.exp (D i ω) ∂μ := by
    intro i
    rw [integral_div, integral_finsetSum _ fun i _ => (exp_mean (hi i) (c1 i)).1, Finset.sum_congr rfl fun j _ => h1 j i,
      Finset.sum_const, Finset.card_univ, nsmul_eq_mul, mul_comm, mul_div_assoc, div_self hcard.ne', mul_one]
  refine ⟨fun ω => (∑ i, Real.exp (D i ω)) / Fintype.card M.Idx, fun ω => rfl, hpos, fun i => ?_, fun i j => ?_⟩
  · simp only [hout]
    exact (hmean i).symm
  · simp only [hout]
    have hsum : HasGaussianLaw (fun ω => D i ω + D j ω) μ := by
      let P : M.Idx → (M.Idx → ℝ) →L[ℝ] ℝ := fun i => ContinuousLinearMap.proj i
      exact hG.map_fun (P i + P j)
    have i2 : ∀ i, Integrable (D i) μ := fun i => (hi i).integrable
    have m2 : ∀ i, MemLp (D i) 2 μ := fun i => (hi i).memLp_two
    have h0 : ∫ ω, D i ω + D j ω ∂μ = 0 := by
      rw [integral_add (i2 i) (i2 j)]
      simp only [hD]
      rw [c1, c1, add_zero]
    simp only [← Real.exp_add]
    rw [(exp_mean hsum h0).2, hmean i, (exp_mean (hi i) (c1 i)).2, ← Real.exp_nat_mul, ← Real.exp_add]
    congr 1
    have e : ∀ ω, (D i ω + D j ω) ^ 2 = D i ω ^ 2 + D j ω ^ 2 + 2 * (D i ω * D j ω) := fun ω => by ring
    simp only [e]
    have q : ∀ i, Integrable (fun ω => D i ω ^ 2) μ := fun i => (m2 i).integrable_sq
    have q2 : Integrable (fun ω => D i ω ^ 2 + D j ω ^ 2) μ := (q i).add (q j)
    have q3 : Integrable (fun ω => 2 * (D i ω * D j ω)) μ := ((m2 i).integrable_mul (m2 j)).const_mul 2
    rw [integral_add q2 q3, integral_add (q i) (q j), integral_const_mul, hv j i]
    rw [show ∫ ω, D i ω * D j ω ∂μ = b ^ 2 * corr M (powerOf M p) i j from c2 i j]
    push_cast
    ring

end

/-! ### There is such noise, on any mesh -/

/-- White noise at the nodes is white noise in Fourier space. -/
theorem white_of_nodes {g : M.Idx → Ω → ℝ} (h2 : ∀ i, MemLp (g i) 2 μ) (h0 : ∀ i, ∫ ω, g i ω ∂μ = 0) [IsProbabilityMeasure μ]
    (hgg : ∀ i j, ∫ ω, g i ω * g j ω ∂μ = if i = j then 1 else 0) :
    WhiteModes M μ fun k ω => (Real.sqrt (∏ d, (M.n d : ℝ)) : ℝ) * M.r2c (fun i => (g i ω : ℂ)) k := by
  have hN : (0 : ℝ) < ∏ d, (M.n d : ℝ) := Finset.prod_pos fun d _ => n_pos' M d
  have hc : ∀ i, MemLp (fun ω => (g i ω : ℂ)) 2 μ := fun i => (h2 i).ofReal
  set c : ℂ := ((Real.sqrt (∏ d, (M.n d : ℝ)) : ℝ) : ℂ) / ∏ d, (M.n d : ℂ) with hcc
  have e : ∀ k ω, ((Real.sqrt (∏ d, (M.n d : ℝ)) : ℝ) : ℂ) * M.r2c (fun i => (g i ω : ℂ)) k = ∑ i, (g i ω : ℂ) * (c * M.char (-i) k) := by
    intro k ω
    unfold Mesh.r2c
    rw [mul_div_assoc', mul_div_right_comm, ← hcc, Finset.mul_sum]
    exact Finset.sum_congr rfl fun i _ => by ring
  have hcov : ∀ k k', ∫ ω, ((Real.sqrt (∏ d, (M.n d : ℝ)) : ℝ) : ℂ) * M.r2c (fun i => (g i ω : ℂ)) k *
      conj (((Real.sqrt (∏ d, (M.n d : ℝ)) : ℝ) : ℂ) * M.r2c (fun i => (g i ω : ℂ)) k') ∂μ = if k = k' then 1 else 0 := by
    intro k k'
    simp only [e]
    rw [cov_sum hc]
    have hgc : ∀ i j, ∫ ω, (g i ω : ℂ) * conj (g j ω : ℂ) ∂μ = if i = j then 1 else 0 := by
      intro i j
      have : ∀ ω, (g i ω : ℂ) * conj (g j ω : ℂ) = ((g i ω * g j ω : ℝ) : ℂ) := fun ω => by simp
      simp only [this]
      rw [integral_complex_ofReal, hgg]
      split <;> simp
    simp only [hgc]
    have hs : ∀ i, ∑ j, c * M.char (-i) k * conj (c * M.char (-j) k') * (if i = j then 1 else 0) = c * conj c * M.char (k' - k) i := by
      intro i
      rw [Finset.sum_eq_single i (fun j _ h => by rw [if_neg (Ne.symm h), mul_zero]) (by simp), if_pos rfl, map_mul, conj_char,
        char_neg_neg, sub_eq_add_neg, char_add, char_neg_swap, char_comm M i (-k), char_comm M i k']
      ring
    simp only [hs]
    rw [← Finset.mul_sum, sum_char]
    have hcp : c * conj c * ∏ d, (M.n d : ℂ) = 1 := by
      have hr : c = ((Real.sqrt (∏ d, (M.n d : ℝ)) / ∏ d, (M.n d : ℝ) : ℝ) : ℂ) := by rw [hcc]; push_cast; rfl
      rw [hr, Complex.conj_ofReal]
      have : (∏ d, (M.n d : ℂ)) = ((∏ d, (M.n d : ℝ) : ℝ) : ℂ) := by push_cast; rfl
      rw [this]
      generalize (∏ d, (M.n d : ℝ)) = N at hN
      norm_cast
      rw [div_mul_div_comm, Real.mul_self_sqrt hN.le]
      field_simp
    by_cases h : k = k'
    · rw [if_pos (sub_eq_zero.2 h.symm), if_pos h, hcp]
    · rw [if_neg (fun h' => h (sub_eq_zero.1 h').symm), if_neg h, mul_zero]
  refine ⟨fun k => ?_, fun ω => ?_, fun k _ => ?_, fun k _ => ?_, fun k k' _ _ h => ?_⟩
  · simp only [e]
    exact memLp_finsetSum _ fun i _ => (hc i).mul_const _
  · intro k
    have := hermitian_r2c M (fun i => g i ω) k
    dsimp only
    rw [this, map_mul, Complex.conj_ofReal]
  · simp only [e]
    rw [integral_finsetSum _ fun i _ => ((hc i).integrable (by norm_num)).mul_const _]
    refine Finset.sum_eq_zero fun i _ => ?_
    rw [integral_mul_const, integral_complex_ofReal, h0]
    simp
  · rw [hcov, if_pos rfl]
  · rw [hcov, if_neg h]

/-- On any mesh there is white Gaussian noise. -/
theorem exists_white : ∃ (Ω : Type) (_ : MeasurableSpace Ω) (μ : Measure Ω) (_ : IsProbabilityMeasure μ) (W : M.Idx → Ω → ℂ),
    WhiteModes M μ W ∧ HasGaussianLaw (fun ω k => W k ω) μ := by
  obtain ⟨Ω, _, μ, _, g, hg⟩ := exists_areDraws M.Idx (gaussianReal 0 1)
  have hmap : ∀ i, μ.map (g i) = gaussianReal 0 1 := fun i => by
    ext A hA
    rw [Measure.map_apply (hg.measurable i) hA]
    exact hg.chance i A hA
  have hlaw : ∀ i, HasGaussianLaw (g i) μ := fun i => ⟨by rw [hmap]; infer_instance⟩
  have h2 : ∀ i, MemLp (g i) 2 μ := fun i => (hlaw i).memLp_two
  have h0 : ∀ i, ∫ ω, g i ω ∂μ = 0 := fun i => by
    have := integral_map (μ := μ) (hg.measurable i).aemeasurable (f := fun x : ℝ => x) (by fun_prop)
    rw [← this, hmap, integral_id_gaussianReal]
  have hgg : ∀ i j, ∫ ω, g i ω * g j ω ∂μ = if i = j then 1 else 0 := by
    intro i j
    by_cases h : i = j
    · subst h
      have h1 := variance_of_integral_eq_zero (hg.measurable i).aemeasurable (h0 i)
      have h3 := variance_map (μ := μ) (X := fun x : ℝ => x) (Y := g i) (by fun_prop) (hg.measurable i).aemeasurable
      rw [hmap, variance_fun_id_gaussianReal] at h3
      rw [if_pos rfl]
      simp only [← sq]
      rw [← h1]
      exact h3.symm
    · rw [if_neg h]
      have := (hg.independent.indepFun h).integral_fun_mul_eq_mul_integral (h2 i).aestronglyMeasurable (h2 j).aestronglyMeasurable
      rw [this, h0, zero_mul]
  refine ⟨Ω, _, μ, inferInstance, _, white_of_nodes M h2 h0 hgg, ?_⟩
  have hj : HasGaussianLaw (fun ω i => g i ω) μ := iIndepFun.hasGaussianLaw hlaw hg.independent
  let L : (M.Idx → ℝ) →ₗ[ℝ] (M.Idx → ℂ) :=
    { toFun := fun f k => ((Real.sqrt (∏ d, (M.n d : ℝ)) : ℝ) : ℂ) * M.r2c (fun i => (f i : ℂ)) k
      map_add' := fun v w => by
        funext k
        simp only [Mesh.r2c, Pi.add_apply, Complex.ofReal_add, add_mul, Finset.sum_add_distrib, add_div, mul_add]
      map_smul' := fun c w => by
        funext k
        simp only [Mesh.r2c, Pi.smul_apply, RingHom.id_apply, smul_eq_mul, Complex.real_smul, Complex.ofReal_mul, mul_assoc,
          ← Finset.mul_sum]
        ring }
  exact hj.map_fun (LinearMap.toContinuousLinearMap L)

/-- Non-vacuity: on a mesh of 4³ nodes with P(k) = k there is noise, and a field of modes made of it, that meet the hypotheses of all
theorems above. -/
example : ∃ (Ω : Type) (_ : MeasurableSpace Ω) (μ : Measure Ω) (_ : IsProbabilityMeasure μ) (W F : mesh4.Idx → Ω → ℂ),
    WhiteModes mesh4 μ W ∧ HasGaussianLaw (fun ω k => W k ω) μ ∧ (∀ d, 0 < mesh4.boxsize d) ∧
    (∀ k, k ≠ 0 → 0 < powerOf mesh4 (.iso fun k => k) k) ∧
    (∀ k, powerOf mesh4 (.iso fun k => k) (-k) = powerOf mesh4 (.iso fun k => k) k) ∧
    ∀ ω k, mesh4.complexDelta (.iso fun k => k) false (fun k => W k ω) k = some (F k ω) := by
  obtain ⟨Ω, mΩ, μ, hμ, W, hW, hg⟩ := exists_white mesh4
  have hL : ∀ d, 0 < mesh4.boxsize d := fun d => by norm_num [mesh4]
  have hp : ∀ k, k ≠ 0 → 0 < powerOf mesh4 (.iso fun k => k) k := fun k h0 => by
    simp only [powerOf]
    rw [← sqrt_k2]
    exact Real.sqrt_pos.2 (lt_of_le_of_ne (k2_nonneg _ _) fun h => h0 ((k2_zero_iff mesh4 hL k).1 h.symm))
  refine ⟨Ω, mΩ, μ, hμ, W, fun k ω => if k = 0 then 0 else
    W k ω * (Real.sqrt (powerOf mesh4 (.iso fun k => k) k / Props.volume mesh4) : ℝ), hW, hg, hL, hp, fun k => ?_, fun ω k => ?_⟩
  · simp only [powerOf]
    rw [← sqrt_k2, ← sqrt_k2, k2_neg]
  · dsimp only
    by_cases h0 : k = 0
    · rw [if_pos h0, h0, C60_zero mesh4 _ false _ hL]
    · rw [if_neg h0, C60_mode mesh4 hL _ false _ k h0 (hp k h0).le]
      simp

end Verif.Props.FieldStats
