import Verif.Props.GaussField

/-!
# C43: fields built in Fourier space are real
-/

namespace Verif.Props

open Verif Verif.Model Verif.Lemmas.Mesh

variable (M : Mesh)

/-- Modes of a real field: opposite modes are conjugate. -/
def Hermitian (F : M.Idx → ℂ) : Prop := ∀ k, F (-k) = (starRingEnd ℂ) (F k)

/-- The field of given modes is real at every node. -/
def RealField (F : M.Idx → ℂ) : Prop := ∀ i, (M.c2r F i).im = 0

/-- The modes of real fields, and no others, give real fields. -/
theorem C43_real_iff (F : M.Idx → ℂ) : RealField M F ↔ Hermitian M F := real_iff M F

/-- The transform of a real field is Hermitian. -/
theorem hermitian_r2c (f : M.Idx → ℝ) : Hermitian M (M.r2c fun i => (f i : ℂ)) := by
  rw [← C43_real_iff]
  intro i
  rw [c2r_r2c]
  simp

theorem hermitian_mul {F : M.Idx → ℂ} (hF : Hermitian M F) {m : M.Idx → ℂ} (hm : Hermitian M m) :
    Hermitian M fun k => F k * m k := by
  intro k
  beta_reduce
  rw [hF, hm, map_mul]

/-- The line of sight is along one of the axes of the mesh. -/
def AlongAxis (los : Fin 3 → ℝ) : Prop := ∃ a, ∀ d, d ≠ a → los d = 0

/-- A mesh of 5 cells a side in a box of size 5 around the origin. -/
noncomputable def mesh5 : Mesh where
  n := fun _ => 5
  n_pos := fun _ => by norm_num
  boxsize := fun _ => 5
  boxcenter := fun _ => 0
  freq := fun _ i => if i.val < 3 then i.val else i.val - 5
  freq_cast := fun _ i => by revert i; decide
  freq_le := fun _ i => by revert i; decide

example : Hermitian mesh4 (fun _ => 1) ∧ Even (mesh4.n 0) ∧ AlongAxis ![0, 0, 1] ∧ ∀ d, Odd (mesh5.n d) :=
  ⟨fun _ => by simp, by decide, ⟨2, fun d hd => by fin_cases d <;> simp at hd ⊢⟩, fun _ => (by decide : Odd 5)⟩

/-- Displacements are real on meshes with an even number of cells along their axis. -/
theorem C43_disp_partial (a : Fin 3) (he : Even (M.n a)) (F : M.Idx → ℂ) (hF : Hermitian M F) (i : M.Idx) :
    (M.dispC F a i).im = 0 := by
  unfold Mesh.dispC
  refine (C43_real_iff M _).mpr (hermitian_mul M hF ?_) i
  intro k
  unfold Mesh.dispMult
  rw [k2safe_neg]
  have hv : ((-k) a).val ≠ M.n a / 2 ↔ (k a).val ≠ M.n a / 2 := not_congr (val_neg_half M a he (k a))
  by_cases h : (k a).val ≠ M.n a / 2
  · rw [if_pos (hv.mpr h), if_pos h]
    have hk : M.kvec (-k) a = -M.kvec k a := by
      rcases kvec_neg M k a with h' | ⟨_, h'⟩
      · exact h'
      · exact absurd ((val_half_iff M a he (k a)).mpr h') h
    rw [hk]
    simp
  · rw [if_neg (fun h' => h (hv.mp h')), if_neg h]
    simp

/-- A field made of one peak: all its modes are equal. -/
noncomputable def peak (i : M.Idx) : ℝ := open Classical in if i = 0 then 1 else 0

theorem r2c_peak (k : M.Idx) : M.r2c (fun i => (peak M i : ℂ)) k = 1 / ∏ d, (M.n d : ℂ) := by
  unfold Mesh.r2c peak
  congr 1
  rw [Finset.sum_eq_single 0]
  · beta_reduce
    rw [if_pos rfl, neg_zero, char_zero_left]
    simp
  · intro b _ hb
    beta_reduce
    rw [if_neg hb]
    simp
  · intro h
    exact absurd (Finset.mem_univ _) h

/-- Two opposite modes of the plane `k_z = 0` are not conjugate. Both are stored by pmesh, which leaves out modes of negative `k_z`
for real fields: so what is stored is not the transform of a real field either. -/
def StoredInconsistent (F : M.Idx → ℂ) : Prop := ∃ k : M.Idx, k 2 = 0 ∧ F (-k) ≠ (starRingEnd ℂ) (F k)

theorem StoredInconsistent.not_real {F : M.Idx → ℂ} (h : StoredInconsistent M F) : ¬ RealField M F := by
  rw [C43_real_iff]
  obtain ⟨k, _, hk⟩ := h
  exact fun hh => hk (hh k)

/-- A multiplier that breaks the symmetry makes a complex field of a peak. -/
theorem not_real_of (m : M.Idx → ℂ) (k : M.Idx) (hk : k 2 = 0) (h : m (-k) ≠ (starRingEnd ℂ) (m k)) :
    StoredInconsistent M fun k => M.r2c (fun i => (peak M i : ℂ)) k * m k := by
  refine ⟨k, hk, fun this => ?_⟩
  beta_reduce at this
  rw [r2c_peak, r2c_peak, map_mul] at this
  have hr : (starRingEnd ℂ) (1 / ∏ d, (M.n d : ℂ)) = 1 / ∏ d, (M.n d : ℂ) := by simp
  rw [hr] at this
  exact h (mul_left_cancel₀ (div_ne_zero one_ne_zero (prod_ne M)) this)

/-- Mode of indices (1, 0, 0) of `mesh3`. -/
def halfMode : mesh3.Idx := fun d => if d = 0 then (1 : ZMod 3) else (0 : ZMod 3)

/-- On a mesh with an odd number of cells, the mode at half the mesh size (rounded down) is removed but not its opposite: the
displacement of a real field is not real. -/
theorem C43_disp_odd_violated : ∃ f : mesh3.Idx → ℝ,
    StoredInconsistent mesh3 (fun k => mesh3.r2c (fun i => (f i : ℂ)) k * mesh3.dispMult 0 k) ∧
    ∃ i, (mesh3.dispC (mesh3.r2c fun i => (f i : ℂ)) 0 i).im ≠ 0 := by
  have key : StoredInconsistent mesh3 (fun k => mesh3.r2c (fun i => (peak mesh3 i : ℂ)) k * mesh3.dispMult 0 k) := by
    refine not_real_of mesh3 (mesh3.dispMult 0) halfMode (by decide) ?_
    have hL : ∀ d, 0 < mesh3.boxsize d := fun _ => by simp [mesh3]
    have h1 : mesh3.dispMult 0 halfMode = 0 := by
      unfold Mesh.dispMult
      rw [if_neg, mul_zero]
      decide
    rw [h1, map_zero]
    have h2 : ((-halfMode) 0).val ≠ mesh3.n 0 / 2 := by decide
    unfold Mesh.dispMult
    rw [if_pos h2, mul_one]
    have hk : mesh3.kvec (-halfMode) 0 ≠ 0 := by
      rw [Ne, kvec_zero_iff mesh3 hL]
      decide
    have hs := (k2safe_pos mesh3 (-halfMode)).ne'
    refine div_ne_zero (mul_ne_zero Complex.I_ne_zero ?_) ?_
    · exact_mod_cast hk
    · exact_mod_cast hs
  refine ⟨peak mesh3, key, ?_⟩
  by_contra hh
  push Not at hh
  exact StoredInconsistent.not_real mesh3 key hh

/-! ### Redshift-space distortions -/

theorem dot_neg_sq (los : Fin 3 → ℝ) (h : AlongAxis los ∨ ∀ d, Odd (M.n d)) (k : M.Idx) :
    ∑ d, M.kvec (-k) d * los d = ∑ d, M.kvec k d * los d ∨ ∑ d, M.kvec (-k) d * los d = -∑ d, M.kvec k d * los d := by
  rcases h with ⟨a, ha⟩ | h
  · have e : ∀ q : M.Idx, ∑ d, M.kvec q d * los d = M.kvec q a * los a := by
      intro q
      refine Finset.sum_eq_single a (fun d _ hd => by rw [ha d hd, mul_zero]) fun h => absurd (Finset.mem_univ _) h
    rw [e, e]
    rcases kvec_neg M k a with h | ⟨h, _⟩
    · right
      rw [h]
      ring
    · left
      rw [h]
  · right
    rw [← Finset.sum_neg_distrib]
    refine Finset.sum_congr rfl fun d _ => ?_
    rcases kvec_neg M k d with h' | ⟨_, h'⟩
    · rw [h']
      ring
    · obtain ⟨m, hm⟩ := h d
      omega

/-- With a fixed line of sight, the field added by `EulerianLinearMock.set_rsd` is real if the line of sight is along an axis or if
the mesh has an odd number of cells along all axes. -/
theorem C43_fixed_partial (los : Fin 3 → ℝ) (h : AlongAxis los ∨ ∀ d, Odd (M.n d)) (F : M.Idx → ℂ) (hF : Hermitian M F) :
    RealField M fun k => F k * (M.muSq los k : ℂ) := by
  refine (C43_real_iff M _).mpr (hermitian_mul M hF ?_)
  intro k
  beta_reduce
  rw [Complex.conj_ofReal]
  norm_cast
  unfold Mesh.muSq
  rw [k2safe_neg]
  rcases dot_neg_sq M los h k with h' | h' <;> rw [h']
  ring

/-- Same modes, below the Nyquist frequency: their multiplier is symmetric for all lines of sight. -/
theorem C43_fixed_below_partial (los : Fin 3 → ℝ) (k : M.Idx) (h : ∀ d, 2 * |M.freq d (k d)| < M.n d) :
    M.muSq los (-k) = M.muSq los k := by
  have e : ∑ d, M.kvec (-k) d * los d = -∑ d, M.kvec k d * los d := by
    rw [← Finset.sum_neg_distrib]
    refine Finset.sum_congr rfl fun d _ => ?_
    rcases kvec_neg M k d with h' | ⟨_, h'⟩
    · rw [h']
      ring
    · exact absurd h' (h d).ne
  unfold Mesh.muSq
  rw [k2safe_neg, e]
  ring

/-- Mode of indices (2, 1, 0) of `mesh4`: at the Nyquist frequency along the first axis. -/
def nyquistMode : mesh4.Idx := fun d => if d = 0 then (2 : ZMod 4) else if d = 1 then (1 : ZMod 4) else (0 : ZMod 4)

theorem nyquist_kvec : mesh4.kvec nyquistMode 0 = -Real.pi / 2 ∧ mesh4.kvec nyquistMode 1 = Real.pi / 4 ∧
    mesh4.kvec nyquistMode 2 = 0 ∧ mesh4.kvec (-nyquistMode) 0 = -Real.pi / 2 ∧ mesh4.kvec (-nyquistMode) 1 = -Real.pi / 4 ∧
    mesh4.kvec (-nyquistMode) 2 = 0 := by
  have h0 : mesh4.freq 0 (nyquistMode 0) = -2 := by decide
  have h1 : mesh4.freq 1 (nyquistMode 1) = 1 := by decide
  have h2 : mesh4.freq 2 (nyquistMode 2) = 0 := by decide
  have g0 : mesh4.freq 0 ((-nyquistMode) 0) = -2 := by decide
  have g1 : mesh4.freq 1 ((-nyquistMode) 1) = -1 := by decide
  have g2 : mesh4.freq 2 ((-nyquistMode) 2) = 0 := by decide
  have hb : ∀ d, mesh4.boxsize d = 8 := fun d => rfl
  unfold Mesh.kvec
  rw [h0, h1, h2, g0, g1, g2, hb, hb, hb]
  push_cast
  refine ⟨?_, ?_, ?_, ?_, ?_, ?_⟩ <;> ring

theorem nyquist_k2 : mesh4.k2 nyquistMode = 5 * Real.pi ^ 2 / 16 ∧ mesh4.k2 (-nyquistMode) = 5 * Real.pi ^ 2 / 16 := by
  have h : mesh4.k2 nyquistMode = 5 * Real.pi ^ 2 / 16 := by
    obtain ⟨h0, h1, h2, _⟩ := nyquist_kvec
    unfold Mesh.k2
    rw [Fin.sum_univ_three, h0, h1, h2]
    ring
  exact ⟨h, by rw [k2_neg, h]⟩

theorem nyquist_k2safe : mesh4.k2safe nyquistMode = 5 * Real.pi ^ 2 / 16 ∧
    mesh4.k2safe (-nyquistMode) = 5 * Real.pi ^ 2 / 16 := by
  have hp := Real.pi_pos
  have h : mesh4.k2safe nyquistMode = 5 * Real.pi ^ 2 / 16 := by
    unfold Mesh.k2safe
    rw [nyquist_k2.1, if_neg (by positivity)]
  exact ⟨h, by rw [k2safe_neg, h]⟩

/-- With a fixed line of sight that is not along an axis, and an even number of cells, the multipliers of opposite modes in the
planes of the Nyquist frequency are different: the field added to a real field is not real. -/
theorem C43_fixed_violated : ∃ los : Fin 3 → ℝ, los 0 ^ 2 + los 1 ^ 2 + los 2 ^ 2 = 1 ∧ ∃ f : mesh4.Idx → ℝ,
    StoredInconsistent mesh4 fun k => mesh4.r2c (fun i => (f i : ℂ)) k * (mesh4.muSq los k : ℂ) := by
  refine ⟨![3 / 5, 4 / 5, 0], by simp; norm_num, peak mesh4, ?_⟩
  refine not_real_of mesh4 (fun k => (mesh4.muSq _ k : ℂ)) nyquistMode (by decide) ?_
  rw [Complex.conj_ofReal]
  intro h
  have h : mesh4.muSq ![3 / 5, 4 / 5, 0] (-nyquistMode) = mesh4.muSq ![3 / 5, 4 / 5, 0] nyquistMode := by exact_mod_cast h
  obtain ⟨h0, h1, h2, g0, g1, g2⟩ := nyquist_kvec
  have hp := Real.pi_pos
  unfold Mesh.muSq at h
  rw [nyquist_k2safe.1, nyquist_k2safe.2] at h
  rw [div_pow, div_pow, Real.sq_sqrt (by positivity)] at h
  rw [div_left_inj' (by positivity)] at h
  simp only [Fin.sum_univ_three, h0, h1, h2, g0, g1, g2] at h
  simp at h
  nlinarith

/-- The term of each pair of axes in case of local lines of sight is real on meshes with an even number of cells along both. -/
theorem C43_local_partial (a b : Fin 3) (ha : Even (M.n a)) (hb : Even (M.n b)) (F : M.Idx → ℂ) (hF : Hermitian M F) :
    RealField M fun k => F k * (M.pairMult a b k : ℂ) := by
  refine (C43_real_iff M _).mpr (hermitian_mul M hF ?_)
  intro k
  beta_reduce
  rw [Complex.conj_ofReal]
  norm_cast
  unfold Mesh.pairMult
  rw [k2safe_neg]
  have va : ((-k) a).val = M.n a / 2 ↔ (k a).val = M.n a / 2 := val_neg_half M a ha (k a)
  have vb : ((-k) b).val = M.n b / 2 ↔ (k b).val = M.n b / 2 := val_neg_half M b hb (k b)
  have ka : (k a).val ≠ M.n a / 2 → M.kvec (-k) a = -M.kvec k a := by
    intro h
    rcases kvec_neg M k a with h' | ⟨_, h'⟩
    · exact h'
    · exact absurd ((val_half_iff M a ha (k a)).mpr h') h
  have kb : (k b).val ≠ M.n b / 2 → M.kvec (-k) b = -M.kvec k b := by
    intro h
    rcases kvec_neg M k b with h' | ⟨_, h'⟩
    · exact h'
    · exact absurd ((val_half_iff M b hb (k b)).mpr h') h
  have ka' : (k a).val = M.n a / 2 → M.kvec (-k) a = M.kvec k a := by
    intro h
    have h2 := (val_half_iff M a ha (-(k a))).mp (va.mpr h)
    have h3 := (val_half_iff M a ha (k a)).mp h
    rcases freq_neg M a (k a) with h' | ⟨h', _⟩
    · have h4 := freq_val M a (k a)
      have h5 := freq_val M a (-(k a))
      have h6 : ((-(k a) : ZMod (M.n a))).val = M.n a / 2 := va.mpr h
      have hn := M.n_pos a
      exfalso
      obtain ⟨m, hm⟩ := ha
      have e : (-(k a) : ZMod (M.n a)) = k a := ZMod.val_injective _ (h6.trans h.symm)
      rw [e] at h'
      have : M.freq a (k a) = 0 := by omega
      rw [this] at h3
      simp at h3
      omega
    · unfold Mesh.kvec
      rw [Pi.neg_apply, h']
  have kb' : (k b).val = M.n b / 2 → M.kvec (-k) b = M.kvec k b := by
    intro h
    have h3 := (val_half_iff M b hb (k b)).mp h
    rcases freq_neg M b (k b) with h' | ⟨h', _⟩
    · have h6 : ((-(k b) : ZMod (M.n b))).val = M.n b / 2 := vb.mpr h
      have hn := M.n_pos b
      exfalso
      have e : (-(k b) : ZMod (M.n b)) = k b := ZMod.val_injective _ (h6.trans h.symm)
      rw [e] at h'
      have : M.freq b (k b) = 0 := by omega
      rw [this] at h3
      simp at h3
      omega
    · unfold Mesh.kvec
      rw [Pi.neg_apply, h']
  simp only [ne_eq, va, vb]
  by_cases h1 : (k a).val = M.n a / 2 <;> by_cases h2 : (k b).val = M.n b / 2
  · rw [ka' h1, kb' h2]
  · simp [h1, h2]
  · simp [h1, h2]
  · rw [ka h1, kb h2]
    ring

/-- Mode of indices (2, 1, 0) of `mesh5`. -/
def oddMode : mesh5.Idx := fun d => if d = 0 then (2 : ZMod 5) else if d = 1 then (1 : ZMod 5) else (0 : ZMod 5)

/-- On a mesh with an odd number of cells, the terms of pairs of axes are not real. Here 5 cells a side and the pair of axes x, y. -/
theorem C43_local_odd_violated : ∃ f : mesh5.Idx → ℝ,
    StoredInconsistent mesh5 fun k => mesh5.r2c (fun i => (f i : ℂ)) k * (mesh5.pairMult 0 1 k : ℂ) := by
  refine ⟨peak mesh5, not_real_of mesh5 (fun k => (mesh5.pairMult 0 1 k : ℂ)) oddMode (by decide) ?_⟩
  rw [Complex.conj_ofReal]
  intro h
  have h : mesh5.pairMult 0 1 (-oddMode) = mesh5.pairMult 0 1 oddMode := by exact_mod_cast h
  have hL : ∀ d, 0 < mesh5.boxsize d := fun _ => by simp [mesh5]
  unfold Mesh.pairMult at h
  have e1 : ¬ (((oddMode 0).val ≠ mesh5.n 0 / 2 ∧ (oddMode 1).val ≠ mesh5.n 1 / 2) ∨
      ((oddMode 0).val = mesh5.n 0 / 2 ∧ (oddMode 1).val = mesh5.n 1 / 2)) := by decide
  have e2 : ((((-oddMode) 0).val ≠ mesh5.n 0 / 2 ∧ ((-oddMode) 1).val ≠ mesh5.n 1 / 2) ∨
      (((-oddMode) 0).val = mesh5.n 0 / 2 ∧ ((-oddMode) 1).val = mesh5.n 1 / 2)) := by decide
  rw [if_pos e2, if_neg e1, mul_one, mul_zero] at h
  have k0 : mesh5.kvec (-oddMode) 0 ≠ 0 := by
    rw [Ne, kvec_zero_iff mesh5 hL]
    decide
  have k1 : mesh5.kvec (-oddMode) 1 ≠ 0 := by
    rw [Ne, kvec_zero_iff mesh5 hL]
    decide
  exact div_ne_zero (mul_ne_zero k0 k1) (k2safe_pos mesh5 _).ne' h

/-! ### Anisotropic power spectra -/

/-- With a power spectrum that depends on the cosine to the line of sight, through its absolute value, the Gaussian field is real if
the line of sight is along an axis or if the mesh has an odd number of cells along all axes. -/
theorem C43_power_partial (los : Fin 3 → ℝ) (h : AlongAxis los ∨ ∀ d, Odd (M.n d)) (p : ℝ → ℝ → ℝ) (hp : ∀ k mu, p k (-mu) = p k mu)
    (inverted : Bool) (noise : M.Idx → ℂ) (hn : Hermitian M noise) (F : M.Idx → ℂ)
    (hF : ∀ k, M.complexDelta (.aniso los p) inverted noise k = some (F k)) : RealField M F := by
  rw [C43_real_iff]
  intro k
  have h1 := hF k
  have h2 := hF (-k)
  have hpow : Mesh.Power.at M (.aniso los p) (-k) = Mesh.Power.at M (.aniso los p) k := by
    unfold Mesh.Power.at
    simp only [k2_neg]
    rcases dot_neg_sq M los h k with h' | h'
    · rw [h']
    · rw [h', neg_div, hp]
  unfold Mesh.complexDelta at h1 h2
  simp only [k2_neg, hn k, hpow] at h1 h2
  generalize (if √(M.k2 k) = 0 then 0 else Mesh.Power.at M (.aniso los p) k) * (1 / ∏ d, M.boxsize d) = a at h1 h2
  by_cases ha : a < 0
  · rw [if_pos ha] at h1
    cases h1
  · rw [if_neg ha] at h1 h2
    simp only [Option.some.injEq] at h1 h2
    rw [← h1, ← h2]
    cases inverted <;> simp

/-- With a line of sight that is not along an axis and an even number of cells, the Gaussian field of an anisotropic power spectrum
is not real, for some noise. Here `P(k, mu) = mu²`. -/
theorem C43_power_violated : ∃ los : Fin 3 → ℝ, los 0 ^ 2 + los 1 ^ 2 + los 2 ^ 2 = 1 ∧ ∃ F : mesh4.Idx → ℂ,
    (∀ k, mesh4.complexDelta (.aniso los fun _ mu => mu ^ 2) false (fun _ => 1) k = some (F k)) ∧
    StoredInconsistent mesh4 F := by
  have hL : ∀ d, 0 < mesh4.boxsize d := fun _ => by simp [mesh4]
  refine ⟨![3 / 5, 4 / 5, 0], by simp; norm_num, ?_⟩
  have hsome : ∀ k, ∃ z, mesh4.complexDelta (.aniso ![3 / 5, 4 / 5, 0] fun _ mu => mu ^ 2) false (fun _ => 1) k = some z := by
    intro k
    by_cases hk : k = 0
    · exact ⟨0, by rw [hk]; exact C60_zero mesh4 _ _ _ hL⟩
    · exact ⟨_, C60_mode mesh4 hL _ _ _ k hk (by unfold powerOf; positivity)⟩
  choose F hF using hsome
  refine ⟨F, hF, nyquistMode, by decide, fun h => ?_⟩
  have n1 : nyquistMode ≠ 0 := fun h => absurd (congrFun h 0) (by decide)
  have n2 : -nyquistMode ≠ 0 := fun h => absurd (congrFun h 0) (by decide)
  have f1 := hF nyquistMode
  have f2 := hF (-nyquistMode)
  rw [C60_mode mesh4 hL _ _ _ _ n1 (by unfold powerOf; positivity)] at f1
  rw [C60_mode mesh4 hL _ _ _ _ n2 (by unfold powerOf; positivity)] at f2
  simp only [Option.some.injEq, if_false, one_mul, Bool.false_eq_true] at f1 f2
  rw [← f1, ← f2, Complex.conj_ofReal] at h
  have h : Real.sqrt (powerOf mesh4 (.aniso ![3 / 5, 4 / 5, 0] fun _ mu => mu ^ 2) (-nyquistMode) / volume mesh4) =
    Real.sqrt (powerOf mesh4 (.aniso ![3 / 5, 4 / 5, 0] fun _ mu => mu ^ 2) nyquistMode / volume mesh4) := by exact_mod_cast h
  have hv := volume_pos mesh4 hL
  rw [Real.sqrt_inj (by unfold powerOf; positivity) (by unfold powerOf; positivity), div_left_inj' hv.ne'] at h
  obtain ⟨h0, h1, h2, g0, g1, g2⟩ := nyquist_kvec
  have hp := Real.pi_pos
  unfold powerOf at h
  simp only [← sqrt_k2, nyquist_k2.1, nyquist_k2.2] at h
  rw [div_pow, div_pow, Real.sq_sqrt (by positivity), div_left_inj' (by positivity)] at h
  simp only [h0, h1, h2, g0, g1, g2] at h
  simp at h
  nlinarith

end Verif.Props
