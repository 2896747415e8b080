import Verif.Props.MeshGeom

/-!
# C39: lognormal transform; C60: amplitude of Gaussian fields
-/

namespace Verif.Props

open Verif Verif.Model Verif.Lemmas.Mesh

/-! ### Lognormal transform -/

variable (M : Mesh)

theorem cmean_exp_pos (delta : M.Idx → ℝ) : 0 < M.cmean fun j => Real.exp (delta j) := by
  unfold Mesh.cmean
  refine div_pos (Finset.sum_pos (fun i _ => Real.exp_pos _) Finset.univ_nonempty) ?_
  exact_mod_cast Fintype.card_pos

/-- The lognormal transform of any field makes densities that are positive at every node. -/
theorem C39_positive (bias : Mesh.Bias) (deltak : M.Idx → ℂ) (i : M.Idx) : 0 < 1 + M.realDelta bias true deltak i := by
  have h := cmean_exp_pos M (M.biased bias (M.c2rReal deltak))
  have h' := Real.exp_pos (M.biased bias (M.c2rReal deltak) i)
  unfold Mesh.realDelta Mesh.lognormal
  simp only [if_true]
  have := div_pos h' h
  linarith

/-- The mean of the transformed contrast is exactly zero. -/
theorem C39_mean (bias : Mesh.Bias) (deltak : M.Idx → ℂ) : ∑ i, M.realDelta bias true deltak i = 0 := by
  have h := cmean_exp_pos M (M.biased bias (M.c2rReal deltak))
  unfold Mesh.realDelta Mesh.lognormal
  simp only [if_true]
  rw [Finset.sum_sub_distrib, ← Finset.sum_div]
  unfold Mesh.cmean at h ⊢
  have hc : (0 : ℝ) < Fintype.card M.Idx := by exact_mod_cast Fintype.card_pos
  have hs : 0 < ∑ i, Real.exp (M.biased bias (M.c2rReal deltak) i) := by
    rcases (div_pos_iff.mp h) with h | h
    · exact h.1
    · linarith [h.2]
  simp
  field_simp
  simp

/-- The transformed densities are the exponentials of the (biased) field, up to a factor common to all nodes: this and the mean
determine them. -/
theorem C39_exponential (bias : Mesh.Bias) (deltak : M.Idx → ℂ) (i j : M.Idx) :
    (1 + M.realDelta bias true deltak i) * Real.exp (M.realDelta bias false deltak j) =
      (1 + M.realDelta bias true deltak j) * Real.exp (M.realDelta bias false deltak i) := by
  unfold Mesh.realDelta Mesh.lognormal
  simp only [if_true]
  simp
  ring

/-- Without transform and for real modes: the field whose modes are given, times the bias, or the bias function of this field and of
the distance of the node to the observer. -/
theorem C39_bias (hL : ∀ d, 0 < M.boxsize d) (bias : Mesh.Bias) (delta : M.Idx → ℝ) (i : M.Idx) :
    M.realDelta bias false (M.r2c fun j => (delta j : ℂ)) i =
      match bias with
      | .none => delta i
      | .const b => b * delta i
      | .fn b => b (delta i) (Real.sqrt (nodeAt M i 0 ^ 2 + nodeAt M i 1 ^ 2 + nodeAt M i 2 ^ 2)) := by
  have h : ∀ j, M.c2rReal (M.r2c fun j => (delta j : ℂ)) j = delta j := by
    intro j
    unfold Mesh.c2rReal
    rw [c2r_r2c]
    simp
  unfold Mesh.realDelta Mesh.biased
  cases bias with
  | none => simp [h]
  | const b => simp [h, mul_comm]
  | fn b => simp [h, C66_distance M hL]

/-- On a mesh where the field takes the values 1 and 0, the transform is not trivial. -/
example : ∃ F : mesh4.Idx → ℂ, ∃ i, mesh4.realDelta .none true F i ≠ mesh4.realDelta .none false F i := by
  refine ⟨mesh4.r2c fun _ => ((1 : ℝ) : ℂ), fun d => (0 : ZMod (mesh4.n d)), ?_⟩
  intro h
  have h1 : ∀ j, mesh4.realDelta .none false (mesh4.r2c fun _ => ((1 : ℝ) : ℂ)) j = 1 := fun j =>
    C39_bias mesh4 (fun _ => by simp [mesh4]) .none (fun _ => 1) j
  have h2 : ∀ j, mesh4.realDelta .none true (mesh4.r2c fun _ => ((1 : ℝ) : ℂ)) j = 1 := by
    intro j
    have := C39_exponential mesh4 .none (mesh4.r2c fun _ => ((1 : ℝ) : ℂ)) j (fun d => (0 : ZMod (mesh4.n d)))
    rw [h1, h1, h, h1] at this
    have he := Real.exp_pos 1
    have := mul_right_cancel₀ he.ne' this
    linarith
  have h3 := C39_mean mesh4 .none (mesh4.r2c fun _ => ((1 : ℝ) : ℂ))
  rw [Finset.sum_congr rfl fun j _ => h2 j] at h3
  simp only [Finset.sum_const, nsmul_eq_mul, mul_one, Nat.cast_eq_zero, Finset.card_eq_zero] at h3
  exact absurd h3 Finset.univ_nonempty.ne_empty

/-! ### Amplitude of modes -/

/-- Norm of the wave vector of a mode. -/
noncomputable def waveNumber (k : M.Idx) : ℝ := Real.sqrt (M.kvec k 0 ^ 2 + M.kvec k 1 ^ 2 + M.kvec k 2 ^ 2)

/-- Volume of the box. -/
def volume : ℝ := M.boxsize 0 * M.boxsize 1 * M.boxsize 2

/-- Power spectrum of a mode: `P(k)`, or `P(k, mu)` with `mu` the cosine of the angle to the line of sight. -/
noncomputable def powerOf (p : Mesh.Power) (k : M.Idx) : ℝ :=
  match p with
  | .iso p => p (waveNumber M k)
  | .aniso los p => p (waveNumber M k) ((M.kvec k 0 * los 0 + M.kvec k 1 * los 1 + M.kvec k 2 * los 2) / waveNumber M k)

theorem sqrt_k2 (k : M.Idx) : Real.sqrt (M.k2 k) = waveNumber M k := by
  unfold Mesh.k2 waveNumber
  rw [Fin.sum_univ_three]

theorem power_at (p : Mesh.Power) (k : M.Idx) : p.at M k = powerOf M p k := by
  cases p with
  | iso p => simp [Mesh.Power.at, powerOf, sqrt_k2]
  | aniso los p => simp [Mesh.Power.at, powerOf, sqrt_k2, Fin.sum_univ_three]

theorem waveNumber_zero_iff (hL : ∀ d, 0 < M.boxsize d) (k : M.Idx) : waveNumber M k = 0 ↔ k = 0 := by
  rw [← sqrt_k2, Real.sqrt_eq_zero (k2_nonneg M k), k2_zero_iff M hL]

theorem prod_boxsize : ∏ d, M.boxsize d = volume M := by
  unfold volume
  rw [Fin.prod_univ_three]

theorem volume_pos (hL : ∀ d, 0 < M.boxsize d) : 0 < volume M := by
  unfold volume
  have := hL 0
  have := hL 1
  have := hL 2
  positivity

/-- Each mode other than the zero mode is the noise times the square root of the power spectrum over the volume of the box, with a
sign flip in case of inverted phases. -/
theorem C60_mode (hL : ∀ d, 0 < M.boxsize d) (p : Mesh.Power) (inverted : Bool) (noise : M.Idx → ℂ) (k : M.Idx) (hk : k ≠ 0)
    (hp : 0 ≤ powerOf M p k) :
    M.complexDelta p inverted noise k =
      some ((if inverted then -1 else 1) * noise k * (Real.sqrt (powerOf M p k / volume M) : ℝ)) := by
  have hk' : ¬ waveNumber M k = 0 := fun h => hk ((waveNumber_zero_iff M hL k).mp h)
  have hv := volume_pos M hL
  unfold Mesh.complexDelta
  simp only [sqrt_k2, power_at, if_neg hk', prod_boxsize]
  have h : powerOf M p k * (1 / volume M) = powerOf M p k / volume M := by ring
  rw [h, if_neg (not_lt.mpr (div_nonneg hp hv.le))]
  cases inverted <;> simp

/-- With unitary amplitudes (noise of modulus 1), the squared modulus of each mode other than the zero mode is exactly the power
spectrum over the volume of the box. -/
theorem C60_unitary (hL : ∀ d, 0 < M.boxsize d) (p : Mesh.Power) (inverted : Bool) (noise : M.Idx → ℂ)
    (hu : ∀ k, ‖noise k‖ = 1) (k : M.Idx) (hk : k ≠ 0) (hp : 0 ≤ powerOf M p k) :
    ∃ z, M.complexDelta p inverted noise k = some z ∧ ‖z‖ ^ 2 = powerOf M p k / volume M := by
  refine ⟨_, C60_mode M hL p inverted noise k hk hp, ?_⟩
  have hv := volume_pos M hL
  have hs : ‖(if inverted then -1 else 1 : ℂ)‖ = 1 := by cases inverted <;> simp
  rw [norm_mul, norm_mul, hs, hu, Complex.norm_real, Real.norm_of_nonneg (Real.sqrt_nonneg _)]
  rw [one_mul, one_mul, Real.sq_sqrt (div_nonneg hp hv.le)]

/-- The zero mode vanishes, whatever the power spectrum, even if it cannot be evaluated there. -/
theorem C60_zero (p : Mesh.Power) (inverted : Bool) (noise : M.Idx → ℂ) (hL : ∀ d, 0 < M.boxsize d) :
    M.complexDelta p inverted noise 0 = some 0 := by
  have h : waveNumber M (0 : M.Idx) = 0 := (waveNumber_zero_iff M hL 0).mpr rfl
  unfold Mesh.complexDelta
  simp [sqrt_k2, h]

/-- Hence the mean of the field is zero. -/
theorem C60_mean (hL : ∀ d, 0 < M.boxsize d) (p : Mesh.Power) (inverted : Bool) (noise : M.Idx → ℂ) (F : M.Idx → ℂ)
    (h : ∀ k, M.complexDelta p inverted noise k = some (F k)) : ∑ i, M.c2r F i = 0 := by
  have h0 : F 0 = 0 := by
    have := h 0
    rw [C60_zero M p inverted noise hL] at this
    simpa using this.symm
  have h1 := r2c_c2r M F 0
  rw [h0] at h1
  unfold Mesh.r2c at h1
  rw [div_eq_zero_iff] at h1
  rcases h1 with h1 | h1
  · rw [← h1]
    refine Finset.sum_congr rfl fun i _ => ?_
    have : M.char (-i) 0 = 1 := by rw [char_comm, char_zero_left]
    rw [this, mul_one]
  · exact absurd h1 (prod_ne M)

/-- Inverting the phases flips the sign of every mode, hence of the field at every node. -/
theorem C60_inverted (p : Mesh.Power) (noise : M.Idx → ℂ) (k : M.Idx) :
    M.complexDelta p true noise k = (M.complexDelta p false noise k).map fun z => -z := by
  unfold Mesh.complexDelta
  simp only [if_true]
  split_ifs <;> simp_all

/-- A negative power spectrum gives `nan`. -/
theorem C60_negative (hL : ∀ d, 0 < M.boxsize d) (p : Mesh.Power) (inverted : Bool) (noise : M.Idx → ℂ) (k : M.Idx) (hk : k ≠ 0)
    (hp : powerOf M p k < 0) : M.complexDelta p inverted noise k = none := by
  have hk' : ¬ waveNumber M k = 0 := fun h => hk ((waveNumber_zero_iff M hL k).mp h)
  have hv := volume_pos M hL
  unfold Mesh.complexDelta
  simp only [sqrt_k2, power_at, if_neg hk', prod_boxsize]
  have h : powerOf M p k * (1 / volume M) = powerOf M p k / volume M := by ring
  rw [h, if_pos (div_neg_of_neg_of_pos hp hv)]

/-- The cosine given to an anisotropic power spectrum is between -1 and 1, for a unit line of sight. -/
theorem C60_cosine (hL : ∀ d, 0 < M.boxsize d) (los : Fin 3 → ℝ) (hl : los 0 ^ 2 + los 1 ^ 2 + los 2 ^ 2 = 1) (k : M.Idx) (hk : k ≠ 0) :
    |(M.kvec k 0 * los 0 + M.kvec k 1 * los 1 + M.kvec k 2 * los 2) / waveNumber M k| ≤ 1 := by
  have h0 : 0 < waveNumber M k := lt_of_le_of_ne (Real.sqrt_nonneg _) fun h => hk ((waveNumber_zero_iff M hL k).mp h.symm)
  rw [abs_div, abs_of_pos h0, div_le_one h0]
  refine abs_le_of_sq_le_sq ?_ h0.le
  have hs : waveNumber M k ^ 2 = M.kvec k 0 ^ 2 + M.kvec k 1 ^ 2 + M.kvec k 2 ^ 2 := Real.sq_sqrt (by positivity)
  rw [hs]
  have := sq_nonneg (M.kvec k 0 * los 1 - M.kvec k 1 * los 0)
  have := sq_nonneg (M.kvec k 0 * los 2 - M.kvec k 2 * los 0)
  have := sq_nonneg (M.kvec k 1 * los 2 - M.kvec k 2 * los 1)
  have e : (M.kvec k 0 ^ 2 + M.kvec k 1 ^ 2 + M.kvec k 2 ^ 2) * 1 =
      (M.kvec k 0 ^ 2 + M.kvec k 1 ^ 2 + M.kvec k 2 ^ 2) * (los 0 ^ 2 + los 1 ^ 2 + los 2 ^ 2) := by rw [hl]
  nlinarith

/-- With a white noise that has the Hermitian symmetry and an isotropic power spectrum, the modes have this symmetry: the field is
real. -/
theorem C60_real (p : ℝ → ℝ) (inverted : Bool) (noise : M.Idx → ℂ) (hn : ∀ k, noise (-k) = (starRingEnd ℂ) (noise k)) (F : M.Idx → ℂ)
    (h : ∀ k, M.complexDelta (.iso p) inverted noise k = some (F k)) (i : M.Idx) : (M.c2r F i).im = 0 := by
  refine (real_iff M F).mpr ?_ i
  intro k
  have h1 := h k
  have h2 := h (-k)
  unfold Mesh.complexDelta Mesh.Power.at at h1 h2
  simp only [k2_neg, hn] at h1 h2
  generalize (if √(M.k2 k) = 0 then 0 else p √(M.k2 k)) * (1 / ∏ d, M.boxsize d) = a at h1 h2
  by_cases ha : a < 0
  · rw [if_pos ha] at h1
    cases h1
  · rw [if_neg ha] at h1 h2
    simp only [Option.some.injEq] at h1 h2
    rw [← h1, ← h2]
    cases inverted <;> simp

/-- A mode of `mesh4` other than the zero mode, with a unit power spectrum: the hypotheses are met. -/
example : ∃ z, mesh4.complexDelta (.iso fun _ => 2) true (fun _ => 1) (fun d => (1 : ZMod (mesh4.n d))) = some z ∧
    ‖z‖ ^ 2 = 2 / 512 := by
  obtain ⟨z, hz, hn⟩ := C60_unitary mesh4 (fun _ => by simp [mesh4]) (.iso fun _ => 2) true (fun _ => 1) (fun _ => by simp)
    (fun d => (1 : ZMod (mesh4.n d))) (by
      intro h
      have := congrFun h 0
      exact absurd this (by change (1 : ZMod 4) ≠ 0; decide)) (by simp [powerOf])
  refine ⟨z, hz, ?_⟩
  rw [hn]
  simp only [powerOf, volume, mesh4]
  norm_num

end Verif.Props
