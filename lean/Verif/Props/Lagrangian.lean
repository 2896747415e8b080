import Verif.Props.MeshGeom
import Verif.Props.Rsd

/-!
# C41: positions of Lagrangian mocks; C67: Zeldovich displacements
-/

namespace Verif.Props

open Verif Verif.Model Verif.Lemmas.Mesh

variable (M : Mesh)

/-! ### Positions -/

/-- In the box of the mock, upper boundary excluded. -/
def InMeshBox (p : Fin 3 → ℝ) : Prop :=
  ∀ d, M.boxcenter d - M.boxsize d / 2 ≤ p d ∧ p d < M.boxcenter d + M.boxsize d / 2

/-- Equal up to a whole number of boxes along each axis. -/
def SamePeriodic (p q : Fin 3 → ℝ) : Prop := ∀ d, ∃ m : ℤ, q d = p d + m * M.boxsize d

/-- The positions set by `poisson_sample` are in the box and are the displaced positions up to a whole number of boxes, whatever the
displacements; there is only one such position. -/
theorem C41_sample (hL : ∀ d, 0 < M.boxsize d) (read : Fin 3 → (Fin 3 → ℝ) → ℝ) (position : List (Fin 3 → ℝ)) :
    (M.lagrangianSample read position).length = position.length ∧
    ∀ (i : ℕ) (p : Fin 3 → ℝ), position[i]? = some p → ∃ q, (M.lagrangianSample read position)[i]? = some (q, fun a => read a p) ∧
      InMeshBox M q ∧ SamePeriodic M (fun d => p d + read d p) q ∧
      ∀ q', InMeshBox M q' → SamePeriodic M (fun d => p d + read d p) q' → q' = q := by
  refine ⟨by simp [Mesh.lagrangianSample], ?_⟩
  intro i p hp
  refine ⟨M.lagrangianWrap p (fun a => read a p), ?_, ?_, ?_, ?_⟩
  · unfold Mesh.lagrangianSample
    rw [List.getElem?_map, hp]
    rfl
  · intro d
    have := pmod_range (hL d) (p d + read d p - M.offset d)
    unfold Mesh.lagrangianWrap
    unfold Mesh.offset at *
    constructor <;> linarith [this.1, this.2]
  · intro d
    refine ⟨-⌊(p d + read d p - M.offset d) / M.boxsize d⌋, ?_⟩
    unfold Mesh.lagrangianWrap pmod
    push_cast
    ring
  · intro q' h1 h2
    funext d
    obtain ⟨m, hm⟩ := h2 d
    obtain ⟨h3, h4⟩ := h1 d
    unfold Mesh.lagrangianWrap
    have := pmod_unique (hL d) (a := p d + read d p - M.offset d) (b := q' d - M.offset d) (k := m) (by rw [hm]; ring)
      (by unfold Mesh.offset; linarith) (by unfold Mesh.offset; linarith)
    rw [this]
    ring

theorem lagrangianRsd_eq (f : Factor) (los : Axis) (position disps : List (V3 ℝ)) :
    lagrangianRsd f los position disps = rsdPosition f los position disps := rfl

/-- `set_rsd` moves each particle along the line of sight by `f` times its displacement along the line of sight. -/
theorem C41_rsd_fixed {los : Axis} (hlos : los ≠ .none) {n : V3 ℝ} (hn : getLos los = .ok n) (f : ℝ) (pos disps : List (V3 ℝ)) :
    lagrangianRsd (.const f) los pos disps = .ok (List.zipWith (fun p v => p + (f * V3.dot v n) • n) pos disps) := by
  rw [lagrangianRsd_eq]
  exact C25_fixed hlos hn f pos disps

/-- Same for the local line of sight, for particles that are not at the observer. -/
theorem C41_rsd_local (f : ℝ) (pos disps : List (V3 ℝ)) (h0 : ∀ p ∈ pos, p ≠ 0) :
    lagrangianRsd (.const f) .none pos disps =
      .ok (List.zipWith (fun p v => p + (f * (V3.dot v p / V3.dot p p)) • p) pos disps) := by
  rw [lagrangianRsd_eq]
  exact C25_local f pos disps h0

/-- Particles within reach stay in the box: if the displacement, times `f`, is smaller than the distance to the boundaries. -/
theorem C41_rsd_partial {los : Axis} (hlos : los ≠ .none) {n : V3 ℝ} (hn : getLos los = .ok n) (f : ℝ) (p v : V3 ℝ)
    (h : ∀ d, M.boxcenter d - M.boxsize d / 2 ≤ ![p.x, p.y, p.z] d - |f * V3.dot v n| ∧
      ![p.x, p.y, p.z] d + |f * V3.dot v n| < M.boxcenter d + M.boxsize d / 2) :
    ∃ q, lagrangianRsd (.const f) los [p] [v] = .ok [q] ∧ InMeshBox M ![q.x, q.y, q.z] := by
  refine ⟨_, C41_rsd_fixed hlos hn f [p] [v], ?_⟩
  have hn1 := getLos_ne_zero hn
  have hs : n.x ^ 2 + n.y ^ 2 + n.z ^ 2 = 1 := by rw [← V3.norm_sq, hn1]; norm_num
  have key : ∀ a c : ℝ, c ^ 2 ≤ 1 → |a * c| ≤ |a| := by
    intro a c hc
    rw [abs_mul]
    have : |c| ≤ 1 := abs_le_one_iff_mul_self_le_one.mpr (by nlinarith)
    nlinarith [abs_nonneg a]
  have kx := abs_le.mp (key (f * V3.dot v n) n.x (by nlinarith [sq_nonneg n.y, sq_nonneg n.z]))
  have ky := abs_le.mp (key (f * V3.dot v n) n.y (by nlinarith [sq_nonneg n.x, sq_nonneg n.z]))
  have kz := abs_le.mp (key (f * V3.dot v n) n.z (by nlinarith [sq_nonneg n.x, sq_nonneg n.y]))
  rw [abs_mul] at kx ky kz
  intro d
  have hd := h d
  fin_cases d <;> simp at hd ⊢ <;> constructor <;> linarith [hd.1, hd.2, kx.1, kx.2, ky.1, ky.2, kz.1, kz.2]

/-- After `set_rsd`, particles may be out of the box: positions are not wrapped. Here a box of size 2 around the origin, with the
line of sight along x and `f = 1`: the position (0.9, 0, 0) of displacement (0.5, 0, 0) goes to (1.4, 0, 0). -/
theorem C41_rsd_violated : ∃ q, lagrangianRsd (.const 1) (.str "x") [⟨0.9, 0, 0⟩] [⟨0.5, 0, 0⟩] = .ok [q] ∧ ¬ q.x < 1 ∧
    (-1 : ℝ) ≤ 0.9 ∧ (0.9 : ℝ) < 1 := by
  have hn : getLos (.str "x") = .ok ⟨1, 0, 0⟩ := axisMeans_getLos Spec.AxisMeans.x
  refine ⟨_, C41_rsd_fixed (by simp) hn 1 [⟨0.9, 0, 0⟩] [⟨0.5, 0, 0⟩], ?_, by norm_num, by norm_num⟩
  simp [V3.dot]
  norm_num

/-- With a callable `f` and other than 1 or 3 particles, `set_rsd` raises. -/
theorem C41_callable_violated (f : ℝ → ℝ) {n : V3 ℝ} (h1 : n.norm = 1) (pos disps : List (V3 ℝ))
    (hl : pos.length ≠ 1 ∧ pos.length ≠ 3) : lagrangianRsd (.fn f) (.vec n) pos disps = .error .valueError := by
  rw [lagrangianRsd_eq]
  exact C25_callable_violated f h1 pos disps hl

/-- Displacements larger than the box are wrapped. -/
example : ∃ q, (mesh4.lagrangianSample (fun _ _ => 100) [fun _ => 0])[0]? = some (q, fun _ => 100) ∧ InMeshBox mesh4 q := by
  obtain ⟨q, h1, h2, _⟩ := (C41_sample mesh4 (fun _ => by simp [mesh4]) (fun _ _ => 100) [fun _ => 0]).2 0 (fun _ => 0) rfl
  exact ⟨q, h1, h2⟩

/-! ### Zeldovich displacements -/

/-- Modes of a field of displacements. -/
noncomputable def dispMode (deltak : M.Idx → ℂ) (a : Fin 3) (k : M.Idx) : ℂ := M.r2c (M.dispC deltak a) k

theorem dispMode_eq (deltak : M.Idx → ℂ) (a : Fin 3) (k : M.Idx) : dispMode M deltak a k = deltak k * M.dispMult a k := by
  unfold dispMode Mesh.dispC
  rw [r2c_c2r]

theorem dispMult_of (hL : ∀ d, 0 < M.boxsize d) (a : Fin 3) (k : M.Idx) (hk : k ≠ 0) (h : (k a).val ≠ M.n a / 2) :
    M.dispMult a k = Complex.I * M.kvec k a / M.k2 k := by
  unfold Mesh.dispMult Mesh.k2safe
  have : ¬ M.k2 k = 0 := fun h' => hk ((k2_zero_iff M hL k).mp h')
  rw [if_neg this, if_pos h, mul_one]

/-- The divergence of the displacement is minus the density contrast, for each mode other than the zero mode whose indices are not
half the mesh size. -/
theorem C67_divergence_partial (hL : ∀ d, 0 < M.boxsize d) (deltak : M.Idx → ℂ) (k : M.Idx) (hk : k ≠ 0)
    (h : ∀ d, (k d).val ≠ M.n d / 2) :
    ∑ a, Complex.I * M.kvec k a * dispMode M deltak a k = -deltak k := by
  have h2 : M.k2 k ≠ 0 := fun h' => hk ((k2_zero_iff M hL k).mp h')
  have h2' : (M.k2 k : ℂ) ≠ 0 := by exact_mod_cast h2
  have : ∀ a, Complex.I * M.kvec k a * dispMode M deltak a k = -(deltak k / M.k2 k) * ((M.kvec k a ^ 2 : ℝ) : ℂ) := by
    intro a
    rw [dispMode_eq, dispMult_of M hL a k hk (h a)]
    push_cast
    linear_combination (deltak k * (M.kvec k a : ℂ) ^ 2 / M.k2 k) * Complex.I_sq
  rw [Finset.sum_congr rfl fun a _ => this a, ← Finset.mul_sum, ← Complex.ofReal_sum]
  have e : ∑ d, M.kvec k d ^ 2 = M.k2 k := rfl
  rw [e]
  field_simp

/-- The displacement has no curl: it is along the wave vector, for the same modes. -/
theorem C67_curl_partial (hL : ∀ d, 0 < M.boxsize d) (deltak : M.Idx → ℂ) (k : M.Idx) (hk : k ≠ 0) (a b : Fin 3)
    (ha : (k a).val ≠ M.n a / 2) (hb : (k b).val ≠ M.n b / 2) :
    M.kvec k a * dispMode M deltak b k = M.kvec k b * dispMode M deltak a k := by
  rw [dispMode_eq, dispMode_eq, dispMult_of M hL a k hk ha, dispMult_of M hL b k hk hb]
  ring

/-- The mean displacement is zero. -/
theorem C67_mean (hL : ∀ d, 0 < M.boxsize d) (deltak : M.Idx → ℂ) (a : Fin 3) : dispMode M deltak a 0 = 0 := by
  rw [dispMode_eq]
  unfold Mesh.dispMult
  rw [(kvec_zero_iff M hL 0 a).mpr rfl]
  simp

/-- On a mesh with an even number of cells along an axis, the modes left out along this axis are those of the Nyquist frequency. -/
theorem C67_even (a : Fin 3) (he : Even (M.n a)) (k : M.Idx) : (k a).val = M.n a / 2 ↔ 2 * |M.freq a (k a)| = M.n a :=
  val_half_iff M a he (k a)

/-- On a mesh with an odd number of cells, there is no Nyquist frequency, but the modes of positive largest frequency are left out:
the divergence of the displacement is not minus the density contrast. Here 3 cells a side and the fundamental mode. -/
theorem C67_odd_violated : ∃ k : mesh3.Idx, k ≠ 0 ∧ (∀ d, 2 * |mesh3.freq d (k d)| < mesh3.n d) ∧ ∀ deltak : mesh3.Idx → ℂ,
    deltak k ≠ 0 → ∑ a, Complex.I * mesh3.kvec k a * dispMode mesh3 deltak a k ≠ -deltak k := by
  refine ⟨fun d => if d = 0 then (1 : ZMod (mesh3.n d)) else 0, ?_, ?_, ?_⟩
  · intro h
    have := congrFun h 0
    exact absurd this (by change (1 : ZMod 3) ≠ 0; decide)
  · intro d
    fin_cases d <;> decide
  · intro deltak hd h
    have h0 : ∀ a : Fin 3, Complex.I * mesh3.kvec (fun d => if d = 0 then (1 : ZMod (mesh3.n d)) else 0) a *
        dispMode mesh3 deltak a (fun d => if d = 0 then (1 : ZMod (mesh3.n d)) else 0) = 0 := by
      intro a
      rw [dispMode_eq]
      unfold Mesh.dispMult
      by_cases ha : a = 0
      · subst ha
        rw [if_neg]
        · simp
        · push Not
          exact (by decide : (1 : ZMod 3).val = 3 / 2)
      · rw [(kvec_zero_iff mesh3 (fun _ => by simp [mesh3]) _ a).mpr (by rw [if_neg ha])]
        simp
    rw [Finset.sum_congr rfl fun a _ => h0 a] at h
    simp at h
    exact hd h

end Verif.Props
