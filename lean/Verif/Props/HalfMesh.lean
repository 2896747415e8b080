import Verif.Model.HalfMesh
import Verif.Props.Kaiser
import Verif.Props.Lagrangian

/-!
# C107: half of the modes

Meshes of real type hold half of the modes: the fields computed from them are those computed from all modes.
-/

namespace Verif.Props

open Verif Verif.Model Verif.Lemmas.Mesh

variable (M : Mesh)

namespace HalfMesh

/-- Modes whose opposite is held too: index 0 or half the mesh size along the last axis. -/
def OwnPlane (k : M.Idx) : Prop := (k 2).val = 0 ∨ 2 * (k 2).val = M.n 2

/-- Modes held, whose opposite is not. -/
def Upper (k : M.Idx) : Prop := 0 < (k 2).val ∧ 2 * (k 2).val < M.n 2

/-- Modes that are not held. -/
def Lower (k : M.Idx) : Prop := M.n 2 < 2 * (k 2).val

instance (k : M.Idx) : Decidable (OwnPlane M k) := inferInstanceAs (Decidable (_ ∨ _))
instance (k : M.Idx) : Decidable (Upper M k) := inferInstanceAs (Decidable (_ ∧ _))
instance (k : M.Idx) : Decidable (Lower M k) := inferInstanceAs (Decidable (_ < _))

theorem val_neg (k : M.Idx) : ((-k) 2).val = if (k 2).val = 0 then 0 else M.n 2 - (k 2).val := by
  have h : ((-k) 2).val = (-(k 2)).val := rfl
  rw [h, ZMod.neg_val]
  have : k 2 = 0 ↔ (k 2).val = 0 := (ZMod.val_eq_zero _).symm
  by_cases h0 : k 2 = 0
  · rw [if_pos h0, if_pos (this.1 h0)]
  · rw [if_neg h0, if_neg fun hh => h0 (this.2 hh)]

theorem own_neg (k : M.Idx) : OwnPlane M (-k) ↔ OwnPlane M k := by
  have hv := ZMod.val_lt (k 2)
  unfold OwnPlane
  rw [val_neg]
  split_ifs with h <;> omega

theorem lower_neg (k : M.Idx) : Lower M (-k) ↔ Upper M k := by
  have hv := ZMod.val_lt (k 2)
  unfold Upper Lower
  rw [val_neg]
  split_ifs with h <;> omega

theorem upper_neg (k : M.Idx) : Upper M (-k) ↔ Lower M k := by
  rw [← lower_neg, neg_neg]

theorem stored_iff (k : M.Idx) : M.Stored k ↔ OwnPlane M k ∨ Upper M k := by
  unfold Mesh.Stored OwnPlane Upper
  have := M.n_pos 2
  omega

theorem cases (k : M.Idx) : (OwnPlane M k ∧ ¬ Upper M k ∧ ¬ Lower M k) ∨ (¬ OwnPlane M k ∧ Upper M k ∧ ¬ Lower M k) ∨
    (¬ OwnPlane M k ∧ ¬ Upper M k ∧ Lower M k) := by
  have hv := ZMod.val_lt (k 2)
  unfold OwnPlane Upper Lower
  omega

theorem sum_neg (p : M.Idx → Prop) [DecidablePred p] (q : M.Idx → Prop) [DecidablePred q] (h : ∀ k, p (-k) ↔ q k) (g : M.Idx → ℝ) :
    ∑ k with p k, g k = ∑ k with q k, g (-k) := by
  rw [Finset.sum_filter, Finset.sum_filter, ← Equiv.sum_comp (Equiv.neg M.Idx)]
  refine Finset.sum_congr rfl fun k _ => ?_
  simp only [Equiv.neg_apply, h]

theorem sum_split (g : M.Idx → ℝ) :
    ∑ k, g k = ∑ k with OwnPlane M k, g k + ∑ k with Upper M k, g k + ∑ k with Lower M k, g k := by
  rw [Finset.sum_filter, Finset.sum_filter, Finset.sum_filter, ← Finset.sum_add_distrib, ← Finset.sum_add_distrib]
  refine Finset.sum_congr rfl fun k _ => ?_
  rcases cases M k with ⟨a, b, c⟩ | ⟨a, b, c⟩ | ⟨a, b, c⟩ <;> simp [a, b, c]

theorem half_eq (F : M.Idx → ℂ) (i : M.Idx) : M.c2rHalf F i =
    ∑ k with OwnPlane M k, (F k * M.char i k).re + 2 * ∑ k with Upper M k, (F k * M.char i k).re := by
  unfold Mesh.c2rHalf
  rw [Finset.sum_filter, Finset.sum_filter, Finset.sum_filter, Finset.mul_sum, ← Finset.sum_add_distrib]
  refine Finset.sum_congr rfl fun k _ => ?_
  have hm : M.multiplicity k = if OwnPlane M k then 1 else 2 := rfl
  have hs := stored_iff M k
  rcases cases M k with ⟨a, b, c⟩ | ⟨a, b, c⟩ | ⟨a, b, c⟩ <;> simp [a, b, hs, hm]

theorem real_eq (F : M.Idx → ℂ) (i : M.Idx) : M.c2rReal F i = ∑ k, (F k * M.char i k).re := by
  unfold Mesh.c2rReal Mesh.c2r
  rw [Complex.re_sum]

/-- C107. From the modes that are held, the transform gives the field of all modes, if this is a real field. -/
theorem C107_transform {F : M.Idx → ℂ} (hF : Hermitian M F) : M.c2rHalf F = M.c2rReal F := by
  funext i
  rw [half_eq, real_eq, sum_split, sum_neg M (Lower M) (Upper M) (lower_neg M)]
  have : ∀ k, (F (-k) * M.char i (-k)).re = (F k * M.char i k).re := fun k => by
    rw [hF k, ← conj_char, ← map_mul, Complex.conj_re]
  simp only [this]
  ring

/-- Modes that are not held do not matter. -/
theorem C107_stored {F G : M.Idx → ℂ} (h : ∀ k, 2 * (k 2).val ≤ M.n 2 → F k = G k) : M.c2rHalf F = M.c2rHalf G := by
  funext i
  unfold Mesh.c2rHalf
  refine Finset.sum_congr rfl fun k hk => ?_
  rw [h k (Finset.mem_filter.1 hk).2]

/-- The modes of the field of given held modes, whatever they are. -/
noncomputable def complete (F : M.Idx → ℂ) (k : M.Idx) : ℂ :=
  if OwnPlane M k then (F k + (starRingEnd ℂ) (F (-k))) / 2 else if Upper M k then F k else (starRingEnd ℂ) (F (-k))

theorem complete_hermitian (F : M.Idx → ℂ) : Hermitian M (complete M F) := by
  intro k
  unfold complete
  rw [neg_neg]
  have h1 := own_neg M k
  have h2 := upper_neg M k
  rcases cases M k with ⟨a, b, c⟩ | ⟨a, b, c⟩ | ⟨a, b, c⟩
  · rw [if_pos (h1.2 a), if_pos a, map_div₀, map_add, Complex.conj_conj, add_comm, Complex.conj_ofNat]
  · rw [if_neg (fun h => a (h1.1 h)), if_neg (fun h => c (h2.1 h)), if_neg a, if_pos b]
  · rw [if_neg (fun h => a (h1.1 h)), if_pos (h2.2 c), if_neg a, if_neg b, Complex.conj_conj]

theorem half_complete (F : M.Idx → ℂ) : M.c2rHalf F = M.c2rReal (complete M F) := by
  rw [← C107_transform M (complete_hermitian M F)]
  funext i
  rw [half_eq, half_eq]
  congr 1
  · have h1 : ∑ k with OwnPlane M k, (complete M F k * M.char i k).re =
        ∑ k with OwnPlane M k, (1 / 2 * (F k * M.char i k).re + 1 / 2 * (F (-k) * M.char i (-k)).re) := by
      refine Finset.sum_congr rfl fun k hk => ?_
      have hk := (Finset.mem_filter.1 hk).2
      unfold complete
      rw [if_pos hk, ← conj_char]
      simp only [Complex.mul_re, Complex.conj_re, Complex.conj_im, Complex.div_ofNat_re, Complex.div_ofNat_im, Complex.add_re, Complex.add_im]
      ring
    rw [h1, Finset.sum_add_distrib, ← Finset.mul_sum, ← Finset.mul_sum,
      ← sum_neg M (OwnPlane M) (OwnPlane M) (own_neg M) fun k => (F k * M.char i k).re]
    ring
  · congr 1
    refine Finset.sum_congr rfl fun k hk => ?_
    have hk := (Finset.mem_filter.1 hk).2
    rcases cases M k with ⟨a, b, c⟩ | ⟨a, b, c⟩ | ⟨a, b, c⟩
    · exact absurd hk b
    · unfold complete
      rw [if_neg a, if_pos b]
    · exact absurd hk b

theorem r2c_half (F : M.Idx → ℂ) (k : M.Idx) : M.r2c (fun i => (M.c2rHalf F i : ℂ)) k = complete M F k := by
  have : (fun i => (M.c2rHalf F i : ℂ)) = M.c2r (complete M F) := by
    funext i
    rw [half_complete]
    refine Complex.ext rfl ?_
    rw [(C43_real_iff M _).2 (complete_hermitian M F) i]
    simp
  rw [this, r2c_c2r]

/-- C107. Whatever the modes that are held, those of the plane 0 and of the plane of the Nyquist frequency along the last axis apart, the
field has these modes: nothing is dropped. -/
theorem C107_modes (F : M.Idx → ℂ) (k : M.Idx) (h0 : 0 < (k 2).val) (h : 2 * (k 2).val < M.n 2) :
    M.r2c (fun i => (M.c2rHalf F i : ℂ)) k = F k := by
  rw [r2c_half]
  have hu : Upper M k := ⟨h0, h⟩
  unfold complete
  rcases cases M k with ⟨a, b, c⟩ | ⟨a, b, c⟩ | ⟨a, b, c⟩
  · exact absurd hu b
  · rw [if_neg a, if_pos b]
  · exact absurd hu b

/-- In these two planes the field has the mean of the mode and of the conjugate of the opposite mode. -/
theorem C107_planes (F : M.Idx → ℂ) (k : M.Idx) (h : (k 2).val = 0 ∨ 2 * (k 2).val = M.n 2) :
    M.r2c (fun i => (M.c2rHalf F i : ℂ)) k = (F k + (starRingEnd ℂ) (F (-k))) / 2 := by
  rw [r2c_half]
  unfold complete
  rw [if_pos (show OwnPlane M k from h)]

/-! ### Fields of mocks -/

/-- C107. Density contrast: the same as with all modes, for all biases and transforms. -/
theorem C107_delta {F : M.Idx → ℂ} (hF : Hermitian M F) (b : Mesh.Bias) (lognormal : Bool) :
    M.realDeltaHalf b lognormal F = M.realDelta b lognormal F := by
  unfold Mesh.realDeltaHalf Mesh.realDelta
  rw [C107_transform M hF]

/-- C107. Displacements, on meshes with an even number of cells along their axis. -/
theorem C107_disp_partial (a : Fin 3) (he : Even (M.n a)) {F : M.Idx → ℂ} (hF : Hermitian M F) (i : M.Idx) :
    M.dispHalf F a i = (M.dispC F a i).re := by
  unfold Mesh.dispHalf
  rw [C107_transform M ((C43_real_iff M _).1 fun i => C43_disp_partial M a he F hF i)]
  rfl

/-- C107. Redshift-space distortions: with a line of sight along an axis, with any one on meshes with an odd number of cells a side, with
local lines of sight on meshes with an even number of cells a side. -/
theorem C107_rsd_partial (f : Factor) {los : Axis}
    (h : (los = .none ∧ ∀ d, Even (M.n d)) ∨ (los ≠ .none ∧ ∀ n, getLos los = .ok n → AlongAxis ![n.x, n.y, n.z] ∨ ∀ d, Odd (M.n d)))
    {F : M.Idx → ℂ} (hF : Hermitian M F) (delta : M.Idx → ℝ) :
    M.eulerianRsdHalf f los F delta = M.eulerianRsd f los F delta := by
  rcases h with ⟨rfl, he⟩ | ⟨hne, hm⟩
  · unfold Mesh.eulerianRsdHalf Mesh.eulerianRsd
    simp only
    congr 1
    funext i
    unfold Mesh.eulerianLocalHalf Mesh.eulerianLocal
    have : ∀ a b, M.c2rHalf (fun k => F k * (M.pairMult a b k : ℂ)) = M.c2rReal (fun k => F k * (M.pairMult a b k : ℂ)) := fun a b =>
      C107_transform M ((C43_real_iff M _).1 (C43_local_partial M a b (he a) (he b) F hF))
    simp only [this]
  · have key : ∀ n, getLos los = .ok n →
        (fun i => some (M.eulerianFixedHalf f ![n.x, n.y, n.z] F delta i)) = fun i => some (M.eulerianFixed f ![n.x, n.y, n.z] F delta i) := by
      intro n hn
      funext i
      unfold Mesh.eulerianFixedHalf Mesh.eulerianFixed
      rw [C107_transform M ((C43_real_iff M _).1 (C43_fixed_partial M _ (hm n hn) F hF))]
    unfold Mesh.eulerianRsdHalf Mesh.eulerianRsd
    cases los with
    | none => exact absurd rfl hne
    | _ =>
      simp only
      generalize getLos _ = g at key
      cases g with
      | error e => rfl
      | ok l => exact congrArg Except.ok (key l rfl)

/-- C107. Kaiser factor on meshes of real type, for all lines of sight and mesh sizes: the modes of the result are `b + f mu²` times those
of the matter density contrast, the planes 0 and of the Nyquist frequency along the last axis apart. -/
theorem C107_kaiser (hL : ∀ d, 0 < M.boxsize d) {los : Axis} (hlos : los ≠ .none) {n : V3 ℝ} (hn : getLos los = .ok n) (f b : ℝ)
    (F : M.Idx → ℂ) :
    ∃ out : M.Idx → ℝ, M.eulerianRsdHalf (.const f) los F (M.realDeltaHalf (.const b) false F) = .ok (fun i => some (out i)) ∧
      ∀ k, 0 < (k 2).val → 2 * (k 2).val < M.n 2 → M.r2c (fun i => (out i : ℂ)) k = ((b + f * cosSq M n k : ℝ) : ℂ) * F k := by
  have h1 := getLos_ne_zero hn
  refine ⟨M.eulerianFixedHalf (.const f) ![n.x, n.y, n.z] F (M.realDeltaHalf (.const b) false F), ?_, fun k k0 kn => ?_⟩
  · unfold Mesh.eulerianRsdHalf
    cases los with
    | none => exact absurd rfl hlos
    | _ => simp only [hn]
  · have e : (fun i => (M.eulerianFixedHalf (.const f) ![n.x, n.y, n.z] F (M.realDeltaHalf (.const b) false F) i : ℂ)) =
        fun i => (M.c2rHalf F i : ℂ) * b + (M.c2rHalf (fun k => F k * (cosSq M n k : ℂ)) i : ℂ) * f := by
      funext i
      unfold Mesh.eulerianFixedHalf Mesh.factorAt Mesh.realDeltaHalf Mesh.biased
      simp only [muSq_eq M hL n h1]
      push_cast
      rfl
    rw [e]
    have lin : ∀ (u v : M.Idx → ℂ), M.r2c (fun i => u i * b + v i * f) k = M.r2c u k * b + M.r2c v k * f := by
      intro u v
      unfold Mesh.r2c
      rw [div_mul_eq_mul_div, div_mul_eq_mul_div, ← add_div, Finset.sum_mul, Finset.sum_mul, ← Finset.sum_add_distrib]
      congr 1
      exact Finset.sum_congr rfl fun i _ => by ring
    rw [lin, C107_modes M F k k0 kn, C107_modes M _ k k0 kn]
    push_cast
    ring

/-! ### Odd meshes -/

/-- Fields of modes of the planes 0 and of the Nyquist frequency only, with any multipliers. -/
theorem C107_own_planes {F : M.Idx → ℂ} (h : ∀ k, F k ≠ 0 → (k 2).val = 0 ∨ 2 * (k 2).val = M.n 2) : M.c2rHalf F = M.c2rReal F := by
  funext i
  rw [half_eq, real_eq, sum_split]
  have h0 : ∀ k, ¬ OwnPlane M k → F k = 0 := fun k hk => by
    by_contra h'
    exact hk (h k h')
  have h1 : ∑ k with Upper M k, (F k * M.char i k).re = 0 := by
    refine Finset.sum_eq_zero fun k hk => ?_
    have hk := (Finset.mem_filter.1 hk).2
    rcases cases M k with ⟨a, b, c⟩ | ⟨a, b, c⟩ | ⟨a, b, c⟩
    · exact absurd hk b
    · rw [h0 k a]; simp
    · exact absurd hk b
  have h2 : ∑ k with Lower M k, (F k * M.char i k).re = 0 := by
    refine Finset.sum_eq_zero fun k hk => ?_
    have hk := (Finset.mem_filter.1 hk).2
    rcases cases M k with ⟨a, b, c⟩ | ⟨a, b, c⟩ | ⟨a, b, c⟩
    · exact absurd hk c
    · exact absurd hk c
    · rw [h0 k a]; simp
  rw [h1, h2]
  ring

/-- On meshes of real type too, distortions along local lines of sight are wrong with an odd number of cells a side (see
`C42_local_odd_violated`): something is added at a node where the line of sight is perpendicular to the only wave of the field. -/
theorem C107_local_violated : Hermitian mesh3 crossField ∧ (∀ d, nodeAt mesh3 0 d = -3) ∧
    (∀ k, crossField k ≠ 0 → cosSq mesh3 ⟨-3, -3, -3⟩ k = 0) ∧
    ∃ out, mesh3.eulerianRsdHalf (.const 1) .none crossField (fun _ => 0) = .ok out ∧ out 0 = some (2 / 3) := by
  obtain ⟨h1, h2, h3, out, h4, h5⟩ := C42_local_odd_violated
  refine ⟨h1, h2, h3, out, ?_, h5⟩
  rw [← h4]
  unfold Mesh.eulerianRsdHalf Mesh.eulerianRsd
  simp only
  congr 1
  funext i
  have : ∀ a b, mesh3.c2rHalf (fun k => crossField k * (mesh3.pairMult a b k : ℂ)) =
      mesh3.c2rReal (fun k => crossField k * (mesh3.pairMult a b k : ℂ)) := fun a b => by
    refine C107_own_planes mesh3 fun k hk => Or.inl ?_
    have hk : crossField k ≠ 0 := fun h => hk (by rw [h, zero_mul])
    unfold crossField at hk
    by_cases h : k = crossMode ∨ k = -crossMode
    · rcases h with rfl | rfl <;> decide
    · rw [if_neg h] at hk
      exact absurd rfl hk
  unfold Mesh.eulerianLocalHalf Mesh.eulerianLocal
  simp only [this]

/-- Mode of indices (0, 0, 1) of `mesh3`. -/
def zMode : mesh3.Idx := fun d => if d = 2 then (1 : ZMod 3) else (0 : ZMod 3)

open Classical in
/-- The real field of one wave along z. -/
noncomputable def zField (k : mesh3.Idx) : ℂ := if k = zMode ∨ k = -zMode then 1 else 0

theorem zField_hermitian : Hermitian mesh3 zField := by
  intro k
  unfold zField
  have : (-k = zMode ∨ -k = -zMode) ↔ (k = zMode ∨ k = -zMode) := by
    rw [neg_inj, neg_eq_iff_eq_neg]
    exact or_comm
  simp only [this]
  split_ifs <;> simp

/-- Real part of a field: its modes are the means of modes and of conjugates of opposite modes. -/
theorem r2c_real (F : M.Idx → ℂ) (k : M.Idx) :
    M.r2c (fun i => (M.c2rReal F i : ℂ)) k = (F k + (starRingEnd ℂ) (F (-k))) / 2 := by
  have : (fun i => (M.c2rReal F i : ℂ)) = M.c2r fun k => (F k + (starRingEnd ℂ) (F (-k))) / 2 := by
    funext i
    have h1 : (M.c2rReal F i : ℂ) = (M.c2r F i + (starRingEnd ℂ) (M.c2r F i)) / 2 := by
      rw [Complex.add_conj]
      unfold Mesh.c2rReal
      push_cast
      ring
    rw [h1, conj_c2r]
    unfold Mesh.c2r
    rw [← Finset.sum_add_distrib, Finset.sum_div]
    exact Finset.sum_congr rfl fun k _ => by ring
  rw [this, r2c_c2r]

/-- C107 fails for displacements along the last axis on meshes with an odd number of cells: a wave along z, held by one mode only, gives
no displacement at all, and half of the displacement with all modes. -/
theorem C107_disp_violated : ∃ F : mesh3.Idx → ℂ, Hermitian mesh3 F ∧ (∀ i, mesh3.dispHalf F 2 i = 0) ∧
    ∃ i, (mesh3.dispC F 2 i).re ≠ 0 := by
  have m1 : mesh3.dispMult 2 zMode = 0 := by
    unfold Mesh.dispMult
    rw [if_neg (by decide), mul_zero]
  refine ⟨zField, zField_hermitian, fun i => ?_, ?_⟩
  · unfold Mesh.dispHalf Mesh.c2rHalf
    refine Finset.sum_eq_zero fun k hk => ?_
    have hk := (Finset.mem_filter.1 hk).2
    beta_reduce
    by_cases h : k = zMode
    · rw [h, m1]
      simp
    · have h' : k ≠ -zMode := by
        rintro rfl
        exact absurd hk (by decide)
      unfold zField
      rw [if_neg (not_or.2 ⟨h, h'⟩)]
      simp
  · by_contra hall
    push Not at hall
    have h0 := r2c_real mesh3 (fun k => zField k * mesh3.dispMult 2 k) zMode
    have hz : (fun i => (mesh3.c2rReal (fun k => zField k * mesh3.dispMult 2 k) i : ℂ)) = fun _ => 0 := by
      funext i
      have := hall i
      unfold Mesh.dispC at this
      unfold Mesh.c2rReal
      rw [this]
      simp
    rw [hz, m1] at h0
    have hr : mesh3.r2c (fun _ => 0) zMode = 0 := by
      unfold Mesh.r2c
      simp
    rw [hr] at h0
    have f1 : zField (-zMode) = 1 := by
      unfold zField
      rw [if_pos (Or.inr rfl)]
    rw [f1, one_mul, mul_zero, zero_add] at h0
    have h1 : mesh3.dispMult 2 (-zMode) = 0 := by
      have := (div_eq_zero_iff.1 h0.symm).resolve_right two_ne_zero
      exact (map_eq_zero _).1 this
    unfold Mesh.dispMult at h1
    have hf : mesh3.freq 2 ((-zMode) 2) = -1 := by decide
    have hk : mesh3.kvec (-zMode) 2 ≠ 0 := by
      unfold Mesh.kvec
      rw [hf]
      have := Real.pi_pos
      have hb : mesh3.boxsize 2 = 6 := rfl
      rw [hb]
      push_cast
      intro hh
      linarith
    have hs : mesh3.k2safe (-zMode) ≠ 0 := by
      unfold Mesh.k2safe
      split_ifs with h
      · exact one_ne_zero
      · exact h
    rw [if_pos (by decide), mul_one] at h1
    have := (div_eq_zero_iff.1 h1).resolve_right (by exact_mod_cast hs)
    rcases mul_eq_zero.1 this with h | h
    · exact Complex.I_ne_zero h
    · exact hk (by exact_mod_cast h)

/-- Hypotheses of the theorems above: modes that are held, and whose opposite is not. -/
example : ∃ k : mesh4.Idx, 0 < (k 2).val ∧ 2 * (k 2).val < mesh4.n 2 ∧ ¬ mesh4.Stored (-k) := ⟨fun _ => (1 : ZMod 4), by decide⟩

example : (Axis.idx 2 ≠ .none) ∧ ∀ n, getLos (.idx 2) = .ok n → AlongAxis ![n.x, n.y, n.z] := by
  refine ⟨by simp, fun n hn => ?_⟩
  have h : getLos (.idx 2) = .ok ⟨0, 0, 1⟩ := axisMeans_getLos Spec.AxisMeans.i2
  rw [h] at hn
  cases hn
  exact ⟨2, fun d hd => by fin_cases d <;> simp at hd ⊢⟩

end HalfMesh

end Verif.Props
