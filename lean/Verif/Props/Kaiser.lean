import Verif.Props.Hermitian
import Verif.Props.Rsd

/-!
# C42: Kaiser factor
-/

namespace Verif.Props

open Verif Verif.Model Verif.Lemmas.Mesh

variable (M : Mesh)

open Classical in
/-- Square of the cosine of the angle between the wave vector of a mode and a direction, 0 for the mode of the mean. -/
noncomputable def cosSq (n : V3 ℝ) (k : M.Idx) : ℝ :=
  if k = 0 then 0 else (M.kvec k 0 * n.x + M.kvec k 1 * n.y + M.kvec k 2 * n.z) ^ 2 /
    ((M.kvec k 0 ^ 2 + M.kvec k 1 ^ 2 + M.kvec k 2 ^ 2) * (n.x ^ 2 + n.y ^ 2 + n.z ^ 2))

theorem kvec_zero (d : Fin 3) : M.kvec 0 d = 0 := by
  unfold Mesh.kvec
  rw [Pi.zero_apply, freq_zero]
  simp

theorem k2safe_ne (hL : ∀ d, 0 < M.boxsize d) {k : M.Idx} (hk : k ≠ 0) :
    M.k2safe k = M.kvec k 0 ^ 2 + M.kvec k 1 ^ 2 + M.kvec k 2 ^ 2 := by
  unfold Mesh.k2safe
  rw [if_neg fun h => hk ((k2_zero_iff M hL k).mp h)]
  unfold Mesh.k2
  rw [Fin.sum_univ_three]

theorem muSq_eq (hL : ∀ d, 0 < M.boxsize d) (n : V3 ℝ) (hn : n.norm = 1) (k : M.Idx) :
    M.muSq ![n.x, n.y, n.z] k = cosSq M n k := by
  have hs : n.x ^ 2 + n.y ^ 2 + n.z ^ 2 = 1 := by rw [← V3.norm_sq, hn]; norm_num
  unfold Mesh.muSq cosSq
  rw [div_pow, Real.sq_sqrt (k2safe_pos M k).le, Fin.sum_univ_three, hs, mul_one]
  by_cases hk : k = 0
  · subst hk
    rw [if_pos rfl, kvec_zero, kvec_zero, kvec_zero]
    simp
  · rw [if_neg hk, k2safe_ne M hL hk]
    rfl

/-- The squared cosine lies between 0 and 1. -/
theorem cosSq_mem (n : V3 ℝ) (k : M.Idx) : 0 ≤ cosSq M n k ∧ cosSq M n k ≤ 1 := by
  unfold cosSq
  split
  · norm_num
  · refine ⟨by positivity, div_le_one_of_le₀ ?_ (by positivity)⟩
    generalize M.kvec k 0 = a
    generalize M.kvec k 1 = b
    generalize M.kvec k 2 = c
    nlinarith [sq_nonneg (a * n.y - b * n.x), sq_nonneg (a * n.z - c * n.x), sq_nonneg (b * n.z - c * n.y)]

/-- With a fixed line of sight, `set_rsd` adds to the density contrast the field of modes `f mu² delta_k`. -/
theorem C42_fixed (hL : ∀ d, 0 < M.boxsize d) {los : Axis} (hlos : los ≠ .none) {n : V3 ℝ} (hn : getLos los = .ok n) (f : ℝ)
    (deltak : M.Idx → ℂ) (delta : M.Idx → ℝ) :
    ∃ out, M.eulerianRsd (.const f) los deltak delta = .ok out ∧
      ∀ i, out i = some (delta i + f * M.c2rReal (fun k => deltak k * (cosSq M n k : ℂ)) i) := by
  have h1 := getLos_ne_zero hn
  refine ⟨fun i => some (M.eulerianFixed (.const f) ![n.x, n.y, n.z] deltak delta i), ?_, fun i => ?_⟩
  · unfold Mesh.eulerianRsd
    cases los with
    | none => exact absurd rfl hlos
    | _ => simp only [hn]
  · unfold Mesh.eulerianFixed Mesh.factorAt
    simp only [muSq_eq M hL n h1]
    rw [mul_comm]

/-- With a callable `f`, the added field is multiplied by `f` of the distance of each node to the observer. -/
theorem C42_callable (hL : ∀ d, 0 < M.boxsize d) {los : Axis} (hlos : los ≠ .none) {n : V3 ℝ} (hn : getLos los = .ok n) (f : ℝ → ℝ)
    (deltak : M.Idx → ℂ) (delta : M.Idx → ℝ) :
    ∃ out, M.eulerianRsd (.fn f) los deltak delta = .ok out ∧
      ∀ i, out i = some (delta i + f (Real.sqrt (nodeAt M i 0 ^ 2 + nodeAt M i 1 ^ 2 + nodeAt M i 2 ^ 2)) *
        M.c2rReal (fun k => deltak k * (cosSq M n k : ℂ)) i) := by
  have h1 := getLos_ne_zero hn
  refine ⟨fun i => some (M.eulerianFixed (.fn f) ![n.x, n.y, n.z] deltak delta i), ?_, fun i => ?_⟩
  · unfold Mesh.eulerianRsd
    cases los with
    | none => exact absurd rfl hlos
    | _ => simp only [hn]
  · unfold Mesh.eulerianFixed Mesh.factorAt
    simp only [muSq_eq M hL n h1, C66_distance M hL]
    rw [mul_comm]

/-- A line of sight that designates no direction is an error, whatever the rest. -/
theorem C42_los_error {los : Axis} (hlos : los ≠ .none) {e : Err} (hn : getLos los = .error e) (f : Factor)
    (deltak : M.Idx → ℂ) (delta : M.Idx → ℝ) : M.eulerianRsd f los deltak delta = .error e := by
  unfold Mesh.eulerianRsd
  cases los with
  | none => exact absurd rfl hlos
  | _ => simp only [hn]

/-- Kaiser factor: with the linear bias `b`, the modes of the result are `b + f mu²` times those of the matter density contrast. -/
theorem C42_modes_partial (hL : ∀ d, 0 < M.boxsize d) {los : Axis} (hlos : los ≠ .none) {n : V3 ℝ} (hn : getLos los = .ok n) (f b : ℝ)
    (deltak : M.Idx → ℂ) (hF : Hermitian M deltak) (hm : AlongAxis ![n.x, n.y, n.z] ∨ ∀ d, Odd (M.n d)) :
    ∃ out : M.Idx → ℝ, M.eulerianRsd (.const f) los deltak (fun i => b * M.c2rReal deltak i) = .ok (fun i => some (out i)) ∧
      ∀ k, M.r2c (fun i => (out i : ℂ)) k = ((b + f * cosSq M n k : ℝ) : ℂ) * deltak k := by
  have h1 := getLos_ne_zero hn
  obtain ⟨out, ho, hv⟩ := C42_fixed M hL hlos hn f deltak fun i => b * M.c2rReal deltak i
  refine ⟨_, ho.trans (congrArg Except.ok (funext hv)), fun k => ?_⟩
  have hr1 : RealField M deltak := (C43_real_iff M _).mpr hF
  have hr2 : RealField M fun k => deltak k * (cosSq M n k : ℂ) := by
    have := C43_fixed_partial M ![n.x, n.y, n.z] hm deltak hF
    simp only [muSq_eq M hL n h1] at this
    exact this
  have hof : ∀ F : M.Idx → ℂ, RealField M F → ∀ i, (M.c2rReal F i : ℂ) = M.c2r F i := by
    intro F h i
    exact Complex.ext (by simp [Mesh.c2rReal]) (by simp [h i])
  have e : (fun i => ((b * M.c2rReal deltak i + f * M.c2rReal (fun k => deltak k * (cosSq M n k : ℂ)) i : ℝ) : ℂ)) =
      M.c2r fun k => ((b + f * cosSq M n k : ℝ) : ℂ) * deltak k := by
    funext i
    push_cast
    rw [hof _ hr1, hof _ hr2, ← c2r_mul, ← c2r_mul, ← c2r_add]
    congr 1
    funext k
    ring
  rw [e, r2c_c2r]

/-! ### Local lines of sight -/

/-- The product of wave numbers that is left out in the planes of the Nyquist frequency does not contribute to real fields. -/
theorem c2rReal_pair (a b : Fin 3) (ha : Even (M.n a)) (hb : Even (M.n b)) (F : M.Idx → ℂ) (hF : Hermitian M F) (i : M.Idx) :
    M.c2rReal (fun k => F k * (M.pairMult a b k : ℂ)) i =
      M.c2rReal (fun k => F k * ((M.kvec k a * M.kvec k b / M.k2safe k : ℝ) : ℂ)) i := by
  classical
  let cut : M.Idx → ℝ := fun k => if ((k a).val ≠ M.n a / 2 ∧ (k b).val ≠ M.n b / 2) ∨
    ((k a).val = M.n a / 2 ∧ (k b).val = M.n b / 2) then 0 else 1
  let G : M.Idx → ℂ := fun k => F k * ((M.kvec k a * M.kvec k b / M.k2safe k * cut k : ℝ) : ℂ)
  have hG : M.c2rReal G i = 0 := by
    have hH : Hermitian M fun k => Complex.I * G k := by
      intro k
      beta_reduce
      have e : M.kvec (-k) a * M.kvec (-k) b / M.k2safe (-k) * cut (-k) = -(M.kvec k a * M.kvec k b / M.k2safe k * cut k) := by
        rw [k2safe_neg]
        have va : ((-k) a).val = M.n a / 2 ↔ (k a).val = M.n a / 2 := val_neg_half M a ha (k a)
        have vb : ((-k) b).val = M.n b / 2 ↔ (k b).val = M.n b / 2 := val_neg_half M b hb (k b)
        have hc : cut (-k) = cut k := by
          simp only [cut, ne_eq, va, vb]
        rw [hc]
        by_cases h : ((k a).val ≠ M.n a / 2 ∧ (k b).val ≠ M.n b / 2) ∨ ((k a).val = M.n a / 2 ∧ (k b).val = M.n b / 2)
        · have : cut k = 0 := if_pos h
          rw [this]
          simp
        · have hx : ∀ d, Even (M.n d) → (k d).val ≠ M.n d / 2 → M.kvec (-k) d = -M.kvec k d := by
            intro d hd h
            rcases kvec_neg M k d with h' | ⟨_, h'⟩
            · exact h'
            · exact absurd ((val_half_iff M d hd (k d)).mpr h') h
          have hy : ∀ d, Even (M.n d) → (k d).val = M.n d / 2 → M.kvec (-k) d = M.kvec k d := by
            intro d hd h
            have h6 : ((-(k d) : ZMod (M.n d))).val = M.n d / 2 := (val_neg_half M d hd (k d)).mpr h
            have e : (-(k d) : ZMod (M.n d)) = k d := ZMod.val_injective _ (h6.trans h.symm)
            unfold Mesh.kvec
            rw [Pi.neg_apply, e]
          by_cases h1 : (k a).val = M.n a / 2
          · have h2 : (k b).val ≠ M.n b / 2 := fun h2 => h (Or.inr ⟨h1, h2⟩)
            rw [hy a ha h1, hx b hb h2]
            ring
          · have h2 : (k b).val = M.n b / 2 := by
              by_contra h2
              exact h (Or.inl ⟨h1, h2⟩)
            rw [hx a ha h1, hy b hb h2]
            ring
      simp only [G]
      rw [e, hF]
      simp
    have hr := (C43_real_iff M _).mpr hH i
    rw [c2r_mul] at hr
    simpa [Mesh.c2rReal] using hr
  have hsum : (fun k => F k * ((M.kvec k a * M.kvec k b / M.k2safe k : ℝ) : ℂ)) =
      fun k => F k * (M.pairMult a b k : ℂ) + G k := by
    funext k
    simp only [G]
    rw [← mul_add]
    norm_cast
    congr 2
    unfold Mesh.pairMult
    simp only [cut]
    split_ifs <;> simp
  rw [hsum, c2rReal_add, hG, add_zero]

/-- With local lines of sight and an even number of cells a side, `set_rsd` does at each node what it does with a fixed line of sight
in the direction of the node. -/
theorem C42_local_partial (hL : ∀ d, 0 < M.boxsize d) (he : ∀ d, Even (M.n d)) (f : Factor) (deltak : M.Idx → ℂ)
    (hF : Hermitian M deltak) (delta : M.Idx → ℝ) (i : M.Idx) (r : V3 ℝ) (hr : r = ⟨nodeAt M i 0, nodeAt M i 1, nodeAt M i 2⟩) (h0 : r ≠ 0) :
    ∃ out, M.eulerianRsd f .none deltak delta = .ok out ∧
      out i = some (delta i + (match f with | .const f => f | .fn f => f r.norm) *
        M.c2rReal (fun k => deltak k * (cosSq M r k : ℂ)) i) := by
  refine ⟨M.eulerianLocal f deltak delta, rfl, ?_⟩
  have hn : 0 < r.x ^ 2 + r.y ^ 2 + r.z ^ 2 := by
    have := V3.norm_pos h0
    rw [← V3.norm_sq]
    positivity
  have hf : M.factorAt f i = match f with | .const f => f | .fn f => f r.norm := by
    unfold Mesh.factorAt
    cases f with
    | const f => rfl
    | fn f =>
      rw [C66_distance M hL]
      simp only [hr, V3.norm]
  unfold Mesh.eulerianLocal
  simp only [Fin.sum_univ_three, C66_nodes M hL, hf, c2rReal_pair M _ _ (he _) (he _) deltak hF]
  have hx : nodeAt M i 0 = r.x := by rw [hr]
  have hy : nodeAt M i 1 = r.y := by rw [hr]
  have hz : nodeAt M i 2 = r.z := by rw [hr]
  rw [hx, hy, hz, if_neg hn.ne']
  congr 2
  rw [mul_comm]
  congr 1
  have hcos : (fun k => deltak k * (cosSq M r k : ℂ)) = fun k =>
      ((r.x * r.x / (r.x ^ 2 + r.y ^ 2 + r.z ^ 2) : ℝ) : ℂ) * (deltak k * ((M.kvec k 0 * M.kvec k 0 / M.k2safe k : ℝ) : ℂ)) +
      (((2 * (r.x * r.y / (r.x ^ 2 + r.y ^ 2 + r.z ^ 2)) : ℝ) : ℂ) * (deltak k * ((M.kvec k 0 * M.kvec k 1 / M.k2safe k : ℝ) : ℂ)) +
      (((2 * (r.x * r.z / (r.x ^ 2 + r.y ^ 2 + r.z ^ 2)) : ℝ) : ℂ) * (deltak k * ((M.kvec k 0 * M.kvec k 2 / M.k2safe k : ℝ) : ℂ)) +
      (((r.y * r.y / (r.x ^ 2 + r.y ^ 2 + r.z ^ 2) : ℝ) : ℂ) * (deltak k * ((M.kvec k 1 * M.kvec k 1 / M.k2safe k : ℝ) : ℂ)) +
      (((2 * (r.y * r.z / (r.x ^ 2 + r.y ^ 2 + r.z ^ 2)) : ℝ) : ℂ) * (deltak k * ((M.kvec k 1 * M.kvec k 2 / M.k2safe k : ℝ) : ℂ)) +
      ((r.z * r.z / (r.x ^ 2 + r.y ^ 2 + r.z ^ 2) : ℝ) : ℂ) * (deltak k * ((M.kvec k 2 * M.kvec k 2 / M.k2safe k : ℝ) : ℂ)))))) := by
    funext k
    have : cosSq M r k = r.x * r.x / (r.x ^ 2 + r.y ^ 2 + r.z ^ 2) * (M.kvec k 0 * M.kvec k 0 / M.k2safe k) +
      2 * (r.x * r.y / (r.x ^ 2 + r.y ^ 2 + r.z ^ 2)) * (M.kvec k 0 * M.kvec k 1 / M.k2safe k) +
      2 * (r.x * r.z / (r.x ^ 2 + r.y ^ 2 + r.z ^ 2)) * (M.kvec k 0 * M.kvec k 2 / M.k2safe k) +
      r.y * r.y / (r.x ^ 2 + r.y ^ 2 + r.z ^ 2) * (M.kvec k 1 * M.kvec k 1 / M.k2safe k) +
      2 * (r.y * r.z / (r.x ^ 2 + r.y ^ 2 + r.z ^ 2)) * (M.kvec k 1 * M.kvec k 2 / M.k2safe k) +
      r.z * r.z / (r.x ^ 2 + r.y ^ 2 + r.z ^ 2) * (M.kvec k 2 * M.kvec k 2 / M.k2safe k) := by
      unfold cosSq
      by_cases hk : k = 0
      · subst hk
        rw [if_pos rfl, kvec_zero, kvec_zero, kvec_zero]
        simp
      · have hp := k2safe_pos M k
        rw [if_neg hk, ← k2safe_ne M hL hk]
        generalize M.k2safe k = q at hp
        generalize r.x ^ 2 + r.y ^ 2 + r.z ^ 2 = s at hn
        field_simp
        ring
    rw [this]
    push_cast
    ring
  rw [hcos]
  simp only [c2rReal_add, c2rReal_mul]
  simp
  ring

example : ∃ r : V3 ℝ, r = ⟨nodeAt mesh4 0 0, nodeAt mesh4 0 1, nodeAt mesh4 0 2⟩ ∧ r ≠ 0 := by
  refine ⟨_, rfl, fun h => ?_⟩
  have := congrArg V3.x h
  have h0 : (nodeAt mesh4 0 0 : ℝ) = -4 := by
    change (0 - 8 / 2 + (((0 : ZMod 4).val : ℕ) : ℝ) * (8 / 4) : ℝ) = -4
    rw [ZMod.val_zero]
    norm_num
  change nodeAt mesh4 0 0 = 0 at this
  linarith

/-- At the observer the direction is undefined: with local lines of sight, an even number of cells and the box around the observer, the
density contrast of one node is `nan`, for all fields. -/
theorem C42_observer_violated (hL : ∀ d, 0 < M.boxsize d) (he : ∀ d, Even (M.n d)) (hc : ∀ d, M.boxcenter d = 0) (f : Factor)
    (deltak : M.Idx → ℂ) (delta : M.Idx → ℝ) : ∃ out i, M.eulerianRsd f .none deltak delta = .ok out ∧ out i = none := by
  refine ⟨_, fun d => ((M.n d / 2 : ℕ) : ZMod (M.n d)), rfl, ?_⟩
  unfold Mesh.eulerianLocal
  have h : ∀ d, nodeAt M (fun d => ((M.n d / 2 : ℕ) : ZMod (M.n d))) d = 0 := by
    intro d
    have hn := M.n_pos d
    have hv : (((M.n d / 2 : ℕ) : ZMod (M.n d))).val = M.n d / 2 := ZMod.val_cast_of_lt (by omega)
    unfold nodeAt
    rw [hv, hc]
    obtain ⟨m, hm⟩ := he d
    have h2 : M.n d / 2 = m := by omega
    have hm' : (M.n d : ℝ) = 2 * m := by rw [hm]; push_cast; ring
    have hm0 : (0 : ℝ) < m := by
      have : 0 < m := by omega
      exact_mod_cast this
    rw [h2, hm']
    field_simp
    ring
  simp only [Fin.sum_univ_three, C66_nodes M hL, h]
  simp

/-- Modes of indices (1, 2, 0) and (2, 1, 0) of `mesh3`. -/
def crossMode : mesh3.Idx := fun d => if d = 0 then (1 : ZMod 3) else if d = 1 then (2 : ZMod 3) else (0 : ZMod 3)

theorem cross_kvec : mesh3.kvec crossMode 0 = Real.pi / 3 ∧ mesh3.kvec crossMode 1 = -Real.pi / 3 ∧ mesh3.kvec crossMode 2 = 0 ∧
    mesh3.kvec (-crossMode) 0 = -Real.pi / 3 ∧ mesh3.kvec (-crossMode) 1 = Real.pi / 3 ∧ mesh3.kvec (-crossMode) 2 = 0 := by
  have h0 : mesh3.freq 0 (crossMode 0) = 1 := by decide
  have h1 : mesh3.freq 1 (crossMode 1) = -1 := by decide
  have h2 : mesh3.freq 2 (crossMode 2) = 0 := by decide
  have g0 : mesh3.freq 0 ((-crossMode) 0) = -1 := by decide
  have g1 : mesh3.freq 1 ((-crossMode) 1) = 1 := by decide
  have g2 : mesh3.freq 2 ((-crossMode) 2) = 0 := by decide
  have hb : ∀ d, mesh3.boxsize d = 6 := fun d => rfl
  unfold Mesh.kvec
  rw [h0, h1, h2, g0, g1, g2, hb, hb, hb]
  push_cast
  refine ⟨?_, ?_, ?_, ?_, ?_, ?_⟩ <;> ring

open Classical in
/-- The real field of one wave along the direction (1, -1, 0). -/
noncomputable def crossField (k : mesh3.Idx) : ℂ := if k = crossMode ∨ k = -crossMode then 1 else 0

/-- On a mesh with an odd number of cells, terms of pairs of axes are wrongly left out. Here a wave with 3 cells a side: at the first
node, the line of sight is perpendicular to the wave vector and nothing should be added. -/
theorem C42_local_odd_violated : Hermitian mesh3 crossField ∧ (∀ d, nodeAt mesh3 0 d = -3) ∧
    (∀ k, crossField k ≠ 0 → cosSq mesh3 ⟨-3, -3, -3⟩ k = 0) ∧
    ∃ out, mesh3.eulerianRsd (.const 1) .none crossField (fun _ => 0) = .ok out ∧ out 0 = some (2 / 3) := by
  have hL : ∀ d, 0 < mesh3.boxsize d := fun _ => by simp [mesh3]
  have hp := Real.pi_pos
  obtain ⟨h0, h1, h2, g0, g1, g2⟩ := cross_kvec
  have hne : crossMode ≠ -crossMode := fun h => absurd (congrFun h 0) (by decide)
  have n1 : crossMode ≠ 0 := fun h => absurd (congrFun h 0) (by decide)
  have n2 : -crossMode ≠ 0 := fun h => absurd (congrFun h 0) (by decide)
  have hnode : ∀ d, nodeAt mesh3 0 d = -3 := by
    intro d
    change (0 - 6 / 2 + (((0 : ZMod 3).val : ℕ) : ℝ) * (6 / 3) : ℝ) = -3
    rw [ZMod.val_zero]
    norm_num
  have q1 : mesh3.k2safe crossMode = 2 * Real.pi ^ 2 / 9 := by
    rw [k2safe_ne mesh3 hL n1, h0, h1, h2]
    ring
  have q2 : mesh3.k2safe (-crossMode) = 2 * Real.pi ^ 2 / 9 := by rw [k2safe_neg, q1]
  refine ⟨?_, hnode, ?_, _, rfl, ?_⟩
  · intro k
    unfold crossField
    have : (-k = crossMode ∨ -k = -crossMode) ↔ (k = crossMode ∨ k = -crossMode) := by
      rw [neg_inj, neg_eq_iff_eq_neg]
      exact or_comm
    simp only [this]
    split_ifs <;> simp
  · intro k hk
    unfold crossField at hk
    have hk : k = crossMode ∨ k = -crossMode := by
      by_contra h
      rw [if_neg h] at hk
      exact hk rfl
    unfold cosSq
    rcases hk with rfl | rfl
    · rw [if_neg n1, h0, h1, h2]
      simp
    · rw [if_neg n2, g0, g1, g2]
      simp
  · have hsum : ∀ a b, mesh3.c2rReal (fun k => crossField k * (mesh3.pairMult a b k : ℂ)) 0 =
        mesh3.pairMult a b crossMode + mesh3.pairMult a b (-crossMode) := by
      intro a b
      unfold Mesh.c2rReal Mesh.c2r
      simp only [char_zero_left, mul_one]
      rw [Finset.sum_eq_add_of_mem crossMode (-crossMode) (Finset.mem_univ _) (Finset.mem_univ _) hne]
      · unfold crossField
        rw [if_pos (Or.inl rfl), if_pos (Or.inr rfl)]
        simp
      · intro c _ hc
        unfold crossField
        rw [if_neg (not_or.mpr hc)]
        simp
    have m1 : ∀ a b, (((crossMode a).val ≠ mesh3.n a / 2 ∧ (crossMode b).val ≠ mesh3.n b / 2) ∨
      ((crossMode a).val = mesh3.n a / 2 ∧ (crossMode b).val = mesh3.n b / 2)) ↔ (a = b ∨ (a = 1 ∧ b = 2) ∨ (a = 2 ∧ b = 1)) := by decide
    have m2 : ∀ a b, ((((-crossMode) a).val ≠ mesh3.n a / 2 ∧ ((-crossMode) b).val ≠ mesh3.n b / 2) ∨
      (((-crossMode) a).val = mesh3.n a / 2 ∧ ((-crossMode) b).val = mesh3.n b / 2)) ↔ (a = b ∨ (a = 0 ∧ b = 2) ∨ (a = 2 ∧ b = 0)) := by
      decide
    unfold Mesh.eulerianLocal
    simp only [Fin.sum_univ_three, C66_nodes mesh3 hL, hnode, hsum]
    unfold Mesh.pairMult Mesh.factorAt
    simp only [m1, m2, q1, q2, h0, h1, h2, g0, g1, g2]
    rw [if_neg (by norm_num)]
    simp
    field_simp
    norm_num

end Verif.Props
