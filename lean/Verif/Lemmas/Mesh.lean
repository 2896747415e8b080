import Verif.Model.Mesh

/-!
# Facts about nodes, modes and Fourier transforms of a mesh
-/

namespace Verif.Lemmas.Mesh

open Verif Verif.Model

variable (M : Mesh)

theorem n_pos' (d : Fin 3) : (0 : ℝ) < M.n d := by exact_mod_cast M.n_pos d

/-! ### Frequencies -/

theorem freq_dvd (d : Fin 3) (i : ZMod (M.n d)) : (M.n d : ℤ) ∣ M.freq d i - i.val := by
  rw [← ZMod.intCast_zmod_eq_zero_iff_dvd]
  push_cast
  rw [M.freq_cast]
  simp

theorem freq_val (d : Fin 3) (i : ZMod (M.n d)) :
    (0 ≤ M.freq d i ∧ M.freq d i = i.val) ∨ (M.freq d i < 0 ∧ M.freq d i + M.n d = i.val) := by
  obtain ⟨c, hc⟩ := freq_dvd M d i
  have h1 := M.freq_le d i
  have h2 : (i.val : ℤ) < M.n d := by exact_mod_cast ZMod.val_lt i
  have h3 : (0 : ℤ) ≤ i.val := by positivity
  have hn : (0 : ℤ) < M.n d := by exact_mod_cast M.n_pos d
  rcases abs_cases (M.freq d i) with ⟨ha, hb⟩ | ⟨ha, hb⟩
  · left
    refine ⟨hb, ?_⟩
    have hc0 : c = 0 := by
      rcases lt_trichotomy c 0 with h | h | h
      · nlinarith
      · exact h
      · nlinarith
    rw [hc0] at hc
    linarith
  · right
    refine ⟨hb, ?_⟩
    have hc0 : c = -1 := by
      rcases lt_trichotomy c (-1) with h | h | h
      · nlinarith
      · exact h
      · nlinarith
    rw [hc0] at hc
    linarith

/-- The frequencies of opposite indices are opposite, or both are half the mesh size. -/
theorem freq_neg (d : Fin 3) (i : ZMod (M.n d)) :
    M.freq d (-i) = -M.freq d i ∨ (M.freq d (-i) = M.freq d i ∧ 2 * |M.freq d i| = M.n d) := by
  have h : (M.n d : ℤ) ∣ M.freq d (-i) + M.freq d i := by
    rw [← ZMod.intCast_zmod_eq_zero_iff_dvd]
    push_cast
    rw [M.freq_cast, M.freq_cast]
    ring
  obtain ⟨c, hc⟩ := h
  have h1 := M.freq_le d i
  have h2 := M.freq_le d (-i)
  have hn : (0 : ℤ) < M.n d := by exact_mod_cast M.n_pos d
  have a1 := abs_le.mp (show |M.freq d i| ≤ |M.freq d i| from le_rfl)
  have a2 := abs_le.mp (show |M.freq d (-i)| ≤ |M.freq d (-i)| from le_rfl)
  have c1 : c ≤ 1 := by
    by_contra hh
    push Not at hh
    have : 2 ≤ c := hh
    nlinarith
  have c2 : -1 ≤ c := by
    by_contra hh
    push Not at hh
    have : c ≤ -2 := by omega
    nlinarith
  have : c = 0 ∨ c = 1 ∨ c = -1 := by omega
  rcases this with h | h | h
  · left
    rw [h] at hc
    linarith
  · right
    rw [h] at hc
    have e1 : M.freq d i ≤ |M.freq d i| := a1.2
    have e2 : M.freq d (-i) ≤ |M.freq d (-i)| := a2.2
    constructor <;> omega
  · right
    rw [h] at hc
    constructor <;> omega

theorem freq_neg_sq (d : Fin 3) (i : ZMod (M.n d)) : M.freq d (-i) ^ 2 = M.freq d i ^ 2 := by
  rcases freq_neg M d i with h | ⟨h, _⟩ <;> rw [h]
  ring

/-- For an even mesh size, the index at half the mesh size is that of the Nyquist frequency. -/
theorem val_half_iff (d : Fin 3) (he : Even (M.n d)) (i : ZMod (M.n d)) : i.val = M.n d / 2 ↔ 2 * |M.freq d i| = M.n d := by
  obtain ⟨m, hm⟩ := he
  have hn := M.n_pos d
  have h2 := M.freq_le d i
  rcases freq_val M d i with ⟨h, h'⟩ | ⟨h, h'⟩
  · rw [abs_of_nonneg h]
    omega
  · rw [abs_of_neg h]
    omega

theorem val_neg_half (d : Fin 3) (he : Even (M.n d)) (i : ZMod (M.n d)) : (-i).val = M.n d / 2 ↔ i.val = M.n d / 2 := by
  rw [val_half_iff M d he, val_half_iff M d he]
  have h := freq_neg_sq M d i
  rw [sq_eq_sq_iff_abs_eq_abs] at h
  rw [h]

theorem freq_zero (d : Fin 3) : M.freq d 0 = 0 := by
  rcases freq_val M d 0 with ⟨_, h⟩ | ⟨h1, h⟩
  · simpa using h
  · have := M.freq_le d 0
    have hn : (0 : ℤ) < M.n d := by exact_mod_cast M.n_pos d
    rw [abs_of_neg h1] at this
    simp at h
    omega

theorem freq_eq_zero (d : Fin 3) (i : ZMod (M.n d)) (h : M.freq d i = 0) : i = 0 := by
  rw [← M.freq_cast d i, h]
  simp

theorem kvec_zero_iff (hL : ∀ d, 0 < M.boxsize d) (k : M.Idx) (d : Fin 3) : M.kvec k d = 0 ↔ k d = 0 := by
  unfold Mesh.kvec
  have := hL d
  have := Real.pi_pos
  constructor
  · intro h
    rw [div_eq_zero_iff] at h
    rcases h with h | h
    · have : (M.freq d (k d) : ℝ) = 0 := by
        rcases mul_eq_zero.mp h with h | h
        · linarith
        · exact h
      exact freq_eq_zero M d _ (by exact_mod_cast this)
    · linarith
  · intro h
    rw [h, freq_zero]
    simp

theorem k2_zero_iff (hL : ∀ d, 0 < M.boxsize d) (k : M.Idx) : M.k2 k = 0 ↔ k = 0 := by
  unfold Mesh.k2
  rw [Finset.sum_eq_zero_iff_of_nonneg (fun d _ => sq_nonneg _)]
  constructor
  · intro h
    funext d
    exact (kvec_zero_iff M hL k d).mp (by simpa using h d (Finset.mem_univ d))
  · intro h d _
    rw [(kvec_zero_iff M hL k d).mpr (by rw [h]; rfl)]
    simp

theorem k2_nonneg (k : M.Idx) : 0 ≤ M.k2 k := Finset.sum_nonneg fun d _ => sq_nonneg _

theorem k2safe_pos (k : M.Idx) : 0 < M.k2safe k := by
  unfold Mesh.k2safe
  split
  · exact one_pos
  · rename_i h
    exact lt_of_le_of_ne (k2_nonneg M k) (Ne.symm h)

theorem kvec_neg (k : M.Idx) (d : Fin 3) :
    M.kvec (-k) d = -M.kvec k d ∨ (M.kvec (-k) d = M.kvec k d ∧ 2 * |M.freq d (k d)| = M.n d) := by
  unfold Mesh.kvec
  rcases freq_neg M d (k d) with h | ⟨h, h'⟩
  · left
    simp only [Pi.neg_apply]
    rw [h]
    push_cast
    ring
  · right
    simp only [Pi.neg_apply]
    rw [h]
    exact ⟨rfl, h'⟩

theorem k2_neg (k : M.Idx) : M.k2 (-k) = M.k2 k := by
  unfold Mesh.k2
  refine Finset.sum_congr rfl fun d _ => ?_
  rcases kvec_neg M k d with h | ⟨h, _⟩ <;> rw [h]
  ring

theorem k2safe_neg (k : M.Idx) : M.k2safe (-k) = M.k2safe k := by
  unfold Mesh.k2safe
  rw [k2_neg]

/-! ### Coordinates of nodes -/

theorem transformRslab_eq (hL : ∀ d, 0 < M.boxsize d) (d : Fin 3) (i : ZMod (M.n d)) :
    M.transformRslab d i = i.val * M.cell d := by
  have hn := n_pos' M d
  have hc : 0 < M.cell d := div_pos (hL d) hn
  have hb : M.boxsize d = M.n d * M.cell d := by
    unfold Mesh.cell
    field_simp
  unfold Mesh.transformRslab Mesh.rslab
  rcases freq_val M d i with ⟨h, h'⟩ | ⟨h, h'⟩
  · rw [if_neg, h']
    · simp
    · rw [h']
      push Not
      positivity
  · rw [if_pos, hb]
    · have : (M.freq d i : ℝ) = i.val - M.n d := by
        have : M.freq d i = i.val - M.n d := by linarith
        rw [this]
        push_cast
        ring
      rw [this]
      ring
    · exact mul_neg_of_neg_of_pos (by exact_mod_cast h) hc

/-! ### Fourier transforms -/

theorem char_zero_left (k : M.Idx) : M.char 0 k = 1 := by
  unfold Mesh.char
  simp

theorem char_comm (i k : M.Idx) : M.char i k = M.char k i := by
  unfold Mesh.char
  exact Finset.prod_congr rfl fun d _ => by rw [mul_comm]

theorem char_add (i j k : M.Idx) : M.char (i + j) k = M.char i k * M.char j k := by
  unfold Mesh.char
  rw [← Finset.prod_mul_distrib]
  refine Finset.prod_congr rfl fun d _ => ?_
  rw [Pi.add_apply, add_mul, AddChar.map_add_eq_mul]

theorem char_neg_neg (i k : M.Idx) : M.char (-i) (-k) = M.char i k := by
  unfold Mesh.char
  exact Finset.prod_congr rfl fun d _ => by simp

theorem char_neg_swap (i k : M.Idx) : M.char (-i) k = M.char i (-k) := by
  unfold Mesh.char
  exact Finset.prod_congr rfl fun d _ => by simp

theorem conj_std {N : ℕ} [NeZero N] (a : ZMod N) :
    (starRingEnd ℂ) (ZMod.stdAddChar a) = ZMod.stdAddChar (-a) := by
  rw [AddChar.map_neg_eq_conj]

theorem conj_char (i k : M.Idx) : (starRingEnd ℂ) (M.char i k) = M.char i (-k) := by
  unfold Mesh.char
  rw [map_prod]
  refine Finset.prod_congr rfl fun d _ => ?_
  rw [conj_std]
  simp

theorem sum_char (i : M.Idx) : ∑ k, M.char i k = if i = 0 then ∏ d, (M.n d : ℂ) else 0 := by
  have h : ∑ k : M.Idx, M.char i k = ∏ d, ∑ x : ZMod (M.n d), (ZMod.stdAddChar (i d * x) : ℂ) := by
    rw [Finset.prod_univ_sum]
    simp only [Fintype.piFinset_univ]
    rfl
  rw [h]
  have h1 : ∀ d, ∑ x : ZMod (M.n d), (ZMod.stdAddChar (i d * x) : ℂ) = if i d = 0 then (M.n d : ℂ) else 0 := by
    intro d
    have := AddChar.sum_mulShift (i d) (ZMod.isPrimitive_stdAddChar (M.n d))
    rw [ZMod.card] at this
    push_cast at this
    rw [← this]
    exact Finset.sum_congr rfl fun x _ => by rw [mul_comm]
  rw [Finset.prod_congr rfl fun d _ => h1 d]
  by_cases hi : i = 0
  · rw [if_pos hi]
    exact Finset.prod_congr rfl fun d _ => by rw [hi]; simp
  · rw [if_neg hi]
    obtain ⟨d, hd⟩ := Function.ne_iff.mp hi
    exact Finset.prod_eq_zero (Finset.mem_univ d) (if_neg hd)

theorem prod_ne : (∏ d, (M.n d : ℂ)) ≠ 0 := Finset.prod_ne_zero_iff.mpr fun d _ => by exact_mod_cast (M.n_pos d).ne'

/-- The inverse transform of the transform of a field is the field. -/
theorem c2r_r2c (f : M.Idx → ℂ) (j : M.Idx) : M.c2r (M.r2c f) j = f j := by
  unfold Mesh.c2r Mesh.r2c
  have : ∀ k, (∑ i, f i * M.char (-i) k) / (∏ d, (M.n d : ℂ)) * M.char j k =
      (∑ i, f i * M.char (j - i) k) / ∏ d, (M.n d : ℂ) := by
    intro k
    rw [div_mul_eq_mul_div, Finset.sum_mul]
    congr 1
    refine Finset.sum_congr rfl fun i _ => ?_
    rw [sub_eq_add_neg, char_add]
    ring
  rw [Finset.sum_congr rfl fun k _ => this k, ← Finset.sum_div, Finset.sum_comm]
  rw [div_eq_iff (prod_ne M)]
  have : ∀ i, ∑ k, f i * M.char (j - i) k = if i = j then f j * ∏ d, (M.n d : ℂ) else 0 := by
    intro i
    rw [← Finset.mul_sum, sum_char]
    by_cases h : i = j
    · subst h
      simp
    · rw [if_neg h, if_neg (sub_ne_zero.mpr (Ne.symm h)), mul_zero]
  rw [Finset.sum_congr rfl fun i _ => this i, Finset.sum_ite_eq' Finset.univ j]
  simp

/-- The transform of the inverse transform of modes are these modes. -/
theorem r2c_c2r (F : M.Idx → ℂ) (q : M.Idx) : M.r2c (M.c2r F) q = F q := by
  unfold Mesh.r2c Mesh.c2r
  rw [div_eq_iff (prod_ne M)]
  have h : ∀ i : M.Idx, (∑ k, F k * M.char i k) * M.char (-i) q = ∑ k, F k * M.char (k - q) i := by
    intro i
    rw [Finset.sum_mul]
    refine Finset.sum_congr rfl fun k _ => ?_
    rw [sub_eq_add_neg, char_add, char_comm M k i, char_neg_swap, char_comm M i (-q)]
    ring
  rw [Finset.sum_congr rfl fun i _ => h i, Finset.sum_comm]
  have : ∀ k, ∑ i, F k * M.char (k - q) i = if k = q then F q * ∏ d, (M.n d : ℂ) else 0 := by
    intro k
    rw [← Finset.mul_sum, sum_char]
    by_cases h : k = q
    · subst h
      simp
    · rw [if_neg h, if_neg (sub_ne_zero.mpr h), mul_zero]
  rw [Finset.sum_congr rfl fun i _ => this i, Finset.sum_ite_eq' Finset.univ q]
  simp

theorem conj_c2r (F : M.Idx → ℂ) (i : M.Idx) :
    (starRingEnd ℂ) (M.c2r F i) = M.c2r (fun k => (starRingEnd ℂ) (F (-k))) i := by
  unfold Mesh.c2r
  rw [map_sum]
  refine Fintype.sum_equiv (Equiv.neg _) _ _ fun k => ?_
  simp [conj_char]

/-- A field is real at all nodes if and only if its modes have the Hermitian symmetry. -/
theorem real_iff (F : M.Idx → ℂ) :
    (∀ i, (M.c2r F i).im = 0) ↔ ∀ k, F (-k) = (starRingEnd ℂ) (F k) := by
  constructor
  · intro h k
    have h1 : M.c2r F = M.c2r (fun k => (starRingEnd ℂ) (F (-k))) := by
      funext i
      rw [← conj_c2r, Complex.conj_eq_iff_im.mpr (h i)]
    have h2 := congrArg (fun f => M.r2c f (-k)) h1
    simp only [r2c_c2r] at h2
    rw [h2, neg_neg]
  · intro h i
    rw [← Complex.conj_eq_iff_im, conj_c2r]
    congr 1
    funext k
    rw [h]
    simp

theorem c2r_add (F G : M.Idx → ℂ) (i : M.Idx) : M.c2r (fun k => F k + G k) i = M.c2r F i + M.c2r G i := by
  unfold Mesh.c2r
  rw [← Finset.sum_add_distrib]
  exact Finset.sum_congr rfl fun k _ => by ring

theorem c2r_mul (c : ℂ) (F : M.Idx → ℂ) (i : M.Idx) : M.c2r (fun k => c * F k) i = c * M.c2r F i := by
  unfold Mesh.c2r
  rw [Finset.mul_sum]
  exact Finset.sum_congr rfl fun k _ => by ring

theorem c2rReal_add (F G : M.Idx → ℂ) (i : M.Idx) : M.c2rReal (fun k => F k + G k) i = M.c2rReal F i + M.c2rReal G i := by
  unfold Mesh.c2rReal
  rw [c2r_add, Complex.add_re]

theorem c2rReal_mul (c : ℝ) (F : M.Idx → ℂ) (i : M.Idx) : M.c2rReal (fun k => (c : ℂ) * F k) i = c * M.c2rReal F i := by
  unfold Mesh.c2rReal
  rw [c2r_mul, Complex.re_ofReal_mul]

end Verif.Lemmas.Mesh
