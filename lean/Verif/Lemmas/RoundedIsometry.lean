import Verif.Model.RoundedIsometry
import Verif.Lemmas.Isometry

/-!
# Norms of vectors and matrices, and errors of rounded products
-/

namespace Verif.Lemmas.RoundedIsometry

open Verif Verif.Model Verif.Model.RoundedIsometry

/-! ### Vectors -/

theorem norm_le_of_sq {u : V3 ℝ} {b : ℝ} (hb : 0 ≤ b) (h : u.x ^ 2 + u.y ^ 2 + u.z ^ 2 ≤ b ^ 2) : u.norm ≤ b :=
  Real.sqrt_le_left hb |>.2 h

theorem dot_abs_le (u v : V3 ℝ) : |u.x * v.x| + |u.y * v.y| + |u.z * v.z| ≤ u.norm * v.norm := by
  have h := V3.norm_nonneg u
  have h' := V3.norm_nonneg v
  refine abs_le_of_sq_le_sq' ?_ (mul_nonneg h h') |>.2
  rw [mul_pow, V3.norm_sq, V3.norm_sq, abs_mul, abs_mul, abs_mul, ← sq_abs u.x, ← sq_abs u.y, ← sq_abs u.z, ← sq_abs v.x, ← sq_abs v.y,
    ← sq_abs v.z]
  nlinarith [sq_nonneg (|u.x| * |v.y| - |u.y| * |v.x|), sq_nonneg (|u.x| * |v.z| - |u.z| * |v.x|),
    sq_nonneg (|u.y| * |v.z| - |u.z| * |v.y|)]

theorem dot_le (u v : V3 ℝ) : |V3.dot u v| ≤ u.norm * v.norm :=
  ((abs_add_three _ _ _).trans le_rfl).trans (dot_abs_le u v)

theorem norm_add_le (u v : V3 ℝ) : (u + v).norm ≤ u.norm + v.norm := by
  have h := V3.norm_nonneg u
  have h' := V3.norm_nonneg v
  refine norm_le_of_sq (by linarith) ?_
  have := (abs_le.1 (dot_le u v)).2
  have e := V3.norm_sq u
  have e' := V3.norm_sq v
  simp only [V3.add_x, V3.add_y, V3.add_z]
  simp only [V3.dot] at this
  nlinarith

theorem norm_neg (u : V3 ℝ) : (-u).norm = u.norm := by simp [V3.norm]

theorem norm_sub_le' (u v : V3 ℝ) : u.norm ≤ v.norm + (u - v).norm := by
  have := norm_add_le v (u - v)
  have e : v + (u - v) = u := by ext <;> simp
  rwa [e] at this

theorem norm_sub_le (u v : V3 ℝ) : (u - v).norm ≤ u.norm + v.norm := by
  have := norm_add_le u (-v)
  rw [norm_neg] at this
  have e : u + -v = u - v := by ext <;> simp [sub_eq_add_neg]
  rwa [e] at this

theorem norm_sub_comm (u v : V3 ℝ) : (u - v).norm = (v - u).norm := by
  rw [← norm_neg]; congr 1; ext <;> simp

theorem norm_tri (u v w : V3 ℝ) : (u - w).norm ≤ (u - v).norm + (v - w).norm := by
  have := norm_add_le (u - v) (v - w)
  have e : u - v + (v - w) = u - w := by ext <;> simp
  rwa [e] at this

theorem norm_mono {u v : V3 ℝ} (hx : |u.x| ≤ v.x) (hy : |u.y| ≤ v.y) (hz : |u.z| ≤ v.z) : u.norm ≤ v.norm := by
  refine norm_le_of_sq (V3.norm_nonneg v) ?_
  rw [V3.norm_sq]
  have := sq_le_sq' (abs_le.1 hx).1 (abs_le.1 hx).2
  have := sq_le_sq' (abs_le.1 hy).1 (abs_le.1 hy).2
  have := sq_le_sq' (abs_le.1 hz).1 (abs_le.1 hz).2
  linarith

theorem abs_le_norm (u : V3 ℝ) : |u.x| ≤ u.norm ∧ |u.y| ≤ u.norm ∧ |u.z| ≤ u.norm := by
  have e := V3.norm_sq u
  have h := V3.norm_nonneg u
  refine ⟨?_, ?_, ?_⟩ <;> refine abs_le_of_sq_le_sq ?_ h <;> nlinarith [sq_nonneg u.x, sq_nonneg u.y, sq_nonneg u.z]

theorem norm_le_three {u : V3 ℝ} {b : ℝ} (hx : |u.x| ≤ b) (hy : |u.y| ≤ b) (hz : |u.z| ≤ b) : u.norm ≤ 3 * b := by
  have hb : 0 ≤ b := (abs_nonneg _).trans hx
  refine norm_le_of_sq (by linarith) ?_
  have := sq_le_sq' (abs_le.1 hx).1 (abs_le.1 hx).2
  have := sq_le_sq' (abs_le.1 hy).1 (abs_le.1 hy).2
  have := sq_le_sq' (abs_le.1 hz).1 (abs_le.1 hz).2
  nlinarith [sq_nonneg b]

/-! ### Matrices -/

/-- Frobenius norm. -/
noncomputable def frob (m : M3 ℝ) : ℝ := (⟨(row0 m).norm, (row1 m).norm, (row2 m).norm⟩ : V3 ℝ).norm

theorem frob_nonneg (m : M3 ℝ) : 0 ≤ frob m := V3.norm_nonneg _

theorem frob_sq (m : M3 ℝ) : frob m ^ 2 = (row0 m).norm ^ 2 + (row1 m).norm ^ 2 + (row2 m).norm ^ 2 := V3.norm_sq _

theorem row_le_frob (m : M3 ℝ) : (row0 m).norm ≤ frob m ∧ (row1 m).norm ≤ frob m ∧ (row2 m).norm ≤ frob m := by
  obtain ⟨a, b, c⟩ := abs_le_norm ⟨(row0 m).norm, (row1 m).norm, (row2 m).norm⟩
  exact ⟨(le_abs_self _).trans a, (le_abs_self _).trans b, (le_abs_self _).trans c⟩

theorem frob_tr (m : M3 ℝ) : frob m.tr = frob m := by
  have h : frob m.tr ^ 2 = frob m ^ 2 := by
    rw [frob_sq, frob_sq]
    simp only [V3.norm_sq, row0, row1, row2, M3.tr]
    ring
  exact (pow_left_inj₀ (frob_nonneg _) (frob_nonneg _) two_ne_zero).1 h

theorem frob_add_le (a b : M3 ℝ) : frob (a + b) ≤ frob a + frob b := by
  refine le_trans (norm_mono (v := ⟨(row0 a).norm, (row1 a).norm, (row2 a).norm⟩ + ⟨(row0 b).norm, (row1 b).norm, (row2 b).norm⟩)
    ?_ ?_ ?_) (norm_add_le _ _)
  · rw [abs_of_nonneg (V3.norm_nonneg _)]; exact norm_add_le (row0 a) (row0 b)
  · rw [abs_of_nonneg (V3.norm_nonneg _)]; exact norm_add_le (row1 a) (row1 b)
  · rw [abs_of_nonneg (V3.norm_nonneg _)]; exact norm_add_le (row2 a) (row2 b)

theorem mulVec_le (m : M3 ℝ) (v : V3 ℝ) : (m.mulVec v).norm ≤ frob m * v.norm := by
  refine norm_le_of_sq (mul_nonneg (frob_nonneg _) (V3.norm_nonneg _)) ?_
  rw [mul_pow, frob_sq]
  have h : ∀ r : V3 ℝ, V3.dot r v ^ 2 ≤ r.norm ^ 2 * v.norm ^ 2 := by
    intro r
    rw [← mul_pow, ← sq_abs (V3.dot r v)]
    exact pow_le_pow_left₀ (abs_nonneg _) (dot_le r v) 2
  have h0 := h (row0 m)
  have h1 := h (row1 m)
  have h2 := h (row2 m)
  have e : (m.mulVec v).x ^ 2 + (m.mulVec v).y ^ 2 + (m.mulVec v).z ^ 2 =
    V3.dot (row0 m) v ^ 2 + V3.dot (row1 m) v ^ 2 + V3.dot (row2 m) v ^ 2 := rfl
  rw [e]
  linarith

theorem frob_le_three {m : M3 ℝ} {b : ℝ} (h0 : (row0 m).norm ≤ b) (h1 : (row1 m).norm ≤ b) (h2 : (row2 m).norm ≤ b) : frob m ≤ 3 * b := by
  refine norm_le_three ?_ ?_ ?_ <;> rw [abs_of_nonneg (V3.norm_nonneg _)] <;> assumption

/-- Rows of a product. -/
theorem row_mul (a b : M3 ℝ) : row0 (a * b) = b.tr.mulVec (row0 a) ∧ row1 (a * b) = b.tr.mulVec (row1 a) ∧
    row2 (a * b) = b.tr.mulVec (row2 a) := by
  refine ⟨?_, ?_, ?_⟩ <;> ext <;> simp [row0, row1, row2, M3.mulVec, M3.tr] <;> ring

theorem frob_mul_le (a b : M3 ℝ) : frob (a * b) ≤ frob a * frob b := by
  refine le_of_sq_le_sq ?_ (mul_nonneg (frob_nonneg _) (frob_nonneg _))
  rw [frob_sq, mul_pow, frob_sq a]
  obtain ⟨e0, e1, e2⟩ := row_mul a b
  rw [e0, e1, e2]
  have h : ∀ v : V3 ℝ, (b.tr.mulVec v).norm ^ 2 ≤ v.norm ^ 2 * frob b ^ 2 := by
    intro v
    rw [← mul_pow, mul_comm, ← frob_tr b]
    exact pow_le_pow_left₀ (V3.norm_nonneg _) (mulVec_le b.tr v) 2
  have h0 := h (row0 a)
  have h1 := h (row1 a)
  have h2 := h (row2 a)
  linarith
where
  le_of_sq_le_sq {x y : ℝ} (h : x ^ 2 ≤ y ^ 2) (hy : 0 ≤ y) : x ≤ y := (le_abs_self x).trans (abs_le_of_sq_le_sq h hy)

/-- Rotations keep lengths. -/
theorem norm_rot {q : M3 ℝ} (h : q.tr * q = 1) (v : V3 ℝ) : (q.mulVec v).norm = v.norm := by
  have := dot_mulVec_of_orth h v v
  unfold V3.norm
  congr 1
  simp only [V3.dot] at this
  nlinarith

theorem frob_rot_mul {q : M3 ℝ} (h : q.tr * q = 1) (m : M3 ℝ) : frob (m * q) = frob m ∧ frob (q * m) = frob m := by
  have right : ∀ {q : M3 ℝ}, q.tr * q = 1 → ∀ m : M3 ℝ, frob (m * q.tr) = frob m := by
    intro q h m
    obtain ⟨e0, e1, e2⟩ := row_mul m q.tr
    have ht : q.tr.tr = q := rfl
    unfold frob
    rw [e0, e1, e2, ht, norm_rot h, norm_rot h, norm_rot h]
  constructor
  · have h' : q.tr.tr * q.tr = 1 := mul_tr_of_orth h
    exact right h' m
  · rw [← frob_tr, M3.tr_mul, right h, frob_tr]

theorem row_rot {q : M3 ℝ} (h : q.tr * q = 1) : (row0 q).norm = 1 ∧ (row1 q).norm = 1 ∧ (row2 q).norm = 1 := by
  have h' := mul_tr_of_orth h
  have e0 := congrArg M3.m00 h'
  have e1 := congrArg M3.m11 h'
  have e2 := congrArg M3.m22 h'
  simp [M3.tr] at e0 e1 e2
  refine ⟨V3.norm_eq_one_of_sq ?_, V3.norm_eq_one_of_sq ?_, V3.norm_eq_one_of_sq ?_⟩ <;> simp only [row0, row1, row2] <;> nlinarith

/-- A matrix near a rotation, in the Frobenius norm. -/
structure Near (m q : M3 ℝ) (d : ℝ) : Prop where
  orth : q.tr * q = 1
  le : frob (m - q) ≤ d

theorem Near.nonneg {m q : M3 ℝ} {d : ℝ} (h : Near m q d) : 0 ≤ d := (frob_nonneg _).trans h.le

theorem Near.tr {m q : M3 ℝ} {d : ℝ} (h : Near m q d) : Near m.tr q.tr d := by
  refine ⟨mul_tr_of_orth h.orth, ?_⟩
  have : m.tr - q.tr = (m - q).tr := by ext <;> rfl
  rw [this, frob_tr]
  exact h.le

theorem Near.rows {m q : M3 ℝ} {d : ℝ} (h : Near m q d) :
    (row0 m).norm ≤ 1 + d ∧ (row1 m).norm ≤ 1 + d ∧ (row2 m).norm ≤ 1 + d := by
  obtain ⟨a, b, c⟩ := row_rot h.orth
  obtain ⟨a', b', c'⟩ := row_le_frob (m - q)
  have h0 := norm_sub_le' (row0 m) (row0 q)
  have h1 := norm_sub_le' (row1 m) (row1 q)
  have h2 := norm_sub_le' (row2 m) (row2 q)
  have e0 : row0 m - row0 q = row0 (m - q) := rfl
  have e1 : row1 m - row1 q = row1 (m - q) := rfl
  have e2 : row2 m - row2 q = row2 (m - q) := rfl
  rw [e0] at h0
  rw [e1] at h1
  rw [e2] at h2
  have := h.le
  refine ⟨?_, ?_, ?_⟩ <;> linarith

/-- A matrix near a rotation applied to a vector near another. -/
theorem Near.apply {m q : M3 ℝ} {d e W : ℝ} (h : Near m q d) {v v' : V3 ℝ} (hv : (v - v').norm ≤ e * W) (hv' : v.norm ≤ (1 + e) * W) :
    (m.mulVec v - q.mulVec v').norm ≤ ((1 + d) * (1 + e) - 1) * W := by
  have e1 : m.mulVec v - q.mulVec v = (m - q).mulVec v := by
    ext <;> simp [M3.mulVec] <;> ring
  have e2 : q.mulVec v - q.mulVec v' = q.mulVec (v - v') := by
    ext <;> simp [M3.mulVec] <;> ring
  have t := norm_tri (m.mulVec v) (q.mulVec v) (q.mulVec v')
  rw [e1, e2, norm_rot h.orth] at t
  have b := (mulVec_le (m - q) v).trans (mul_le_mul h.le hv' (V3.norm_nonneg _) h.nonneg)
  nlinarith

/-- Product of matrices near rotations. -/
theorem Near.mul {a b p q : M3 ℝ} {d e : ℝ} (ha : Near a p d) (hb : Near b q e) : Near (a * b) (p * q) ((1 + d) * (1 + e) - 1) := by
  refine ⟨?_, ?_⟩
  · rw [M3.tr_mul, M3.mul_assoc', ← M3.mul_assoc' p.tr p q, ha.orth, M3.one_mul', hb.orth]
  · have e1 : a * b - p * q = (a - p) * (b - q) + ((a - p) * q + p * (b - q)) := by
      ext <;> simp <;> ring
    rw [e1]
    have h1 := frob_add_le ((a - p) * (b - q)) ((a - p) * q + p * (b - q))
    have h2 := frob_add_le ((a - p) * q) (p * (b - q))
    rw [(frob_rot_mul hb.orth _).1, (frob_rot_mul ha.orth _).2] at h2
    have h3 := (frob_mul_le (a - p) (b - q)).trans (mul_le_mul ha.le hb.le (frob_nonneg _) ha.nonneg)
    have := ha.le
    have := hb.le
    nlinarith

theorem Near.mono {m q : M3 ℝ} {d e : ℝ} (h : Near m q d) (hd : d ≤ e) : Near m q e := ⟨h.orth, h.le.trans hd⟩

/-- A matrix near one that is near a rotation. -/
theorem Near.trans {m m' q : M3 ℝ} {d e : ℝ} (h : Near m q d) (h' : frob (m' - m) ≤ e) : Near m' q (d + e) := by
  refine ⟨h.orth, ?_⟩
  have e1 : m' - q = (m' - m) + (m - q) := by ext <;> simp
  rw [e1]
  have := frob_add_le (m' - m) (m - q)
  have := h.le
  linarith

/-! ### Rounding -/

variable {F : Fmt}

theorem tiny_pos : 0 < F.tiny := by unfold Fmt.tiny; positivity

theorem rnd_err_tiny (x : ℝ) : |F.rnd x - x| ≤ F.u * (|x| + F.tiny) := by
  have h := F.rnd_err_all x
  have e : (2 : ℝ) ^ F.emin / 2 = F.u * F.tiny := by
    unfold Fmt.u Fmt.tiny
    rw [show F.emin + F.p - 1 = F.emin + (F.p : ℤ) + (-1) by ring, zpow_add₀ (by norm_num), zpow_add₀ (by norm_num), zpow_natCast]
    have : (2 : ℝ) ^ F.p ≠ 0 := by positivity
    field_simp
  rw [e] at h
  linarith

/-- Relative error of a sum of `n` products. -/
noncomputable def sumErr (F : Fmt) (n : ℕ) : ℝ := (1 + F.u) ^ (2 * n) - 1

theorem one_le_pow_u (n : ℕ) : 1 ≤ (1 + F.u) ^ n := one_le_pow₀ (by have := F.u_pos; linarith)

/-- Sum of the products, and of their absolute values. -/
def total (l : List (ℝ × ℝ)) : ℝ := (l.map fun p => p.1 * p.2).sum
@[inherit_doc total] def totalAbs (l : List (ℝ × ℝ)) : ℝ := (l.map fun p => |p.1 * p.2|).sum

theorem totalAbs_nonneg (l : List (ℝ × ℝ)) : 0 ≤ totalAbs l :=
  List.sum_nonneg (by simp only [List.mem_map]; rintro _ ⟨p, -, rfl⟩; exact abs_nonneg _)

theorem total_le (l : List (ℝ × ℝ)) : |total l| ≤ totalAbs l := by
  induction l with
  | nil => simp [total, totalAbs]
  | cons a l ih =>
    have := abs_add_le (a.1 * a.2) (total l)
    simp only [total, totalAbs, List.map_cons, List.sum_cons] at *
    linarith

theorem sum_err {l : List (ℝ × ℝ)} {r : ℝ} (h : SumF F l r) :
    |r - total l| ≤ sumErr F l.length * (totalAbs l + 2 * l.length * F.tiny) := by
  have hu := F.u_pos
  have ht := tiny_pos (F := F)
  have step : ∀ {l : List (ℝ × ℝ)} {r a b y : ℝ}, |r - total l| ≤ sumErr F l.length * (totalAbs l + 2 * l.length * F.tiny) →
      |y - a * b| ≤ F.u * (|a * b| + F.tiny) → |F.rnd (r + y) - total ((a, b) :: l)| ≤
        sumErr F (l.length + 1) * (totalAbs ((a, b) :: l) + 2 * (l.length + 1 : ℕ) * F.tiny) := by
    intro l r a b y ih hy
    have h1 := rnd_err_tiny (F := F) (r + y)
    have e : total ((a, b) :: l) = a * b + total l := by simp [total]
    have e' : totalAbs ((a, b) :: l) = |a * b| + totalAbs l := by simp [totalAbs]
    rw [e, e']
    set g := sumErr F l.length with hg
    set S := totalAbs l + 2 * l.length * F.tiny with hS
    have hg0 : 0 ≤ g := by have := one_le_pow_u (F := F) (2 * l.length); rw [hg, sumErr]; linarith
    have hS0 : 0 ≤ S := by have := totalAbs_nonneg l; positivity
    have hg' : sumErr F (l.length + 1) = (1 + g) * (1 + F.u) ^ 2 - 1 := by
      rw [hg, sumErr, sumErr, mul_add, pow_add]; ring
    have hr : |r| ≤ (1 + g) * S := by
      have t := abs_add_le (r - total l) (total l)
      rw [sub_add_cancel] at t
      have := total_le l
      have h0 : 0 ≤ 2 * (l.length : ℝ) * F.tiny := by positivity
      rw [hS] at ih ⊢
      nlinarith
    set A := |a * b| + 2 * F.tiny with hA
    have hA0 : 0 < A := by have := abs_nonneg (a * b); linarith
    have hy' : |y| + F.tiny ≤ (1 + F.u) * A := by
      have t := abs_add_le (y - a * b) (a * b)
      rw [sub_add_cancel] at t
      rw [hA]
      nlinarith
    have ha : |y - a * b| ≤ F.u * A := hy.trans (by rw [hA]; nlinarith)
    have hry : |r + y| + F.tiny ≤ (1 + g) * S + (1 + F.u) * A := by
      have := abs_add_le r y
      linarith
    have h2 : F.u * (|r + y| + F.tiny) ≤ F.u * ((1 + g) * S + (1 + F.u) * A) := mul_le_mul_of_nonneg_left hry hu.le
    have t : |F.rnd (r + y) - (a * b + total l)| ≤ |F.rnd (r + y) - (r + y)| + |y - a * b| + |r - total l| := by
      have := abs_add_three (F.rnd (r + y) - (r + y)) (y - a * b) (r - total l)
      have e : F.rnd (r + y) - (r + y) + (y - a * b) + (r - total l) = F.rnd (r + y) - (a * b + total l) := by ring
      rwa [e] at this
    have e2 : |a * b| + totalAbs l + 2 * ((l.length + 1 : ℕ) : ℝ) * F.tiny = S + A := by
      rw [hS, hA]; push_cast; ring
    rw [hg', e2]
    have h3 : 0 ≤ g * S := mul_nonneg hg0 hS0
    have h4 : 0 ≤ g * A := mul_nonneg hg0 hA0.le
    have h5 : 0 ≤ F.u * (g * S) := mul_nonneg hu.le h3
    have h6 : 0 ≤ F.u * (g * A) := mul_nonneg hu.le h4
    have h7 : 0 ≤ F.u * S := mul_nonneg hu.le hS0
    have h8 : 0 ≤ F.u ^ 2 * S := mul_nonneg (by positivity) hS0
    have h9 : 0 ≤ F.u ^ 2 * (g * S) := mul_nonneg (by positivity) h3
    have h10 : 0 ≤ F.u ^ 2 * (g * A) := mul_nonneg (by positivity) h4
    nlinarith
  induction h with
  | nil => simp [total, sumErr]
  | mul _ ih => exact step ih (rnd_err_tiny _)
  | fma _ ih => exact step ih (by rw [sub_self, abs_zero]; positivity)

theorem total_perm {l l' : List (ℝ × ℝ)} (h : l.Perm l') : total l = total l' := (h.map _).sum_eq
theorem totalAbs_perm {l l' : List (ℝ × ℝ)} (h : l.Perm l') : totalAbs l = totalAbs l' := (h.map _).sum_eq

/-- Relative error of products of vectors and matrices. -/
noncomputable def prodErr (F : Fmt) : ℝ := sumErr F 3

theorem prodErr_nonneg : 0 ≤ prodErr F := by
  have := one_le_pow_u (F := F) (2 * 3)
  rw [prodErr, sumErr]
  linarith

theorem dot_err {a b : V3 ℝ} {r : ℝ} (h : DotF F a b r) : |r - V3.dot a b| ≤ prodErr F * (a.norm * b.norm + 6 * F.tiny) := by
  obtain ⟨l, hl, hs⟩ := h
  have e := sum_err hs
  have hlen : l.length = 3 := hl.length_eq
  rw [total_perm hl, totalAbs_perm hl, hlen] at e
  have e1 : total [(a.x, b.x), (a.y, b.y), (a.z, b.z)] = V3.dot a b := by simp [total, V3.dot]; ring
  have e2 : totalAbs [(a.x, b.x), (a.y, b.y), (a.z, b.z)] = |a.x * b.x| + |a.y * b.y| + |a.z * b.z| := by simp [totalAbs, add_assoc]
  rw [e1, e2] at e
  refine e.trans (mul_le_mul_of_nonneg_left ?_ prodErr_nonneg)
  have := dot_abs_le a b
  push_cast
  linarith

/-- Rounded product of a matrix near a rotation and of a vector. -/
theorem mulVec_err {m q : M3 ℝ} {d : ℝ} (hm : Near m q d) {v w : V3 ℝ} (h : MulVecF F m v w) :
    (w - m.mulVec v).norm ≤ 3 * prodErr F * ((1 + d) * (v.norm + 6 * F.tiny)) := by
  obtain ⟨r0, r1, r2⟩ := hm.rows
  have hd := hm.nonneg
  have ht := tiny_pos (F := F)
  have hv := V3.norm_nonneg v
  have key : ∀ {r : V3 ℝ} {y : ℝ}, r.norm ≤ 1 + d → DotF F r v y → |y - V3.dot r v| ≤ prodErr F * ((1 + d) * (v.norm + 6 * F.tiny)) := by
    intro r y hr hy
    refine (dot_err hy).trans (mul_le_mul_of_nonneg_left ?_ prodErr_nonneg)
    nlinarith [mul_le_mul_of_nonneg_right hr hv]
  rw [mul_assoc]
  exact norm_le_three (key r0 h.1) (key r1 h.2.1) (key r2 h.2.2)

/-- Relative error of a product of two matrices, and of a matrix and a vector. -/
noncomputable def rho (F : Fmt) : ℝ := 9 * prodErr F * (1 + 6 * F.tiny)

theorem rho_nonneg : 0 ≤ rho F := by
  have := prodErr_nonneg (F := F)
  have := tiny_pos (F := F)
  unfold rho
  positivity

/-- Rounded product of two matrices near rotations. -/
theorem mul_err {a b c p q : M3 ℝ} {d e : ℝ} (ha : Near a p d) (hb : Near b q e) (h : MulF F a b c) :
    Near c (p * q) ((1 + d) * (1 + e) * (1 + rho F) - 1) := by
  have hd := ha.nonneg
  have he := hb.nonneg
  have ht := tiny_pos (F := F)
  have hp := prodErr_nonneg (F := F)
  obtain ⟨r0, r1, r2⟩ := hb.tr.rows
  have key : ∀ {v w : V3 ℝ}, v.norm ≤ 1 + e → MulVecF F a v w →
      (w - a.mulVec v).norm ≤ 3 * prodErr F * ((1 + d) * (1 + e) * (1 + 6 * F.tiny)) := by
    intro v w hv hw
    refine (mulVec_err ha hw).trans (mul_le_mul_of_nonneg_left ?_ (by positivity))
    rw [mul_assoc]
    refine mul_le_mul_of_nonneg_left ?_ (by linarith)
    nlinarith [mul_nonneg he ht.le]
  have h1 : frob (c - a * b) ≤ rho F * ((1 + d) * (1 + e)) := by
    rw [← frob_tr]
    have := frob_le_three (m := (c - a * b).tr) (key r0 h.1) (key r1 h.2.1) (key r2 h.2.2)
    unfold rho
    linarith
  refine ((ha.mul hb).trans h1).mono (le_of_eq ?_)
  ring

/-- Rounded product of a matrix near a rotation and of a vector near another. -/
theorem apply_err {m q : M3 ℝ} {d e W : ℝ} (hm : Near m q d) {v v' w : V3 ℝ} (hv : (v - v').norm ≤ e * W)
    (hW : v'.norm + 6 * F.tiny ≤ W) (h : MulVecF F m v w) :
    (w - q.mulVec v').norm ≤ ((1 + d) * (1 + e) * (1 + rho F) - 1) * W := by
  have hd := hm.nonneg
  have ht := tiny_pos (F := F)
  have hp := prodErr_nonneg (F := F)
  have h1 := norm_sub_le' v v'
  have h2 : v.norm + 6 * F.tiny ≤ (1 + e) * W := by linarith
  have h3 := hm.apply hv (by linarith)
  have h4 := (mulVec_err hm h).trans (mul_le_mul_of_nonneg_left (mul_le_mul_of_nonneg_left h2 (by linarith : 0 ≤ 1 + d)) (by positivity))
  have h5 := norm_tri w (m.mulVec v) (q.mulVec v')
  have h6 : 3 * prodErr F ≤ rho F := by
    unfold rho
    nlinarith [mul_nonneg hp ht.le]
  have h7 : 0 ≤ (1 + d) * ((1 + e) * W) := by
    have := V3.norm_nonneg v
    have : 0 ≤ (1 + e) * W := by linarith
    exact mul_nonneg (by linarith) this
  have h8 := mul_le_mul_of_nonneg_right h6 h7
  nlinarith

/-- Rounded sum of two vectors. -/
theorem add_err (v w : V3 ℝ) : (addF F v w - (v + w)).norm ≤ 3 * F.u * (v.norm + w.norm + F.tiny) := by
  have hu := F.u_pos
  have key : ∀ a b : ℝ, |a| ≤ v.norm → |b| ≤ w.norm → |F.rnd (a + b) - (a + b)| ≤ F.u * (v.norm + w.norm + F.tiny) := by
    intro a b ha hb
    refine (rnd_err_tiny _).trans (mul_le_mul_of_nonneg_left ?_ hu.le)
    have := abs_add_le a b
    linarith
  obtain ⟨a, b, c⟩ := abs_le_norm v
  obtain ⟨a', b', c'⟩ := abs_le_norm w
  rw [mul_assoc]
  exact norm_le_three (key _ _ a a') (key _ _ b b') (key _ _ c c')

theorem u_le_rho : 3 * F.u ≤ rho F := by
  have hu := F.u_pos
  have ht := tiny_pos (F := F)
  have h : F.u ≤ prodErr F := by
    unfold prodErr sumErr
    have := one_add_mul_le_pow (a := F.u) (by linarith) (2 * 3)
    push_cast at this
    norm_num at this ⊢
    linarith
  unfold rho
  nlinarith [mul_nonneg hu.le ht.le, mul_le_mul_of_nonneg_right h ht.le]

/-- Rounded sum of vectors near others. -/
theorem add_near {v w v' w' : V3 ℝ} {f W W' : ℝ} (hf : 0 ≤ f) (hv : (v - v').norm ≤ f * W) (hw : (w - w').norm ≤ f * W')
    (hW : v'.norm + F.tiny ≤ W) (hW' : w'.norm ≤ W') : (addF F v w - (v' + w')).norm ≤ ((1 + f) * (1 + rho F) - 1) * (W + W') := by
  have h1 := norm_tri (addF F v w) (v + w) (v' + w')
  have e : v + w - (v' + w') = (v - v') + (w - w') := by ext <;> simp <;> ring
  rw [e] at h1
  have h2 := norm_add_le (v - v') (w - w')
  have h3 := add_err (F := F) v w
  have h4 := norm_sub_le' v v'
  have h5 := norm_sub_le' w w'
  have h6 : v.norm + w.norm + F.tiny ≤ (1 + f) * (W + W') := by linarith
  have ht := tiny_pos (F := F)
  have h7 : 0 ≤ (1 + f) * (W + W') := by
    have := V3.norm_nonneg v
    have := V3.norm_nonneg w
    linarith
  have h8 := mul_le_mul (u_le_rho (F := F)) h6 (by have := V3.norm_nonneg v; have := V3.norm_nonneg w; linarith) rho_nonneg
  nlinarith

/-! ### Rotation about an axis -/

theorem tiny_le : F.tiny ≤ 1 / 2 := by
  unfold Fmt.tiny
  have := F.he
  have h : (2 : ℝ) ^ (F.emin + F.p - 1) ≤ 2 ^ (-1 : ℤ) := zpow_le_zpow_right₀ (by norm_num) (by omega)
  rw [zpow_neg_one] at h
  linarith

theorem frob_le_entries {m : M3 ℝ} {b : ℝ} (h00 : |m.m00| ≤ b) (h01 : |m.m01| ≤ b) (h02 : |m.m02| ≤ b) (h10 : |m.m10| ≤ b)
    (h11 : |m.m11| ≤ b) (h12 : |m.m12| ≤ b) (h20 : |m.m20| ≤ b) (h21 : |m.m21| ≤ b) (h22 : |m.m22| ≤ b) : frob m ≤ 3 * b := by
  have hb : 0 ≤ b := (abs_nonneg _).trans h00
  refine norm_le_of_sq (by linarith) ?_
  simp only [V3.norm_sq, row0, row1, row2]
  have sq : ∀ {x : ℝ}, |x| ≤ b → x ^ 2 ≤ b ^ 2 := fun h => sq_le_sq' (abs_le.1 h).1 (abs_le.1 h).2
  have := sq h00
  have := sq h01
  have := sq h02
  have := sq h10
  have := sq h11
  have := sq h12
  have := sq h20
  have := sq h21
  have := sq h22
  nlinarith

/-- Error of the rounding of a number of known size. -/
theorem rnd_err_le {x b : ℝ} (h : |x| ≤ b) : |F.rnd x - x| ≤ F.u * (b + 1 / 2) := by
  refine (rnd_err_tiny x).trans (mul_le_mul_of_nonneg_left ?_ F.u_pos.le)
  have := tiny_le (F := F)
  linarith

theorem entry_err {c s e q a b : ℝ} (hc : |c| ≤ 1) (hs : |s| ≤ 1) (he : 0 ≤ e ∧ e ≤ 1) (hq : |q| ≤ 1) (ha : |a| ≤ 1) (hb : |b| ≤ 1) :
    |entryF F c s e q a b - (a * b + c * (e - a * b) + s * q)| ≤ 36 * F.u := by
  have hu := F.u_pos
  have hu4 := F.u_le
  have mul1 : ∀ {x y z : ℝ}, |x| ≤ 1 → |y| ≤ z → |x * y| ≤ z := by
    intro x y z hx hy
    rw [abs_mul]
    nlinarith [abs_nonneg x, abs_nonneg y]
  have b1 := mul1 ha hb
  have r1 := rnd_err_le (F := F) b1
  set p := F.rnd (a * b) with hp
  have hp2 : |e - p| ≤ 3 := by
    rw [abs_le] at *
    constructor <;> nlinarith
  have r2 := rnd_err_le (F := F) hp2
  set e' := F.rnd (e - p) with he'
  have he4 : |e'| ≤ 4 := by
    rw [abs_le] at *
    constructor <;> nlinarith
  have b3 := mul1 hc he4
  have r3 := rnd_err_le (F := F) b3
  set m := F.rnd (c * e') with hm
  have b4 : |p + m| ≤ 8 := by
    rw [abs_le] at *
    constructor <;> nlinarith
  have r4 := rnd_err_le (F := F) b4
  set t := F.rnd (p + m) with ht
  have b5 := mul1 hs hq
  have r5 := rnd_err_le (F := F) b5
  set w := F.rnd (s * q) with hw
  have b6 : |t + w| ≤ 12 := by
    rw [abs_le] at *
    constructor <;> nlinarith
  have r6 := rnd_err_le (F := F) b6
  have e1 : entryF F c s e q a b = F.rnd (t + w) := rfl
  rw [e1]
  have d1 : |e' - (e - a * b)| ≤ 5 * F.u := by
    have := abs_add_le (e' - (e - p)) (-(p - a * b))
    rw [abs_neg] at this
    have e2 : e' - (e - p) + -(p - a * b) = e' - (e - a * b) := by ring
    rw [e2] at this
    linarith
  have d2 := mul1 hc d1
  have t1 := abs_add_three (F.rnd (t + w) - (t + w)) (t - (p + m)) (w - s * q)
  have t2 := abs_add_three (p - a * b) (m - c * e') (c * (e' - (e - a * b)))
  have t3 := abs_add_le (F.rnd (t + w) - (t + w) + (t - (p + m)) + (w - s * q)) (p - a * b + (m - c * e') + c * (e' - (e - a * b)))
  have e3 : F.rnd (t + w) - (t + w) + (t - (p + m)) + (w - s * q) + (p - a * b + (m - c * e') + c * (e' - (e - a * b))) =
    F.rnd (t + w) - (a * b + c * (e - a * b) + s * q) := by ring
  rw [e3] at t3
  linarith

end Verif.Lemmas.RoundedIsometry
