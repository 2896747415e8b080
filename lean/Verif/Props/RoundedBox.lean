import Verif.Model.RoundedBox
import Verif.Props.SubPad
import Verif.Props.Rounded
import Verif.Lemmas.RoundedIsometry

/-!
# C132: sub-boxes with rounding errors
-/

namespace Verif.Props.RoundedBox

open Verif Verif.Model Verif.Model.RoundedBox Verif.Spec Verif.Lemmas.RoundedIsometry

variable {F : Fmt} {ρ : Type}

theorem edge_mono {size center : ℝ} (hs : 0 ≤ size) (u : Bool) {a b : ℝ} (h : a ≤ b) : edgeF F size center u a ≤ edgeF F size center u b := by
  unfold edgeF
  split
  · exact Fmt.rnd_mono (by linarith [Fmt.rnd_mono (F := F) (mul_le_mul_of_nonneg_left h hs)])
  · exact h

/-- Sums over a partition: if each row is chosen by one index of the list when it is in the whole and by none otherwise, the rows of all the
parts are those of the whole. -/
theorem parts_perm {α ι : Type} (idx : List ι) (p : ι → α → Bool) (q : α → Bool) (rows : List α)
    (h : ∀ r, (idx.filter fun i => p i r).length = if q r then 1 else 0) : (idx.flatMap fun i => rows.filter (p i)).Perm (rows.filter q) := by
  induction rows with
  | nil => simp
  | cons r rows ih =>
    have e : ∀ i, (r :: rows).filter (p i) = (if p i r then [r] else []) ++ rows.filter (p i) := by
      intro i
      by_cases hp : p i r <;> simp [hp]
    have e' : (r :: rows).filter q = (if q r then [r] else []) ++ rows.filter q := by
      by_cases hq : q r <;> simp [hq]
    simp only [e, e']
    refine (List.flatMap_append_perm idx _ _).symm.trans (List.Perm.append ?_ ih)
    have : (idx.flatMap fun i => if p i r then [r] else []) = List.replicate (idx.filter fun i => p i r).length r := by
      clear ih h
      induction idx with
      | nil => rfl
      | cons i idx ih =>
        rw [List.flatMap_cons, ih]
        by_cases hp : p i r <;> simp [hp, List.replicate_succ]
    rw [this, h r]
    by_cases hq : q r <;> simp [hq]

open Classical in
/-- Increasing edges: a number is in one interval of the first `n`, if it is between the first and the last edge, and in none otherwise. -/
theorem one_interval {e : ℕ → ℝ} (he : Monotone e) (n : ℕ) (x : ℝ) :
    ((List.range n).filter fun i => decide (e i ≤ x ∧ x < e (i + 1))).length = if e 0 ≤ x ∧ x < e n then 1 else 0 := by
  induction n with
  | zero =>
    rw [if_neg (fun h => absurd h.1 (not_le.2 h.2))]
    rfl
  | succ n ih =>
    rw [List.range_succ, List.filter_append, List.length_append, ih]
    have h0 : e 0 ≤ e n := he (Nat.zero_le n)
    have h1 : e n ≤ e (n + 1) := he (Nat.le_succ n)
    by_cases h : x < e n
    · by_cases h2 : e 0 ≤ x
      · simp [h, h2, not_le.2 h, h.trans_le h1]
      · simp [h, h2, not_le.2 h]
    · have h' := not_lt.1 h
      by_cases h2 : x < e (n + 1)
      · simp [h, h', h2, h0.trans h']
      · simp [h, h', h2]

theorem filter_product {α β : Type} (l : List α) (m : List β) (p : α → Bool) (q : β → Bool) :
    ((l.product m).filter fun i => p i.1 && q i.2).length = (l.filter p).length * (m.filter q).length := by
  induction l with
  | nil => simp [List.product]
  | cons a l ih =>
    have e : (a :: l).product m = m.map (Prod.mk a) ++ l.product m := rfl
    rw [e, List.filter_append, List.length_append, ih, List.filter_map, List.length_map]
    by_cases h : p a
    · simp [h, Function.comp_def, add_mul, add_comm]
    · simp [h, Function.comp_def]

theorem three_ones (A B C : Prop) [Decidable A] [Decidable B] [Decidable C] [Decidable (A ∧ B ∧ C)] :
    (if A then 1 else 0) * ((if B then 1 else 0) * (if C then 1 else 0)) = if decide (A ∧ B ∧ C) = true then 1 else 0 := by
  by_cases a : A <;> by_cases b : B <;> by_cases c : C <;> simp [a, b, c]

/-- C132: sub-boxes of a grid share their edges bit for bit: whatever the rounding errors, the rows of all sub-boxes are those of the
sub-box of the whole grid, none twice and none lost. -/
theorem C132_grid (b : Box ρ) (hb : NonnegSize b.boxsize) (u : Bool) {ex ey ez : ℕ → ℝ} (hx : Monotone ex) (hy : Monotone ey) (hz : Monotone ez)
    (nx ny nz : ℕ) : ∃ (part : ℕ × ℕ × ℕ → Box ρ) (whole : Box ρ),
      (∀ i, subboxF F b (.many [(ex i.1, ex (i.1 + 1)), (ey i.2.1, ey (i.2.1 + 1)), (ez i.2.2, ez (i.2.2 + 1))]) u = .ok (part i)) ∧
      subboxF F b (.many [(ex 0, ex nx), (ey 0, ey ny), (ez 0, ez nz)]) u = .ok whole ∧
      (((List.range nx).product ((List.range ny).product (List.range nz))).flatMap fun i => (part i).rows).Perm whole.rows := by
  classical
  refine ⟨fun i => _, _, fun i => rfl, rfl, ?_⟩
  apply parts_perm
  intro r
  have mx : Monotone fun i => edgeF F b.boxsize.x b.boxcenter.x u (ex i) := fun i j h => edge_mono hb.1 u (hx h)
  have my : Monotone fun i => edgeF F b.boxsize.y b.boxcenter.y u (ey i) := fun i j h => edge_mono hb.2.1 u (hy h)
  have mz : Monotone fun i => edgeF F b.boxsize.z b.boxcenter.z u (ez i) := fun i j h => edge_mono hb.2.2 u (hz h)
  have e := filter_product (List.range nx) ((List.range ny).product (List.range nz))
    (fun i => decide (edgeF F b.boxsize.x b.boxcenter.x u (ex i) ≤ r.pos.x ∧ r.pos.x < edgeF F b.boxsize.x b.boxcenter.x u (ex (i + 1))))
    (fun i => decide (edgeF F b.boxsize.y b.boxcenter.y u (ey i.1) ≤ r.pos.y ∧ r.pos.y < edgeF F b.boxsize.y b.boxcenter.y u (ey (i.1 + 1))) &&
      decide (edgeF F b.boxsize.z b.boxcenter.z u (ez i.2) ≤ r.pos.z ∧ r.pos.z < edgeF F b.boxsize.z b.boxcenter.z u (ez (i.2 + 1))))
  have e' := filter_product (List.range ny) (List.range nz)
    (fun i => decide (edgeF F b.boxsize.y b.boxcenter.y u (ey i) ≤ r.pos.y ∧ r.pos.y < edgeF F b.boxsize.y b.boxcenter.y u (ey (i + 1))))
    (fun i => decide (edgeF F b.boxsize.z b.boxcenter.z u (ez i) ≤ r.pos.z ∧ r.pos.z < edgeF F b.boxsize.z b.boxcenter.z u (ez (i + 1))))
  rw [e', one_interval mx, one_interval my, one_interval mz, three_ones] at e
  refine Eq.trans ?_ e
  congr 1
  apply List.filter_congr
  intro i _
  simp only [Bool.decide_and]

theorem lower_err {size center : ℝ} (hs : 0 ≤ size) :
    |lowerF F size center - (center - size / 2)| ≤ F.u * (|center| + 9 / 8 * size + 9 / 4 * F.tiny) ∧
    |upperF F size center - (center + size / 2)| ≤ F.u * (|center| + 9 / 8 * size + 9 / 4 * F.tiny) := by
  have hu := F.u_pos
  have hu4 := F.u_le
  have ht := tiny_pos (F := F)
  have h1 := rnd_err_tiny (F := F) (size / 2)
  have h2 := rnd_err_tiny (F := F) (center - F.rnd (size / 2))
  have h3 := rnd_err_tiny (F := F) (center + F.rnd (size / 2))
  rw [abs_of_nonneg (by linarith : 0 ≤ size / 2)] at h1
  set h := F.rnd (size / 2)
  have hh : |h| ≤ 5 / 8 * size + 1 / 4 * F.tiny := by
    have e1 : F.u * (size / 2 + F.tiny) ≤ 1 / 4 * (size / 2 + F.tiny) := mul_le_mul_of_nonneg_right hu4 (by linarith)
    have := abs_le.1 h1
    rw [abs_le]
    constructor <;> linarith
  have e2 : |center - h| ≤ |center| + (5 / 8 * size + 1 / 4 * F.tiny) := (abs_sub _ _).trans (by linarith)
  have e3 : |center + h| ≤ |center| + (5 / 8 * size + 1 / 4 * F.tiny) := (abs_add_le _ _).trans (by linarith)
  have g2 := mul_le_mul_of_nonneg_left (add_le_add_left e2 F.tiny) hu.le
  have g3 := mul_le_mul_of_nonneg_left (add_le_add_left e3 F.tiny) hu.le
  unfold lowerF upperF
  have a1 := abs_le.1 h1
  have a2 := abs_le.1 (h2.trans g2)
  have a3 := abs_le.1 (h3.trans g3)
  constructor <;> rw [abs_le] <;> constructor <;> nlinarith

/-- Edges are those of exact arithmetic up to rounding errors. -/
theorem edge_err {size center : ℝ} (hs : 0 ≤ size) (bb : ℝ) :
    |edgeF F size center true bb - (center - size / 2 + bb * size)| ≤ F.u * (9 / 4 * |center| + 2 * size + 9 / 4 * |bb * size| + 6 * F.tiny) := by
  have hu := F.u_pos
  have hu4 := F.u_le
  have ht := tiny_pos (F := F)
  obtain ⟨h1, -⟩ := lower_err (F := F) (center := center) hs
  have h2 := rnd_err_tiny (F := F) (size * bb)
  have h3 := rnd_err_tiny (F := F) (F.rnd (size * bb) + lowerF F size center)
  have hc := abs_nonneg center
  have hb := abs_nonneg (bb * size)
  rw [mul_comm size bb] at h2 h3
  set p := F.rnd (bb * size)
  set lo := lowerF F size center
  have hp : |p| ≤ 5 / 4 * |bb * size| + 1 / 4 * F.tiny := by
    have e1 : F.u * (|bb * size| + F.tiny) ≤ 1 / 4 * (|bb * size| + F.tiny) := mul_le_mul_of_nonneg_right hu4 (by linarith)
    have e2 : |p| ≤ |p - bb * size| + |bb * size| := by simpa using abs_add_le (p - bb * size) (bb * size)
    linarith
  have hlo : |lo| ≤ 5 / 4 * |center| + 4 / 5 * size + 9 / 16 * F.tiny := by
    have e1 : F.u * (|center| + 9 / 8 * size + 9 / 4 * F.tiny) ≤ 1 / 4 * (|center| + 9 / 8 * size + 9 / 4 * F.tiny) :=
      mul_le_mul_of_nonneg_right hu4 (by linarith)
    have e2 : |lo| ≤ |lo - (center - size / 2)| + |center - size / 2| := by simpa using abs_add_le (lo - (center - size / 2)) (center - size / 2)
    have e3 : |center - size / 2| ≤ |center| + size / 2 := (abs_sub _ _).trans (by rw [abs_of_nonneg (by linarith : 0 ≤ size / 2)])
    linarith
  have e3 : |p + lo| ≤ |p| + |lo| := abs_add_le _ _
  have g3 := h3.trans (mul_le_mul_of_nonneg_left (by linarith : |p + lo| + F.tiny ≤
    5 / 4 * |bb * size| + 1 / 4 * F.tiny + (5 / 4 * |center| + 4 / 5 * size + 9 / 16 * F.tiny) + F.tiny) hu.le)
  have e : edgeF F size center true bb = F.rnd (p + lo) := by
    simp only [edgeF, if_true]
    rw [mul_comm size bb]
  rw [e]
  have a1 := abs_le.1 h1
  have a2 := abs_le.1 h2
  have a3 := abs_le.1 g3
  rw [abs_le]
  constructor <;> nlinarith

/-- Size of the numbers involved: centre, size and limits of the range. -/
noncomputable def scale (F : Fmt) (size center : ℝ) (l : ℝ × ℝ) : ℝ := |center| + size + |l.1| + |l.2| + F.tiny

theorem limit_err {size center : ℝ} (hs : 0 ≤ size) (u : Bool) (r : ℝ × ℝ) :
    |edgeF F size center u r.1 - (limits size center u r).1| ≤ 6 * F.u * scale F size center (limits size center u r) ∧
    |edgeF F size center u r.2 - (limits size center u r).2| ≤ 6 * F.u * scale F size center (limits size center u r) := by
  have hu := F.u_pos
  have ht := tiny_pos (F := F)
  have hM : 0 ≤ scale F size center (limits size center u r) := by unfold scale; positivity
  cases u with
  | false => simpa [edgeF, limits] using by positivity
  | true =>
    have key : ∀ bb, F.u * (9 / 4 * |center| + 2 * size + 9 / 4 * |bb * size| + 6 * F.tiny) ≤
        6 * F.u * (|center| + size + |center - size / 2 + bb * size| + F.tiny) := by
      intro bb
      have h : |bb * size| ≤ |center - size / 2 + bb * size| + (|center| + size / 2) := by
        have e1 : bb * size = center - size / 2 + bb * size - (center - size / 2) := by ring
        have e2 : |center - size / 2| ≤ |center| + size / 2 := (abs_sub _ _).trans (by rw [abs_of_nonneg (by linarith : 0 ≤ size / 2)])
        calc |bb * size| = |center - size / 2 + bb * size - (center - size / 2)| := by rw [← e1]
          _ ≤ _ := (abs_sub _ _).trans (by linarith)
      have hc := abs_nonneg center
      have hl := abs_nonneg (center - size / 2 + bb * size)
      rw [mul_comm 6 F.u, mul_assoc]
      exact mul_le_mul_of_nonneg_left (by linarith) hu.le
    have h1 := (edge_err (F := F) (center := center) hs r.1).trans (key r.1)
    have h2 := (edge_err (F := F) (center := center) hs r.2).trans (key r.2)
    have l1 := abs_nonneg (center - size / 2 + r.1 * size)
    have l2 := abs_nonneg (center - size / 2 + r.2 * size)
    simp only [limits, if_true, scale]
    exact ⟨h1.trans (mul_le_mul_of_nonneg_left (by linarith) (by linarith)), h2.trans (mul_le_mul_of_nonneg_left (by linarith) (by linarith))⟩

/-- Errors of the size and of the centre of a box made from its edges. -/
theorem new_err (x : ℝ × ℝ) :
    |newCenter F x - newSize F x / 2 - x.1| ≤ F.u * (7 / 4 * (|x.1| + |x.2|) + 5 / 2 * F.tiny) ∧
    |newCenter F x + newSize F x / 2 - x.2| ≤ F.u * (7 / 4 * (|x.1| + |x.2|) + 5 / 2 * F.tiny) := by
  have hu := F.u_pos
  have hu4 := F.u_le
  have ht := tiny_pos (F := F)
  have h1 := rnd_err_tiny (F := F) (x.2 + x.1)
  have h2 := rnd_err_tiny (F := F) (F.rnd (x.2 + x.1) / 2)
  have h3 := rnd_err_tiny (F := F) (x.2 - x.1)
  have b1 : |x.2 + x.1| ≤ |x.1| + |x.2| := by rw [add_comm |x.1|]; exact abs_add_le _ _
  have b3 : |x.2 - x.1| ≤ |x.1| + |x.2| := by rw [add_comm |x.1|]; exact abs_sub _ _
  have n1 := abs_nonneg x.1
  have n2 := abs_nonneg x.2
  set B := |x.1| + |x.2|
  have hB : 0 ≤ B := by positivity
  have g1 := h1.trans (mul_le_mul_of_nonneg_left (add_le_add_left b1 F.tiny) hu.le)
  have g3 := h3.trans (mul_le_mul_of_nonneg_left (add_le_add_left b3 F.tiny) hu.le)
  unfold newCenter newSize
  set s := F.rnd (x.2 + x.1)
  have hs : |s / 2| ≤ 5 / 8 * B + 1 / 8 * F.tiny := by
    have e1 : F.u * (B + F.tiny) ≤ 1 / 4 * (B + F.tiny) := mul_le_mul_of_nonneg_right hu4 (by linarith)
    have e2 : |s| ≤ |s - (x.2 + x.1)| + |x.2 + x.1| := by simpa using abs_add_le (s - (x.2 + x.1)) (x.2 + x.1)
    rw [abs_div, abs_of_pos (two_pos : (0 : ℝ) < 2)]
    linarith
  have g2 := h2.trans (mul_le_mul_of_nonneg_left (add_le_add_left hs F.tiny) hu.le)
  have a1 := abs_le.1 g1
  have a2 := abs_le.1 g2
  have a3 := abs_le.1 g3
  constructor <;> rw [abs_le] <;> constructor <;> nlinarith

theorem max_err {a b c d ε δ : ℝ} (h1 : |a - c| ≤ ε) (h2 : |b - d| ≤ δ) : |max a b - max c d| ≤ max ε δ :=
  (abs_max_sub_max_le_max a b c d).trans (max_le_max h1 h2)

theorem min_err {a b c d ε δ : ℝ} (h1 : |a - c| ≤ ε) (h2 : |b - d| ≤ δ) : |min a b - min c d| ≤ max ε δ :=
  (abs_min_sub_min_le_max a b c d).trans (max_le_max h1 h2)

/-- Edges of the new box along one axis, near those of exact arithmetic. -/
def NearEdges (F : Fmt) (size center size' center' : ℝ) (l : ℝ × ℝ) : Prop :=
  |center' - size' / 2 - max (center - size / 2) l.1| ≤ 19 * F.u * scale F size center l ∧
  |center' + size' / 2 - min (center + size / 2) l.2| ≤ 19 * F.u * scale F size center l

theorem near_edges {size center : ℝ} (hs : 0 ≤ size) (u : Bool) (r : ℝ × ℝ) :
    NearEdges F size center (newSize F (newEdges F size center u r)) (newCenter F (newEdges F size center u r)) (limits size center u r) := by
  have hu := F.u_pos
  have hu4 := F.u_le
  have ht := tiny_pos (F := F)
  obtain ⟨lo, hi⟩ := lower_err (F := F) (center := center) hs
  obtain ⟨e1, e2⟩ := limit_err (F := F) (center := center) hs u r
  obtain ⟨n1, n2⟩ := new_err (F := F) (newEdges F size center u r)
  unfold NearEdges
  set l := limits size center u r
  have hc := abs_nonneg center
  have hl1 := abs_nonneg l.1
  have hl2 := abs_nonneg l.2
  set M := scale F size center l with hM
  have hM' : M = |center| + size + |l.1| + |l.2| + F.tiny := rfl
  have hMt : F.tiny ≤ M := by rw [hM']; linarith
  have small : F.u * (|center| + 9 / 8 * size + 9 / 4 * F.tiny) ≤ 6 * F.u * M := by
    rw [mul_comm 6 F.u, mul_assoc]
    exact mul_le_mul_of_nonneg_left (by rw [hM']; linarith) hu.le
  have m1 := max_err (lo.trans small) e1
  have m2 := min_err (hi.trans small) e2
  rw [max_self] at m1 m2
  have quarter : 6 * F.u * M ≤ 3 / 2 * M := mul_le_mul_of_nonneg_right (by linarith) (by linarith)
  have x1 : |(newEdges F size center u r).1| ≤ 5 / 2 * M := by
    have h : |max (center - size / 2) l.1| ≤ M := by
      refine abs_max_le_max_abs_abs.trans (max_le ?_ (by rw [hM']; linarith))
      refine (abs_sub _ _).trans ?_
      rw [abs_of_nonneg (by linarith : 0 ≤ size / 2), hM']
      linarith
    have := abs_add_le ((newEdges F size center u r).1 - max (center - size / 2) l.1) (max (center - size / 2) l.1)
    rw [sub_add_cancel] at this
    have g : |(newEdges F size center u r).1 - max (center - size / 2) l.1| ≤ 6 * F.u * M := m1
    linarith
  have x2 : |(newEdges F size center u r).2| ≤ 5 / 2 * M := by
    have h : |min (center + size / 2) l.2| ≤ M := by
      refine abs_min_le_max_abs_abs.trans (max_le ?_ (by rw [hM']; linarith))
      refine (abs_add_le _ _).trans ?_
      rw [abs_of_nonneg (by linarith : 0 ≤ size / 2), hM']
      linarith
    have := abs_add_le ((newEdges F size center u r).2 - min (center + size / 2) l.2) (min (center + size / 2) l.2)
    rw [sub_add_cancel] at this
    have g : |(newEdges F size center u r).2 - min (center + size / 2) l.2| ≤ 6 * F.u * M := m2
    linarith
  have big : F.u * (7 / 4 * (|(newEdges F size center u r).1| + |(newEdges F size center u r).2|) + 5 / 2 * F.tiny) ≤ F.u * (13 * M) :=
    mul_le_mul_of_nonneg_left (by linarith) hu.le
  have g1 : |(newEdges F size center u r).1 - max (center - size / 2) l.1| ≤ 6 * F.u * M := m1
  have g2 : |(newEdges F size center u r).2 - min (center + size / 2) l.2| ≤ 6 * F.u * M := m2
  have a1 := abs_le.1 (n1.trans big)
  have a2 := abs_le.1 (n2.trans big)
  have b1 := abs_le.1 g1
  have b2 := abs_le.1 g2
  clear big g1 g2 m1 m2 n1 n2 e1 e2 lo hi small quarter
  constructor <;> rw [abs_le] <;> constructor <;> linarith

/-- Limits of rows kept along one axis, near those designated by the range. -/
def NearLimits (F : Fmt) (size center : ℝ) (k l : ℝ × ℝ) : Prop :=
  |k.1 - l.1| ≤ 6 * F.u * scale F size center l ∧ |k.2 - l.2| ≤ 6 * F.u * scale F size center l

open Classical in
/-- C132: `subbox` keeps, in order, the rows between limits that are those of the ranges up to 6 rounding errors, exactly those if ranges
are absolute; the edges of the new box are those of exact arithmetic up to 19 rounding errors. -/
theorem C132_accuracy (b : Box ρ) (hb : NonnegSize b.boxsize) (u : Bool) (r0 r1 r2 : ℝ × ℝ) :
    ∃ (b' : Box ρ) (k0 k1 k2 : ℝ × ℝ), subboxF F b (.many [r0, r1, r2]) u = .ok b' ∧
      b'.rows = b.rows.filter (fun r => decide (Within k0 r.pos.x ∧ Within k1 r.pos.y ∧ Within k2 r.pos.z)) ∧
      (NearLimits F b.boxsize.x b.boxcenter.x k0 (limits b.boxsize.x b.boxcenter.x u r0) ∧
        NearLimits F b.boxsize.y b.boxcenter.y k1 (limits b.boxsize.y b.boxcenter.y u r1) ∧
        NearLimits F b.boxsize.z b.boxcenter.z k2 (limits b.boxsize.z b.boxcenter.z u r2)) ∧
      (u = false → k0 = r0 ∧ k1 = r1 ∧ k2 = r2) ∧
      NearEdges F b.boxsize.x b.boxcenter.x b'.boxsize.x b'.boxcenter.x (limits b.boxsize.x b.boxcenter.x u r0) ∧
      NearEdges F b.boxsize.y b.boxcenter.y b'.boxsize.y b'.boxcenter.y (limits b.boxsize.y b.boxcenter.y u r1) ∧
      NearEdges F b.boxsize.z b.boxcenter.z b'.boxsize.z b'.boxcenter.z (limits b.boxsize.z b.boxcenter.z u r2) := by
  obtain ⟨hx, hy, hz⟩ := hb
  refine ⟨_, (edgeF F b.boxsize.x b.boxcenter.x u r0.1, edgeF F b.boxsize.x b.boxcenter.x u r0.2),
    (edgeF F b.boxsize.y b.boxcenter.y u r1.1, edgeF F b.boxsize.y b.boxcenter.y u r1.2),
    (edgeF F b.boxsize.z b.boxcenter.z u r2.1, edgeF F b.boxsize.z b.boxcenter.z u r2.2), rfl,
    List.filter_congr fun r _ => decide_eq_decide.2 Iff.rfl,
    ⟨limit_err hx u r0, limit_err hy u r1, limit_err hz u r2⟩, ?_, near_edges hx u r0, near_edges hy u r1, near_edges hz u r2⟩
  rintro rfl
  simp [edgeF]

/-- C132: one range stands for the three axes; any other number of ranges is rejected. -/
theorem C132_arguments (b : Box ρ) (u : Bool) :
    (∀ lo hi, subboxF F b (.one lo hi) u = subboxF F b (.many [(lo, hi), (lo, hi), (lo, hi)]) u) ∧
    ∀ l : List (ℝ × ℝ), l.length ≠ 3 → subboxF F b (.many l) u = .error .valueError := by
  refine ⟨fun _ _ => rfl, fun l hl => ?_⟩
  match l, hl with
  | [], _ => rfl
  | [_], _ => rfl
  | [_, _], _ => rfl
  | [_, _, _], h => exact absurd rfl h
  | _ :: _ :: _ :: _ :: _, _ => rfl

theorem contained_axis {size center : ℝ} (hs : 0 ≤ size) (u : Bool) (r : ℝ × ℝ) {x : ℝ} (hx : |x - center| ≤ size / 2)
    (h1 : edgeF F size center u r.1 ≤ x) (h2 : x < edgeF F size center u r.2) :
    |x - newCenter F (newEdges F size center u r)| ≤ newSize F (newEdges F size center u r) / 2 + 7 * F.u * (|center| + size + F.tiny) := by
  have hu := F.u_pos
  have hu4 := F.u_le
  have ht := tiny_pos (F := F)
  have hc := abs_nonneg center
  obtain ⟨lo, hi⟩ := lower_err (F := F) (center := center) hs
  obtain ⟨n1, n2⟩ := new_err (F := F) (newEdges F size center u r)
  set ε := F.u * (|center| + 9 / 8 * size + 9 / 4 * F.tiny) with hε
  have hε0 : 0 ≤ ε := by positivity
  have hε' : ε ≤ 1 / 4 * (|center| + 9 / 8 * size + 9 / 4 * F.tiny) := mul_le_mul_of_nonneg_right hu4 (by linarith)
  have hx' := abs_le.1 hx
  have alo := abs_le.1 lo
  have ahi := abs_le.1 hi
  have acc := abs_le.1 (le_refl |center|)
  have e1 : (newEdges F size center u r).1 ≤ x + ε := max_le (by linarith) (by linarith)
  have e2 : x - ε ≤ (newEdges F size center u r).2 := le_min (by linarith) (by linarith)
  have l1 : lowerF F size center ≤ (newEdges F size center u r).1 := le_max_left _ _
  have l2 : (newEdges F size center u r).2 ≤ upperF F size center := min_le_left _ _
  have b1 : |(newEdges F size center u r).1| ≤ 5 / 4 * |center| + 4 / 5 * size + 9 / 16 * F.tiny := by
    rw [abs_le]
    constructor <;> linarith
  have b2 : |(newEdges F size center u r).2| ≤ 5 / 4 * |center| + 4 / 5 * size + 9 / 16 * F.tiny := by
    rw [abs_le]
    constructor <;> linarith
  have big : F.u * (7 / 4 * (|(newEdges F size center u r).1| + |(newEdges F size center u r).2|) + 5 / 2 * F.tiny) ≤
      F.u * (35 / 8 * |center| + 14 / 5 * size + 9 / 2 * F.tiny) := mul_le_mul_of_nonneg_left (by linarith) hu.le
  have a1 := abs_le.1 (n1.trans big)
  have a2 := abs_le.1 (n2.trans big)
  have tot : F.u * (35 / 8 * |center| + 14 / 5 * size + 9 / 2 * F.tiny) + ε ≤ 7 * F.u * (|center| + size + F.tiny) := by
    rw [hε, ← mul_add, mul_comm 7 F.u, mul_assoc]
    exact mul_le_mul_of_nonneg_left (by linarith) hu.le
  rw [abs_le]
  constructor <;> linarith

/-- C132: rows of the box that are kept are in the new box, up to 7 rounding errors. -/
theorem C132_contained (b : Box ρ) (hb : NonnegSize b.boxsize) (u : Bool) (ranges : Box.Ranges) (b' : Box ρ)
    (h : subboxF F b ranges u = .ok b') (r : Row ρ) (hr : r ∈ b'.rows) (hin : Inside b.boxsize b.boxcenter r.pos) :
    |r.pos.x - b'.boxcenter.x| ≤ b'.boxsize.x / 2 + 7 * F.u * (|b.boxcenter.x| + b.boxsize.x + F.tiny) ∧
    |r.pos.y - b'.boxcenter.y| ≤ b'.boxsize.y / 2 + 7 * F.u * (|b.boxcenter.y| + b.boxsize.y + F.tiny) ∧
    |r.pos.z - b'.boxcenter.z| ≤ b'.boxsize.z / 2 + 7 * F.u * (|b.boxcenter.z| + b.boxsize.z + F.tiny) := by
  have main : ∀ r0 r1 r2, subboxF F b (.many [r0, r1, r2]) u = .ok b' →
      |r.pos.x - b'.boxcenter.x| ≤ b'.boxsize.x / 2 + 7 * F.u * (|b.boxcenter.x| + b.boxsize.x + F.tiny) ∧
      |r.pos.y - b'.boxcenter.y| ≤ b'.boxsize.y / 2 + 7 * F.u * (|b.boxcenter.y| + b.boxsize.y + F.tiny) ∧
      |r.pos.z - b'.boxcenter.z| ≤ b'.boxsize.z / 2 + 7 * F.u * (|b.boxcenter.z| + b.boxsize.z + F.tiny) := by
    intro r0 r1 r2 h
    simp only [subboxF, Except.ok.injEq] at h
    subst h
    simp only [List.mem_filter, decide_eq_true_eq] at hr
    obtain ⟨-, kx, ky, kz⟩ := hr
    exact ⟨contained_axis hb.1 u r0 hin.1 kx.1 kx.2, contained_axis hb.2.1 u r1 hin.2.1 ky.1 ky.2, contained_axis hb.2.2 u r2 hin.2.2 kz.1 kz.2⟩
  match ranges, h with
  | .one lo hi, h => exact main _ _ _ h
  | .many [r0, r1, r2], h => exact main _ _ _ h
  | .many [], h => cases h
  | .many [_], h => cases h
  | .many [_, _], h => cases h
  | .many (_ :: _ :: _ :: _ :: _), h => cases h

theorem float_double {x : ℝ} (h : F.IsFloat x) : F.IsFloat (2 * x) := by
  obtain ⟨m, e, h1, h2, rfl⟩ := h
  refine ⟨m, e + 1, h1, by omega, ?_⟩
  rw [zpow_add₀ (by norm_num), zpow_one]
  ring

/-- Sizes, half sizes and edges that are floats, as for boxes centred at the origin or with a corner there. -/
def ExactBox (F : Fmt) (size center : ℝ) : Prop :=
  F.IsFloat (size / 2) ∧ F.IsFloat center ∧ F.IsFloat (center - size / 2) ∧ F.IsFloat (center + size / 2)

theorem whole_axis {size center : ℝ} (h : ExactBox F size center) :
    edgeF F size center true 0 = center - size / 2 ∧ edgeF F size center true 1 = center + size / 2 ∧
      newSize F (newEdges F size center true (0, 1)) = size ∧ newCenter F (newEdges F size center true (0, 1)) = center := by
  obtain ⟨h1, h2, h3, h4⟩ := h
  have hs : F.IsFloat size := by
    have := float_double h1
    rwa [show 2 * (size / 2) = size by ring] at this
  have el : lowerF F size center = center - size / 2 := by rw [lowerF, Fmt.rnd_exact h1, Fmt.rnd_exact h3]
  have eu : upperF F size center = center + size / 2 := by rw [upperF, Fmt.rnd_exact h1, Fmt.rnd_exact h4]
  have e0 : edgeF F size center true 0 = center - size / 2 := by
    simp only [edgeF, if_true, mul_zero, Fmt.rnd_zero, zero_add, el]
    exact Fmt.rnd_exact h3
  have e1 : edgeF F size center true 1 = center + size / 2 := by
    simp only [edgeF, if_true, mul_one, Fmt.rnd_exact hs, el]
    rw [show size + (center - size / 2) = center + size / 2 by ring]
    exact Fmt.rnd_exact h4
  refine ⟨e0, e1, ?_, ?_⟩
  · simp only [newSize, newEdges, e0, e1, el, eu, max_self, min_self]
    rw [show center + size / 2 - (center - size / 2) = size by ring, Fmt.rnd_exact hs]
  · simp only [newCenter, newEdges, e0, e1, el, eu, max_self, min_self]
    rw [show center + size / 2 + (center - size / 2) = 2 * center by ring, Fmt.rnd_exact (float_double h2),
      show 2 * center / 2 = center by ring, Fmt.rnd_exact h2]

/-- C132: with edges that are floats, the range from 0 to 1 keeps all rows of the box, upper edges left out, and the box. -/
theorem C132_whole_partial (b : Box ρ) (hx : ExactBox F b.boxsize.x b.boxcenter.x) (hy : ExactBox F b.boxsize.y b.boxcenter.y)
    (hz : ExactBox F b.boxsize.z b.boxcenter.z)
    (hin : ∀ r ∈ b.rows, Inside b.boxsize b.boxcenter r.pos ∧ r.pos.x < b.boxcenter.x + b.boxsize.x / 2 ∧
      r.pos.y < b.boxcenter.y + b.boxsize.y / 2 ∧ r.pos.z < b.boxcenter.z + b.boxsize.z / 2) :
    subboxF F b (.one 0 1) true = .ok b := by
  obtain ⟨x0, x1, x2, x3⟩ := whole_axis hx
  obtain ⟨y0, y1, y2, y3⟩ := whole_axis hy
  obtain ⟨z0, z1, z2, z3⟩ := whole_axis hz
  simp only [subboxF, x0, x1, x2, x3, y0, y1, y2, y3, z0, z1, z2, z3, Except.ok.injEq]
  have : (b.rows.filter fun r => decide ((b.boxcenter.x - b.boxsize.x / 2 ≤ r.pos.x ∧ r.pos.x < b.boxcenter.x + b.boxsize.x / 2) ∧
      (b.boxcenter.y - b.boxsize.y / 2 ≤ r.pos.y ∧ r.pos.y < b.boxcenter.y + b.boxsize.y / 2) ∧
      b.boxcenter.z - b.boxsize.z / 2 ≤ r.pos.z ∧ r.pos.z < b.boxcenter.z + b.boxsize.z / 2)) = b.rows := by
    rw [List.filter_eq_self]
    intro r hr
    obtain ⟨⟨i1, i2, i3⟩, j1, j2, j3⟩ := hin r hr
    rw [abs_le] at i1 i2 i3
    simp only [decide_eq_true_eq]
    exact ⟨⟨by linarith, j1⟩, ⟨by linarith, j2⟩, by linarith, j3⟩
  ext1
  · rfl
  · rfl
  · convert this

/-- The double nearest to 1.1. -/
noncomputable def size11 : ℝ := 4953959590107546 / 2 ^ 52

theorem size11_rnd : binary64.rnd size11 = size11 ∧ binary64.rnd (size11 / 2) = size11 / 2 ∧
    lowerF binary64 size11 10 = 5319877059831398 / 2 ^ 49 ∧ edgeF binary64 size11 10 true 1 = 5939122008594841 / 2 ^ 49 := by
  have f1 : binary64.IsFloat size11 := ⟨4953959590107546, -52, by norm_num [binary64], by norm_num [binary64], by norm_num [size11]⟩
  have f2 : binary64.IsFloat (size11 / 2) := ⟨4953959590107546, -53, by norm_num [binary64], by norm_num [binary64], by norm_num [size11]⟩
  have h1 := Fmt.rnd_exact f1
  have h2 := Fmt.rnd_exact f2
  have h3 : lowerF binary64 size11 10 = 5319877059831398 / 2 ^ 49 := by
    rw [lowerF, h2, Rounded.rnd_eq (F := binary64) (k := 3) (n := 5319877059831398)] <;> norm_num [size11, binary64, abs_of_pos, abs_of_neg]
  refine ⟨h1, h2, h3, ?_⟩
  simp only [edgeF, if_true, mul_one, h1, h3]
  rw [Rounded.rnd_eq (F := binary64) (k := 3) (n := 5939122008594841)] <;> norm_num [size11, binary64, abs_of_pos, abs_of_neg]

/-- C132 fails for the range from 0 to 1: with a box of size 1.1 centred at 10, a particle strictly inside the box is lost. -/
theorem C132_whole_violated : ∃ b : Box Unit, (∀ r ∈ b.rows, |r.pos.x - b.boxcenter.x| < b.boxsize.x / 2 ∧
      |r.pos.y - b.boxcenter.y| < b.boxsize.y / 2 ∧ |r.pos.z - b.boxcenter.z| < b.boxsize.z / 2) ∧ b.rows.length = 1 ∧
    ∃ b', subboxF binary64 b (.one 0 1) true = .ok b' ∧ b'.rows = [] := by
  obtain ⟨-, -, -, h⟩ := size11_rnd
  refine ⟨⟨V3.const size11, V3.const 10, [⟨⟨5939122008594841 / 2 ^ 49, 10, 10⟩, 0, [], [], ()⟩]⟩, ?_, rfl, _, rfl, ?_⟩
  · intro r hr
    rw [List.mem_singleton] at hr
    subst hr
    refine ⟨?_, ?_, ?_⟩ <;> norm_num [V3.const, size11, abs_lt]
  · rw [List.filter_eq_nil_iff]
    intro r hr
    rw [List.mem_singleton] at hr
    subst hr
    simp [V3.const, h]

/-- Non-vacuity: a box from 0 to 1000, and one centred at the origin, in double precision. -/
example : ExactBox binary64 1000 500 ∧ ExactBox binary64 1000 0 := by
  have fl : ∀ n : ℤ, |n| ≤ 10000 → binary64.IsFloat n := by
    intro n hn
    refine ⟨n, 0, hn.trans (by norm_num [binary64]), by norm_num [binary64], by norm_num⟩
  have a := fl 500 (by norm_num)
  have b := fl 0 (by norm_num)
  have c := fl 1000 (by norm_num)
  have d := fl (-500) (by norm_num)
  push_cast at a b c d
  refine ⟨⟨?_, ?_, ?_, ?_⟩, ?_, ?_, ?_, ?_⟩ <;> norm_num <;> assumption

/-- Non-vacuity: the box of size 1000 from 0 with one particle; its sub-box from 0 to a half, shared edges of two halves. -/
example : ∃ b : Box Unit, NonnegSize b.boxsize ∧ (∀ r ∈ b.rows, Inside b.boxsize b.boxcenter r.pos) ∧ b.rows ≠ [] ∧
    Monotone (fun i : ℕ => (i : ℝ) / 2) ∧ ∃ b', subboxF binary64 b (.one 0 (1 / 2)) true = .ok b' := by
  refine ⟨⟨V3.const 1000, V3.const 500, [⟨V3.const 100, 0, [], [], ()⟩]⟩, ?_, ?_, by simp, ?_, _, rfl⟩
  · norm_num [NonnegSize, V3.const]
  · intro r hr
    rw [List.mem_singleton] at hr
    subst hr
    norm_num [Inside, V3.const, abs_le]
  · intro i j h
    have : (i : ℝ) ≤ j := by exact_mod_cast h
    simp only
    linarith

end Verif.Props.RoundedBox
