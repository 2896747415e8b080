import Verif.Model.Radial

/-!
# Piecewise linear interpolation
-/

namespace Verif.Props
open Verif Verif.Model

/-- Abscissae strictly increasing. -/
def Inc (nodes : List (ℝ × ℝ)) : Prop := (nodes.map (·.1)).Pairwise (· < ·)

/-- `(x, y)` is on the segment between two consecutive nodes. -/
def OnSegment (nodes : List (ℝ × ℝ)) (x y : ℝ) : Prop :=
  ∃ l p q r, nodes = l ++ p :: q :: r ∧ p.1 ≤ x ∧ x ≤ q.1 ∧ y = p.2 + (x - p.1) / (q.1 - p.1) * (q.2 - p.2)

theorem Inc.tail {a : ℝ × ℝ} {l : List (ℝ × ℝ)} (h : Inc (a :: l)) : Inc l := by
  unfold Inc at h ⊢
  rw [List.map_cons] at h
  exact (List.pairwise_cons.1 h).2

theorem Inc.lt {a : ℝ × ℝ} {l : List (ℝ × ℝ)} (h : Inc (a :: l)) {b : ℝ × ℝ} (hb : b ∈ l) : a.1 < b.1 := by
  unfold Inc at h
  rw [List.map_cons] at h
  exact (List.pairwise_cons.1 h).1 _ (List.mem_map_of_mem hb)

theorem Inc.right {l r : List (ℝ × ℝ)} (h : Inc (l ++ r)) : Inc r := by
  unfold Inc at h ⊢
  rw [List.map_append] at h
  exact (List.pairwise_append.1 h).2.1

theorem Inc.seg {l r : List (ℝ × ℝ)} {p q : ℝ × ℝ} (h : Inc (l ++ p :: q :: r)) : p.1 < q.1 :=
  h.right.lt (by simp)

theorem linInterp_onSegment {nodes : List (ℝ × ℝ)} {x y : ℝ} (h : linInterp nodes x = some y) : OnSegment nodes x y := by
  induction nodes with
  | nil => simp [linInterp] at h
  | cons a l ih =>
    cases l with
    | nil => simp [linInterp] at h
    | cons b l =>
      obtain ⟨x0, y0⟩ := a
      obtain ⟨x1, y1⟩ := b
      rw [linInterp] at h
      split at h
      · simp at h
      · rename_i h0
        split at h
        · rename_i h1
          simp only [Option.some.injEq] at h
          exact ⟨[], (x0, y0), (x1, y1), l, rfl, not_lt.1 h0, h1, h.symm⟩
        · obtain ⟨l', p, q, r, e, h1, h2, h3⟩ := ih h
          exact ⟨(x0, y0) :: l', p, q, r, by rw [e]; rfl, h1, h2, h3⟩

theorem onSegment_linInterp {nodes : List (ℝ × ℝ)} (hi : Inc nodes) {x y : ℝ} (h : OnSegment nodes x y) :
    linInterp nodes x = some y := by
  obtain ⟨l, p, q, r, rfl, h1, h2, h3⟩ := h
  induction l with
  | nil =>
    obtain ⟨x0, y0⟩ := p
    obtain ⟨x1, y1⟩ := q
    simp only [List.nil_append]
    rw [linInterp, if_neg (not_lt.2 h1), if_pos h2, h3]
  | cons a l ih =>
    have ih' := ih hi.tail
    have ha : a.1 < p.1 := hi.lt (by simp)
    -- the next node
    cases l with
    | nil =>
      obtain ⟨x0, y0⟩ := a
      obtain ⟨x1, y1⟩ := p
      simp only [List.cons_append, List.nil_append] at ih' ⊢
      simp only at ha h1 h2 h3
      rw [linInterp, if_neg (not_lt.2 (ha.le.trans h1))]
      split
      · rename_i hx
        have : x = x1 := le_antisymm hx h1
        subst this
        rw [h3]
        have : x - x0 ≠ 0 := by linarith
        simp [div_self this]
      · exact ih'
    | cons b l =>
      obtain ⟨x0, y0⟩ := a
      obtain ⟨x1, y1⟩ := b
      have hb : x1 < p.1 := hi.tail.lt (a := (x1, y1)) (by simp)
      simp only [List.cons_append] at ih' ⊢
      simp only at ha
      rw [linInterp, if_neg (not_lt.2 (ha.le.trans h1)), if_neg (not_le.2 (hb.trans_le h1))]
      exact ih'

/-- The interpolation is characterised by the segments. -/
theorem linInterp_iff {nodes : List (ℝ × ℝ)} (hi : Inc nodes) {x y : ℝ} :
    linInterp nodes x = some y ↔ OnSegment nodes x y := ⟨linInterp_onSegment, onSegment_linInterp hi⟩

/-- There is a value between the first and the last node. -/
theorem linInterp_isSome {a : ℝ × ℝ} {l : List (ℝ × ℝ)} {x : ℝ} (hl : l ≠ []) (h0 : a.1 ≤ x)
    (h1 : x ≤ ((a :: l).getLast (by simp)).1) : ∃ y, linInterp (a :: l) x = some y := by
  induction l generalizing a with
  | nil => simp at hl
  | cons b l ih =>
    obtain ⟨x0, y0⟩ := a
    obtain ⟨x1, y1⟩ := b
    rw [linInterp, if_neg (not_lt.2 h0)]
    split
    · exact ⟨_, rfl⟩
    · rename_i hx
      rw [List.getLast_cons (by simp)] at h1
      cases l with
      | nil => simp at h1; exact absurd h1 hx
      | cons c l => exact ih (by simp) (not_le.1 hx).le h1

theorem onSegment_range {a : ℝ × ℝ} {l : List (ℝ × ℝ)} (hi : Inc (a :: l)) {x y : ℝ} (h : OnSegment (a :: l) x y) :
    a.1 ≤ x ∧ x ≤ ((a :: l).getLast (by simp)).1 := by
  obtain ⟨l', p, q, r, e, h1, h2, -⟩ := h
  constructor
  · cases l' with
    | nil =>
      simp only [List.nil_append, List.cons.injEq] at e
      rw [e.1]; exact h1
    | cons b l' =>
      simp only [List.cons_append, List.cons.injEq] at e
      exact (hi.lt (b := p) (by rw [e.2]; simp)).le.trans h1
  · have hq : q ∈ a :: l := by rw [e]; simp
    have : q.1 ≤ ((a :: l).getLast (by simp)).1 := by
      have hlast := List.dropLast_append_getLast (l := a :: l) (by simp)
      rw [← hlast] at hq hi
      rcases List.mem_append.1 hq with hq | hq
      · have := (List.pairwise_append.1 (by unfold Inc at hi; rw [List.map_append] at hi; exact hi)).2.2 q.1
          (List.mem_map_of_mem hq) ((a :: l).getLast (by simp)).1 (by simp)
        exact this.le
      · simp only [List.mem_singleton] at hq
        rw [hq]
    linarith

/-- No value exactly outside of the nodes. -/
theorem linInterp_eq_none {a : ℝ × ℝ} {l : List (ℝ × ℝ)} (hl : l ≠ []) (hi : Inc (a :: l)) {x : ℝ} :
    linInterp (a :: l) x = none ↔ x < a.1 ∨ ((a :: l).getLast (by simp)).1 < x := by
  constructor
  · intro h
    by_contra hc
    rw [not_or, not_lt, not_lt] at hc
    obtain ⟨y, hy⟩ := linInterp_isSome hl hc.1 hc.2
    rw [hy] at h; simp at h
  · intro h
    cases hy : linInterp (a :: l) x with
    | none => rfl
    | some y =>
      obtain ⟨h1, h2⟩ := onSegment_range hi (linInterp_onSegment hy)
      rcases h with h | h <;> linarith

theorem seg_weight {x p q : ℝ} (h1 : p ≤ x) (h2 : x ≤ q) (h : p < q) : 0 ≤ (x - p) / (q - p) ∧ (x - p) / (q - p) ≤ 1 := by
  have : 0 < q - p := by linarith
  exact ⟨div_nonneg (by linarith) this.le, by rw [div_le_one this]; linarith⟩

/-- The nodes themselves are on the interpolation. -/
theorem onSegment_node {nodes : List (ℝ × ℝ)} (hi : Inc nodes) (hl : 2 ≤ nodes.length) {p : ℝ × ℝ} (hp : p ∈ nodes) :
    OnSegment nodes p.1 p.2 := by
  obtain ⟨l, r, rfl⟩ := List.append_of_mem hp
  cases r with
  | cons q r =>
    have := hi.seg
    exact ⟨l, p, q, r, rfl, le_rfl, this.le, by simp⟩
  | nil =>
    rcases List.eq_nil_or_concat l with rfl | ⟨l', q, rfl⟩
    · simp at hl
    · have e : (l'.concat q) ++ [p] = l' ++ q :: p :: [] := by simp
      rw [e] at hi ⊢
      have hqp := hi.seg
      refine ⟨l', q, p, [], rfl, hqp.le, le_rfl, ?_⟩
      rw [div_self (by linarith)]; ring

/-- Interpolating values that are all in an interval gives a value in that interval. -/
theorem onSegment_bounds {nodes : List (ℝ × ℝ)} (hi : Inc nodes) {x y a b : ℝ} (h : OnSegment nodes x y)
    (hb : ∀ p ∈ nodes, a ≤ p.2 ∧ p.2 ≤ b) : a ≤ y ∧ y ≤ b := by
  obtain ⟨l, p, q, r, rfl, h1, h2, rfl⟩ := h
  obtain ⟨w0, w1⟩ := seg_weight h1 h2 hi.seg
  obtain ⟨pa, pb⟩ := hb p (by simp)
  obtain ⟨qa, qb⟩ := hb q (by simp)
  generalize (x - p.1) / (q.1 - p.1) = w at w0 w1
  constructor <;> nlinarith

theorem foldl_min_spec (z : ℝ) (l : List ℝ) : l.foldl min z ∈ z :: l ∧ ∀ x ∈ z :: l, l.foldl min z ≤ x := by
  induction l generalizing z with
  | nil => simp
  | cons a l ih =>
    rw [List.foldl_cons]
    obtain ⟨h1, h2⟩ := ih (min z a)
    refine ⟨?_, ?_⟩
    · rcases List.mem_cons.1 h1 with h | h
      · rw [h]
        rcases min_choice z a with h' | h' <;> rw [h'] <;> simp
      · simp [h]
    · intro x hx
      have hm := h2 (min z a) (by simp)
      rcases List.mem_cons.1 hx with rfl | hx
      · exact hm.trans (min_le_left _ _)
      · rcases List.mem_cons.1 hx with rfl | hx
        · exact hm.trans (min_le_right _ _)
        · exact h2 x (by simp [hx])

theorem foldl_max_spec (z : ℝ) (l : List ℝ) : l.foldl max z ∈ z :: l ∧ ∀ x ∈ z :: l, x ≤ l.foldl max z := by
  induction l generalizing z with
  | nil => simp
  | cons a l ih =>
    rw [List.foldl_cons]
    obtain ⟨h1, h2⟩ := ih (max z a)
    refine ⟨?_, ?_⟩
    · rcases List.mem_cons.1 h1 with h | h
      · rw [h]
        rcases max_choice z a with h' | h' <;> rw [h'] <;> simp
      · simp [h]
    · intro x hx
      have hm := h2 (max z a) (by simp)
      rcases List.mem_cons.1 hx with rfl | hx
      · exact (le_max_left _ _).trans hm
      · rcases List.mem_cons.1 hx with rfl | hx
        · exact (le_max_right _ _).trans hm
        · exact h2 x (by simp [hx])

end Verif.Props
