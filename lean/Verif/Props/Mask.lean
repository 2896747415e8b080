import Verif.Model.Mask
import Verif.Spec.Cutsky
import Verif.Props.Sky

/-!
# C26, C27, C28: selection by masks
-/

namespace Verif.Props
open Verif Verif.Model Verif.Spec

/-! ## C26 -/

theorem length_maskCall {prob u : List ℝ} (h : u.length = prob.length) : (maskCall prob u).length = prob.length := by
  simp [maskCall, h]

/-- C26: a mask keeps row `i` iff its draw is at most its probability. -/
theorem C26_select {prob u : List ℝ} {i : ℕ} {p x : ℝ} (hp : prob[i]? = some p) (hu : u[i]? = some x) :
    (maskCall prob u)[i]? = some true ↔ x ≤ p := by
  simp [maskCall, List.getElem?_zipWith, hp, hu]

/-- C26: one answer per row. -/
theorem C26_rows {prob u : List ℝ} (h : u.length = prob.length) : (maskCall prob u).length = prob.length :=
  length_maskCall h

/-- C26: rows of probability one are always kept. -/
theorem C26_one {prob u : List ℝ} (h : u.length = prob.length) (hu : ∀ x ∈ u, 0 ≤ x ∧ x < 1) {i : ℕ}
    (hp : prob[i]? = some 1) : (maskCall prob u)[i]? = some true := by
  have hi : i < u.length := by rw [h]; exact (List.getElem?_eq_some_iff.1 hp).1
  exact (C26_select hp (List.getElem?_eq_getElem hi)).2 (hu _ (List.getElem_mem hi)).2.le

/-- C26: a row is kept whenever one with smaller probability and the same draw is. -/
theorem C26_monotone {prob u prob' u' : List ℝ} {i j : ℕ} {p p' x : ℝ} (hp : prob[i]? = some p) (hu : u[i]? = some x)
    (hp' : prob'[j]? = some p') (hu' : u'[j]? = some x) (h : p ≤ p') (hk : (maskCall prob u)[i]? = some true) :
    (maskCall prob' u')[j]? = some true :=
  (C26_select hp' hu').2 (((C26_select hp hu).1 hk).trans h)

/-- C26, partial: rows of probability zero are rejected unless the draw is exactly zero. -/
theorem C26_zero_partial {prob u : List ℝ} (h : u.length = prob.length) (hu : ∀ x ∈ u, 0 < x ∧ x < 1) {i : ℕ}
    (hp : prob[i]? = some 0) : (maskCall prob u)[i]? = some false := by
  have hi : i < u.length := by rw [h]; exact (List.getElem?_eq_some_iff.1 hp).1
  have h1 : (maskCall prob u)[i]? ≠ some true := fun hk =>
    absurd ((C26_select hp (List.getElem?_eq_getElem hi)).1 hk) (not_le.2 (hu _ (List.getElem_mem hi)).1)
  have h2 : i < (maskCall prob u).length := by rw [length_maskCall h, ← h]; exact hi
  rw [List.getElem?_eq_getElem h2] at h1 ⊢
  simpa using h1

/-- C26 fails as stated: a row of probability zero is kept when the draw is zero, a possible value in [0, 1). -/
theorem C26_zero_violated : ¬ ∀ (prob u : List ℝ) (i : ℕ), u.length = prob.length → (∀ x ∈ u, 0 ≤ x ∧ x < 1) →
    prob[i]? = some 0 → (maskCall prob u)[i]? = some false := by
  intro h
  have := h [1, 0] [1 / 2, 0] 1 rfl (by intro x hx; simp at hx; rcases hx with rfl | rfl <;> norm_num) rfl
  simp [maskCall] at this

/-- Non-vacuity. -/
example : maskCall [1, 1 / 2, 1 / 2, 0] [1 / 4, 1 / 4, 3 / 4, 1 / 4] = [true, true, false, false] := by
  simp [maskCall]; norm_num

/-! ## C27 -/

theorem scatter_pick {α κ : Type} (rows : List α) (c : α → Bool) (g : α → κ) (f : α → κ) :
    scatter (rows.map g) (rows.map c) ((pick rows (rows.map c)).map f) =
      rows.map fun r => if c r then f r else g r := by
  induction rows with
  | nil => simp [scatter]
  | cons a l ih =>
    by_cases h : c a <;> simp [h, pick, scatter, List.zip_cons_cons] at ih ⊢ <;> exact ih

theorem pick_map {α β : Type} (rows : List α) (g : α → β) (c : List Bool) : pick (rows.map g) c = (pick rows c).map g := by
  induction rows generalizing c with
  | nil => simp [pick]
  | cons a l ih =>
    cases c with
    | nil => simp [pick]
    | cons b m => cases b <;> simp [pick, List.zip_cons_cons] at ih ⊢ <;> exact ih m

/-- A mask that treats its rows one by one. -/
def vectorised {α : Type} (f : α → ℝ) : List α → List ℝ := List.map f

section
variable {κ α : Type} [DecidableEq κ]

/-- Dictionary of masks that treat rows one by one. -/
def collection (fs : List (κ × (α → ℝ))) : List (κ × (List α → List ℝ)) := fs.map fun kf => (kf.1, vectorised kf.2)

/-- Last mask registered under a label. -/
def valueOf (fs : List (κ × (α → ℝ))) (r : κ × α) (start : ℝ) : ℝ :=
  fs.foldl (fun p kf => if r.1 = kf.1 then kf.2 r.2 else p) start

theorem prob_eq (fs : List (κ × (α → ℝ))) (rows : List (κ × α)) :
    MaskCollection.prob (collection fs) rows = rows.map fun r => valueOf fs r 1 := by
  have key : ∀ (fs : List (κ × (α → ℝ))) (s : κ × α → ℝ),
      (collection fs).foldl (fun prob km =>
        let mask := rows.map fun r => decide (r.1 = km.1)
        if mask.any id then scatter prob mask (km.2 (pick (rows.map (·.2)) mask)) else prob) (rows.map s) =
      rows.map fun r => valueOf fs r (s r) := by
    intro fs
    induction fs with
    | nil => intro s; simp [collection, valueOf]
    | cons kf fs ih =>
      intro s
      have hstep : (if (rows.map fun r => decide (r.1 = kf.1)).any id then
          scatter (rows.map s) (rows.map fun r => decide (r.1 = kf.1))
            (vectorised kf.2 (pick (rows.map (·.2)) (rows.map fun r => decide (r.1 = kf.1)))) else rows.map s) =
          rows.map fun r => if r.1 = kf.1 then kf.2 r.2 else s r := by
        split
        · rw [pick_map, vectorised, List.map_map, scatter_pick]
          simp
        · rename_i h
          simp only [List.any_map, List.any_eq_true, Function.comp, id, decide_eq_true_eq, not_exists, not_and] at h
          apply List.map_congr_left
          intro r hr
          rw [if_neg (h r hr)]
      simp only [collection, List.map_cons, List.foldl_cons] at ih ⊢
      rw [hstep, ih]
      simp [valueOf]
  exact key fs fun _ => 1

theorem valueOf_not_mem {fs : List (κ × (α → ℝ))} {r : κ × α} (h : r.1 ∉ fs.map (·.1)) (s : ℝ) : valueOf fs r s = s := by
  induction fs generalizing s with
  | nil => rfl
  | cons kf fs ih =>
    simp only [List.map_cons, List.mem_cons, not_or] at h
    simp only [valueOf, List.foldl_cons, if_neg h.1] at ih ⊢
    exact ih h.2 s

theorem valueOf_mem {fs : List (κ × (α → ℝ))} (hd : (fs.map (·.1)).Nodup) {k : κ} {f : α → ℝ} (hf : (k, f) ∈ fs)
    (x : α) (s : ℝ) : valueOf fs (k, x) s = f x := by
  induction fs generalizing s with
  | nil => simp at hf
  | cons kf fs ih =>
    simp only [List.map_cons, List.nodup_cons] at hd
    simp only [valueOf, List.foldl_cons] at ih ⊢
    rcases List.mem_cons.1 hf with rfl | hf
    · simp only [if_true]
      exact valueOf_not_mem (r := (k, x)) hd.1 _
    · exact ih hd.2 hf _

/-- C27: each row gets the probability of the mask registered under its label, evaluated on that row. -/
theorem C27_registered {fs : List (κ × (α → ℝ))} (hd : (fs.map (·.1)).Nodup) (rows : List (κ × α)) {i : ℕ} {k : κ} {x : α}
    {f : α → ℝ} (hi : rows[i]? = some (k, x)) (hf : (k, f) ∈ fs) :
    (MaskCollection.prob (collection fs) rows)[i]? = some (f x) := by
  rw [prob_eq, List.getElem?_map, hi, Option.map_some, valueOf_mem hd hf]

/-- C27: one probability per row. -/
theorem C27_rows (fs : List (κ × (α → ℝ))) (rows : List (κ × α)) :
    (MaskCollection.prob (collection fs) rows).length = rows.length := by rw [prob_eq, List.length_map]

/-- C27: the order in which the masks are registered does not matter. -/
theorem C27_mask_order {fs fs' : List (κ × (α → ℝ))} (hd : (fs.map (·.1)).Nodup) (hp : fs.Perm fs') (rows : List (κ × α)) :
    MaskCollection.prob (collection fs) rows = MaskCollection.prob (collection fs') rows := by
  rw [prob_eq, prob_eq]
  apply List.map_congr_left
  intro r _
  have hd' : (fs'.map (·.1)).Nodup := (hp.map _).nodup_iff.1 hd
  by_cases h : r.1 ∈ fs.map (·.1)
  · obtain ⟨⟨k, f⟩, hf, hk⟩ := List.mem_map.1 h
    obtain ⟨k', x⟩ := r
    simp only at hk
    subst hk
    rw [valueOf_mem hd hf, valueOf_mem hd' (hp.mem_iff.1 hf)]
  · rw [valueOf_not_mem h, valueOf_not_mem (fun h' => h ((hp.map _).mem_iff.2 h'))]

/-- C27: the other rows do not matter: the probabilities of the rows in another order, or of some of them only, are the
same ones. -/
theorem C27_row_order (fs : List (κ × (α → ℝ))) :
    ∃ value : κ × α → ℝ, ∀ rows, MaskCollection.prob (collection fs) rows = rows.map value :=
  ⟨fun r => valueOf fs r 1, fun rows => prob_eq fs rows⟩

/-- C27, partial: what happens to rows whose label is not registered: they get probability one. -/
theorem C27_unregistered_partial (fs : List (κ × (α → ℝ))) (rows : List (κ × α)) {i : ℕ} {r : κ × α}
    (hi : rows[i]? = some r) (hr : r.1 ∉ fs.map (·.1)) : (MaskCollection.prob (collection fs) rows)[i]? = some 1 := by
  rw [prob_eq, List.getElem?_map, hi, Option.map_some, valueOf_not_mem hr]

/-- C27 fails as stated: rows whose label is not registered are kept, whatever the draws. -/
theorem C27_unregistered_violated (fs : List (κ × (α → ℝ))) (rows : List (κ × α)) {i : ℕ} {r : κ × α}
    (hi : rows[i]? = some r) (hr : r.1 ∉ fs.map (·.1)) (u : List ℝ) (hl : u.length = rows.length)
    (hu : ∀ x ∈ u, 0 ≤ x ∧ x < 1) : (maskCall (MaskCollection.prob (collection fs) rows) u)[i]? = some true :=
  C26_one (by rw [C27_rows, hl]) hu (C27_unregistered_partial fs rows hi hr)

end

/-- Non-vacuity: two registered labels out of three. -/
example : MaskCollection.prob (collection [("a", fun x : ℝ => x), ("b", fun _ => 1 / 3)])
    [("b", 1), ("a", 1 / 2), ("c", 0), ("a", 1 / 4)] = [1 / 3, 1 / 2, 1, 1 / 4] := by
  rw [prob_eq]; simp [valueOf]

/-! ## C28 -/

theorem clip01_range (x : ℝ) : 0 ≤ clip01 x ∧ clip01 x ≤ 1 :=
  ⟨le_min (le_max_right _ _) zero_le_one, min_le_right _ _⟩

theorem clip01_eq {x : ℝ} (h0 : 0 ≤ x) (h1 : x ≤ 1) : clip01 x = x := by simp [clip01, h0, h1]

/-- C28: the clipped density: itself between 0 and 1, else the nearest of the two. -/
theorem C28_clip (x : ℝ) : clip01 x = if x < 0 then 0 else if 1 < x then 1 else x := by
  unfold clip01
  split
  · rename_i h; rw [max_eq_right h.le, min_eq_left zero_le_one]
  · rename_i h
    rw [max_eq_left (not_lt.1 h)]
    split
    · rename_i h1; rw [min_eq_right h1.le]
    · rename_i h1; rw [min_eq_left (not_lt.1 h1)]

/-- C28: the uniform radial mask, inside and outside of its closed range. -/
theorem C28_radial (nbar : ℝ) (r : Range) (z : ℝ) :
    (InRange r z → uniformRadialProb nbar (some r) z = clip01 nbar) ∧
    (¬ InRange r z → uniformRadialProb nbar (some r) z = 0) := by
  unfold uniformRadialProb InRange
  constructor
  · rintro ⟨h1, h2⟩; simp [h1, h2]
  · intro h
    have : (decide (r.1 ≤ z) && decide (z ≤ r.2)) = false := by
      rw [Bool.eq_false_iff]; simpa using h
    simp [this]

/-- C28: without range, all non-negative redshifts. -/
theorem C28_radial_default (nbar z : ℝ) :
    uniformRadialProb nbar none z = if 0 ≤ z then clip01 nbar else 0 := by
  simp [uniformRadialProb]

theorem wrap_deg (a : ℝ) : 0 ≤ wrapAngle a ∧ wrapAngle a < 360 ∧ ∃ k : ℤ, wrapAngle a = a + k * 360 := by
  simpa [turn] using C23_wrap a true

/-- RA arcs for angles already in [0, 360). -/
theorem inRa_wrapped {a b x : ℝ} (ha : 0 ≤ a ∧ a < 360) (hb : 0 ≤ b ∧ b < 360) (hx : 0 ≤ x ∧ x < 360) :
    InRa (a, b) x ↔ if a ≤ b then a ≤ x ∧ x ≤ b else a ≤ x ∨ x ≤ b := by
  unfold InRa raWidth
  simp only
  split
  · rename_i h
    constructor
    · rintro ⟨k, h1, h2⟩
      have hk1 : k < 1 := by
        by_contra hk
        have : (1 : ℝ) ≤ k := by exact_mod_cast not_lt.1 hk
        linarith
      have hk2 : -1 < k := by
        by_contra hk
        have : (k : ℝ) ≤ -1 := by exact_mod_cast not_lt.1 hk
        linarith
      have : k = 0 := by omega
      subst this
      simp at h1 h2
      exact ⟨h1, h2⟩
    · rintro ⟨h1, h2⟩
      exact ⟨0, by simpa using h1, by simpa using h2⟩
  · rename_i h
    rw [not_le] at h
    constructor
    · rintro ⟨k, h1, h2⟩
      by_contra hc
      rw [not_or, not_le, not_le] at hc
      have hk1 : k < 1 := by
        by_contra hk
        have : (1 : ℝ) ≤ k := by exact_mod_cast not_lt.1 hk
        linarith
      have hk2 : 0 < k := by
        by_contra hk
        have : (k : ℝ) ≤ 0 := by exact_mod_cast not_lt.1 hk
        linarith
      omega
    · rintro (h1 | h1)
      · exact ⟨0, by simp; exact h1, by simp; linarith⟩
      · exact ⟨1, by simp; linarith, by simp; linarith⟩

/-- RA arcs do not change by full turns, of the range or of the RA, as long as the width is the same. -/
theorem inRa_congr {r s : ℝ × ℝ} {x y : ℝ} (hw : raWidth r = raWidth s) {k l : ℤ} (h1 : s.1 = r.1 + k * 360)
    (hx : y = x + l * 360) : InRa r x ↔ InRa s y := by
  unfold InRa
  rw [← hw, h1, hx]
  constructor
  · rintro ⟨m, a, b⟩
    exact ⟨m + k - l, by push_cast; linarith, by push_cast; linarith⟩
  · rintro ⟨m, a, b⟩
    exact ⟨m - k + l, by push_cast; linarith, by push_cast; linarith⟩

/-- Widths of less than a turn do not change when the bounds are wrapped, unless an increasing range becomes decreasing;
there the two ways of writing the range also have the same width. -/
theorem raWidth_wrap {r : ℝ × ℝ} (h1 : -360 < r.2 - r.1) (h2 : r.2 - r.1 < 360) :
    raWidth (wrapAngle r.1, wrapAngle r.2) = raWidth r := by
  obtain ⟨a0, a1, k, hk⟩ := wrap_deg r.1
  obtain ⟨b0, b1, l, hl⟩ := wrap_deg r.2
  unfold raWidth
  simp only
  have hkl : wrapAngle r.2 - wrapAngle r.1 = r.2 - r.1 + (l - k : ℤ) * 360 := by rw [hk, hl]; push_cast; ring
  generalize l - k = m at hkl
  have m1 : -2 < m := by
    by_contra hc
    have : (m : ℝ) ≤ -2 := by exact_mod_cast not_lt.1 hc
    linarith
  have m2 : m < 2 := by
    by_contra hc
    have : (2 : ℝ) ≤ m := by exact_mod_cast not_lt.1 hc
    linarith
  have hm : m = -1 ∨ m = 0 ∨ m = 1 := by omega
  rcases hm with rfl | rfl | rfl <;> push_cast at hkl <;> split <;> split <;> linarith

/-- The range can be read as an arc of less than a full turn, and does not go through RA = 0 with its first bound smaller
than the second, as in (-60, 40). -/
def PlainRange (r : Range) : Prop :=
  -360 < r.2 - r.1 ∧ r.2 - r.1 < 360 ∧ ¬ (r.1 < r.2 ∧ wrapAngle r.2 < wrapAngle r.1)

theorem angularRarange_plain {r : Range} (h : PlainRange r) : angularRarange (some r) = (wrapAngle r.1, wrapAngle r.2) := by
  obtain ⟨h1, h2, h3⟩ := h
  unfold angularRarange
  simp only
  rw [if_neg]
  intro hc
  simp only [Bool.and_eq_true, decide_eq_true_eq] at hc
  obtain ⟨c1, c2⟩ := hc
  apply h3
  refine ⟨c1, lt_of_le_of_ne c2 fun he => ?_⟩
  obtain ⟨_, _, k, hk⟩ := wrap_deg r.1
  obtain ⟨_, _, l, hl⟩ := wrap_deg r.2
  have hkl : r.2 - r.1 = (k - l : ℤ) * 360 := by push_cast; linarith
  generalize k - l = m at hkl
  have m1 : 0 < m := by
    by_contra hc
    have : (m : ℝ) ≤ 0 := by exact_mod_cast not_lt.1 hc
    linarith
  have : (1 : ℝ) ≤ m := by exact_mod_cast m1
  linarith

/-- C28, partial: the uniform angular mask is confined to the requested arc of RA and to the closed range of Dec, and
uniform there, for ranges that do not go through RA = 0 with increasing bounds. -/
theorem C28_angular_partial (nbar : ℝ) {r : Range} (d : Range) (h : PlainRange r) (ra dec : ℝ) :
    (InRa r ra ∧ InRange d dec → uniformAngularProb nbar (some r) (some d) ra (some dec) = clip01 nbar) ∧
    (¬ (InRa r ra ∧ InRange d dec) → uniformAngularProb nbar (some r) (some d) ra (some dec) = 0) := by
  obtain ⟨a0, a1, k, hk⟩ := wrap_deg r.1
  obtain ⟨b0, b1, -⟩ := wrap_deg r.2
  obtain ⟨x0, x1, l, hl⟩ := wrap_deg ra
  have key : InRa r ra ↔ if wrapAngle r.1 ≤ wrapAngle r.2 then wrapAngle r.1 ≤ wrapAngle ra ∧ wrapAngle ra ≤ wrapAngle r.2
      else wrapAngle r.1 ≤ wrapAngle ra ∨ wrapAngle ra ≤ wrapAngle r.2 := by
    rw [← inRa_wrapped ⟨a0, a1⟩ ⟨b0, b1⟩ ⟨x0, x1⟩]
    exact inRa_congr (s := (wrapAngle r.1, wrapAngle r.2)) (raWidth_wrap h.1 h.2.1).symm hk hl
  have hm : maskRanges (wrapAngle r.1, wrapAngle r.2) d (wrapAngle ra) (some dec) = true ↔ InRa r ra ∧ InRange d dec := by
    rw [key]
    unfold maskRanges InRange
    simp only
    split <;> simp
  unfold uniformAngularProb
  rw [angularRarange_plain h]
  rw [show angularDecrange (some d) = d from rfl]
  constructor
  · intro hc; rw [if_pos (hm.2 hc)]
  · intro hc; rw [if_neg (fun h' => hc (hm.1 h'))]

open Classical in
/-- C28: what happens for the ranges left out: of an arc from `lo` to `hi > lo` that goes through RA = 0, only the part
before RA = 0 is selected. -/
theorem C28_crossing_partial (nbar : ℝ) {r : Range} (d : Range) (h1 : r.1 < r.2) (h2 : wrapAngle r.2 ≤ wrapAngle r.1)
    (ra dec : ℝ) : uniformAngularProb nbar (some r) (some d) ra (some dec) =
      if wrapAngle r.1 ≤ wrapAngle ra ∧ InRange d dec then clip01 nbar else 0 := by
  obtain ⟨a0, a1, -⟩ := wrap_deg r.1
  obtain ⟨b0, b1, -⟩ := wrap_deg r.2
  obtain ⟨x0, x1, -⟩ := wrap_deg ra
  have hr : angularRarange (some r) = (wrapAngle r.1, wrapAngle r.2 + 360) := by
    unfold angularRarange
    simp [h1, h2]
  unfold uniformAngularProb
  rw [hr]
  rw [show angularDecrange (some d) = d from rfl]
  have hm : maskRanges (wrapAngle r.1, wrapAngle r.2 + 360) d (wrapAngle ra) (some dec) = true ↔
      wrapAngle r.1 ≤ wrapAngle ra ∧ InRange d dec := by
    unfold maskRanges InRange
    simp only
    rw [if_pos (by linarith)]
    have : wrapAngle ra ≤ wrapAngle r.2 + 360 := by linarith
    simp [this]
  by_cases hc : wrapAngle r.1 ≤ wrapAngle ra ∧ InRange d dec
  · rw [if_pos (hm.2 hc), if_pos hc]
  · rw [if_neg (fun h' => hc (hm.1 h')), if_neg hc]

open Classical in
/-- C28: the full circle (0, 360) and the default ranges select every RA. -/
theorem C28_full (nbar : ℝ) (d : Range) (ra dec : ℝ) :
    (uniformAngularProb nbar (some (0, 360)) (some d) ra (some dec) = if InRange d dec then clip01 nbar else 0) ∧
    uniformAngularProb nbar none none ra (some dec) = if InRange (-90, 90) dec then clip01 nbar else 0 := by
  have w0 : wrapAngle 0 = 0 := C23_wrap_unique true le_rfl (by norm_num [turn]) 0 (by simp)
  have w1 : wrapAngle 360 = 0 := C23_wrap_unique true le_rfl (by norm_num [turn]) (-1) (by simp [turn])
  obtain ⟨x0, x1, -⟩ := wrap_deg ra
  constructor
  · rw [C28_crossing_partial nbar d (by norm_num) (by simp [w0, w1])]
    simp [w0, x0]
  · unfold uniformAngularProb angularRarange angularDecrange maskRanges InRange
    simp [x0, x1.le]

/-- C28: no direction without declination (the origin) is selected. -/
theorem C28_no_declination (nbar : ℝ) (r d : Option Range) (ra : ℝ) : uniformAngularProb nbar r d ra none = 0 := by
  simp [uniformAngularProb, maskRanges]

/-- C28 fails for increasing ranges that go through RA = 0: the mask of (-60, 40) leaves RA = 20 out. -/
theorem C28_crossing_violated : ∃ (r d : Range) (ra dec : ℝ), r.1 < r.2 ∧ r.2 - r.1 < 360 ∧ InRa r ra ∧ InRange d dec ∧
    uniformAngularProb 1 (some r) (some d) ra (some dec) = 0 := by
  have w0 : wrapAngle (-60) = 300 := C23_wrap_unique true (by norm_num) (by norm_num [turn]) 1 (by norm_num [turn])
  have w1 : wrapAngle 40 = 40 := C23_wrap_unique true (by norm_num) (by norm_num [turn]) 0 (by simp)
  have w2 : wrapAngle 20 = 20 := C23_wrap_unique true (by norm_num) (by norm_num [turn]) 0 (by simp)
  refine ⟨(-60, 40), (-10, 10), 20, 0, by norm_num, by norm_num, ⟨0, by norm_num, by norm_num [raWidth]⟩,
    ⟨by norm_num, by norm_num⟩, ?_⟩
  rw [C28_crossing_partial 1 _ (by norm_num) (by simp only [w0, w1]; norm_num), if_neg]
  rintro ⟨h, -⟩
  simp only [w0, w2] at h
  norm_num at h

/-- C28 fails for ranges of a full turn that do not start at 0: (-180, 180) leaves RA = 0 out. -/
theorem C28_turn_violated : ∃ (r d : Range) (ra dec : ℝ), r.2 - r.1 = 360 ∧ InRa r ra ∧ InRange d dec ∧
    uniformAngularProb 1 (some r) (some d) ra (some dec) = 0 := by
  have w0 : wrapAngle (-180) = 180 := C23_wrap_unique true (by norm_num) (by norm_num [turn]) 1 (by norm_num [turn])
  have w1 : wrapAngle 180 = 180 := C23_wrap_unique true (by norm_num) (by norm_num [turn]) 0 (by simp)
  have w2 : wrapAngle 0 = 0 := C23_wrap_unique true le_rfl (by norm_num [turn]) 0 (by simp)
  refine ⟨(-180, 180), (-10, 10), 0, 0, by norm_num, ⟨0, by norm_num, by norm_num [raWidth]⟩, ⟨by norm_num, by norm_num⟩, ?_⟩
  rw [C28_crossing_partial 1 _ (by norm_num) (by simp only [w0, w1]; norm_num), if_neg]
  rintro ⟨h, -⟩
  simp only [w0, w2] at h
  norm_num at h

/-- C28: the masks made of polygons or pixels are confined to the same ranges, and have there the weight of the polygon,
the value of the pixel. -/
theorem C28_maps (rr dd : Option Range) (ra : ℝ) (dec : Option ℝ) (id : ℤ) (w : ℝ) (nbar : List ℝ) (pix : ℕ) :
    (uniformAngularProb 1 rr dd ra dec = 1 → mangleProb rr dd ra dec id w = w ∧
      healpixProb nbar rr dd ra dec pix = nbar.getD pix 0) ∧
    (uniformAngularProb 1 rr dd ra dec ≠ 1 → mangleProb rr dd ra dec id w = 0 ∧ healpixProb nbar rr dd ra dec pix = 0) := by
  have h1 : clip01 1 = 1 := clip01_eq zero_le_one le_rfl
  unfold uniformAngularProb mangleProb healpixProb
  constructor
  · intro h
    split at h
    · rename_i hm; simp [hm]
    · norm_num at h
  · intro h
    split at h
    · exact absurd h1 h
    · rename_i hm; simp [hm]

/-- Non-vacuity: a plain range through RA = 0 (decreasing bounds) and one that is not plain. -/
example : PlainRange (300, 40) ∧ PlainRange (100, 200) ∧ ¬ PlainRange (-60, 40) := by
  have w0 : wrapAngle (-60) = 300 := C23_wrap_unique true (by norm_num) (by norm_num [turn]) 1 (by norm_num [turn])
  have w1 : wrapAngle 40 = 40 := C23_wrap_unique true (by norm_num) (by norm_num [turn]) 0 (by simp)
  have w2 : wrapAngle 100 = 100 := C23_wrap_unique true (by norm_num) (by norm_num [turn]) 0 (by simp)
  have w3 : wrapAngle 200 = 200 := C23_wrap_unique true (by norm_num) (by norm_num [turn]) 0 (by simp)
  refine ⟨⟨by norm_num, by norm_num, by norm_num⟩, ⟨by norm_num, by norm_num, ?_⟩, fun h => h.2.2 ⟨by norm_num, ?_⟩⟩
  · simp only [w2, w3]; norm_num
  · simp only [w0, w1]; norm_num

end Verif.Props
