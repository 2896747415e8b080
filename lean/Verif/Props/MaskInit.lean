import Verif.Model.MaskInit
import Verif.Props.Mask

/-!
# C110: documented ways to build masks
-/

namespace Verif.Props.MaskInit

open Verif Verif.Model Verif.Model.MaskInit

section
variable {κ α : Type} [DecidableEq κ]

/-- Specification: the mask assigned last under a label. -/
def lastAssigned (items : List (κ × α)) (k : κ) : Option α := ((items.reverse.find? fun x => decide (x.1 = k)).map (·.2))

theorem lookup_put (d : List (κ × α)) (k : κ) (v : α) (j : κ) :
    (Names.put k v d).lookup j = if j = k then some v else d.lookup j := by
  induction d with
  | nil =>
    by_cases h : j = k
    · simp [Names.put, List.lookup, h]
    · simp [Names.put, List.lookup, h, beq_false_of_ne h]
  | cons x d ih =>
    obtain ⟨a, b⟩ := x
    unfold Names.put
    by_cases ha : a = k
    · subst ha
      simp only [if_true, List.lookup]
      by_cases hj : j = a
      · simp [hj]
      · simp [hj, beq_false_of_ne hj]
    · simp only [if_neg ha, List.lookup, ih]
      by_cases hj : j = a
      · subst hj; simp [ha]
      · simp [beq_false_of_ne hj]

theorem put_keys (d : List (κ × α)) (k : κ) (v : α) : ∀ j, j ∈ (Names.put k v d).map (·.1) ↔ j = k ∨ j ∈ d.map (·.1) := by
  intro j
  induction d with
  | nil => simp [Names.put]
  | cons x d ih =>
    obtain ⟨a, b⟩ := x
    unfold Names.put
    by_cases ha : a = k
    · subst ha; simp
    · rw [if_neg ha, List.map_cons, List.mem_cons, ih, List.map_cons, List.mem_cons]
      tauto

theorem put_nodup (d : List (κ × α)) (k : κ) (v : α) (h : (d.map (·.1)).Nodup) : ((Names.put k v d).map (·.1)).Nodup := by
  induction d with
  | nil => simp [Names.put]
  | cons x d ih =>
    obtain ⟨a, b⟩ := x
    unfold Names.put
    by_cases ha : a = k
    · subst ha; simpa using h
    · rw [if_neg ha]
      simp only [List.map_cons, List.nodup_cons] at h ⊢
      exact ⟨fun hm => (put_keys d k v a).1 hm |>.elim ha h.1, ih h.2⟩

theorem fill_nodup (items : List (κ × α)) : ((collectionFill [] items).map (·.1)).Nodup := by
  have key : ∀ (items : List (κ × α)) (d : List (κ × α)), (d.map (·.1)).Nodup → ((collectionFill d items).map (·.1)).Nodup := by
    intro items
    induction items with
    | nil => intro d h; exact h
    | cons x l ih => intro d h; exact ih _ (put_nodup d x.1 x.2 h)
  exact key items [] (by simp)

theorem fill_lookup (items : List (κ × α)) (k : κ) : (collectionFill [] items).lookup k = lastAssigned items k := by
  have key : ∀ (items : List (κ × α)) (d : List (κ × α)),
      (collectionFill d items).lookup k = (lastAssigned items k).or (d.lookup k) := by
    intro items
    induction items with
    | nil => intro d; simp [collectionFill, lastAssigned]
    | cons x l ih =>
      intro d
      have h1 : collectionFill d (x :: l) = collectionFill (Names.put x.1 x.2 d) l := rfl
      rw [h1, ih, lookup_put]
      simp only [lastAssigned, List.reverse_cons, List.find?_append]
      generalize l.reverse.find? (fun y => decide (y.1 = k)) = o
      rcases o with _ | y
      · by_cases h : k = x.1
        · simp [h]
        · simp [h, Ne.symm h]
      · simp
  simpa using key items []

end

/-- **C110.** A collection built empty, then filled label by label, gives each row the probability of the mask assigned last under
the label of the row, and 1 if there is none. -/
theorem C110_collection {κ α : Type} [DecidableEq κ] (items : List (κ × (α → ℝ))) (rows : List (κ × α)) :
    ∃ masks, collectionInit (κ := κ) (α := α → ℝ) none = .ok masks ∧
      MaskCollection.prob (collection (collectionFill masks items)) rows =
        rows.map fun r => match lastAssigned items r.1 with
          | some f => f r.2
          | none => 1 := by
  refine ⟨[], rfl, ?_⟩
  rw [prob_eq]
  refine List.map_congr_left fun r _ => ?_
  rw [← fill_lookup]
  have hn := fill_nodup items
  generalize collectionFill [] items = d at hn ⊢
  rcases hl : d.lookup r.1 with _ | f
  · refine valueOf_not_mem (fun h => ?_) 1
    obtain ⟨⟨a, b⟩, h1, h2⟩ := List.mem_map.1 h
    rw [List.lookup_eq_none_iff] at hl
    have := hl (a, b) h1
    simp only at h2
    simp [h2] at this
  · obtain ⟨l1, l2, rfl, -⟩ := List.lookup_eq_some_iff.1 hl
    exact valueOf_mem (k := r.1) (f := f) hn (by simp) r.2 1

/-- **C110 is violated** by collections: no dictionary can be given to the constructor. -/
theorem C110_collection_violated {κ α : Type} (masks : List (κ × α)) : collectionInit (some masks) = .error .typeError := rfl

/-- **C110, partial** for tabulated masks: arrays give their nodes; a file gives its own, whatever `z` and `nbar`. -/
theorem C110_tabulated_partial (z nbar : List ℝ) (anything : Option (List ℝ)) (file : List (ℝ × ℝ)) (zrange : Option Range)
    (norm : Option ℝ) :
    tabulated (some z) (some nbar) none zrange norm = TabMask.init (z.zip nbar) zrange norm ∧
    tabulated (some z) anything (some file) zrange norm = TabMask.init file zrange norm :=
  ⟨rfl, rfl⟩

/-- **C110 is violated** by tabulated masks: a file alone is refused, `z` being a required argument. -/
theorem C110_tabulated_violated (file : List (ℝ × ℝ)) (zrange : Option Range) (norm : Option ℝ) :
    tabulated none none (some file) zrange norm = .error .typeError := rfl

/-- **C110, partial** for Mangle masks: polygons read from a file give, in the ranges, their weight in the direction with RA in
[0, 360), and 0 elsewhere. -/
theorem C110_mangle_partial (p : Polygons) (nbar : Option Polygons) (rr dd : Option Range) (ra : ℝ) (dec : Option ℝ) :
    ∃ x, manglePr (mangleInit nbar (some p)) rr dd ra dec = .ok x ∧
      (uniformAngularProb 1 rr dd ra dec = 1 → x = (p (wrapAngle ra) dec).2) ∧ (uniformAngularProb 1 rr dd ra dec ≠ 1 → x = 0) :=
  ⟨_, rfl, fun h => ((C28_maps rr dd ra dec _ _ [] 0).1 h).1, fun h => ((C28_maps rr dd ra dec _ _ [] 0).2 h).1⟩

/-- **C110 is violated** by Mangle masks: given polygons, as documented, no direction has a probability. -/
theorem C110_mangle_violated (p : Polygons) (rr dd : Option Range) (ra : ℝ) (dec : Option ℝ) :
    manglePr (mangleInit (some p) none) rr dd ra dec = .error .attributeError := rfl

/-- **C110, partial** for Healpix masks: a map of a valid size is accepted with any of the arguments of angular masks; a file without any
of them. -/
theorem C110_healpix_partial (map : List ℝ) {n : ℕ} (hn : 0 < n) (hm : map.length = 12 * n ^ 2) (kwargs : List String)
    (hk : kwargs ⊆ angularKeywords) (nbar : Option (List ℝ)) :
    healpixInit (some map) none kwargs = .ok map ∧ healpixInit nbar (some map) [] = .ok map := by
  have h : ∃ n : ℕ, 0 < n ∧ map.length = 12 * n ^ 2 := ⟨n, hn, hm⟩
  constructor
  · simp [healpixInit, hk, h, bind, Except.bind]
  · simp [healpixInit, h, bind, Except.bind]

/-- **C110 is violated** by Healpix masks: a file with any range, or communicator, is refused. -/
theorem C110_healpix_violated (nbar : Option (List ℝ)) (map : List ℝ) (kwargs : List String) (hne : kwargs ≠ []) :
    healpixInit nbar (some map) kwargs = .error .typeError := by
  unfold healpixInit
  by_cases hk : kwargs ⊆ angularKeywords
  · have h2 : ¬ kwargs ⊆ readMapKeywords := by
      intro h2
      obtain ⟨k, l, rfl⟩ := List.exists_cons_of_ne_nil hne
      have a := hk (List.mem_cons_self ..)
      have b := h2 (List.mem_cons_self ..)
      simp only [angularKeywords, readMapKeywords, List.mem_cons, List.not_mem_nil, or_false] at a b
      rcases a with rfl | rfl | rfl <;> simp at b
    simp [hk, h2, bind, Except.bind]
  · simp [hk]

/-- Cases met: a label assigned twice, a map with 48 pixels. -/
example : (MaskCollection.prob (collection (collectionFill [] [("a", fun x : ℝ => x), ("b", fun _ => 1 / 3), ("a", fun _ => 1 / 2)]))
    [("a", 1), ("b", 1), ("c", 1)] = [1 / 2, 1 / 3, 1]) ∧ healpixInit (some (List.replicate 48 1)) none ["rarange"] = .ok (List.replicate 48 1) := by
  constructor
  · obtain ⟨m, h1, h2⟩ := C110_collection [("a", fun x : ℝ => x), ("b", fun _ => 1 / 3), ("a", fun _ => 1 / 2)] [("a", 1), ("b", 1), ("c", 1)]
    cases h1
    rw [h2]
    simp [lastAssigned, List.find?]
  · exact (C110_healpix_partial (List.replicate 48 1) (n := 2) (by norm_num) (by simp) ["rarange"] (by simp [angularKeywords]) none).1

end Verif.Props.MaskInit
