import Verif.Props.Mask
import Mathlib.Data.List.Perm.Lattice
import Mathlib.Data.List.Flatten

/-!
# C30, C31: sampling from masks, over MPI ranks
-/

namespace Verif.Props
open Verif Verif.Model Verif.Spec

variable {α : Type} (cand : ℕ → ℕ → α) (acc : ℕ → ℕ → Bool)

/-- Consecutive slices of the given lengths make up the beginning of the list. -/
theorem flatMap_slices {β : Type} (sizes : List ℕ) (l : List β) :
    (List.range sizes.length).flatMap (fun r => (l.drop (sizes.take r).sum).take (sizes.getD r 0)) = l.take sizes.sum := by
  induction sizes generalizing l with
  | nil => simp
  | cons a s ih =>
    rw [List.length_cons, List.range_succ_eq_map, List.flatMap_cons, List.flatMap_map]
    simp only [List.take_zero, List.sum_nil, List.drop_zero, List.getD_cons_zero, List.take_succ_cons, List.sum_cons,
      List.getD_cons_succ, Nat.succ_eq_add_one]
    have := ih (l.drop a)
    simp only [List.drop_drop] at this
    rw [this, List.take_add]

/-- The slices of global indices of the ranks, put together, are all the indices. -/
theorem flatMap_indices (sizes : List ℕ) :
    (List.range sizes.length).flatMap (fun r => (List.range (sizes.getD r 0)).map fun i => (sizes.take r).sum + i) =
      List.range sizes.sum := by
  have h := flatMap_slices sizes (List.range sizes.sum)
  rw [List.take_of_length_le (by simp)] at h
  rw [← h]
  apply List.flatMap_congr
  intro r hr
  rw [List.mem_range] at hr
  have hs : (sizes.take r).sum + sizes.getD r 0 ≤ sizes.sum := by
    have h1 : sizes.getD r 0 = sizes[r] := by simp [hr]
    have h2 : (sizes.take (r + 1)).sum = (sizes.take r).sum + sizes[r] := List.sum_take_succ sizes r hr
    have h3 : (sizes.take (r + 1)).sum ≤ sizes.sum := by
      conv_rhs => rw [← List.take_append_drop (r + 1) sizes, List.sum_append]
      exact Nat.le_add_right _ _
    omega
  apply List.ext_getElem
  · simp only [List.length_map, List.length_range, List.length_take, List.length_drop]; omega
  · intro i h1 h2
    simp

/-- What all ranks accept in one round: the accepted candidates, in order. -/
theorem flatMap_accepted (sizes : List ℕ) (t : ℕ) :
    (List.range sizes.length).flatMap (fun r => accepted cand acc sizes t r) =
      ((List.range sizes.sum).filter fun i => acc t i).map fun i => cand t i := by
  rw [← flatMap_indices sizes, List.filter_flatMap, List.map_flatMap]
  rfl

/-- Everything held by all ranks after `n` rounds. -/
def pool (sizes : List ℕ) (n : ℕ) : List α := (List.range sizes.length).flatMap fun r => held cand acc sizes n r

theorem length_pool (sizes : List ℕ) (n : ℕ) : (pool cand acc sizes n).length = heldTotal cand acc sizes n := by
  simp [pool, heldTotal, List.length_flatMap]

/-- Up to order, what is held does not depend on the ranks: it is all the candidates accepted so far. -/
theorem pool_perm (sizes : List ℕ) (n : ℕ) : (pool cand acc sizes n).Perm
    ((List.range n).flatMap fun t => ((List.range sizes.sum).filter fun i => acc t i).map fun i => cand t i) := by
  induction n with
  | zero => simp [pool, held]
  | succ n ih =>
    rw [List.range_succ, List.flatMap_append]
    have h : ∀ r, held cand acc sizes (n + 1) r = held cand acc sizes n r ++ accepted cand acc sizes n r := fun r => by
      simp [held, List.range_succ, List.flatMap_append]
    have hp : pool cand acc sizes (n + 1) =
        (List.range sizes.length).flatMap fun r => held cand acc sizes n r ++ accepted cand acc sizes n r := by
      simp only [pool, h]
    rw [hp]
    refine (List.flatMap_append_perm _ _ _).symm.trans (List.Perm.append ih ?_)
    rw [flatMap_accepted]
    simp

/-! ## C30 -/

/-- C30: `sample` returns exactly the requested number of points on each rank, when some point is requested. -/
theorem C30_size_partial (sizes : List ℕ) (n : ℕ) (hs : 0 < sizes.sum) (h : StopsAfter cand acc sizes n) :
    ∃ out, sampleResult cand acc sizes n = .ok out ∧ out.map List.length = sizes := by
  have hn : n ≠ 0 := by
    rintro rfl
    have := h.1
    simp [heldTotal, held] at this
    omega
  refine ⟨_, if_neg hn, ?_⟩
  have hl : sizes.sum ≤ (pool cand acc sizes n).length := by rw [length_pool]; exact h.1
  rw [List.map_map]
  apply List.ext_getElem
  · simp
  · intro r h1 h2
    have hr : r < sizes.length := h2
    have hs : (sizes.take r).sum + sizes[r] ≤ sizes.sum := by
      have h2 : (sizes.take (r + 1)).sum = (sizes.take r).sum + sizes[r] := List.sum_take_succ sizes r hr
      have h3 : (sizes.take (r + 1)).sum ≤ sizes.sum := by
        conv_rhs => rw [← List.take_append_drop (r + 1) sizes, List.sum_append]
        exact Nat.le_add_right _ _
      omega
    have hl' : sizes.sum ≤ ((List.range sizes.length).flatMap fun r => held cand acc sizes n r).length := hl
    simp only [List.getElem_map, List.getElem_range, Function.comp, List.length_take, List.length_drop]
    have : sizes.getD r 0 = sizes[r] := by simp [hr]
    omega

theorem sampleResult_flatten {sizes : List ℕ} {n : ℕ} {out : List (List α)}
    (h : sampleResult cand acc sizes n = .ok out) : out.flatten = (pool cand acc sizes n).take sizes.sum := by
  unfold sampleResult at h
  split at h
  · simp at h
  · simp only [Except.ok.injEq] at h
    rw [← h, ← flatMap_slices, List.flatMap_def]
    rfl

/-- C30: every point returned is a candidate that the mask accepted, in one of the rounds that took place. -/
theorem C30_accepted {sizes : List ℕ} {n : ℕ} {out : List (List α)} (h : sampleResult cand acc sizes n = .ok out) :
    ∀ o ∈ out, ∀ x ∈ o, ∃ t < n, ∃ i < sizes.sum, acc t i = true ∧ x = cand t i := by
  intro o ho x hx
  have h1 : x ∈ out.flatten := List.mem_flatten.2 ⟨o, ho, hx⟩
  rw [sampleResult_flatten cand acc h] at h1
  have h2 := (pool_perm cand acc sizes n).mem_iff.1 (List.mem_of_mem_take h1)
  simp only [List.mem_flatMap, List.mem_range, List.mem_map, List.mem_filter] at h2
  obtain ⟨t, ht, i, ⟨hi, ha⟩, rfl⟩ := h2
  exact ⟨t, ht, i, hi, ha, rfl⟩

/-- C30: points are returned in the sequence they were drawn: with one rank, the accepted candidates, round after round,
up to the requested size. -/
theorem C30_sequence {N n : ℕ} {out : List (List α)} (h : sampleResult cand acc [N] n = .ok out) :
    out = [((List.range n).flatMap fun t => ((List.range N).filter fun i => acc t i).map fun i => cand t i).take N] := by
  unfold sampleResult at h
  split at h
  · simp at h
  · simp only [Except.ok.injEq] at h
    rw [← h]
    simp [held, accepted]

/-- C30: with any number of ranks, the ranks return consecutive parts of what rank 0, then rank 1, ... accepted. -/
theorem C30_ranks {sizes : List ℕ} {n : ℕ} {out : List (List α)} (h : sampleResult cand acc sizes n = .ok out) :
    out.flatten = ((List.range sizes.length).flatMap fun r => held cand acc sizes n r).take sizes.sum :=
  sampleResult_flatten cand acc h

/-- C30: no candidate is returned more often than it was drawn. -/
theorem C30_subperm {sizes : List ℕ} {n : ℕ} {out : List (List α)} (h : sampleResult cand acc sizes n = .ok out) :
    List.Subperm out.flatten
      ((List.range n).flatMap fun t => ((List.range sizes.sum).filter fun i => acc t i).map fun i => cand t i) := by
  rw [sampleResult_flatten cand acc h]
  exact (List.take_sublist _ _).subperm.trans (pool_perm cand acc sizes n).subperm

theorem heldTotal_eq (sizes : List ℕ) (n : ℕ) : heldTotal cand acc sizes n =
    ((List.range n).map fun t => ((List.range sizes.sum).filter fun i => acc t i).length).sum := by
  rw [← length_pool, (pool_perm cand acc sizes n).length_eq]
  simp [List.length_flatMap]

/-- C30: the loop ends, after a number of rounds that is determined, as soon as enough candidates are accepted in some number
of rounds. -/
theorem C30_stops_iff (sizes : List ℕ) : (∃ n, StopsAfter cand acc sizes n) ↔
    ∃ n, sizes.sum ≤ ((List.range n).map fun t => ((List.range sizes.sum).filter fun i => acc t i).length).sum := by
  simp only [← heldTotal_eq cand acc sizes]
  constructor
  · rintro ⟨n, h, -⟩; exact ⟨n, h⟩
  · intro h
    classical
    exact ⟨Nat.find h, Nat.find_spec h, fun m hm => not_le.1 (Nat.find_min h hm)⟩

/-- C30: in particular if each round accepts at least one candidate. -/
theorem C30_stops (sizes : List ℕ) (h : ∀ t, ∃ i < sizes.sum, acc t i = true) : ∃ n, StopsAfter cand acc sizes n := by
  rw [C30_stops_iff]
  refine ⟨sizes.sum, ?_⟩
  have : ∀ n, n ≤ ((List.range n).map fun t => ((List.range sizes.sum).filter fun i => acc t i).length).sum := by
    intro n
    induction n with
    | zero => simp
    | succ n ih =>
      rw [List.range_succ, List.map_append, List.sum_append]
      obtain ⟨i, hi, ha⟩ := h n
      have : 0 < ((List.range sizes.sum).filter fun i => acc n i).length :=
        List.length_pos_of_mem (List.mem_filter.2 ⟨List.mem_range.2 hi, ha⟩)
      simp only [List.map_cons, List.map_nil, List.sum_cons, List.sum_nil]
      omega
  exact this _

/-- C30: the number of rounds is unique. -/
theorem C30_stops_unique {sizes : List ℕ} {n m : ℕ} (h : StopsAfter cand acc sizes n) (h' : StopsAfter cand acc sizes m) :
    n = m := by
  rcases lt_trichotomy n m with hl | rfl | hl
  · exact absurd (h'.2 n hl) (not_lt.2 h.1)
  · rfl
  · exact absurd (h.2 m hl) (not_lt.2 h'.1)

/-- C30 fails if no point is requested: instead of no point, `sample` raises an exception. -/
theorem C30_empty_violated (sizes : List ℕ) (h : sizes.sum = 0) :
    StopsAfter cand acc sizes 0 ∧ sampleResult cand acc sizes 0 = .error .valueError :=
  ⟨⟨by omega, fun m hm => absurd hm (Nat.not_lt_zero m)⟩, rfl⟩

/-- Non-vacuity: two ranks, half the candidates accepted, two rounds. -/
example : StopsAfter (fun t i => (t, i)) (fun _ i => i % 2 == 0) [1, 3] 2 ∧
    sampleResult (fun t i => (t, i)) (fun _ i => i % 2 == 0) [1, 3] 2 = .ok [[(0, 0)], [(1, 0), (0, 2), (1, 2)]] := by
  refine ⟨⟨by decide, by decide⟩, rfl⟩

/-! ## C31 -/

/-- C31: the number of rounds does not depend on the ranks. -/
theorem C31_rounds {sizes sizes' : List ℕ} (h : sizes.sum = sizes'.sum) (n : ℕ) :
    StopsAfter cand acc sizes n ↔ StopsAfter cand acc sizes' n := by
  simp only [StopsAfter, heldTotal_eq, h]

/-- C31, partial: if the mask accepts all candidates, one round is enough and the points returned, in order, do not depend on
the ranks nor on anything else than the seeded stream. -/
theorem C31_all_accepted_partial {sizes : List ℕ} (hs : 0 < sizes.sum) (h : ∀ i < sizes.sum, acc 0 i = true) :
    StopsAfter cand acc sizes 1 ∧
      ∃ out, sampleResult cand acc sizes 1 = .ok out ∧ out.flatten = (List.range sizes.sum).map (cand 0) := by
  have hf : ((List.range sizes.sum).filter fun i => acc 0 i) = List.range sizes.sum :=
    List.filter_eq_self.2 fun i hi => h i (List.mem_range.1 hi)
  have hstop : StopsAfter cand acc sizes 1 := by
    refine ⟨?_, fun m hm => ?_⟩
    · rw [heldTotal_eq]
      simp [List.range_succ, hf]
    · have : m = 0 := by omega
      subst this
      rw [heldTotal_eq]
      simpa using hs
  obtain ⟨out, ho, -⟩ := C30_size_partial cand acc sizes 1 hs hstop
  refine ⟨hstop, out, ho, ?_⟩
  rw [sampleResult_flatten cand acc ho]
  have : pool cand acc sizes 1 = (List.range sizes.sum).map (cand 0) := by
    have h1 : ∀ r, held cand acc sizes 1 r = accepted cand acc sizes 0 r := fun r => by simp [held, List.range_succ]
    simp only [pool, h1, flatMap_accepted, hf]
  rw [this, List.take_of_length_le (by simp)]

/-- C31, partial: whatever the ranks, if the rounds accept exactly the number requested, the points returned are the same up
to their order. -/
theorem C31_exact_partial {sizes sizes' : List ℕ} (hs : sizes.sum = sizes'.sum) {n : ℕ} {out out' : List (List α)}
    (h : sampleResult cand acc sizes n = .ok out) (h' : sampleResult cand acc sizes' n = .ok out')
    (he : heldTotal cand acc sizes n = sizes.sum) : out.flatten.Perm out'.flatten := by
  have he' : heldTotal cand acc sizes' n = sizes'.sum := by
    rw [heldTotal_eq, ← hs, ← heldTotal_eq cand acc sizes, he]
  rw [sampleResult_flatten cand acc h, sampleResult_flatten cand acc h',
    List.take_of_length_le (by rw [length_pool, he]), List.take_of_length_le (by rw [length_pool, he'])]
  refine (pool_perm cand acc sizes n).trans ?_
  rw [hs]
  exact (pool_perm cand acc sizes' n).symm

/-- C31, partial: with one rank, the points returned are a function of the seeded stream and of the decisions of the mask. -/
theorem C31_one_rank_partial (cand cand' : ℕ → ℕ → α) (acc acc' : ℕ → ℕ → Bool) {N n : ℕ}
    (hc : ∀ t < n, ∀ i < N, cand t i = cand' t i) (ha : ∀ t < n, ∀ i < N, acc t i = acc' t i) :
    sampleResult cand acc [N] n = sampleResult cand' acc' [N] n := by
  have hh : held cand acc [N] n 0 = held cand' acc' [N] n 0 := by
    unfold held
    apply List.flatMap_congr
    intro t ht
    rw [List.mem_range] at ht
    simp only [accepted, List.getD_cons_zero, List.take_zero, List.sum_nil, zero_add, List.map_id']
    rw [List.filter_congr (q := fun i => acc' t i) fun i hi => ha t ht i (List.mem_range.1 hi)]
    apply List.map_congr_left
    intro i hi
    exact hc t ht i (List.mem_range.1 (List.mem_of_mem_filter hi))
  unfold sampleResult
  simp [List.range_succ, hh]

/-- C31 fails: with the same stream and the same decisions, the points differ with the number of ranks, even as sets. -/
theorem C31_ranks_violated : ∃ (acc : ℕ → ℕ → Bool) (sizes sizes' : List ℕ) (n : ℕ) (out out' : List (List (ℕ × ℕ))),
    sizes.sum = sizes'.sum ∧ StopsAfter Prod.mk acc sizes n ∧ StopsAfter Prod.mk acc sizes' n ∧
    sampleResult Prod.mk acc sizes n = .ok out ∧ sampleResult Prod.mk acc sizes' n = .ok out' ∧
    ∃ p ∈ out.flatten, p ∉ out'.flatten := by
  refine ⟨fun t i => t == 2 || i == 3 || (t == 1 && i == 1), [4], [2, 2], 3,
    [[(0, 3), (1, 1), (1, 3), (2, 0)]], [[(1, 1), (2, 0)], [(2, 1), (0, 3)]], by decide, ⟨by decide, by decide⟩,
    ⟨by decide, by decide⟩, rfl, rfl, (1, 3), by decide, by decide⟩

/-- C31 fails: the decisions of the mask are made with draws that the seed does not determine, so that two runs with the same
seed and the same ranks return different points, for a mask of constant probability 1/2. -/
theorem C31_seed_violated : ∃ (hidden hidden' : ℕ → ℕ → ℝ) (acc acc' : ℕ → ℕ → Bool),
    (∀ t i, 0 < hidden t i ∧ hidden t i < 1) ∧ (∀ t i, 0 < hidden' t i ∧ hidden' t i < 1) ∧
    (∀ t i, some (acc t i) = (maskCall [1 / 2] [hidden t i])[0]?) ∧
    (∀ t i, some (acc' t i) = (maskCall [1 / 2] [hidden' t i])[0]?) ∧
    StopsAfter (Prod.mk : ℕ → ℕ → ℕ × ℕ) acc [1] 1 ∧ StopsAfter (Prod.mk : ℕ → ℕ → ℕ × ℕ) acc' [1] 2 ∧
    sampleResult Prod.mk acc [1] 1 = .ok [[(0, 0)]] ∧ sampleResult Prod.mk acc' [1] 2 = .ok [[(1, 0)]] := by
  refine ⟨fun _ _ => 1 / 3, fun t _ => if t = 0 then 2 / 3 else 1 / 3, fun _ _ => true, fun t _ => t != 0,
    fun _ _ => by norm_num, fun t _ => by simp only; split <;> norm_num, fun _ _ => ?_, fun t _ => ?_,
    ⟨by decide, by decide⟩, ⟨by decide, by decide⟩, rfl, rfl⟩
  · simp [maskCall]; norm_num
  · by_cases h : t = 0
    · simp [maskCall, h]; norm_num
    · simp [maskCall, h]; norm_num; exact h

/-- Non-vacuity of the partial theorems: three ranks, one of them with nothing to draw. -/
example : StopsAfter (Prod.mk : ℕ → ℕ → ℕ × ℕ) (fun _ _ => true) [2, 0, 1] 1 ∧
    sampleResult (Prod.mk : ℕ → ℕ → ℕ × ℕ) (fun _ _ => true) [2, 0, 1] 1 = .ok [[(0, 0), (0, 1)], [], [(0, 2)]] :=
  ⟨⟨by decide, by decide⟩, rfl⟩

end Verif.Props
