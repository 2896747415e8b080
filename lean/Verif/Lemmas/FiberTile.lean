import Verif.Lemmas.Fiber
import Verif.Spec.Fiber

/-! # Lemmas on fiber assignment: one tile -/

namespace Verif.Lemmas.Fiber

open Verif Verif.Model Verif.Model.Fiber Verif.Spec.Fiber

/-- The fiber of a target in a list. -/
def fiberIn (tg : List (ℤ × ℤ)) (id : ℤ) : Option ℤ := (tg.find? fun x => decide (x.1 = id)).map Prod.snd

theorem fiberIn_eq_none {tg : List (ℤ × ℤ)} {id : ℤ} : fiberIn tg id = none ↔ id ∉ tg.map Prod.fst := by
  simp only [fiberIn, Option.map_eq_none_iff, List.find?_eq_none, decide_eq_true_eq, List.mem_map, not_exists, not_and]

theorem fiberIn_mem {tg : List (ℤ × ℤ)} {id f : ℤ} (h : fiberIn tg id = some f) : (id, f) ∈ tg := by
  unfold fiberIn at h
  rw [Option.map_eq_some_iff] at h
  obtain ⟨x, hx, rfl⟩ := h
  have h1 := List.mem_of_find?_eq_some hx
  have h2 := List.find?_some hx
  simp only [decide_eq_true_eq] at h2
  rw [← h2]
  exact h1

theorem fiberIn_of_mem {tg : List (ℤ × ℤ)} {id f : ℤ} (hn : (tg.map Prod.fst).Nodup) (h : (id, f) ∈ tg) :
    fiberIn tg id = some f := by
  induction tg with
  | nil => simp at h
  | cons x tg ih =>
    rw [List.map_cons, List.nodup_cons] at hn
    rcases List.mem_cons.mp h with rfl | h
    · simp [fiberIn]
    · have hne : x.1 ≠ id := fun e => hn.1 (e ▸ List.mem_map.mpr ⟨_, h, rfl⟩)
      have := ih hn.2 h
      simp only [fiberIn, List.find?_cons, hne, decide_false] at this ⊢
      exact this

theorem getD_idxOf {tg : List (ℤ × ℤ)} {id : ℤ} (h : id ∈ tg.map Prod.fst) :
    fiberIn tg id = some ((tg.map Prod.snd).getD ((tg.map Prod.fst).idxOf id) 0) := by
  induction tg with
  | nil => simp at h
  | cons x tg ih =>
    by_cases hx : x.1 = id
    · simp [fiberIn, hx]
    · have h' : id ∈ tg.map Prod.fst := by
        rw [List.map_cons, List.mem_cons] at h
        exact h.resolve_left fun e => hx e.symm
      have := ih h'
      simp only [fiberIn, List.find?_cons, hx, decide_false, List.map_cons] at this ⊢
      rw [List.idxOf_cons_ne _ hx, List.getD_cons_succ]
      exact this

/-- Effect of a list of available targets on a row. -/
def avRow {E : Type} (tg : List (ℤ × ℤ)) (r : PRow E) : PRow E :=
  match fiberIn tg r.tid with
  | some f => { r with available := true, fiber := f }
  | none => r

/-- Effect of a list of observed targets on a row. -/
def obRow {E : Type} (tg : List (ℤ × ℤ)) (r : PRow E) : PRow E :=
  match fiberIn tg r.tid with
  | some f => { r with more := r.more - 1, numobs := r.numobs + 1, fiber := f, obs := true }
  | none => r

theorem markAvailable_eq {E : Type} (rows : List (PRow E)) (tg : List (ℤ × ℤ)) : markAvailable rows tg = rows.map (avRow tg) := by
  unfold markAvailable
  rw [updateAt_matchIdx]
  refine List.map_congr_left fun r _ => ?_
  unfold avRow
  split_ifs with h
  · rw [getD_idxOf h]
  · rw [fiberIn_eq_none.mpr h]

theorem markObserved_eq {E : Type} (rows : List (PRow E)) (tg : List (ℤ × ℤ)) : markObserved rows tg = rows.map (obRow tg) := by
  unfold markObserved
  rw [updateAt_matchIdx]
  refine List.map_congr_left fun r _ => ?_
  unfold obRow
  split_ifs with h
  · rw [getD_idxOf h]
  · rw [fiberIn_eq_none.mpr h]

/-- Effect of one tile on a row. -/
def mtlRow {E : Type} (i : List (ℤ × ℤ) × List (ℤ × ℤ)) (r : PRow E) : PRow E := obRow i.1 (avRow i.2 r)

@[simp] theorem avRow_tid {E : Type} (tg : List (ℤ × ℤ)) (r : PRow E) : (avRow tg r).tid = r.tid := by
  unfold avRow; split <;> rfl

section
variable {E : Type} (i : List (ℤ × ℤ) × List (ℤ × ℤ)) (r : PRow E)

@[simp] theorem mtlRow_tid : (mtlRow i r).tid = r.tid := by unfold mtlRow obRow avRow; split <;> split <;> rfl
@[simp] theorem mtlRow_ra : (mtlRow i r).ra = r.ra := by unfold mtlRow obRow avRow; split <;> split <;> rfl
@[simp] theorem mtlRow_dec : (mtlRow i r).dec = r.dec := by unfold mtlRow obRow avRow; split <;> split <;> rfl
@[simp] theorem mtlRow_extra : (mtlRow i r).extra = r.extra := by unfold mtlRow obRow avRow; split <;> split <;> rfl
@[simp] theorem mtlRow_tile : (mtlRow i r).tile = r.tile := by unfold mtlRow obRow avRow; split <;> split <;> rfl
@[simp] theorem mtlRow_index : (mtlRow i r).index = r.index := by unfold mtlRow obRow avRow; split <;> split <;> rfl

theorem mtlRow_more : (mtlRow i r).more = r.more - if (fiberIn i.1 r.tid).isSome then 1 else 0 := by
  unfold mtlRow obRow
  rw [avRow_tid]
  unfold avRow
  cases fiberIn i.1 r.tid <;> cases fiberIn i.2 r.tid <;> simp

theorem mtlRow_numobs : (mtlRow i r).numobs = r.numobs + if (fiberIn i.1 r.tid).isSome then 1 else 0 := by
  unfold mtlRow obRow
  rw [avRow_tid]
  unfold avRow
  cases fiberIn i.1 r.tid <;> cases fiberIn i.2 r.tid <;> simp

theorem mtlRow_obs : (mtlRow i r).obs = (r.obs || (fiberIn i.1 r.tid).isSome) := by
  unfold mtlRow obRow
  rw [avRow_tid]
  unfold avRow
  cases fiberIn i.1 r.tid <;> cases fiberIn i.2 r.tid <;> simp

theorem mtlRow_available : (mtlRow i r).available = (r.available || (fiberIn i.2 r.tid).isSome) := by
  unfold mtlRow obRow
  rw [avRow_tid]
  unfold avRow
  cases fiberIn i.1 r.tid <;> cases fiberIn i.2 r.tid <;> simp

theorem mtlRow_fiber : (mtlRow i r).fiber = (fiberIn i.1 r.tid).getD ((fiberIn i.2 r.tid).getD r.fiber) := by
  unfold mtlRow obRow
  rw [avRow_tid]
  unfold avRow
  cases fiberIn i.1 r.tid <;> cases fiberIn i.2 r.tid <;> simp

theorem mtlRow_eq_self (h1 : fiberIn i.1 r.tid = none) (h2 : fiberIn i.2 r.tid = none) : mtlRow i r = r := by
  unfold mtlRow avRow
  rw [h2]
  unfold obRow
  simp only [h1]

end

/-- Targets observed and available with working fibers, given rows. -/
def tileInfo {E : Type} (w : World E) (t : Tile) (rows : List (PRow E)) : Except Err (List (ℤ × ℤ) × List (ℤ × ℤ)) := do
  let asgn ← w.engine t rows
  let tg ← extract asgn
  match w.zmtl t.id with
  | none => .error .indexError
  | some petals => do
    let good ← goodFibers petals
    pure (tg.1.filter fun x => x.2 ∈ good, tg.2.filter fun x => x.2 ∈ good)

theorem oneTile_eq {E : Type} (w : World E) (rows : List (PRow E)) (t : Tile) :
    oneTile w rows t = (tileInfo w t rows).map fun i => rows.map (mtlRow i) := by
  unfold oneTile tileInfo applyMtl
  simp only [Bind.bind, Except.bind, pure, Except.pure]
  cases w.engine t rows with
  | error e => rfl
  | ok asgn =>
    simp only
    cases extract asgn with
    | error e => rfl
    | ok tg =>
      simp only
      cases w.zmtl t.id with
      | none => rfl
      | some petals =>
        simp only
        cases goodFibers petals with
        | error e => rfl
        | ok good =>
          simp only [Except.map, markAvailable_eq, markObserved_eq, List.map_map]
          rfl

/-! ### Extraction -/

theorem uniqueFirst_fst (l : List (ℤ × ℤ)) :
    (uniqueFirst l).map Prod.fst = (l.map Prod.fst).dedup.mergeSort (fun a b => decide (a ≤ b)) := by
  unfold uniqueFirst
  rw [List.map_filterMap]
  have : ∀ a ∈ (l.map Prod.fst).dedup.mergeSort (fun a b => decide (a ≤ b)),
      Option.map Prod.fst (l.find? fun x => decide (x.1 = a)) = some a := by
    intro a ha
    have ha : a ∈ l.map Prod.fst := by simpa using ha
    obtain ⟨x, hx, rfl⟩ := List.mem_map.mp ha
    cases h : l.find? fun y => decide (y.1 = x.1) with
    | none =>
      have := List.find?_eq_none.mp h x hx
      simp at this
    | some y =>
      have := List.find?_some h
      simp only [decide_eq_true_eq] at this
      simp [this]
  rw [List.filterMap_congr (g := some) this, List.filterMap_some]

theorem uniqueFirst_nodup (l : List (ℤ × ℤ)) : ((uniqueFirst l).map Prod.fst).Nodup := by
  rw [uniqueFirst_fst]
  exact (List.mergeSort_perm _ _).nodup_iff.mpr (List.nodup_dedup _)

theorem uniqueFirst_fiberIn (l : List (ℤ × ℤ)) (id : ℤ) : fiberIn (uniqueFirst l) id = fiberIn l id := by
  cases h : fiberIn l id with
  | none =>
    rw [fiberIn_eq_none] at h ⊢
    rw [uniqueFirst_fst]
    simpa using h
  | some f =>
    apply fiberIn_of_mem (uniqueFirst_nodup l)
    unfold fiberIn at h
    rw [Option.map_eq_some_iff] at h
    obtain ⟨x, hx, rfl⟩ := h
    have h1 := List.mem_of_find?_eq_some hx
    have h2 := List.find?_some hx
    simp only [decide_eq_true_eq] at h2
    unfold uniqueFirst
    rw [List.mem_filterMap]
    refine ⟨id, ?_, ?_⟩
    · simp only [List.mem_mergeSort, List.mem_dedup, List.mem_map]
      exact ⟨x, h1, h2⟩
    · rw [hx, ← h2]

theorem fiberIn_filter {tg : List (ℤ × ℤ)} (hn : (tg.map Prod.fst).Nodup) (good : List ℤ) (id f : ℤ) :
    fiberIn (tg.filter fun x => x.2 ∈ good) id = some f ↔ fiberIn tg id = some f ∧ f ∈ good := by
  have hn' : ((tg.filter fun x => x.2 ∈ good).map Prod.fst).Nodup :=
    hn.sublist (List.filter_sublist.map _)
  constructor
  · intro h
    have := List.mem_filter.mp (fiberIn_mem h)
    exact ⟨fiberIn_of_mem hn this.1, by simpa using this.2⟩
  · intro h
    exact fiberIn_of_mem hn' (List.mem_filter.mpr ⟨fiberIn_mem h.1, by simpa using h.2⟩)

theorem fiberIn_append (a b : List (ℤ × ℤ)) (id : ℤ) :
    fiberIn (a ++ b) id = (fiberIn a id).or (fiberIn b id) := by
  unfold fiberIn
  rw [List.find?_append]
  cases List.find? (fun x => decide (x.1 = id)) a <;> rfl

theorem fiberIn_flatMap (sci : ℤ → Bool) (l : List (ℤ × List ℤ)) (id : ℤ) :
    fiberIn (l.flatMap fun x => (x.2.filter fun av => sci av).map fun av => (av, x.1)) id
      = (l.find? fun x => decide (id ∈ x.2) && sci id).map Prod.fst := by
  induction l with
  | nil => rfl
  | cons x l ih =>
    rw [List.flatMap_cons, fiberIn_append, ih, List.find?_cons]
    by_cases h : id ∈ x.2 ∧ sci id = true
    · have h1 : fiberIn ((x.2.filter fun av => sci av).map fun av => (av, x.1)) id = some x.1 := by
        cases hf : fiberIn ((x.2.filter fun av => sci av).map fun av => (av, x.1)) id with
        | none =>
          rw [fiberIn_eq_none] at hf
          exact absurd (by simpa using h) hf
        | some f =>
          have := fiberIn_mem hf
          simp only [List.mem_map, List.mem_filter, Prod.mk.injEq] at this
          obtain ⟨_, _, _, rfl⟩ := this
          rfl
      rw [h1]
      simp [h.1, h.2]
    · have h1 : fiberIn ((x.2.filter fun av => sci av).map fun av => (av, x.1)) id = none := by
        rw [fiberIn_eq_none]
        simpa using h
      have h2 : (decide (id ∈ x.2) && sci id) = false := by
        rw [Bool.eq_false_iff]
        simpa using h
      rw [h1, h2]
      rfl

theorem fiberAt_ok {asgn : Assignment} {loc f : ℤ} : asgn.fiberAt loc = .ok f ↔ asgn.fiberOf loc = some f := by
  unfold Assignment.fiberAt
  cases asgn.fiberOf loc <;> simp

/-- What the extraction gives on one tile. -/
structure Extracted (asgn : Assignment) (t : Tile) (A V : List (ℤ × ℤ)) : Prop where
  assign : ∀ id f, (id, f) ∈ A ↔ Assigned asgn t id f
  assignNodup : ((asgn.assigned t.id).map Prod.snd).Nodup → (A.map Prod.fst).Nodup
  avail : ∀ id f, fiberIn V id = some f ↔ FirstReached asgn t id f
  availNodup : (V.map Prod.fst).Nodup

theorem mapM_fiberAt {α β : Type} (asgn : Assignment) (a : α → ℤ) (b : α → ℤ → β) (l : List α) :
    (l.mapM fun x => do
      let f ← asgn.fiberAt (a x)
      pure (b x f))
      = if ∀ x ∈ l, (asgn.fiberOf (a x)).isSome = true then .ok (l.map fun x => b x ((asgn.fiberOf (a x)).getD 0))
        else (.error .keyError : Except Err (List β)) := by
  induction l with
  | nil => simp [pure, Except.pure]
  | cons x l ih =>
    rw [List.mapM_cons, ih]
    unfold Assignment.fiberAt
    simp only [Bind.bind, Except.bind, pure, Except.pure]
    cases hx : asgn.fiberOf (a x) with
    | none => simp [hx]
    | some f =>
      simp only [List.forall_mem_cons, hx, Option.isSome_some, true_and, List.map_cons, Option.getD_some]
      split_ifs <;> rfl

theorem science_iff (asgn : Assignment) (id : ℤ) : asgn.science id = true ↔ Science asgn id := by
  simp [Assignment.science, Science, Nat.and_one_is_mod]

theorem extractTile_eq (asgn : Assignment) (t : ℤ) : extractTile asgn t =
    (let tdata := (asgn.assigned t).filter fun x => asgn.science x.2
    let fib := fun loc => (asgn.fiberOf loc).getD 0
    if (asgn.assigned t).any fun x => asgn.science x.2 then
      if (∀ x ∈ tdata, (asgn.fiberOf x.1).isSome = true) ∧ ∀ x ∈ asgn.avail t, (asgn.fiberOf x.1).isSome = true then
        let A := tdata.map fun x => (x.2, fib x.1)
        let L := (((asgn.avail t).map fun x => (fib x.1, x.2)).filter fun x => x.1 ∈ A.map Prod.snd).flatMap fun x =>
          (x.2.filter fun av => asgn.science av).map fun av => (av, x.1)
        if L = [] then .error .indexError else .ok (some (A, uniqueFirst L))
      else .error .keyError
    else .ok none) := by
  unfold extractTile
  simp only
  rw [mapM_fiberAt asgn Prod.fst (fun x f => (x.2, f)), mapM_fiberAt asgn Prod.fst (fun x f => (f, x.2))]
  simp only [Bind.bind, Except.bind, pure, Except.pure]
  by_cases h1 : ((asgn.assigned t).any fun x => asgn.science x.2) = true
  · rw [if_pos h1, if_pos h1]
    by_cases h2 : ∀ x ∈ (asgn.assigned t).filter fun x => asgn.science x.2, (asgn.fiberOf x.1).isSome = true
    · rw [if_pos h2]
      by_cases h3 : ∀ x ∈ asgn.avail t, (asgn.fiberOf x.1).isSome = true
      · rw [if_pos h3, if_pos ⟨h2, h3⟩]
      · rw [if_neg h3]
        exact (if_neg fun h => h3 h.2).symm
    · rw [if_neg h2]
      exact (if_neg fun h => h2 h.1).symm
  · rw [if_neg h1, if_neg h1]

theorem extractTile_some {asgn : Assignment} {t : Tile} {A V : List (ℤ × ℤ)} (ht : t.id ∈ asgn.tiles)
    (h : extractTile asgn t.id = .ok (some (A, V))) : Extracted asgn t A V := by
  rw [extractTile_eq] at h
  simp only at h
  split_ifs at h with hsci hfib hne
  swap
  · simp at h
  simp only [Except.ok.injEq, Option.some.injEq, Prod.mk.injEq] at h
  obtain ⟨rfl, rfl⟩ := h
  have hassign : ∀ id f, (id, f) ∈ ((asgn.assigned t.id).filter fun x => asgn.science x.2).map
      (fun x => (x.2, (asgn.fiberOf x.1).getD 0)) ↔ Assigned asgn t id f := by
    intro id f
    simp only [List.mem_map, Prod.mk.injEq]
    constructor
    · rintro ⟨x, hx, rfl, rfl⟩
      have hx' := List.mem_filter.mp hx
      refine ⟨ht, x.1, hx'.1, (science_iff _ _).1 hx'.2, ?_⟩
      have := hfib.1 x hx
      cases h : asgn.fiberOf x.1 with
      | none => simp [h] at this
      | some f => rfl
    · rintro ⟨_, loc, hl, hs, hf⟩
      exact ⟨(loc, id), List.mem_filter.mpr ⟨hl, (science_iff _ _).2 hs⟩, rfl, by simp [hf]⟩
  refine ⟨hassign, ?_, ?_, uniqueFirst_nodup _⟩
  · intro hn
    rw [List.map_map]
    exact hn.sublist (List.filter_sublist.map _)
  · intro id f
    rw [uniqueFirst_fiberIn, fiberIn_flatMap, List.find?_filter, List.find?_map, Option.map_map, Option.map_eq_some_iff]
    have hmem : ∀ g, g ∈ List.map Prod.snd (((asgn.assigned t.id).filter fun x => asgn.science x.2).map
      (fun x => (x.2, (asgn.fiberOf x.1).getD 0))) ↔ ∃ id', Assigned asgn t id' g := by
      intro g
      rw [List.mem_map]
      constructor
      · rintro ⟨y, hy, rfl⟩
        exact ⟨y.1, (hassign y.1 y.2).mp hy⟩
      · rintro ⟨id', h'⟩
        exact ⟨(id', g), (hassign _ _).mpr h', rfl⟩
    have hget : ∀ x ∈ asgn.avail t.id, asgn.fiberOf x.1 = some ((asgn.fiberOf x.1).getD 0) := by
      intro x hx
      have := hfib.2 x hx
      cases h : asgn.fiberOf x.1 with
      | none => simp [h] at this
      | some f => rfl
    constructor
    · rintro ⟨x, hx, rfl⟩
      rw [List.find?_eq_some_iff_append] at hx
      obtain ⟨hp, pre, post, heq, hpre⟩ := hx
      simp only [Function.comp, Bool.and_eq_true, decide_eq_true_eq, hmem] at hp
      have hxm : x ∈ asgn.avail t.id := by rw [heq]; simp
      refine ⟨pre, x, post, heq, hp.2.1, (science_iff _ _).1 hp.2.2, ?_, hp.1, ?_⟩
      · exact hget x hxm
      · intro y hy hid g hg hex
        have := hpre y hy
        simp only [Function.comp, Bool.not_eq_true', Bool.and_eq_true, decide_eq_false_iff_not, decide_eq_true_eq, hmem] at this
        have hyg : (asgn.fiberOf y.1).getD 0 = g := by simp [hg]
        exact this ⟨hyg ▸ hex, hid, hp.2.2⟩
    · rintro ⟨pre, x, post, heq, hid, hs, hf, hex, hpre⟩
      refine ⟨x, ?_, by simp [hf]⟩
      rw [List.find?_eq_some_iff_append]
      refine ⟨?_, pre, post, heq, ?_⟩
      · simp only [Function.comp, Bool.and_eq_true, decide_eq_true_eq, hmem]
        exact ⟨by simpa [hf] using hex, hid, (science_iff _ _).2 hs⟩
      · intro y hy
        have hym : y ∈ asgn.avail t.id := by rw [heq]; simp [hy]
        simp only [Function.comp, Bool.not_eq_true', Bool.and_eq_true, decide_eq_false_iff_not, decide_eq_true_eq, hmem]
        rintro ⟨h1, h2, _⟩
        exact hpre y hy h2 _ (hget y hym) h1

theorem extract_spec {asgn : Assignment} {t : Tile} {A V : List (ℤ × ℤ)} (ht : asgn.tiles = [t.id] ∨ asgn.tiles = [])
    (h : extract asgn = .ok (A, V)) : Extracted asgn t A V := by
  unfold extract at h
  rcases ht with ht | ht
  · simp only [ht, List.mapM_cons, List.mapM_nil, Bind.bind, Except.bind, pure, Except.pure] at h
    cases he : extractTile asgn t.id with
    | error e => simp [he] at h
    | ok o =>
      cases o with
      | none =>
        simp only [he, List.filterMap_cons, List.filterMap_nil, id, List.map_nil, List.flatten_nil, Except.ok.injEq,
          Prod.mk.injEq] at h
        obtain ⟨rfl, rfl⟩ := h
        have hno : ∀ id f, ¬ Assigned asgn t id f := by
          rintro id f ⟨_, loc, hl, hs, hf⟩
          rw [extractTile_eq] at he
          simp only at he
          rw [if_pos] at he
          · split_ifs at he
            simp at he
          · exact List.any_eq_true.mpr ⟨_, hl, (science_iff _ _).2 hs⟩
        refine ⟨?_, ?_, ?_, ?_⟩
        · intro id f
          simp only [List.not_mem_nil, false_iff]
          exact hno id f
        · intro _; exact List.nodup_nil
        · intro id f
          simp only [fiberIn, List.find?_nil, Option.map_none, reduceCtorEq, false_iff]
          rintro ⟨_, _, _, _, _, _, _, ⟨id', h'⟩, _⟩
          exact hno _ _ h'
        · exact List.nodup_nil
      | some av =>
        obtain ⟨A', V'⟩ := av
        simp only [he, List.filterMap_cons, List.filterMap_nil, id, List.map_cons, List.map_nil, List.flatten_cons,
          List.flatten_nil, List.append_nil, Except.ok.injEq, Prod.mk.injEq] at h
        obtain ⟨rfl, rfl⟩ := h
        exact extractTile_some (by simp [ht]) he
  · simp only [ht, List.mapM_nil, Bind.bind, Except.bind, pure, Except.pure, List.filterMap_nil, List.map_nil, List.flatten_nil,
      Except.ok.injEq, Prod.mk.injEq] at h
    obtain ⟨rfl, rfl⟩ := h
    have hno : ∀ id f, ¬ Assigned asgn t id f := by
      rintro id f ⟨h, _⟩
      simp [ht] at h
    refine ⟨?_, ?_, ?_, ?_⟩
    · intro id f
      simp only [List.not_mem_nil, false_iff]
      exact hno id f
    · intro _; exact List.nodup_nil
    · intro id f
      simp only [fiberIn, List.find?_nil, Option.map_none, reduceCtorEq, false_iff]
      rintro ⟨_, _, _, _, _, _, _, ⟨id', h'⟩, _⟩
      exact hno _ _ h'
    · exact List.nodup_nil

/-- The working fibers. -/
theorem mem_goodFibers {petals : ℕ → Option (List Zwarn)} {good : List ℤ} (h : goodFibers petals = .ok good) (f : ℤ) :
    f ∈ good ↔ ∃ i : ℕ, f = i ∧ ∃ z, (zwarns petals)[i]? = some z ∧ z.nodata = false ∧ z.badSpec = false ∧ z.badPetal = false := by
  unfold goodFibers at h
  split_ifs at h with hl
  simp only [Except.ok.injEq] at h
  subst h
  simp only [List.mem_filterMap, Option.ite_none_right_eq_some, Option.some.injEq]
  constructor
  · rintro ⟨⟨z, i⟩, hz, hg, rfl⟩
    refine ⟨i, rfl, z, ?_, ?_⟩
    · rw [List.mem_zipIdx_iff_getElem?] at hz
      exact hz
    · simpa [Zwarn.good, and_assoc] using hg
  · rintro ⟨i, rfl, z, hz, h1, h2, h3⟩
    exact ⟨(z, i), List.mem_zipIdx_iff_getElem?.mpr hz, by simp [Zwarn.good, h1, h2, h3], rfl⟩

/-- The outcome of one tile. -/
structure Outcome {E : Type} (w : World E) (t : Tile) (rows : List (PRow E)) (i : List (ℤ × ℤ) × List (ℤ × ℤ))
    (asgn : Assignment) : Prop where
  engine : w.engine t rows = .ok asgn
  observed : ∀ id f, fiberIn i.1 id = some f ↔ Assigned asgn t id f ∧ Works w t f
  available : ∀ id f, fiberIn i.2 id = some f ↔ FirstReached asgn t id f ∧ Works w t f

theorem tileInfo_outcome {E : Type} {w : World E} {covers : Tile → ℝ → ℝ → Prop} (hw : EngineOk w covers) {t : Tile}
    {rows : List (PRow E)} {i : List (ℤ × ℤ) × List (ℤ × ℤ)} (h : tileInfo w t rows = .ok i) :
    ∃ asgn, Outcome w t rows i asgn := by
  unfold tileInfo at h
  simp only [Bind.bind, Except.bind, pure, Except.pure] at h
  cases he : w.engine t rows with
  | error e => simp [he] at h
  | ok asgn =>
    have hok := hw t rows asgn he
    simp only [he] at h
    cases hx : extract asgn with
    | error e => simp [hx] at h
    | ok tg =>
      obtain ⟨A, V⟩ := tg
      have hX := extract_spec hok.tiles hx
      simp only [hx] at h
      cases hz : w.zmtl t.id with
      | none => simp [hz] at h
      | some petals =>
        simp only [hz] at h
        cases hg : goodFibers petals with
        | error e => simp [hg] at h
        | ok good =>
          simp only [hg, Except.ok.injEq] at h
          subst h
          have hW : ∀ f, f ∈ good ↔ Works w t f := by
            intro f
            rw [mem_goodFibers hg]
            constructor
            · intro h; exact ⟨petals, hz, h⟩
            · rintro ⟨p, hp, h⟩
              rw [hz, Option.some.injEq] at hp
              subst hp
              exact h
          have hA := hX.assignNodup hok.oneLocation
          refine ⟨asgn, he, ?_, ?_⟩
          · intro id f
            rw [fiberIn_filter hA, hW]
            constructor
            · rintro ⟨h1, h2⟩
              exact ⟨(hX.assign id f).mp (fiberIn_mem h1), h2⟩
            · rintro ⟨h1, h2⟩
              exact ⟨fiberIn_of_mem hA ((hX.assign id f).mpr h1), h2⟩
          · intro id f
            rw [fiberIn_filter hX.availNodup, hW, hX.avail]

end Verif.Lemmas.Fiber
