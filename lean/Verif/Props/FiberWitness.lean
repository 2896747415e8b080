import Verif.Props.FiberAssign
import Mathlib.Tactic.NormNum

/-!
# Fiber assignment: cases that meet the hypotheses, and cases where properties fail (C51, C52, C54)
-/

namespace Verif.Props

open Verif Verif.Model Verif.Model.Fiber Verif.Spec.Fiber Verif.Lemmas.Fiber

/-! ### Exchanges -/

/-- All rows go to the first rank, sorted. -/
def toFirst {ρ : Type} (key : ρ → ℤ) : List (List ρ) → List (List ρ)
  | [] => []
  | l :: ls => (l :: ls).flatten.mergeSort (fun a b => decide (key a ≤ key b)) :: ls.map fun _ => []

theorem mergeSort_sorted {ρ : Type} (key : ρ → ℤ) (l : List ρ) :
    (l.mergeSort fun a b => decide (key a ≤ key b)).Pairwise fun a b => key a ≤ key b := by
  have := List.pairwise_mergeSort (le := fun a b : ρ => decide (key a ≤ key b))
    (by intro x y z; simp only [decide_eq_true_eq]; omega)
    (by intro x y; simp only [Bool.or_eq_true, decide_eq_true_eq]; omega) l
  exact this.imp (by simp)

theorem flatten_nils {α β : Type} (l : List α) : (l.map fun _ => ([] : List β)).flatten = [] := by
  induction l with
  | nil => rfl
  | cons a l ih => simp

/-- This is a possible exchange. -/
theorem csort_toFirst {ρ : Type} (key : ρ → ℤ) (sub : List (List ρ)) : Csort key sub (toFirst key sub) := by
  cases sub with
  | nil => exact ⟨rfl, List.Perm.refl _, List.Pairwise.nil, List.Pairwise.nil⟩
  | cons l ls =>
    have hf : (toFirst key (l :: ls)).flatten = (l :: ls).flatten.mergeSort (fun a b => decide (key a ≤ key b)) := by
      rw [toFirst, List.flatten_cons, flatten_nils, List.append_nil]
    refine ⟨by simp [toFirst], ?_, ?_, ?_⟩
    · rw [hf]
      exact List.mergeSort_perm _ _
    · rw [hf]
      exact mergeSort_sorted key _
    · unfold toFirst
      rw [List.pairwise_cons]
      constructor
      · intro l' hl' a _ b hb
        obtain ⟨_, _, rfl⟩ := List.mem_map.mp hl'
        simp at hb
      · rw [List.pairwise_map]
        exact List.pairwise_of_forall (fun _ _ a ha => by simp at ha)

/-- Rows of tiles up to `k` go to the first rank, others to the second, if there are two ranks. -/
def toTwo {ρ : Type} (key : ρ → ℤ) (k : ℤ) : List (List ρ) → List (List ρ)
  | [] => []
  | [l] => toFirst key [l]
  | l :: l' :: ls => ((l :: l' :: ls).flatten.filter fun a => decide (key a ≤ k)).mergeSort (fun a b => decide (key a ≤ key b)) ::
      ((l :: l' :: ls).flatten.filter fun a => decide (¬key a ≤ k)).mergeSort (fun a b => decide (key a ≤ key b)) ::
      ls.map fun _ => []

theorem csort_toTwo {ρ : Type} (key : ρ → ℤ) (k : ℤ) (sub : List (List ρ)) : Csort key sub (toTwo key k sub) := by
  match sub with
  | [] => exact ⟨rfl, List.Perm.refl _, List.Pairwise.nil, List.Pairwise.nil⟩
  | [l] => exact csort_toFirst key [l]
  | l :: l' :: ls =>
    have m1 : ∀ a ∈ ((l :: l' :: ls).flatten.filter fun a => decide (key a ≤ k)).mergeSort (fun a b => decide (key a ≤ key b)),
        key a ≤ k := by
      intro a ha
      rw [List.mem_mergeSort, List.mem_filter, decide_eq_true_eq] at ha
      exact ha.2
    have m2 : ∀ a ∈ ((l :: l' :: ls).flatten.filter fun a => decide (¬key a ≤ k)).mergeSort (fun a b => decide (key a ≤ key b)),
        k < key a := by
      intro a ha
      rw [List.mem_mergeSort, List.mem_filter, decide_eq_true_eq] at ha
      omega
    have hf : (toTwo key k (l :: l' :: ls)).flatten =
        ((l :: l' :: ls).flatten.filter fun a => decide (key a ≤ k)).mergeSort (fun a b => decide (key a ≤ key b)) ++
        ((l :: l' :: ls).flatten.filter fun a => decide (¬key a ≤ k)).mergeSort (fun a b => decide (key a ≤ key b)) := by
      simp only [toTwo, List.flatten_cons, flatten_nils, List.append_nil]
    refine ⟨by simp [toTwo], ?_, ?_, ?_⟩
    · rw [hf]
      refine ((List.mergeSort_perm _ _).append (List.mergeSort_perm _ _)).trans ?_
      have := List.filter_append_perm (fun a => decide (key a ≤ k)) (l :: l' :: ls).flatten
      have e : (fun a : ρ => decide (¬key a ≤ k)) = fun a => !decide (key a ≤ k) := by funext a; exact decide_not
      rw [e]
      exact this
    · rw [hf, List.pairwise_append]
      refine ⟨mergeSort_sorted _ _, mergeSort_sorted _ _, ?_⟩
      intro a ha b hb
      have := m1 a ha
      have := m2 b hb
      omega
    · unfold toTwo
      rw [List.pairwise_cons, List.pairwise_cons]
      refine ⟨?_, ?_, ?_⟩
      · intro x hx a ha b hb
        rcases List.mem_cons.mp hx with rfl | hx
        · have := m1 a ha
          have := m2 b hb
          omega
        · obtain ⟨_, _, rfl⟩ := List.mem_map.mp hx
          simp at hb
      · intro x hx a _ b hb
        obtain ⟨_, _, rfl⟩ := List.mem_map.mp hx
        simp at hb
      · rw [List.pairwise_map]
        exact List.pairwise_of_forall (fun _ _ a ha => by simp at ha)

/-! ### Flags -/

/-- Petal 0 has no file if `broken`; other spectra are good. -/
def demoPetals (broken : Bool) (i : ℕ) : Option (List Zwarn) :=
  if i = 0 ∧ broken = true then none else some (List.replicate 500 ⟨false, false, false⟩)

theorem flatMap_petals (n : ℕ) (broken : Bool) (x y : Zwarn) :
    ((List.range 10).flatMap fun i => match (if i = 0 ∧ broken = true then none else some (List.replicate n y)) with
      | some l => l
      | none => List.replicate n x) = List.replicate n (if broken then x else y) ++ List.replicate (9 * n) y := by
  have h : List.range 10 = [0, 1, 2, 3, 4, 5, 6, 7, 8, 9] := by decide
  have e : List.replicate (9 * n) y = List.replicate (n + (n + (n + (n + (n + (n + (n + (n + n)))))))) y := by
    congr 1; omega
  rw [h, e]
  simp only [List.replicate_add]
  cases broken <;> simp

theorem zwarns_demo (broken : Bool) :
    zwarns (demoPetals broken) = List.replicate 500 ⟨false, false, broken⟩ ++ List.replicate 4500 ⟨false, false, false⟩ := by
  have := flatMap_petals 500 broken ⟨false, false, true⟩ ⟨false, false, false⟩
  have e : (if broken then (⟨false, false, true⟩ : Zwarn) else ⟨false, false, false⟩) = ⟨false, false, broken⟩ := by
    cases broken <;> rfl
  rw [e] at this
  exact this

theorem good_demo (broken : Bool) : ∃ good, goodFibers (demoPetals broken) = .ok good ∧
    ∀ f : ℤ, f ∈ good ↔ (if broken then 500 else 0) ≤ f ∧ f < 5000 := by
  have hlen : (zwarns (demoPetals broken)).length = 5000 := by
    rw [zwarns_demo, List.length_append, List.length_replicate, List.length_replicate]
  have hg : ∃ good, goodFibers (demoPetals broken) = .ok good := by
    unfold goodFibers
    rw [if_pos hlen]
    exact ⟨_, rfl⟩
  obtain ⟨good, hg⟩ := hg
  refine ⟨good, hg, fun f => ?_⟩
  rw [mem_goodFibers hg, zwarns_demo]
  constructor
  · rintro ⟨i, rfl, z, hz, h1, h2, h3⟩
    rw [List.getElem?_append] at hz
    split_ifs at hz with hi
    · simp only [List.length_replicate] at hi
      rw [List.getElem?_replicate, if_pos hi, Option.some.injEq] at hz
      subst hz
      simp only at h3
      subst h3
      simp
      omega
    · simp only [List.length_replicate] at hi hz
      rw [List.getElem?_replicate] at hz
      split_ifs at hz with hi'
      cases broken <;> simp <;> omega
  · rintro ⟨h1, h2⟩
    refine ⟨f.toNat, by cases broken <;> simp at h1 <;> omega, ⟨false, false, false⟩, ?_, rfl, rfl, rfl⟩
    rw [List.getElem?_append]
    split_ifs with hi
    · simp only [List.length_replicate] at hi
      cases broken with
      | true => simp at h1; omega
      | false => rw [List.getElem?_replicate, if_pos hi]
    · simp only [List.length_replicate] at hi ⊢
      rw [List.getElem?_replicate, if_pos]
      cases broken <;> simp at h1 <;> omega

/-! ### A survey that meets the hypotheses -/

/-- Target. -/
def demoTarget (id : ℤ) (ra : ℝ) (n : ℤ) : Target Unit :=
  { tid := id, ra := ra, dec := 0, extra := (), more := n, numobs := 0, available := false, fiber := [], obsPass := [] }

/-- Fiber 7 at location 1; the first of targets 1 and 2 that asks for an observation is assigned. -/
def demoAssignment (t : ℤ) (ids : List ℤ) : Assignment where
  tiles := [t]
  assigned := fun _ => (ids.take 1).map fun i => (1, i)
  avail := fun _ => [(1, ids)]
  fiberOf := fun l => if l = 1 then some 7 else some (-1)
  type := fun _ => 1

/-- Every tile covers every target. -/
def demoWorld : World Unit where
  find := fun tiles _ _ => List.range tiles.length
  engine := fun t rows => .ok (demoAssignment t.id ([1, 2].filter fun i => i ∈ rows.map PRow.tid))
  zmtl := fun _ => some (demoPetals false)

/-- Two passes of one tile. -/
def demoTiles : List Tile := [⟨5, 0, 0, 0⟩, ⟨6, 1, 0, 0⟩]

/-- Two targets on two ranks. -/
def demoRanks : List (List (Target Unit)) := [[demoTarget 1 0 1], [demoTarget 2 0 2]]

theorem demo_engineOk : EngineOk demoWorld fun _ _ _ => True := by
  intro t rows asgn h
  simp only [demoWorld, Except.ok.injEq] at h
  subst h
  have hsub : ∀ i ∈ [1, 2].filter (fun i => decide (i ∈ rows.map PRow.tid)), ∃ r ∈ rows, r.tid = i := by
    intro i hi
    rw [List.mem_filter, decide_eq_true_eq] at hi
    exact List.mem_map.mp hi.2
  have hn : ([1, 2].filter (fun i => decide (i ∈ rows.map PRow.tid))).Nodup :=
    List.Nodup.filter _ (by decide : ([1, 2] : List ℤ).Nodup)
  generalize [1, 2].filter (fun i => decide (i ∈ rows.map PRow.tid)) = ids at hsub hn
  refine ⟨.inl rfl, ?_, ?_, ?_, ?_, ?_, ?_⟩
  · simp only [demoAssignment, List.map_map]
    cases ids <;> simp
  · simp only [demoAssignment, List.map_map]
    cases ids <;> simp
  · intro x hx _
    simp only [demoAssignment, List.mem_map] at hx
    obtain ⟨i, hi, rfl⟩ := hx
    exact ⟨ids, by simp [demoAssignment], List.mem_of_mem_take hi⟩
  · intro x hx id hid _
    simp only [demoAssignment, List.mem_singleton] at hx
    subst hx
    obtain ⟨r, hr, he⟩ := hsub id hid
    exact ⟨r, hr, he, trivial⟩
  · intro x hx
    simp only [demoAssignment, List.mem_singleton] at hx
    subst hx
    simp [demoAssignment]
  · intro l l' f hf h1 h2
    simp only [demoAssignment] at h1 h2
    split_ifs at h1 h2 with e1 e2 e2
    · rw [e1, e2]
    · simp only [Option.some.injEq] at h2
      omega
    · simp only [Option.some.injEq] at h1
      omega
    · simp only [Option.some.injEq] at h1
      omega

theorem demo_findOk : FindOk demoWorld fun _ _ _ => True := by
  intro tiles ra dec i
  simp only [demoWorld, List.mem_range, and_true]
  constructor
  · intro h; exact ⟨tiles[i], List.getElem?_eq_getElem h⟩
  · rintro ⟨t, ht⟩
    by_contra hlt
    rw [List.getElem?_eq_none (by omega)] at ht
    simp at ht

theorem demo_survey : SurveyOk demoWorld (fun _ _ _ => True) demoTiles demoRanks.flatten := by
  refine ⟨demo_engineOk, demo_findOk, ⟨?_, ?_, ?_⟩, ?_⟩
  · intro t ht
    simp only [demoTiles, List.mem_cons, List.not_mem_nil, or_false] at ht
    rcases ht with rfl | rfl <;> norm_num
  · intro p
    exact (by decide : ([5, 6] : List ℤ).Nodup).sublist ((List.filter_sublist (l := demoTiles)).map Tile.id)
  · intro t ht t' ht' hp _ _ _ _
    simp only [demoTiles, List.mem_cons, List.not_mem_nil, or_false] at ht ht'
    rcases ht with rfl | rfl <;> rcases ht' with rfl | rfl <;> first | rfl | (norm_num at hp)
  · simp [demoRanks, demoTarget]

theorem demo_local : EngineLocal demoWorld fun _ _ _ => True := by
  intro t rows rows' h
  have hm : ∀ i, i ∈ rows.map PRow.tid ↔ i ∈ rows'.map PRow.tid := by
    intro i
    have e : ∀ l : List (PRow Unit), (onTile (fun _ _ _ => True) t l).map (fun r => (seen r).1) = l.map PRow.tid := by
      intro l
      unfold onTile
      rw [List.filter_eq_self.mpr (by simp)]
      rfl
    have := (h.map Prod.fst).mem_iff (a := i)
    rw [List.map_map, List.map_map] at this
    have e1 := e rows
    have e2 := e rows'
    simp only [Function.comp_def] at this
    rw [e1, e2] at this
    exact this
  simp only [demoWorld, Except.ok.injEq]
  congr 1
  exact List.filter_congr fun i _ => decide_eq_decide.mpr (hm i)

theorem works_demo (t : Tile) (f : ℤ) : Works demoWorld t f ↔ 0 ≤ f ∧ f < 5000 := by
  obtain ⟨good, hg, hm⟩ := good_demo false
  have := hm f
  rw [mem_goodFibers hg] at this
  simp only [Bool.false_eq_true, if_false] at this
  rw [← this]
  unfold Works
  simp [demoWorld]

theorem demo_fibersWork : FibersWork demoWorld := by
  intro t rows asgn h id f hf
  simp only [demoWorld, Except.ok.injEq] at h
  subst h
  obtain ⟨_, loc, hl, _, hfib⟩ := hf
  simp only [demoAssignment, List.mem_map, Prod.mk.injEq] at hl
  obtain ⟨_, _, rfl, _⟩ := hl
  simp only [demoAssignment, if_true, Option.some.injEq] at hfib
  rw [works_demo]
  omega

theorem demo_total (rows : List (PRow Unit)) (t : Tile) : ∃ out, oneTile demoWorld rows t = .ok out := by
  rw [oneTile_eq]
  unfold tileInfo
  obtain ⟨good, hg, hm⟩ := good_demo false
  simp only [Bind.bind, Except.bind, demoWorld, hg, pure, Except.pure]
  unfold extract
  rw [show (demoAssignment t.id (List.filter (fun i => decide (i ∈ rows.map PRow.tid)) [1, 2])).tiles = [t.id] from rfl]
  simp only [List.mapM_cons, List.mapM_nil, Bind.bind, Except.bind, pure, Except.pure]
  rw [extractTile_eq]
  simp only
  have hfib : ∀ l, ((demoAssignment t.id (List.filter (fun i => decide (i ∈ rows.map PRow.tid)) [1, 2])).fiberOf l).isSome = true := by
    intro l
    simp only [demoAssignment]
    split_ifs <;> rfl
  split_ifs with h1 h2 h3
  · exfalso
    generalize List.filter (fun i => decide (i ∈ rows.map PRow.tid)) [1, 2] = ids at h1 h3
    cases ids with
    | nil => simp [demoAssignment] at h1
    | cons i ids => simp [demoAssignment, Assignment.science] at h3
  · exact ⟨_, rfl⟩
  · exact absurd ⟨fun x _ => hfib x.1, fun x _ => hfib x.1⟩ h2
  · exact ⟨_, rfl⟩

/-- The hypotheses of C51, C52 and C54 are met together. -/
example : SurveyOk demoWorld (fun _ _ _ => True) demoTiles demoRanks.flatten ∧ EngineLocal demoWorld (fun _ _ _ => True) ∧
    FibersWork demoWorld ∧ (∀ (p : ℕ) sub, Csort PRow.tile sub (toTwo (ρ := PRow Unit) PRow.tile (p + 5) sub)) ∧
    ∃ out, applyFiberAssignment demoWorld (fun _ => toFirst PRow.tile) demoTiles 2 demoRanks = .ok out :=
  ⟨demo_survey, demo_local, demo_fibersWork, fun _ _ => csort_toTwo _ _ _,
    C54_total (fun _ _ => csort_toFirst _ _) demo_total _ _ _⟩

/-! ### A target that is observed and not available -/

/-- Location 1 (fiber 10) has target 200, location 2 (fiber 600) has target 100; location 1 can reach both targets. -/
def crossAssignment (t : ℤ) (both : Bool) : Assignment where
  tiles := [t]
  assigned := fun _ => if both then [(1, 200), (2, 100)] else []
  avail := fun _ => if both then [(1, [100, 200]), (2, [100])] else []
  fiberOf := fun l => if l = 1 then some 10 else if l = 2 then some 600 else some (-1)
  type := fun _ => 1

/-- The spectra of petal 0 (fibers 0 to 499) could not be used. -/
def crossWorld : World Unit where
  find := fun tiles _ _ => List.range tiles.length
  engine := fun t rows => .ok (crossAssignment t.id (decide (100 ∈ rows.map PRow.tid ∧ 200 ∈ rows.map PRow.tid)))
  zmtl := fun _ => some (demoPetals true)

theorem cross_survey : SurveyOk crossWorld (fun _ _ _ => True) [⟨5, 0, 0, 0⟩] [demoTarget 100 0 1, demoTarget 200 0 1] := by
  refine ⟨?_, demo_findOk, ⟨?_, ?_, ?_⟩, ?_⟩
  · intro t rows asgn h
    simp only [crossWorld, Except.ok.injEq] at h
    subst h
    cases hb : decide (100 ∈ rows.map PRow.tid ∧ 200 ∈ rows.map PRow.tid) with
    | false =>
      refine ⟨.inl rfl, by simp [crossAssignment], by simp [crossAssignment], by simp [crossAssignment], by simp [crossAssignment],
        by simp [crossAssignment], ?_⟩
      intro l l' f hf h1 h2
      simp only [crossAssignment] at h1 h2
      split_ifs at h1 h2 <;> simp only [Option.some.injEq] at h1 h2 <;> omega
    | true =>
      rw [decide_eq_true_eq] at hb
      refine ⟨.inl rfl, by simp [crossAssignment], by simp [crossAssignment], ?_, ?_, ?_, ?_⟩
      · intro x hx _
        simp only [crossAssignment, if_true, List.mem_cons, List.not_mem_nil, or_false] at hx ⊢
        rcases hx with rfl | rfl
        · exact ⟨[100, 200], by simp, by simp⟩
        · exact ⟨[100], by simp, by simp⟩
      · intro x hx id hid _
        have : id = 100 ∨ id = 200 := by
          simp only [crossAssignment, if_true, List.mem_cons, List.not_mem_nil, or_false] at hx
          rcases hx with rfl | rfl <;> simp at hid <;> omega
        rcases this with rfl | rfl
        · obtain ⟨r, hr, he⟩ := List.mem_map.mp hb.1
          exact ⟨r, hr, he, trivial⟩
        · obtain ⟨r, hr, he⟩ := List.mem_map.mp hb.2
          exact ⟨r, hr, he, trivial⟩
      · intro x _
        simp only [crossAssignment]
        split_ifs <;> simp
      · intro l l' f hf h1 h2
        simp only [crossAssignment] at h1 h2
        split_ifs at h1 h2 <;> simp only [Option.some.injEq] at h1 h2 <;> omega
  · intro t ht
    simp only [List.mem_singleton] at ht
    subst ht
    norm_num
  · intro p
    exact (by decide : ([5] : List ℤ).Nodup).sublist ((List.filter_sublist (l := [(⟨5, 0, 0, 0⟩ : Tile)])).map Tile.id)
  · intro t ht t' ht' _ _ _ _ _
    simp only [List.mem_singleton] at ht ht'
    rw [ht, ht']
  · simp [demoTarget]

theorem works_cross (t : Tile) (f : ℤ) : Works crossWorld t f ↔ 500 ≤ f ∧ f < 5000 := by
  obtain ⟨good, hg, hm⟩ := good_demo true
  have := hm f
  rw [mem_goodFibers hg] at this
  simp only [if_true] at this
  rw [← this]
  unfold Works
  simp [crossWorld]

theorem cross_total (rows : List (PRow Unit)) (t : Tile) : ∃ out, oneTile crossWorld rows t = .ok out := by
  rw [oneTile_eq]
  unfold tileInfo
  obtain ⟨good, hg, hm⟩ := good_demo true
  simp only [Bind.bind, Except.bind, crossWorld, hg, pure, Except.pure]
  generalize decide (100 ∈ rows.map PRow.tid ∧ 200 ∈ rows.map PRow.tid) = both
  unfold extract
  rw [show (crossAssignment t.id both).tiles = [t.id] from rfl]
  simp only [List.mapM_cons, List.mapM_nil, Bind.bind, Except.bind, pure, Except.pure]
  rw [extractTile_eq]
  simp only
  have hfib : ∀ l, ((crossAssignment t.id both).fiberOf l).isSome = true := by
    intro l
    simp only [crossAssignment]
    split_ifs <;> rfl
  split_ifs with h1 h2 h3
  · exfalso
    cases both with
    | false => simp [crossAssignment] at h1
    | true => simp [crossAssignment, Assignment.science] at h3
  · exact ⟨_, rfl⟩
  · exact absurd ⟨fun x _ => hfib x.1, fun x _ => hfib x.1⟩ h2
  · exact ⟨_, rfl⟩

/-- C52 fails when some fibers do not work: a target that is observed, with a working fiber, is not flagged available, because the
first fiber of the list that can reach it does not work. -/
theorem C52_violated : ∃ out : List (List (Target Unit)), ∃ r ∈ out.flatten,
    applyFiberAssignment crossWorld (fun _ => toFirst PRow.tile) [⟨5, 0, 0, 0⟩] 1 [[demoTarget 100 0 1, demoTarget 200 0 1]] = .ok out ∧
    r.tid = 100 ∧ r.obsPass = [true] ∧ r.fiber = [600] ∧ r.numobs = 1 ∧ r.available = false := by
  have hs : ∀ (p : ℕ) sub, Csort PRow.tile sub ((fun _ => toFirst (ρ := PRow Unit) PRow.tile) p sub) :=
    fun _ _ => csort_toFirst _ _
  obtain ⟨out, ho⟩ := C54_total hs cross_total [⟨5, 0, 0, 0⟩] 1 [[demoTarget 100 0 1, demoTarget 200 0 1]]
  have ho' := ho
  unfold applyFiberAssignment at ho'
  rw [show List.range 1 = [0] from rfl] at ho'
  simp only [List.foldlM_cons, List.foldlM_nil, Bind.bind, Except.bind, pure, Except.pure] at ho'
  cases hp : passStep crossWorld (fun _ => toFirst PRow.tile) [⟨5, 0, 0, 0⟩]
      (List.map (List.map (initial 1)) [[demoTarget 100 0 1, demoTarget 200 0 1]]) 0 with
  | error e =>
    rw [hp] at ho'
    simp at ho'
  | ok out' =>
    simp only [hp, Except.ok.injEq] at ho'
    subst ho'
    have hsv : SurveyOk crossWorld (fun _ _ _ => True) [⟨5, 0, 0, 0⟩]
        (List.map (List.map (initial 1)) [[demoTarget 100 0 1, demoTarget 200 0 1]]).flatten :=
      survey_congr cross_survey (by simp [inputOf, initial])
    obtain ⟨asgn, h1, h2⟩ := C52_pass hs hsv hp
    have ht : (⟨5, 0, 0, 0⟩ : Tile) ∈ [(⟨5, 0, 0, 0⟩ : Tile)] := by simp
    have hask : askFor (fun _ _ _ => True) (⟨5, 0, 0, 0⟩ : Tile)
        (List.map (List.map (initial 1)) [[demoTarget 100 0 1, demoTarget 200 0 1]]).flatten
        = [initial 1 (demoTarget 100 0 1), initial 1 (demoTarget 200 0 1)] := by
      simp [askFor, initial, demoTarget]
    obtain ⟨rows, hrows, he⟩ := h1 _ ht rfl (by rw [hask]; simp)
    rw [hask] at hrows
    have hids : ∀ i, i ∈ rows.map PRow.tid ↔ i = 100 ∨ i = 200 := by
      intro i
      have := (hrows.map Prod.fst).mem_iff (a := i)
      unfold onTile at this
      rw [List.filter_eq_self.mpr (by simp), List.map_map, List.map_map] at this
      have e : (Prod.fst ∘ seen) = (PRow.tid (E := Unit)) := rfl
      rw [e] at this
      rw [this]
      simp [initial, demoTarget]
    simp only [crossWorld, Except.ok.injEq] at he
    rw [show decide (100 ∈ rows.map PRow.tid ∧ 200 ∈ rows.map PRow.tid) = true by
      rw [decide_eq_true_eq, hids, hids]; simp] at he
    cases h2 with
    | cons h2 h2' =>
      cases h2 with
      | cons h3 h3' =>
        rename_i r l''
        have hrow := h3.1 _ ht rfl trivial (by simp [initial, demoTarget])
        rw [← he] at hrow
        refine ⟨_, r, ?_, ho, ?_⟩
        · simp
        have ha : Assigned (crossAssignment 5 true) ⟨5, 0, 0, 0⟩ 100 600 :=
          ⟨by simp [crossAssignment], 2, by simp [crossAssignment], by simp [crossAssignment, Science],
            by simp [crossAssignment]⟩
        obtain ⟨e1, e2, e3, e4⟩ := hrow.observed 600 ha ((works_cross _ _).mpr (by norm_num))
        have htid : r.tid = 100 := by
          have := C54_order hs ho
          simp only [List.map_cons, List.cons.injEq, Prod.mk.injEq] at this
          exact this.1.1.1
        refine ⟨htid, ?_, ?_, ?_, ?_⟩
        · rw [e1]; simp [initial]
        · rw [e2]; simp [initial]
        · rw [e3]; simp [initial]
        · rw [Bool.eq_false_iff]
          intro hav
          rcases hrow.available.mp hav with h | ⟨f, hf, hwf⟩
          · simp [initial] at h
          · obtain ⟨pre, x, post, heq, hid, hsci, hfib, hex, hpre⟩ := hf
            rw [works_cross] at hwf
            have heq' : [(1, [100, 200]), (2, [100])] = pre ++ x :: post := heq
            have h10 : ∃ id', Assigned (crossAssignment 5 true) ⟨5, 0, 0, 0⟩ id' 10 :=
              ⟨200, by simp [crossAssignment], 1, by simp [crossAssignment], by simp [crossAssignment, Science],
                by simp [crossAssignment]⟩
            cases pre with
            | nil =>
              simp only [List.nil_append, List.cons.injEq] at heq'
              rw [← heq'.1] at hfib
              simp only [crossAssignment, if_true, Option.some.injEq] at hfib
              omega
            | cons y pre =>
              simp only [List.cons_append, List.cons.injEq] at heq'
              refine hpre y (by simp) ?_ 10 ?_ h10
              · rw [← heq'.1]
                simp [initial, demoTarget]
              · rw [← heq'.1]
                simp [crossAssignment]

/-! ### Overlapping tiles -/

/-- Tile 6 covers everything, other tiles the points with right ascension 0. -/
def overCovers (t : Tile) (ra _dec : ℝ) : Prop := t.id = 6 ∨ ra = 0

open Classical in
/-- Target 1 is assigned to fiber 7 on each tile it lies on. -/
noncomputable def overWorld : World Unit where
  find := fun tiles ra dec => (List.range tiles.length).filter fun i => decide (∃ t, tiles[i]? = some t ∧ overCovers t ra dec)
  engine := fun t rows => .ok (demoAssignment t.id (if ∃ r ∈ rows, r.tid = 1 ∧ overCovers t r.ra r.dec then [1] else []))
  zmtl := fun _ => some (demoPetals false)

/-- The packages behave as they should. -/
theorem over_ok : EngineOk overWorld overCovers ∧ FindOk overWorld overCovers := by
  classical
  constructor
  · intro t rows asgn h
    simp only [overWorld, Except.ok.injEq] at h
    subst h
    refine ⟨.inl rfl, ?_, ?_, ?_, ?_, ?_, ?_⟩
    · split_ifs <;> simp [demoAssignment]
    · split_ifs <;> simp [demoAssignment]
    · intro x hx _
      split_ifs at hx ⊢ with hc <;> simp_all [demoAssignment]
    · intro x hx id hid _
      split_ifs at hx with hc
      · simp only [demoAssignment, List.mem_singleton] at hx
        subst hx
        simp only [List.mem_singleton] at hid
        rw [hid]
        exact hc
      · simp only [demoAssignment, List.mem_singleton] at hx
        subst hx
        simp at hid
    · intro x hx
      simp only [demoAssignment]
      split_ifs <;> simp
    · intro l l' f hf h1 h2
      simp only [demoAssignment] at h1 h2
      split_ifs at h1 h2 with e1 e2 e2 <;> simp only [Option.some.injEq] at h1 h2 <;> omega
  · intro tiles ra dec i
    simp only [overWorld, List.mem_filter, List.mem_range, decide_eq_true_eq, and_iff_right_iff_imp]
    rintro ⟨t, ht, _⟩
    by_contra hlt
    rw [List.getElem?_eq_none (by omega)] at ht
    simp at ht

theorem uniqueFirst_single (a : ℤ × ℤ) : uniqueFirst [a] = [a] := by
  simp [uniqueFirst]

theorem extract_demo_one (t : ℤ) : extract (demoAssignment t [1]) = .ok ([(1, 7)], [(1, 7)]) := by
  unfold extract
  rw [show (demoAssignment t [1]).tiles = [t] from rfl]
  simp only [List.mapM_cons, List.mapM_nil, Bind.bind, Except.bind, pure, Except.pure]
  rw [extractTile_eq]
  simp [demoAssignment, Assignment.science, uniqueFirst_single]

theorem extract_demo_none (t : ℤ) : extract (demoAssignment t []) = .ok ([], []) := by
  unfold extract
  rw [show (demoAssignment t []).tiles = [t] from rfl]
  simp only [List.mapM_cons, List.mapM_nil, Bind.bind, Except.bind, pure, Except.pure]
  rw [extractTile_eq]
  simp [demoAssignment]

/-- A row after target 1 was observed with fiber 7. -/
def overRow (r : PRow Unit) : PRow Unit :=
  if r.tid = 1 then { r with more := r.more - 1, numobs := r.numobs + 1, available := true, fiber := 7, obs := true } else r

theorem over_tile (rows : List (PRow Unit)) (t : Tile) :
    ((∃ r ∈ rows, r.tid = 1 ∧ overCovers t r.ra r.dec) → oneTile overWorld rows t = .ok (rows.map overRow)) ∧
    ((¬∃ r ∈ rows, r.tid = 1 ∧ overCovers t r.ra r.dec) → oneTile overWorld rows t = .ok rows) := by
  obtain ⟨good, hg, hm⟩ := good_demo false
  have h7 : (7 : ℤ) ∈ good := (hm 7).mpr (by simp)
  constructor
  · intro hc
    rw [oneTile_eq]
    unfold tileInfo
    simp only [overWorld, if_pos hc, Bind.bind, Except.bind, extract_demo_one, hg, pure, Except.pure, Except.map]
    simp only [List.filter_cons, h7, decide_true, if_true, List.filter_nil, Except.ok.injEq]
    refine List.map_congr_left fun r _ => ?_
    unfold mtlRow obRow avRow overRow fiberIn
    by_cases h : r.tid = 1
    · simp [h]
    · have h' : ¬(1 = r.tid) := fun e => h e.symm
      simp [h, h']
  · intro hc
    rw [oneTile_eq]
    unfold tileInfo
    simp only [overWorld, if_neg hc, Bind.bind, Except.bind, extract_demo_none, hg, pure, Except.pure, Except.map]
    simp only [List.filter_nil, Except.ok.injEq]
    rw [List.map_congr_left (g := id) fun r _ => mtlRow_eq_self _ r (by simp [fiberIn]) (by simp [fiberIn]), List.map_id]

/-- Two overlapping tiles in one pass. -/
def overTiles : List Tile := [⟨5, 0, 0, 0⟩, ⟨6, 0, 0, 0⟩]

theorem overTiles_pass : tilesOfPass overTiles 0 = overTiles := by
  simp [tilesOfPass, overTiles]

theorem over_tileOf (id n : ℤ) :
    tileOf overWorld overTiles (initial 1 (demoTarget id 0 n)) = 5 ∧ tileOf overWorld overTiles (initial 1 (demoTarget id 1 n)) = 6 := by
  constructor
  · unfold tileOf
    simp [overWorld, overTiles, initial, demoTarget, List.range_succ, overCovers]
  · unfold tileOf
    simp [overWorld, overTiles, initial, demoTarget, List.range_succ, overCovers]

/-- Target 1, on both tiles, asks for two observations; target 2 is on tile 6 only. Each is on its rank. -/
def overRanks : List (List (Target Unit)) := [[demoTarget 1 0 2], [demoTarget 2 1 1]]

/-- The rows of the subcatalogue. -/
noncomputable def overA : PRow Unit := toPRow overWorld overTiles (initial 1 (demoTarget 1 0 2)) 0
/-- The rows of the subcatalogue. -/
noncomputable def overB : PRow Unit := toPRow overWorld overTiles (initial 1 (demoTarget 2 1 1)) 1

theorem over_selected : selected overWorld overTiles (initial 1 (demoTarget 1 0 2)) = true ∧
    selected overWorld overTiles (initial 1 (demoTarget 2 1 1)) = true := by
  unfold selected
  rw [(over_tileOf 1 2).1, (over_tileOf 2 1).2]
  simp [initial, demoTarget]

theorem over_sub : subcatalog overWorld overTiles (overRanks.map (List.map (initial 1))) = [[overA], [overB]] := by
  unfold subcatalog overRanks
  simp only [List.map_cons, List.map_nil, over_selected, takeMask, cindexFrom, List.zipIdx_cons, List.zipIdx_nil, List.length_cons,
    List.length_nil]
  rfl

theorem overA_tile : overA.tile = 5 := (over_tileOf 1 2).1
theorem overB_tile : overB.tile = 6 := (over_tileOf 2 1).2

theorem over_onePass_A : onePass overWorld overTiles [overA] = .ok [overRow overA] := by
  unfold onePass
  have : (overTiles.filter fun t => decide (t.id ∈ [overA].map PRow.tile)) = [⟨5, 0, 0, 0⟩] := by
    simp [overTiles, overA_tile]
  rw [this]
  simp only [List.foldlM_cons, List.foldlM_nil, Bind.bind, Except.bind, pure, Except.pure]
  rw [(over_tile _ _).1 ⟨overA, by simp, rfl, .inr rfl⟩]
  rfl

theorem over_onePass_B : onePass overWorld overTiles [overB] = .ok [overB] := by
  unfold onePass
  have : (overTiles.filter fun t => decide (t.id ∈ [overB].map PRow.tile)) = [⟨6, 0, 0, 0⟩] := by
    simp [overTiles, overB_tile]
  rw [this]
  simp only [List.foldlM_cons, List.foldlM_nil, Bind.bind, Except.bind, pure, Except.pure]
  rw [(over_tile _ _).2 (by rintro ⟨r, hr, h1, _⟩; simp only [List.mem_singleton] at hr; subst hr; exact absurd h1 (by decide))]

theorem over_onePass_AB : onePass overWorld overTiles [overA, overB] = .ok [overRow (overRow overA), overB] := by
  unfold onePass
  have : (overTiles.filter fun t => decide (t.id ∈ [overA, overB].map PRow.tile)) = overTiles := by
    simp [overTiles, overA_tile, overB_tile]
  rw [this]
  unfold overTiles
  simp only [List.foldlM_cons, List.foldlM_nil, Bind.bind, Except.bind, pure, Except.pure]
  rw [(over_tile _ _).1 ⟨overA, by simp, rfl, .inr rfl⟩]
  simp only
  rw [(over_tile _ _).1 ⟨overRow overA, by simp, rfl, .inl rfl⟩]
  have hB : overRow overB = overB := rfl
  simp [hB]

theorem over_onePass_nil : onePass overWorld overTiles [] = .ok [] := by
  simp [onePass, pure, Except.pure]

theorem sorted_two {ρ : Type} (le : ρ → ρ → Bool) (a b : ρ) (h : le a b = true) : [a, b].mergeSort le = [a, b] :=
  List.mergeSort_of_pairwise (by simp [h])

/-- Both targets are treated by the first rank. -/
theorem over_first : applyFiberAssignment overWorld (fun _ => toFirst PRow.tile) overTiles 1 overRanks
    = .ok [[update 0 (initial 1 (demoTarget 1 0 2)) (overRow (overRow overA))], [update 0 (initial 1 (demoTarget 2 1 1)) overB]] := by
  unfold applyFiberAssignment
  rw [show List.range 1 = [0] from rfl]
  simp only [List.foldlM_cons, List.foldlM_nil, Bind.bind, Except.bind, pure, Except.pure]
  unfold passStep distribute
  simp only [Bind.bind, Except.bind, pure, Except.pure]
  rw [overTiles_pass, over_sub]
  have hs : toFirst PRow.tile [[overA], [overB]] = [[overA, overB], []] := by
    simp only [toFirst, List.flatten_cons, List.flatten_nil, List.append_nil, List.singleton_append, List.map_cons, List.map_nil]
    rw [sorted_two _ _ _ (by rw [overA_tile, overB_tile]; decide)]
  rw [hs]
  simp only [List.mapM_cons, List.mapM_nil, Bind.bind, Except.bind, pure, Except.pure, over_onePass_AB, over_onePass_nil,
    List.flatten_cons, List.flatten_nil, List.append_nil]
  rw [sorted_two _ _ _ (by decide : decide ((overRow (overRow overA)).index ≤ overB.index) = true)]
  simp only [overRanks, List.map_cons, List.map_nil, Blinding.splitSizes, List.length_cons, List.length_nil, List.take_succ_cons,
    List.take_zero, List.drop_succ_cons, List.drop_zero]
  rw [if_pos (show [[(overRow (overRow overA)).index], [overB.index]] = [[overA.index], [overB.index]] from rfl)]
  simp only [List.zipWith_cons_cons, List.zipWith_nil_left, List.map_cons, List.map_nil, over_selected, putMask]

/-- Each target is treated by its rank. -/
theorem over_two : applyFiberAssignment overWorld (fun _ => toTwo PRow.tile 5) overTiles 1 overRanks
    = .ok [[update 0 (initial 1 (demoTarget 1 0 2)) (overRow overA)], [update 0 (initial 1 (demoTarget 2 1 1)) overB]] := by
  unfold applyFiberAssignment
  rw [show List.range 1 = [0] from rfl]
  simp only [List.foldlM_cons, List.foldlM_nil, Bind.bind, Except.bind, pure, Except.pure]
  unfold passStep distribute
  simp only [Bind.bind, Except.bind, pure, Except.pure]
  rw [overTiles_pass, over_sub]
  have hs : toTwo PRow.tile 5 [[overA], [overB]] = [[overA], [overB]] := by
    simp only [toTwo, List.flatten_cons, List.flatten_nil, List.append_nil, List.singleton_append, List.map_nil, List.filter_cons,
      overA_tile, overB_tile]
    simp
  rw [hs]
  simp only [List.mapM_cons, List.mapM_nil, Bind.bind, Except.bind, pure, Except.pure, over_onePass_A, over_onePass_B,
    List.flatten_cons, List.flatten_nil, List.append_nil, List.singleton_append]
  rw [sorted_two _ _ _ (by decide : decide ((overRow overA).index ≤ overB.index) = true)]
  simp only [overRanks, List.map_cons, List.map_nil, Blinding.splitSizes, List.length_cons, List.length_nil, List.take_succ_cons,
    List.take_zero, List.drop_succ_cons, List.drop_zero]
  rw [if_pos (show [[(overRow overA).index], [overB.index]] = [[overA.index], [overB.index]] from rfl)]
  simp only [List.zipWith_cons_cons, List.zipWith_nil_left, List.map_cons, List.map_nil, over_selected, putMask]

/-- C51 fails for tiles of one pass that overlap: a target is observed twice in a pass, which is written once. -/
theorem C51_violated : EngineOk overWorld overCovers ∧ FindOk overWorld overCovers ∧ ∃ r out,
    applyFiberAssignment overWorld (fun _ => toFirst PRow.tile) overTiles 1 overRanks = .ok (([r] : List (Target Unit)) :: out) ∧
    r.numobs = 2 ∧ r.obsPass = [true] :=
  ⟨over_ok.1, over_ok.2, _, _, over_first, rfl, rfl⟩

/-- C54 fails for tiles of one pass that overlap: how often a target is observed depends on how tiles are shared out between ranks. -/
theorem C54_violated : EngineOk overWorld overCovers ∧ FindOk overWorld overCovers ∧ EngineLocal overWorld overCovers ∧
    (∀ sub : List (List (PRow Unit)), Csort PRow.tile sub (toFirst PRow.tile sub)) ∧
    (∀ sub : List (List (PRow Unit)), Csort PRow.tile sub (toTwo PRow.tile 5 sub)) ∧ ∃ r r' : Target Unit, ∃ out,
    applyFiberAssignment overWorld (fun _ => toFirst PRow.tile) overTiles 1 overRanks = .ok ([r] :: out) ∧
    applyFiberAssignment overWorld (fun _ => toTwo PRow.tile 5) overTiles 1 overRanks = .ok ([r'] :: out) ∧
    r.tid = r'.tid ∧ r.numobs = 2 ∧ r'.numobs = 1 := by
  refine ⟨over_ok.1, over_ok.2, ?_, csort_toFirst _, csort_toTwo _ _, _, _, _, over_first, over_two, rfl, rfl, rfl⟩
  intro t rows rows' h
  have e : ∀ l : List (PRow Unit), (∃ r ∈ l, r.tid = 1 ∧ overCovers t r.ra r.dec) ↔ 1 ∈ ((onTile overCovers t l).map seen).map Prod.fst := by
    intro l
    simp only [onTile, List.map_map, List.mem_map, List.mem_filter, decide_eq_true_eq, Function.comp, seen]
    constructor
    · rintro ⟨r, hr, h1, h2⟩
      exact ⟨r, ⟨hr, h2⟩, h1⟩
    · rintro ⟨r, ⟨hr, h2⟩, h1⟩
      exact ⟨r, hr, h1, h2⟩
  have hiff := (e rows).trans ((h.map Prod.fst).mem_iff.trans (e rows').symm)
  simp only [overWorld, Except.ok.injEq]
  congr 1
  by_cases hc : ∃ r ∈ rows, r.tid = 1 ∧ overCovers t r.ra r.dec
  · rw [if_pos hc, if_pos (hiff.mp hc)]
  · rw [if_neg hc, if_neg (fun h => hc (hiff.mpr h))]

end Verif.Props
