import Verif.Model.FiberV0
import Verif.Lemmas.FiberRun
import Verif.Props.FiberWitness

/-!
# The earlier fiber assignment (C92, C93, C94)

The package that assigns tiles, the tiles over a point and the sky targets on disk are arbitrary. Rows are spread over ranks in any
way such that rows of one tile go to one rank.
-/

namespace Verif.Props.FiberV0

open Verif Verif.Model Verif.Model.Fiber Verif.Model.FiberV0 Verif.Spec.Fiber Verif.Lemmas.Fiber Verif.Props

variable {E S : Type}

/-! ### Book-keeping -/

/-- What is assigned: the targets given a fiber, and the targets within reach of a fiber given to a science target, with fibers. -/
abbrev Lists := List (ℤ × ℤ) × List (ℤ × ℤ)

/-- The list of fibers gives this fiber to a target: the first one in the list. -/
def FirstFiber (l : List (ℤ × ℤ)) (id f : ℤ) : Prop := ∃ pre post, l = pre ++ (id, f) :: post ∧ ∀ x ∈ pre, x.1 ≠ id

theorem fiberIn_first {l : List (ℤ × ℤ)} {id f : ℤ} : fiberIn l id = some f ↔ FirstFiber l id f := by
  induction l with
  | nil => simp [fiberIn, FirstFiber]
  | cons x l ih =>
    by_cases hx : x.1 = id
    · obtain ⟨a, b⟩ := x
      simp only at hx
      subst hx
      simp only [fiberIn, List.find?_cons, decide_true, Option.map_some, Option.some.injEq]
      constructor
      · rintro rfl
        exact ⟨[], l, rfl, by simp⟩
      · rintro ⟨pre, post, h, hp⟩
        cases pre with
        | nil => simp only [List.nil_append, List.cons.injEq, Prod.mk.injEq] at h; exact h.1.2
        | cons y pre =>
          simp only [List.cons_append, List.cons.injEq] at h
          exact absurd (by rw [← h.1]) (hp y (by simp))
    · have : fiberIn (x :: l) id = fiberIn l id := by simp [fiberIn, hx]
      rw [this, ih]
      constructor
      · rintro ⟨pre, post, rfl, hp⟩
        refine ⟨x :: pre, post, rfl, fun y hy => ?_⟩
        rcases List.mem_cons.1 hy with rfl | hy
        · exact hx
        · exact hp y hy
      · rintro ⟨pre, post, h, hp⟩
        cases pre with
        | nil =>
          simp only [List.nil_append, List.cons.injEq] at h
          exact absurd (by rw [h.1]) hx
        | cons y pre =>
          simp only [List.cons_append, List.cons.injEq] at h
          exact ⟨pre, post, h.2, fun z hz => hp z (by simp [hz])⟩

/-- What a pass does to a row that took part in it, given the lists of its rank. -/
structure Treated (p : ℕ) (tg : Lists) (r r' : Target E) : Prop where
  input : inputOf r' = inputOf r
  observed : (∃ f, (r.tid, f) ∈ tg.1) → r'.numobs = r.numobs + 1 ∧ r'.more = r.more - 1 ∧ r'.obsPass = r.obsPass.set p true ∧
    ∃ f, FirstFiber tg.1 r.tid f ∧ r'.fiber = r.fiber.set p f
  spared : (¬∃ f, (r.tid, f) ∈ tg.1) → r'.numobs = r.numobs ∧ r'.more = r.more ∧ r'.obsPass = r.obsPass.set p false ∧
    (∀ f, FirstFiber tg.2 r.tid f → r'.fiber = r.fiber.set p f) ∧
    ((¬∃ f, (r.tid, f) ∈ tg.2) → r'.fiber = r.fiber.set p (-1))
  available : r'.available = true ↔ r.available = true ∨ ∃ f, (r.tid, f) ∈ tg.2

theorem isSome_iff {l : List (ℤ × ℤ)} {id : ℤ} : (fiberIn l id).isSome ↔ ∃ f, (id, f) ∈ l := by
  rw [← Option.ne_none_iff_isSome, ne_eq, fiberIn_eq_none, not_not]
  simp

theorem treated_mtl (w : World E) (T : List Tile) (p j : ℕ) (tg : Lists) (r : Target E) :
    Treated p tg r (update p r (mtlRow tg (toPRow w T r j))) := by
  refine ⟨rfl, ?_, ?_, ?_⟩
  · rintro h
    have h' := isSome_iff.2 h
    obtain ⟨f, hf⟩ := Option.isSome_iff_exists.1 h'
    refine ⟨?_, ?_, ?_, f, fiberIn_first.1 hf, ?_⟩
    · simp [update, mtlRow_numobs, toPRow, hf]
    · simp [update, mtlRow_more, toPRow, hf]
    · simp [update, mtlRow_obs, toPRow, hf]
    · simp [update, mtlRow_fiber, toPRow, hf]
  · intro h
    have h' : fiberIn tg.1 r.tid = none := by
      rw [← Option.not_isSome_iff_eq_none, isSome_iff]
      exact h
    refine ⟨?_, ?_, ?_, ?_, ?_⟩
    · simp [update, mtlRow_numobs, toPRow, h']
    · simp [update, mtlRow_more, toPRow, h']
    · simp [update, mtlRow_obs, toPRow, h']
    · intro f hf
      simp [update, mtlRow_fiber, toPRow, h', fiberIn_first.2 hf]
    · intro hn
      have h2 : fiberIn tg.2 r.tid = none := by
        rw [← Option.not_isSome_iff_eq_none, isSome_iff]
        exact hn
      simp [update, mtlRow_fiber, toPRow, h', h2]
  · have : (update p r (mtlRow tg (toPRow w T r j))).available = (r.available || (fiberIn tg.2 r.tid).isSome) := by
      simp only [update, mtlRow_available]
      rfl
    rw [this, Bool.or_eq_true, isSome_iff]

/-- The lists of a rank with rows `rows`: the tiles its rows lie on are assigned, with the sky targets on disk if they are used. -/
def RankLists (w : World0 E S) (useSky : Bool) (T : List Tile) (rows : List (PRow E)) (tg : Lists) : Prop :=
  let own := T.filter fun t => decide (∃ q ∈ rows, q.tile = t.id)
  ∃ asgn, w.engine own rows (if useSky then w.disk own else []) = .ok asgn ∧ extract asgn = .ok tg

theorem ownTiles_eq (T : List Tile) (rows : List (PRow E)) :
    ownTiles T rows = T.filter fun t => decide (∃ q ∈ rows, q.tile = t.id) := by
  unfold ownTiles
  congr 1
  funext t
  simp

theorem onePass0_sky (w : World0 E S) (useSky : Bool) (T : List Tile) (sky : Option (List (Sky S))) (rows : List (PRow E)) :
    onePass0 w useSky T sky rows = onePass0 w useSky T none rows := rfl

theorem onePass0_ok {w : World0 E S} {useSky : Bool} {T : List Tile} {sky : Option (List (Sky S))} {rows out : List (PRow E)}
    (h : onePass0 w useSky T sky rows = .ok out) (ht : ∀ q ∈ rows, q.tile ∈ T.map Tile.id) :
    List.Forall₂ (fun a b => ∃ tg, RankLists w useSky T rows tg ∧ b = mtlRow tg a) rows out := by
  unfold onePass0 at h
  cases ho : ownTiles T rows with
  | nil =>
    have : rows = [] := by
      cases rows with
      | nil => rfl
      | cons q rows =>
        obtain ⟨t, htT, he⟩ := List.mem_map.1 (ht q (by simp))
        have : t ∈ ownTiles T (q :: rows) := by
          unfold ownTiles
          rw [List.mem_filter]
          exact ⟨htT, by simp [he]⟩
        rw [ho] at this
        simp at this
    subst this
    rw [ho] at h
    cases h
    exact .nil
  | cons t ts =>
    rw [ho] at h
    simp only [Bind.bind, Except.bind, pure, Except.pure] at h
    cases ha : w.engine (t :: ts) rows (assignInit w (t :: ts) useSky sky) with
    | error e => simp [ha] at h
    | ok asgn =>
      simp only [ha] at h
      cases hx : extract asgn with
      | error e => simp [hx] at h
      | ok tg =>
        simp only [hx, Except.ok.injEq] at h
        rw [← h, markAvailable_eq, markObserved_eq, List.map_map, List.forall₂_map_right_iff, List.forall₂_same]
        intro q _
        refine ⟨tg, ⟨asgn, ?_, hx⟩, rfl⟩
        rw [← ownTiles_eq, ho]
        exact ha

theorem passWith_eq (w : World0 E S) (T : List Tile) (useSky : Bool) {skies : List (Option (List (Sky S)))}
    {sched : List (List (PRow E)) → List (List (PRow E))} (sub : List (List (PRow E))) (hl : skies.length = (sched sub).length)
    (ranks : List (List (Target E))) (p : ℕ) :
    passWith w T useSky skies sub (sched sub) ranks p = (do
      let back ← distribute PRow.index sched (onePass0 w useSky T none) sub
      pure (List.zipWith (fun rows q => putMask (update p) (rows.map (selected w.points T)) rows q) ranks back)) := by
  unfold passWith distribute
  have : ∀ (l : List (List (PRow E))) (k : List (Option (List (Sky S)))), k.length = l.length →
      ((l.zip k).mapM fun x => onePass0 w useSky T x.2 x.1) = l.mapM (onePass0 w useSky T none) := by
    intro l
    induction l with
    | nil => intro k _; rfl
    | cons a l ih =>
      intro k hk
      cases k with
      | nil => simp at hk
      | cons b k =>
        simp only [List.zip_cons_cons, List.mapM_cons, ih k (by simpa using hk)]
        rfl
  rw [this _ _ hl]
  cases (sched sub).mapM (onePass0 w useSky T none) with
  | error e => rfl
  | ok worked =>
    simp only [Bind.bind, Except.bind, pure, Except.pure]
    split_ifs with hc <;> rfl

/-- The pass without sky targets loaded before. -/
theorem passStep0_eq (w : World0 E S) (sched : Spread E S) (tiles : List Tile) (useSky : Bool) (ranks : List (List (Target E))) (p : ℕ) :
    passStep0 w sched tiles useSky none ranks p = (do
      let back ← distribute PRow.index (sched.targets p) (onePass0 w useSky (tilesOfPass tiles p) none)
        (subcatalog w.points (tilesOfPass tiles p) ranks)
      pure (List.zipWith (fun rows q => putMask (update p) (rows.map (selected w.points (tilesOfPass tiles p))) rows q) ranks back)) := by
  rw [← passWith_eq w (tilesOfPass tiles p) useSky (skies := (sched.targets p (subcatalog w.points (tilesOfPass tiles p) ranks)).map
    fun _ => none) _ (by simp) ranks p]
  rfl

/-- Targets that take part in a pass: on a tile, with an observation requested. -/
def TakesPart (w : World0 E S) (tiles : List Tile) (p : ℕ) (r : Target E) : Prop :=
  0 ≤ tileOf w.points (tilesOfPass tiles p) r ∧ 1 ≤ r.more

theorem selected_iff {w : World0 E S} {tiles : List Tile} {p : ℕ} {r : Target E} :
    selected w.points (tilesOfPass tiles p) r = true ↔ TakesPart w tiles p r := by
  simp [selected, TakesPart]

theorem tileOf_mem {w : World E} {T : List Tile} {r : Target E} (h : 0 ≤ tileOf w T r) : tileOf w T r ∈ T.map Tile.id := by
  unfold tileOf at h ⊢
  cases hf : w.find T r.ra r.dec with
  | nil => simp [hf] at h
  | cons i l =>
    simp only [hf] at h ⊢
    rw [List.getD_eq_getElem?_getD] at h ⊢
    cases hi : (T.map Tile.id)[i]? with
    | none => simp [hi] at h
    | some t =>
      simp only [Option.getD_some]
      exact List.mem_of_getElem? hi

theorem sub_tiles {w : World0 E S} {tiles : List Tile} {p : ℕ} {ranks : List (List (Target E))} :
    ∀ q ∈ (subcatalog w.points (tilesOfPass tiles p) ranks).flatten, q.tile ∈ (tilesOfPass tiles p).map Tile.id := by
  intro q hq
  obtain ⟨r, _, hs, k, rfl⟩ := mem_subcatalog hq
  exact tileOf_mem (selected_iff.1 hs).1

/-- C92, one pass: rows stay where they are; a target that lies on a tile of the pass and has an observation requested is treated as
the assignment of the tiles of the rank it is sent to says; other targets are left as they are. -/
theorem C92_pass {w : World0 E S} {sched : Spread E S} (hs : ∀ p sub, Csort PRow.tile sub (sched.targets p sub)) {tiles : List Tile}
    {useSky : Bool} {ranks out : List (List (Target E))} {p : ℕ} (h : passStep0 w sched tiles useSky none ranks p = .ok out) :
    List.Forall₂ (List.Forall₂ fun r r' => (¬TakesPart w tiles p r → r' = r) ∧ (TakesPart w tiles p r →
      ∃ rows ∈ sched.targets p (subcatalog w.points (tilesOfPass tiles p) ranks), (∃ q ∈ rows, q.tid = r.tid) ∧
        ∃ tg, RankLists w useSky (tilesOfPass tiles p) rows tg ∧ Treated p tg r r')) ranks out := by
  rw [passStep0_eq] at h
  simp only [Bind.bind, Except.bind, pure, Except.pure] at h
  cases hd : distribute PRow.index (sched.targets p) (onePass0 w useSky (tilesOfPass tiles p) none)
    (subcatalog w.points (tilesOfPass tiles p) ranks) with
  | error e => simp [hd] at h
  | ok b =>
    simp only [hd, Except.ok.injEq] at h
    rw [← h]
    set T := tilesOfPass tiles p
    set sub := subcatalog w.points T ranks with hsub
    let R : PRow E → PRow E → Prop := fun a c => ∃ rows ∈ sched.targets p sub, a ∈ rows ∧ ∃ tg, RankLists w useSky T rows tg ∧ c = mtlRow tg a
    have hR : ∀ a c, R a c → c.index = a.index := by
      rintro a c ⟨_, _, _, tg, _, rfl⟩
      simp
    obtain ⟨b', h1, h2⟩ := distribute_ok (R := R) (hs p sub) (subcatalog_index w.points T ranks) hR
      (work := onePass0 w useSky T none) (fun rows hr => by
        obtain ⟨out, ho⟩ := distribute_work hd rows hr
        refine ⟨out, ho, ?_⟩
        have ht : ∀ q ∈ rows, q.tile ∈ T.map Tile.id := by
          intro q hq
          refine sub_tiles (w := w) (ranks := ranks) q ?_
          exact (hs p sub).rows.subset (List.mem_flatten.2 ⟨rows, hr, hq⟩)
        have hf := onePass0_ok ho ht
        rw [List.forall₂_iff_get] at hf ⊢
        refine ⟨hf.1, fun i h1 h2 => ?_⟩
        obtain ⟨tg, g1, g2⟩ := hf.2 i h1 h2
        exact ⟨rows, hr, List.get_mem _ _, tg, g1, g2⟩)
    rw [hd] at h1
    simp only [Except.ok.injEq] at h1
    subst h1
    have := write_rel (selected w.points T) (toPRow w.points T) (update p) 0 ranks b h2
    refine this.imp fun l m hlm => hlm.imp fun r r' hr => ?_
    unfold Written at hr
    split_ifs at hr with hsel
    · refine ⟨fun hn => absurd (selected_iff.1 hsel) hn, fun _ => ?_⟩
      obtain ⟨q, ⟨j, rows, hrows, hmem, tg, htg, rfl⟩, rfl⟩ := hr
      exact ⟨rows, hrows, ⟨_, hmem, rfl⟩, tg, htg, treated_mtl _ _ _ _ _ _⟩
    · exact ⟨fun _ => hr, fun hn => absurd (selected_iff.2 hn) hsel⟩

/-- The rows of the run, pass after pass. -/
structure RunRow0 (n p : ℕ) (r r' : Target E) : Prop where
  input : inputOf r' = inputOf r
  sum : r'.numobs + r'.more = r.more
  fiberLen : r'.fiber.length = n
  obsLen : r'.obsPass.length = n
  ahead : ∀ q, p ≤ q → q < n → r'.obsPass[q]? = some false ∧ r'.fiber[q]? = some (-1)
  count : (r'.obsPass.count true : ℤ) = r'.numobs
  request : 0 ≤ r.more → 0 ≤ r'.more

theorem runRow0_initial (n : ℕ) (r : Target E) : RunRow0 n 0 r (initial n r) where
  input := rfl
  sum := by simp [initial]
  fiberLen := by simp [initial]
  obsLen := by simp [initial]
  ahead := by
    intro q _ hq
    simp [initial, hq]
  count := by simp [initial, List.count_replicate]
  request := fun h => h

theorem runRow0_treated {n p : ℕ} (hp : p < n) {tg : Lists} {r a b : Target E} (h : RunRow0 n p r a) (ha : 1 ≤ a.more)
    (ht : Treated p tg a b) : RunRow0 n (p + 1) r b := by
  have hset : a.obsPass[p]? = some false := (h.ahead p le_rfl hp).1
  have hc := h.count
  have hsum := h.sum
  have key : ∀ (o : Bool) (f : ℤ), b.obsPass = a.obsPass.set p o → b.fiber = a.fiber.set p f →
      b.numobs = a.numobs + (if o then 1 else 0) → b.more = a.more - (if o then 1 else 0) → RunRow0 n (p + 1) r b := by
    intro o f e1 e2 e3 e4
    refine ⟨ht.input.trans h.input, by rw [e3, e4]; omega, by rw [e2]; simp [h.fiberLen], by rw [e1]; simp [h.obsLen], ?_, ?_, ?_⟩
    · intro k hk hkn
      have hne : p ≠ k := by omega
      rw [e1, e2, List.getElem?_set_ne hne, List.getElem?_set_ne hne]
      exact h.ahead k (by omega) hkn
    · rw [e1, count_set_true hset, e3]
      cases o <;> push_cast <;> simp [hc]
    · intro _
      rw [e4]
      cases o <;> simp <;> omega
  by_cases ho : ∃ f, (a.tid, f) ∈ tg.1
  · obtain ⟨e1, e2, e3, f, _, e4⟩ := ht.observed ho
    exact key true f e3 e4 e1 e2
  · obtain ⟨e1, e2, e3, e4, e5⟩ := ht.spared ho
    by_cases hv : ∃ f, (a.tid, f) ∈ tg.2
    · obtain ⟨f, hf⟩ := Option.isSome_iff_exists.1 (isSome_iff.2 hv)
      exact key false f e3 (e4 f (fiberIn_first.1 hf)) (by simpa using e1) (by simpa using e2)
    · exact key false (-1) e3 (e5 hv) (by simpa using e1) (by simpa using e2)

theorem run0_rows {w : World0 E S} {sched : Spread E S} (hs : ∀ p sub, Csort PRow.tile sub (sched.targets p sub)) {tiles : List Tile}
    {npasses : ℕ} {useSky : Bool} {ranks out : List (List (Target E))}
    (h : applyFiberAssignment0 w sched tiles npasses useSky none ranks = .ok out) :
    List.Forall₂ (List.Forall₂ (RunRow0 npasses npasses)) ranks out := by
  unfold applyFiberAssignment0 at h
  refine foldlM_range (I := fun p x => List.Forall₂ (List.Forall₂ (RunRow0 npasses p)) ranks x) ?_ ?_ h
  · rw [List.forall₂_map_right_iff, List.forall₂_same]
    intro l _
    rw [List.forall₂_map_right_iff, List.forall₂_same]
    intro r _
    exact runRow0_initial npasses r
  · intro p hp x y hx hxy
    have hk := C92_pass hs hxy
    have hk' : List.Forall₂ (List.Forall₂ fun r r' => (¬TakesPart w tiles p r → r' = r) ∧ (TakesPart w tiles p r →
        ∃ tg, Treated p tg r r')) x y :=
      hk.imp fun _ _ g => g.imp fun _ _ g => ⟨g.1, fun t => by obtain ⟨_, _, _, tg, _, ht⟩ := g.2 t; exact ⟨tg, ht⟩⟩
    clear hxy h hk
    induction hx generalizing y with
    | nil => cases hk'; exact .nil
    | cons h1 _ ih =>
      cases hk' with
      | cons h2 h2' =>
        refine .cons ?_ (ih _ h2')
        clear h2' ih
        rename_i l m _ _ _ l' _
        clear * - h1 h2 hp
        induction h1 generalizing l' with
        | nil => cases h2; exact .nil
        | cons g _ ih => cases h2 with
          | cons g2 g2' =>
            refine .cons ?_ (ih g2')
            rename_i a _ _ _ b _
            by_cases ht : TakesPart w tiles p a
            · obtain ⟨tg, htr⟩ := g2.2 ht
              exact runRow0_treated hp g ht.2 htr
            · rw [g2.1 ht]
              exact ⟨g.input, g.sum, g.fiberLen, g.obsLen, fun k hk hkn => g.ahead k (by omega) hkn, g.count, g.request⟩

/-- C92: whatever the assignments, tiles and ranks, and even if tiles of a pass overlap, `NUMOBS` is the number of passes of `OBS_PASS`,
which has one entry per pass, as `FIBER` has; `NUMOBS + NUMOBS_MORE` is the number of observations requested, which is never
exceeded. -/
theorem C92_conservation {w : World0 E S} {sched : Spread E S} (hs : ∀ p sub, Csort PRow.tile sub (sched.targets p sub))
    {tiles : List Tile} {npasses : ℕ} {useSky : Bool} {ranks out : List (List (Target E))}
    (h : applyFiberAssignment0 w sched tiles npasses useSky none ranks = .ok out) :
    List.Forall₂ (List.Forall₂ fun r r' => r'.numobs = r'.obsPass.count true ∧ r'.numobs + r'.more = r.more ∧
      (0 ≤ r.more → r'.numobs ≤ r.more) ∧ r'.obsPass.length = npasses ∧ r'.fiber.length = npasses) ranks out :=
  (run0_rows hs h).imp fun _ _ h => h.imp fun _ _ h =>
    ⟨h.count.symm, h.sum, fun hr => by have := h.request hr; have := h.sum; omega, h.obsLen, h.fiberLen⟩

/-- C92: rows come back on their rank and in input order, with their identifier, position and other columns. -/
theorem C92_order {w : World0 E S} {sched : Spread E S} (hs : ∀ p sub, Csort PRow.tile sub (sched.targets p sub))
    {tiles : List Tile} {npasses : ℕ} {useSky : Bool} {ranks out : List (List (Target E))}
    (h : applyFiberAssignment0 w sched tiles npasses useSky none ranks = .ok out) :
    out.map (List.map fun r => (r.tid, r.ra, r.dec, r.extra)) = ranks.map (List.map fun r => (r.tid, r.ra, r.dec, r.extra)) := by
  refine forall₂_map_eq (R := List.Forall₂ (RunRow0 npasses npasses)) (fun a b hab => ?_) (run0_rows hs h)
  exact forall₂_map_eq (R := RunRow0 npasses npasses) (fun r r' hr => hr.input) hab

/-- C92: if the assignment of tiles does not raise, the run does not raise: the check that rows are back in order never fails. -/
theorem C92_total {w : World0 E S} {sched : Spread E S} (hs : ∀ p sub, Csort PRow.tile sub (sched.targets p sub))
    (hw : ∀ T rows sky, ∃ asgn, w.engine T rows sky = .ok asgn ∧ ∃ tg, extract asgn = .ok tg) (tiles : List Tile) (npasses : ℕ)
    (useSky : Bool) (ranks : List (List (Target E))) :
    ∃ out, applyFiberAssignment0 w sched tiles npasses useSky none ranks = .ok out := by
  unfold applyFiberAssignment0
  have hstep : ∀ x p, ∃ y, passStep0 w sched tiles useSky none x p = .ok y := by
    intro x p
    rw [passStep0_eq]
    obtain ⟨back, h1, _⟩ := distribute_ok (R := fun a c => c.index = a.index)
      (hs p (subcatalog w.points (tilesOfPass tiles p) x)) (subcatalog_index w.points (tilesOfPass tiles p) x) (fun _ _ h => h)
      (work := onePass0 w useSky (tilesOfPass tiles p) none) (fun rows hr => by
        unfold onePass0
        cases ownTiles (tilesOfPass tiles p) rows with
        | nil => exact ⟨rows, rfl, List.forall₂_same.2 fun _ _ => rfl⟩
        | cons t ts =>
          obtain ⟨asgn, ha, tg, htg⟩ := hw (t :: ts) rows (assignInit w (t :: ts) useSky none)
          refine ⟨markObserved (markAvailable rows tg.2) tg.1, by simp only [ha, htg, Bind.bind, Except.bind, pure, Except.pure], ?_⟩
          rw [markAvailable_eq, markObserved_eq, List.map_map, List.forall₂_map_right_iff, List.forall₂_same]
          intro q _
          exact mtlRow_index tg q)
    simp only [Bind.bind, Except.bind, pure, Except.pure, h1]
    exact ⟨_, rfl⟩
  have : ∀ (l : List ℕ) (x : List (List (Target E))), ∃ out, l.foldlM (passStep0 w sched tiles useSky none) x = .ok out := by
    intro l
    induction l with
    | nil => intro x; exact ⟨x, rfl⟩
    | cons p l ih =>
      intro x
      obtain ⟨y, hy⟩ := hstep x p
      obtain ⟨z, hz⟩ := ih y
      exact ⟨z, by simp [List.foldlM_cons, hy, Bind.bind, Except.bind, hz]⟩
  exact this _ _

/-! ### Sky targets -/

theorem skyInPass_ok {find : List Tile → ℝ → ℝ → List ℕ} (hf : ∀ T ra dec, ∀ i ∈ find T ra dec, i < T.length)
    {skySched : List (List (Sky S × ℤ)) → List (List (Sky S × ℤ))} (hl : ∀ l, (skySched l).length = l.length) {T : List Tile}
    (hT : (T.map Tile.id).Nodup) (moved : List (List (PRow E))) (sky : List (List (Sky S))) :
    ∃ l, skyInPass find skySched T moved sky = .ok l ∧ l.length = sky.length := by
  set ids := targetTiles moved with hids
  have hlen : (T.filter fun t => t.id ∈ ids).length ≤ ids.length := by
    have h1 : ((T.filter fun t => t.id ∈ ids).map Tile.id).Nodup := hT.sublist (List.filter_sublist.map _)
    have h2 : (T.filter fun t => t.id ∈ ids).map Tile.id ⊆ ids := by
      intro i hi
      obtain ⟨t, ht, rfl⟩ := List.mem_map.1 hi
      simpa using (List.mem_filter.1 ht).2
    simpa using (List.subperm_of_subset h1 h2).length_le
  have h1 : ∀ s : FiberV0.Sky S, ∃ t, skyTile find T ids s = .ok t := by
    intro s
    unfold skyTile
    cases hc : find (T.filter fun t => t.id ∈ ids) s.ra s.dec with
    | nil => exact ⟨_, rfl⟩
    | cons i l =>
      have := hf _ _ _ i (by rw [hc]; simp)
      simp only [List.getElem?_eq_getElem (show i < ids.length by omega)]
      exact ⟨_, rfl⟩
  have h2 : ∀ (l : List (Sky S)), ∃ o, l.mapM (skyTile find T ids) = .ok o := by
    intro l
    induction l with
    | nil => exact ⟨[], rfl⟩
    | cons s l ih =>
      obtain ⟨t, ht⟩ := h1 s
      obtain ⟨o, ho⟩ := ih
      exact ⟨t :: o, by simp [List.mapM_cons, ht, ho, Bind.bind, Except.bind, pure, Except.pure]⟩
  have h3 : ∀ (l : List (Sky S)), ∃ o, skyRows find T ids l = .ok o := by
    intro l
    obtain ⟨o, ho⟩ := h2 l
    exact ⟨(l.zip o).filter fun x => decide (0 ≤ x.2), by simp only [skyRows, ho, Bind.bind, Except.bind, pure, Except.pure]⟩
  have h4 : ∀ (l : List (List (Sky S))), ∃ o, l.mapM (skyRows find T ids) = .ok o ∧ o.length = l.length := by
    intro l
    induction l with
    | nil => exact ⟨[], rfl, rfl⟩
    | cons s l ih =>
      obtain ⟨t, ht⟩ := h3 s
      obtain ⟨o, ho, hlo⟩ := ih
      exact ⟨t :: o, by simp [List.mapM_cons, ht, ho, Bind.bind, Except.bind, pure, Except.pure], by simp [hlo]⟩
  obtain ⟨o, ho, hlo⟩ := h4 sky
  refine ⟨skySched o, ?_, by rw [hl, hlo]⟩
  simp only [skyInPass, ← hids, ho, Bind.bind, Except.bind, pure, Except.pure]

/-- C93 fails: sky targets loaded before have no effect on the run, which is the one without them, with sky targets read again from
disk. -/
theorem C93_ignored_violated {w : World0 E S} {sched : Spread E S} (hs : ∀ p sub, Csort PRow.tile sub (sched.targets p sub))
    (hl : ∀ p l, (sched.sky p l).length = l.length) (hf : ∀ T ra dec, ∀ i ∈ w.find T ra dec, i < T.length) {tiles : List Tile}
    (hT : ∀ p, ((tilesOfPass tiles p).map Tile.id).Nodup) (npasses : ℕ) (useSky : Bool) (sky : List (List (Sky S)))
    (ranks : List (List (Target E))) (hr : sky.length = ranks.length) :
    applyFiberAssignment0 w sched tiles npasses useSky (some sky) ranks =
      applyFiberAssignment0 w sched tiles npasses useSky none ranks := by
  have hstep : ∀ x p, sky.length = x.length →
      passStep0 w sched tiles useSky (some sky) x p = passStep0 w sched tiles useSky none x p := by
    intro x p hx
    obtain ⟨l, h1, h2⟩ := skyInPass_ok (E := E) hf (hl p) (hT p) (sched.targets p (subcatalog w.points (tilesOfPass tiles p) x)) sky
    have hlen : (sched.targets p (subcatalog w.points (tilesOfPass tiles p) x)).length = sky.length := by
      rw [(hs p _).ranks, hx]
      unfold subcatalog
      rw [List.length_map]
      have : ∀ (k : ℕ) (m : List (List (Target E))), (cindexFrom k m).length = m.length := by
        intro k m
        induction m generalizing k with
        | nil => rfl
        | cons a m ih => simp [cindexFrom, ih]
      rw [this, List.length_map]
    rw [passStep0_eq, ← passWith_eq w (tilesOfPass tiles p) useSky (skies := l.map fun x => some (x.map Prod.fst)) _
      (by rw [List.length_map, h2, hlen]) x p]
    simp only [passStep0, skiesOf, h1, Bind.bind, Except.bind, pure, Except.pure]
  unfold applyFiberAssignment0
  have hkeep : ∀ x y p, passStep0 w sched tiles useSky none x p = .ok y → y.length = x.length := by
    intro x y p h
    exact (C92_pass hs h).length_eq.symm
  have : ∀ (ps : List ℕ) (x : List (List (Target E))), sky.length = x.length →
      ps.foldlM (passStep0 w sched tiles useSky (some sky)) x = ps.foldlM (passStep0 w sched tiles useSky none) x := by
    intro ps
    induction ps with
    | nil => intro x _; rfl
    | cons p ps ih =>
      intro x hx
      rw [List.foldlM_cons, List.foldlM_cons, hstep x p hx]
      cases hy : passStep0 w sched tiles useSky none x p with
      | error e => rfl
      | ok y =>
        simp only [Bind.bind, Except.bind]
        exact ih y (by rw [hkeep x y p hy, hx])
  exact this _ _ (by simpa using hr)

/-- C93: which sky targets are used: those on disk in the tiles of the rank. This is part of `RankLists`; here for one rank. -/
theorem C93_disk (w : World0 E S) (T : List Tile) (sky : Option (List (FiberV0.Sky S))) :
    assignInit w T true sky = w.disk T ∧ assignInit w T false sky = [] := ⟨rfl, rfl⟩

/-- The function that loads sky targets does take those it is given: it is its caller that does not pass them. -/
theorem C93_loaded (w : World0 E S) (T : List Tile) (sky : List (FiberV0.Sky S)) :
    loadSky w T true (some sky) = sky ∧ loadSky w T false (some sky) = [] := ⟨rfl, rfl⟩

/-- The tiles of the examples: a tile covers the points of its right ascension. -/
noncomputable def findOne (T : List Tile) (ra _dec : ℝ) : List ℕ := (T.zipIdx.filter fun x => decide (x.1.ra = ra)).map Prod.snd

theorem findOne_lt (T : List Tile) (ra dec : ℝ) : ∀ i ∈ findOne T ra dec, i < T.length := by
  intro i hi
  obtain ⟨x, hx, rfl⟩ := List.mem_map.1 hi
  have := List.snd_lt_of_mem_zipIdx (List.mem_filter.1 hx).1
  simpa using this

open Classical in
/-- A package that gives fiber 7 to target 1 unless there is a sky target. -/
noncomputable def takenBySky (disk : List Tile → List (FiberV0.Sky Unit)) : World0 Unit Unit where
  find := findOne
  disk := disk
  engine := fun _ _ sky => .ok
    { tiles := [0], assigned := fun _ => if sky = [] then [(0, 1)] else [],
      avail := fun _ => [(0, [1])], fiberOf := fun _ => some 7, type := fun _ => 1 }

/-- All rows go to the first rank. -/
def allFirst (E S : Type) : Spread E S := ⟨fun _ => toFirst PRow.tile, fun _ => toFirst Prod.snd⟩

theorem toFirst_length {ρ : Type} (key : ρ → ℤ) (l : List (List ρ)) : (toFirst key l).length = l.length := by
  cases l <;> simp [toFirst]

/-- A target and a tile. -/
def oneTarget : Target Unit := ⟨1, 0, 0, (), 1, 0, false, [], []⟩

/-- Its tile. -/
def tileZero : Tile := ⟨0, 0, 0, 0⟩

theorem takenBySky_extract (disk : List Tile → List (FiberV0.Sky Unit)) (T : List Tile) (rows : List (PRow Unit))
    (sky : List (FiberV0.Sky Unit)) : ∃ asgn, (takenBySky disk).engine T rows sky = .ok asgn ∧ ∃ tg, extract asgn = .ok tg ∧
      (sky = [] → tg.1 = [(1, 7)]) ∧ (sky ≠ [] → tg.1 = []) := by
  refine ⟨_, rfl, ?_⟩
  by_cases h : sky = []
  · refine ⟨([(1, 7)], [(1, 7)]), ?_, fun _ => rfl, fun e => absurd h e⟩
    simp [extract, extractTile, h, Assignment.science, Assignment.fiberAt, uniqueFirst, Bind.bind, Except.bind, pure, Except.pure]
  · refine ⟨([], []), ?_, fun e => absurd e h, fun _ => rfl⟩
    simp [extract, extractTile, h, Bind.bind, Except.bind, pure, Except.pure]

theorem oneTarget_run (disk : List Tile → List (FiberV0.Sky Unit)) : ∃ r,
    applyFiberAssignment0 (takenBySky disk) (allFirst Unit Unit) [tileZero] 1 true none [[oneTarget]] = .ok [[r]] ∧
      (r.numobs = 1 ↔ disk [tileZero] = []) := by
  obtain ⟨out, ho⟩ := C92_total (w := takenBySky disk) (sched := allFirst Unit Unit) (fun _ _ => csort_toFirst _ _)
    (fun T rows sky => by
      obtain ⟨a, h1, tg, h2, _⟩ := takenBySky_extract disk T rows sky
      exact ⟨a, h1, tg, h2⟩) [tileZero] 1 true [[oneTarget]]
  have hp : passStep0 (takenBySky disk) (allFirst Unit Unit) [tileZero] true none [[initial 1 oneTarget]] 0 = .ok out := by
    unfold applyFiberAssignment0 at ho
    simp only [List.range_succ, List.range_zero, List.nil_append, List.foldlM, Bind.bind, Except.bind, pure, Except.pure,
      List.map_cons, List.map_nil] at ho
    cases hp : passStep0 (takenBySky disk) (allFirst Unit Unit) [tileZero] true none [[initial 1 oneTarget]] 0 with
    | error e => simp [hp] at ho
    | ok o => simpa [hp] using ho
  have hk := C92_pass (fun _ _ => csort_toFirst _ _) hp
  cases hk with
  | cons h1 h2 =>
    cases h2
    cases h1 with
    | cons h3 h4 =>
      cases h4
      rename_i r
      refine ⟨r, ho, ?_⟩
      have hT : tilesOfPass [tileZero] 0 = [tileZero] := by simp [tilesOfPass, tileZero]
      have htile : ∀ (w : World Unit), w.find = findOne → tileOf w [tileZero] (initial 1 oneTarget) = 0 := by
        intro w hw
        simp [tileOf, hw, findOne, initial, oneTarget, tileZero]
      obtain ⟨rows, hrows, ⟨q, hq, _⟩, tg, htg, ht⟩ := h3.2 ⟨by rw [hT, htile _ rfl], by simp [initial, oneTarget]⟩
      have hq0 : q.tile = 0 := by
        have := (csort_toFirst PRow.tile (subcatalog (takenBySky disk).points (tilesOfPass [tileZero] 0)
          [[initial 1 oneTarget]])).rows.subset (List.mem_flatten.2 ⟨rows, hrows, hq⟩)
        obtain ⟨r0, hr0, _, k, rfl⟩ := mem_subcatalog this
        simp only [List.flatten_cons, List.flatten_nil, List.append_nil, List.mem_singleton] at hr0
        subst hr0
        simp only [toPRow, hT]
        exact htile _ rfl
      unfold RankLists at htg
      have hown : (tilesOfPass [tileZero] 0).filter (fun t => decide (∃ q ∈ rows, q.tile = t.id)) = [tileZero] := by
        rw [hT, List.filter_eq_self]
        intro t ht'
        simp only [List.mem_singleton] at ht'
        subst ht'
        simp only [decide_eq_true_eq]
        exact ⟨q, hq, hq0⟩
      rw [hown] at htg
      obtain ⟨asgn, g1, g2⟩ := htg
      simp only [if_true] at g1
      obtain ⟨asgn', g1', tg', g2', e1, e2⟩ := takenBySky_extract disk [tileZero] rows (disk [tileZero])
      have : asgn = asgn' := by
        have := g1.symm.trans g1'
        exact Except.ok.inj this
      subst this
      have : tg = tg' := Except.ok.inj (g2.symm.trans g2')
      subst this
      constructor
      · intro hr
        by_contra hne
        have := (ht.spared (by rw [e2 hne]; simp)).1
        simp [initial] at this
        omega
      · intro he
        have := (ht.observed ⟨7, by rw [e1 he]; simp [initial, oneTarget]⟩).1
        simpa [initial] using this

/-- C93 fails: the run with sky targets loaded before is not the run with these sky targets. Here there is none on disk. -/
theorem C93_not_used_violated : ∃ (sky : List (List (FiberV0.Sky Unit))) (r r' : Target Unit),
    applyFiberAssignment0 (takenBySky fun _ => []) (allFirst Unit Unit) [tileZero] 1 true (some sky) [[oneTarget]] = .ok [[r]] ∧
    applyFiberAssignment0 (takenBySky fun _ => sky.flatten) (allFirst Unit Unit) [tileZero] 1 true none [[oneTarget]] = .ok [[r']] ∧
    r.numobs = 1 ∧ r'.numobs ≠ 1 := by
  obtain ⟨r, h1, h2⟩ := oneTarget_run fun _ => []
  obtain ⟨r', h1', h2'⟩ := oneTarget_run fun _ => [⟨0, 0, ()⟩]
  refine ⟨[[⟨0, 0, ()⟩]], r, r', ?_, h1', h2.2 rfl, fun h => by simp at h2'; exact h2' h⟩
  rw [C93_ignored_violated (fun _ _ => csort_toFirst _ _) (fun _ _ => toFirst_length _ _) findOne_lt _ _ _ _ _ rfl]
  · exact h1
  · intro p
    exact (List.nodup_singleton tileZero.id).sublist (List.filter_sublist.map Tile.id)

/-- The identifiers of the tiles with targets, if tiles are in increasing order of identifiers. -/
theorem filter_ids {T : List Tile} (hsort : (T.map Tile.id).Pairwise (· < ·)) {ids : List ℤ} (hi : ids.Pairwise (· < ·))
    (hsub : ∀ i ∈ ids, i ∈ T.map Tile.id) : (T.filter fun t => decide (t.id ∈ ids)).map Tile.id = ids := by
  have h1 : ((T.filter fun t => decide (t.id ∈ ids)).map Tile.id).Pairwise (· < ·) := hsort.sublist (List.filter_sublist.map _)
  refine List.Perm.eq_of_pairwise (le := (· < ·)) (fun a b _ _ hab hba => absurd hab (by omega)) h1 hi ?_
  refine (List.perm_ext_iff_of_nodup (h1.imp fun h => ne_of_lt h) (hi.imp fun h => ne_of_lt h)).2 fun i => ?_
  constructor
  · intro h
    obtain ⟨t, ht, rfl⟩ := List.mem_map.1 h
    simpa using (List.mem_filter.1 ht).2
  · intro h
    obtain ⟨t, ht, rfl⟩ := List.mem_map.1 (hsub i h)
    exact List.mem_map.2 ⟨t, List.mem_filter.2 ⟨ht, by simpa using h⟩, rfl⟩

theorem targetTiles_sorted (ranks : List (List (PRow E))) : (targetTiles ranks).Pairwise (· < ·) := by
  unfold targetTiles
  have h1 := List.pairwise_mergeSort (le := fun a b : ℤ => decide (a ≤ b)) (by intro x y z; simp only [decide_eq_true_eq]; omega)
    (by intro x y; simp only [Bool.or_eq_true, decide_eq_true_eq]; omega) (ranks.flatten.map PRow.tile).dedup
  have h2 : ((ranks.flatten.map PRow.tile).dedup.mergeSort fun a b => decide (a ≤ b)).Nodup :=
    (List.mergeSort_perm _ _).nodup_iff.2 (List.nodup_dedup _)
  exact (h1.and h2).imp fun h => lt_of_le_of_ne (by simpa using h.1) h.2

theorem mem_targetTiles {ranks : List (List (PRow E))} {i : ℤ} : i ∈ targetTiles ranks ↔ ∃ q ∈ ranks.flatten, q.tile = i := by
  unfold targetTiles
  rw [List.mem_mergeSort, List.mem_dedup, List.mem_map]

/-- C93, partial: if the table of tiles is in increasing order of tile identifiers, a sky target is given the identifier of the tile
with targets that covers it, and -1 if there is none. -/
theorem C93_labels_partial {find : List Tile → ℝ → ℝ → List ℕ} {covers : Tile → ℝ → ℝ → Prop}
    (hf : ∀ T ra dec i, i ∈ find T ra dec ↔ ∃ t, T[i]? = some t ∧ covers t ra dec) {T : List Tile}
    (hsort : (T.map Tile.id).Pairwise (· < ·)) {ranks : List (List (PRow E))} (hsub : ∀ q ∈ ranks.flatten, q.tile ∈ T.map Tile.id)
    (s : FiberV0.Sky S) : ∃ k, skyTile find T (targetTiles ranks) s = .ok k ∧
      ((k = -1 ∧ ∀ t ∈ T, (∃ q ∈ ranks.flatten, q.tile = t.id) → ¬covers t s.ra s.dec) ∨
        ∃ t ∈ T, (∃ q ∈ ranks.flatten, q.tile = t.id) ∧ covers t s.ra s.dec ∧ k = t.id) := by
  have hids := filter_ids hsort (targetTiles_sorted ranks) (fun i hi => by
    obtain ⟨q, hq, rfl⟩ := mem_targetTiles.1 hi
    exact hsub q hq)
  unfold skyTile
  set F := T.filter fun t => decide (t.id ∈ targetTiles ranks) with hF
  have memF : ∀ t, t ∈ F ↔ t ∈ T ∧ ∃ q ∈ ranks.flatten, q.tile = t.id := by
    intro t
    rw [hF, List.mem_filter, decide_eq_true_eq, mem_targetTiles]
  cases hc : find F s.ra s.dec with
  | nil =>
    refine ⟨-1, rfl, Or.inl ⟨rfl, fun t ht hq hcov => ?_⟩⟩
    obtain ⟨i, hi, he⟩ := List.mem_iff_getElem.mp ((memF t).2 ⟨ht, hq⟩)
    have := (hf F s.ra s.dec i).2 ⟨t, by rw [List.getElem?_eq_getElem hi, he], hcov⟩
    rw [hc] at this
    simp at this
  | cons i l =>
    obtain ⟨t, ht, hcov⟩ := (hf F s.ra s.dec i).1 (by rw [hc]; simp)
    have hi : (targetTiles ranks)[i]? = some t.id := by rw [← hids, List.getElem?_map, ht]; rfl
    simp only [hi]
    have := (memF t).1 (List.mem_of_getElem? ht)
    exact ⟨t.id, rfl, Or.inr ⟨t, this.1, this.2, hcov, rfl⟩⟩

theorem findOne_covers (T : List Tile) (ra dec : ℝ) (i : ℕ) : i ∈ findOne T ra dec ↔ ∃ t, T[i]? = some t ∧ t.ra = ra := by
  unfold findOne
  simp only [List.mem_map, List.mem_filter, decide_eq_true_eq, Prod.exists, exists_eq_right]
  constructor
  · rintro ⟨t, h, he⟩
    exact ⟨t, by simpa using List.mem_zipIdx_iff_getElem?.1 h, he⟩
  · rintro ⟨t, h, he⟩
    exact ⟨t, List.mem_zipIdx_iff_getElem?.2 (by simpa using h), he⟩

/-- A row on a tile. -/
def rowOn (t : ℤ) : PRow Unit := ⟨t, 0, 0, (), 1, 0, false, t, false, -1, 0⟩

/-- C93 fails if the table of tiles is in another order: a sky target on tile 5 is said to be on tile 3. -/
theorem C93_labels_violated : ∃ (T : List Tile) (s : FiberV0.Sky Unit) (t : Tile), t ∈ T ∧ t.id = 5 ∧ t.ra = s.ra ∧
    (∀ t' ∈ T, t'.ra = s.ra → t' = t) ∧ skyTile findOne T (targetTiles [[rowOn 3, rowOn 5]]) s = .ok 3 := by
  refine ⟨[⟨5, 0, 1, 0⟩, ⟨3, 0, 2, 0⟩], ⟨1, 0, ()⟩, ⟨5, 0, 1, 0⟩, by simp, rfl, rfl, ?_, ?_⟩
  · intro t' ht' he
    simp only [List.mem_cons, List.not_mem_nil, or_false] at ht'
    rcases ht' with rfl | rfl
    · rfl
    · norm_num at he
  · have h1 : targetTiles [[rowOn 3, rowOn 5]] = [3, 5] := by
      refine List.Perm.eq_of_pairwise (le := (· < ·)) (fun a b _ _ hab hba => absurd hab (by omega)) (targetTiles_sorted _)
        (by simp) ?_
      refine (List.perm_ext_iff_of_nodup ((targetTiles_sorted _).imp fun h => ne_of_lt h) (by simp)).2 fun i => ?_
      rw [mem_targetTiles]
      simp [rowOn, eq_comm]
    rw [h1]
    simp [skyTile, findOne]

/-- C93 fails if a tile is listed twice in the table of tiles: a sky target on the second of them raises `IndexError`. -/
theorem C93_repeated_violated : ∃ (T : List Tile) (s : FiberV0.Sky Unit), skyTile findOne T (targetTiles [[rowOn 3]]) s = .error .indexError ∧
    skyRows findOne T (targetTiles [[rowOn 3]]) [s] = .error .indexError := by
  have h1 : targetTiles [[rowOn 3]] = [3] := by
    refine List.Perm.eq_of_pairwise (le := (· < ·)) (fun a b _ _ hab hba => absurd hab (by omega)) (targetTiles_sorted _)
      (by simp) ?_
    refine (List.perm_ext_iff_of_nodup ((targetTiles_sorted _).imp fun h => ne_of_lt h) (by simp)).2 fun i => ?_
    rw [mem_targetTiles]
    simp [rowOn, eq_comm]
  have h2 : skyTile findOne [⟨3, 0, 1, 0⟩, ⟨3, 0, 2, 0⟩] (targetTiles [[rowOn 3]]) (⟨2, 0, ()⟩ : FiberV0.Sky Unit) = .error .indexError := by
    rw [h1]
    simp [skyTile, findOne]
  exact ⟨_, _, h2, by simp [skyRows, h2, Bind.bind, Except.bind]⟩

/-- Non-vacuity of `C93_labels_partial`: two tiles in order. -/
example : (∀ T ra dec i, i ∈ findOne T ra dec ↔ ∃ t, T[i]? = some t ∧ (fun t ra _ => t.ra = ra : Tile → ℝ → ℝ → Prop) t ra dec) ∧
    ([(⟨3, 0, 2, 0⟩ : Tile), ⟨5, 0, 1, 0⟩].map Tile.id).Pairwise (· < ·) ∧
    ∀ q ∈ [[rowOn 3, rowOn 5]].flatten, q.tile ∈ [(⟨3, 0, 2, 0⟩ : Tile), ⟨5, 0, 1, 0⟩].map Tile.id :=
  ⟨findOne_covers, by simp, by simp [rowOn]⟩

/-! ### Files of sky targets -/

/-- C93: with FITS files, exactly the rows of the files of the directory whose name ends with `.fits` that lie in a tile are read, in
order. -/
theorem C93_read {inTiles : List Tile → ℝ → ℝ → Bool} {read : List Char → Except Err (List (FiberV0.Sky S))} {dirname : List Char}
    {names : List (List Char)} {tiles : List Tile} {content : List Char → List (FiberV0.Sky S)}
    (hr : ∀ n ∈ names, n.drop (n.length - 5) = ".fits".toList → read (joinPath dirname n) = .ok (content n)) :
    readSkyTargets inTiles read .fits dirname names tiles =
      .ok (((names.filter fun n => decide (n.drop (n.length - 5) = ".fits".toList)).flatMap content).filter
        fun s => inTiles tiles s.ra s.dec) := by
  have hsuf : ∀ n : List Char, (".fits".toList).isSuffixOf n = decide (n.drop (n.length - 5) = ".fits".toList) := by
    intro n
    rw [Bool.eq_iff_iff, List.isSuffixOf_iff_suffix, decide_eq_true_eq, List.suffix_iff_eq_drop, eq_comm]
    rfl
  have hm : ∀ l : List (List Char), (∀ n ∈ l, n ∈ names ∧ n.drop (n.length - 5) = ".fits".toList) →
      (l.map (joinPath dirname)).mapM read = .ok (l.map content) := by
    intro l
    induction l with
    | nil => intro _; rfl
    | cons n l ih =>
      intro h
      have h1 := h n (by simp)
      rw [List.map_cons, List.mapM_cons, hr n h1.1 h1.2, ih fun m hm => h m (by simp [hm])]
      rfl
  unfold readSkyTargets skyFiles
  simp only [hsuf, Bind.bind, Except.bind, pure, Except.pure]
  rw [hm _ fun n hn => by simpa using List.mem_filter.1 hn]
  simp only [List.flatMap_def]

/-- C93: any other type of files is refused. -/
theorem C93_type {inTiles : List Tile → ℝ → ℝ → Bool} {read : List Char → Except Err (List (FiberV0.Sky S))} (dirname : List Char)
    (names : List (List Char)) (tiles : List Tile) : readSkyTargets inTiles read .other dirname names tiles = .error .nameError := rfl

/-- C93: bigfiles, in a directory without dot: the rows in a tile of those whose name has no dot, in order. -/
theorem C93_bigfile_partial {inTiles : List Tile → ℝ → ℝ → Bool} {read : List Char → Except Err (List (FiberV0.Sky S))} {dirname : List Char}
    (hdir : '.' ∉ dirname) {names : List (List Char)} {tiles : List Tile} {content : List Char → List (FiberV0.Sky S)}
    (hr : ∀ n ∈ names, '.' ∉ n → read (joinPath dirname n) = .ok (content n)) :
    readSkyTargets inTiles read .bigfile dirname names tiles =
      .ok (((names.filter fun n => decide ('.' ∉ n)).flatMap content).filter fun s => inTiles tiles s.ra s.dec) := by
  have hjoin : ∀ n : List Char, ((joinPath dirname n).contains '.') = n.contains '.' := by
    intro n
    rw [Bool.eq_iff_iff]
    unfold joinPath
    split <;> simp [hdir]
  have hf : (names.map (joinPath dirname)).filter (fun n => ! n.contains '.') = (names.filter fun n => decide ('.' ∉ n)).map (joinPath dirname) := by
    rw [List.filter_map]
    congr 1
    apply List.filter_congr
    intro n _
    simp only [Function.comp_apply, hjoin]
    by_cases h : '.' ∈ n <;> simp [h]
  have hm : ∀ l : List (List Char), (∀ n ∈ l, n ∈ names ∧ '.' ∉ n) → (l.map (joinPath dirname)).mapM read = .ok (l.map content) := by
    intro l
    induction l with
    | nil => intro _; rfl
    | cons n l ih =>
      intro h
      have h1 := h n (by simp)
      rw [List.map_cons, List.mapM_cons, hr n h1.1 h1.2, ih fun m hm => h m (by simp [hm])]
      rfl
  unfold readSkyTargets skyFiles
  simp only [Bind.bind, Except.bind, pure, Except.pure, hf]
  rw [hm _ fun n hn => by simpa using List.mem_filter.1 hn]
  simp only [List.flatMap_def]

/-- C93 fails with bigfile in a directory that has a dot in its path: nothing is read. -/
theorem C93_bigfile_violated {inTiles : List Tile → ℝ → ℝ → Bool} {read : List Char → Except Err (List (FiberV0.Sky S))}
    {dirname : List Char} (h : '.' ∈ dirname) (names : List (List Char)) (tiles : List Tile) :
    readSkyTargets inTiles read .bigfile dirname names tiles = .ok [] := by
  have : (names.map (joinPath dirname)).filter (fun n => ! n.contains '.') = [] := by
    rw [List.filter_eq_nil_iff]
    intro n hn
    obtain ⟨m, _, rfl⟩ := List.mem_map.1 hn
    unfold joinPath
    split_ifs <;> simp [h]
  unfold readSkyTargets skyFiles
  simp only [Bind.bind, Except.bind, pure, Except.pure, this, List.mapM_nil]
  rfl

/-! ### Calls in which all ranks take part -/

/-- A run of MPI ranks, each with a list of collective calls to make: a call goes through once all ranks are at this call, and the run
ends when no rank has a call left. -/
inductive Completes : List (List Call) → Prop
  | done {ranks : List (List Call)} (h : ∀ l ∈ ranks, l = []) : Completes ranks
  | call {ranks : List (List Call)} (c : Call) (h : Completes ranks) : Completes (ranks.map fun l => c :: l)

/-- A run ends if and only if all ranks make the same calls. -/
theorem completes_iff {ranks : List (List Call)} : Completes ranks ↔ ∀ l ∈ ranks, ∀ l' ∈ ranks, l = l' := by
  constructor
  · intro h
    induction h with
    | done h => intro l hl l' hl'; rw [h l hl, h l' hl']
    | call c _ ih =>
      intro l hl l' hl'
      obtain ⟨k, hk, rfl⟩ := List.mem_map.1 hl
      obtain ⟨k', hk', rfl⟩ := List.mem_map.1 hl'
      rw [ih k hk k' hk']
  · intro h
    cases ranks with
    | nil => exact .done (by simp)
    | cons a ranks =>
      have : ∀ (calls : List Call) (n : ℕ), Completes (List.replicate n calls) := by
        intro calls
        induction calls with
        | nil => intro n; exact .done fun l hl => List.eq_of_mem_replicate hl
        | cons c calls ih =>
          intro n
          have := Completes.call c (ih n)
          rwa [List.map_replicate] at this
      have e : a :: ranks = List.replicate (ranks.length + 1) a := by
        rw [List.eq_replicate_iff]
        exact ⟨by simp, fun b hb => h b hb a (by simp)⟩
      rw [e]
      exact this a _

/-- C94: in the current version, all ranks make the same calls, whichever tiles they have: the run does not hang, nor does the
computation of completeness weights, in either version. -/
theorem C94_current (npasses : ℕ) (own : List (ℕ → Bool)) :
    Completes (own.map (runCalls npasses)) ∧ Completes (own.map (weightCalls npasses)) := by
  have h1 : ∀ f g : ℕ → Bool, runCalls npasses f = runCalls npasses g := by
    intro f g
    unfold runCalls passCalls tileCalls
    simp
  have h2 : ∀ f g : ℕ → Bool, weightCalls npasses f = weightCalls npasses g := by
    intro f g
    unfold weightCalls tileCalls
    simp
  refine ⟨completes_iff.2 fun l hl l' hl' => ?_, completes_iff.2 fun l hl l' hl' => ?_⟩ <;>
  · obtain ⟨f, _, rfl⟩ := List.mem_map.1 hl
    obtain ⟨g, _, rfl⟩ := List.mem_map.1 hl'
    first | exact h1 f g | exact h2 f g

theorem passCalls0_cancel {sky a b : Bool} {x y : List Call} (h : passCalls0 sky a ++ x = passCalls0 sky b ++ y) : a = b ∧ x = y := by
  cases sky <;> cases a <;> cases b <;> simp [passCalls0, tileCalls0, List.replicate] at h ⊢ <;> exact h

/-- C94, the earlier version: in a pass, ranks with tiles wait ten times more than ranks without; all other calls are the same, and both
start with the same calls, those that spread targets and sky targets over ranks. -/
theorem C94_extra (sky : Bool) : ∃ before after, passCalls0 sky false = before ++ after ∧
    passCalls0 sky true = before ++ List.replicate 10 .barrier ++ after ∧ before.count .csort = (if sky then 2 else 1) ∧
    after = [.barrier, .csort, .barrier] := by
  cases sky
  · exact ⟨[.cindex, .csort, .barrier, .gather], _, rfl, rfl, rfl, rfl⟩
  · exact ⟨[.cindex, .csort, .barrier, .gather, .gather, .barrier, .barrier, .csort, .barrier], _, rfl, rfl, rfl, rfl⟩

/-- C94, the earlier version: the run ends if and only if, in each pass, either all ranks have tiles or none has. -/
theorem C94_earlier_iff (sky : Bool) (npasses : ℕ) (own : List (ℕ → Bool)) :
    Completes (own.map (runCalls0 sky npasses)) ↔ ∀ p < npasses, (∀ f ∈ own, f p = true) ∨ (∀ f ∈ own, f p = false) := by
  have key : ∀ f g : ℕ → Bool, runCalls0 sky npasses f = runCalls0 sky npasses g ↔ ∀ p < npasses, f p = g p := by
    intro f g
    have : ∀ (ps : List ℕ) (x : List Call), ps.flatMap (fun p => passCalls0 sky (f p)) ++ x = ps.flatMap (fun p => passCalls0 sky (g p)) ++ x ↔
        ∀ p ∈ ps, f p = g p := by
      intro ps
      induction ps with
      | nil => simp
      | cons p ps ih =>
        intro x
        rw [List.flatMap_cons, List.flatMap_cons, List.append_assoc, List.append_assoc]
        constructor
        · intro h
          obtain ⟨h1, h2⟩ := passCalls0_cancel h
          intro q hq
          rcases List.mem_cons.1 hq with rfl | hq
          · exact h1
          · exact (ih x).1 h2 q hq
        · intro h
          rw [h p (by simp), (ih x).2 fun q hq => h q (by simp [hq])]
    unfold runCalls0
    rw [List.append_assoc, List.append_assoc, List.append_right_inj, this]
    simp
  rw [completes_iff]
  constructor
  · intro h p hp
    have h' : ∀ f ∈ own, ∀ g ∈ own, f p = g p := fun f hf g hg =>
      (key f g).1 (h _ (List.mem_map.2 ⟨f, hf, rfl⟩) _ (List.mem_map.2 ⟨g, hg, rfl⟩)) p hp
    cases own with
    | nil => left; simp
    | cons f own =>
      cases hv : f p with
      | true => left; intro g hg; rw [h' g hg f (by simp), hv]
      | false => right; intro g hg; rw [h' g hg f (by simp), hv]
  · intro h l hl l' hl'
    obtain ⟨f, hf, rfl⟩ := List.mem_map.1 hl
    obtain ⟨g, hg, rfl⟩ := List.mem_map.1 hl'
    refine (key f g).2 fun p hp => ?_
    rcases h p hp with h | h <;> rw [h f hf, h g hg]

/-- The rank has a tile of the pass. -/
def hasTile (T : List Tile) (rows : List (PRow E)) : Bool := decide (ownTiles T rows ≠ [])

theorem hasTile_iff {T : List Tile} {rows : List (PRow E)} (h : ∀ q ∈ rows, q.tile ∈ T.map Tile.id) :
    hasTile T rows = true ↔ rows ≠ [] := by
  unfold hasTile ownTiles
  rw [decide_eq_true_eq]
  constructor
  · rintro h1 rfl
    simp at h1
  · intro h1
    cases rows with
    | nil => exact absurd rfl h1
    | cons q rows =>
      obtain ⟨t, ht, he⟩ := List.mem_map.1 (h q (by simp))
      intro e
      have : t ∈ T.filter fun t => decide (t.id ∈ (q :: rows).map PRow.tile) := List.mem_filter.2 ⟨ht, by simp [he]⟩
      rw [e] at this
      simp at this

/-- C94 fails in the earlier version when there are more ranks than tiles in a pass in which some target takes part: whatever the exchange of
rows, some ranks wait for others inside the assignment while others do not enter it, and the pass does not end. -/
theorem C94_more_ranks_violated {w : World0 E S} {sched : Spread E S} (hs : ∀ p sub, Csort PRow.tile sub (sched.targets p sub))
    {tiles : List Tile} {ranks : List (List (Target E))} {p : ℕ} (sky : Bool) {r : Target E} (hr : r ∈ ranks.flatten)
    (ht : TakesPart w tiles p r) (hmore : (tilesOfPass tiles p).length < ranks.length) :
    ¬Completes ((sched.targets p (subcatalog w.points (tilesOfPass tiles p) ranks)).map fun rows =>
      passCalls0 sky (hasTile (tilesOfPass tiles p) rows)) := by
  set T := tilesOfPass tiles p with hT
  set sub := subcatalog w.points T ranks with hsub
  set moved := sched.targets p sub with hmoved
  have hc : Csort PRow.tile sub moved := hs p sub
  have htile : ∀ rows ∈ moved, ∀ q ∈ rows, q.tile ∈ T.map Tile.id := fun rows hrows q hq =>
    sub_tiles (w := w) (ranks := ranks) q (hc.rows.subset (List.mem_flatten.2 ⟨rows, hrows, hq⟩))
  have hlen : moved.length = ranks.length := by
    rw [hc.ranks, hsub]
    unfold subcatalog
    have : ∀ (k : ℕ) (m : List (List (Target E))), (cindexFrom k m).length = m.length := by
      intro k m
      induction m generalizing k with
      | nil => rfl
      | cons a m ih => simp [cindexFrom, ih]
    rw [List.length_map, this, List.length_map]
  -- some rank has rows
  have hsome : ∃ rows ∈ moved, rows ≠ [] := by
    by_contra hcon
    push Not at hcon
    have h0 : sub.flatten = [] := by
      rw [← List.Perm.nil_eq (hc.rows.symm.trans (by rw [List.flatten_eq_nil_iff.2 hcon])).symm]
    rw [hsub, subcatalog_flatten, List.map_eq_nil_iff, List.zipIdx_eq_nil_iff, List.filter_eq_nil_iff] at h0
    exact h0 r hr (selected_iff.2 ht)
  -- some rank has none
  have hnone : ∃ rows ∈ moved, rows = [] := by
    by_contra hcon
    push Not at hcon
    have hnd : (moved.map fun rows => (rows.head?.map PRow.tile).getD 0).Nodup := by
      unfold List.Nodup
      rw [List.pairwise_map]
      refine hc.together.imp_of_mem fun {a b} ha hb hab => ?_
      cases a with
      | nil => exact absurd rfl (hcon _ ha)
      | cons x a =>
        cases b with
        | nil => exact absurd rfl (hcon _ hb)
        | cons y b => simpa using hab x (by simp) y (by simp)
    have hss : (moved.map fun rows => (rows.head?.map PRow.tile).getD 0) ⊆ T.map Tile.id := by
      intro i hi
      obtain ⟨rows, hrows, rfl⟩ := List.mem_map.1 hi
      cases rows with
      | nil => exact absurd rfl (hcon _ hrows)
      | cons q rows => simpa using htile _ hrows q (by simp)
    have := (List.subperm_of_subset hnd hss).length_le
    rw [List.length_map, List.length_map, hlen] at this
    omega
  obtain ⟨a, ha, hane⟩ := hsome
  obtain ⟨b, hb, hb0⟩ := hnone
  intro hcomp
  have e := completes_iff.1 hcomp _ (List.mem_map.2 ⟨a, ha, rfl⟩) _ (List.mem_map.2 ⟨b, hb, rfl⟩)
  have h1 : hasTile T a = true := (hasTile_iff (htile a ha)).2 hane
  have h2 : hasTile T b = false := by
    rw [Bool.eq_false_iff]
    exact fun h => (hasTile_iff (htile b hb)).1 h hb0
  have := (passCalls0_cancel (x := []) (y := []) (by simpa using e)).1
  rw [h1, h2] at this
  cases this

/-- Non-vacuity: two ranks, one tile. -/
example : ∃ (w : World0 Unit Unit) (tiles : List Tile) (ranks : List (List (Target Unit))) (r : Target Unit),
    r ∈ ranks.flatten ∧ TakesPart w tiles 0 r ∧ (tilesOfPass tiles 0).length < ranks.length ∧
    ∀ p sub, Csort PRow.tile sub ((allFirst Unit Unit).targets p sub) :=
  ⟨takenBySky fun _ => [], [tileZero], [[oneTarget], []], oneTarget, by simp, by
    have hT : tilesOfPass [tileZero] 0 = [tileZero] := by simp [tilesOfPass, tileZero]
    refine ⟨?_, by simp [oneTarget]⟩
    rw [hT]
    simp [tileOf, World0.points, takenBySky, findOne, oneTarget, tileZero], by
    simp [tilesOfPass, tileZero], fun _ _ => csort_toFirst _ _⟩

end Verif.Props.FiberV0
