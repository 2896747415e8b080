import Verif.Lemmas.FiberRun

/-!
# Fiber assignment (C51, C52, C54)

The assignment of one tile (`fiberassign`), the tiles over a point (`desimodel`) and the flags of spectra are arbitrary; the spread of
rows over ranks is arbitrary as long as rows of one tile go to one rank.
-/

namespace Verif.Props

open Verif Verif.Model Verif.Model.Fiber Verif.Spec.Fiber Verif.Lemmas.Fiber

variable {E : Type}

/-- The input columns of a target. -/
def inputOf (r : Target E) : ℤ × ℝ × ℝ × E := (r.tid, r.ra, r.dec, r.extra)

/-- The rows of the run, pass after pass. -/
structure RunRow (n p : ℕ) (r r' : Target E) : Prop where
  input : inputOf r' = inputOf r
  sum : r'.numobs + r'.more = r.more
  fiberLen : r'.fiber.length = n
  obsLen : r'.obsPass.length = n
  ahead : ∀ q, p ≤ q → q < n → r'.obsPass[q]? = some false ∧ r'.fiber[q]? = some (-1)
  count : (r'.obsPass.count true : ℤ) ≤ r'.numobs

theorem count_set_true {l : List Bool} {p : ℕ} (h : l[p]? = some false) (b : Bool) :
    (l.set p b).count true = l.count true + if b then 1 else 0 := by
  induction l generalizing p with
  | nil => simp at h
  | cons a l ih =>
    cases p with
    | zero =>
      simp only [List.getElem?_cons_zero, Option.some.injEq] at h
      subst h
      cases b <;> simp
    | succ p =>
      rw [List.getElem?_cons_succ] at h
      rw [List.set_cons_succ, List.count_cons, List.count_cons, ih h]
      omega

theorem runRow_initial (n : ℕ) (r : Target E) : RunRow n 0 r (initial n r) where
  input := rfl
  sum := by simp [initial]
  fiberLen := by simp [initial]
  obsLen := by simp [initial]
  ahead := by
    intro q _ hq
    simp [initial, hq]
  count := by simp [initial, List.count_replicate]

theorem runRow_step {n p : ℕ} (hp : p < n) {w : World E} {T : List Tile} {r a b : Target E} (h : RunRow n p r a)
    (hw : Written (update p) (selected w T) (fun r q => ∃ j, Kept (toPRow w T r j) q) a b) : RunRow n (p + 1) r b := by
  unfold Written at hw
  split_ifs at hw with hs
  · obtain ⟨q, ⟨j, hk⟩, rfl⟩ := hw
    obtain ⟨_, _, _, hsum, hnum, _, _⟩ := hk
    have hset : a.obsPass[p]? = some false := (h.ahead p le_rfl hp).1
    refine ⟨h.input, ?_, by simp [update, h.fiberLen], by simp [update, h.obsLen], ?_, ?_⟩
    · have := h.sum
      simp only [toPRow] at hsum
      simp only [update]
      omega
    · intro k hk hkn
      have := h.ahead k (by omega) hkn
      have hne : p ≠ k := by omega
      simpa [update, List.getElem?_set, hne] using this
    · have := h.count
      have hnum' : a.numobs + (if q.obs = true then 1 else 0) ≤ q.numobs := by simpa [toPRow] using hnum
      simp only [update, count_set_true hset]
      rcases hq : q.obs <;> simp only [hq, if_true, if_false, Bool.false_eq_true] at hnum' ⊢ <;> push_cast <;> omega
  · subst hw
    exact ⟨h.input, h.sum, h.fiberLen, h.obsLen, fun k hk hkn => h.ahead k (by omega) hkn, h.count⟩

theorem run_rows {w : World E} {sched : ℕ → List (List (PRow E)) → List (List (PRow E))}
    (hs : ∀ p sub, Csort PRow.tile sub (sched p sub)) {tiles : List Tile} {npasses : ℕ} {ranks out : List (List (Target E))}
    (h : applyFiberAssignment w sched tiles npasses ranks = .ok out) :
    List.Forall₂ (List.Forall₂ (RunRow npasses npasses)) ranks out := by
  unfold applyFiberAssignment at h
  refine foldlM_range (I := fun p x => List.Forall₂ (List.Forall₂ (RunRow npasses p)) ranks x) ?_ ?_ h
  · rw [List.forall₂_map_right_iff, List.forall₂_same]
    intro l _
    rw [List.forall₂_map_right_iff, List.forall₂_same]
    intro r _
    exact runRow_initial npasses r
  · intro p hp x y hx hxy
    have hk := passStep_kept hs hxy
    clear hxy h
    induction hx generalizing y with
    | nil => cases hk; exact .nil
    | cons h1 _ ih =>
      cases hk with
      | cons h2 h2' =>
        refine .cons ?_ (ih _ h2')
        clear h2' ih
        rename_i l m _ _ _ l' _
        clear * - h1 h2 hp
        induction h1 generalizing l' with
        | nil => cases h2; exact .nil
        | cons g _ ih => cases h2 with
          | cons g2 g2' => exact .cons (runRow_step hp g g2) (ih g2')

/-- C51, C54: whatever the assignments, tiles and ranks, `NUMOBS + NUMOBS_MORE` is the number of observations requested,
`NUMOBS` is at least the number of passes of `OBS_PASS`, which has one entry per pass, as `FIBER` has. Rows stay where they are. -/
theorem C51_conservation {w : World E} {sched : ℕ → List (List (PRow E)) → List (List (PRow E))}
    (hs : ∀ p sub, Csort PRow.tile sub (sched p sub)) {tiles : List Tile} {npasses : ℕ} {ranks out : List (List (Target E))}
    (h : applyFiberAssignment w sched tiles npasses ranks = .ok out) :
    List.Forall₂ (List.Forall₂ fun r r' => r'.numobs + r'.more = r.more ∧ (r'.obsPass.count true : ℤ) ≤ r'.numobs ∧
      r'.obsPass.length = npasses ∧ r'.fiber.length = npasses) ranks out :=
  (run_rows hs h).imp fun _ _ h => h.imp fun _ _ h => ⟨h.sum, h.count, h.obsLen, h.fiberLen⟩

/-- C54: rows come back on their rank and in input order, with their identifier, position and other columns. -/
theorem C54_order {w : World E} {sched : ℕ → List (List (PRow E)) → List (List (PRow E))}
    (hs : ∀ p sub, Csort PRow.tile sub (sched p sub)) {tiles : List Tile} {npasses : ℕ} {ranks out : List (List (Target E))}
    (h : applyFiberAssignment w sched tiles npasses ranks = .ok out) :
    out.map (List.map fun r => (r.tid, r.ra, r.dec, r.extra)) = ranks.map (List.map fun r => (r.tid, r.ra, r.dec, r.extra)) := by
  refine forall₂_map_eq (R := List.Forall₂ (RunRow npasses npasses)) (fun a b hab => ?_) (run_rows hs h)
  exact forall₂_map_eq (R := RunRow npasses npasses) (fun r r' hr => hr.input) hab

/-- C54: the check that rows are back in order never fails: if no tile raises, the run does not raise. -/
theorem C54_total {w : World E} {sched : ℕ → List (List (PRow E)) → List (List (PRow E))}
    (hs : ∀ p sub, Csort PRow.tile sub (sched p sub)) (hw : ∀ rows t, ∃ out, oneTile w rows t = .ok out) (tiles : List Tile)
    (npasses : ℕ) (ranks : List (List (Target E))) : ∃ out, applyFiberAssignment w sched tiles npasses ranks = .ok out := by
  unfold applyFiberAssignment
  have : ∀ (l : List ℕ) (x : List (List (Target E))), ∃ out, l.foldlM (passStep w sched tiles) x = .ok out := by
    intro l
    induction l with
    | nil => intro x; exact ⟨x, rfl⟩
    | cons p l ih =>
      intro x
      obtain ⟨y, hy⟩ := passStep_total hs hw tiles x p
      obtain ⟨z, hz⟩ := ih y
      exact ⟨z, by simp [List.foldlM_cons, hy, Bind.bind, Except.bind, hz]⟩
  exact this _ _

/-! ### Tiles of a pass do not overlap -/

/-- Conditions on the packages and on the tiles. -/
structure SurveyOk (w : World E) (covers : Tile → ℝ → ℝ → Prop) (tiles : List Tile) (targets : List (Target E)) : Prop where
  engine : EngineOk w covers
  find : FindOk w covers
  tiles : TilesOk covers tiles targets
  tids : (targets.map Target.tid).Nodup

theorem survey_congr {w : World E} {covers : Tile → ℝ → ℝ → Prop} {tiles : List Tile} {targets targets' : List (Target E)}
    (h : SurveyOk w covers tiles targets) (hi : targets'.map inputOf = targets.map inputOf) : SurveyOk w covers tiles targets' := by
  have hm : ∀ r' ∈ targets', ∃ r ∈ targets, inputOf r = inputOf r' := by
    intro r' hr'
    have : inputOf r' ∈ targets'.map inputOf := List.mem_map.mpr ⟨r', hr', rfl⟩
    rw [hi] at this
    exact List.mem_map.mp this
  refine ⟨h.engine, h.find, ⟨h.tiles.nonneg, h.tiles.nodup, ?_⟩, ?_⟩
  · intro t ht t' ht' hp r' hr' hc hc'
    obtain ⟨r, hr, he⟩ := hm r' hr'
    simp only [inputOf, Prod.mk.injEq] at he
    rw [← he.2.1, ← he.2.2.1] at hc hc'
    exact h.tiles.disjoint t ht t' ht' hp r hr hc hc'
  · have : targets'.map Target.tid = targets.map Target.tid := by
      have e : Target.tid = Prod.fst ∘ (inputOf (E := E)) := rfl
      rw [e, ← List.map_map, hi, List.map_map]
    rw [this]
    exact h.tids

/-- What a target lies on in a pass. -/
theorem selected_iff {w : World E} {covers : Tile → ℝ → ℝ → Prop} {tiles : List Tile} {targets : List (Target E)}
    (h : SurveyOk w covers tiles targets) (p : ℕ) (r : Target E) :
    selected w (tilesOfPass tiles p) r = true ↔ (∃ t ∈ tiles, t.pass = p ∧ covers t r.ra r.dec) ∧ 1 ≤ r.more := by
  unfold selected
  rw [Bool.and_eq_true, decide_eq_true_eq, decide_eq_true_eq]
  refine and_congr_left fun _ => ?_
  rcases tileOf_spec h.find (tilesOfPass tiles p) r with ⟨h1, h2⟩ | ⟨t, ht, hc, he⟩
  · rw [h1]
    constructor
    · intro h; omega
    · rintro ⟨t, ht, hp, hc⟩
      exact absurd hc (h2 t (mem_tilesOfPass.mpr ⟨ht, hp⟩))
  · have := mem_tilesOfPass.mp ht
    rw [he]
    exact ⟨fun _ => ⟨t, this.1, this.2, hc⟩, fun _ => h.tiles.nonneg t this.1⟩

/-- What happens to a target in a pass. -/
structure PassRow (w : World E) (covers : Tile → ℝ → ℝ → Prop) (p : ℕ) (asgn : Assignment) (t : Tile) (r r' : Target E) : Prop where
  observed : ∀ f, Assigned asgn t r.tid f → Works w t f →
    r'.obsPass = r.obsPass.set p true ∧ r'.fiber = r.fiber.set p f ∧ r'.numobs = r.numobs + 1 ∧ r'.more = r.more - 1
  unobserved : (¬∃ f, Assigned asgn t r.tid f ∧ Works w t f) →
    r'.obsPass = r.obsPass.set p false ∧ r'.numobs = r.numobs ∧ r'.more = r.more
  reached : ∀ f, (¬∃ f, Assigned asgn t r.tid f ∧ Works w t f) → FirstReached asgn t r.tid f → Works w t f →
    r'.fiber = r.fiber.set p f
  unreached : (¬∃ f, Assigned asgn t r.tid f ∧ Works w t f) → (¬∃ f, FirstReached asgn t r.tid f ∧ Works w t f) →
    r'.fiber = r.fiber.set p (-1)
  available : r'.available = true ↔ r.available = true ∨ ∃ f, FirstReached asgn t r.tid f ∧ Works w t f

open Classical in
/-- The targets that a tile is assigned with: those that lie on it and ask for an observation. -/
noncomputable def askFor (covers : Tile → ℝ → ℝ → Prop) (t : Tile) (targets : List (Target E)) : List (Target E) :=
  targets.filter fun r => decide (covers t r.ra r.dec ∧ 1 ≤ r.more)

theorem onTile_subcatalog {w : World E} {covers : Tile → ℝ → ℝ → Prop} {tiles : List Tile} {ranks : List (List (Target E))}
    (h : SurveyOk w covers tiles ranks.flatten) {p : ℕ} {t : Tile} (ht : t ∈ tilesOfPass tiles p) :
    (onTile covers t (subcatalog w (tilesOfPass tiles p) ranks).flatten).map seen
      = (askFor covers t ranks.flatten).map fun r => (r.tid, r.ra, r.dec, r.extra, r.more) := by
  classical
  rw [subcatalog_flatten]
  unfold onTile askFor
  rw [List.filter_map, List.map_map]
  have e1 : ((fun r : PRow E => decide (covers t r.ra r.dec)) ∘ fun x : Target E × ℕ => toPRow w (tilesOfPass tiles p) x.1 x.2)
      = (fun r : Target E => decide (covers t r.ra r.dec)) ∘ Prod.fst := rfl
  have e2 : ((seen (E := E)) ∘ fun x : Target E × ℕ => toPRow w (tilesOfPass tiles p) x.1 x.2)
      = (fun r : Target E => (r.tid, r.ra, r.dec, r.extra, r.more)) ∘ Prod.fst := rfl
  rw [e1, e2, ← List.map_map, ← List.filter_map, List.zipIdx_map_fst, List.filter_filter]
  congr 1
  refine List.filter_congr fun r _ => ?_
  have hsel := selected_iff h p r
  have hp := mem_tilesOfPass.mp ht
  rw [Bool.eq_iff_iff, Bool.and_eq_true, decide_eq_true_eq, decide_eq_true_eq, hsel]
  constructor
  · rintro ⟨h1, _, h2⟩; exact ⟨h1, h2⟩
  · rintro ⟨h1, h2⟩; exact ⟨h1, ⟨t, hp.1, hp.2, h1⟩, h2⟩

/-- C52, C51: a pass, target by target. A target that lies on a tile of the pass and asks for an observation is treated according
to the assignment of this tile, which is made with the targets on it that ask for an observation: it is observed iff it is
assigned to a working fiber, and then has this fiber; it is made available iff the first location that can reach it with a fiber
given to a science target has a working fiber. Other targets are left as they are. -/
theorem C52_pass {w : World E} {covers : Tile → ℝ → ℝ → Prop} {sched : ℕ → List (List (PRow E)) → List (List (PRow E))}
    (hs : ∀ p sub, Csort PRow.tile sub (sched p sub)) {tiles : List Tile} {ranks out : List (List (Target E))}
    (hw : SurveyOk w covers tiles ranks.flatten) {p : ℕ} (h : passStep w sched tiles ranks p = .ok out) :
    ∃ asgn : Tile → Assignment,
      (∀ t ∈ tiles, t.pass = p → askFor covers t ranks.flatten ≠ [] → ∃ rows,
        ((onTile covers t rows).map seen).Perm ((askFor covers t ranks.flatten).map fun r => (r.tid, r.ra, r.dec, r.extra, r.more)) ∧
        w.engine t rows = .ok (asgn t)) ∧
      List.Forall₂ (List.Forall₂ fun r r' =>
        (∀ t ∈ tiles, t.pass = p → covers t r.ra r.dec → 1 ≤ r.more → PassRow w covers p (asgn t) t r r') ∧
        ((¬∃ t ∈ tiles, t.pass = p ∧ covers t r.ra r.dec ∧ 1 ≤ r.more) → r' = r)) ranks out := by
  classical
  obtain ⟨info, hinfo, hout⟩ := passStep_core hw.engine hw.find hs hw.tiles hw.tids h
  have hA : ∀ t, ∃ asgn, t ∈ tilesOfPass tiles p → askFor covers t ranks.flatten ≠ [] → ∃ rows,
      ((onTile covers t rows).map seen).Perm ((askFor covers t ranks.flatten).map fun r => (r.tid, r.ra, r.dec, r.extra, r.more)) ∧
        Outcome w t rows (info t.id) asgn := by
    intro t
    by_cases ht : t ∈ tilesOfPass tiles p ∧ askFor covers t ranks.flatten ≠ []
    · have hk : t.id ∈ (subcatalog w (tilesOfPass tiles p) ranks).flatten.map PRow.tile := by
        obtain ⟨r, hr⟩ := List.exists_mem_of_ne_nil _ ht.2
        unfold askFor at hr
        rw [List.mem_filter, decide_eq_true_eq] at hr
        have hsel := (selected_iff hw p r).mpr ⟨⟨t, (mem_tilesOfPass.mp ht.1).1, (mem_tilesOfPass.mp ht.1).2, hr.2.1⟩, hr.2.2⟩
        rw [subcatalog_flatten, List.map_map]
        have hm : r ∈ ranks.flatten.filter (selected w (tilesOfPass tiles p)) := List.mem_filter.mpr ⟨hr.1, hsel⟩
        obtain ⟨i, hi, he⟩ := List.mem_iff_getElem.mp hm
        refine List.mem_map.mpr ⟨(r, i), ?_, ?_⟩
        · rw [List.mem_zipIdx_iff_getElem?, List.getElem?_eq_getElem hi, he]
        · exact tileOf_of_covers hw.find hw.tiles hr.1 ht.1 hr.2.1
      obtain ⟨rows, _, hperm, hti⟩ := hinfo t ht.1 hk
      obtain ⟨asgn, ho⟩ := tileInfo_outcome hw.engine hti
      refine ⟨asgn, fun _ _ => ⟨rows, ?_, ho⟩⟩
      rw [← onTile_subcatalog hw ht.1]
      exact hperm.map _
    · exact ⟨⟨[], fun _ => [], fun _ => [], fun _ => none, fun _ => 0⟩, fun h1 h2 => absurd ⟨h1, h2⟩ ht⟩
  choose asgn hasgn using hA
  refine ⟨asgn, ?_, ?_⟩
  · intro t ht hp hne
    obtain ⟨rows, h1, h2⟩ := hasgn t (mem_tilesOfPass.mpr ⟨ht, hp⟩) hne
    exact ⟨rows, h1, h2.engine⟩
  · rw [hout, List.forall₂_map_right_iff, List.forall₂_same]
    intro l hl
    rw [List.forall₂_map_right_iff, List.forall₂_same]
    intro r hr
    have hrf : r ∈ ranks.flatten := List.mem_flatten.mpr ⟨l, hl, hr⟩
    constructor
    · intro t ht hp hc hm
      have htp := mem_tilesOfPass.mpr ⟨ht, hp⟩
      have hsel := (selected_iff hw p r).mpr ⟨⟨t, ht, hp, hc⟩, hm⟩
      have htile := tileOf_of_covers hw.find hw.tiles hrf htp hc
      have hne : askFor covers t ranks.flatten ≠ [] := by
        refine List.ne_nil_of_mem (a := r) ?_
        unfold askFor
        rw [List.mem_filter, decide_eq_true_eq]
        exact ⟨hrf, hc, hm⟩
      obtain ⟨rows, _, ho⟩ := hasgn t htp hne
      unfold passRow
      rw [if_pos hsel, htile]
      have htid : (toPRow w (tilesOfPass tiles p) r 0).tid = r.tid := rfl
      have hnone : (¬∃ f, Assigned (asgn t) t r.tid f ∧ Works w t f) → fiberIn (info t.id).1 r.tid = none := by
        intro hno
        cases hf : fiberIn (info t.id).1 r.tid with
        | none => rfl
        | some f => exact absurd ⟨f, (ho.observed _ _).mp hf⟩ hno
      refine ⟨?_, ?_, ?_, ?_, ?_⟩
      · intro f h1 h2
        have hf := (ho.observed r.tid f).mpr ⟨h1, h2⟩
        simp only [update, mtlRow_more, mtlRow_numobs, mtlRow_obs, mtlRow_fiber, htid, hf]
        simp [toPRow]
      · intro hno
        simp only [update, mtlRow_more, mtlRow_numobs, mtlRow_obs, htid, hnone hno]
        simp [toPRow]
      · intro f hno h1 h2
        have hf := (ho.available r.tid f).mpr ⟨h1, h2⟩
        simp only [update, mtlRow_fiber, htid, hnone hno, hf]
        simp
      · intro hno hno'
        have hf : fiberIn (info t.id).2 r.tid = none := by
          cases hf : fiberIn (info t.id).2 r.tid with
          | none => rfl
          | some f => exact absurd ⟨f, (ho.available _ _).mp hf⟩ hno'
        simp only [update, mtlRow_fiber, htid, hnone hno, hf]
        simp [toPRow]
      · simp only [update, mtlRow_available, htid, Bool.or_eq_true]
        refine or_congr Iff.rfl ?_
        rw [Option.isSome_iff_exists]
        exact exists_congr fun f => ho.available r.tid f
    · intro hno
      unfold passRow
      rw [if_neg]
      intro hsel
      obtain ⟨⟨t, ht, hp, hc⟩, hm⟩ := (selected_iff hw p r).mp hsel
      exact hno ⟨t, ht, hp, hc, hm⟩

/-- What happens to each row in a pass. -/
def PassRel (w : World E) (covers : Tile → ℝ → ℝ → Prop) (tiles : List Tile) (p : ℕ) (r r' : Target E) : Prop :=
  (∃ t ∈ tiles, t.pass = p ∧ covers t r.ra r.dec ∧ 1 ≤ r.more ∧ ∃ rows asgn, w.engine t rows = .ok asgn ∧
    PassRow w covers p asgn t r r') ∨ r' = r

theorem passRel {w : World E} {covers : Tile → ℝ → ℝ → Prop} {sched : ℕ → List (List (PRow E)) → List (List (PRow E))}
    (hs : ∀ p sub, Csort PRow.tile sub (sched p sub)) {tiles : List Tile} {ranks out : List (List (Target E))}
    (hw : SurveyOk w covers tiles ranks.flatten) {p : ℕ} (h : passStep w sched tiles ranks p = .ok out) :
    List.Forall₂ (List.Forall₂ (PassRel w covers tiles p)) ranks out := by
  classical
  obtain ⟨asgn, h1, h2⟩ := C52_pass hs hw h
  refine (forall₂_and_mem h2).imp fun l l' hl => (forall₂_and_mem hl.2).imp fun r r' hr => ?_
  by_cases hex : ∃ t ∈ tiles, t.pass = p ∧ covers t r.ra r.dec ∧ 1 ≤ r.more
  · obtain ⟨t, ht, hp, hc, hm⟩ := hex
    obtain ⟨rows, _, he⟩ := h1 t ht hp (by
      refine List.ne_nil_of_mem (a := r) ?_
      unfold askFor
      rw [List.mem_filter, decide_eq_true_eq]
      exact ⟨List.mem_flatten.mpr ⟨l, hl.1, hr.1⟩, hc, hm⟩)
    exact .inl ⟨t, ht, hp, hc, hm, rows, asgn t, he, hr.2.1 t ht hp hc hm⟩
  · exact .inr (hr.2.2 hex)

/-- Induction over the passes of a run, row by row. -/
theorem run_induct {w : World E} {covers : Tile → ℝ → ℝ → Prop} {sched : ℕ → List (List (PRow E)) → List (List (PRow E))}
    (hs : ∀ p sub, Csort PRow.tile sub (sched p sub)) {tiles : List Tile} {npasses : ℕ} {ranks out : List (List (Target E))}
    (hw : SurveyOk w covers tiles ranks.flatten) (h : applyFiberAssignment w sched tiles npasses ranks = .ok out)
    (I : ℕ → Target E → Target E → Prop) (h0 : ∀ r, I 0 r (initial npasses r))
    (hstep : ∀ p < npasses, ∀ r a b, RunRow npasses p r a → I p r a → PassRel w covers tiles p a b → I (p + 1) r b) :
    List.Forall₂ (List.Forall₂ fun r r' => RunRow npasses npasses r r' ∧ I npasses r r') ranks out := by
  unfold applyFiberAssignment at h
  refine foldlM_range (I := fun p x => List.Forall₂ (List.Forall₂ fun r r' => RunRow npasses p r r' ∧ I p r r') ranks x) ?_ ?_ h
  · rw [List.forall₂_map_right_iff, List.forall₂_same]
    intro l _
    rw [List.forall₂_map_right_iff, List.forall₂_same]
    intro r _
    exact ⟨runRow_initial npasses r, h0 r⟩
  · intro p hp x y hx hxy
    have hinput : x.flatten.map inputOf = ranks.flatten.map inputOf :=
      forall₂_map_eq (fun a b hab => hab.1.input) (forall₂_flatten hx)
    have h1 := passRel hs (survey_congr hw hinput) hxy
    have h2 := passStep_kept hs hxy
    clear hxy h hinput hw
    induction hx generalizing y with
    | nil => cases h1; exact .nil
    | cons g1 _ ih =>
      cases h1 with
      | cons k1 k1' =>
        cases h2 with
        | cons m1 m1' =>
          refine .cons ?_ (ih _ k1' m1')
          clear k1' m1' ih
          rename_i l m _ _ _ l' _
          clear * - g1 k1 m1 hp hstep
          induction g1 generalizing l' with
          | nil => cases k1; exact .nil
          | cons g _ ih =>
            cases k1 with
            | cons k k' =>
              cases m1 with
              | cons m m' => exact .cons ⟨runRow_step hp g.1 m, hstep p hp _ _ _ g.1 g.2 k⟩ (ih k' m')

/-- C51: when no target lies on two tiles of a pass, `NUMOBS` is the number of passes of `OBS_PASS`, and a target is not observed
more often than requested. -/
theorem C51_partial {w : World E} {covers : Tile → ℝ → ℝ → Prop} {sched : ℕ → List (List (PRow E)) → List (List (PRow E))}
    (hs : ∀ p sub, Csort PRow.tile sub (sched p sub)) {tiles : List Tile} {npasses : ℕ} {ranks out : List (List (Target E))}
    (hw : SurveyOk w covers tiles ranks.flatten) (h : applyFiberAssignment w sched tiles npasses ranks = .ok out) :
    List.Forall₂ (List.Forall₂ fun r r' => r'.numobs = r'.obsPass.count true ∧ r'.numobs + r'.more = r.more ∧
      (0 ≤ r.more → 0 ≤ r'.more)) ranks out := by
  have := run_induct hs hw h (fun _ r r' => r'.numobs = r'.obsPass.count true ∧ (0 ≤ r.more → 0 ≤ r'.more))
    (fun r => by simp [initial, List.count_replicate]) (fun p hp r a b hrun hI hrel => by
      rcases hrel with ⟨t, ht, hpp, hc, hm, rows, asgn, he, hrow⟩ | rfl
      · have hset := (hrun.ahead p le_rfl hp).1
        by_cases hex : ∃ f, Assigned asgn t a.tid f ∧ Works w t f
        · obtain ⟨f, h1, h2⟩ := hex
          obtain ⟨e1, e2, e3, e4⟩ := hrow.observed f h1 h2
          rw [e1, e3, e4, count_set_true hset, hI.1]
          simp only [if_true]
          exact ⟨by push_cast; ring, fun _ => by omega⟩
        · obtain ⟨e1, e3, e4⟩ := hrow.unobserved hex
          rw [e1, e3, e4, count_set_true hset, hI.1]
          simp only [Bool.false_eq_true, if_false]
          exact ⟨by push_cast; ring, hI.2⟩
      · exact hI)
  exact this.imp fun _ _ h => h.imp fun _ _ h => ⟨h.2.1, h.1.sum, h.2.2⟩

/-- All fibers given to science targets work. -/
def FibersWork (w : World E) : Prop :=
  ∀ t rows asgn, w.engine t rows = .ok asgn → ∀ id f, Assigned asgn t id f → Works w t f

/-- A target that can be reached with a fiber given to a science target has a first such fiber. -/
theorem reached_first {asgn : Assignment} {t : Tile} {id f : ℤ} (h : Reached asgn t id f) : ∃ g, FirstReached asgn t id g := by
  classical
  obtain ⟨h1, x, hx, hid, hs, hf⟩ := h
  let P : ℤ × List ℤ → Bool := fun y => decide (id ∈ y.2 ∧ ∃ g, asgn.fiberOf y.1 = some g ∧ ∃ id', Assigned asgn t id' g)
  have hP : (asgn.avail t.id).find? P ≠ none := by
    intro hnone
    have := List.find?_eq_none.mp hnone x hx
    exact this (by simp only [P, decide_eq_true_eq]; exact ⟨hid, f, hf, h1⟩)
  cases hfind : (asgn.avail t.id).find? P with
  | none => exact absurd hfind hP
  | some y =>
    rw [List.find?_eq_some_iff_append] at hfind
    obtain ⟨hy, pre, post, heq, hpre⟩ := hfind
    simp only [P, decide_eq_true_eq] at hy
    obtain ⟨hyid, g, hg, hga⟩ := hy
    refine ⟨g, pre, y, post, heq, hyid, hs, hg, hga, ?_⟩
    intro z hz hzid g' hg' hga'
    have := hpre z hz
    simp only [P, Bool.not_eq_true', decide_eq_false_iff_not] at this
    exact this ⟨hzid, g', hg', hga'⟩

/-- C52: in a pass, when all fibers given to science targets work, a target that can be reached with a fiber given to a science
target is flagged available. -/
theorem C52_reachable_partial {w : World E} {covers : Tile → ℝ → ℝ → Prop} {p : ℕ} {asgn : Assignment} {t : Tile}
    {rows : List (PRow E)} (he : w.engine t rows = .ok asgn) (hwork : FibersWork w) {r r' : Target E}
    (h : PassRow w covers p asgn t r r') {f : ℤ} (hf : Reached asgn t r.tid f) : r'.available = true := by
  rw [h.available]
  obtain ⟨g, hg⟩ := reached_first hf
  have hg' := hg
  obtain ⟨_, _, _, _, _, _, _, ⟨id', ha⟩, _⟩ := hg'
  exact .inr ⟨g, hg, hwork t rows asgn he id' g ha⟩

/-- C52: after a run, when all fibers given to science targets work, a target that was observed is flagged available, and its fiber
of each pass where it was observed is a fiber; a fiber is recorded only for available targets. -/
theorem C52_run_partial {w : World E} {covers : Tile → ℝ → ℝ → Prop} {sched : ℕ → List (List (PRow E)) → List (List (PRow E))}
    (hs : ∀ p sub, Csort PRow.tile sub (sched p sub)) {tiles : List Tile} {npasses : ℕ} {ranks out : List (List (Target E))}
    (hw : SurveyOk w covers tiles ranks.flatten) (hwork : FibersWork w)
    (h : applyFiberAssignment w sched tiles npasses ranks = .ok out) :
    List.Forall₂ (List.Forall₂ fun _ r' => ∀ q : ℕ, (r'.obsPass[q]? = some true → r'.available = true ∧ ∃ f, r'.fiber[q]? = some f ∧ 0 ≤ f) ∧
      (∀ f, r'.fiber[q]? = some f → f ≠ -1 → r'.available = true)) ranks out := by
  have := run_induct hs hw h (fun _ r r' => ∀ q : ℕ, (r'.obsPass[q]? = some true → r'.available = true ∧ ∃ f, r'.fiber[q]? = some f ∧ 0 ≤ f) ∧
      (∀ f, r'.fiber[q]? = some f → f ≠ -1 → r'.available = true))
    (fun r q => by
      simp only [initial, List.getElem?_replicate]
      split_ifs <;> simp) (fun p hp r a b hrun hI hrel => by
      rcases hrel with ⟨t, ht, hpp, hc, hm, rows, asgn, he, hrow⟩ | rfl
      · have hok := hw.engine t rows asgn he
        have hav : ∀ f, Assigned asgn t a.tid f → b.available = true := by
          intro f hf
          have hf' := hf
          obtain ⟨htt, loc, hl, hsci, hfib⟩ := hf'
          obtain ⟨ids, hm, hid⟩ := hok.reach _ hl hsci
          exact C52_reachable_partial he hwork hrow (f := f) ⟨⟨_, hf⟩, (loc, ids), hm, hid, hsci, hfib⟩
        have hmono : a.available = true → b.available = true := fun h => hrow.available.mpr (.inl h)
        have hpl : p < a.obsPass.length := by rw [hrun.obsLen]; exact hp
        have hpf : p < a.fiber.length := by rw [hrun.fiberLen]; exact hp
        by_cases hex : ∃ f, Assigned asgn t a.tid f ∧ Works w t f
        · obtain ⟨f, h1, h2⟩ := hex
          obtain ⟨e1, e2, e3, e4⟩ := hrow.observed f h1 h2
          intro q
          refine ⟨fun _ => ⟨hav f h1, ?_⟩, fun _ _ _ => hav f h1⟩
          rename_i hobs
          rw [e1, List.getElem?_set] at hobs
          rw [e2, List.getElem?_set]
          by_cases hq : p = q
          · subst hq
            simp only [if_true, hpf]
            obtain ⟨petals, _, i, hi, _⟩ := h2
            exact ⟨f, rfl, by omega⟩
          · rw [if_neg hq] at hobs ⊢
            exact ((hI q).1 hobs).2
        · obtain ⟨e1, e3, e4⟩ := hrow.unobserved hex
          intro q
          constructor
          · intro hobs
            rw [e1, List.getElem?_set] at hobs
            by_cases hq : p = q
            · subst hq
              simp [hpl] at hobs
            · rw [if_neg hq] at hobs
              have := (hI q).1 hobs
              refine ⟨hmono this.1, ?_⟩
              by_cases hex' : ∃ f, FirstReached asgn t a.tid f ∧ Works w t f
              · obtain ⟨f, h1, h2⟩ := hex'
                rw [hrow.reached f hex h1 h2, List.getElem?_set, if_neg hq]
                exact this.2
              · rw [hrow.unreached hex hex', List.getElem?_set, if_neg hq]
                exact this.2
          · intro f hf hne
            by_cases hex' : ∃ f, FirstReached asgn t a.tid f ∧ Works w t f
            · exact hrow.available.mpr (.inr hex')
            · rw [hrow.unreached hex hex', List.getElem?_set] at hf
              by_cases hq : p = q
              · subst hq
                simp only [if_true, hpf, Option.some.injEq] at hf
                exact absurd hf.symm hne
              · rw [if_neg hq] at hf
                exact hmono ((hI q).2 f hf hne)
      · exact hI)
  exact this.imp fun _ _ h => h.imp fun _ _ h => h.2

/-! ### Ranks -/

theorem tileInfo_congr {w : World E} {t : Tile} {rows rows' : List (PRow E)} (h : w.engine t rows = w.engine t rows') :
    tileInfo w t rows = tileInfo w t rows' := by
  unfold tileInfo
  rw [h]

theorem passStep_layout {w : World E} {covers : Tile → ℝ → ℝ → Prop} {sched sched' : ℕ → List (List (PRow E)) → List (List (PRow E))}
    (hs : ∀ p sub, Csort PRow.tile sub (sched p sub)) (hs' : ∀ p sub, Csort PRow.tile sub (sched' p sub)) {tiles : List Tile}
    {ranks ranks' out : List (List (Target E))} (hw : SurveyOk w covers tiles ranks.flatten) (hl : EngineLocal w covers)
    (hflat : ranks'.flatten = ranks.flatten) {p : ℕ} (h : passStep w sched tiles ranks p = .ok out) :
    ∃ g : Target E → Target E, out = ranks.map (List.map g) ∧ passStep w sched' tiles ranks' p = .ok (ranks'.map (List.map g)) := by
  obtain ⟨info, hinfo, hout⟩ := passStep_core hw.engine hw.find hs hw.tiles hw.tids h
  refine ⟨_, hout, ?_⟩
  have hsub : (subcatalog w (tilesOfPass tiles p) ranks').flatten = (subcatalog w (tilesOfPass tiles p) ranks).flatten := by
    rw [subcatalog_flatten, subcatalog_flatten, hflat]
  refine passStep_mk hw.engine hw.find hs' (by rw [hflat]; exact hw.tiles) (by rw [hflat]; exact hw.tids) info ?_
  intro t ht hk rows' hperm
  rw [hsub] at hk hperm
  obtain ⟨rows, _, h1, h2⟩ := hinfo t ht hk
  rw [tileInfo_congr (hl t rows' rows ((hperm.trans h1.symm).map _)), h2]

/-- C54: when the assignment of a tile depends on the targets that lie on it only, and no target lies on two tiles of a pass, the
result does not depend on how targets are spread over ranks, nor on how they are exchanged between ranks. -/
theorem C54_layout_partial {w : World E} {covers : Tile → ℝ → ℝ → Prop}
    {sched sched' : ℕ → List (List (PRow E)) → List (List (PRow E))}
    (hs : ∀ p sub, Csort PRow.tile sub (sched p sub)) (hs' : ∀ p sub, Csort PRow.tile sub (sched' p sub)) {tiles : List Tile}
    {npasses : ℕ} {ranks ranks' out : List (List (Target E))} (hw : SurveyOk w covers tiles ranks.flatten) (hl : EngineLocal w covers)
    (hflat : ranks'.flatten = ranks.flatten) (h : applyFiberAssignment w sched tiles npasses ranks = .ok out) :
    ∃ out', applyFiberAssignment w sched' tiles npasses ranks' = .ok out' ∧ out'.flatten = out.flatten ∧
      out'.map List.length = ranks'.map List.length := by
  unfold applyFiberAssignment at h ⊢
  have key : ∀ (l : List ℕ) (x x' out : List (List (Target E))), SurveyOk w covers tiles x.flatten → x'.flatten = x.flatten →
      (l.foldlM (passStep w sched tiles) x) = .ok out →
      ∃ out', l.foldlM (passStep w sched' tiles) x' = .ok out' ∧ out'.flatten = out.flatten ∧
        out'.map List.length = x'.map List.length := by
    intro l
    induction l with
    | nil =>
      intro x x' out _ hf h
      simp only [List.foldlM_nil, pure, Except.pure, Except.ok.injEq] at h
      exact ⟨x', rfl, by rw [hf, h], rfl⟩
    | cons p l ih =>
      intro x x' out hx hf h
      simp only [List.foldlM_cons, Bind.bind, Except.bind] at h ⊢
      cases hp : passStep w sched tiles x p with
      | error e => simp [hp] at h
      | ok y =>
        simp only [hp] at h
        obtain ⟨g, hy, hy'⟩ := passStep_layout hs hs' hx hl hf hp
        have hin : y.flatten.map inputOf = x.flatten.map inputOf := by
          have hk := passStep_kept hs hp
          refine forall₂_map_eq (fun a b hab => ?_) (forall₂_flatten hk)
          unfold Written at hab
          split_ifs at hab
          · obtain ⟨q, _, rfl⟩ := hab
            rfl
          · rw [hab]
        obtain ⟨out', h1, h2, h3⟩ := ih y (x'.map (List.map g)) out (survey_congr hx hin)
          (by rw [hy, ← List.map_flatten, ← List.map_flatten, hf]) h
        refine ⟨out', by rw [hy']; exact h1, h2, ?_⟩
        rw [h3, List.map_map]
        refine List.map_congr_left fun a _ => by simp
  obtain ⟨out', h1, h2, h3⟩ := key _ _ (ranks'.map (List.map (initial npasses))) _
    (survey_congr hw (by rw [← List.map_flatten, List.map_map]; rfl))
    (by rw [← List.map_flatten, ← List.map_flatten, hflat]) h
  refine ⟨out', h1, h2, ?_⟩
  rw [h3, List.map_map]
  refine List.map_congr_left fun a _ => by simp

end Verif.Props
