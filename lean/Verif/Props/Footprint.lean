import Verif.Spec.Footprint
import Mathlib.Data.Finset.Basic
import Mathlib.Data.List.Nodup
import Mathlib.Data.List.Basic
import Mathlib.Data.List.FinRange
import Mathlib.Tactic.Linarith

/-!
# The DESI footprint (C56, C72, C73)
-/

namespace Verif.Props

open Verif Verif.Model.Footprint Verif.Spec.Footprint

namespace Footprint

theorem length_iff {dm : Desimodel} {covers : Pos → Pos → Prop} (h : DesimodelOk dm covers) (n : ℤ) (tiles : List Pos) (p : Pos) :
    n ≤ ((dm.overPoint tiles p).length : ℤ) ↔ AtLeast covers n tiles p := by
  constructor
  · intro hn
    refine ⟨(dm.overPoint tiles p).toFinset, ?_, ?_⟩
    · rwa [List.toFinset_card_of_nodup (h.nodup tiles p)]
    · intro i hi
      exact (h.over tiles p i).1 (List.mem_toFinset.1 hi)
  · rintro ⟨rows, hn, hrows⟩
    have hsub : rows ⊆ (dm.overPoint tiles p).toFinset := fun i hi => List.mem_toFinset.2 ((h.over tiles p i).2 (hrows i hi))
    have := Finset.card_le_card hsub
    rw [List.toFinset_card_of_nodup (h.nodup tiles p)] at this
    omega

/-- The values of `redux` and `lastnight` of a source. -/
def Source.pair : Source → Option (String × Option ℤ)
  | .csv redux upTo => some (redux, upTo)
  | .ops => none

theorem releaseTable_of {release : String} {src : Source} (h : Release release.toLower src) :
    releaseTable release = .ok (Source.pair src) := by
  unfold releaseTable
  generalize release.toLower = r at h
  cases h <;> simp [Source.pair]

theorem select_of {dm : Desimodel} {release program survey : String} {tilesFn : String → String} {src : Source} {tiles : List Pos}
    (hr : Release release.toLower src) (ht : TilesAre dm tilesFn survey program src tiles) :
    selectTiles dm release program survey tilesFn = .ok tiles := by
  unfold selectTiles
  rw [releaseTable_of hr]
  cases src with
  | ops =>
    obtain ⟨table, h1, h2⟩ := ht
    simp only [bind, Except.bind, Source.pair, h1, pure, Except.pure, h2]
  | csv redux upTo =>
    obtain ⟨table, h1, h2⟩ := ht
    simp only [bind, Except.bind, Source.pair, h1, pure, Except.pure, h2]
    congr 2
    cases upTo with
    | none =>
      apply List.filter_congr
      intro t _
      simp [Selected]
    | some night =>
      simp only [List.filter_filter]
      apply List.filter_congr
      intro t _
      simp only [Selected, Option.some.injEq, forall_eq', ← Bool.decide_and, decide_eq_decide]
      tauto

theorem run_some {dm : Desimodel} {release program survey : String} {tilesFn : String → String} {src : Source} {tiles : List Pos}
    (hr : Release release.toLower src) (ht : TilesAre dm tilesFn survey program src tiles) (n : ℤ) (points : List Pos) :
    isInDesiFootprint dm points release (some n) program survey tilesFn false =
      .ok (.mask (points.map fun p => decide (n ≤ ((dm.overPoint tiles p).length : ℤ)))) ∧
    isInDesiFootprint dm points release (some n) program survey tilesFn true =
      .ok (.maskRows (points.map fun p => decide (n ≤ ((dm.overPoint tiles p).length : ℤ))) (points.map (dm.overPoint tiles))) := by
  unfold isInDesiFootprint
  simp [select_of hr ht, bind, Except.bind, pure, Except.pure, Function.comp_def]

theorem run_none {dm : Desimodel} {release program survey : String} {tilesFn : String → String} {src : Source} {tiles : List Pos}
    (hr : Release release.toLower src) (ht : TilesAre dm tilesFn survey program src tiles) (points : List Pos) :
    isInDesiFootprint dm points release none program survey tilesFn false =
      .ok (.mask (points.map fun p => (dm.inDesi tiles p).1)) ∧
    isInDesiFootprint dm points release none program survey tilesFn true =
      .ok (.maskRow (points.map fun p => (dm.inDesi tiles p).1) (points.map fun p => (dm.inDesi tiles p).2)) := by
  unfold isInDesiFootprint
  simp [select_of hr ht, bind, Except.bind, pure, Except.pure]

/-- Two tiles on a line, at RA 0 and 1, each covering the positions at RA distance at most 1. -/
noncomputable def demoCovers (t p : Pos) : Prop := |t.1 - p.1| ≤ 1

open Classical in
noncomputable def demoModel : Desimodel :=
  { readCsv := fun path => if path = "fuji" then
      .ok [⟨1000, "main", "dark", 20220101, 0, 0⟩, ⟨1001, "main", "dark", 20220101, 1, 0⟩, ⟨1002, "main", "bright", 20220101, 0, 0⟩]
      else .error .keyError
    loadTiles := .ok [⟨1000, "DARK", 0, 0⟩]
    overPoint := fun tiles p => (List.range tiles.length).filter fun i => ∃ t, tiles[i]? = some t ∧ demoCovers t p
    inDesi := fun tiles p =>
      (decide (∃ t ∈ tiles, demoCovers t p), tiles.findIdx fun t => demoCovers t p) }

open Classical in
theorem demoModel_ok : DesimodelOk demoModel demoCovers where
  nodup tiles p := List.Nodup.filter _ List.nodup_range
  over tiles p i := by
    simp only [demoModel, List.mem_filter, List.mem_range, decide_eq_true_eq]
    constructor
    · exact fun h => h.2
    · rintro ⟨t, ht, hc⟩
      exact ⟨(List.getElem?_eq_some_iff.1 ht).1, t, ht, hc⟩
  inside tiles p := by simp [demoModel]
  closest tiles p h := by
    simp only [demoModel, decide_eq_true_eq] at h ⊢
    have hlt : tiles.findIdx (fun t => decide (demoCovers t p)) < tiles.length :=
      List.findIdx_lt_length.2 (by obtain ⟨t, ht, hc⟩ := h; exact ⟨t, ht, by simpa using hc⟩)
    refine ⟨tiles[tiles.findIdx (fun t => decide (demoCovers t p))], List.getElem?_eq_getElem hlt, ?_⟩
    have := List.findIdx_getElem (w := hlt)
    simpa using this

end Footprint

open Footprint

/-- With a number of passes, a position is kept if and only if at least that many of the tiles of the release, program and survey
cover it. -/
theorem C56_passes {dm : Desimodel} {covers : Pos → Pos → Prop} (hdm : DesimodelOk dm covers) {release program survey : String}
    {tilesFn : String → String} {src : Source} {tiles : List Pos} (hr : Release release.toLower src)
    (ht : TilesAre dm tilesFn survey program src tiles) (n : ℤ) (points : List Pos) :
    ∃ m, isInDesiFootprint dm points release (some n) program survey tilesFn false = .ok (.mask m) ∧
      List.Forall₂ (fun p b => b = true ↔ AtLeast covers n tiles p) points m := by
  refine ⟨_, (run_some hr ht n points).1, ?_⟩
  · rw [List.forall₂_map_right_iff, List.forall₂_same]
    intro p _
    simp [length_iff hdm]

/-- Without a number of passes, a position is kept if and only if one of the tiles of the release, program and survey covers it. -/
theorem C56_any {dm : Desimodel} {covers : Pos → Pos → Prop} (hdm : DesimodelOk dm covers) {release program survey : String}
    {tilesFn : String → String} {src : Source} {tiles : List Pos} (hr : Release release.toLower src)
    (ht : TilesAre dm tilesFn survey program src tiles) (points : List Pos) :
    ∃ m, isInDesiFootprint dm points release none program survey tilesFn false = .ok (.mask m) ∧
      List.Forall₂ (fun p b => b = true ↔ ∃ t ∈ tiles, covers t p) points m := by
  refine ⟨_, (run_none hr ht points).1, ?_⟩
  · rw [List.forall₂_map_right_iff, List.forall₂_same]
    intro p _
    simp [hdm.inside]

/-- With `return_tile_index` and a number of passes: the same mask, and for each position the rows of all the tiles that cover it,
each once. -/
theorem C56_rows {dm : Desimodel} {covers : Pos → Pos → Prop} (hdm : DesimodelOk dm covers) {release program survey : String}
    {tilesFn : String → String} {src : Source} {tiles : List Pos} (hr : Release release.toLower src)
    (ht : TilesAre dm tilesFn survey program src tiles) (n : ℤ) (points : List Pos) :
    ∃ m rows, isInDesiFootprint dm points release (some n) program survey tilesFn true = .ok (.maskRows m rows) ∧
      isInDesiFootprint dm points release (some n) program survey tilesFn false = .ok (.mask m) ∧
      List.Forall₂ (fun p is => is.Nodup ∧ ∀ i, i ∈ is ↔ ∃ t, tiles[i]? = some t ∧ covers t p) points rows := by
  refine ⟨_, _, (run_some hr ht n points).2, (run_some hr ht n points).1, ?_⟩
  · rw [List.forall₂_map_right_iff, List.forall₂_same]
    exact fun p _ => ⟨hdm.nodup tiles p, hdm.over tiles p⟩

/-- With `return_tile_index` and no number of passes: the same mask, and for each position that is kept the row of a tile that
covers it. -/
theorem C56_row {dm : Desimodel} {covers : Pos → Pos → Prop} (hdm : DesimodelOk dm covers) {release program survey : String}
    {tilesFn : String → String} {src : Source} {tiles : List Pos} (hr : Release release.toLower src)
    (ht : TilesAre dm tilesFn survey program src tiles) (points : List Pos) :
    ∃ (m : List Bool) (row : List ℕ), isInDesiFootprint dm points release none program survey tilesFn true = .ok (.maskRow m row) ∧
      isInDesiFootprint dm points release none program survey tilesFn false = .ok (.mask m) ∧
      row.length = points.length ∧
      ∀ (i : ℕ) p j, points[i]? = some p → m[i]? = some true → row[i]? = some j → ∃ t, tiles[j]? = some t ∧ covers t p := by
  refine ⟨_, _, (run_none hr ht points).2, (run_none hr ht points).1, ?_, ?_⟩
  · simp
  · intro i p j hp hm hj
    simp only [List.getElem?_map, hp, Option.map_some, Option.some.injEq] at hm hj
    subst hj
    exact hdm.closest tiles p hm

/-- No number of passes and one pass keep the same positions. -/
theorem C56_one_pass {dm : Desimodel} {covers : Pos → Pos → Prop} (hdm : DesimodelOk dm covers) {release program survey : String}
    {tilesFn : String → String} {src : Source} {tiles : List Pos} (hr : Release release.toLower src)
    (ht : TilesAre dm tilesFn survey program src tiles) (points : List Pos) :
    isInDesiFootprint dm points release none program survey tilesFn false =
      isInDesiFootprint dm points release (some 1) program survey tilesFn false := by
  rw [(run_none hr ht points).1, (run_some hr ht 1 points).1]
  congr 2
  apply List.map_congr_left
  intro p _
  rw [Bool.eq_iff_iff, hdm.inside]
  simp only [decide_eq_true_eq, length_iff hdm]
  constructor
  · rintro ⟨t, ht, hc⟩
    obtain ⟨i, hi⟩ := List.mem_iff_getElem?.1 ht
    exact ⟨{i}, by simp, fun j hj => by rw [Finset.mem_singleton.1 hj]; exact ⟨t, hi, hc⟩⟩
  · rintro ⟨rows, hn, hrows⟩
    have : 0 < rows.card := by omega
    obtain ⟨i, hi⟩ := Finset.card_pos.1 this
    obtain ⟨t, ht, hc⟩ := hrows i hi
    exact ⟨t, List.mem_of_getElem? ht, hc⟩

/-- Asking for more passes never adds a position. -/
theorem C56_monotone_passes {dm : Desimodel} {release program survey : String}
    {tilesFn : String → String} {src : Source} {tiles : List Pos} (hr : Release release.toLower src)
    (ht : TilesAre dm tilesFn survey program src tiles) {n n' : ℤ} (hn : n ≤ n') (points : List Pos) :
    ∃ m m', isInDesiFootprint dm points release (some n) program survey tilesFn false = .ok (.mask m) ∧
      isInDesiFootprint dm points release (some n') program survey tilesFn false = .ok (.mask m') ∧
      List.Forall₂ (fun b' b => b' = true → b = true) m' m := by
  refine ⟨_, _, (run_some hr ht n points).1, (run_some hr ht n' points).1, ?_⟩
  · simp only [List.forall₂_map_right_iff, List.forall₂_map_left_iff, List.forall₂_same, decide_eq_true_eq]
    intro p _ h
    omega

/-- With more tiles in the table of the release, no position is lost: adding rows to the table, anywhere, keeps what was kept. -/
theorem C56_monotone_tiles {dm dm' : Desimodel} {covers : Pos → Pos → Prop} (hdm : DesimodelOk dm covers)
    (hdm' : DesimodelOk dm' covers) {release program survey : String} {tilesFn : String → String} {redux : String} {upTo : Option ℤ}
    (hr : Release release.toLower (.csv redux upTo)) {table table' : List CsvTile} (h : dm.readCsv (tilesFn redux) = .ok table)
    (h' : dm'.readCsv (tilesFn redux) = .ok table') (hsub : table.Sublist table') (n : ℤ) (points : List Pos) :
    ∃ m m', isInDesiFootprint dm points release (some n) program survey tilesFn false = .ok (.mask m) ∧
      isInDesiFootprint dm' points release (some n) program survey tilesFn false = .ok (.mask m') ∧
      List.Forall₂ (fun b b' => b = true → b' = true) m m' := by
  classical
  obtain ⟨m, hm, hk⟩ := C56_passes hdm (tilesFn := tilesFn) (survey := survey) (program := program) hr ⟨table, h, rfl⟩ n points
  obtain ⟨m', hm', hk'⟩ := C56_passes hdm' (tilesFn := tilesFn) (survey := survey) (program := program) hr ⟨table', h', rfl⟩ n points
  refine ⟨m, m', hm, hm', ?_⟩
  have hs := (hsub.filter (fun t => decide (Selected survey program upTo t))).map fun t => (t.tilera, t.tiledec)
  generalize (table.filter (fun t => decide (Selected survey program upTo t))).map (fun t => (t.tilera, t.tiledec)) = ts at hs hk
  generalize (table'.filter (fun t => decide (Selected survey program upTo t))).map (fun t => (t.tilera, t.tiledec)) = ts' at hs hk'
  have key : ∀ p, AtLeast covers n ts p → AtLeast covers n ts' p := by
    rintro p ⟨rows, hn, hrows⟩
    obtain ⟨f, hf⟩ := List.sublist_iff_exists_orderEmbedding_getElem?_eq.1 hs
    refine ⟨rows.map f.toEmbedding, by simpa using hn, ?_⟩
    intro i hi
    obtain ⟨j, hj, rfl⟩ := Finset.mem_map.1 hi
    obtain ⟨t, ht, hc⟩ := hrows j hj
    exact ⟨t, by rw [← ht]; exact (hf j).symm, hc⟩
  clear hm hm' h h'
  induction hk generalizing m' with
  | nil => cases hk'; exact .nil
  | cons h1 _ ih => cases hk' with | cons h2 h3 => exact .cons (fun hb => h2.2 (key _ (h1.1 hb))) (ih _ h3)

/-- A release whose name, whatever the case, is not in the list is rejected. -/
theorem C56_unknown (dm : Desimodel) {release : String} (h : ∀ src, ¬ Release release.toLower src) (program survey : String)
    (tilesFn : String → String) (npasses : Option ℤ) (points : List Pos) (index : Bool) :
    isInDesiFootprint dm points release npasses program survey tilesFn index = .error .valueError := by
  have : releaseTable release = .error .valueError := by
    unfold releaseTable
    generalize release.toLower = r at h
    have h1 : r ≠ "sv3" := fun e => h _ (by rw [e]; exact .sv3)
    have h2 : r ≠ "onepercent" := fun e => h _ (by rw [e]; exact .onepercent)
    have h3 : r ≠ "da02" := fun e => h _ (by rw [e]; exact .da02)
    have h4 : r ≠ "m3" := fun e => h _ (by rw [e]; exact .m3)
    have h5 : r ≠ "y1" := fun e => h _ (by rw [e]; exact .y1)
    have h6 : r ≠ "y3" := fun e => h _ (by rw [e]; exact .y3)
    have h7 : r ≠ "y5" := fun e => h _ (by rw [e]; exact .y5)
    simp [h1, h2, h3, h4, h5, h6, h7]
  simp [isInDesiFootprint, selectTiles, this, bind, Except.bind]

/-- If the table of tiles cannot be read, the call raises the error of the reading: there is no silent answer. -/
theorem C56_unreadable (dm : Desimodel) {release : String} {redux : String} {upTo : Option ℤ} {tilesFn : String → String} {e : Err}
    (hr : Release release.toLower (.csv redux upTo)) (h : dm.readCsv (tilesFn redux) = .error e) (program survey : String)
    (npasses : Option ℤ) (points : List Pos) (index : Bool) :
    isInDesiFootprint dm points release npasses program survey tilesFn index = .error e := by
  simp [isInDesiFootprint, selectTiles, releaseTable_of hr, Source.pair, h, bind, Except.bind]

/-- The case of the name of the release does not matter. -/
theorem C56_release_case (dm : Desimodel) {release release' : String} (h : release.toLower = release'.toLower)
    (program survey : String) (tilesFn : String → String) (npasses : Option ℤ) (points : List Pos) (index : Bool) :
    isInDesiFootprint dm points release npasses program survey tilesFn index =
      isInDesiFootprint dm points release' npasses program survey tilesFn index := by
  unfold isInDesiFootprint selectTiles releaseTable
  rw [h]

/-- For `y5` the survey, the path of the files and the case of the program do not matter. -/
theorem C56_y5 (dm : Desimodel) {release : String} (h : release.toLower = "y5") {program program' : String}
    (hp : program.toUpper = program'.toUpper) (survey survey' : String) (tilesFn tilesFn' : String → String)
    (npasses : Option ℤ) (points : List Pos) (index : Bool) :
    isInDesiFootprint dm points release npasses program survey tilesFn index =
      isInDesiFootprint dm points release npasses program' survey' tilesFn' index := by
  have hr : Release release.toLower .ops := h ▸ .y5
  unfold isInDesiFootprint selectTiles
  rw [releaseTable_of hr]
  simp only [bind, Except.bind, Source.pair, hp]

theorem Footprint.demo_tiles : TilesAre demoModel id "main" "dark" (.csv "fuji" none) [(0, 0), (1, 0)] := by
  refine ⟨_, by simp [demoModel]; rfl, ?_⟩
  simp [Selected, List.filter]

/-- The hypotheses are met: with two tiles, a position that both cover and one that a single tile covers. -/
example : DesimodelOk demoModel demoCovers ∧ Release "sv3" (.csv "fuji" none) ∧
    TilesAre demoModel id "main" "dark" (.csv "fuji" none) [(0, 0), (1, 0)] ∧
    AtLeast demoCovers 2 [(0, 0), (1, 0)] (0.5, 0) ∧ ¬ AtLeast demoCovers 2 [(0, 0), (1, 0)] (1.5, 0) ∧
    AtLeast demoCovers 1 [(0, 0), (1, 0)] (1.5, 0) := by
  refine ⟨demoModel_ok, .sv3, demo_tiles, ⟨{0, 1}, by simp, ?_⟩, ?_, ⟨{1}, by simp, ?_⟩⟩
  · intro i hi
    simp only [Finset.mem_insert, Finset.mem_singleton] at hi
    rcases hi with rfl | rfl
    · exact ⟨(0, 0), rfl, by simp only [demoCovers, abs_le]; constructor <;> norm_num⟩
    · exact ⟨(1, 0), rfl, by simp only [demoCovers, abs_le]; constructor <;> norm_num⟩
  · rintro ⟨rows, hn, hrows⟩
    have : rows ⊆ {1} := by
      intro i hi
      obtain ⟨t, ht, hc⟩ := hrows i hi
      match i, ht with
      | 0, ht =>
        simp only [List.getElem?_cons_zero, Option.some.injEq] at ht
        subst ht
        simp only [demoCovers, abs_le] at hc
        norm_num at hc
      | 1, _ => simp
      | k + 2, ht => simp at ht
    have := Finset.card_le_card this
    simp at this
    omega
  · intro i hi
    simp only [Finset.mem_singleton] at hi
    subst hi
    exact ⟨(1, 0), rfl, by simp only [demoCovers, abs_le]; constructor <;> norm_num⟩

/-! ## C73: the tile identifiers -/

/-- With `return_tile_index` the function returns rows of the selected table, not tile identifiers: here the tile 1000 is returned
as 0. -/
theorem C73_violated : DesimodelOk demoModel demoCovers ∧
    (∃ table, demoModel.readCsv "fuji" = .ok table ∧ ∀ t ∈ table, t.tileid = 1000 ∨ t.tileid = 1001 ∨ t.tileid = 1002) ∧
    ∃ release : String, release.toLower = "sv3" ∧
      isInDesiFootprint demoModel [(-0.5, 0)] release (some 1) "dark" "main" id true = .ok (.maskRows [true] [[0]]) := by
  refine ⟨demoModel_ok, ⟨_, by simp [demoModel]; rfl, by simp⟩, "sv3", ?_, ?_⟩
  · rw [← String.toList_inj, String.toLower, String.toList_map]; decide
  · have hr : Release (String.toLower "sv3") (.csv "fuji" none) := by
      have : String.toLower "sv3" = "sv3" := by rw [← String.toList_inj, String.toLower, String.toList_map]; decide
      rw [this]; exact .sv3
    have hover : demoModel.overPoint [(0, 0), (1, 0)] (-0.5, 0) = [0] := by
      have h0 : demoCovers (0, 0) (-0.5, 0) := by simp only [demoCovers, abs_le]; constructor <;> norm_num
      have h1 : ¬ demoCovers (1, 0) (-0.5, 0) := by
        intro h
        simp only [demoCovers, abs_le] at h
        norm_num at h
      simp [demoModel, List.range, List.range.loop, List.filter, h0, h1]
    unfold isInDesiFootprint
    simp [select_of hr demo_tiles, bind, Except.bind, pure, Except.pure, hover]

/-- What is returned: row `i` of the selection, hence the identifier of the tile is found by selecting the same rows of the table. -/
theorem C73_partial {dm : Desimodel} {covers : Pos → Pos → Prop} (hdm : DesimodelOk dm covers) {release program survey : String}
    {tilesFn : String → String} {redux : String} {upTo : Option ℤ} (hr : Release release.toLower (.csv redux upTo))
    {table selection : List CsvTile} (h : dm.readCsv (tilesFn redux) = .ok table)
    (hsub : selection.Sublist table) (hsel : ∀ t ∈ selection, Selected survey program upTo t)
    (hall : ∀ l : List CsvTile, l.Sublist table → (∀ t ∈ l, Selected survey program upTo t) → l.Sublist selection)
    (n : ℤ) (points : List Pos) :
    ∃ m rows, isInDesiFootprint dm points release (some n) program survey tilesFn true = .ok (.maskRows m rows) ∧
      List.Forall₂ (fun p is => is.Nodup ∧ ∀ i, i ∈ is ↔ ∃ t, selection[i]? = some t ∧ covers (t.tilera, t.tiledec) p) points rows := by
  classical
  have e : selection = table.filter (fun t => decide (Selected survey program upTo t)) := by
    apply List.Sublist.antisymm
    · have := hsub.filter (fun t => decide (Selected survey program upTo t))
      rwa [List.filter_eq_self.2 (by simpa using hsel)] at this
    · exact hall _ List.filter_sublist (by simp)
  obtain ⟨m, rows, h1, _, h3⟩ := C56_rows hdm (tilesFn := tilesFn) (survey := survey) (program := program) hr ⟨table, h, rfl⟩ n points
  refine ⟨m, rows, h1, h3.imp fun p is hp => ⟨hp.1, fun i => ?_⟩⟩
  rw [hp.2, e]
  simp [List.getElem?_map, Option.map_eq_some_iff]

/-! ## C72: the environment -/

/-- Both variables set, or none of them: the files are looked for where the documentation says. -/
theorem C72_partial (env : Env)
    (h : (env "DESI_SPECTRO_REDUX").isSome = (env "DESI_SURVEYOPS").isSome) (redux : String) :
    defaultTilesFn (importModule env).1 redux =
      joinPath ((env "DESI_SPECTRO_REDUX").getD "/global/cfs/cdirs/desi/spectro/redux") (redux ++ "/tiles-" ++ redux ++ ".csv") ∧
    (importModule env).2 "DESI_SURVEYOPS" =
      some ((env "DESI_SURVEYOPS").getD "/global/cfs/cdirs/desi/survey/ops/surveyops/trunk") ∧
    ∀ name, name ≠ "DESI_SURVEYOPS" → (importModule env).2 name = env name := by
  unfold importModule
  cases h1 : env "DESI_SPECTRO_REDUX" with
  | none =>
    rw [h1] at h
    cases h2 : env "DESI_SURVEYOPS" with
    | none => simp +contextual [defaultTilesFn, defaultRedux, defaultOps, Env.set]
    | some p => rw [h2] at h; simp at h
  | some p =>
    rw [h1] at h
    cases h2 : env "DESI_SURVEYOPS" with
    | none => rw [h2] at h; simp at h
    | some p' => simp [defaultTilesFn, h2]

/-- `DESI_SPECTRO_REDUX` unset and `DESI_SURVEYOPS` set: the tile files of the reductions are looked for in the directory of the
survey operations. -/
theorem C72_redux_violated (env : Env) (h : env "DESI_SPECTRO_REDUX" = none) {path : String} (hp : env "DESI_SURVEYOPS" = some path)
    (redux : String) : defaultTilesFn (importModule env).1 redux = joinPath path (redux ++ "/tiles-" ++ redux ++ ".csv") := by
  simp [importModule, h, hp, defaultTilesFn]

/-- `DESI_SPECTRO_REDUX` set and `DESI_SURVEYOPS` unset: it stays unset, no default is given. -/
theorem C72_ops_violated (env : Env) {path : String} (h : env "DESI_SPECTRO_REDUX" = some path) (hp : env "DESI_SURVEYOPS" = none) :
    (importModule env).2 "DESI_SURVEYOPS" = none := by
  simp [importModule, h, hp]

example : ∃ env : Env, (env "DESI_SPECTRO_REDUX").isSome = (env "DESI_SURVEYOPS").isSome ∧ env "DESI_SURVEYOPS" = some "/a" :=
  ⟨fun _ => some "/a", rfl, rfl⟩

example : ∃ env : Env, env "DESI_SPECTRO_REDUX" = none ∧ env "DESI_SURVEYOPS" = some "/a" :=
  ⟨fun n => if n = "DESI_SURVEYOPS" then some "/a" else none, by decide, by decide⟩

example : ∃ env : Env, env "DESI_SPECTRO_REDUX" = some "/a" ∧ env "DESI_SURVEYOPS" = none :=
  ⟨fun n => if n = "DESI_SPECTRO_REDUX" then some "/a" else none, by decide, by decide⟩

end Verif.Props
