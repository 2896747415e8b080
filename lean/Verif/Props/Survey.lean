import Verif.Model.Survey
import Verif.Lemmas.Blinding
import Verif.Lemmas.Fiber
import Verif.Props.Script
import Verif.Props.RadialScript
import Verif.Props.RandomCat
import Verif.Props.Regions

/-!
# C98: catalogs written by the script from a box to a DESI cutsky
-/

namespace Verif.Props.Survey

open Verif Verif.Model Verif.Model.Script Verif.Model.Footprint Verif.Model.Survey Verif.Props Verif.Spec Verif.Spec.Footprint
open Verif.Lemmas.Fiber (mapM_forall₂ mapM_of_forall₂)

variable {ρ : Type}

/-! ### Specification -/

/-- The three regions of the script and the direction in which the centre of the box is seen. -/
def Centred (region : String) (ra dec : ℝ) : Prop :=
  (region = "N" ∧ ra = 192.3 ∧ dec = 56) ∨ (region = "DN" ∧ ra = 192 ∧ dec = 13) ∨ (region = "DS" ∧ ra = 6.4 ∧ dec = 5.3)

/-- The position is covered by enough tiles of the release and is in the photometric region. -/
def InFootprint (s : Settings) (covers : Pos → Pos → Prop) (tiles : List Pos) (region : String) (p : Pos) : Prop :=
  AtLeast covers (s.npasses.getD 1) tiles p ∧ InRegion s.regressis region p

/-- The packages work as documented, and the release is known and has these tiles. -/
structure Ready (s : Settings) (covers : Pos → Pos → Prop) (tiles : List Pos) : Prop where
  spline : SplineOk s.spline
  contiguous : Contiguous s.table
  dm : DesimodelOk s.dm covers
  tiles : ∃ src, Release s.release.toLower src ∧ TilesAre s.dm s.tilesFn "main" s.program src tiles

/-- RA and Dec of a row. -/
noncomputable def skyPos (r : ℝ × SurveyRow ρ) : Pos := (r.2.sky.ra, r.2.sky.dec.getD 0)

/-! ### Auxiliary facts -/

theorem centred_upper {region : String} {ra dec : ℝ} (h : Centred region ra dec) :
    region.toUpper ∈ ["N", "DN", "DS", "N+SNGC", "SNGC", "SSGC", "DES"] ∧ region.toUpper ≠ "DES" := by
  rcases h with ⟨rfl, -⟩ | ⟨rfl, -⟩ | ⟨rfl, -⟩
  · rw [Regions.up_N]; simp
  · rw [Regions.up_DN]; simp
  · rw [Regions.up_DS]; simp

theorem centred_ok {region : String} {ra dec : ℝ} (h : Centred region ra dec) : regionCenter region = .ok (ra, dec) := by
  rcases h with ⟨rfl, rfl, rfl⟩ | ⟨rfl, rfl, rfl⟩ | ⟨rfl, rfl, rfl⟩ <;> simp [regionCenter]

open Classical in
theorem footprint_ok {α : Type} {s : Settings} {covers : Pos → Pos → Prop} {tiles : List Pos} (hs : Ready s covers tiles)
    {region : String} {ra dec : ℝ} (hr : Centred region ra dec) (objs : List (Obj α)) : ∃ given,
    applyPhotoDesiFootprint s.dm s.regressis s.tilesFn objs region s.release s.program s.npasses =
      .ok (given, (objs.filter fun o => InFootprint s covers tiles region o.pos).map
        fun o => ⟨o.pos, o.rest, some (s.regressis.map fun r => r.pixel o.pos)⟩) := by
  obtain ⟨src, h1, h2⟩ := hs.tiles
  obtain ⟨h3, h4⟩ := centred_upper hr
  obtain ⟨g, hg⟩ := C74_keep hs.dm h1 h2 s.npasses s.regressis h3 (fun _ => h4) objs
  refine ⟨g, hg.trans ?_⟩
  simp only [InFootprint]
  congr! 5 with o
  exact decide_eq_decide.2 Iff.rfl

theorem bind_ok {α β : Type} {x : Except Err α} {f : α → Except Err β} {b : β} (h : (x >>= f) = .ok b) :
    ∃ a, x = .ok a ∧ f a = .ok b := by
  cases x with
  | error e => simp [bind, Except.bind] at h
  | ok a => exact ⟨a, rfl, h⟩

theorem data_objs {l : List (ℝ × SurveyRow ρ)} {objs : List (Obj (ℝ × SurveyRow ρ))} (h : l.mapM dataObj = .ok objs) :
    (objs = l.map fun r => ⟨skyPos r, r, none⟩) ∧ ∀ r ∈ l, ∃ dec, r.2.sky.dec = some dec := by
  have hf := mapM_forall₂ h
  clear h
  induction hf with
  | nil => simp
  | @cons r o l objs hab _ ih =>
    unfold dataObj at hab
    cases hd : r.2.sky.dec with
    | none => simp [hd] at hab
    | some dec =>
      simp only [hd, Except.ok.injEq] at hab
      refine ⟨?_, ?_⟩
      · rw [List.map_cons, ← ih.1, ← hab]
        simp [skyPos, hd]
      · intro r' hr'
        rcases List.mem_cons.1 hr' with rfl | hr'
        · exact ⟨dec, hd⟩
        · exact ih.2 r' hr'

/-! ### The program -/

/-- C98 fails: the program writes no file at all, it ends with the exception of the first region. -/
theorem C98_program_violated (s : Settings) (nranks : ℕ) (box : Box ρ) (draws : String → Model.Survey.Draws) :
    ∃ e, ∀ files error, Run s nranks box draws files error ↔ files = [] ∧ error = some e := by
  obtain ⟨e, he, -⟩ := C76_keyword_violated box (s.distance s.zmin) (s.distance s.zmax) s.rsdFactor 192.3 56
  refine ⟨e, fun files error => ?_⟩
  have hd : ∀ d, RegionData s ["wrap"] box (draws "N").radial "N" d ↔ d = .error e := by
    intro d
    have : (do
        let center ← regionCenter "N"
        rsdAndCutsky ["wrap"] box (s.distance s.zmin) (s.distance s.zmax) s.rsdFactor center.1 center.2) = .error e := by
      rw [centred_ok (ra := 192.3) (dec := 56) (.inl ⟨rfl, rfl, rfl⟩)]
      exact he
    unfold RegionData
    rw [this]
  unfold Run RunAll RunRegions
  constructor
  · rintro ⟨d, h1, h2⟩
    rw [hd] at h1
    subst h1
    exact h2
  · intro h
    exact ⟨.error e, (hd _).2 rfl, h⟩

open Classical in
/-- C98, partial, the data of a region, for the program without the keyword `wrap`: the box is moved rigidly so that its centre is seen
at the centre of the region; redshift-space position, RA and Dec are those of `SurveyRowOf`; the redshift is that of the distance plus an
error; a row is drawn with a probability proportional to the density of its redshift; what is written are the drawn rows in the
footprint, in order. -/
theorem C98_data_partial {s : Settings} {covers : Pos → Pos → Prop} {tiles : List Pos} (hs : Ready s covers tiles) {region : String}
    {ra0 dec0 : ℝ} (hr : Centred region ra0 dec0) {box : Box ρ} {D A δ : ℝ}
    (hb : boxToCutsky box.boxsize (s.distance s.zmax) (s.distance s.zmin) = .ok ((D, s.distance s.zmax), (-A, A), (-δ, δ)))
    (hA : 0 ≤ A) (hA' : A < 180) (hδ : 0 ≤ δ)
    (h0 : ∀ r ∈ box.rows, r.pos ≠ box.boxcenter - ⟨scriptDistance D (s.distance s.zmax) A δ, 0, 0⟩) {draws : List ℝ} {n : ℕ}
    {out : List (Obj (ℝ × SurveyRow ρ))} (h : RegionData s [] box draws region (.ok (n, out))) :
    ∃ (T R : V3 ℝ → V3 ℝ) (cutsky : List (SurveyRow ρ)) (dz : List ℝ) (p : ℝ → ℝ) (norm : ℝ) (drawn : List (ℝ × SurveyRow ρ)),
      (∀ x, surveyAxes ra0 dec0 (T x) = x - box.boxcenter + ⟨scriptDistance D (s.distance s.zmax) A δ, 0, 0⟩) ∧
      (∀ v, surveyAxes ra0 dec0 (R v) = v) ∧
      List.Forall₂ (SurveyRowOf T R s.rsdFactor) box.rows cutsky ∧
      s.smear (cutsky.map fun r => s.redshift r.sky.dist) = .ok dz ∧
      0 < norm ∧
      (∀ r ∈ s.table, s.zmin ≤ binCentre r → binCentre r ≤ s.zmax →
        p (binCentre r) = min (norm * binDensity s.distance r) 1) ∧
      (∀ z, z < s.zmin ∨ s.zmax < z → p z = 0) ∧
      drawn = drawnRows p (List.zipWith (fun r d => (s.redshift r.sky.dist + d, r)) cutsky dz) draws ∧
      (∀ r ∈ drawn, ∃ dec, r.2.sky.dec = some dec) ∧
      n = drawn.length ∧
      out = (drawn.filter fun r => InFootprint s covers tiles region (skyPos r)).map
        fun r => ⟨skyPos r, r, some (s.regressis.map fun g => g.pixel (skyPos r))⟩ := by
  obtain ⟨T, R, cutsky, hT, hR, -, hc, hrows⟩ := C76_rows_partial box (f := s.rsdFactor) (ra0 := ra0) (dec0 := dec0) hb hA hA' hδ h0
  have hcut : (do
      let center ← regionCenter region
      rsdAndCutsky [] box (s.distance s.zmin) (s.distance s.zmax) s.rsdFactor center.1 center.2) = .ok cutsky := by
    rw [centred_ok hr]
    exact hc
  unfold RegionData at h
  rw [hcut] at h
  obtain ⟨kept, after, hm, hres0⟩ := h
  obtain ⟨drawn, hk, hres⟩ := bind_ok hres0.symm
  clear hres0
  subst hk
  obtain ⟨objs, hobjs, hres⟩ := bind_ok hres
  obtain ⟨x, hx, hres⟩ := bind_ok hres
  obtain ⟨ho, hdec⟩ := data_objs hobjs
  obtain ⟨p, norm, hn, hp, -, hz, -, -, hd, -, hsm⟩ := C77_selected_partial hs.spline hs.contiguous hm
  obtain ⟨dz, hdz, haf⟩ := hsm _ rfl
  refine ⟨T, R, cutsky, dz, p, norm, drawn, hT, hR, hrows, ?_, hn, hp, hz, ?_, hdec, ?_, ?_⟩
  · simpa [Function.comp_def] using hdz
  · rw [hd, haf, List.zipWith_map_left]
  · simpa using (congrArg Prod.fst (Except.ok.inj hres)).symm
  · obtain ⟨g, hg⟩ := footprint_ok hs hr objs
    rw [hg] at hx
    have h2 : x.2 = out := congrArg Prod.snd (Except.ok.inj hres)
    rw [← h2, ← Except.ok.inj hx, ho]
    simp only [List.filter_map, List.map_map]
    rfl

/-! ### Randoms -/

/-- The number of randoms drawn is ten times that of the data, before the footprint cuts. -/
theorem C98_count (n : ℕ) : randomSize n = 10 * n := by
  unfold randomSize trunc
  rw [if_pos (by positivity), show ((n : ℝ) * 10 + 1 / 2) = ((10 * n : ℤ) : ℝ) + 1 / 2 by push_cast; ring, Int.floor_intCast_add]
  norm_num

/-- C98 fails for a region without data (before the footprint cuts): the data file is written, then the program ends with an
exception. -/
theorem C98_empty_violated {s : Settings} {region : String} {ra0 dec0 : ℝ} (hr : Centred region ra0 dec0) {box : Box ρ}
    {x : Model.Range × Model.Range × Model.Range}
    (hb : boxToCutsky box.boxsize (s.distance s.zmax) (s.distance s.zmin) = .ok x) {nranks : ℕ} (hN : 0 < nranks) (d : Model.Survey.Draws)
    (result : Except Err (List (List (ℝ × Obj RandomRow)))) :
    RegionRandoms s nranks box d region 0 result ↔ result = .error .valueError := by
  have hsum : (Blinding.localSizes (randomSize 0).toNat nranks).sum = 0 := by
    rw [Lemmas.Blinding.sum_localSizes _ _ hN, C98_count]; rfl
  have hrr : ∃ rr dr, randomRanges s box region = .ok (rr, dr) := by
    unfold randomRanges
    rw [centred_ok hr, hb]
    exact ⟨_, _, rfl⟩
  obtain ⟨rr, dr, hrr⟩ := hrr
  unfold RegionRandoms
  rw [hrr]
  simp only
  constructor
  · rintro ⟨n, hn, h⟩
    have := C30_stops_unique _ _ hn (C30_empty_violated _ _ _ hsum).1
    subst this
    simpa [randomCutskyCatalog, sampleResult, bind, Except.bind] using h
  · rintro rfl
    refine ⟨0, (C30_empty_violated _ _ _ hsum).1, ?_⟩
    simp [randomCutskyCatalog, sampleResult, bind, Except.bind]

/-- C98 fails: the same, for the whole program without the keyword `wrap`. -/
theorem C98_stops_violated {s : Settings} {region : String} {ra0 dec0 : ℝ} (hr : Centred region ra0 dec0) {box : Box ρ}
    {x : Model.Range × Model.Range × Model.Range}
    (hb : boxToCutsky box.boxsize (s.distance s.zmax) (s.distance s.zmin) = .ok x) {nranks : ℕ} (hN : 0 < nranks)
    {draws : String → Model.Survey.Draws} {rows : List (Obj (ℝ × SurveyRow ρ))}
    (h : RegionData s [] box (draws region).radial region (.ok (0, rows))) (regions : List String) :
    RunRegions s [] nranks box draws (region :: regions) [.data region rows] (some .valueError) := by
  unfold RunRegions
  exact ⟨_, h, .error .valueError, (C98_empty_violated hr hb hN _ _).2 rfl, rfl, rfl⟩

/-- What a file holds, and the region it is for. -/
def fileName : File ρ → String × String
  | .data region _ => ("data", region)
  | .randoms region _ => ("randoms", region)

/-- The loop over distinct regions. -/
theorem run_files {s : Settings} {keywords : List String} {nranks : ℕ} {box : Box ρ} {draws : String → Model.Survey.Draws}
    {regions : List String} (hnd : regions.Nodup) {files : List (File ρ)} {error : Option Err}
    (h : RunRegions s keywords nranks box draws regions files error) :
    files.map fileName <+: regions.flatMap (fun r => [("data", r), ("randoms", r)]) ∧
    (error = none ↔ files.length = 2 * regions.length) ∧
    (∀ r rows, File.data r rows ∈ files → ∃ n, RegionData s keywords box (draws r).radial r (.ok (n, rows)) ∧
      ((∃ ranks, File.randoms r ranks ∈ files ∧ RegionRandoms s nranks box (draws r) r n (.ok ranks)) ∨
        ∃ e, error = some e ∧ files.getLast? = some (.data r rows) ∧ RegionRandoms s nranks box (draws r) r n (.error e))) ∧
    ∀ e, error = some e → files.length % 2 = 0 →
      ∃ r, regions[files.length / 2]? = some r ∧ RegionData s keywords box (draws r).radial r (.error e) := by
  induction regions generalizing files error with
  | nil =>
    obtain ⟨rfl, rfl⟩ := h
    simp
  | cons region regions ih =>
    unfold RunRegions at h
    obtain ⟨data, hd, h⟩ := h
    cases data with
    | error e =>
      obtain ⟨rfl, rfl⟩ := h
      refine ⟨by simp, by simp, by simp, fun e' he _ => ⟨region, by simp, ?_⟩⟩
      cases he
      exact hd
    | ok x =>
      obtain ⟨n, rows⟩ := x
      obtain ⟨randoms, hr, h⟩ := h
      cases randoms with
      | error e =>
        obtain ⟨rfl, rfl⟩ := h
        refine ⟨?_, by simp; omega, ?_, by simp⟩
        · simp [fileName]
        · intro r rows' hm
          simp only [List.mem_singleton, File.data.injEq] at hm
          obtain ⟨rfl, rfl⟩ := hm
          exact ⟨n, hd, Or.inr ⟨e, rfl, rfl, hr⟩⟩
      | ok ranks =>
        obtain ⟨rest, hrest, rfl⟩ := h
        obtain ⟨i1, i2, i3, i4⟩ := ih (List.nodup_cons.1 hnd).2 hrest
        refine ⟨?_, ?_, ?_, ?_⟩
        · simpa [fileName] using i1
        · rw [i2]
          simp only [List.length_cons]
          omega
        · intro r rows' hm
          simp only [List.mem_cons, File.data.injEq, reduceCtorEq, false_or] at hm
          rcases hm with ⟨rfl, rfl⟩ | hm
          · exact ⟨n, hd, Or.inl ⟨ranks, by simp, hr⟩⟩
          · obtain ⟨m, hm1, hm2⟩ := i3 r rows' hm
            refine ⟨m, hm1, ?_⟩
            rcases hm2 with ⟨ranks', hk, hk'⟩ | ⟨e, he, hl, hk⟩
            · exact Or.inl ⟨ranks', by simp [hk], hk'⟩
            · refine Or.inr ⟨e, he, ?_, hk⟩
              rw [List.getLast?_cons, List.getLast?_cons, hl]
              rfl
        · intro e he hlen
          simp only [List.length_cons] at hlen ⊢
          obtain ⟨r, h1, h2⟩ := i4 e he (by omega)
          refine ⟨r, ?_, h2⟩
          rw [show (rest.length + 1 + 1) / 2 = rest.length / 2 + 1 by omega, List.getElem?_cons_succ]
          exact h1

/-- C98, partial, the files written by the program, whatever the keywords of its calls: those of data and randoms of the three regions
in turn, all of them if no exception is raised and else those before the exception; data are those of the region, randoms are drawn in
the region in proportion to its data, and the exception is that of the next step. -/
theorem C98_files_partial {s : Settings} {keywords : List String} {nranks : ℕ} {box : Box ρ} {draws : String → Model.Survey.Draws}
    {files : List (File ρ)} {error : Option Err} (h : RunAll s keywords nranks box draws files error) :
    files.map fileName <+:
      [("data", "N"), ("randoms", "N"), ("data", "DN"), ("randoms", "DN"), ("data", "DS"), ("randoms", "DS")] ∧
    (error = none ↔ files.length = 6) ∧
    (∀ r rows, File.data r rows ∈ files → ∃ n, RegionData s keywords box (draws r).radial r (.ok (n, rows)) ∧
      ((∃ ranks, File.randoms r ranks ∈ files ∧ RegionRandoms s nranks box (draws r) r n (.ok ranks)) ∨
        ∃ e, error = some e ∧ files.getLast? = some (.data r rows) ∧ RegionRandoms s nranks box (draws r) r n (.error e))) ∧
    ∀ e, error = some e → files.length % 2 = 0 →
      ∃ r, ["N", "DN", "DS"][files.length / 2]? = some r ∧ RegionData s keywords box (draws r).radial r (.error e) :=
  run_files (by decide) h

/-- RA, Dec of the rows of a random catalog. -/
theorem random_objs {rows : List RandomRow} {objs : List (Obj RandomRow)} (h : rows.mapM randomObj = .ok objs) :
    List.Forall₂ (fun row o => row.real "RA" = .ok o.pos.1 ∧ row.real "DEC" = .ok o.pos.2 ∧ o.rest = row) rows objs := by
  have hf := mapM_forall₂ h
  clear h
  induction hf with
  | nil => exact .nil
  | @cons row o rows objs hab _ ih =>
    refine .cons ?_ ih
    unfold randomObj at hab
    obtain ⟨a, ha, hab⟩ := bind_ok hab
    obtain ⟨b, hb, hab⟩ := bind_ok hab
    cases hab
    exact ⟨ha, hb, rfl⟩

/-- A row of the random catalog at a position of the sky. -/
def RowAt (p : Pos) (row : RandomRow) : Prop :=
  row = [("RA", .inl p.1), ("DEC", .inl p.2), ("Distance", .inl 1), ("Position", .inr (skyPoint 1 p.1 p.2))]

/-- The rows of the random catalog are at the positions that the angular mask sampled. -/
theorem random_rows {rr dr : Model.Range} {sizes : List ℕ} {uv : ℕ → ℕ → ℝ × ℝ} {w h1 h2 : ℕ → ℕ → ℝ} {n m : ℕ}
    {out : List (List RandomRow)} (h : randomCutskyCatalog "Position" rr dr none sizes uv w h1 h2 n m = .ok out) :
    ∃ drawn, sampleResult (fun t i => angularCandidate (some rr) (some dr) (uv t i).1 (uv t i).2)
        (angularDecisions rr dr (fun t i => angularCandidate (some rr) (some dr) (uv t i).1 (uv t i).2) h1) sizes n = .ok drawn ∧
      List.Forall₂ (List.Forall₂ RowAt) drawn out := by
  unfold randomCutskyCatalog at h
  obtain ⟨drawn, hd, h'⟩ := bind_ok h
  refine ⟨drawn, hd, ?_⟩
  simp only [randomDistances, bind, Except.bind, Except.ok.injEq] at h'
  clear h
  subst h'
  clear hd
  induction drawn with
  | nil => exact .nil
  | cons l drawn ih =>
    refine .cons ?_ ih
    clear ih
    induction l with
    | nil => exact .nil
    | cons a l ih =>
      refine .cons ?_ ih
      simp only [RowAt, randomCutskyRow, List.cons.injEq, Prod.mk.injEq, true_and, and_true, Sum.inr.injEq]
      ext <;> simp [skyToCartesian, Num.val, Num.kind, Kind.join, store, conversion, skyPoint, rad]

theorem rows_objs {drawn : List Pos} {rows : List RandomRow} {objs : List (Obj RandomRow)} (hd : List.Forall₂ RowAt drawn rows)
    (h : List.Forall₂ (fun row o => row.real "RA" = .ok o.pos.1 ∧ row.real "DEC" = .ok o.pos.2 ∧ o.rest = row) rows objs) :
    objs.map (fun o => o.pos) = drawn ∧ ∀ o ∈ objs, RowAt o.pos o.rest := by
  induction hd generalizing objs with
  | nil => cases h; simp
  | @cons p row drawn rows hp _ ih =>
    cases h with
    | @cons _ o _ objs h hos =>
      obtain ⟨h1, h2, h3⟩ := h
      obtain ⟨i1, i2⟩ := ih hos
      have hpos : o.pos = p := by
        unfold RowAt at hp
        subst hp
        simp only [RandomRow.real, List.lookup, show ("DEC" == "RA") = false from rfl, show ("RA" == "RA") = true from rfl,
          show ("DEC" == "DEC") = true from rfl, Except.ok.injEq] at h1 h2
        exact Prod.ext h1.symm h2.symm
      refine ⟨by rw [List.map_cons, i1, hpos], fun o' ho' => ?_⟩
      rcases List.mem_cons.1 ho' with rfl | ho'
      · rw [hpos, h3]; exact hp
      · exact i2 o' ho'

open Classical in
/-- The footprint cuts on the randoms of a rank. -/
theorem footprint_randoms {s : Settings} {covers : Pos → Pos → Prop} {tiles : List Pos} (hs : Ready s covers tiles) {region : String}
    {ra0 dec0 : ℝ} (hr : Centred region ra0 dec0) {drawn : List Pos} {rows : List RandomRow} {out : List (Obj RandomRow)}
    (hd : List.Forall₂ RowAt drawn rows) (h : footprintRandoms s region rows = .ok out) :
    out.map (fun o => o.pos) = drawn.filter (fun p => InFootprint s covers tiles region p) ∧
      ∀ o ∈ out, RowAt o.pos o.rest ∧ o.hpx = some (s.regressis.map fun g => g.pixel o.pos) := by
  unfold footprintRandoms at h
  obtain ⟨objs, ho, h⟩ := bind_ok h
  obtain ⟨x, hx, h⟩ := bind_ok h
  obtain ⟨g, hg⟩ := footprint_ok hs hr objs
  rw [hg] at hx
  have hx' := Except.ok.inj hx
  have hout : out = x.2 := (Except.ok.inj h).symm
  rw [hout, ← hx']
  obtain ⟨hmap, hall⟩ := rows_objs hd (random_objs ho)
  refine ⟨?_, ?_⟩
  · rw [← hmap, List.filter_map, List.map_map]
    rfl
  · intro o ho'
    obtain ⟨o', ho1, rfl⟩ := List.mem_map.1 ho'
    exact ⟨hall o' (List.mem_of_mem_filter ho1), rfl⟩

open Classical in
theorem ranks_out {s : Settings} {covers : Pos → Pos → Prop} {tiles : List Pos} (hs : Ready s covers tiles) {region : String}
    {ra0 dec0 : ℝ} (hr : Centred region ra0 dec0) {drawn : List (List Pos)} {rows : List (List RandomRow)}
    {out : List (List (Obj RandomRow))} (hd : List.Forall₂ (List.Forall₂ RowAt) drawn rows)
    (h : rows.mapM (footprintRandoms s region) = .ok out) :
    out.map (fun l => l.map fun o => o.pos) = drawn.map (fun l => l.filter fun p => InFootprint s covers tiles region p) ∧
      ∀ l ∈ out, ∀ o ∈ l, RowAt o.pos o.rest ∧ o.hpx = some (s.regressis.map fun g => g.pixel o.pos) := by
  have hf := mapM_forall₂ h
  clear h
  induction hd generalizing out with
  | nil => cases hf; simp
  | cons hp _ ih =>
    cases hf with
    | cons h1 h2 =>
      obtain ⟨i1, i2⟩ := ih h2
      obtain ⟨j1, j2⟩ := footprint_randoms hs hr hp h1
      refine ⟨by simp [i1, j1], fun l hl => ?_⟩
      rcases List.mem_cons.1 hl with rfl | hl
      · exact j2
      · exact i2 l hl

/-- What `RegionRandoms` gives when it succeeds, for all ranges. -/
theorem randoms_ok {s : Settings} {region : String} {ra0 dec0 : ℝ} (hr : Centred region ra0 dec0) {box : Box ρ} {D d A δ : ℝ}
    (hb : boxToCutsky box.boxsize (s.distance s.zmax) (s.distance s.zmin) = .ok ((D, d), (-A, A), (-δ, δ))) {nranks : ℕ}
    {dr : Model.Survey.Draws} {n : ℕ} {ranks : List (List (ℝ × Obj RandomRow))}
    (h : RegionRandoms s nranks box dr region n (.ok ranks)) :
    ∃ (m : ℕ) (drawn : List (List Pos)) (rows : List (List RandomRow)) (objs : List (List (Obj RandomRow))) (z : List (List ℝ)),
      StopsAfter (fun t i => angularCandidate (some (ra0 - A, ra0 + A)) (some (dec0 - δ, dec0 + δ)) (dr.uv t i).1 (dr.uv t i).2)
        (angularDecisions (ra0 - A, ra0 + A) (dec0 - δ, dec0 + δ) (fun t i => angularCandidate (some (ra0 - A, ra0 + A))
          (some (dec0 - δ, dec0 + δ)) (dr.uv t i).1 (dr.uv t i).2) dr.angular) (Blinding.localSizes (10 * n) nranks) m ∧
      sampleResult (fun t i => angularCandidate (some (ra0 - A, ra0 + A)) (some (dec0 - δ, dec0 + δ)) (dr.uv t i).1 (dr.uv t i).2)
        (angularDecisions (ra0 - A, ra0 + A) (dec0 - δ, dec0 + δ) (fun t i => angularCandidate (some (ra0 - A, ra0 + A))
          (some (dec0 - δ, dec0 + δ)) (dr.uv t i).1 (dr.uv t i).2) dr.angular) (Blinding.localSizes (10 * n) nranks) m = .ok drawn ∧
      List.Forall₂ (List.Forall₂ RowAt) drawn rows ∧
      rows.mapM (footprintRandoms s region) = .ok objs ∧
      GenerateRedshifts s.spline s.distance s.redshift s.table s.zmin s.zmax (objs.map List.length) dr.z dr.zHidden (.ok z) ∧
      ranks = List.zipWith List.zip z objs := by
  have hrr : randomRanges s box region = .ok ((ra0 - A, ra0 + A), (dec0 - δ, dec0 + δ)) := by
    unfold randomRanges
    rw [centred_ok hr, hb]
    simp [bind, Except.bind, sub_eq_add_neg]
  unfold RegionRandoms at h
  rw [hrr, C98_count, show ((10 * (n : ℤ)).toNat) = 10 * n by omega] at h
  simp only at h
  obtain ⟨m, hm, h⟩ := h
  cases hc : (do
    let ranks ← randomCutskyCatalog "Position" (ra0 - A, ra0 + A) (dec0 - δ, dec0 + δ) none (Blinding.localSizes (10 * n) nranks)
      dr.uv (fun _ _ => 0) dr.angular (fun _ _ => 0) m 0
    ranks.mapM (footprintRandoms s region)) with
  | error e => rw [hc] at h; cases h
  | ok objs =>
    rw [hc] at h
    obtain ⟨z, hz, hres⟩ := h
    obtain ⟨rows, hrows, hobjs⟩ := bind_ok hc
    obtain ⟨drawn, hd, hd'⟩ := random_rows hrows
    obtain ⟨z', hz', hres'⟩ := bind_ok hres.symm
    subst hz'
    exact ⟨m, drawn, rows, objs, z', hm, hd, hd', hobjs, hz, (Except.ok.inj hres').symm⟩

theorem zip_ranks {α β : Type} : ∀ {z : List (List α)} {o : List (List β)}, z.map List.length = o.map List.length →
    (List.zipWith List.zip z o).map (fun l => l.map Prod.snd) = o
  | [], [], _ => rfl
  | [], _ :: _, h => by simp at h
  | _ :: _, [], h => by simp at h
  | a :: z, b :: o, h => by
    simp only [List.map_cons, List.cons.injEq] at h
    rw [List.zipWith_cons_cons, List.map_cons, zip_ranks h.2, List.map_snd_zip (by omega)]

open Classical in
/-- C98, partial, the randoms of a region: from ten times as many positions as there are data, in the RA and Dec ranges of the box seen
at the centre of the region, those in the footprint are written, in order; the columns of each row are its RA, Dec, the distance one and
the unit vector; the redshifts are in range, drawn with a probability proportional to the density of the data file. -/
theorem C98_randoms_partial {s : Settings} {covers : Pos → Pos → Prop} {tiles : List Pos} (hs : Ready s covers tiles) {region : String}
    {ra0 dec0 : ℝ} (hr : Centred region ra0 dec0) {box : Box ρ} {D d A δ : ℝ}
    (hb : boxToCutsky box.boxsize (s.distance s.zmax) (s.distance s.zmin) = .ok ((D, d), (-A, A), (-δ, δ)))
    (hp : PlainRange (ra0 - A, ra0 + A)) {nranks : ℕ} (hN : 0 < nranks) {dr : Model.Survey.Draws} (hd : Props.Draws dr.angular)
    (hz : ∀ i j, 0 < dr.zHidden i j) {n : ℕ} {ranks : List (List (ℝ × Obj RandomRow))}
    (h : RegionRandoms s nranks box dr region n (.ok ranks)) :
    ∃ (drawn : List (List Pos)) (p : ℝ → ℝ) (norm : ℝ),
      drawn.length = nranks ∧ drawn.flatten.length = 10 * n ∧
      (∀ x ∈ drawn.flatten, InRa (ra0 - A, ra0 + A) x.1 ∧ InRange (dec0 - δ, dec0 + δ) x.2) ∧
      ranks.map (fun l => l.map fun r => r.2.pos) = drawn.map (fun l => l.filter fun x => InFootprint s covers tiles region x) ∧
      (∀ r ∈ ranks.flatten, RowAt r.2.pos r.2.rest ∧ r.2.hpx = some (s.regressis.map fun g => g.pixel r.2.pos)) ∧
      0 < norm ∧
      (∀ r ∈ s.table, s.zmin ≤ binCentre r → binCentre r ≤ s.zmax → p (binCentre r) = min (norm * binDensity s.distance r) 1) ∧
      ∀ r ∈ ranks.flatten, (s.zmin ≤ r.1 ∧ r.1 ≤ s.zmax) ∧
        ∃ i j, r.1 = s.redshift (radialCandidate (s.distance s.zmin) (s.distance s.zmax) (dr.z i j)) ∧ dr.zHidden i j ≤ p r.1 := by
  obtain ⟨m, drawn, rows, objs, z, hm, hdr, hrows, hobjs, hgen, hranks⟩ := randoms_ok hr hb h
  obtain ⟨hpos, hrow⟩ := ranks_out hs hr hrows hobjs
  have hsz : drawn.length = nranks ∧ (drawn.map List.length).sum = 10 * n := by
    have hn : 0 < (Blinding.localSizes (10 * n) nranks).sum := by
      by_contra hc
      have h0 : (Blinding.localSizes (10 * n) nranks).sum = 0 := by omega
      have := C30_stops_unique _ _ hm (C30_empty_violated _ _ _ h0).1
      subst this
      simp [sampleResult] at hdr
    obtain ⟨out, ho, hl⟩ := C30_size_partial _ _ _ _ hn hm
    rw [hdr] at ho
    cases ho
    refine ⟨?_, by rw [hl, Lemmas.Blinding.sum_localSizes _ _ hN]⟩
    rw [← List.length_map (f := List.length), hl, Lemmas.Blinding.length_localSizes]
  have hs0 : 0 < (objs.map List.length).sum := by
    by_contra hc
    have h0 : (objs.map List.length).sum = 0 := by omega
    obtain ⟨mask, -, hmask⟩ := hgen
    cases mask with
    | error e => cases hmask
    | ok t =>
      obtain ⟨k, hk, hk'⟩ := hmask
      have := C30_stops_unique _ _ hk (C30_empty_violated _ _ _ h0).1
      subst this
      simp [sampleResult] at hk'
  obtain ⟨e, he, -⟩ | ⟨out, t, ho, ht, hlen, hzs⟩ := C77_generated_partial hs0 hz hgen
  · cases he
  cases ho
  obtain ⟨p1, p2, -⟩ := nzMask_prob hs.spline hs.contiguous ht
  have hsnd : ranks.map (fun l => l.map Prod.snd) = objs := by rw [hranks]; exact zip_ranks hlen
  refine ⟨drawn, t.prob s.spline, t.norm, hsz.1, by rw [List.length_flatten]; exact hsz.2, ?_, ?_, ?_, p1, p2, ?_⟩
  · intro x hx
    obtain ⟨l, hl, hx⟩ := List.mem_flatten.1 hx
    obtain ⟨t', -, i, -, hacc, rfl⟩ := C30_accepted _ _ hdr l hl x hx
    exact angular_in_range hp hd hacc
  · rw [← hpos, ← hsnd, List.map_map]
    congr 1
    funext l
    simp [Function.comp_def]
  · intro r hr'
    obtain ⟨l, hl, hr'⟩ := List.mem_flatten.1 hr'
    have : l.map Prod.snd ∈ objs := by rw [← hsnd]; exact List.mem_map.2 ⟨l, hl, rfl⟩
    exact hrow _ this _ (List.mem_map.2 ⟨r, hr', rfl⟩)
  · intro r hr'
    obtain ⟨l, hl, hr'⟩ := List.mem_flatten.1 hr'
    rw [hranks] at hl
    obtain ⟨zl, hzl, ol, hol, rfl⟩ := mem_zipWith hl
    exact hzs zl hzl r.1 (List.of_mem_zip hr').1

/-- C98 fails for the region DS, centred at RA = 6.4: if the box is seen beyond RA = 0, all randoms are West of it, and none where the
centre of the box is, although the data are on both sides (`C98_centre`). -/
theorem C98_ds_violated {s : Settings} {covers : Pos → Pos → Prop} {tiles : List Pos} (hs : Ready s covers tiles) {box : Box ρ}
    {D d A δ : ℝ} (hb : boxToCutsky box.boxsize (s.distance s.zmax) (s.distance s.zmin) = .ok ((D, d), (-A, A), (-δ, δ)))
    (hA : 6.4 < A) (hA' : A < 180) {nranks : ℕ} {dr : Model.Survey.Draws} (hd : Props.Draws dr.angular) {n : ℕ}
    {ranks : List (List (ℝ × Obj RandomRow))} (h : RegionRandoms s nranks box dr "DS" n (.ok ranks)) :
    ∀ r ∈ ranks.flatten, 366.4 - A ≤ r.2.pos.1 ∧ r.2.pos.1 < 360 := by
  have hr : Centred "DS" 6.4 5.3 := .inr (.inr ⟨rfl, rfl, rfl⟩)
  obtain ⟨m, drawn, rows, objs, z, hm, hdr, hrows, hobjs, hgen, hranks⟩ := randoms_ok hr hb h
  obtain ⟨hpos, -⟩ := ranks_out hs hr hrows hobjs
  intro r hr'
  obtain ⟨l, hl, hr'⟩ := List.mem_flatten.1 hr'
  rw [hranks] at hl
  obtain ⟨zl, hzl, ol, hol, rfl⟩ := mem_zipWith hl
  have h1 := (List.of_mem_zip hr').2
  have h2 : ol.map (fun o => o.pos) ∈ objs.map (fun l => l.map fun o => o.pos) := List.mem_map.2 ⟨ol, hol, rfl⟩
  rw [hpos] at h2
  obtain ⟨dl, hdl, he⟩ := List.mem_map.1 h2
  have h3 : r.2.pos ∈ dl := by
    have : r.2.pos ∈ ol.map (fun o => o.pos) := List.mem_map.2 ⟨_, h1, rfl⟩
    rw [← he] at this
    exact List.mem_of_mem_filter this
  obtain ⟨t, -, i, -, hacc, hx⟩ := C30_accepted _ _ hdr dl hdl _ h3
  have w0 : wrapAngle (6.4 - A) = 366.4 - A := C23_wrap_unique true (by linarith) (by norm_num [turn]; linarith) 1 (by norm_num [turn]; ring)
  have w1 : wrapAngle (6.4 + A) = 6.4 + A := C23_wrap_unique true (by linarith) (by norm_num [turn]; linarith) 0 (by simp)
  have hm := pmod_range (show (0 : ℝ) < 360 by norm_num)
  have hlt : r.2.pos.1 < 360 := by rw [hx]; exact (hm _).2
  have hge : 0 ≤ r.2.pos.1 := by rw [hx]; exact (hm _).1
  refine ⟨?_, hlt⟩
  simp only [angularDecisions, decide_eq_true_eq] at hacc
  rw [C28_crossing_partial 1 _ (by simp only; linarith) (by simp only [w0, w1]; linarith), ← hx] at hacc
  by_contra hn
  rw [if_neg] at hacc
  · exact absurd hacc (not_le.2 (hd t i).1)
  · rintro ⟨hle, -⟩
    rw [C23_wrap_unique (a := r.2.pos.1) true hge (by simpa [turn] using hlt) 0 (by simp)] at hle
    simp only [w0] at hle
    exact hn hle

theorem cos_rad_pos {x : ℝ} (h1 : -90 < x) (h2 : x < 90) : 0 < Real.cos (rad x) := by
  have hpi := Real.pi_pos
  apply Real.cos_pos_of_mem_Ioo
  unfold rad
  constructor <;> nlinarith

/-- Distance, RA in [0, 360) and Dec of a point out of the poles are unique. -/
theorem skyPoint_unique {d ra dec d' ra' dec' : ℝ} (h : skyPoint d ra dec = skyPoint d' ra' dec') (hd : 0 < d) (hd' : 0 < d')
    (hra : 0 ≤ ra ∧ ra < 360) (hra' : 0 ≤ ra' ∧ ra' < 360) (hdec : -90 < dec ∧ dec < 90) (hdec' : -90 ≤ dec' ∧ dec' ≤ 90) :
    d = d' ∧ ra = ra' ∧ dec = dec' := by
  have e : ∀ d ra dec : ℝ, skyToCartesian (.float d) (.float ra) (.float dec) true = skyPoint d ra dec := by
    intro d ra dec
    ext <;> simp [skyToCartesian, Num.val, Num.kind, Kind.join, store, conversion, skyPoint, rad]
  have hc := cos_rad_pos hdec.1 hdec.2
  have hne : ∀ b, Real.cos (rad b) = 0 → dec' ≠ b := by
    rintro b hb rfl
    have hx := congrArg V3.x h
    have hy := congrArg V3.y h
    simp only [skyPoint, hb, zero_mul, mul_zero] at hx hy
    have h1 : Real.cos (rad ra) = 0 := by
      rcases mul_eq_zero.1 hx with h | h
      · linarith
      · rcases mul_eq_zero.1 h with h | h
        · linarith
        · exact h
    have h2 : Real.sin (rad ra) = 0 := by
      rcases mul_eq_zero.1 hy with h | h
      · linarith
      · rcases mul_eq_zero.1 h with h | h
        · linarith
        · exact h
    have := Real.sin_sq_add_cos_sq (rad ra)
    rw [h1, h2] at this
    norm_num at this
  have b1 : -90 < dec' := lt_of_le_of_ne hdec'.1 fun hh => hne (-90) (by
    rw [show rad (-90) = -(Real.pi / 2) by unfold rad; ring, Real.cos_neg, Real.cos_pi_div_two]) hh.symm
  have b2 : dec' < 90 := lt_of_le_of_ne hdec'.2 fun hh => hne 90 (by
    rw [show rad 90 = Real.pi / 2 by unfold rad; ring, Real.cos_pi_div_two]) hh
  have k : ∀ d ra dec : ℝ, 0 < d → 0 ≤ ra ∧ ra < 360 → -90 < dec ∧ dec < 90 →
      (cartesianToSky (skyPoint d ra dec) true).dist = d ∧ (cartesianToSky (skyPoint d ra dec) true).ra = ra ∧
      (cartesianToSky (skyPoint d ra dec) true).dec = some dec := by
    intro d ra dec hd hra hdec
    have := C22_from_sky_exact_partial (dist := .float d) (ra := .float ra) (dec := .float dec) (by simp [Num.kind]) true
      (by simpa [Num.val] using hd) (by norm_num [turn, Num.val]; exact hdec.1) (by norm_num [turn, Num.val]; exact hdec.2)
      (by simpa [Num.val] using hra.1) (by norm_num [turn, Num.val]; exact hra.2)
    rw [e] at this
    exact this
  obtain ⟨k1, k2, k3⟩ := k d ra dec hd hra hdec
  obtain ⟨l1, l2, l3⟩ := k d' ra' dec' hd' hra' ⟨b1, b2⟩
  rw [h] at k1 k2 k3
  exact ⟨k1.symm.trans l1, k2.symm.trans l2, by rw [k3] at l3; exact Option.some.inj l3⟩

/-- C98: an object at the centre of the box, at rest, is seen at the centre of the region. -/
theorem C98_centre {region : String} {ra0 dec0 : ℝ} (hr : Centred region ra0 dec0) {T R : V3 ℝ → V3 ℝ} {f d : ℝ} (hd : 0 < d)
    {r : Row ρ} {o : SurveyRow ρ} (hT : T r.pos = skyPoint d ra0 dec0) (hv : R r.vel = 0) (h : SurveyRowOf T R f r o) :
    o.sky.dist = d ∧ o.sky.ra = ra0 ∧ o.sky.dec = some dec0 := by
  obtain ⟨-, h2, h3⟩ := h
  have hb : (0 ≤ ra0 ∧ ra0 < 360) ∧ (-90 < dec0 ∧ dec0 < 90) := by
    rcases hr with ⟨-, rfl, rfl⟩ | ⟨-, rfl, rfl⟩ | ⟨-, rfl, rfl⟩ <;> norm_num
  have e : o.rsdPosition = skyPoint d ra0 dec0 := by
    rw [h2, hv, hT]
    ext <;> simp [V3.dot]
  have hne : o.rsdPosition ≠ 0 := by
    rw [e]
    intro h0
    have hc := cos_rad_pos hb.2.1 hb.2.2
    have hx := congrArg V3.x h0
    have hy := congrArg V3.y h0
    simp only [skyPoint, V3.zero_x, V3.zero_y, mul_eq_zero, hd.ne', hc.ne', false_or] at hx hy
    have := Real.sin_sq_add_cos_sq (rad ra0)
    rw [hx, hy] at this
    norm_num at this
  obtain ⟨dec, h4, h5, h6, h7, h8⟩ := h3 hne
  obtain ⟨u1, u2, u3⟩ := skyPoint_unique (e.symm.trans h5) hd h6 hb.1 h7 hb.2 h8
  exact ⟨u1.symm, u2.symm, by rw [h4, u3]⟩

theorem footprint_total {s : Settings} {covers : Pos → Pos → Prop} {tiles : List Pos} (hs : Ready s covers tiles) {region : String}
    {ra0 dec0 : ℝ} (hr : Centred region ra0 dec0) {drawn : List Pos} {rows : List RandomRow} (hd : List.Forall₂ RowAt drawn rows) :
    ∃ out, footprintRandoms s region rows = .ok out := by
  have ho : rows.mapM randomObj = .ok (List.zipWith (fun p row => (⟨p, row, none⟩ : Obj RandomRow)) drawn rows) := by
    refine mapM_of_forall₂ ?_
    induction hd with
    | nil => exact .nil
    | @cons p row drawn rows hp _ ih =>
      refine .cons ?_ ih
      unfold RowAt at hp
      subst hp
      rfl
  obtain ⟨g, hg⟩ := footprint_ok hs hr (List.zipWith (fun p row => (⟨p, row, none⟩ : Obj RandomRow)) drawn rows)
  unfold footprintRandoms
  rw [ho]
  simp only [bind, Except.bind, hg]
  exact ⟨_, rfl⟩

theorem ranks_total {s : Settings} {covers : Pos → Pos → Prop} {tiles : List Pos} (hs : Ready s covers tiles) {region : String}
    {ra0 dec0 : ℝ} (hr : Centred region ra0 dec0) {drawn : List (List Pos)} {rows : List (List RandomRow)}
    (hd : List.Forall₂ (List.Forall₂ RowAt) drawn rows) : ∃ out, rows.mapM (footprintRandoms s region) = .ok out := by
  induction hd with
  | nil => exact ⟨[], rfl⟩
  | cons h _ ih =>
    obtain ⟨a, ha⟩ := footprint_total hs hr h
    obtain ⟨b, hb⟩ := ih
    exact ⟨a :: b, by simp [List.mapM_cons, ha, hb, bind, Except.bind, pure, Except.pure]⟩

/-- The randoms are produced if the mask accepts the positions it draws first. -/
theorem produced {s : Settings} {covers : Pos → Pos → Prop} {tiles : List Pos} (hs : Ready s covers tiles) {region : String}
    {ra0 dec0 : ℝ} (hr : Centred region ra0 dec0) {box : Box ρ} {D d A δ : ℝ}
    (hb : boxToCutsky box.boxsize (s.distance s.zmax) (s.distance s.zmin) = .ok ((D, d), (-A, A), (-δ, δ))) {nranks : ℕ} (hN : 0 < nranks)
    {dr : Model.Survey.Draws} {n : ℕ} (hn : 0 < n)
    (acc : ∀ i < (Blinding.localSizes (10 * n) nranks).sum, angularDecisions (ra0 - A, ra0 + A) (dec0 - δ, dec0 + δ)
      (fun t i => angularCandidate (some (ra0 - A, ra0 + A)) (some (dec0 - δ, dec0 + δ)) (dr.uv t i).1 (dr.uv t i).2)
      dr.angular 0 i = true) {t : SplineMask}
    (ht : NzMask s.spline s.distance s.table s.zmin s.zmax (.ok t))
    (hf : ∃ i < 10 * n, InFootprint s covers tiles region
      (angularCandidate (some (ra0 - A, ra0 + A)) (some (dec0 - δ, dec0 + δ)) (dr.uv 0 i).1 (dr.uv 0 i).2))
    (hz : ∀ i, dr.zHidden i 0 ≤ t.prob s.spline (s.redshift (radialCandidate (s.distance s.zmin) (s.distance s.zmax) (dr.z i 0)))) :
    ∃ ranks, RegionRandoms s nranks box dr region n (.ok ranks) := by
  have hrr : randomRanges s box region = .ok ((ra0 - A, ra0 + A), (dec0 - δ, dec0 + δ)) := by
    unfold randomRanges
    rw [centred_ok hr, hb]
    simp [bind, Except.bind, sub_eq_add_neg]
  unfold RegionRandoms
  rw [hrr, C98_count, show ((10 * (n : ℤ)).toNat) = 10 * n by omega]
  simp only
  have hsum : 0 < (Blinding.localSizes (10 * n) nranks).sum := by
    rw [Lemmas.Blinding.sum_localSizes _ _ hN]; omega
  set sizes := Blinding.localSizes (10 * n) nranks with hsizes
  set cand := fun t i => angularCandidate (some (ra0 - A, ra0 + A)) (some (dec0 - δ, dec0 + δ)) (dr.uv t i).1 (dr.uv t i).2 with hcand
  obtain ⟨stop, drawn, hdrawn, hflat⟩ := C31_all_accepted_partial cand _ hsum acc
  have hcat : ∃ rows, randomCutskyCatalog "Position" (ra0 - A, ra0 + A) (dec0 - δ, dec0 + δ) none sizes dr.uv (fun _ _ => 0) dr.angular
      (fun _ _ => 0) 1 0 = .ok rows := by
    unfold randomCutskyCatalog
    simp only [randomDistances]
    rw [← hcand, hdrawn]
    exact ⟨_, rfl⟩
  obtain ⟨rows, hrows⟩ := hcat
  obtain ⟨drawn', hd1, hd2⟩ := random_rows hrows
  rw [← hcand, hdrawn] at hd1
  cases hd1
  obtain ⟨objs, hobjs⟩ := ranks_total hs hr hd2
  obtain ⟨hpos, -⟩ := ranks_out hs hr hd2 hobjs
  have hobjs0 : 0 < (objs.map List.length).sum := by
    obtain ⟨i, hi, hin⟩ := hf
    have hmem : cand 0 i ∈ drawn.flatten := by
      rw [hflat]
      exact List.mem_map.2 ⟨i, List.mem_range.2 (by rw [hsizes, Lemmas.Blinding.sum_localSizes _ _ hN]; exact hi), rfl⟩
    obtain ⟨l, hl, hil⟩ := List.mem_flatten.1 hmem
    classical
    have h1 : l.filter (fun x => InFootprint s covers tiles region x) ∈ objs.map (fun l => l.map fun o => o.pos) := by
      rw [hpos]
      exact List.mem_map.2 ⟨l, hl, by congr!⟩
    obtain ⟨o, ho, hol⟩ := List.mem_map.1 h1
    have h2 : 0 < o.length := by
      rw [← List.length_map (f := fun o : Obj RandomRow => o.pos), hol]
      exact List.length_pos_of_mem (List.mem_filter.2 ⟨hil, by simpa using hin⟩)
    exact lt_of_lt_of_le h2 (List.le_sum_of_mem (List.mem_map.2 ⟨o, ho, rfl⟩))
  have hzr : t.zrange = (s.zmin, s.zmax) := by
    have := ht
    unfold NzMask at this
    cases hno : nzNodes s.distance s.table with
    | error e => rw [hno] at this; cases this
    | ok nodes =>
      rw [hno] at this
      obtain ⟨-, -, a, b, -, -, -, -, -, -, hzr, -⟩ := splineInit_ok this
      exact hzr
  obtain ⟨m, hm⟩ := C30_stops (fun i j => s.redshift (radialCandidate (s.distance t.zrange.1) (s.distance t.zrange.2) (dr.z i j)))
    (fun i j => @decide _ (Classical.propDecidable (dr.zHidden i j ≤
      t.prob s.spline (s.redshift (radialCandidate (s.distance t.zrange.1) (s.distance t.zrange.2) (dr.z i j)))))) (objs.map List.length)
    (fun i => ⟨0, hobjs0, by rw [hzr]; simpa using hz i⟩)
  obtain ⟨z, hz', -⟩ := C30_size_partial _ _ _ _ hobjs0 hm
  refine ⟨List.zipWith List.zip z objs, 1, stop, ?_⟩
  rw [hrows]
  simp only [bind, Except.bind, hobjs]
  exact ⟨.ok z, ⟨.ok t, ht, m, hm, hz'.symm⟩, rfl⟩

/-- C98: the randoms of a region are produced, in particular if there are data, if the RA range does not go through 0 and the Dec range
not beyond the poles, if some of the drawn positions are in the footprint, and if redshifts are accepted. -/
theorem C98_produced {s : Settings} {covers : Pos → Pos → Prop} {tiles : List Pos} (hs : Ready s covers tiles) {region : String}
    {ra0 dec0 : ℝ} (hr : Centred region ra0 dec0) {box : Box ρ} {D d A δ : ℝ}
    (hb : boxToCutsky box.boxsize (s.distance s.zmax) (s.distance s.zmin) = .ok ((D, d), (-A, A), (-δ, δ)))
    (hp : PlainRange (ra0 - A, ra0 + A)) (hdec : -90 ≤ dec0 - δ ∧ dec0 - δ ≤ dec0 + δ ∧ dec0 + δ ≤ 90) {nranks : ℕ} (hN : 0 < nranks)
    {dr : Model.Survey.Draws} (huv : ∀ t i, (0 ≤ (dr.uv t i).1 ∧ (dr.uv t i).1 < 1) ∧ (0 ≤ (dr.uv t i).2 ∧ (dr.uv t i).2 < 1))
    (hd : Props.Draws dr.angular) {n : ℕ} (hn : 0 < n) {t : SplineMask}
    (ht : NzMask s.spline s.distance s.table s.zmin s.zmax (.ok t))
    (hf : ∃ i < 10 * n, InFootprint s covers tiles region
      (angularCandidate (some (ra0 - A, ra0 + A)) (some (dec0 - δ, dec0 + δ)) (dr.uv 0 i).1 (dr.uv 0 i).2))
    (hz : ∀ i, dr.zHidden i 0 ≤ t.prob s.spline (s.redshift (radialCandidate (s.distance s.zmin) (s.distance s.zmax) (dr.z i 0)))) :
    ∃ ranks, RegionRandoms s nranks box dr region n (.ok ranks) := by
  refine produced hs hr hb hN hn (fun i _ => ?_) ht hf hz
  simp only [angularDecisions, decide_eq_true_eq,
    C35_candidates_accepted_partial (d := (dec0 - δ, dec0 + δ)) hp hdec (huv 0 i).1 (huv 0 i).2]
  exact (hd 0 i).2.le

/-! ### A concrete case -/

/-- One tile that covers the whole sky. -/
noncomputable def demoSky : Desimodel :=
  { readCsv := fun _ => .ok [⟨1000, "main", "dark", 20220101, 0, 0⟩]
    loadTiles := .ok [⟨1000, "DARK", 0, 0⟩]
    overPoint := fun tiles _ => List.range tiles.length
    inDesi := fun tiles _ => (!tiles.isEmpty, 0) }

theorem demoSky_ok : DesimodelOk demoSky fun _ _ => True where
  nodup tiles p := List.nodup_range
  over tiles p i := by
    simp only [demoSky, List.mem_range, and_true]
    constructor
    · exact fun h => ⟨_, List.getElem?_eq_getElem h⟩
    · exact fun ⟨t, h⟩ => (List.getElem?_eq_some_iff.1 h).1
  inside tiles p := by
    cases tiles <;> simp [demoSky]
  closest tiles p h := by
    cases tiles with
    | nil => simp [demoSky] at h
    | cons t l => exact ⟨t, rfl, trivial⟩

/-- n(z) with densities 0, 5, 8 at redshifts 0, 1, 2; no redshift error; a footprint map that is true everywhere. -/
noncomputable def demoSettings (S : Spline) : Settings where
  spline := S
  distance := id
  redshift := id
  table := [(-1 / 2, 1 / 2, 0), (1 / 2, 3 / 2, 65 / 4), (3 / 2, 5 / 2, 98)]
  zmin := 0
  zmax := 2
  rsdFactor := 1
  smear := fun z => .ok (z.map fun _ => 0)
  dm := demoSky
  regressis := some ⟨fun _ => 0, fun _ _ => true⟩
  tilesFn := id
  release := "sv3"
  program := "dark"
  npasses := none

theorem demoSettings_ready {S : Spline} (hS : SplineOk S) : ∃ tiles, tiles.length = 1 ∧ Ready (demoSettings S) (fun _ _ => True) tiles := by
  refine ⟨_, ?_, hS, by simp [demoSettings, Contiguous], demoSky_ok, .csv "fuji" none, ?_, _, rfl, rfl⟩
  · simp [Selected, demoSettings]
  · have : String.toLower "sv3" = "sv3" := by rw [← String.toList_inj, String.toLower, String.toList_map]; decide
    rw [show (demoSettings S).release = "sv3" from rfl, this]
    exact .sv3

theorem demo_mask {S : Spline} (hS : SplineOk S) : ∃ t, NzMask S id (demoSettings S).table 0 2 (.ok t) ∧ 0 < t.prob S 1 := by
  have hc : Contiguous (demoSettings S).table := by simp [demoSettings, Contiguous]
  have hm : ∃ t, NzMask S id (demoSettings S).table 0 2 (.ok t) := by
    unfold NzMask
    rw [nzNodes_contiguous id hc (by simp [demoSettings]) (by
      intro r hr
      simp only [demoSettings, List.mem_cons, List.not_mem_nil, or_false] at hr
      rcases hr with rfl | rfl | rfl <;> norm_num)]
    have e : (demoSettings S).table.map (fun r => (binCentre r, binDensity id r)) = [(0, 0), (1, 5), (2, 8)] := by
      norm_num [demoSettings, binCentre, binDensity]
    rw [e]
    obtain ⟨t, ht⟩ := (C29_spline_concave hS le_rfl (nodes := [(0, 0), (1, 5), (2, 8)]) (c2 := -1) (c1 := 6) (c0 := 0) (a := (0, 0))
      (b := (2, 8)) ⟨by norm_num, by simp, by norm_num⟩ (by norm_num) rfl rfl (by
        intro p hp
        simp only [List.mem_cons, List.not_mem_nil, or_false] at hp
        rcases hp with rfl | rfl | rfl <;> norm_num) (by
        intro p hp
        simp only [List.mem_cons, List.not_mem_nil, or_false] at hp
        rcases hp with rfl | rfl | rfl <;> norm_num) (by norm_num)).1
    exact ⟨t, ht⟩
  obtain ⟨t, ht⟩ := hm
  refine ⟨t, ht, ?_⟩
  obtain ⟨h1, h2, -⟩ := nzMask_prob hS hc ht
  have := h2 (1 / 2, 3 / 2, 65 / 4) (by simp [demoSettings]) (by norm_num [binCentre]) (by norm_num [binCentre])
  rw [show binCentre (1 / 2, 3 / 2, 65 / 4) = 1 by norm_num [binCentre]] at this
  rw [this]
  have hd : (0 : ℝ) < binDensity id (1 / 2, 3 / 2, 65 / 4) := by norm_num [binDensity]
  exact lt_min (mul_pos h1 hd) one_pos

theorem demo_cutsky : boxToCutsky ⟨2, 2, 2⟩ 2 0 = .ok ((0, 2), (-30, 30), (-30, 30)) := by
  have ha : Real.arcsin (1 / 2) = Real.pi / 6 := by
    rw [← Real.sin_pi_div_six, Real.arcsin_sin] <;> linarith [Real.pi_pos]
  have hd : Real.pi / 6 / (Real.pi / 180) = 30 := by
    have := Real.pi_ne_zero
    field_simp; norm_num
  norm_num [boxToCutsky, halfOpenings, npArcsin, bind, Except.bind, rad2deg, ha]

theorem demo_footprint {S : Spline} {tiles : List Pos} (ht : tiles.length = 1) (p : Pos) :
    InFootprint (demoSettings S) (fun _ _ => True) tiles "N" p ∧ InFootprint (demoSettings S) (fun _ _ => True) tiles "DS" p := by
  suffices h : ∀ region : String, (region = "N" ∨ region = "DS") → InFootprint (demoSettings S) (fun _ _ => True) tiles region p from
    ⟨h _ (.inl rfl), h _ (.inr rfl)⟩
  intro region hreg
  refine ⟨⟨{0}, by simp [demoSettings], ?_⟩, ?_⟩
  · intro i hi
    rw [Finset.mem_singleton] at hi
    subst hi
    exact ⟨tiles[0], List.getElem?_eq_getElem (by omega), trivial⟩
  · rcases hreg with rfl | rfl
    · exact ⟨[some 0], by simp [isInPhotometricRegion, Regions.up_N, demoSettings, convertDict]⟩
    · exact ⟨[some 0], by simp [isInPhotometricRegion, Regions.up_DS, demoSettings, convertDict, List.lookup]⟩

/-- The box of side 2 with one object at rest at its centre. -/
noncomputable def demoBox : Box Unit := ⟨⟨2, 2, 2⟩, 0, [⟨0, 0, [], [], ()⟩]⟩

theorem surveyAxes_zero {ra0 dec0 : ℝ} {v : V3 ℝ} (h : surveyAxes ra0 dec0 v = 0) : v = 0 := by
  have hx := congrArg V3.x h
  have hy := congrArg V3.y h
  have hz := congrArg V3.z h
  simp only [surveyAxes, V3.zero_x, V3.zero_y, V3.zero_z] at hx hy hz
  have s1 := Real.sin_sq_add_cos_sq (rad ra0)
  have s2 := Real.sin_sq_add_cos_sq (rad dec0)
  set c := Real.cos (rad ra0)
  set s := Real.sin (rad ra0)
  set c' := Real.cos (rad dec0)
  set s' := Real.sin (rad dec0)
  have hu : v.x * c + v.y * s = 0 := by linear_combination c' * hx - s' * hz - (v.x * c + v.y * s) * s2
  ext
  · simp only [V3.zero_x]; linear_combination c * hu - s * hy - v.x * s1
  · simp only [V3.zero_y]; linear_combination s * hu + c * hy - v.y * s1
  · simp only [V3.zero_z]; linear_combination s' * hx + c' * hz - v.z * s2

/-- The hypotheses are met: with the settings above, the data file of region N has the object, and the randoms are produced. -/
example {S : Spline} (hS : SplineOk S) : ∃ (tiles : List Pos) (dr : Model.Survey.Draws) (out : List (Obj (ℝ × SurveyRow Unit)))
    (ranks : List (List (ℝ × Obj RandomRow))), Ready (demoSettings S) (fun _ _ => True) tiles ∧
    Props.Draws dr.angular ∧ (∀ i j, 0 < dr.zHidden i j) ∧ PlainRange (192.3 - 30, 192.3 + 30) ∧
    RegionData (demoSettings S) [] demoBox dr.radial "N" (.ok (1, out)) ∧ out.length = 1 ∧
    RegionRandoms (demoSettings S) 2 demoBox dr "N" 1 (.ok ranks) := by
  obtain ⟨tiles, hlen, hs⟩ := demoSettings_ready hS
  obtain ⟨t, ht, hpos⟩ := demo_mask hS
  have hr : Centred "N" 192.3 56 := .inl ⟨rfl, rfl, rfl⟩
  have hb : boxToCutsky demoBox.boxsize ((demoSettings S).distance (demoSettings S).zmax)
      ((demoSettings S).distance (demoSettings S).zmin) = .ok ((0, 2), (-30, 30), (-30, 30)) := demo_cutsky
  have w0 : wrapAngle (192.3 - 30) = 192.3 - 30 := C23_wrap_unique true (by norm_num) (by norm_num [turn]) 0 (by norm_num)
  have w1 : wrapAngle (192.3 + 30) = 192.3 + 30 := C23_wrap_unique true (by norm_num) (by norm_num [turn]) 0 (by norm_num)
  have hp : PlainRange (192.3 - 30, 192.3 + 30) := ⟨by norm_num, by norm_num, fun h => absurd h.2 (by simp only [w0, w1]; norm_num)⟩
  let dr : Model.Survey.Draws := ⟨[0], fun _ _ => (1 / 2, 1 / 2), fun _ _ => 1 / 2, fun _ _ => 1 / 8, fun _ _ => t.prob S 1⟩
  have hrand := C98_produced (box := demoBox) hs hr hb hp (by norm_num) (nranks := 2) (by norm_num) (dr := dr)
    (fun _ _ => by norm_num [dr]) (fun _ _ => by norm_num [dr]) (n := 1) one_pos ht ⟨0, by norm_num, (demo_footprint hlen _).1⟩ (by
      intro i
      have : radialCandidate 0 2 (1 / 8) = 1 := by norm_num [radialCandidate]
      simp only [dr, demoSettings, id, this, le_refl])
  obtain ⟨ranks, hranks⟩ := hrand
  have h0 : ∀ r ∈ demoBox.rows, r.pos ≠ demoBox.boxcenter - ⟨scriptDistance 0 2 30 30, 0, 0⟩ := by
    intro r hr h
    simp only [demoBox, List.mem_singleton] at hr
    subst hr
    have := congrArg V3.x h
    norm_num [scriptDistance, demoBox] at this
  obtain ⟨T, R, cutsky, hT, hR, hTc, hc, hrows⟩ := C76_rows_partial demoBox (f := 1) (ra0 := 192.3) (dec0 := 56) hb (by norm_num)
    (by norm_num) (by norm_num) h0
  have hone : ∃ o, cutsky = [o] ∧ SurveyRowOf T R 1 (⟨0, 0, [], [], ()⟩ : Row Unit) o := by
    have : demoBox.rows = [⟨0, 0, [], [], ()⟩] := rfl
    rw [this] at hrows
    cases hrows with
    | cons h1 h2 => cases h2; exact ⟨_, rfl, h1⟩
  obtain ⟨o, rfl, ho⟩ := hone
  have hR0 : R 0 = 0 := surveyAxes_zero (hR 0)
  have hsd : scriptDistance 0 2 30 30 = 1 := by norm_num [scriptDistance]
  obtain ⟨d1, d2, d3⟩ := C98_centre (r := (⟨0, 0, [], [], ()⟩ : Row Unit)) hr one_pos (by rw [← hsd]; exact hTc) hR0 ho
  have hdata : RegionData (demoSettings S) [] demoBox [0] "N" (.ok (1, [⟨(192.3, 56), (1, o), some (some 0)⟩])) := by
    have hcut : (do
        let center ← regionCenter "N"
        rsdAndCutsky [] demoBox ((demoSettings S).distance (demoSettings S).zmin) ((demoSettings S).distance (demoSettings S).zmax)
          (demoSettings S).rsdFactor center.1 center.2) = .ok [o] := by
      rw [centred_ok hr]
      exact hc
    unfold RegionData
    rw [hcut]
    refine ⟨.ok [(1, o)], [(1, o)], ⟨.ok t, ht, ?_⟩, ?_⟩
    · have : (0 : ℝ) ≤ t.prob S 1 := hpos.le
      simp [demoSettings, d1, pick, maskCall, this]
    · have ho' : [((1 : ℝ), o)].mapM dataObj = .ok [⟨(192.3, 56), (1, o), none⟩] := by
        refine mapM_of_forall₂ (.cons ?_ .nil)
        simp [dataObj, d2, d3]
      obtain ⟨g, hg⟩ := footprint_ok hs hr [(⟨(192.3, 56), (1, o), none⟩ : Obj (ℝ × SurveyRow Unit))]
      simp only [bind, Except.bind, ho', hg]
      rw [List.filter_cons_of_pos (by simpa using (demo_footprint hlen _).1)]
      simp [demoSettings]
  exact ⟨tiles, dr, _, ranks, hs, fun _ _ => by norm_num [dr], fun _ _ => hpos, hp, hdata, rfl, hranks⟩

/-- The same for region DS, where the randoms are produced only West of RA = 0. -/
example {S : Spline} (hS : SplineOk S) : ∃ (tiles : List Pos) (dr : Model.Survey.Draws) (ranks : List (List (ℝ × Obj RandomRow))),
    Ready (demoSettings S) (fun _ _ => True) tiles ∧ Props.Draws dr.angular ∧
    RegionRandoms (demoSettings S) 2 demoBox dr "DS" 1 (.ok ranks) := by
  obtain ⟨tiles, hlen, hs⟩ := demoSettings_ready hS
  obtain ⟨t, ht, hpos⟩ := demo_mask hS
  have hr : Centred "DS" 6.4 5.3 := .inr (.inr ⟨rfl, rfl, rfl⟩)
  have hb : boxToCutsky demoBox.boxsize ((demoSettings S).distance (demoSettings S).zmax)
      ((demoSettings S).distance (demoSettings S).zmin) = .ok ((0, 2), (-30, 30), (-30, 30)) := demo_cutsky
  let dr : Model.Survey.Draws := ⟨[0], fun _ _ => (0, 1 / 2), fun _ _ => 1 / 2, fun _ _ => 1 / 8, fun _ _ => t.prob S 1⟩
  have w0 : wrapAngle (6.4 - 30) = 336.4 := C23_wrap_unique true (by norm_num) (by norm_num [turn]) 1 (by norm_num [turn])
  have w1 : wrapAngle (6.4 + 30) = 36.4 := C23_wrap_unique true (by norm_num) (by norm_num [turn]) 0 (by norm_num)
  have w2 : wrapAngle 336.4 = 336.4 := C23_wrap_unique true (by norm_num) (by norm_num [turn]) 0 (by norm_num)
  have hdec := (C35_dec_uniform (some (6.4 - 30, 6.4 + 30)) (d := (5.3 - 30, 5.3 + 30)) (u := 0) (v := 1 / 2) (by norm_num) (by norm_num)).2
  have hra : (angularCandidate (some (6.4 - 30, 6.4 + 30)) (some (5.3 - 30, 5.3 + 30)) 0 (1 / 2)).1 = 336.4 := by
    have e : angularRarange (some (6.4 - 30, 6.4 + 30)) = (336.4, 396.4) := by
      simp only [angularRarange, w0, w1]
      norm_num
    simp only [angularCandidate, e]
    norm_num
    exact pmod_unique (by norm_num) (k := 0) (by simp) (by norm_num) (by norm_num)
  obtain ⟨ranks, h⟩ := produced (box := demoBox) hs hr hb (nranks := 2) (by norm_num) (dr := dr) (n := 1) one_pos (fun i _ => by
      simp only [angularDecisions, decide_eq_true_eq, dr]
      rw [C28_crossing_partial 1 _ (by norm_num) (by simp only [w0, w1]; norm_num), hra, w2, w0, if_pos ⟨le_rfl, hdec⟩,
        clip01_eq zero_le_one le_rfl]
      norm_num) ht ⟨0, by norm_num, (demo_footprint hlen _).2⟩ (by
      intro i
      have : radialCandidate 0 2 (1 / 8) = 1 := by norm_num [radialCandidate]
      simp only [dr, demoSettings, id, this, le_refl])
  exact ⟨tiles, dr, ranks, hs, fun _ _ => by norm_num [dr], h⟩

end Verif.Props.Survey
