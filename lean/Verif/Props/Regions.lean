import Verif.Props.Footprint
import Mathlib.Tactic.NormNum
import Mathlib.Tactic.Tauto

/-!
# Photometric regions and the cut of a cutsky catalog (C59, C74)
-/

namespace Verif.Props

open Verif Verif.Model.Footprint Verif.Spec.Footprint

namespace Regions

theorem upper_eq {s t : String} (h : s.toList.map Char.toUpper = t.toList) : s.toUpper = t := by
  rw [← String.toList_inj, String.toUpper, String.toList_map, h]

theorem up_N : String.toUpper "N" = "N" := upper_eq (by decide)
theorem up_DN : String.toUpper "DN" = "DN" := upper_eq (by decide)
theorem up_DS : String.toUpper "DS" = "DS" := upper_eq (by decide)
theorem up_NS : String.toUpper "N+SNGC" = "N+SNGC" := upper_eq (by decide)
theorem up_SNGC : String.toUpper "SNGC" = "SNGC" := upper_eq (by decide)
theorem up_SSGC : String.toUpper "SSGC" = "SSGC" := upper_eq (by decide)
theorem up_DES : String.toUpper "DES" = "DES" := upper_eq (by decide)
theorem up_ND : String.toUpper "N+DN" = "N+DN" := upper_eq (by decide)

end Regions

open Regions

/-- The regions without `regressis`. -/
theorem C59_exact (p : Pos) :
    (InRegion none "N" p ↔ 32.375 < p.2) ∧
    (∀ region ∈ ["SNGC", "DN"], InRegion none region p ↔ p.2 < 32.375 ∧ 100 - p.2 < p.1 ∧ p.1 < 280 + p.2) ∧
    (∀ region ∈ ["SSGC", "DS"], InRegion none region p ↔ -25 < p.2 ∧ p.2 < 32.375 ∧ ¬ (100 - p.2 < p.1 ∧ p.1 < 280 + p.2)) ∧
    (InRegion none "N+SNGC" p ↔ p.2 < 32.375) := by
  obtain ⟨ra, dec⟩ := p
  refine ⟨?_, ?_, ?_, ?_⟩
  · simp [InRegion, isInPhotometricRegion, up_N, fallbackMask]
  · intro region hr
    simp only [List.mem_cons, List.not_mem_nil, or_false] at hr
    rcases hr with rfl | rfl <;> simp [InRegion, isInPhotometricRegion, up_SNGC, up_DN, fallbackMask]
  · intro region hr
    simp only [List.mem_cons, List.not_mem_nil, or_false] at hr
    rcases hr with rfl | rfl <;> simp [InRegion, isInPhotometricRegion, up_SSGC, up_DS, fallbackMask] <;>
      rw [and_comm (a := dec < 32.375), and_assoc, ← not_lt, imp_iff_not_or]
  · simp [InRegion, isInPhotometricRegion, up_NS, fallbackMask]

/-- Without `regressis`, no position is in two of the regions N, SNGC, SSGC. -/
theorem C59_disjoint (p : Pos) :
    ¬ (InRegion none "N" p ∧ InRegion none "SNGC" p) ∧ ¬ (InRegion none "N" p ∧ InRegion none "SSGC" p) ∧
    ¬ (InRegion none "SNGC" p ∧ InRegion none "SSGC" p) := by
  obtain ⟨h1, h2, h3, -⟩ := C59_exact p
  rw [h1, h2 "SNGC" (by simp), h3 "SSGC" (by simp)]
  refine ⟨fun h => by linarith [h.1, h.2.1], fun h => by linarith [h.1, h.2.2.1], fun h => h.2.2.2 h.1.2⟩

/-- Without `regressis`, away from the declination 32.375 and north of -25, each position is in one of the three regions. -/
theorem C59_cover_partial {p : Pos} (hcut : p.2 ≠ 32.375) (hsouth : -25 < p.2) :
    ∃! region, region ∈ ["N", "SNGC", "SSGC"] ∧ InRegion none region p := by
  obtain ⟨h1, h2, h3, -⟩ := C59_exact p
  have h2 := h2 "SNGC" (by simp)
  have h3 := h3 "SSGC" (by simp)
  obtain ⟨d1, d2, d3⟩ := C59_disjoint p
  have hex : InRegion none "N" p ∨ InRegion none "SNGC" p ∨ InRegion none "SSGC" p := by
    rw [h1, h2, h3]
    rcases lt_or_gt_of_ne hcut with h | h
    · by_cases hr : 100 - p.2 < p.1 ∧ p.1 < 280 + p.2
      · exact .inr (.inl ⟨h, hr⟩)
      · exact .inr (.inr ⟨hsouth, h, hr⟩)
    · exact .inl h
  rcases hex with h | h | h
  · refine ⟨"N", ⟨by simp, h⟩, ?_⟩
    rintro r ⟨hr, hi⟩
    simp only [List.mem_cons, List.not_mem_nil, or_false] at hr
    rcases hr with rfl | rfl | rfl
    · rfl
    · exact absurd ⟨h, hi⟩ d1
    · exact absurd ⟨h, hi⟩ d2
  · refine ⟨"SNGC", ⟨by simp, h⟩, ?_⟩
    rintro r ⟨hr, hi⟩
    simp only [List.mem_cons, List.not_mem_nil, or_false] at hr
    rcases hr with rfl | rfl | rfl
    · exact absurd ⟨hi, h⟩ d1
    · rfl
    · exact absurd ⟨h, hi⟩ d3
  · refine ⟨"SSGC", ⟨by simp, h⟩, ?_⟩
    rintro r ⟨hr, hi⟩
    simp only [List.mem_cons, List.not_mem_nil, or_false] at hr
    rcases hr with rfl | rfl | rfl
    · exact absurd ⟨hi, h⟩ d2
    · exact absurd ⟨hi, h⟩ d3
    · rfl

example : ((192, 13) : Pos).2 ≠ 32.375 ∧ -25 < ((192, 13) : Pos).2 := by norm_num

/-- Without `regressis`, a position at declination 32.375 is in no region. -/
theorem C59_cover_violated (ra : ℝ) (region : String) (h : region ∈ ["N", "SNGC", "SSGC", "DN", "DS", "N+SNGC"]) :
    ¬ InRegion none region (ra, 32.375) := by
  obtain ⟨h1, h2, h3, h4⟩ := C59_exact (ra, 32.375)
  simp only [List.mem_cons, List.not_mem_nil, or_false] at h
  rcases h with rfl | rfl | rfl | rfl | rfl | rfl
  · rw [h1]; simp
  · rw [h2 _ (by simp)]; simp
  · rw [h3 _ (by simp)]; simp
  · rw [h2 _ (by simp)]; simp
  · rw [h3 _ (by simp)]; simp
  · rw [h4]; simp

/-- Without `regressis`, the region N+SNGC has no position of N, and has positions that are neither in N nor in SNGC. -/
theorem C59_union_violated : (∀ p, InRegion none "N" p → ¬ InRegion none "N+SNGC" p) ∧
    InRegion none "N" (192, 60) ∧
    (InRegion none "N+SNGC" (0, 0) ∧ ¬ InRegion none "N" (0, 0) ∧ ¬ InRegion none "SNGC" (0, 0)) := by
  refine ⟨fun p => ?_, ?_, ?_, ?_, ?_⟩
  · obtain ⟨h1, -, -, h4⟩ := C59_exact p
    rw [h1, h4]
    intro h
    linarith
  · rw [(C59_exact _).1]; norm_num
  · rw [(C59_exact _).2.2.2]; norm_num
  · rw [(C59_exact _).1]; norm_num
  · rw [(C59_exact _).2.1 "SNGC" (by simp)]; norm_num

/-- With `regressis`: the pixel of each position and whether it is in the footprint map of the region; the regions are disjoint and
N+SNGC is the union of N and SNGC. -/
theorem C59_regressis_partial {r : Regressis} (hr : RegressisOk r) (p : Pos) :
    ¬ (InRegion (some r) "N" p ∧ InRegion (some r) "SNGC" p) ∧ ¬ (InRegion (some r) "N" p ∧ InRegion (some r) "SSGC" p) ∧
    ¬ (InRegion (some r) "SNGC" p ∧ InRegion (some r) "SSGC" p) ∧
    (InRegion (some r) "N+SNGC" p ↔ InRegion (some r) "N" p ∨ InRegion (some r) "SNGC" p) ∧
    (InRegion (some r) "DN" p ↔ InRegion (some r) "SNGC" p) ∧ (InRegion (some r) "DS" p ↔ InRegion (some r) "SSGC" p) ∧
    (InRegion (some r) "DES" p ↔ r.footprint "des" (r.pixel p) = true) ∧
    (InRegion (some r) "N" p ↔ r.footprint "north" (r.pixel p) = true) ∧
    (InRegion (some r) "SNGC" p ↔ r.footprint "south_mid_ngc" (r.pixel p) = true) ∧
    (InRegion (some r) "SSGC" p ↔ r.footprint "south_mid_sgc" (r.pixel p) = true) := by
  have hN : InRegion (some r) "N" p ↔ r.footprint "north" (r.pixel p) = true := by
    simp [InRegion, isInPhotometricRegion, up_N, convertDict]
  have hSN : InRegion (some r) "SNGC" p ↔ r.footprint "south_mid_ngc" (r.pixel p) = true := by
    simp [InRegion, isInPhotometricRegion, up_SNGC, convertDict, List.lookup]
  have hDN : InRegion (some r) "DN" p ↔ r.footprint "south_mid_ngc" (r.pixel p) = true := by
    simp [InRegion, isInPhotometricRegion, up_DN, convertDict, List.lookup]
  have hSS : InRegion (some r) "SSGC" p ↔ r.footprint "south_mid_sgc" (r.pixel p) = true := by
    simp [InRegion, isInPhotometricRegion, up_SSGC, convertDict, List.lookup]
  have hDS : InRegion (some r) "DS" p ↔ r.footprint "south_mid_sgc" (r.pixel p) = true := by
    simp [InRegion, isInPhotometricRegion, up_DS, convertDict, List.lookup]
  have hU : InRegion (some r) "N+SNGC" p ↔ r.footprint "ngc" (r.pixel p) = true := by
    simp [InRegion, isInPhotometricRegion, up_NS, convertDict, List.lookup]
  have hD : InRegion (some r) "DES" p ↔ r.footprint "des" (r.pixel p) = true := by
    simp [InRegion, isInPhotometricRegion, up_DES, convertDict, List.lookup]
  rw [hN, hSN, hDN, hSS, hDS, hU, hD]
  exact ⟨hr.north_ngc _, hr.north_sgc _, hr.ngc_sgc _, hr.union _, Iff.rfl, Iff.rfl, Iff.rfl, Iff.rfl, Iff.rfl, Iff.rfl⟩

example : RegressisOk ⟨fun _ => 0, fun name i => (name = "ngc" || name = "north") && i = 0⟩ where
  north_ngc i := by simp
  north_sgc i := by simp
  ngc_sgc i := by simp
  union i := by simp

/-- The mask of an array is the mask of its elements, in order, and a pixel is `nan` exactly without `regressis`. -/
theorem C59_pointwise (regressis : Option Regressis) (points : List Pos) {region : String}
    (hr : region.toUpper ∈ ["N", "DN", "DS", "N+SNGC", "SNGC", "SSGC", "DES"]) (hdes : regressis = none → region.toUpper ≠ "DES") :
    ∃ hpx m, isInPhotometricRegion regressis points region = .ok (hpx, m) ∧
      List.Forall₂ (fun p b => b = true ↔ InRegion regressis region p) points m ∧
      hpx = points.map fun p => regressis.map fun r => r.pixel p := by
  cases regressis with
  | none =>
    have hd := hdes rfl
    refine ⟨_, _, by unfold isInPhotometricRegion; simp only [if_pos hr, if_neg hd]; rfl, ?_, rfl⟩
    rw [List.forall₂_map_right_iff, List.forall₂_same]
    intro p _
    unfold InRegion isInPhotometricRegion
    simp only [if_pos hr, if_neg hd]
    simp
  | some r =>
    have : ∃ name, convertDict.lookup region.toUpper = some name := by
      generalize region.toUpper = s at hr
      simp only [List.mem_cons, List.not_mem_nil, or_false] at hr
      rcases hr with rfl | rfl | rfl | rfl | rfl | rfl | rfl <;> simp [convertDict, List.lookup]
    obtain ⟨name, hname⟩ := this
    refine ⟨_, _, by unfold isInPhotometricRegion; simp only [if_pos hr, hname]; rfl, ?_, rfl⟩
    rw [List.forall₂_map_right_iff, List.forall₂_same]
    intro p _
    unfold InRegion isInPhotometricRegion
    simp only [if_pos hr, hname]
    simp

example : (String.toUpper "n+sngc") ∈ ["N", "DN", "DS", "N+SNGC", "SNGC", "SSGC", "DES"] := by
  rw [upper_eq (t := "N+SNGC") (by decide)]; simp

/-- Names that are not in the list, whatever their case, are rejected; so is DES without `regressis`. -/
theorem C59_unknown (regressis : Option Regressis) (points : List Pos) (region : String) :
    (region.toUpper ∉ ["N", "DN", "DS", "N+SNGC", "SNGC", "SSGC", "DES"] →
      isInPhotometricRegion regressis points region = .error .assertionError) ∧
    (region.toUpper = "DES" → isInPhotometricRegion none points region = .error .valueError) := by
  constructor
  · intro h
    unfold isInPhotometricRegion
    simp only [if_neg h]
  · intro h
    simp [isInPhotometricRegion, h]

/-- The centres. -/
theorem C59_center : regionCenter "N" = .ok (192.3, 56) ∧ regionCenter "N+DN" = .ok (192, 35) ∧ regionCenter "N+SNGC" = .ok (192, 35) ∧
    regionCenter "DN" = .ok (192, 13) ∧ regionCenter "SNGC" = .ok (192, 13) ∧ regionCenter "DS" = .ok (6.4, 5.3) ∧
    regionCenter "SSGC" = .ok (6.4, 5.3) ∧
    ∀ region, region ∉ ["N", "N+DN", "N+SNGC", "DN", "SNGC", "DS", "SSGC"] → ∃ e, regionCenter region = .error e := by
  refine ⟨by simp [regionCenter], by simp [regionCenter], by simp [regionCenter], by simp [regionCenter], by simp [regionCenter],
    by simp [regionCenter], by simp [regionCenter], ?_⟩
  intro region h
  simp only [List.mem_cons, List.not_mem_nil, or_false, not_or] at h
  exact ⟨.nameError, by simp [regionCenter, h]⟩

/-- An unknown name is not rejected with the `ValueError` that the function builds: the error is that of a variable without value. -/
theorem C59_center_error_violated (region : String) (h : region ∉ ["N", "N+DN", "N+SNGC", "DN", "SNGC", "DS", "SSGC"]) :
    regionCenter region = .error .nameError := by
  simp only [List.mem_cons, List.not_mem_nil, or_false, not_or] at h
  simp [regionCenter, h]

/-- The two functions do not know the same names: `N+DN` has a centre and no mask, `DES` has a mask and no centre, and the lower
case name `n` has a mask and no centre. -/
theorem C59_names_violated (r : Regressis) (points : List Pos) :
    (regionCenter "N+DN" = .ok (192, 35) ∧ isInPhotometricRegion (some r) points "N+DN" = .error .assertionError) ∧
    ((∃ e, regionCenter "DES" = .error e) ∧ ∃ a, isInPhotometricRegion (some r) points "DES" = .ok a) ∧
    ((∃ e, regionCenter "n" = .error e) ∧ ∃ a, isInPhotometricRegion (some r) points "n" = .ok a) := by
  refine ⟨⟨C59_center.2.1, (C59_unknown _ _ _).1 (by rw [up_ND]; simp)⟩, ⟨⟨_, C59_center_error_violated _ (by simp)⟩, ?_⟩,
    ⟨_, C59_center_error_violated _ (by simp)⟩, ?_⟩
  · obtain ⟨hpx, m, h, -⟩ := C59_pointwise (some r) points (region := "DES") (by rw [up_DES]; simp) (by simp)
    exact ⟨_, h⟩
  · obtain ⟨hpx, m, h, -⟩ := C59_pointwise (some r) points (region := "n") (by rw [upper_eq (t := "N") (by decide)]; simp) (by simp)
    exact ⟨_, h⟩

/-- Without `regressis`, the centre of a region is in the region, except for N+SNGC. -/
theorem C59_center_inside (region : String) (h : region ∈ ["N", "DN", "SNGC", "DS", "SSGC"]) :
    ∃ p, regionCenter region = .ok p ∧ InRegion none region p := by
  simp only [List.mem_cons, List.not_mem_nil, or_false] at h
  obtain ⟨c1, -, -, c4, c5, c6, c7, -⟩ := C59_center
  rcases h with rfl | rfl | rfl | rfl | rfl
  · exact ⟨_, c1, by rw [(C59_exact _).1]; norm_num⟩
  · exact ⟨_, c4, by rw [(C59_exact _).2.1 _ (by simp)]; norm_num⟩
  · exact ⟨_, c5, by rw [(C59_exact _).2.1 _ (by simp)]; norm_num⟩
  · exact ⟨_, c6, by rw [(C59_exact _).2.2.1 _ (by simp)]; norm_num⟩
  · exact ⟨_, c7, by rw [(C59_exact _).2.2.1 _ (by simp)]; norm_num⟩

/-- The centre of N+SNGC is not in the region. -/
theorem C59_center_inside_violated : ∃ p, regionCenter "N+SNGC" = .ok p ∧ ¬ InRegion none "N+SNGC" p :=
  ⟨_, C59_center.2.2.1, by rw [(C59_exact _).2.2.2]; norm_num⟩

/-! ## C74: the cut of a catalog -/

theorem Regions.takeRows_eq {α : Type*} (xs : List α) (P : α → Prop) [DecidablePred P] (bs : List Bool)
    (h : List.Forall₂ (fun x b => b = true ↔ P x) xs bs) : takeRows xs bs = xs.filter P := by
  induction h with
  | nil => rfl
  | @cons x b xs bs h1 _ ih =>
    by_cases hp : P x
    · simp [takeRows, h1.2 hp, hp, ih]
    · have : b = false := by
        cases b
        · rfl
        · exact absurd (h1.1 rfl) hp
      simp [takeRows, this, hp, ih]

theorem Regions.zip_and {α : Type*} {P Q : α → Prop} {xs : List α} {as bs : List Bool}
    (h : List.Forall₂ (fun x b => b = true ↔ P x) xs as) (h' : List.Forall₂ (fun x b => b = true ↔ Q x) xs bs) :
    List.Forall₂ (fun x b => b = true ↔ P x ∧ Q x) xs (as.zipWith (· && ·) bs) := by
  induction h generalizing bs with
  | nil => cases h'; exact .nil
  | cons h1 _ ih =>
    cases h' with
    | cons h2 h3 => exact .cons (by rw [Bool.and_eq_true, h1, h2]) (ih h3)

open Classical in
/-- The catalog returned has exactly the objects that enough tiles of the release cover and that are in the region, in order and
with their columns; the column `HPX` is their pixel. -/
theorem C74_keep {α : Type} {dm : Desimodel} {covers : Pos → Pos → Prop} (hdm : DesimodelOk dm covers) {release program : String}
    {tilesFn : String → String} {src : Source} {tiles : List Pos} (hr : Release release.toLower src)
    (ht : TilesAre dm tilesFn "main" program src tiles) (npasses : Option ℤ) (regressis : Option Regressis) {region : String}
    (hreg : region.toUpper ∈ ["N", "DN", "DS", "N+SNGC", "SNGC", "SSGC", "DES"]) (hdes : regressis = none → region.toUpper ≠ "DES")
    (cutsky : List (Obj α)) :
    ∃ given, applyPhotoDesiFootprint dm regressis tilesFn cutsky region release program npasses =
      .ok (given, (cutsky.filter fun o => AtLeast covers (npasses.getD 1) tiles o.pos ∧ InRegion regressis region o.pos).map
        fun o => ⟨o.pos, o.rest, some (regressis.map fun r => r.pixel o.pos)⟩) := by
  have hrun : ∃ m, isInDesiFootprint dm (cutsky.map Obj.pos) release npasses program "main" tilesFn false = .ok (.mask m) ∧
      List.Forall₂ (fun p b => b = true ↔ AtLeast covers (npasses.getD 1) tiles p) (cutsky.map Obj.pos) m := by
    cases npasses with
    | none =>
      rw [C56_one_pass hdm hr ht]
      exact C56_passes hdm hr ht 1 _
    | some n => exact C56_passes hdm hr ht n _
  obtain ⟨m, hm, hk⟩ := hrun
  obtain ⟨hpx, m', hm', hk', he⟩ := C59_pointwise regressis (cutsky.map Obj.pos) hreg hdes
  unfold applyPhotoDesiFootprint
  simp only [bind, Except.bind, hm, hm', pure, Except.pure]
  refine ⟨_, congrArg Except.ok (Prod.ext rfl ?_)⟩
  have hset : setHpx cutsky hpx = cutsky.map fun o => ⟨o.pos, o.rest, some (regressis.map fun r => r.pixel o.pos)⟩ := by
    rw [he]
    unfold setHpx
    clear hm hk hm' hk' he
    induction cutsky with
    | nil => rfl
    | cons o os ih =>
      simp only [List.map_cons, List.zipWith_cons_cons, List.cons.injEq, true_and]
      simpa using ih
  have hand := zip_and hk hk'
  rw [List.forall₂_map_left_iff] at hand
  simp only
  rw [hset, takeRows_eq (cutsky.map fun o => (⟨o.pos, o.rest, some (regressis.map fun r => r.pixel o.pos)⟩ : Obj α))
    (fun o => AtLeast covers (npasses.getD 1) tiles o.pos ∧ InRegion regressis region o.pos), List.filter_map]
  · rfl
  · rw [List.forall₂_map_left_iff]
    exact hand

/-- The catalog of the caller is changed: it receives the column `HPX`. -/
theorem C74_input_violated {α : Type} {dm : Desimodel} {release program : String}
    {tilesFn : String → String} {src : Source} {tiles : List Pos} (hr : Release release.toLower src)
    (ht : TilesAre dm tilesFn "main" program src tiles) (npasses : Option ℤ) (regressis : Option Regressis) {region : String}
    (hreg : region.toUpper ∈ ["N", "DN", "DS", "N+SNGC", "SNGC", "SSGC", "DES"]) (hdes : regressis = none → region.toUpper ≠ "DES")
    (o : Obj α) :
    ∃ o' out, applyPhotoDesiFootprint dm regressis tilesFn [o] region release program npasses = .ok ([o'], out) ∧ o'.hpx ≠ none := by
  have hrun : ∃ m, isInDesiFootprint dm ([o].map Obj.pos) release npasses program "main" tilesFn false = .ok (.mask m) := by
    cases npasses with
    | none => exact ⟨_, (Footprint.run_none hr ht _).1⟩
    | some n => exact ⟨_, (Footprint.run_some hr ht n _).1⟩
  obtain ⟨m, hm⟩ := hrun
  obtain ⟨hpx, m', hm', -, he⟩ := C59_pointwise regressis ([o].map Obj.pos) hreg hdes
  unfold applyPhotoDesiFootprint
  simp only [bind, Except.bind, hm, hm', pure, Except.pure]
  refine ⟨{ o with hpx := some (regressis.map fun r => r.pixel o.pos) }, _, congrArg Except.ok (Prod.ext ?_ rfl), by simp⟩
  rw [he]
  rfl

/-- An unknown release or region: the cut raises, and returns nothing. -/
theorem C74_unknown {α : Type} (dm : Desimodel) (regressis : Option Regressis) (tilesFn : String → String) (cutsky : List (Obj α))
    (region release program : String) (npasses : Option ℤ) :
    ((∀ src, ¬ Release release.toLower src) →
      applyPhotoDesiFootprint dm regressis tilesFn cutsky region release program npasses = .error .valueError) ∧
    (region.toUpper ∉ ["N", "DN", "DS", "N+SNGC", "SNGC", "SSGC", "DES"] →
      ∃ e, applyPhotoDesiFootprint dm regressis tilesFn cutsky region release program npasses = .error e) := by
  constructor
  · intro h
    unfold applyPhotoDesiFootprint
    simp [C56_unknown dm h, bind, Except.bind]
  · intro h
    unfold applyPhotoDesiFootprint
    simp only [(C59_unknown regressis _ region).1 h, bind, Except.bind]
    cases isInDesiFootprint dm (cutsky.map Obj.pos) release npasses program "main" tilesFn false with
    | error e => exact ⟨e, rfl⟩
    | ok a => cases a <;> exact ⟨_, rfl⟩

example : String.toLower "SV3" = "sv3" ∧ (String.toUpper "n") ∈ ["N", "DN", "DS", "N+SNGC", "SNGC", "SSGC", "DES"] ∧
    TilesAre Footprint.demoModel id "main" "dark" (.csv "fuji" none) [(0, 0), (1, 0)] := by
  refine ⟨?_, ?_, Footprint.demo_tiles⟩
  · rw [← String.toList_inj, String.toLower, String.toList_map]; decide
  · rw [upper_eq (t := "N") (by decide)]; simp

example : ∀ src, ¬ Release (String.toLower "y2") src := by
  have : String.toLower "y2" = "y2" := by rw [← String.toList_inj, String.toLower, String.toList_map]; decide
  rw [this]
  intro src h
  generalize hs : "y2" = s at h
  cases h <;> simp at hs

end Verif.Props
