import Verif.Model.CutskyCall
import Verif.Props.CutskyRows
import Verif.Props.CutskyLayout
import Verif.Props.CutskyToBox

/-!
# C91: `BoxCatalog.cutsky`
-/

namespace Verif.Props
open Verif Verif.Model Verif.Spec

variable {ρ : Type}

/-- A position, in the frame of the observer, is in the ranges of the masks that are applied: its distance, RA and Dec,
as `cartesian_to_sky` gives them. -/
def Selected (radial angular : Bool) (dr rr dcr : Range) (q : V3 ℝ) : Prop :=
  (radial = true → InRange dr q.norm) ∧
    (angular = true → InRa rr (cartesianToSky q).ra ∧ ∃ dec, (cartesianToSky q).dec = some dec ∧ InRange dcr dec)

/-- Draws of a mask for `n` rows, none of them exactly zero. -/
def DrawsOk (n : ℕ) (u : List ℝ) : Prop := u.length = n ∧ ∀ x ∈ u, 0 < x ∧ x < 1

theorem radialAccepts_own {dr : Range} {radial : Bool} {n : ℕ} {u : List ℝ} (hu : DrawsOk n u) {i : ℕ} (hi : i < n) (p : V3 ℝ) :
    RadialAccepts (ownRadial dr radial u) i p ↔ (radial = true → InRange dr p.norm) := by
  obtain ⟨hl, hu'⟩ := hu
  have iu : i < u.length := by rw [hl]; exact hi
  cases radial with
  | false => simp [ownRadial, RadialAccepts]
  | true =>
    have hrad := C28_radial 1 dr p.norm
    simp only [forall_const, ownRadial, if_true]
    constructor
    · intro h
      by_contra hc
      have := h _ rfl _ (List.getElem?_eq_getElem iu)
      simp only [hrad.2 hc] at this
      exact absurd this (not_le.2 (hu' _ (List.getElem_mem iu)).1)
    · rintro h _ ⟨⟩ x hx
      simp only [hrad.1 h, clip01_eq zero_le_one le_rfl]
      exact (hu' x (List.mem_of_getElem? hx)).2.le

theorem angularAccepts_own {rr dcr : Range} {angular : Bool} {n : ℕ} {v : List ℝ} (hv : DrawsOk n v)
    (hplain : PlainRange rr) {i : ℕ} (hi : i < n) (p : V3 ℝ) :
    AngularAccepts (ownAngular rr dcr angular v) i p ↔
      (angular = true → InRa rr (cartesianToSky p).ra ∧ ∃ dec, (cartesianToSky p).dec = some dec ∧ InRange dcr dec) := by
  obtain ⟨hl, hv'⟩ := hv
  have iv : i < v.length := by rw [hl]; exact hi
  cases angular with
  | false => simp [ownAngular, AngularAccepts]
  | true =>
    simp only [forall_const, ownAngular, if_true]
    cases hdec : (cartesianToSky p).dec with
    | none =>
      simp only [reduceCtorEq, false_and, exists_false, and_false, iff_false]
      intro h
      have := h _ rfl _ (List.getElem?_eq_getElem iv)
      simp only [hdec, C28_no_declination] at this
      exact absurd this (not_le.2 (hv' _ (List.getElem_mem iv)).1)
    | some dec =>
      have hang := C28_angular_partial 1 dcr hplain (cartesianToSky p).ra dec
      simp only [Option.some.injEq, exists_eq_left']
      constructor
      · intro h
        by_contra hc
        have := h _ rfl _ (List.getElem?_eq_getElem iv)
        simp only [hdec, hang.2 hc] at this
        exact absurd this (not_le.2 (hv' _ (List.getElem_mem iv)).1)
      · rintro h _ ⟨⟩ x hx
        simp only [hdec, hang.1 h, clip01_eq zero_le_one le_rfl]
        exact (hv' x (List.mem_of_getElem? hx)).2.le

theorem movedPosition_eq (iso : Isom) (r : Row ρ) : movedPosition iso r = iso.transform r.pos false := by
  simp [movedPosition, Isom.transform]

/-- One catalog: exactly the selected rows, in order, moved by the isometry. -/
theorem own_selected (b : Box ρ) (iso : Isom) {dr rr dcr : Range} (radial angular : Bool) (rdd : Rdd) {u v : List ℝ}
    (hu : DrawsOk b.rows.length u) (hv : DrawsOk b.rows.length v) (hplain : PlainRange rr) :
    ∃ flags : List Bool, flags.length = b.rows.length ∧
      (∀ (i : ℕ) (r : Row ρ), b.rows[i]? = some r →
        (flags[i]? = some true ↔ Selected radial angular dr rr dcr (iso.transform r.pos false))) ∧
      cutskyFromIsometry b iso (ownRadial dr radial u) (ownAngular rr dcr angular v) rdd =
        (flagged b.rows flags).map fun r => (skyRow iso rdd r).1 := by
  obtain ⟨flags, h1, h2, h3⟩ := C34_selected b iso (ownRadial dr radial u) (ownAngular rr dcr angular v) rdd
    (by rintro a h; unfold ownRadial at h; split at h <;> cases h; exact hu.1)
    (by rintro a h; unfold ownAngular at h; split at h <;> cases h; exact hv.1)
  refine ⟨flags, h1, fun i r hi => ?_, h3⟩
  have hi' : i < b.rows.length := (List.getElem?_eq_some_iff.1 hi).1
  rw [h2 i r hi, movedPosition_eq, radialAccepts_own hu hi', angularAccepts_own hv hplain hi']
  rfl

/-- C91, one output: the catalog has exactly the rows of the box that are in the ranges once the centre of the box is moved
to the centre of the survey, in order, moved so. No margin matters. -/
theorem C91_one_partial (b : Box ρ) {dr rr dcr : Range} (external internal : Margin) (radial angular : Bool) (rdd : Rdd)
    {draws : ℕ → List ℝ × List ℝ} (hu : DrawsOk b.rows.length (draws 0).1) (hv : DrawsOk b.rows.length (draws 0).2)
    (hplain : PlainRange rr) :
    ∃ (iso : Isom) (flags : List Bool),
      (∀ p, iso.transform p false = (cutskyToBox dr rr dcr).2.transform (p - b.boxcenter) false) ∧
      flags.length = b.rows.length ∧
      (∀ (i : ℕ) (r : Row ρ), b.rows[i]? = some r →
        (flags[i]? = some true ↔ Selected radial angular dr rr dcr (iso.transform r.pos false))) ∧
      cutsky b dr rr dcr external internal (some 1) radial angular rdd draws =
        .ok (.one ((flagged b.rows flags).map fun r => (skyRow iso rdd r).1)) := by
  obtain ⟨flags, h1, h2, h3⟩ := own_selected b (shiftedIsometry b.boxcenter (cutskyToBox dr rr dcr).2) (dr := dr) (dcr := dcr)
    radial angular rdd hu hv hplain
  exact ⟨_, flags, fun p => shiftedIsometry_transform b.boxcenter _ p, h1, h2, by rw [← h3]; rfl⟩

theorem cutsky_many {b : Box ρ} {dr rr dcr : Range} {external internal : Margin} {noutput : Option ℤ}
    {radial angular : Bool} {rdd : Rdd} {draws : ℕ → List ℝ × List ℝ} {out : Catalogs ρ}
    (h : cutsky b dr rr dcr external internal noutput radial angular rdd draws = .ok out) :
    ∃ r, isometryForCutsky b dr rr dcr external internal noutput = .ok r ∧ ∀ l, r = .many l →
      out = .many (l.mapIdx fun k iso => cutskyFromIsometry b iso (ownRadial dr radial (draws k).1)
        (ownAngular rr dcr angular (draws k).2) defaultRdd) := by
  unfold cutsky at h
  generalize isometryForCutsky b dr rr dcr external internal noutput = e at h
  cases e with
  | error e => cases h
  | ok r =>
    refine ⟨r, rfl, ?_⟩
    rintro l rfl
    simp only [bind, Except.bind, Except.ok.injEq] at h
    rw [← h]
    simp only [cutskyFromIsometries, Catalogs.many.injEq]
    apply List.ext_getElem?
    intro i
    cases hl : l[i]? <;> simp [hl]

/-- C91, several outputs: each catalog belongs to a sub-box, and has exactly the rows of the box that are in the ranges
once the centre of the sub-box is moved to the centre of the survey, in order, moved so. The sub-boxes are those of C19. -/
theorem C91_many_partial {b : Box ρ} {dr rr dcr : Range} {external internal : Margin} {noutput : Option ℤ}
    {radial angular : Bool} {rdd : Rdd} {draws : ℕ → List ℝ × List ℝ} {out : Catalogs ρ} (hn : noutput ≠ some 1)
    (h : cutsky b dr rr dcr external internal noutput radial angular rdd draws = .ok out)
    (hd : ∀ k, DrawsOk b.rows.length (draws k).1 ∧ DrawsOk b.rows.length (draws k).2) (hplain : PlainRange rr) :
    let s := (cutskyToBox dr rr dcr).1
    0 < s.x → 0 < s.y → 0 < s.z →
    ∃ (centres : List (V3 ℝ)) (cats : List (List (SkyRow ρ))), out = .many cats ∧ cats.length = centres.length ∧
      (∀ p ∈ centres, SubboxIn b s (requested external) p) ∧
      centres.Pairwise (SubboxesApart s (requested internal)) ∧
      (∀ n, noutput = some n → centres.length = n.toNat) ∧
      (noutput = none → ∀ mx my mz, Fits b.boxsize.x s.x (requested external).x (requested internal).x mx →
        Fits b.boxsize.y s.y (requested external).y (requested internal).y my →
        Fits b.boxsize.z s.z (requested external).z (requested internal).z mz → mx * my * mz ≤ centres.length) ∧
      ∀ (k : ℕ) (c : V3 ℝ), centres[k]? = some c → ∃ (iso : Isom) (flags : List Bool),
        (∀ p, iso.transform p false = (cutskyToBox dr rr dcr).2.transform (p - c) false) ∧
        flags.length = b.rows.length ∧
        (∀ (i : ℕ) (r : Row ρ), b.rows[i]? = some r →
          (flags[i]? = some true ↔ Selected radial angular dr rr dcr (iso.transform r.pos false))) ∧
        cats[k]? = some ((flagged b.rows flags).map fun r => (skyRow iso defaultRdd r).1) := by
  intro s hx hy hz
  obtain ⟨r, hr, ho⟩ := cutsky_many h
  obtain ⟨centres, l, rfl, hf, h1, h2, h3, h4⟩ := C19_isometries hn hr hx hy hz
  refine ⟨centres, _, ho l rfl, by simpa using hf.length_eq, h1, h2, h3, h4, fun k c hk => ?_⟩
  have hk' : k < l.length := by rw [hf.length_eq]; exact (List.getElem?_eq_some_iff.1 hk).1
  have hk'' := (List.getElem?_eq_some_iff.1 hk)
  have hp := List.forall₂_iff_get.1 hf
  have hpk := hp.2 k hk' hk''.1
  have hc : centres.get ⟨k, hk''.1⟩ = c := hk''.2
  rw [hc] at hpk
  obtain ⟨flags, f1, f2, f3⟩ := own_selected b (l.get ⟨k, hk'⟩) (dr := dr) (dcr := dcr) radial angular defaultRdd
    (hd k).1 (hd k).2 hplain
  refine ⟨_, flags, hpk, f1, f2, ?_⟩
  rw [List.getElem?_mapIdx, List.getElem?_eq_getElem hk', ← f3]
  rfl

/-- The row number `i` of the box is in the output catalog of the sub-box of centre `c`. -/
def InCatalog (dr rr dcr : Range) (c : V3 ℝ) (r : Row ρ) : Prop :=
  Selected true true dr rr dcr ((cutskyToBox dr rr dcr).2.transform (r.pos - c) false)

theorem skyPoint_of_ne {q : V3 ℝ} (h : q ≠ 0) : ∃ dec, (cartesianToSky q).dec = some dec ∧
    skyPoint q.norm (cartesianToSky q).ra dec = q := by
  obtain ⟨dec, hd, hs⟩ := C22_from_cartesian h true
  refine ⟨dec, hd, ?_⟩
  refine Eq.trans ?_ hs
  have : q.norm = (cartesianToSky q).dist := rfl
  rw [this]
  ext <;> simp [skyToCartesian, Num.val, Num.kind, Kind.join, store, conversion, skyPoint, rad]

/-- If the box of `cutsky_to_box` holds the whole survey, all objects of a catalog come from its sub-box. -/
theorem in_subbox {dr rr dcr : Range} (h0 : 0 ≤ raWidth rr) (h1 : raWidth rr < 360) (hc : CoversAll dr rr dcr) {c : V3 ℝ}
    {r : Row ρ} (h : InCatalog dr rr dcr c r) : InCentredBox (cutskyToBox dr rr dcr).1 (r.pos - c) := by
  obtain ⟨hr, ha⟩ := h
  obtain ⟨hra, dec, hdec, hdr⟩ := ha rfl
  set q := (cutskyToBox dr rr dcr).2.transform (r.pos - c) false with hq
  have hq0 : q ≠ 0 := by
    intro e
    rw [e] at hdec
    simp [cartesianToSky, V3.norm] at hdec
  obtain ⟨dec', hd', hs⟩ := skyPoint_of_ne hq0
  rw [hdec] at hd'
  cases hd'
  obtain ⟨p, hp, hpq⟩ := hc _ _ _ (hr rfl) hra hdr
  rw [hs] at hpq
  have e1 := (cutskyIsometry_iff h0 h1 _ _).1 hpq
  have e2 := (cutskyIsometry_iff (dr := dr) (dcr := dcr) h0 h1 _ _).1 hq.symm
  rw [e2, ← e1]
  exact hp

/-- A point is on a face of the box of size `s` and centre `c`. -/
def OnFace (s c p : V3 ℝ) : Prop := |p.x - c.x| = s.x / 2 ∨ |p.y - c.y| = s.y / 2 ∨ |p.z - c.z| = s.z / 2

/-- C91, partial: no object in two catalogs, if the box of `cutsky_to_box` holds the whole survey: with internal margins
there are none, without, they are on common faces of two sub-boxes. -/
theorem C91_disjoint_partial {dr rr dcr : Range} (h0 : 0 ≤ raWidth rr) (h1 : raWidth rr < 360) (hc : CoversAll dr rr dcr)
    {m c c' : V3 ℝ} (hap : SubboxesApart (cutskyToBox dr rr dcr).1 m c c') {r : Row ρ} (h : InCatalog dr rr dcr c r)
    (h' : InCatalog dr rr dcr c' r) (hm : 0 ≤ m.x ∧ 0 ≤ m.y ∧ 0 ≤ m.z) :
    (m.x = 0 ∨ m.y = 0 ∨ m.z = 0) ∧ OnFace (cutskyToBox dr rr dcr).1 c r.pos ∧ OnFace (cutskyToBox dr rr dcr).1 c' r.pos := by
  obtain ⟨⟨a1, a2⟩, ⟨a3, a4⟩, a5, a6⟩ := in_subbox h0 h1 hc h
  obtain ⟨⟨b1, b2⟩, ⟨b3, b4⟩, b5, b6⟩ := in_subbox h0 h1 hc h'
  simp only [V3.sub_x, V3.sub_y, V3.sub_z] at a1 a2 a3 a4 a5 a6 b1 b2 b3 b4 b5 b6
  obtain ⟨m1, m2, m3⟩ := hm
  unfold OnFace
  generalize (cutskyToBox dr rr dcr).1 = s at *
  have pos : ∀ {x y : ℝ}, -y ≤ x → x ≤ y → y ≤ x → |x| = y := fun p q r => by
    rw [abs_of_nonneg] <;> linarith
  have neg : ∀ {x y : ℝ}, -y ≤ x → x ≤ y → x ≤ -y → |x| = y := fun p q r => by
    rw [abs_of_nonpos] <;> linarith
  rcases hap with (e | e) | (e | e) | e | e
  · exact ⟨Or.inl (by linarith), Or.inl (pos a1 a2 (by linarith)), Or.inl (neg b1 b2 (by linarith))⟩
  · exact ⟨Or.inl (by linarith), Or.inl (neg a1 a2 (by linarith)), Or.inl (pos b1 b2 (by linarith))⟩
  · exact ⟨Or.inr (Or.inl (by linarith)), Or.inr (Or.inl (pos a3 a4 (by linarith))), Or.inr (Or.inl (neg b3 b4 (by linarith)))⟩
  · exact ⟨Or.inr (Or.inl (by linarith)), Or.inr (Or.inl (neg a3 a4 (by linarith))), Or.inr (Or.inl (pos b3 b4 (by linarith)))⟩
  · exact ⟨Or.inr (Or.inr (by linarith)), Or.inr (Or.inr (pos a5 a6 (by linarith))), Or.inr (Or.inr (neg b5 b6 (by linarith)))⟩
  · exact ⟨Or.inr (Or.inr (by linarith)), Or.inr (Or.inr (neg a5 a6 (by linarith))), Or.inr (Or.inr (pos b5 b6 (by linarith)))⟩

/-- C91: the columns of the objects of a catalog are in the requested ranges. -/
theorem C91_columns {dr rr dcr : Range} {iso : Isom} {r : Row ρ} (h : Selected true true dr rr dcr (iso.transform r.pos false)) :
    ∃ ra dec dist : ℝ, (skyRow iso defaultRdd r).1.cols = [("RA", some ra), ("DEC", some dec), ("Distance", some dist)] ∧
      iso.transform r.pos false = skyPoint dist ra dec ∧ InRange dr dist ∧ InRa rr ra ∧ InRange dcr dec := by
  obtain ⟨hr, ha⟩ := h
  obtain ⟨hra, dec, hdec, hdr⟩ := ha rfl
  have hq0 : iso.transform r.pos false ≠ 0 := by
    intro e
    rw [e] at hdec
    simp [cartesianToSky, V3.norm] at hdec
  obtain ⟨dec', hd', hs⟩ := skyPoint_of_ne hq0
  rw [hdec] at hd'
  cases hd'
  refine ⟨(cartesianToSky (iso.transform r.pos false)).ra, dec, (iso.transform r.pos false).norm, ?_, hs.symm, hr rfl, hra, hdr⟩
  have hp : (r.transform iso).pos = iso.transform r.pos false := by simp [Row.transform, Isom.transform]
  simp only [skyRow, hp, defaultRdd, hdec]
  simp [cartesianToSky]

/-- C91, partial: objects in the ranges are not left out, but at the poles, where RA has no meaning, and at the observer. -/
theorem C91_complete_partial {dr rr dcr : Range} (radial angular : Bool) {q : V3 ℝ} {d ra dec : ℝ} (hq : q = skyPoint d ra dec) (hd : 0 < d)
    (hdec : -90 < dec ∧ dec < 90) (h1 : InRange dr d) (h2 : InRa rr ra) (h3 : InRange dcr dec) :
    Selected radial angular dr rr dcr q := by
  have hs : skyToCartesian (.float d) (.float ra) (.float dec) true = q := by
    rw [hq]
    ext <;> simp [skyToCartesian, Num.val, Num.kind, Kind.join, store, conversion, skyPoint, rad]
  have key := C22_from_sky_partial (dist := .float d) (ra := .float ra) (dec := .float dec) (by simp [Num.kind]) true hd
    (by norm_num [turn, Num.val]; exact hdec.1) (by norm_num [turn, Num.val]; exact hdec.2)
  obtain ⟨e1, e2, e3⟩ := key
  rw [hs] at e1 e2 e3
  refine ⟨fun _ => ?_, fun _ => ⟨?_, dec, e3, h3⟩⟩
  · have : q.norm = d := e1
    rw [this]; exact h1
  · have e2' : (cartesianToSky q).ra = wrapAngle ra := e2
    rw [e2']
    obtain ⟨k, hk⟩ := h2
    obtain ⟨-, -, m, hm⟩ := C23_wrap ra true
    have ht : turn true = 360 := by norm_num [turn]
    refine ⟨k - m, ?_⟩
    have : wrapAngle ra + 360 * ((k - m : ℤ) : ℝ) = ra + 360 * k := by rw [hm, ht]; push_cast; ring
    rw [this]
    exact hk

theorem trunc_nat (n : ℕ) : trunc (n : ℝ) = n := by
  unfold trunc
  rw [if_pos (Nat.cast_nonneg n)]
  exact Int.floor_natCast n

theorem axisLayout_tiled (n : ℕ) {b : ℝ} (hb : 0 < b) (c : ℝ) :
    axisLayout (n * b) b c none none = .ok ((List.range n).map fun k : ℕ => (b * k + (b * k + b)) / 2 - n * b / 2 + c) := by
  unfold axisLayout
  have h1 : trunc (n * b / b) = n := by rw [mul_div_cancel_right₀ _ hb.ne', trunc_nat]
  have h2 : ((n : ℝ) + 1) ≠ 0 := by positivity
  simp only [Option.getD_none, add_zero, mul_zero, sub_zero, hb.ne', if_false, chooseMargins, rescaleMargins, h1]
  simp [h2, bind, Except.bind, mul_comm b]

/-- The box, and its object, of the refutation below. -/
noncomputable def sharedBox : Box Unit := ⟨⟨1, 2, 2⟩, 0, [⟨⟨Real.sqrt 3 / 4 - 1 / 2, 1 / 2, 1 / 4⟩, 0, [], [], ()⟩]⟩

/-- C91 fails for surveys away from the equator: the sub-boxes are too small for the survey, and an object is put in two
catalogs. Distances from 0 to 1, RA from 0 to 180, Dec from 0 to 60, and a box of two sub-boxes: its only object is at
distance 1, RA 180 and Dec 60 in one catalog, and at RA 135, Dec 0 in the other. -/
theorem C91_shared_violated {draws : ℕ → List ℝ × List ℝ} (hd : ∀ k, DrawsOk 1 (draws k).1 ∧ DrawsOk 1 (draws k).2) :
    ∃ x y : SkyRow Unit, cutsky sharedBox (0, 1) (0, 180) (0, 60) (.all none) (.all none) none true true defaultRdd draws =
      .ok (.many [[x], [y]]) := by
  have hw : raWidth (0, 180) = 180 := by norm_num [raWidth]
  have hs : (cutskyToBox (0, 1) (0, 180) (0, 60)).1 = ⟨1, 2, 1⟩ := by
    have := cutskyBoxsize_eq (dr := (0, 1)) (rr := (0, 180)) (dcr := (0, 60)) (by rw [hw]; norm_num) (by rw [hw]; norm_num)
      (by norm_num)
    show cutskyBoxsize _ _ _ = _
    rw [this, hw]
    ext <;> norm_num [rad_90, rad_30]
  have hplain : PlainRange (0, 180) := by
    refine ⟨by norm_num, by norm_num, ?_⟩
    rintro ⟨-, h⟩
    have e0 : wrapAngle 0 = 0 := C23_wrap_unique true (le_refl _) (by norm_num [turn]) 0 (by simp)
    have e1 : wrapAngle 180 = 180 := C23_wrap_unique true (by norm_num) (by norm_num [turn]) 0 (by simp)
    simp only [e0, e1] at h
    norm_num at h
  -- the sub-boxes
  have lx : axisLayout 1 1 0 none none = .ok [0] := by
    have := axisLayout_tiled 1 (b := 1) one_pos 0
    norm_num at this
    exact this
  have ly : axisLayout 2 2 0 none none = .ok [0] := by
    have := axisLayout_tiled 1 (b := 2) two_pos 0
    norm_num at this
    exact this
  have lz : axisLayout 2 1 0 none none = .ok [-1 / 2, 1 / 2] := by
    have := axisLayout_tiled 2 (b := 1) one_pos 0
    norm_num [List.range_succ] at this
    rw [this]; norm_num
  have hiso : isometryForCutsky sharedBox (0, 1) (0, 180) (0, 60) (.all none) (.all none) none =
      .ok (.many [shiftedIsometry ⟨0, 0, -1 / 2⟩ (cutskyToBox (0, 1) (0, 180) (0, 60)).2,
        shiftedIsometry ⟨0, 0, 1 / 2⟩ (cutskyToBox (0, 1) (0, 180) (0, 60)).2]) := by
    unfold isometryForCutsky
    simp only [hs, sharedBox, Margin.toV3, V3.zero_x, V3.zero_y, V3.zero_z, lx, ly, lz]
    simp [bind, Except.bind, product3]
  have hrow : ∀ (k : ℕ) (iso : Isom), Selected true true (0, 1) (0, 180) (0, 60)
      (iso.transform ⟨Real.sqrt 3 / 4 - 1 / 2, 1 / 2, 1 / 4⟩ false) →
      ∃ x, cutskyFromIsometry sharedBox iso (ownRadial (0, 1) true (draws k).1) (ownAngular (0, 180) (0, 60) true (draws k).2)
        defaultRdd = [x] := by
    intro k iso h
    obtain ⟨flags, f1, f2, f3⟩ := own_selected sharedBox iso (dr := (0, 1)) (dcr := (0, 60)) true true defaultRdd
      (hd k).1 (hd k).2 hplain
    have f4 := (f2 0 _ rfl).2 h
    match flags, f1, f4 with
    | [true], _, _ => exact ⟨_, f3⟩
  have q3 : Real.sqrt 3 * Real.sqrt 3 = 3 := Real.mul_self_sqrt (by norm_num)
  have r135 : rad 135 = Real.pi - Real.pi / 4 := by unfold rad; ring
  have r180 : rad 180 = Real.pi := by unfold rad; ring
  have sel : ∀ {c : V3 ℝ} {d ra dec : ℝ}, surveyAxes 90 30 (skyPoint d ra dec) - ⟨1 / 2, 0, 0⟩ =
      ⟨Real.sqrt 3 / 4 - 1 / 2, 1 / 2, 1 / 4⟩ - c → 0 < d → -90 < dec → dec < 90 → InRange (0, 1) d → InRa (0, 180) ra →
      InRange (0, 60) dec → Selected true true (0, 1) (0, 180) (0, 60)
        ((shiftedIsometry c (cutskyToBox (0, 1) (0, 180) (0, 60)).2).transform ⟨Real.sqrt 3 / 4 - 1 / 2, 1 / 2, 1 / 4⟩ false) := by
    intro c d ra dec e d0 d1 d2 d3 d4 d5
    refine C91_complete_partial (d := d) (ra := ra) (dec := dec) true true ?_ d0 ⟨d1, d2⟩ d3 d4 d5
    rw [shiftedIsometry_transform]
    refine (cutskyIsometry_iff (by rw [hw]; norm_num) (by rw [hw]; norm_num) _ _).2 ?_
    have hs' : (cutskyBoxsize (0, 1) (0, 180) (0, 60)).x = 1 := congrArg V3.x hs
    rw [hs', hw, ← e]
    norm_num
  obtain ⟨x, hx⟩ := hrow 0 _ (sel (c := ⟨0, 0, -1 / 2⟩) (d := 1) (ra := 180) (dec := 60) (by
      rw [surveyAxes_skyPoint]
      ext <;> norm_num [rad_60, rad_30, rad_90, r180] <;> nlinarith) one_pos (by norm_num) (by norm_num)
    ⟨by norm_num, le_refl _⟩ (inRa_self (by norm_num) (by norm_num)) ⟨by norm_num, le_refl _⟩)
  obtain ⟨y, hy⟩ := hrow 1 _ (sel (c := ⟨0, 0, 1 / 2⟩) (d := Real.sqrt 2 / 2) (ra := 135) (dec := 0) (by
      have q2 : Real.sqrt 2 * Real.sqrt 2 = 2 := Real.mul_self_sqrt (by norm_num)
      rw [surveyAxes_skyPoint]
      have e : (135 : ℝ) - 90 = 45 := by norm_num
      have r45 : rad 45 = Real.pi / 4 := by unfold rad; ring
      ext <;> norm_num [rad_60, rad_30, rad_90, e, r45, rad_zero] <;>
        first | linear_combination (Real.sqrt 3 / 8) * q2 | nlinarith) (by positivity) (by norm_num) (by norm_num)
    ⟨by positivity, by
      have : Real.sqrt 2 ≤ 2 := by rw [Real.sqrt_le_left (by norm_num)]; norm_num
      show Real.sqrt 2 / 2 ≤ 1
      linarith⟩ (inRa_self (by norm_num) (by norm_num)) ⟨le_refl _, by norm_num⟩)
  refine ⟨x, y, ?_⟩
  unfold cutsky
  rw [hiso]
  simp only [bind, Except.bind, cutskyFromIsometries, List.mapIdx_cons, List.mapIdx_nil, List.map_cons, List.map_nil,
    Nat.zero_add, hx, hy]

/-- Non-vacuity of `C91_many_partial`: the call of the refutation succeeds, and its sub-boxes have positive sides. -/
example : ∃ out, cutsky sharedBox (0, 1) (0, 180) (0, 60) (.all none) (.all none) none true true defaultRdd
      (fun _ => ([1 / 2], [1 / 3])) = .ok out ∧ (0 : ℝ) < (cutskyToBox (0, 1) (0, 180) (0, 60)).1.z := by
  have hw : raWidth (0, 180) = 180 := by norm_num [raWidth]
  obtain ⟨x, y, h⟩ := C91_shared_violated (draws := fun _ => ([1 / 2], [1 / 3])) (fun k => by
    refine ⟨⟨rfl, ?_⟩, rfl, ?_⟩ <;> simp <;> norm_num)
  refine ⟨_, h, ?_⟩
  have := cutskyBoxsize_eq (dr := (0, 1)) (rr := (0, 180)) (dcr := (0, 60)) (by rw [hw]; norm_num) (by rw [hw]; norm_num)
    (by norm_num)
  show 0 < (cutskyBoxsize _ _ _).z
  rw [this]
  norm_num [rad_30]

/-- Non-vacuity of `C91_disjoint_partial`: two sub-boxes on top of each other, and an object on their common face, which is
in both catalogs (at Dec 30 and -30). -/
example : ∃ (c c' : V3 ℝ) (r : Row Unit), CoversAll (0, 1) (0, 180) (-30, 30) ∧
    SubboxesApart (cutskyToBox (0, 1) (0, 180) (-30, 30)).1 0 c c' ∧ InCatalog (0, 1) (0, 180) (-30, 30) c r ∧
    InCatalog (0, 1) (0, 180) (-30, 30) c' r := by
  have hw : raWidth (0, 180) = 180 := by norm_num [raWidth]
  have hs : (cutskyToBox (0, 1) (0, 180) (-30, 30)).1 = ⟨1, 2, 1⟩ := by
    have := cutskyBoxsize_eq (dr := (0, 1)) (rr := (0, 180)) (dcr := (-30, 30)) (by rw [hw]; norm_num) (by rw [hw]; norm_num)
      (by norm_num)
    show cutskyBoxsize _ _ _ = _
    rw [this, hw]
    ext <;> norm_num [rad_90, rad_30]
  have sel : ∀ {c : V3 ℝ} {dec : ℝ}, surveyAxes 90 0 (skyPoint 1 90 dec) - ⟨1 / 2, 0, 0⟩ =
      ⟨Real.sqrt 3 / 2 - 1 / 2, 0, 0⟩ - c → InRange (-30, 30) dec →
      InCatalog (0, 1) (0, 180) (-30, 30) c (⟨⟨Real.sqrt 3 / 2 - 1 / 2, 0, 0⟩, 0, [], [], ()⟩ : Row Unit) := by
    intro c dec e d5
    have d6 : -30 ≤ dec := d5.1
    have d7 : dec ≤ 30 := d5.2
    refine C91_complete_partial (d := 1) (ra := 90) (dec := dec) true true ?_ one_pos ⟨by linarith, by linarith⟩
      ⟨by norm_num, le_refl _⟩ ⟨0, by rw [hw]; norm_num⟩ d5
    refine (cutskyIsometry_iff (by rw [hw]; norm_num) (by rw [hw]; norm_num) _ _).2 ?_
    have hs' : (cutskyBoxsize (0, 1) (0, 180) (-30, 30)).x = 1 := congrArg V3.x hs
    rw [hs', hw, ← e]
    norm_num
  refine ⟨⟨0, 0, -1 / 2⟩, ⟨0, 0, 1 / 2⟩, ⟨⟨Real.sqrt 3 / 2 - 1 / 2, 0, 0⟩, 0, [], [], ()⟩,
    C21_equator_partial rfl (by rw [hw]; norm_num) (by rw [hw]) rfl (by norm_num) (by norm_num),
    Or.inr (Or.inr (Or.inl ?_)), sel (dec := 30) ?_ ⟨by norm_num, le_refl _⟩, sel (dec := -30) ?_ ⟨le_refl _, by norm_num⟩⟩
  · rw [hs]; norm_num
  · rw [surveyAxes_skyPoint]; ext <;> norm_num [rad_30, rad_zero]
  · have r30 : rad (-30) = - rad 30 := by unfold rad; ring
    rw [surveyAxes_skyPoint]; ext <;> norm_num [rad_30, rad_zero, r30]

end Verif.Props
