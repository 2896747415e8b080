import Verif.Model.Sv3Cut
import Verif.Spec.Footprint
import Verif.Props.Script
import Verif.Props.Mask

/-!
# C89, C90: the cuts of the SV3 script
-/

namespace Verif.Props.Sv3Cut

open Verif Verif.Model Verif.Spec
open Verif.Model.Remap (Cuboid det3 toReal generateLatticeVectors)
open Verif.Model.Script (SurveyRow L3)
open Verif.Model.Sv3

variable {ρ : Type}

/-! ## C89 -/

/-- `n` is the unit vector along the mean of the directions (RA, Dec). -/
def GroupDirection (dirs : List (ℝ × ℝ)) (n : V3 ℝ) : Prop :=
  V3.dot n n = 1 ∧ ∃ m : ℝ, 0 < m ∧ (dirs.map fun d => skyPoint 1 d.1 d.2).foldr (· + ·) 0 = m • n

/-- `p` with its second and third axes turned by `angle` degrees, from the second to the third. -/
noncomputable def turned (angle : ℝ) (p : V3 ℝ) : V3 ℝ :=
  ⟨p.x, Real.cos (rad angle) * p.y - Real.sin (rad angle) * p.z, Real.sin (rad angle) * p.y + Real.cos (rad angle) * p.z⟩

theorem skyToCartesian_unit (ra dec : ℝ) : skyToCartesian (.float 1) (.float ra) (.float dec) = skyPoint 1 ra dec := by
  ext <;> simp [skyToCartesian, Num.val, Num.kind, Kind.join, store, conversion, skyPoint, rad]

theorem meanLos_eq {dirs : List (ℝ × ℝ)} {n : V3 ℝ} (h : GroupDirection dirs n) :
    ∃ l : ℝ, 0 < l ∧ meanLos dirs = .ok (l • n) := by
  obtain ⟨hn, m, hm, hs⟩ := h
  have hne : dirs ≠ [] := by
    rintro rfl
    simp only [List.map_nil, List.foldr_nil] at hs
    have e : V3.dot (m • n) (m • n) = m * m * V3.dot n n := by simp only [V3.dot, V3.smul_x, V3.smul_y, V3.smul_z]; ring
    rw [← hs, hn] at e
    simp [V3.dot] at e
    exact hm.ne' e
  have hl : 0 < (dirs.length : ℝ) := by exact_mod_cast List.length_pos_of_ne_nil hne
  refine ⟨1 / dirs.length * m, by positivity, ?_⟩
  rw [meanLos, if_neg hne]
  simp only [skyToCartesian_unit, hs]
  congr 1
  ext <;> simp <;> ring

theorem smul_norm {l : ℝ} (hl : 0 < l) {n : V3 ℝ} (hn : V3.dot n n = 1) : (l • n).norm = l := by
  have : (l • n).norm ^ 2 = l ^ 2 := by
    rw [V3.norm_sq]
    simp only [V3.dot] at hn
    simp only [V3.smul_x, V3.smul_y, V3.smul_z]
    linear_combination l ^ 2 * hn
  exact (sq_eq_sq₀ (V3.norm_nonneg _) hl.le).1 this

theorem one_smul' (v : V3 ℝ) : (1 : ℝ) • v = v := by ext <;> simp

theorem groupCenter_eq {l : ℝ} (hl : 0 < l) {n : V3 ℝ} (hn : V3.dot n n = 1) :
    ∃ ra dec, groupCenter (l • n) = .ok (ra, dec) ∧ n = skyPoint 1 ra dec ∧ (0 ≤ ra ∧ ra < 360) ∧ (-90 ≤ dec ∧ dec ≤ 90) := by
  have hnorm := smul_norm hl hn
  have h0 : l • n ≠ 0 := by
    intro h
    rw [h] at hnorm
    have : (0 : V3 ℝ).norm ^ 2 = 0 := by rw [V3.norm_sq]; simp
    rw [hnorm] at this
    nlinarith
  obtain ⟨dec, hd, hs⟩ := C22_from_cartesian h0 true
  have hr := C23_ranges (l • n) true
  refine ⟨(cartesianToSky (l • n)).ra, dec, ?_, ?_, ?_, ?_⟩
  · simp only [groupCenter, hd]
  · have hdist : (cartesianToSky (l • n)).dist = l := hnorm
    rw [hdist] at hs
    have e : l • skyPoint 1 (cartesianToSky (l • n)).ra dec = l • n := by
      conv_rhs => rw [← hs]
      ext <;> simp [skyToCartesian, Num.val, Num.kind, Kind.join, store, conversion, skyPoint, rad]
    have hx := congrArg V3.x e
    have hy := congrArg V3.y e
    have hz := congrArg V3.z e
    simp only [V3.smul_x, V3.smul_y, V3.smul_z] at hx hy hz
    ext
    · exact (mul_left_cancel₀ hl.ne' hx).symm
    · exact (mul_left_cancel₀ hl.ne' hy).symm
    · exact (mul_left_cancel₀ hl.ne' hz).symm
  · simpa [turn] using (⟨hr.2.1, hr.2.2.1⟩ : _ ∧ _)
  · have := hr.2.2.2.2 dec hd
    norm_num [turn] at this
    exact this

theorem surveyAxes_cross (ra dec : ℝ) (q : V3 ℝ) : surveyAxes ra dec (V3.cross (skyPoint 1 ra dec) q) =
    ⟨0, -(surveyAxes ra dec q).z, (surveyAxes ra dec q).y⟩ := by
  have e1 := Real.sin_sq_add_cos_sq (rad ra)
  have e2 := Real.sin_sq_add_cos_sq (rad dec)
  ext
  · simp [surveyAxes, V3.cross, skyPoint]; ring
  · simp [surveyAxes, V3.cross, skyPoint]
    linear_combination (q.z * Real.cos (rad dec)) * (-e1)
  · simp [surveyAxes, V3.cross, skyPoint]
    linear_combination (q.y * Real.cos (rad ra) - q.x * Real.sin (rad ra)) * e2

theorem surveyAxes_unit (ra dec : ℝ) : surveyAxes ra dec (skyPoint 1 ra dec) = ⟨1, 0, 0⟩ := by
  have e1 := Real.sin_sq_add_cos_sq (rad ra)
  have e2 := Real.sin_sq_add_cos_sq (rad dec)
  ext
  · simp [surveyAxes, skyPoint]
    linear_combination Real.cos (rad dec) ^ 2 * e1 + e2
  · simp [surveyAxes, skyPoint]; ring
  · simp [surveyAxes, skyPoint]
    linear_combination (-Real.cos (rad dec) * Real.sin (rad dec)) * e1

theorem surveyAxes_dot (ra dec : ℝ) (q : V3 ℝ) : V3.dot (skyPoint 1 ra dec) q = (surveyAxes ra dec q).x := by
  simp [surveyAxes, skyPoint, V3.dot]; ring

theorem surveyAxes_add (ra dec : ℝ) (p q : V3 ℝ) : surveyAxes ra dec (p + q) = surveyAxes ra dec p + surveyAxes ra dec q := by
  ext <;> simp [surveyAxes] <;> ring

theorem surveyAxes_smul (ra dec a : ℝ) (q : V3 ℝ) : surveyAxes ra dec (a • q) = a • surveyAxes ra dec q := by
  ext <;> simp [surveyAxes] <;> ring

theorem surveyAxes_rotation (ra dec angle : ℝ) (q : V3 ℝ) :
    surveyAxes ra dec (rodrigues (skyPoint 1 ra dec) (radians angle true) q) = turned angle (surveyAxes ra dec q) := by
  have ha : radians angle true = rad angle := by simp only [radians, rad, if_true]; ring
  rw [ha, rodrigues, surveyAxes_add, surveyAxes_add, surveyAxes_smul, surveyAxes_smul, surveyAxes_smul, surveyAxes_cross,
    surveyAxes_unit, surveyAxes_dot]
  ext <;> simp [turned] <;> ring

/-- The ranges of a box seen from outside, close enough to be seen up to the maximum distance. -/
theorem boxToCutsky_ok {b : V3 ℝ} {dmax : ℝ} (hy : 0 ≤ b.y) (hz : 0 ≤ b.z) (hbx : 0 ≤ b.x) (hx : b.x < dmax)
    (hc : ∀ s, s = b.y ∨ s = b.z → (dmax - b.x) ^ 2 + (s / 2) ^ 2 < dmax ^ 2) :
    ∃ dr rr dcr, boxToCutsky b dmax 0 = .ok (dr, rr, dcr) := by
  have hd : 0 < dmax := by linarith
  have hdx : ¬ (dmax - b.x ≤ 0) := by linarith
  have key : ∀ c : V3 ℝ, c.x = b.x → (c.y = b.y ∨ c.y = b.z) → (c.z = b.y ∨ c.z = b.z) → ∃ v, halfOpenings c dmax 0 = .ok v := by
    intro c hcx hcy hcz
    have h1 := hc c.y hcy
    have h2 := hc c.z hcz
    have y0 : 0 ≤ c.y := by rcases hcy with h | h <;> rw [h] <;> assumption
    have z0 : 0 ≤ c.z := by rcases hcz with h | h <;> rw [h] <;> assumption
    have frac : ∀ s : ℝ, 0 ≤ s → (dmax - b.x) ^ 2 + (s / 2) ^ 2 < dmax ^ 2 → 0 ≤ s / 2 / dmax ∧ s / 2 / dmax < 1 := by
      intro s hs h
      have : s / 2 < dmax := by nlinarith [sq_nonneg (dmax - b.x)]
      exact ⟨by positivity, by rwa [div_lt_one hd]⟩
    obtain ⟨y1, y2⟩ := frac c.y y0 h1
    obtain ⟨z1, z2⟩ := frac c.z z0 h2
    unfold halfOpenings
    simp only [hd.ne', if_false, hcx, hdx]
    rw [if_pos ((Real.sqrt_lt' hd).2 h1), npArcsin_of (by linarith) y2.le, npArcsin_of (by linarith) z2.le]
    have hcos : 0 < Real.cos (Real.arcsin (c.y / 2 / dmax)) := by
      rw [Real.cos_arcsin]; apply Real.sqrt_pos.2; nlinarith
    have e : (dmax - b.x) / ((dmax - b.x) / Real.cos (Real.arcsin (c.y / 2 / dmax))) = Real.cos (Real.arcsin (c.y / 2 / dmax)) := by
      have : dmax - b.x ≠ 0 := by intro h; exact hdx h.le
      field_simp
    simp only [bind, Except.bind, e]
    rw [npArccos_of (Real.neg_one_le_cos _) (Real.cos_le_one _)]
    exact ⟨_, rfl⟩
  unfold boxToCutsky
  by_cases h : b.y < b.z
  · obtain ⟨v, hv⟩ := key ⟨b.x, b.z, b.y⟩ rfl (Or.inr rfl) (Or.inl rfl)
    simp only [h, decide_true, if_true, hv, bind, Except.bind]
    exact ⟨_, _, _, rfl⟩
  · obtain ⟨v, hv⟩ := key b rfl (Or.inl rfl) (Or.inr rfl)
    simp only [h, decide_false, Bool.false_eq_true, if_false, hv, bind, Except.bind]
    exact ⟨_, _, _, rfl⟩

/-- The rows of the remapped box on the sky. -/
theorem moveGroup_eq (b : Box ρ) {dmax ra0 dec0 angle : ℝ} (hy : 0 ≤ b.boxsize.y) (hz : 0 ≤ b.boxsize.z)
    (hbx : 0 ≤ b.boxsize.x) (hx : b.boxsize.x < dmax)
    (hc : ∀ s, s = b.boxsize.y ∨ s = b.boxsize.z → (dmax - b.boxsize.x) ^ 2 + (s / 2) ^ 2 < dmax ^ 2) {rot : Isom}
    (hrot : ∀ p ti, rot.transform p ti = rodrigues (skyPoint 1 ra0 dec0) (radians angle true) p) :
    ∃ T R : V3 ℝ → V3 ℝ,
      (∀ p, surveyAxes ra0 dec0 (T p) = turned angle (p - b.boxcenter + ⟨dmax - b.boxsize.x / 2, 0, 0⟩)) ∧
      (∀ v, surveyAxes ra0 dec0 (R v) = turned angle v) ∧
      moveGroup b dmax ra0 dec0 rot = .ok (b.rows.map (rowMap T R)) := by
  obtain ⟨dr, rr0, dcr0, hr⟩ := boxToCutsky_ok hy hz hbx hx hc
  obtain ⟨A', D', f⟩ := outsideRanges hbx hy hz hx hr
  have hd0 : (0 : ℝ) ≤ dmax := by linarith
  have hdr := C61_range hbx hy hz hx hd0 hr
  obtain ⟨hsize, -⟩ := C61_roundtrip hbx hy hz hx hr hdr
  set A := rad2deg A' with hAdef
  set δ := rad2deg D' with hδdef
  have hA : 0 ≤ A := rad2deg_nonneg f.A0
  have hδ : 0 ≤ δ := rad2deg_nonneg f.D0
  have hA9 : A ≤ 90 := rad2deg_le f.A1
  have hrr0 : rr0 = (-A, A) := f.ra
  have hdcr0 : dcr0 = (-δ, δ) := f.dec
  subst hrr0 hdcr0
  set rr : ℝ × ℝ := (-A + ra0, A + ra0) with hrr
  set dcr : ℝ × ℝ := (-δ + dec0, δ + dec0) with hdcr
  have hw : raWidth rr = 2 * A := by
    simp only [raWidth, hrr]; rw [if_pos (by linarith)]; ring
  have hw0 : raWidth (-A, A) = 2 * A := by
    simp only [raWidth]; rw [if_pos (by linarith)]; ring
  have w0 : 0 ≤ raWidth rr := by rw [hw]; linarith
  have w1 : raWidth rr < 360 := by rw [hw]; linarith
  have hc1 : rr.1 + raWidth rr / 2 = ra0 := by rw [hw]; simp only [hrr]; ring
  have hc2 : (dcr.1 + dcr.2) / 2 = dec0 := by simp only [hdcr]; ring
  have hb1 := cutskyBoxsize_eq (dr := dr) w0 w1 (show dcr.1 ≤ dcr.2 by simp only [hdcr]; linarith)
  have hb2 := cutskyBoxsize_eq (dr := dr) (rr := (-A, A)) (dcr := (-δ, δ)) (by rw [hw0]; linarith) (by rw [hw0]; linarith)
    (show -δ ≤ δ by linarith)
  have hsx : (cutskyBoxsize dr rr dcr).x = b.boxsize.x := by
    have e0 : (cutskyBoxsize dr (-A, A) (-δ, δ)).x = b.boxsize.x := hsize
    rw [← e0, hb1, hb2, hw, hw0]
    simp only [hdcr]
    rw [show (δ + dec0 - (-δ + dec0)) / 2 = (δ - -δ) / 2 by ring]
  have hfar : dr.2 = dmax := f.far
  set iso := shiftedIsometry b.boxcenter (cutskyIsometry dr rr dcr) with hiso
  have hT : ∀ p, surveyAxes ra0 dec0 (iso.transform p false) = p - b.boxcenter + ⟨dmax - b.boxsize.x / 2, 0, 0⟩ := by
    intro p
    have h1 := (cutskyIsometry_iff (dr := dr) (dcr := dcr) w0 w1 (p - b.boxcenter) _).1 rfl
    rw [hc1, hc2, hsx, hfar] at h1
    rw [hiso, shiftedIsometry_transform]
    exact (eq_add_of_sub_eq h1.symm)
  have hlin : ∀ p q : V3 ℝ, surveyAxes ra0 dec0 (p - q) = surveyAxes ra0 dec0 p - surveyAxes ra0 dec0 q := by
    intro p q; ext <;> simp [surveyAxes] <;> ring
  have hR : ∀ v, surveyAxes ra0 dec0 (iso.rot.mulVec v) = v := by
    intro v
    have e : iso.rot.mulVec v = iso.transform v false - iso.transform 0 false := by
      simp only [Isom.transform]
      ext <;> simp [M3.mulVec]
    rw [e, hlin, hT, hT]
    ext <;> simp
  have hTm : ∀ p, iso.transform p false = iso.rot.mulVec p + iso.trans := by
    intro p; simp [Isom.transform]
  refine ⟨fun p => rodrigues (skyPoint 1 ra0 dec0) (radians angle true) (iso.transform p false),
    fun v => rodrigues (skyPoint 1 ra0 dec0) (radians angle true) (iso.rot.mulVec v), ?_, ?_, ?_⟩
  · intro p; rw [surveyAxes_rotation, hT]
  · intro v; rw [surveyAxes_rotation, hR]
  · have hi : isometryForCutsky b dr rr dcr (.all none) (.all none) (some 1) = .ok (.one iso) := by
      simp [isometryForCutsky, cutskyToBox, hiso]
    unfold moveGroup
    simp only [hr, bind, Except.bind]
    rw [show isometryForCutsky b dr (-A + ra0, A + ra0) (-δ + dec0, δ + dec0) (.all none) (.all none) (some 1) = _ from hi]
    simp only
    congr 1
    simp only [cutskyFromIsometry, List.map_map]
    refine List.map_congr_left fun r _ => ?_
    simp only [Function.comp, C34_row, Row.transform, rowMap, hrot, hTm, List.map_map]
    rfl

/-- C89: one group of rosettes, one catalog (with `data`, redshift space distortions are applied, otherwise not). The remapped box is moved
rigidly: its centre is seen in the mean direction of the rosettes, its far face is at the maximum distance along that direction, its
second and third axes are at `angle` degrees of East and North. All rows are kept in order; their positions and sky coordinates are
those of the moved row. -/
theorem C89_group (data : Bool) (catalog b : Box ρ) {u : L3} {dirs : List (ℝ × ℝ)} {n : V3 ℝ} {angle dmax f : ℝ}
    (hb : catalog.remap (.vectors (toReal u.1) (toReal u.2.1) (toReal u.2.2)) = .ok b)
    (hy : 0 ≤ b.boxsize.y) (hz : 0 ≤ b.boxsize.z) (hbx : 0 ≤ b.boxsize.x) (hx : b.boxsize.x < dmax)
    (hc : ∀ s, s = b.boxsize.y ∨ s = b.boxsize.z → (dmax - b.boxsize.x) ^ 2 + (s / 2) ^ 2 < dmax ^ 2)
    (hg : GroupDirection dirs n)
    (h0 : data = true → ∀ r ∈ b.rows, r.pos ≠ b.boxcenter - ⟨dmax - b.boxsize.x / 2, 0, 0⟩) :
    ∃ ra0 dec0, n = skyPoint 1 ra0 dec0 ∧ ∃ T R : V3 ℝ → V3 ℝ, ∃ out,
      (∀ p, surveyAxes ra0 dec0 (T p) = turned angle (p - b.boxcenter + ⟨dmax - b.boxsize.x / 2, 0, 0⟩)) ∧
      (∀ v, surveyAxes ra0 dec0 (R v) = turned angle v) ∧
      cutGroup data catalog u dirs angle dmax f = .ok out ∧
      List.Forall₂ (SurveyRowOf T R (if data then f else 0)) b.rows out := by
  obtain ⟨l, hl, hlos⟩ := meanLos_eq hg
  obtain ⟨ra0, dec0, hcen, hn, -, -⟩ := groupCenter_eq hl hg.1
  have hax : AxisMeans (.vec (l • n)) n := .vec _ l hl _ hg.1 rfl
  have hrot1 := (C04_rotation_origin Isom.init hax angle true 0 false).1
  set rot := (Isom.init.rotation angle (.vec (l • n)) true .origin).1 with hrotdef
  have hrot : losRotation angle (l • n) = .ok rot := by
    unfold losRotation
    rcases h : Isom.init.rotation angle (.vec (l • n)) true .origin with ⟨s, e⟩
    rw [h] at hrot1 hrotdef
    simp only at hrot1 hrotdef
    subst hrot1
    rw [hrotdef]
  have hrotT : ∀ p ti, rot.transform p ti = rodrigues (skyPoint 1 ra0 dec0) (radians angle true) p := by
    intro p ti
    rw [hrotdef, (C04_rotation_origin Isom.init hax angle true p ti).2, ← hn]
    congr 1
    cases ti <;> ext <;> simp [Isom.init, Isom.transform]
  obtain ⟨T, R, hT, hR, hmove⟩ := moveGroup_eq b hy hz hbx hx hc hrotT
  have hne : data = true → ∀ r ∈ b.rows, T r.pos ≠ 0 := by
    intro hd r hr h
    apply h0 hd r hr
    have := hT r.pos
    rw [h] at this
    have z : surveyAxes ra0 dec0 0 = 0 := by ext <;> simp [surveyAxes]
    rw [z] at this
    have e1 := congrArg V3.x this
    have e2 := congrArg V3.y this
    have e3 := congrArg V3.z this
    simp [turned] at e1 e2 e3
    have hcs := Real.sin_sq_add_cos_sq (rad angle)
    have y0 : r.pos.y - b.boxcenter.y = 0 := by
      linear_combination (-(r.pos.y - b.boxcenter.y)) * hcs - Real.cos (rad angle) * e2 - Real.sin (rad angle) * e3
    have z0 : r.pos.z - b.boxcenter.z = 0 := by
      linear_combination (-(r.pos.z - b.boxcenter.z)) * hcs + Real.sin (rad angle) * e2 - Real.cos (rad angle) * e3
    ext <;> simp <;> linarith
  set g : ℝ := if data then f else 0 with hgdef
  let q : Row ρ → V3 ℝ := fun r => T r.pos + (g * (V3.dot (R r.vel) (T r.pos) / V3.dot (T r.pos) (T r.pos))) • T r.pos
  have hpos : usedPosition data f (b.rows.map (rowMap T R)) = .ok (b.rows.map q) := by
    unfold usedPosition
    cases data with
    | true =>
      simp only [if_true] at hgdef ⊢
      rw [C25_local f _ _ (by
        intro p hp
        simp only [List.map_map, List.mem_map, Function.comp] at hp
        obtain ⟨r, hr1, rfl⟩ := hp
        exact hne rfl r hr1)]
      simp only [List.map_map, List.zipWith_map, List.zipWith_self]
      congr 1
    | false =>
      simp only [Bool.false_eq_true, if_false] at hgdef ⊢
      simp only [List.map_map, Except.ok.injEq]
      refine List.map_congr_left fun r _ => ?_
      simp only [q, hgdef, Function.comp, rowMap]
      ext <;> simp
  refine ⟨ra0, dec0, hn, T, R, b.rows.map fun r => ⟨rowMap T R r, q r, cartesianToSky (q r)⟩, hT, hR, ?_, ?_⟩
  · unfold cutGroup
    simp only [hlos, hcen, hrot, hb, hmove, bind, Except.bind, hpos]
    congr 1
    simp [List.zipWith_map, List.zipWith_self]
  · rw [List.forall₂_map_right_iff, List.forall₂_same]
    intro r _
    refine ⟨rfl, rfl, fun hq => ?_⟩
    obtain ⟨dec, hd, hs⟩ := C22_from_cartesian hq true
    have hr := C23_ranges (q r) true
    refine ⟨dec, hd, ?_, V3.norm_pos hq, ?_, ?_⟩
    · conv_lhs => rw [← hs]
      ext <;> simp [skyToCartesian, Num.val, Num.kind, Kind.join, store, conversion, skyPoint, rad]
    · simpa [turn] using (⟨hr.2.1, hr.2.2.1⟩ : _ ∧ _)
    · have := hr.2.2.2.2 dec hd
      norm_num [turn] at this
      exact this

/-- C89: both rosettes of a pair are at the same angle of the direction of the group. -/
theorem C89_pair {a b : ℝ × ℝ} {n : V3 ℝ} (h : GroupDirection [a, b] n) :
    V3.dot n (skyPoint 1 a.1 a.2) = V3.dot n (skyPoint 1 b.1 b.2) := by
  obtain ⟨-, m, hm, hs⟩ := h
  have unit : ∀ d : ℝ × ℝ, V3.dot (skyPoint 1 d.1 d.2) (skyPoint 1 d.1 d.2) = 1 := by
    intro d
    rw [surveyAxes_dot, surveyAxes_unit]
  have ha := unit a
  have hb := unit b
  simp only [List.map_cons, List.map_nil, List.foldr_cons, List.foldr_nil] at hs
  have hx := congrArg V3.x hs
  have hy := congrArg V3.y hs
  have hz := congrArg V3.z hs
  simp only [V3.add_x, V3.add_y, V3.add_z, V3.smul_x, V3.smul_y, V3.smul_z, V3.zero_x, V3.zero_y, V3.zero_z] at hx hy hz
  refine mul_left_cancel₀ hm.ne' ?_
  generalize skyPoint 1 a.1 a.2 = p at *
  generalize skyPoint 1 b.1 b.2 = q at *
  simp only [V3.dot] at *
  linear_combination ha - hb + (-(p.x - q.x)) * hx - (p.y - q.y) * hy - (p.z - q.z) * hz

/-- C89: a single rosette is at the centre. -/
theorem C89_single (d : ℝ × ℝ) (n : V3 ℝ) : GroupDirection [d] n ↔ n = skyPoint 1 d.1 d.2 := by
  have unit : V3.dot (skyPoint 1 d.1 d.2) (skyPoint 1 d.1 d.2) = 1 := by rw [surveyAxes_dot, surveyAxes_unit]
  have hsum : ([d].map fun d => skyPoint 1 d.1 d.2).foldr (· + ·) 0 = skyPoint 1 d.1 d.2 := by simp
  unfold GroupDirection
  rw [hsum]
  constructor
  · rintro ⟨hn, m, hm, hs⟩
    have h1 : m = 1 := by
      have := smul_norm hm hn
      rw [← hs, ← one_smul' (skyPoint 1 d.1 d.2), smul_norm one_pos unit] at this
      exact this.symm
    rw [hs, h1, one_smul']
  · rintro rfl
    exact ⟨unit, 1, one_pos, by rw [one_smul']⟩

/-- C89: directions whose mean vanishes (two opposite rosettes) have no centre; the cut is undefined. -/
theorem C89_no_direction (data : Bool) (catalog : Box ρ) (u : L3) {dirs : List (ℝ × ℝ)} (angle dmax f : ℝ)
    (h : (dirs.map fun d => skyPoint 1 d.1 d.2).foldr (· + ·) 0 = 0) :
    cutGroup data catalog u dirs angle dmax f = .error .nan := by
  have hn : (0 : V3 ℝ).norm = 0 := by
    have : (0 : V3 ℝ).norm ^ 2 = 0 := by rw [V3.norm_sq]; simp
    exact pow_eq_zero_iff (two_ne_zero) |>.1 this
  unfold cutGroup meanLos
  by_cases hd : dirs = []
  · simp only [hd, if_true, bind, Except.bind]
  · have hz : (1 / (dirs.length : ℝ)) • (0 : V3 ℝ) = 0 := by ext <;> simp
    simp only [hd, if_false, skyToCartesian_unit, h, hz, bind, Except.bind, groupCenter, cartesianToSky, hn, if_true]

/-- Both members of every group of two have a direction unless opposite. -/
theorem groupDirection_exists {dirs : List (ℝ × ℝ)} (h : (dirs.map fun d => skyPoint 1 d.1 d.2).foldr (· + ·) 0 ≠ 0) :
    ∃ n, GroupDirection dirs n := by
  set v := (dirs.map fun d => skyPoint 1 d.1 d.2).foldr (· + ·) 0 with hv
  have hp := V3.norm_pos h
  refine ⟨(1 / v.norm) • v, ?_, v.norm, hp, ?_⟩
  · have e := V3.norm_sq v
    simp only [V3.dot, V3.smul_x, V3.smul_y, V3.smul_z]
    field_simp
    linarith
  · rw [← hv]
    have := hp.ne'
    ext <;> simp only [V3.smul_x, V3.smul_y, V3.smul_z] <;> field_simp

/-! ### The lattices of the script -/

theorem made_second' {v1 v2 v3 : V3 ℤ} {L : V3 ℝ} {c : Cuboid} (hm : Made v1 v2 v3 L c) {s t : ℤ} (hs : sqInt v1 = s) (h0 : s ≠ 0)
    (ht : s * sqInt v2 - dotInt v1 v2 ^ 2 = t) : c.e2.norm ^ 2 = t / s := by
  obtain ⟨-, -, -, -, -, -, -, -, -, he⟩ := hm.elim
  simp only [Remap.orthogonalize, Prod.mk.injEq] at he
  have hs0 : (s : ℝ) ≠ 0 := by exact_mod_cast h0
  have h3 : ((v1.x : ℝ) * v1.x + v1.y * v1.y + v1.z * v1.z) = s := by
    unfold sqInt at hs; exact_mod_cast hs
  have hss : V3.dot (toReal v1) (toReal v1) = s := by simpa [V3.dot, toReal] using h3
  have ht' : (s : ℝ) * ((v2.x : ℝ) * v2.x + v2.y * v2.y + v2.z * v2.z) - ((v1.x : ℝ) * v2.x + v1.y * v2.y + v1.z * v2.z) ^ 2 = t := by
    simp only [sqInt, dotInt] at ht; exact_mod_cast ht
  rw [V3.norm_sq, he.2.1, hss, eq_div_iff hs0, ← ht']
  simp only [V3.dot, toReal, V3.add_x, V3.add_y, V3.add_z, V3.smul_x, V3.smul_y, V3.smul_z]
  field_simp
  linear_combination (((v1.x : ℝ) * v2.x + v1.y * v2.y + v1.z * v2.z) ^ 2) * h3

theorem made_sides {v1 v2 v3 : V3 ℤ} {L : ℝ} {c : Cuboid} (hm : Made v1 v2 v3 (V3.const L) c) {s t : ℤ} (hs : sqInt v1 = s) (h0 : 0 < s)
    (ht : s * sqInt v2 - dotInt v1 v2 ^ 2 = t) (t0 : 0 < t) :
    c.cuboidsize = ⟨L * Real.sqrt s, L * Real.sqrt (t / s), L * Real.sqrt (1 / t)⟩ := by
  obtain ⟨hd, B, -⟩ := hm.elim
  have hL : 0 < L := hm.2.1
  have s0 : (0 : ℝ) < s := by exact_mod_cast h0
  have t0' : (0 : ℝ) < t := by exact_mod_cast t0
  have n1 : c.e1.norm ^ 2 = s := by rw [made_first hm, hs]
  have n2 : c.e2.norm ^ 2 = t / s := made_second' hm hs h0.ne' ht
  have n3 : c.e3.norm ^ 2 = 1 / t := by
    have : c.e1.norm ^ 2 * c.e2.norm ^ 2 * c.e3.norm ^ 2 = 1 := by
      rw [← mul_pow, ← mul_pow, Remap.prod_norms B hd]; norm_num
    rw [n1, n2] at this
    field_simp at this ⊢
    linarith
  rw [C12_sizes hm, norm_scaled hL, norm_scaled hL, norm_scaled hL, ← n3, ← n2, ← n1, Real.sqrt_sq (V3.norm_nonneg _),
    Real.sqrt_sq (V3.norm_nonneg _), Real.sqrt_sq (V3.norm_nonneg _)]

/-- The two sizes the script asks for are those of remapped boxes, with these lattices. -/
theorem sizes_listed (size : List ℝ) (h : size = cuboidsize1 ∨ size = cuboidsize2) :
    ∃ u, Listed 3 (V3.const 500) [] u ∧ HasKey (V3.const 500) false u size := by
  have hL : PosBox (V3.const 500) := by norm_num [PosBox, V3.const]
  rcases h with rfl | rfl
  · obtain ⟨c, hc⟩ := (C10_init ⟨2, 1, 1⟩ ⟨0, 0, 1⟩ ⟨1, 0, 0⟩ (V3.const 500)).1 (by decide)
    refine ⟨(⟨2, 1, 1⟩, ⟨0, 0, 1⟩, ⟨1, 0, 0⟩), ⟨by simp [Bounded], by simp [Bounded], by simp [Bounded],
      by norm_num [Spec.triple, toReal], c, hc, by simp [InRanges]⟩, c, hc, ?_⟩
    rw [made_sides ⟨hc, hL⟩ (s := 6) (t := 5) (by decide) (by decide) (by decide) (by decide)]
    simp [cuboidsize1, V3.toList]
  · obtain ⟨c, hc⟩ := (C10_init ⟨2, 1, 1⟩ ⟨1, 1, 0⟩ ⟨0, 1, 0⟩ (V3.const 500)).1 (by decide)
    refine ⟨(⟨2, 1, 1⟩, ⟨1, 1, 0⟩, ⟨0, 1, 0⟩), ⟨by simp [Bounded], by simp [Bounded], by simp [Bounded],
      by norm_num [Spec.triple, toReal], c, hc, by simp [InRanges]⟩, c, hc, ?_⟩
    rw [made_sides ⟨hc, hL⟩ (s := 6) (t := 3) (by decide) (by decide) (by decide) (by decide)]
    norm_num [cuboidsize2, V3.toList]

theorem lookup_of_mem {κ β : Type} [BEq κ] [LawfulBEq κ] {d : List (κ × β)} (hd : (d.map Prod.fst).Nodup) {k : κ} {v : β} (h : (k, v) ∈ d) :
    d.lookup k = some v := by
  induction d with
  | nil => simp at h
  | cons e d ih =>
    obtain ⟨k', v'⟩ := e
    simp only [List.map_cons, List.nodup_cons] at hd
    rw [List.lookup_cons]
    rcases List.mem_cons.1 h with h | hmem
    · simp only [Prod.mk.injEq] at h
      rw [h.1, h.2]; simp
    · have : k ≠ k' := by
        rintro rfl
        exact hd.1 (List.mem_map.2 ⟨_, hmem, rfl⟩)
      have hb : (k == k') = false := by simpa using this
      rw [hb]
      exact ih hd.2 hmem

/-- C89: the script's boxes. In whatever order python goes through the set of coprime triples, both sizes are found in the dictionary,
and the lattice found there remaps a box of side 500 whose particles are inside into a box of that size and same centre, row by row; such
a box has what `C89_group` asks as soon as the maximum distance is 1225. -/
theorem C89_script (catalog : Box ρ) (hb : catalog.boxsize = ⟨500, 500, 500⟩)
    (hin : ∀ r ∈ catalog.rows, Inside catalog.boxsize catalog.boxcenter r.pos ∧ ∀ v ∈ r.vecs, Inside catalog.boxsize catalog.boxcenter v)
    {coprimes : List (List ℤ)} (hi : IterationOf 3 coprimes) (size : List ℝ) (hs : size = cuboidsize1 ∨ size = cuboidsize2) :
    ∃ u b g h, latticeAt (lattice coprimes) size = .ok u ∧
      catalog.remap (.vectors (toReal u.1) (toReal u.2.1) (toReal u.2.2)) = .ok b ∧ b.boxsize.toList = size ∧
      b.boxcenter = catalog.boxcenter ∧ b.rows = catalog.rows.map (rowMap g h) ∧
      0 ≤ b.boxsize.y ∧ 0 ≤ b.boxsize.z ∧ 0 ≤ b.boxsize.x ∧ ∀ dmax, 1225 ≤ dmax → b.boxsize.x < dmax ∧
        ∀ s, s = b.boxsize.y ∨ s = b.boxsize.z → (dmax - b.boxsize.x) ^ 2 + (s / 2) ^ 2 < dmax ^ 2 := by
  classical
  have hL : PosBox (V3.const 500) := by norm_num [PosBox, V3.const]
  obtain ⟨u0, l0, k0⟩ := sizes_listed size hs
  obtain ⟨-, -, hex⟩ := C14_exact hi hL [] false
  obtain ⟨l, hl, hu0⟩ := (hex u0 size).2 ⟨l0, k0⟩
  have hl1 := (C14_maxcomb (coprimes := coprimes) (V3.const 500) [] false 1 size (l.take (max 1 1))).2 ⟨l, hl, rfl⟩
  obtain ⟨u, l', rfl⟩ : ∃ u l', l = u :: l' := by
    cases l with
    | nil => simp at hu0
    | cons u l' => exact ⟨u, l', rfl⟩
  have hlist := (hex u size).1 ⟨_, hl, List.mem_cons_self⟩
  have hnd := (generate_spec coprimes (some 1) (V3.const 500) [] false).1
  have hlook : latticeAt (lattice coprimes) size = .ok u := by
    unfold latticeAt
    have e : List.lookup size (lattice coprimes) = some [u] := lookup_of_mem hnd hl1
    rw [e]
  have hconst : catalog.boxsize = V3.const 500 := by rw [hb]; rfl
  have hdet : det3 u.1 u.2.1 u.2.2 = 1 := by
    have := hlist.1.2.2.2.1
    rw [show Spec.triple (toReal u.1) (toReal u.2.1) (toReal u.2.2) = det3 (toReal u.1) (toReal u.2.1) (toReal u.2.2)
      from rfl, det3_cast] at this
    exact_mod_cast this
  obtain ⟨b, g, h, h1, h2, h3, -⟩ := C65_remap catalog (by rw [hconst]; exact hL) u.1 u.2.1 u.2.2 hdet hin
  obtain ⟨c, hc, hsz⟩ := remap_size h1
  obtain ⟨c', hc', hk⟩ := hlist.2
  rw [hconst] at hc
  have : c' = c := by rw [hc] at hc'; exact (Except.ok.inj hc').symm
  subst this
  simp only [Bool.false_eq_true, if_false] at hk
  have htl : b.boxsize.toList = size := by rw [hsz, hk]
  have r6 : Real.sqrt 6 < 49 / 20 := by rw [Real.sqrt_lt' (by norm_num)]; norm_num
  have r6' : 2 < Real.sqrt 6 := by rw [Real.lt_sqrt (by norm_num)]; norm_num
  have rs : ∀ x : ℝ, x ≤ 1 → 0 ≤ Real.sqrt x ∧ Real.sqrt x ≤ 1 := by
    intro x hx; exact ⟨Real.sqrt_nonneg _, by rw [Real.sqrt_le_left zero_le_one]; simpa using hx⟩
  have hbnd : b.boxsize.x = 500 * Real.sqrt 6 ∧ (0 ≤ b.boxsize.y ∧ b.boxsize.y ≤ 500) ∧ 0 ≤ b.boxsize.z ∧ b.boxsize.z ≤ 500 := by
    rcases hs with rfl | rfl
    · simp only [V3.toList, cuboidsize1, List.cons.injEq, and_true] at htl
      have a := rs (5 / 6) (by norm_num)
      have b' := rs (1 / 5) (by norm_num)
      refine ⟨htl.1, ?_, ?_⟩
      · rw [htl.2.1]; constructor <;> linarith
      · rw [htl.2.2]; constructor <;> linarith
    · simp only [V3.toList, cuboidsize2, List.cons.injEq, and_true] at htl
      have a := rs (1 / 2) (by norm_num)
      have b' := rs (1 / 3) (by norm_num)
      refine ⟨htl.1, ?_, ?_⟩
      · rw [htl.2.1]; constructor <;> linarith
      · rw [htl.2.2]; constructor <;> linarith
  obtain ⟨bx, by', bz⟩ := hbnd
  refine ⟨u, b, g, h, hlook, h1, htl, h2, h3, by'.1, bz.1, by rw [bx]; positivity, fun dmax hd => ⟨by rw [bx]; linarith, ?_⟩⟩
  intro s hs'
  have hs1 : 0 ≤ s ∧ s ≤ 500 := by rcases hs' with rfl | rfl <;> assumption
  rw [bx]
  nlinarith

/-- The pair (1, 2) of the script, for the randoms and a particle at the centre: it is seen in the direction of the pair. -/
example {coprimes : List (List ℤ)} (hi : IterationOf 3 coprimes) : ∃ u n out,
    latticeAt (lattice coprimes) cuboidsize1 = .ok u ∧ GroupDirection [(150, 2), (150, 4)] n ∧
    cutGroup false (⟨⟨500, 500, 500⟩, 0, [⟨0, 0, [], [], ()⟩]⟩ : Box Unit) u [(150, 2), (150, 4)] 45 3000 1 = .ok out ∧ out.length = 1 := by
  obtain ⟨u, b, g, h, h1, h2, -, -, h5, h6, h7, h8, h9⟩ := C89_script (⟨⟨500, 500, 500⟩, 0, [⟨0, 0, [], [], ()⟩]⟩ : Box Unit) rfl
    (by norm_num [Inside]) hi cuboidsize1 (Or.inl rfl)
  obtain ⟨h10, h11⟩ := h9 3000 (by norm_num)
  obtain ⟨n, hn⟩ := groupDirection_exists (dirs := [(150, 2), (150, 4)]) (by
    intro h0
    have hz := congrArg V3.z h0
    simp [skyPoint] at hz
    have pos : ∀ x : ℝ, 0 < x → x ≤ 90 → 0 < Real.sin (rad x) := by
      intro x a b
      apply Real.sin_pos_of_pos_of_lt_pi
      · unfold rad; have := Real.pi_pos; positivity
      · unfold rad; have := Real.pi_pos; nlinarith
    linarith [pos 2 (by norm_num) (by norm_num), pos 4 (by norm_num) (by norm_num)])
  obtain ⟨-, -, -, T, R, out, -, -, ho, hf⟩ := C89_group false _ b (angle := 45) (f := 1) h2 h6 h7 h8 h10 h11 hn (by simp)
  refine ⟨u, n, out, h1, hn, ho, ?_⟩
  rw [← hf.length_eq, h5]; rfl

/-! ## C90 -/

/-- C90: the tiles of a group: those of all its rosettes, in order; unknown rosettes are rejected. -/
theorem C90_tiles (tiles : List (ℕ × List ℤ)) (group : List ℕ) :
    ((∀ r ∈ group, (tiles.lookup r).isSome) → groupTiles tiles group = .ok (group.flatMap fun r => (tiles.lookup r).getD [])) ∧
    ((∃ r ∈ group, tiles.lookup r = none) → groupTiles tiles group = .error .keyError) := by
  induction group with
  | nil => simp [groupTiles]
  | cons r rs ih =>
    constructor
    · intro h
      obtain ⟨t, ht⟩ := Option.isSome_iff_exists.1 (h r (by simp))
      rw [groupTiles, ht]
      simp only [ih.1 (fun r' hr' => h r' (List.mem_cons_of_mem _ hr')), bind, Except.bind, List.flatMap_cons, ht, Option.getD_some]
    · rintro ⟨r', hr', h⟩
      rw [groupTiles]
      cases ht : tiles.lookup r with
      | none => rfl
      | some t =>
        rcases List.mem_cons.1 hr' with rfl | hr'
        · rw [ht] at h; cases h
        · simp only [ih.2 ⟨r', hr', h⟩, bind, Except.bind]

/-- Bit `b` of the (signed) integer `m` is set. -/
def BitSet (m : ℤ) (b : ℕ) : Prop := m / 2 ^ b % 2 = 1

theorem land_pow (m : ℤ) (b : ℕ) : Int.land m (2 ^ b) = 0 ↔ ¬ BitSet m b := by
  have hcast : (2 : ℤ) ^ b = ((2 ^ b : ℕ) : ℤ) := by push_cast; rfl
  have h2 : (0 : ℤ) < ((2 ^ b : ℕ) : ℤ) := by positivity
  unfold BitSet
  rw [hcast]
  cases m with
  | ofNat m =>
    have e : Int.land (Int.ofNat m) ((2 ^ b : ℕ) : ℤ) = ((m &&& 2 ^ b : ℕ) : ℤ) := rfl
    rw [e, Nat.and_two_pow, Nat.testBit_eq_decide_div_mod_eq]
    have hp : (2 : ℕ) ^ b ≠ 0 := by positivity
    have e2 : (Int.ofNat m) / ((2 ^ b : ℕ) : ℤ) % 2 = ((m / 2 ^ b % 2 : ℕ) : ℤ) := by
      simp only [Int.ofNat_eq_natCast]; norm_cast
    rw [e2]
    by_cases h : m / 2 ^ b % 2 = 1
    · simp [h]
    · simp only [h, decide_false, Bool.toNat_false, zero_mul, Nat.cast_zero, true_iff]
      exact_mod_cast h
  | negSucc m =>
    have e : Int.land (Int.negSucc m) ((2 ^ b : ℕ) : ℤ) = ((Nat.ldiff (2 ^ b) m : ℕ) : ℤ) := rfl
    have e1 : Nat.ldiff (2 ^ b) m = 0 ↔ Nat.testBit m b = true := by
      constructor
      · intro h
        have := Nat.testBit_ldiff (2 ^ b) m b
        rw [h] at this
        simpa using this
      · intro h
        refine Nat.eq_of_testBit_eq fun i => ?_
        rw [Nat.testBit_ldiff, Nat.zero_testBit]
        by_cases hi : b = i
        · subst hi; simp [h]
        · simp [hi]
    rw [e, Int.natCast_eq_zero, e1, Nat.testBit_eq_decide_div_mod_eq, Int.negSucc_ediv _ h2]
    have e2 : Int.ediv (m : ℤ) ((2 ^ b : ℕ) : ℤ) = ((m / 2 ^ b : ℕ) : ℤ) := rfl
    rw [e2]
    simp only [decide_eq_true_eq]
    generalize m / 2 ^ b = k
    omega

theorem foldl_and (l : List ℕ) (P : ℕ → Bool) (a : Bool) : l.foldl (fun m b => m && P b) a = (a && l.all P) := by
  induction l generalizing a with
  | nil => simp
  | cons b l ih => simp only [List.foldl_cons, List.all_cons, ih, Bool.and_assoc]

theorem pick_map {α : Type} (l : List α) (P : α → Bool) : pick l (l.map P) = l.filter P := by
  induction l with
  | nil => rfl
  | cons a l ih =>
    unfold pick at ih ⊢
    simp only [List.map_cons, List.zip_cons_cons, List.filter_cons]
    cases h : P a <;> simp [ih]

open Classical in
/-- C90: mask bits: exactly the rows with none of the bits are kept, in order; with no bit, all rows. -/
theorem C90_bits {α : Type} (bits : List ℕ) (maskbits : α → ℤ) (rows : List α) :
    maskBits bits maskbits rows = rows.filter fun r => decide (∀ b ∈ bits, ¬ BitSet (maskbits r) b) := by
  unfold maskBits
  rw [pick_map]
  refine List.filter_congr fun r _ => ?_
  rw [foldl_and, Bool.true_and, Bool.eq_iff_iff]
  simp [land_pow]

/-- What the script keeps: a row in a tile of the group, accepted by the radial mask (its draw is at most the probability at its
redshift), with none of the mask bits. -/
def Keep {α : Type} (covers : Footprint.Pos → Footprint.Pos → Prop) (table : List (ℤ × Footprint.Pos)) (tiles : List ℤ) (prob : ℝ → ℝ)
    (bits : List ℕ) (pos : α → Footprint.Pos) (z : α → ℝ) (maskbits : α → ℤ) (r : α) (u : ℝ) : Prop :=
  (∃ t ∈ table, t.1 ∈ tiles ∧ covers t.2 (pos r)) ∧ u ≤ prob (z r) ∧ ∀ b ∈ bits, ¬ BitSet (maskbits r) b

open Classical in
/-- C90: exactly these rows are kept, in order. -/
theorem C90_selection {α : Type} {dm : Footprint.Desimodel} {covers : Footprint.Pos → Footprint.Pos → Prop}
    (hdm : Spec.Footprint.DesimodelOk dm covers) (table : List (ℤ × Footprint.Pos)) (tiles : List ℤ) (prob : ℝ → ℝ) (bits : Option (List ℕ))
    (pos : α → Footprint.Pos) (z : α → ℝ) (maskbits : α → ℤ) (rows : List α) (u : List ℝ) (hu : u.length = rows.length) :
    selectRows dm table tiles prob u bits pos z maskbits rows =
      ((rows.zip u).filter fun x => decide (Keep covers table tiles prob (bits.getD []) pos z maskbits x.1 x.2)).map Prod.fst := by
  set selected := (table.filter fun t => decide (t.1 ∈ tiles)).map fun t => t.2 with hsel
  have hin : ∀ p, (dm.inDesi selected p).1 = true ↔ ∃ t ∈ table, t.1 ∈ tiles ∧ covers t.2 p := by
    intro p
    rw [hdm.inside, hsel]
    simp only [List.mem_map, List.mem_filter, decide_eq_true_eq]
    constructor
    · rintro ⟨-, ⟨t, ⟨h1, h2⟩, rfl⟩, h3⟩; exact ⟨t, h1, h2, h3⟩
    · rintro ⟨t, h1, h2, h3⟩; exact ⟨_, ⟨t, ⟨h1, h2⟩, rfl⟩, h3⟩
  have hpick : pick rows (List.zipWith (· && ·) (rows.map fun r => (dm.inDesi selected (pos r)).1) (maskCall (rows.map fun r => prob (z r)) u))
      = ((rows.zip u).filter fun x => decide ((∃ t ∈ table, t.1 ∈ tiles ∧ covers t.2 (pos x.1)) ∧ x.2 ≤ prob (z x.1))).map Prod.fst := by
    clear_value selected
    induction rows generalizing u with
    | nil => simp [pick]
    | cons r rows ih =>
      cases u with
      | nil => simp at hu
      | cons a u =>
        have ih := ih u (by simpa using hu)
        unfold pick maskCall at ih ⊢
        simp only [List.map_cons, List.zipWith_cons_cons, List.zip_cons_cons, List.filter_cons]
        have hb : ((dm.inDesi selected (pos r)).1 && decide (a ≤ prob (z r))) =
            decide ((∃ t ∈ table, t.1 ∈ tiles ∧ covers t.2 (pos r)) ∧ a ≤ prob (z r)) := by
          rw [Bool.eq_iff_iff]; simp [hin]
        rw [hb]
        split
        · simp only [List.map_cons, ih]
        · exact ih
  unfold selectRows
  simp only [← hsel]
  rw [hpick]
  have hbits : ∀ bs : List ℕ, maskBits bs maskbits (((rows.zip u).filter fun x => decide ((∃ t ∈ table, t.1 ∈ tiles ∧ covers t.2 (pos x.1)) ∧
      x.2 ≤ prob (z x.1))).map Prod.fst) =
      ((rows.zip u).filter fun x => decide (Keep covers table tiles prob bs pos z maskbits x.1 x.2)).map Prod.fst := by
    intro bs
    rw [C90_bits, List.filter_map, List.filter_filter]
    congr 1
    refine List.filter_congr fun x _ => ?_
    simp only [Function.comp]
    rw [Bool.eq_iff_iff, Bool.and_eq_true, decide_eq_true_iff, decide_eq_true_iff, decide_eq_true_iff, Keep]
    tauto
  have hnil : ∀ l : List α, maskBits [] maskbits l = l := by
    intro l; rw [C90_bits]; simp
  cases bits with
  | none =>
    simp only [Option.getD_none]
    rw [← hbits [], hnil]
  | some bs =>
    simp only [Option.getD_some]
    by_cases h : bs = []
    · rw [if_pos h, h, ← hbits [], hnil]
    · rw [if_neg h, hbits]

/-- Three rows: the second has bit 1, the third is not in a tile of the group. -/
example : selectRows (α := ℝ × ℤ) ⟨fun _ => .ok [], .ok [], fun tiles p => (List.range tiles.length).filter fun i => decide (tiles[i]? = some p),
      fun tiles p => (decide (p ∈ tiles), 0)⟩ [(7, (1, 0)), (8, (2, 0))] [7] (fun _ => 1) [0, 0, 0] (some [1, 11]) (fun r => (r.1, 0)) (fun _ => 1)
      (fun r => r.2) [(1, 5), (1, 2), (2, 0)] = [(1, 5)] := by
  unfold selectRows
  simp only [C90_bits, reduceCtorEq, if_false]
  norm_num [pick, maskCall, BitSet]

end Verif.Props.Sv3Cut
