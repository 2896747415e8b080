import Verif.Props.BoxToCutsky
import Verif.Props.Isometry

/-!
# C21, C61: the box returned by `cutsky_to_box`
-/

namespace Verif.Props
open Verif Verif.Model Verif.Spec

theorem turn_true : turn true = 360 := rfl

/-- The RA range used by `cutsky_to_box` is the requested one, up to full turns. -/
theorem pointedRange_eq {rr : ℝ × ℝ} (h0 : 0 ≤ raWidth rr) (h1 : raWidth rr < 360) :
    ∃ k : ℤ, pointedRange rr = (rr.1 + 360 * k, rr.1 + 360 * k + raWidth rr) := by
  obtain ⟨a0, a1, i, hi⟩ := C23_wrap rr.1 true
  obtain ⟨b0, b1, j, hj⟩ := C23_wrap rr.2 true
  rw [turn_true] at a1 b1 hi hj
  have hw : ∃ w : ℤ, raWidth rr = rr.2 - rr.1 + 360 * w := by
    unfold raWidth
    split
    · exact ⟨0, by simp⟩
    · exact ⟨1, by push_cast; ring⟩
  obtain ⟨w, hw⟩ := hw
  -- two widths in [0, 360) that differ by full turns are equal
  have uniq : ∀ n : ℤ, ∀ x, 0 ≤ x → x < 360 → x = raWidth rr + 360 * n → x = raWidth rr := by
    intro n x hx0 hx1 hx
    have hn1 : (n : ℝ) < 1 := by linarith
    have hn2 : (-1 : ℝ) < n := by linarith
    have : n = 0 := by
      have h1 : n < 1 := by exact_mod_cast hn1
      have h2 : -1 < n := by exact_mod_cast hn2
      omega
    subst this
    simpa using hx
  unfold pointedRange
  simp only
  split
  · rename_i hlt
    have := uniq (j - i + 1 - w) (wrapAngle rr.2 - wrapAngle rr.1 + 360) (by linarith) (by linarith)
      (by push_cast; rw [hw, hi, hj]; ring)
    refine ⟨i - 1, ?_⟩
    ext
    · simp only; push_cast; rw [hi]; ring
    · simp only; push_cast; linarith
  · rename_i hlt
    have := uniq (j - i - w) (wrapAngle rr.2 - wrapAngle rr.1) (by linarith) (by linarith)
      (by push_cast; rw [hw, hi, hj]; ring)
    refine ⟨i, ?_⟩
    ext
    · simp only; rw [hi]; ring
    · simp only; linarith

/-- The box size, for a requested width of less than a full turn. -/
theorem cutskyBoxsize_eq {dr rr dcr : ℝ × ℝ} (h0 : 0 ≤ raWidth rr) (h1 : raWidth rr < 360) (hd : dcr.1 ≤ dcr.2) :
    cutskyBoxsize dr rr dcr =
      ⟨dr.2 - dr.1 * min (Real.cos (rad (raWidth rr / 2))) (Real.cos (rad ((dcr.2 - dcr.1) / 2))),
        2 * dr.2 * Real.sin (rad (raWidth rr / 2)), 2 * dr.2 * Real.sin (rad ((dcr.2 - dcr.1) / 2))⟩ := by
  obtain ⟨k, hk⟩ := pointedRange_eq h0 h1
  unfold cutskyBoxsize
  rw [hk]
  have e1 : |rr.1 + 360 * k + raWidth rr - (rr.1 + 360 * k)| / 2 * Real.pi / 180 = rad (raWidth rr / 2) := by
    rw [add_sub_cancel_left, abs_of_nonneg h0]; unfold rad; ring
  have e2 : |dcr.2 - dcr.1| / 2 * Real.pi / 180 = rad ((dcr.2 - dcr.1) / 2) := by
    rw [abs_of_nonneg (by linarith)]; unfold rad; ring
  simp only [e1, e2]

theorem rad_turns (x : ℝ) (k : ℤ) : rad (x + 360 * k) = rad x + k * (2 * Real.pi) := by unfold rad; ring

theorem cutskyIsometry_iff {dr rr dcr : ℝ × ℝ} (h0 : 0 ≤ raWidth rr) (h1 : raWidth rr < 360) (p q : V3 ℝ) :
    (cutskyIsometry dr rr dcr).transform p false = q ↔
      p = surveyAxes (rr.1 + raWidth rr / 2) ((dcr.1 + dcr.2) / 2) q
        - ⟨dr.2 - (cutskyBoxsize dr rr dcr).x / 2, 0, 0⟩ := by
  obtain ⟨k, hk⟩ := pointedRange_eq h0 h1
  set s := dr.2 - (cutskyBoxsize dr rr dcr).x / 2 with hs
  have hz : radians ((rr.1 + 360 * k + (rr.1 + 360 * k + raWidth rr)) / 2) true
      = rad (rr.1 + raWidth rr / 2) + k * (2 * Real.pi) := by
    rw [← rad_turns]; simp only [radians, if_true, rad]; ring
  have hy : radians (-(dcr.1 + dcr.2) / 2) true = -rad ((dcr.1 + dcr.2) / 2) := by
    simp only [radians, if_true, rad]; ring
  set A := rad (rr.1 + raWidth rr / 2) with hA
  set D := rad ((dcr.1 + dcr.2) / 2) with hD
  have hiso : cutskyIsometry dr rr dcr =
      ⟨axisMat ⟨0, 0, 1⟩ (A + k * (2 * Real.pi)) * (axisMat ⟨0, 1, 0⟩ (-D) * 1),
        (axisMat ⟨0, 0, 1⟩ (A + k * (2 * Real.pi))).mulVec ((axisMat ⟨0, 1, 0⟩ (-D)).mulVec (0 + ⟨s, 0, 0⟩))⟩ := by
    unfold cutskyIsometry
    simp only [Isom.translation, shiftMeans_vector (ShiftMeans.x s), ← hs]
    rw [rotation_ok (axisMeans_getLos AxisMeans.y), hy]
    rw [rotation_ok (axisMeans_getLos AxisMeans.z), hk]
    simp only [hz]
    rfl
  rw [hiso]
  simp only [Isom.transform, axisMat, Real.cos_add_int_mul_two_pi, Real.sin_add_int_mul_two_pi, Real.cos_neg, Real.sin_neg,
    surveyAxes, ← hA, ← hD]
  have ha := Real.sin_sq_add_cos_sq A
  have hd := Real.sin_sq_add_cos_sq D
  generalize Real.cos A = ca at *
  generalize Real.sin A = sa at *
  generalize Real.cos D = cd at *
  generalize Real.sin D = sd at *
  obtain ⟨x, y, z⟩ := p
  obtain ⟨X, Y, Z⟩ := q
  constructor
  · intro h
    simp [outer, skew, V3.ext_iff] at h
    obtain ⟨rfl, rfl, rfl⟩ := h
    ext <;> simp
    · linear_combination (-(x + s)) * hd + (-(cd ^ 2 * (x + s)) + cd * sd * z) * ha
    · linear_combination (-y) * ha
    · linear_combination (-z) * hd + (cd * sd * (x + s) - sd ^ 2 * z) * ha
  · intro h
    simp [V3.ext_iff] at h
    obtain ⟨rfl, rfl, rfl⟩ := h
    ext <;> simp [outer, skew]
    · linear_combination X * ha + (ca * (X * ca + Y * sa)) * hd
    · linear_combination Y * ha + (sa * (X * ca + Y * sa)) * hd
    · linear_combination Z * hd

/-- The requested point in the axes of the survey. -/
theorem surveyAxes_skyPoint (ra0 dec0 d ra dec : ℝ) : surveyAxes ra0 dec0 (skyPoint d ra dec) =
    ⟨d * (Real.cos (rad dec) * Real.cos (rad (ra - ra0)) * Real.cos (rad dec0) + Real.sin (rad dec) * Real.sin (rad dec0)),
      d * (Real.cos (rad dec) * Real.sin (rad (ra - ra0))),
      d * (Real.sin (rad dec) * Real.cos (rad dec0) - Real.cos (rad dec) * Real.cos (rad (ra - ra0)) * Real.sin (rad dec0))⟩ := by
  have e : rad (ra - ra0) = rad ra - rad ra0 := by unfold rad; ring
  rw [e, Real.cos_sub, Real.sin_sub]
  ext <;> simp [surveyAxes, skyPoint] <;> ring

/-- A position of the survey is covered: it is the image of a point of the box. -/
def Covered (dr rr dcr : ℝ × ℝ) (q : V3 ℝ) : Prop :=
  ∃ p, InCentredBox (cutskyToBox dr rr dcr).1 p ∧ (cutskyToBox dr rr dcr).2.transform p false = q

/-- The claim of C21 for one call: the whole survey is covered. -/
def CoversAll (dr rr dcr : ℝ × ℝ) : Prop :=
  ∀ d ra dec, InRange dr d → InRa rr ra → InRange dcr dec → Covered dr rr dcr (skyPoint d ra dec)

/-- C21, which positions are covered, for any ranges (less than a full turn in RA): those which, in the axes of the survey,
are in the box of the returned size with its far face at the maximum distance. -/
theorem C21_covered {dr rr dcr : ℝ × ℝ} (h0 : 0 ≤ raWidth rr) (h1 : raWidth rr < 360) (q : V3 ℝ) :
    Covered dr rr dcr q ↔ InPlacedBox (cutskyToBox dr rr dcr).1 dr.2
      (surveyAxes (rr.1 + raWidth rr / 2) ((dcr.1 + dcr.2) / 2) q) := by
  unfold Covered cutskyToBox
  simp only [cutskyIsometry_iff h0 h1]
  constructor
  · rintro ⟨p, hp, rfl⟩
    obtain ⟨⟨a1, a2⟩, ⟨a3, a4⟩, a5, a6⟩ := hp
    simp only [V3.sub_x, V3.sub_y, V3.sub_z, sub_zero] at a1 a2 a3 a4 a5 a6
    exact ⟨⟨by linarith, by linarith⟩, ⟨a3, a4⟩, a5, a6⟩
  · rintro ⟨⟨a1, a2⟩, ⟨a3, a4⟩, a5, a6⟩
    refine ⟨_, ?_, rfl⟩
    refine ⟨⟨?_, ?_⟩, ⟨?_, ?_⟩, ?_, ?_⟩ <;> simp only [V3.sub_x, V3.sub_y, V3.sub_z, sub_zero] <;> linarith

theorem inRa_sep {rr : ℝ × ℝ} {ra : ℝ} (h : InRa rr ra) :
    ∃ v : ℝ, |v| ≤ raWidth rr / 2 ∧ Real.cos (rad (ra - (rr.1 + raWidth rr / 2))) = Real.cos (rad v) ∧
      Real.sin (rad (ra - (rr.1 + raWidth rr / 2))) = Real.sin (rad v) := by
  obtain ⟨k, h1, h2⟩ := h
  refine ⟨ra + 360 * k - (rr.1 + raWidth rr / 2), abs_le.2 ⟨by linarith, by linarith⟩, ?_, ?_⟩
  · rw [show ra + 360 * (k : ℝ) - (rr.1 + raWidth rr / 2) = ra - (rr.1 + raWidth rr / 2) + 360 * k by ring, rad_turns,
      Real.cos_add_int_mul_two_pi]
  · rw [show ra + 360 * (k : ℝ) - (rr.1 + raWidth rr / 2) = ra - (rr.1 + raWidth rr / 2) + 360 * k by ring, rad_turns,
      Real.sin_add_int_mul_two_pi]

theorem abs_rad_le' {x y : ℝ} (h : |x| ≤ y) : |rad x| ≤ rad y := by
  rw [abs_le, ← rad_neg]
  exact ⟨rad_mono (abs_le.1 h).1, rad_mono (abs_le.1 h).2⟩

/-- C21, what holds for RA ranges of at most 180 degrees: a requested position is covered if and only if it is not nearer
than the near face of the box, nor above or below it. -/
theorem C21_exact_partial {dr rr dcr : ℝ × ℝ} (hd : 0 ≤ dr.1) (h0 : 0 ≤ raWidth rr) (h1 : raWidth rr ≤ 180)
    (hdec : dcr.1 ≤ dcr.2) {d ra dec : ℝ} (hdr : InRange dr d) (hra : InRa rr ra) :
    let q := surveyAxes (rr.1 + raWidth rr / 2) ((dcr.1 + dcr.2) / 2) (skyPoint d ra dec)
    Covered dr rr dcr (skyPoint d ra dec) ↔
      dr.1 * min (Real.cos (rad (raWidth rr / 2))) (Real.cos (rad ((dcr.2 - dcr.1) / 2))) ≤ q.x ∧
        |q.z| ≤ dr.2 * Real.sin (rad ((dcr.2 - dcr.1) / 2)) := by
  intro q
  rw [C21_covered h0 (by linarith)]
  have hb : (cutskyToBox dr rr dcr).1 = _ := cutskyBoxsize_eq h0 (by linarith) hdec
  rw [hb]
  obtain ⟨v, hv, hc, hs⟩ := inRa_sep hra
  have hd0 : 0 ≤ d := hd.trans hdr.1
  have hq : q = _ := surveyAxes_skyPoint _ _ d ra dec
  have hx : q.x ≤ dr.2 := by
    rw [hq]
    simp only
    have e1 := Real.sin_sq_add_cos_sq (rad dec)
    have e2 := Real.sin_sq_add_cos_sq (rad ((dcr.1 + dcr.2) / 2))
    have e3 := Real.abs_cos_le_one (rad (ra - (rr.1 + raWidth rr / 2)))
    have : Real.cos (rad dec) * Real.cos (rad (ra - (rr.1 + raWidth rr / 2))) * Real.cos (rad ((dcr.1 + dcr.2) / 2))
        + Real.sin (rad dec) * Real.sin (rad ((dcr.1 + dcr.2) / 2)) ≤ 1 := by
      have h3 : (Real.cos (rad dec) * Real.cos (rad (ra - (rr.1 + raWidth rr / 2)))) ^ 2 ≤ Real.cos (rad dec) ^ 2 := by
        rw [mul_pow]
        have := (sq_le_one_iff_abs_le_one _).2 e3
        nlinarith [sq_nonneg (Real.cos (rad dec))]
      nlinarith [sq_nonneg (Real.cos (rad dec) * Real.cos (rad (ra - (rr.1 + raWidth rr / 2))) -
        Real.cos (rad ((dcr.1 + dcr.2) / 2))), sq_nonneg (Real.sin (rad dec) - Real.sin (rad ((dcr.1 + dcr.2) / 2)))]
    nlinarith [hdr.2]
  have hy : |q.y| ≤ dr.2 * Real.sin (rad (raWidth rr / 2)) := by
    rw [hq]
    simp only
    rw [hs]
    refine abs_le.2 (scaled hd0 hdr.2 (abs_mul_le_one (Real.abs_cos_le_one _) (abs_sin_le (abs_rad_le' hv) ?_)))
    rw [← rad_90]; exact rad_mono (by linarith)
  rw [abs_le] at hy ⊢
  constructor
  · rintro ⟨⟨a1, a2⟩, ⟨a3, a4⟩, a5, a6⟩
    exact ⟨by linarith, by linarith, by linarith⟩
  · rintro ⟨a1, a2, a3⟩
    exact ⟨⟨by linarith, hx⟩, ⟨by linarith, by linarith⟩, by linarith, by linarith⟩

/-- C21 holds for surveys of at most 180 degrees in RA centred on the equator and reaching the observer (dmin = 0). -/
theorem C21_equator_partial {dr rr dcr : ℝ × ℝ} (hd : dr.1 = 0) (h0 : 0 ≤ raWidth rr) (h1 : raWidth rr ≤ 180)
    (hdec : dcr.1 = -dcr.2) (hdec0 : 0 ≤ dcr.2) (hdec1 : dcr.2 ≤ 90) : CoversAll dr rr dcr := by
  intro d ra dec hdr hra hdc
  refine (C21_exact_partial (dcr := dcr) (by linarith) h0 h1 (by linarith) hdr hra).2 ?_
  have e0 : (dcr.1 + dcr.2) / 2 = 0 := by rw [hdec]; ring
  have e1 : (dcr.2 - dcr.1) / 2 = dcr.2 := by rw [hdec]; ring
  rw [surveyAxes_skyPoint, e0, e1, hd, rad_zero]
  simp only [zero_mul, Real.cos_zero, Real.sin_zero, mul_one, mul_zero, add_zero, sub_zero]
  obtain ⟨v, hv, hc, hs⟩ := inRa_sep hra
  have hd0 : 0 ≤ d := by rw [← hd]; exact hdr.1
  have hdc' : |dec| ≤ dcr.2 := abs_le.2 ⟨by linarith [hdc.1], hdc.2⟩
  have hD := abs_rad_le (hdc'.trans hdec1)
  have hV := abs_rad_le (hv.trans (by linarith : raWidth rr / 2 ≤ 90))
  refine ⟨?_, abs_le.2 (scaled hd0 hdr.2 (abs_sin_le (abs_rad_le' hdc') (by rw [← rad_90]; exact rad_mono hdec1)))⟩
  rw [hc]
  have c1 := Real.cos_nonneg_of_neg_pi_div_two_le_of_le (abs_le.1 hD).1 (abs_le.1 hD).2
  have c2 := Real.cos_nonneg_of_neg_pi_div_two_le_of_le (abs_le.1 hV).1 (abs_le.1 hV).2
  positivity

/-- C21 for surveys of at most 180 degrees in RA centred on the equator, any minimum distance: the positions that are not
in the near corners, `dmin min(cos ΔRA, cos ΔDec) ≤ d cos(dec) cos(ra - centre)`, in particular all the positions on the
equator, on the central meridian, or beyond `dmin / max(cos ΔRA, cos ΔDec)`. -/
theorem C21_centred_partial {dr rr dcr : ℝ × ℝ} (hd : 0 ≤ dr.1) (h0 : 0 ≤ raWidth rr) (h1 : raWidth rr ≤ 180)
    (hdec : dcr.1 = -dcr.2) (hdec0 : 0 ≤ dcr.2) (hdec1 : dcr.2 ≤ 90) {d ra dec : ℝ} (hdr : InRange dr d)
    (hra : InRa rr ra) (hdc : InRange dcr dec) :
    Covered dr rr dcr (skyPoint d ra dec) ↔ dr.1 * min (Real.cos (rad (raWidth rr / 2))) (Real.cos (rad dcr.2)) ≤
      d * (Real.cos (rad dec) * Real.cos (rad (ra - (rr.1 + raWidth rr / 2)))) := by
  refine (C21_exact_partial (dcr := dcr) hd h0 h1 (by linarith) hdr hra).trans ?_
  have e0 : (dcr.1 + dcr.2) / 2 = 0 := by rw [hdec]; ring
  have e1 : (dcr.2 - dcr.1) / 2 = dcr.2 := by rw [hdec]; ring
  rw [surveyAxes_skyPoint, e0, e1, rad_zero]
  simp only [Real.cos_zero, Real.sin_zero, mul_one, mul_zero, add_zero, sub_zero]
  have hd0 : 0 ≤ d := hd.trans hdr.1
  have hdc' : |dec| ≤ dcr.2 := abs_le.2 ⟨by linarith [hdc.1], hdc.2⟩
  exact and_iff_left (abs_le.2 (scaled hd0 hdr.2 (abs_sin_le (abs_rad_le' hdc') (by rw [← rad_90]; exact rad_mono hdec1))))

/-- The returned box is minimal: for a survey centred on the equator, of at most 180 degrees in RA, a box that covers the
survey through the same isometry is at least as large as the returned one in each direction. -/
theorem C21_minimal {dr rr dcr : ℝ × ℝ} (hdd : dr.1 ≤ dr.2) (h0 : 0 ≤ raWidth rr) (h1 : raWidth rr ≤ 180)
    (hdec : dcr.1 = -dcr.2) (hdec0 : 0 ≤ dcr.2) {b : V3 ℝ}
    (hb : ∀ d ra dec, InRange dr d → InRa rr ra → InRange dcr dec →
      ∃ p, InCentredBox b p ∧ (cutskyToBox dr rr dcr).2.transform p false = skyPoint d ra dec) :
    (cutskyToBox dr rr dcr).1.x ≤ b.x ∧ (cutskyToBox dr rr dcr).1.y ≤ b.y ∧ (cutskyToBox dr rr dcr).1.z ≤ b.z := by
  have hsz : (cutskyToBox dr rr dcr).1 = _ := cutskyBoxsize_eq h0 (by linarith) (by linarith)
  have e0 : (dcr.1 + dcr.2) / 2 = 0 := by rw [hdec]; ring
  have e1 : (dcr.2 - dcr.1) / 2 = dcr.2 := by rw [hdec]; ring
  set c := rr.1 + raWidth rr / 2 with hc
  have pt : ∀ d ra dec, InRange dr d → InRa rr ra → InRange dcr dec →
      InCentredBox b (⟨d * (Real.cos (rad dec) * Real.cos (rad (ra - c))), d * (Real.cos (rad dec) * Real.sin (rad (ra - c))),
        d * Real.sin (rad dec)⟩ - ⟨dr.2 - (cutskyToBox dr rr dcr).1.x / 2, 0, 0⟩) := by
    intro d ra dec a1 a2 a3
    obtain ⟨p, hp, he⟩ := hb d ra dec a1 a2 a3
    have he : (cutskyIsometry dr rr dcr).transform p false = skyPoint d ra dec := he
    rw [cutskyIsometry_iff h0 (by linarith), surveyAxes_skyPoint, e0, rad_zero] at he
    simp only [Real.cos_zero, Real.sin_zero, mul_one, mul_zero, add_zero, sub_zero, ← hc] at he
    rw [he] at hp
    exact hp
  have rc : InRa rr c := ⟨0, by push_cast; linarith, by push_cast; linarith⟩
  have rl : InRa rr rr.1 := ⟨0, by push_cast; linarith, by push_cast; linarith⟩
  have rh : InRa rr (rr.1 + raWidth rr) := ⟨0, by push_cast; linarith, by push_cast; linarith⟩
  have dn : InRange dr dr.1 := ⟨le_refl _, hdd⟩
  have df : InRange dr dr.2 := ⟨hdd, le_refl _⟩
  have d0 : InRange dcr 0 := ⟨by linarith, hdec0⟩
  have dh : InRange dcr dcr.2 := ⟨by linarith, le_refl _⟩
  have dl : InRange dcr (-dcr.2) := ⟨by linarith, by linarith⟩
  have s1 : rr.1 + raWidth rr - c = raWidth rr / 2 := by rw [hc]; ring
  have s2 : rr.1 - c = -(raWidth rr / 2) := by rw [hc]; ring
  have k1 := (pt dr.2 c 0 df rc d0).1
  have k2 := (pt dr.1 (rr.1 + raWidth rr) 0 dn rh d0).1
  have k3 := (pt dr.1 c dcr.2 dn rc dh).1
  have k4 := (pt dr.2 (rr.1 + raWidth rr) 0 df rh d0).2.1
  have k5 := (pt dr.2 rr.1 0 df rl d0).2.1
  have k6 := (pt dr.2 c dcr.2 df rc dh).2.2
  have k7 := (pt dr.2 c (-dcr.2) df rc dl).2.2
  rw [hsz, e1] at k1 k2 k3 ⊢
  simp only [V3.sub_x, V3.sub_y, V3.sub_z, s1, s2, sub_self, rad_zero, rad_neg, Real.cos_zero, Real.sin_neg, one_mul, mul_one,
    sub_zero] at k1 k2 k3 k4 k5 k6 k7 ⊢
  refine ⟨?_, by linarith [k4.2, k5.1], by linarith [k6.2, k7.1]⟩
  rcases le_total (Real.cos (rad (raWidth rr / 2))) (Real.cos (rad dcr.2)) with h | h
  · rw [min_eq_left h] at *
    linarith [k1.2, k2.1]
  · rw [min_eq_right h] at *
    linarith [k1.2, k3.1]

/-! ### Where C21 fails -/

theorem rad_60 : rad 60 = Real.pi / 3 := by unfold rad; ring
theorem rad_30 : rad 30 = Real.pi / 6 := by unfold rad; ring

theorem inRa_self {rr : ℝ × ℝ} {ra : ℝ} (h1 : rr.1 ≤ ra) (h2 : ra ≤ rr.2) : InRa rr ra := by
  refine ⟨0, by push_cast; linarith, ?_⟩
  have : raWidth rr = rr.2 - rr.1 := if_pos (h1.trans h2)
  push_cast; linarith

/-- C21 fails at the near corners of a survey with a minimum distance: RA and Dec in (-60, 60), distances in (1, 2). -/
theorem C21_corner_violated : ¬ CoversAll (1, 2) (-60, 60) (-60, 60) := by
  intro h
  have hw : raWidth (-60, 60) = 120 := by norm_num [raWidth]
  have h1 := h 1 60 60 ⟨le_refl _, by norm_num⟩ (inRa_self (by norm_num) (by norm_num)) ⟨by norm_num, le_refl _⟩
  rw [C21_centred_partial (by norm_num) (by rw [hw]; norm_num) (by rw [hw]; norm_num) (by norm_num) (by norm_num)
    (by norm_num) ⟨le_refl _, by norm_num⟩ (inRa_self (by norm_num) (by norm_num)) ⟨by norm_num, le_refl _⟩, hw] at h1
  norm_num [rad_60] at h1

/-- C21 fails for surveys away from the equator, even with dmin = 0: RA in (-90, 90), Dec in (0, 60). -/
theorem C21_declination_violated : ¬ CoversAll (0, 1) (-90, 90) (0, 60) := by
  intro h
  have hw : raWidth (-90, 90) = 180 := by norm_num [raWidth]
  have hr : InRa (-90, 90) 90 := inRa_self (by norm_num) (by norm_num)
  have h1 := h 1 90 60 ⟨by norm_num, le_refl _⟩ hr ⟨by norm_num, le_refl _⟩
  have h2 := ((C21_exact_partial (dr := (0, 1)) (rr := (-90, 90)) (dcr := (0, 60)) (by norm_num) (by rw [hw]; norm_num)
    (by rw [hw]) (by norm_num) ⟨by norm_num, le_refl _⟩ hr).1 h1).2
  rw [surveyAxes_skyPoint, hw] at h2
  simp only at h2
  norm_num [rad_60, rad_30, rad_90] at h2
  have h3 : Real.sqrt 3 * Real.sqrt 3 = 3 := Real.mul_self_sqrt (by norm_num)
  rw [show Real.sqrt 3 / 2 * (Real.sqrt 3 / 2) = 3 / 4 by linarith] at h2
  norm_num at h2

/-- C21 fails for RA ranges of more than 180 degrees: RA in (-120, 120), the direction RA = 90. -/
theorem C21_wide_violated : ¬ CoversAll (0, 1) (-120, 120) (0, 0) := by
  intro h
  have hw : raWidth (-120, 120) = 240 := by norm_num [raWidth]
  have hr : InRa (-120, 120) 90 := inRa_self (by norm_num) (by norm_num)
  have h1 := h 1 90 0 ⟨by norm_num, le_refl _⟩ hr ⟨by norm_num, le_refl _⟩
  rw [C21_covered (by rw [hw]; norm_num) (by rw [hw]; norm_num)] at h1
  have h2 := h1.2.1.2
  have hb : (cutskyToBox (0, 1) (-120, 120) (0, 0)).1 = _ :=
    cutskyBoxsize_eq (dr := (0, 1)) (dcr := (0, 0)) (by rw [hw]; norm_num) (by rw [hw]; norm_num) (by norm_num)
  rw [hb, surveyAxes_skyPoint, hw] at h2
  have e : rad 120 = Real.pi - Real.pi / 3 := by unfold rad; ring
  norm_num [rad_90, rad_zero, e, Real.sin_pi_sub] at h2
  have h3 : Real.sqrt 3 < 2 := by rw [Real.sqrt_lt' (by norm_num)]; norm_num
  linarith

/-- C21 fails for the full turn RA in (0, 360), taken for the single direction RA = 0: the returned box has no extent. -/
theorem C21_full_turn_violated : (cutskyToBox (0, 1) (0, 360) (0, 0)).1.y = 0 ∧ ¬ CoversAll (0, 1) (0, 360) (0, 0) := by
  have e0 : wrapAngle 0 = 0 := C23_wrap_unique true (le_refl _) (by norm_num [turn]) 0 (by simp)
  have e1 : wrapAngle 360 = 0 := C23_wrap_unique true (le_refl _) (by norm_num [turn]) (-1) (by norm_num [turn])
  have hp : pointedRange (0, 360) = (0, 0) := by
    unfold pointedRange
    simp only [e0, e1, lt_irrefl, if_false]
  have hp' : pointedRange (0, 0) = (0, 0) := by
    unfold pointedRange
    simp only [e0, lt_irrefl, if_false]
  have hw : raWidth (0, 0) = 0 := by norm_num [raWidth]
  have hsame : cutskyToBox (0, 1) (0, 360) (0, 0) = cutskyToBox (0, 1) (0, 0) (0, 0) := by
    simp only [cutskyToBox, cutskyIsometry, cutskyBoxsize, hp, hp']
  have hb : (cutskyToBox (0, 1) (0, 0) (0, 0)).1 = _ :=
    cutskyBoxsize_eq (dr := (0, 1)) (dcr := (0, 0)) (by rw [hw]) (by rw [hw]; norm_num) (by norm_num)
  refine ⟨by rw [hsame, hb, hw]; simp [rad_zero], fun h => ?_⟩
  obtain ⟨p, hp1, hp2⟩ := h 1 90 0 ⟨by norm_num, le_refl _⟩ (inRa_self (by norm_num) (by norm_num)) ⟨by norm_num, le_refl _⟩
  rw [hsame] at hp1 hp2
  have hc : Covered (0, 1) (0, 0) (0, 0) (skyPoint 1 90 0) := ⟨p, hp1, hp2⟩
  rw [C21_covered (by rw [hw]) (by rw [hw]; norm_num), hb, surveyAxes_skyPoint, hw] at hc
  have h2 := hc.2.1.2
  norm_num [rad_90, rad_zero] at h2

/-- Non-vacuity: ranges in which the hypotheses of C21 are met, written (300, 40) and (-60, 40). -/
example : CoversAll (0, 3) (300, 40) (-20, 20) ∧ CoversAll (0, 3) (-60, 40) (-20, 20) := by
  have h1 : raWidth (300, 40) = 100 := by norm_num [raWidth]
  have h2 : raWidth (-60, 40) = 100 := by norm_num [raWidth]
  exact ⟨C21_equator_partial rfl (by rw [h1]; norm_num) (by rw [h1]; norm_num) rfl (by norm_num) (by norm_num),
    C21_equator_partial rfl (by rw [h2]; norm_num) (by rw [h2]; norm_num) rfl (by norm_num) (by norm_num)⟩

/-! ### C61 -/

theorem rad2deg_nonneg {a : ℝ} (h : 0 ≤ a) : 0 ≤ rad2deg a :=
  mul_nonneg h (by have := Real.pi_pos; positivity)

theorem rad2deg_le {a : ℝ} (h : a ≤ Real.pi / 2) : rad2deg a ≤ 90 := by
  have hp : (0 : ℝ) ≤ 180 / Real.pi := by have := Real.pi_pos; positivity
  have := mul_le_mul_of_nonneg_right h hp
  have e : Real.pi / 2 * (180 / Real.pi) = 90 := by
    have := Real.pi_ne_zero
    field_simp; norm_num
  unfold rad2deg; linarith

/-- C61: for a box seen from outside, `cutsky_to_box` of the ranges returned by `box_to_cutsky` gives a box of the same
depth, and not larger transversally. The last hypothesis says that the returned distance range is not reversed, which only
depends on the `dmin` passed by the user (`C61_range`). -/
theorem C61_roundtrip {b : V3 ℝ} {dmax dmin : ℝ} (hbx : 0 ≤ b.x) (hy : 0 ≤ b.y) (hz : 0 ≤ b.z) (hx : b.x < dmax)
    {dr rr dcr : ℝ × ℝ} (he : boxToCutsky b dmax dmin = .ok (dr, rr, dcr)) (hdr : dr.1 ≤ dr.2) :
    (cutskyToBox dr rr dcr).1.x = b.x ∧ (cutskyToBox dr rr dcr).1.y ≤ b.y ∧ (cutskyToBox dr rr dcr).1.z ≤ b.z := by
  obtain ⟨A, D, f⟩ := outsideRanges hbx hy hz hx he
  have hA := rad2deg_nonneg f.A0
  have hD := rad2deg_nonneg f.D0
  have hA9 := rad2deg_le f.A1
  have hw : raWidth rr = 2 * rad2deg A := by
    rw [f.ra, raWidth, if_pos (by simp only; linarith)]; simp only; ring
  have hsz : (cutskyToBox dr rr dcr).1 = _ :=
    cutskyBoxsize_eq (dr := dr) (dcr := dcr) (by rw [hw]; linarith) (by rw [hw]; linarith) (by rw [f.dec]; simp only; linarith)
  have e1 : rad (raWidth rr / 2) = A := by
    rw [hw, show 2 * rad2deg A / 2 = rad2deg A by ring, rad_rad2deg]
  have e2 : rad ((dcr.2 - dcr.1) / 2) = D := by
    rw [f.dec]; simp only
    rw [show (rad2deg D - -rad2deg D) / 2 = rad2deg D by ring, rad_rad2deg]
  rw [hsz, e1, e2, ← f.corner, f.far]
  have h1 := f.y (hdr.trans f.far.le)
  have h2 := f.z (hdr.trans f.far.le)
  simp only
  exact ⟨by ring, by linarith, by linarith⟩

/-- The returned distance range is not reversed, unless the user passed a `dmin` above `dmax`. -/
theorem C61_range {b : V3 ℝ} {dmax dmin : ℝ} (hbx : 0 ≤ b.x) (hy : 0 ≤ b.y) (hz : 0 ≤ b.z) (hx : b.x < dmax)
    (hm : dmin ≤ dmax) {dr rr dcr : ℝ × ℝ} (he : boxToCutsky b dmax dmin = .ok (dr, rr, dcr)) : dr.1 ≤ dr.2 := by
  have hd : 0 < dmax := by linarith
  have hdx : ¬ (dmax - b.x ≤ 0) := by linarith
  have key : ∀ c : V3 ℝ, c.x = b.x → 0 ≤ c.y → ∀ m a t, halfOpenings c dmax dmin = .ok (m, a, t) → m ≤ dmax := by
    intro c hcx hcy m a t h
    unfold halfOpenings at h
    simp only [hd.ne', if_false, hcx, hdx] at h
    by_cases hc : Real.sqrt ((dmax - b.x) ^ 2 + (c.y / 2) ^ 2) < dmax
    · have hsq : (dmax - b.x) ^ 2 + (c.y / 2) ^ 2 < dmax ^ 2 := by rwa [Real.sqrt_lt' hd] at hc
      have hy1 : c.y / 2 < dmax := by nlinarith [sq_nonneg (dmax - b.x)]
      have hq0 : 0 ≤ c.y / 2 / dmax := by positivity
      have hq1 : c.y / 2 / dmax < 1 := by rwa [div_lt_one hd]
      rw [if_pos hc, npArcsin_of (by linarith) hq1.le] at h
      cases e1 : npArcsin (c.z / 2 / dmax) with
      | error e => rw [e1] at h; cases h
      | ok u =>
        rw [e1] at h
        cases e2 : npArccos ((dmax - b.x) / ((dmax - b.x) / Real.cos (Real.arcsin (c.y / 2 / dmax)))) with
        | error e => simp only [bind, Except.bind, e2] at h; cases h
        | ok v =>
          simp only [bind, Except.bind, e2, Except.ok.injEq, Prod.mk.injEq] at h
          rw [← h.1, Real.cos_arcsin]
          have hr : (c.y / 2 / dmax) ^ 2 = (c.y / 2) ^ 2 / dmax ^ 2 := by rw [div_pow]
          have hpos : 0 < 1 - (c.y / 2 / dmax) ^ 2 := by nlinarith
          rw [div_le_iff₀ (Real.sqrt_pos.2 hpos)]
          refine (abs_le_of_sq_le_sq' ?_ (by positivity)).2
          rw [mul_pow, Real.sq_sqrt hpos.le, hr]
          have : dmax ^ 2 * (1 - (c.y / 2) ^ 2 / dmax ^ 2) = dmax ^ 2 - (c.y / 2) ^ 2 := by
            field_simp
          linarith
    · rw [if_neg hc] at h
      by_cases hm' : dmin < dmax - b.x
      · rw [if_pos hm'] at h; cases h
      · rw [if_neg hm'] at h
        cases e0 : npArccos ((dmax - b.x) / dmin) with
        | error e => simp only [bind, Except.bind, e0] at h; cases h
        | ok w =>
          cases e1 : npArcsin (c.z / 2 / dmax) with
          | error e => simp only [bind, Except.bind, e0, e1] at h; cases h
          | ok u =>
            simp only [bind, Except.bind, e0, e1, Except.ok.injEq, Prod.mk.injEq] at h
            rw [← h.1]; exact hm
  rw [boxToCutsky_eq] at he
  split at he
  · cases e : halfOpenings ⟨b.x, b.z, b.y⟩ dmax dmin with
    | error e' => rw [e] at he; cases he
    | ok v =>
      rw [e] at he
      simp only [Except.map, Except.ok.injEq, Prod.mk.injEq] at he
      rw [← he.1]
      exact key ⟨b.x, b.z, b.y⟩ rfl hz _ _ _ e
  · cases e : halfOpenings b dmax dmin with
    | error e' => rw [e] at he; cases he
    | ok v =>
      rw [e] at he
      simp only [Except.map, Except.ok.injEq, Prod.mk.injEq] at he
      rw [← he.1]
      exact key _ rfl hy _ _ _ e

/-- Non-vacuity. -/
example : (0 : ℝ) ≤ 3 ∧ ∃ dr rr dcr, boxToCutsky ⟨3, 6, 6⟩ 5 0 = .ok (dr, rr, dcr) ∧ dr.1 ≤ dr.2 :=
  ⟨by norm_num, _, _, _, by rw [boxToCutsky_eq, if_neg (by norm_num), cube_halfOpenings]; rfl, by norm_num⟩

end Verif.Props
