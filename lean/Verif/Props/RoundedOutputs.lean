import Verif.Model.RoundedOutputs
import Verif.Props.RoundedPlacement

/-!
# C141: catalogs of one call of `cutsky` have no object in common, with rounding errors
-/

namespace Verif.Props.RoundedOutputs

open Verif Verif.Model Verif.Model.Rounded Verif.Model.RoundedSky Verif.Model.RoundedIsometry Verif.Model.RoundedLayout Verif.Model.RoundedPlacement
open Verif.Model.RoundedOutputs Verif.Model.RoundedCutsky Verif.Model.RoundedMask
open Verif.Spec
open Verif.Props.RoundedSky (Accurate)
open Verif.Props.Rounded (Regular)
open Verif.Props.RoundedCutsky (sq_parts raErr distErr decErr Outside dec_le C139_dropped)
open Verif.Props.RoundedPlacement
open Verif.Props.RoundedLayout (slack wanted)
open Verif.Lemmas.RoundedIsometry (tiny_pos)

theorem u64 : binary64.u = 1 / 2 ^ 53 := by norm_num [Fmt.u, binary64]

/-! ### Points of the sky -/

theorem exists_skyPoint {q : V3 ℝ} (h : 0 < √(q.x ^ 2 + q.y ^ 2)) :
    ∃ R a b, 0 < R ∧ |b| ≤ 90 ∧ q = skyPoint R a b ∧ R * Real.cos (rad b) = √(q.x ^ 2 + q.y ^ 2) := by
  have hpi := Real.pi_pos
  set ρ := √(q.x ^ 2 + q.y ^ 2) with hρ
  have hρ2 : ρ ^ 2 = q.x ^ 2 + q.y ^ 2 := Real.sq_sqrt (by positivity)
  have hn := sq_parts q
  have hR0 : 0 < q.norm := by
    by_contra hc
    have h0 : q.norm = 0 := le_antisymm (not_lt.1 hc) (V3.norm_nonneg _)
    rw [h0] at hn
    nlinarith [sq_nonneg q.z]
  set z : ℂ := ⟨q.x, q.y⟩ with hz
  have hzn : ‖z‖ = ρ := by
    rw [hρ, Complex.norm_eq_sqrt_sq_add_sq]
  have hzr : q.z ^ 2 ≤ q.norm ^ 2 := by nlinarith [sq_nonneg q.x, sq_nonneg q.y]
  have hab : |q.z / q.norm| ≤ 1 := by
    rw [abs_div, abs_of_pos hR0, div_le_one hR0]
    exact abs_le_of_sq_le_sq hzr hR0.le
  obtain ⟨g1, g2⟩ := abs_le.1 hab
  have er : ∀ t : ℝ, rad (t * (180 / Real.pi)) = t := by
    intro t
    unfold rad
    field_simp
  have hs : Real.sin (Real.arcsin (q.z / q.norm)) = q.z / q.norm := Real.sin_arcsin g1 g2
  have hc : q.norm * Real.cos (Real.arcsin (q.z / q.norm)) = ρ := by
    rw [Real.cos_arcsin]
    have h1 : q.norm * √(1 - (q.z / q.norm) ^ 2) = √(q.norm ^ 2 * (1 - (q.z / q.norm) ^ 2)) := by
      rw [Real.sqrt_mul (sq_nonneg _), Real.sqrt_sq hR0.le]
    rw [h1, hρ]
    congr 1
    field_simp
    linarith
  refine ⟨q.norm, Complex.arg z * (180 / Real.pi), Real.arcsin (q.z / q.norm) * (180 / Real.pi), hR0, ?_, ?_, ?_⟩
  · rw [abs_mul, abs_of_pos (by positivity : 0 < 180 / Real.pi)]
    have h1 : |Real.arcsin (q.z / q.norm)| ≤ Real.pi / 2 := abs_le.2 ⟨Real.neg_pi_div_two_le_arcsin _, Real.arcsin_le_pi_div_two _⟩
    calc _ ≤ Real.pi / 2 * (180 / Real.pi) := mul_le_mul_of_nonneg_right h1 (by positivity)
      _ = 90 := by field_simp; norm_num
  · unfold skyPoint
    rw [er, er]
    ext
    · simp only
      rw [← mul_assoc, hc, ← hzn, Complex.norm_mul_cos_arg]
    · simp only
      rw [← mul_assoc, hc, ← hzn, Complex.norm_mul_sin_arg]
    · simp only
      rw [hs]
      field_simp
  · rw [er, hc]

theorem sky_R (R R' a b : ℝ) : (skyPoint R a b - skyPoint R' a b).norm ≤ |R - R'| := by
  refine le_of_sq (abs_nonneg _) ?_
  rw [sq_abs]
  simp only [skyPoint, V3.sub_x, V3.sub_y, V3.sub_z]
  have h1 := Real.sin_sq_add_cos_sq (rad a)
  have h2 := Real.sin_sq_add_cos_sq (rad b)
  refine le_of_eq ?_
  linear_combination (R - R') ^ 2 * Real.cos (rad b) ^ 2 * h1 + (R - R') ^ 2 * h2

theorem sky_ra {R : ℝ} (hR : 0 ≤ R) (a t b : ℝ) : (skyPoint R a b - skyPoint R t b).norm ≤ R * |rad a - rad t| := by
  refine le_of_sq (by positivity) ?_
  rw [mul_pow, sq_abs]
  simp only [skyPoint, V3.sub_x, V3.sub_y, V3.sub_z]
  have h1 := chord (rad a) (rad t)
  have h2 : Real.cos (rad b) ^ 2 ≤ 1 := Real.cos_sq_le_one _
  have h3 : (0 : ℝ) ≤ R ^ 2 := sq_nonneg R
  calc _ = R ^ 2 * (Real.cos (rad b) ^ 2 * ((Real.cos (rad a) - Real.cos (rad t)) ^ 2 + (Real.sin (rad a) - Real.sin (rad t)) ^ 2)) := by ring
    _ ≤ R ^ 2 * (1 * (rad a - rad t) ^ 2) := mul_le_mul_of_nonneg_left (mul_le_mul h2 h1 (by positivity) (by norm_num)) h3
    _ = _ := by ring

theorem sky_dec {R : ℝ} (hR : 0 ≤ R) (a b b' : ℝ) (hc : 1 / 4 ≤ Real.cos ((rad b + rad b') / 2)) :
    (skyPoint R a b - skyPoint R a b').norm ≤ 4 * R * |Real.sin (rad b) - Real.sin (rad b')| := by
  refine le_of_sq (by positivity) ?_
  rw [mul_pow, sq_abs]
  simp only [skyPoint, V3.sub_x, V3.sub_y, V3.sub_z]
  have h1 := Real.sin_sq_add_cos_sq (rad a)
  have e : ∀ C C' S S' ca sa : ℝ, sa ^ 2 + ca ^ 2 = 1 → (R * (C * ca) - R * (C' * ca)) ^ 2 + (R * (C * sa) - R * (C' * sa)) ^ 2 + (R * S - R * S') ^ 2 =
      R ^ 2 * ((C - C') ^ 2 + (S - S') ^ 2) := by
    intro C C' S S' ca sa h
    linear_combination R ^ 2 * (C - C') ^ 2 * h
  rw [e _ _ _ _ _ _ h1, Real.cos_sub_cos, Real.sin_sub_sin]
  set s := Real.sin ((rad b - rad b') / 2)
  have h2 := Real.sin_sq_add_cos_sq ((rad b + rad b') / 2)
  set k := Real.cos ((rad b + rad b') / 2)
  set m := Real.sin ((rad b + rad b') / 2)
  have h3 : 1 ≤ 16 * k ^ 2 := by nlinarith
  calc _ = R ^ 2 * (4 * s ^ 2) * (m ^ 2 + k ^ 2) := by ring
    _ = R ^ 2 * (4 * s ^ 2) * 1 := by rw [h2]
    _ ≤ R ^ 2 * (4 * s ^ 2) * (16 * k ^ 2) := mul_le_mul_of_nonneg_left h3 (by positivity)
    _ = _ := by ring

theorem sin_60 : Real.sin (rad 60) ≤ 8661 / 10000 := by
  have e : rad 60 = Real.pi / 3 := by unfold rad; ring
  rw [e, Real.sin_pi_div_three]
  have : √3 ≤ 17322 / 10000 := Real.sqrt_le_iff.2 ⟨by norm_num, by norm_num⟩
  linarith

theorem cos_mid {b b' : ℝ} (h : |b + b'| ≤ 150) : 1 / 4 ≤ Real.cos ((rad b + rad b') / 2) := by
  have hpi := Real.pi_pos
  have e : (rad b + rad b') / 2 = (b + b') * (Real.pi / 360) := by unfold rad; ring
  rw [← Real.cos_abs, e, abs_mul, abs_of_pos (by positivity : 0 < Real.pi / 360)]
  have h1 : |b + b'| * (Real.pi / 360) ≤ 5 * Real.pi / 12 := by
    calc _ ≤ 150 * (Real.pi / 360) := mul_le_mul_of_nonneg_right h (by positivity)
      _ = _ := by ring
  have h2 : Real.cos (5 * Real.pi / 12) ≤ Real.cos (|b + b'| * (Real.pi / 360)) :=
    Real.cos_le_cos_of_nonneg_of_le_pi (by positivity) (by linarith) h1
  refine le_trans ?_ h2
  have e2 : 5 * Real.pi / 12 = Real.pi / 2 - Real.pi / 12 := by ring
  rw [e2, Real.cos_pi_div_two_sub]
  have h4 := Real.sin_gt_sub_cube (x := Real.pi / 12) (by positivity)
  have p1 := Real.pi_gt_d2
  have p2 := Real.pi_lt_d2
  have h5 : (Real.pi / 12) ^ 3 ≤ (3.15 / 12 : ℝ) ^ 3 := pow_le_pow_left₀ (by positivity) (by linarith) 3
  norm_num at h5 p1 ⊢
  linarith

/-- Dec within an error `D` on their sines of a range are close to Dec in it. -/
theorem clip_dec {b D : ℝ} {dcr : Range} (hb : |b| ≤ 90) (h : dcr.1 ≤ dcr.2) (h1 : |dcr.1| ≤ 60) (h2 : |dcr.2| ≤ 60) (hD : 0 ≤ D)
    (l : Real.sin (rad dcr.1) - D ≤ Real.sin (rad b)) (r : Real.sin (rad b) ≤ Real.sin (rad dcr.2) + D) {R : ℝ} (hR : 0 ≤ R) :
    ∃ b', InRange dcr b' ∧ ∀ a, (skyPoint R a b - skyPoint R a b').norm ≤ 4 * R * D := by
  have hRD := mul_nonneg (by linarith : 0 ≤ 4 * R) hD
  obtain ⟨b1, b2⟩ := abs_le.1 hb
  obtain ⟨c1, c2⟩ := abs_le.1 h1
  obtain ⟨d1, d2⟩ := abs_le.1 h2
  rcases lt_or_ge b dcr.1 with hl | hl
  · refine ⟨dcr.1, ⟨le_rfl, h⟩, fun a => (sky_dec hR a b dcr.1 (cos_mid (abs_le.2 ⟨by linarith, by linarith⟩))).trans ?_⟩
    have := (dec_le hb (by linarith)).2 hl.le
    exact mul_le_mul_of_nonneg_left (abs_le.2 ⟨by linarith, by linarith⟩) (by linarith)
  rcases lt_or_ge dcr.2 b with hr | hr
  · refine ⟨dcr.2, ⟨h, le_rfl⟩, fun a => (sky_dec hR a b dcr.2 (cos_mid (abs_le.2 ⟨by linarith, by linarith⟩))).trans ?_⟩
    have := (dec_le (by linarith) hb).2 hr.le
    exact mul_le_mul_of_nonneg_left (abs_le.2 ⟨by linarith, by linarith⟩) (by linarith)
  · refine ⟨b, ⟨hl, hr⟩, fun a => ?_⟩
    have : skyPoint R a b - skyPoint R a b = 0 := by ext <;> simp
    rw [this]
    simpa [V3.norm] using hRD

/-- Ranges of the theorems: distances, RA within [0, 360) from the first to the second one, Dec within 60 degrees of the equator. -/
structure Ranges (dr rr dcr : ℝ × ℝ) : Prop where
  dist0 : 0 ≤ dr.1
  dist : dr.1 ≤ dr.2
  distFloat : binary64.IsFloat dr.2
  ra0 : 0 ≤ rr.1
  ra : rr.1 + 1 / 2 ^ 40 ≤ rr.2
  ra1 : rr.2 < 360
  raFloat1 : binary64.IsFloat rr.1
  raFloat2 : binary64.IsFloat rr.2
  dec : dcr.1 ≤ dcr.2
  dec1 : |dcr.1| ≤ 60
  dec2 : |dcr.2| ≤ 60

theorem Ranges.sensible {dr rr dcr : ℝ × ℝ} (h : Ranges dr rr dcr) : Sensible rr := by
  have := h.ra
  have h2 : (0 : ℝ) < 1 / 2 ^ 40 := by norm_num
  exact ⟨h.raFloat1, h.raFloat2, h.ra0, by linarith [h.ra0], by linarith [h.ra1], h.ra1, .inl (by linarith)⟩

/-- Rows on the axis of the poles, or at the observer, are not kept by the angular mask. -/
theorem axis_dropped {lib : Libm} {κ : ℝ} (ha : Accurate lib κ) (hκ : κ ≤ 1 / 1000) {dr rr dcr : Range} (hr : Ranges dr rr dcr) {u v : ℝ} {y : V3 ℝ}
    (hy : Regular binary64 y.x ∧ Regular binary64 y.y ∧ Regular binary64 y.z) (h0 : y.x = 0 ∧ y.y = 0) (hv : 0 < v) :
    selectedF lib true true dr rr dcr u v y = false := by
  have hp : uniformAngularProbF 1 rr dcr (skyF lib y).ra (skyF lib y).dec = 0 := by
    by_cases hz : y = 0
    · have hn : (skyF lib y).dec = none := by
        subst hz
        have : distanceF binary64 0 = 0 := by simp [distanceF, Fmt.rnd_zero]
        simp [skyF, cartesianToSkyF, this]
      rw [hn]
      simp [uniformAngularProbF, maskRanges]
    obtain ⟨dist, ra, dec, hs, -, -, k3, -, k5⟩ := Verif.Props.RoundedSky.C130_sky ha true hz hy.1 hy.2.1 hy.2.2
    have hs' : skyF lib y = ⟨dist, ra, some dec⟩ := hs
    rw [hs']
    by_contra hne
    obtain ⟨g1, g2⟩ := Verif.Props.RoundedCutsky.prob_dec hne
    have hdec : |dec| ≤ 90 := by
      have : Verif.Props.turn true = 360 := by simp [Verif.Props.turn]
      rw [this] at k5
      linarith
    have hc : dec * conversion true = rad dec := by simp [conversion, rad]
    rw [hc] at k3
    have s1 : Real.sin (rad dec) ≤ Real.sin (rad 60) := (dec_le hdec (by norm_num [abs_of_pos])).2 (g2.trans (abs_le.1 hr.dec2).2)
    have s2 : Real.sin (rad (-60)) ≤ Real.sin (rad dec) := (dec_le (by norm_num [abs_of_neg]) hdec).2 ((abs_le.1 hr.dec1).1.trans g1)
    have e2 : rad (-60) = -rad 60 := by unfold rad; ring
    rw [e2, Real.sin_neg] at s2
    have s3 := sin_60
    have hN := V3.norm_pos hz
    have hq : (y.z / y.norm) ^ 2 = 1 := by
      have h := sq_parts y
      rw [h0.1, h0.2] at h
      rw [div_pow, h]
      have : y.z ^ 2 ≠ 0 := by
        intro h1
        rw [h1] at h
        have := pow_pos hN 2
        norm_num at h
        linarith
      field_simp
      ring
    have hu : binary64.u ≤ 112 / 10 ^ 18 := by rw [u64]; norm_num
    obtain ⟨k3a, k3b⟩ := abs_le.1 k3
    rcases mul_self_eq_one_iff.1 ((sq _).symm.trans hq) with h | h <;> rw [h] at k3a k3b <;> norm_num at hu <;> linarith
  unfold selectedF
  rw [hp]
  simp [hv]

/-- A row which is moved to `y` and kept by the masks is close to a point of the survey. -/
theorem kept_near {lib : Libm} {κ : ℝ} (ha : Accurate lib κ) (hκ : κ ≤ 1 / 1000) {dr rr dcr : Range} (hr : Ranges dr rr dcr) {u v : ℝ} {y : V3 ℝ}
    (hy : Regular binary64 y.x ∧ Regular binary64 y.y ∧ Regular binary64 y.z) (hu : 0 < u)
    (hv : 0 < v) (hsel : selectedF lib true true dr rr dcr u v y = true) :
    ∃ d t b, InRange dr d ∧ InRange rr t ∧ InRange dcr b ∧ (y - skyPoint d t b).norm ≤ (10 * κ + 4 / 10 ^ 14) * dr.2 := by
  have haxis : 0 < √(y.x ^ 2 + y.y ^ 2) := by
    rw [Real.sqrt_pos]
    by_contra hc
    have h1 := sq_nonneg y.x
    have h2 := sq_nonneg y.y
    have e1 : y.x = 0 := pow_eq_zero_iff (two_ne_zero) |>.1 (by linarith)
    have e2 : y.y = 0 := pow_eq_zero_iff (two_ne_zero) |>.1 (by linarith)
    rw [axis_dropped ha hκ hr hy ⟨e1, e2⟩ hv] at hsel
    exact absurd hsel (by simp)
  have hpi := Real.pi_pos
  have hpi' := Real.pi_lt_d2
  obtain ⟨e, he⟩ : ∃ e : ℝ, e = 0 := ⟨0, rfl⟩
  have he0 : 0 ≤ e := he.ge
  have hκ0 : 0 ≤ κ := (abs_nonneg _).trans (ha.cos 0)
  have hun := u64
  have hu0 := Fmt.u_pos (F := binary64)
  obtain ⟨R, a, b, hR, hb, hq, hρ⟩ := exists_skyPoint haxis
  have h : (y - skyPoint R a b).norm ≤ e := by
    rw [← hq]
    have : y - y = 0 := by ext <;> simp
    rw [this]
    simpa [V3.norm] using he0
  rw [← hρ] at haxis
  have hcb1 := Real.cos_le_one (rad b)
  have hRc : R * Real.cos (rad b) ≤ R := by nlinarith
  have hout : ¬ Outside κ true true dr rr dcr R a b e := by
    intro ho
    have := C139_dropped ha hy.1 hy.2.1 hy.2.2 h hR.le (by linarith) hu hv ho
    rw [this] at hsel
    exact absurd hsel (by simp)
  unfold Outside at hout
  rw [not_or, not_or] at hout
  obtain ⟨o1, o2, o3⟩ := hout
  have n1 : dr.1 - distErr e R ≤ R ∧ R ≤ dr.2 + distErr e R := by
    constructor
    · by_contra hc
      exact o1 ⟨rfl, .inl (by linarith)⟩
    · by_contra hc
      exact o1 ⟨rfl, .inr (by linarith)⟩
  have n2 : ∃ (m : ℤ) (t : ℝ), rr.1 ≤ t ∧ t ≤ rr.2 ∧ |a + m * 360 - t| ≤ raErr κ e (R * Real.cos (rad b)) + 1 / 2 ^ 41 := by
    by_contra hc
    push Not at hc
    exact o2 ⟨rfl, hr.raFloat1, hr.raFloat2, hr.ra0, hr.ra1, hr.ra, fun m t h1 h2 => hc m t h1 h2⟩
  have w1 : |dcr.1| ≤ 90 := hr.dec1.trans (by norm_num)
  have w2 : |dcr.2| ≤ 90 := hr.dec2.trans (by norm_num)
  have n3 : Real.sin (rad dcr.1) - decErr κ e R ≤ Real.sin (rad b) ∧ Real.sin (rad b) ≤ Real.sin (rad dcr.2) + decErr κ e R := by
    constructor
    · by_contra hc
      exact o3 ⟨rfl, w1, w2, .inl (by linarith)⟩
    · by_contra hc
      exact o3 ⟨rfl, w1, w2, .inr (by linarith)⟩
  obtain ⟨m, t, t1, t2, t3⟩ := n2
  have heR : e / R ≤ 1 / 10 ^ 4 := by
    rw [div_le_div_iff₀ hR (by norm_num)]
    linarith
  have hD0 : 0 ≤ decErr κ e R := by
    unfold decErr
    positivity
  have hD : decErr κ e R ≤ 13 / 10000 := by
    have : 2 * e / R = 2 * (e / R) := by ring
    unfold decErr
    rw [this, hun]
    norm_num at heR ⊢
    linarith
  -- the cosine of Dec
  have hcos : 2 / 5 ≤ Real.cos (rad b) := by
    have s1 : Real.sin (rad dcr.2) ≤ Real.sin (rad 60) := (dec_le w2 (by norm_num [abs_of_pos])).2 (abs_le.1 hr.dec2).2
    have s2 : Real.sin (rad (-60)) ≤ Real.sin (rad dcr.1) := (dec_le (by norm_num [abs_of_neg]) w1).2 (abs_le.1 hr.dec1).1
    have e2 : rad (-60) = -rad 60 := by unfold rad; ring
    rw [e2, Real.sin_neg] at s2
    have s3 := sin_60
    have s4 : |Real.sin (rad b)| ≤ 8674 / 10000 := abs_le.2 ⟨by linarith [n3.1], by linarith [n3.2]⟩
    have s5 := Real.sin_sq_add_cos_sq (rad b)
    have s6 : Real.sin (rad b) ^ 2 ≤ (8674 / 10000) ^ 2 := by rw [← sq_abs]; exact pow_le_pow_left₀ (abs_nonneg _) s4 2
    have s7 : 0 < Real.cos (rad b) := by
      by_contra hc
      have := mul_nonpos_of_nonneg_of_nonpos hR.le (not_lt.1 hc)
      linarith
    nlinarith
  obtain ⟨b', hb', hbn⟩ := clip_dec hb hr.dec hr.dec1 hr.dec2 hD0 n3.1 n3.2 hR.le
  -- the distance
  have hdE : 0 ≤ distErr e R := by
    unfold distErr
    positivity
  obtain ⟨d, hd, hdn⟩ : ∃ d, InRange dr d ∧ |R - d| ≤ distErr e R := by
    have hdd := hr.dist
    rcases lt_or_ge R dr.1 with hl | hl
    · exact ⟨dr.1, ⟨le_rfl, hdd⟩, abs_le.2 ⟨by linarith [n1.1], by linarith⟩⟩
    rcases lt_or_ge dr.2 R with hg | hg
    · exact ⟨dr.2, ⟨hdd, le_rfl⟩, abs_le.2 ⟨by linarith, by linarith [n1.2]⟩⟩
    · exact ⟨R, ⟨hl, hg⟩, by simpa using hdE⟩
  refine ⟨d, t, b', hd, ⟨t1, t2⟩, hb', ?_⟩
  rw [hq]
  have et : skyPoint R a b = skyPoint R (a + m * 360) b := by
    have : rad (a + m * 360) = rad a + m * (2 * Real.pi) := by unfold rad; ring
    unfold skyPoint
    rw [this, Real.cos_add_int_mul_two_pi, Real.sin_add_int_mul_two_pi]
  have q1 := sky_ra hR.le (a + m * 360) t b
  have q2 := hbn t
  have q3 := (sky_R R d t b').trans hdn
  have p1 := tri (skyPoint R (a + m * 360) b) (skyPoint R t b) (skyPoint d t b')
  have p2 := tri (skyPoint R t b) (skyPoint R t b') (skyPoint d t b')
  rw [← et] at p1 q1
  -- errors
  have r1 : R * |rad (a + m * 360) - rad t| ≤ R * (34 * binary64.u + κ) + 4 * e + R * (1 / 10 ^ 14) := by
    have e1 : rad (a + m * 360) - rad t = (a + m * 360 - t) * (Real.pi / 180) := by unfold rad; ring
    rw [e1, abs_mul, abs_of_pos (by positivity : 0 < Real.pi / 180)]
    have e2 : R * ((raErr κ e (R * Real.cos (rad b)) + 1 / 2 ^ 41) * (Real.pi / 180)) =
        R * (34 * binary64.u + κ) + Real.pi / 2 * e / Real.cos (rad b) + R * (1 / 2 ^ 41 * (Real.pi / 180)) := by
      have hc0 : Real.cos (rad b) ≠ 0 := by
        intro h0
        rw [h0] at hcos
        norm_num at hcos
      have hR' := hR.ne'
      unfold raErr
      field_simp
      ring
    have e3 : Real.pi / 2 * e / Real.cos (rad b) ≤ 4 * e := by
      rw [div_le_iff₀ (by linarith)]
      have := mul_le_mul_of_nonneg_left hcos he0
      nlinarith
    have e4 : R * (1 / 2 ^ 41 * (Real.pi / 180)) ≤ R * (1 / 10 ^ 14) := by
      refine mul_le_mul_of_nonneg_left ?_ hR.le
      have : (1 : ℝ) / 2 ^ 41 * (Real.pi / 180) ≤ 1 / 2 ^ 41 * (3.15 / 180) := mul_le_mul_of_nonneg_left (by linarith) (by norm_num)
      refine this.trans (by norm_num)
    have e5 := mul_le_mul_of_nonneg_left (mul_le_mul_of_nonneg_right t3 (by positivity : 0 ≤ Real.pi / 180)) hR.le
    linarith
  have r2 : 4 * R * decErr κ e R = 40 * binary64.u * R + 4 * κ * R + 8 * e := by
    unfold decErr
    field_simp
    ring
  have r3 : distErr e R = e + 4 * binary64.u * R + 4 * binary64.u * e := by
    unfold distErr
    ring
  rw [r3] at n1 q3
  rw [r2] at q2
  have hu1 : binary64.u ≤ 112 / 10 ^ 18 := by rw [hun]; norm_num
  have i1 := mul_le_mul_of_nonneg_right hu1 hR.le
  have i2 := mul_le_mul_of_nonneg_right hu1 he0
  have hRd : R ≤ 3 / 2 * dr.2 + 2 * e := by linarith [n1.2]
  have i3 := mul_le_mul_of_nonneg_left hRd hκ0
  have i4 := mul_le_mul_of_nonneg_right hκ he0
  have hd0 : 0 ≤ dr.2 := hr.dist0.trans hr.dist
  have i5 := mul_nonneg hκ0 hd0
  linarith

theorem iso_sub (dr rr dcr : Range) (p p' : V3 ℝ) :
    ((cutskyIsometry dr rr dcr).transform p false - (cutskyIsometry dr rr dcr).transform p' false).norm = (p - p').norm := by
  rw [cutsky_place, cutsky_place]
  unfold place
  rw [rot_z_sub, rot_y_sub]
  congr 1
  ext <;> simp

theorem abs_le_norm (v : V3 ℝ) : |v.x| ≤ v.norm ∧ |v.y| ≤ v.norm ∧ |v.z| ≤ v.norm := by
  have h := sq_parts v
  have h0 := V3.norm_nonneg v
  refine ⟨abs_le_of_sq_le_sq ?_ h0, abs_le_of_sq_le_sq ?_ h0, abs_le_of_sq_le_sq ?_ h0⟩ <;> nlinarith [sq_nonneg v.x, sq_nonneg v.y, sq_nonneg v.z]

/-- How far outside of its sub-box a row of a catalog may be: `E` bounds the errors of the isometry, `d` is the largest distance. -/
noncomputable def reach (κ E d : ℝ) : ℝ := E + (10 * κ + 6 / 10 ^ 14) * (d + binary64.tiny)

/-- Rows the theorems are about, for the sub-box of centre `c`: `E` bounds the errors of the isometry at the position `x`; the coordinates that
are computed are zeros or have squares which are normal floats. -/
structure Clear (lib : Libm) (dr rr dcr : ℝ × ℝ) (E : ℝ) (c x : V3 ℝ) : Prop where
  error : 4 / 10 ^ 12 * (x.norm + c.norm + dr.2 + 50 * binary64.tiny) ≤ E
  normal : ∀ s y, PlacedF lib dr rr dcr c s → TransformF binary64 s x false y → Regular binary64 y.x ∧ Regular binary64 y.y ∧ Regular binary64 y.z

/-- The position `x` is in the box of size `b` and centre `c`, or outside by `r` at most. -/
def NearBox (b c : V3 ℝ) (r : ℝ) (x : V3 ℝ) : Prop := |x.x - c.x| ≤ b.x / 2 + r ∧ |x.y - c.y| ≤ b.y / 2 + r ∧ |x.z - c.z| ≤ b.z / 2 + r

theorem kept_in_box {lib : Libm} {κ : ℝ} (hl : Fine lib) (ha : Accurate lib κ) (hκ : κ ≤ 1 / 1000) {dr rr dcr : Range} (hr : Ranges dr rr dcr)
    (hcov : CoversAll dr rr dcr) {E u v : ℝ} {c x y : V3 ℝ} {s : Isom} (hx : Clear lib dr rr dcr E c x) (hs : PlacedF lib dr rr dcr c s)
    (hy : TransformF binary64 s x false y) (hu : 0 < u) (hv : 0 < v) (hsel : selectedF lib true true dr rr dcr u v y = true) :
    NearBox (cutskyBoxsizeF lib dr rr dcr) c (reach κ E dr.2) x := by
  have w1 : |dcr.1| ≤ 90 := hr.dec1.trans (by norm_num)
  have w2 : |dcr.2| ≤ 90 := hr.dec2.trans (by norm_num)
  have h := (C140_isometry hl hr.dist0 hr.dist hr.distFloat hr.sensible w1 w2 hs hy).trans hx.error
  obtain ⟨d, t, b, hd, ht, hb, hk⟩ := kept_near ha hκ hr (hx.normal s y hs hy) hu hv hsel
  rw [Verif.Lemmas.RoundedIsometry.norm_sub_comm] at h
  have hq := (tri ((cutskyIsometry dr rr dcr).transform (x - c) false) y (skyPoint d t b)).trans (add_le_add h hk)
  obtain ⟨p, hp, g1, g2, g3⟩ := C140_covered hl hr.dist0 hr.dist hr.distFloat hr.sensible w1 w2 (hcov d t b hd (inRa_self ht.1 ht.2) hb)
  rw [← hp] at hq
  have e : (cutskyToBox dr rr dcr).2 = cutskyIsometry dr rr dcr := rfl
  rw [e, iso_sub] at hq
  obtain ⟨k1, k2, k3⟩ := abs_le_norm (x - c - p)
  simp only [V3.sub_x, V3.sub_y, V3.sub_z] at k1 k2 k3
  have hκ0 : 0 ≤ κ := (abs_nonneg _).trans (ha.cos 0)
  have hT := tiny_pos (F := binary64)
  have hd0 : 0 ≤ dr.2 := hr.dist0.trans hr.dist
  have hκT := mul_nonneg hκ0 hT.le
  have f : ∀ {a b B : ℝ}, |a - b| ≤ (x - c - p).norm → |b| ≤ B / 2 + 15 / 10 ^ 15 * (dr.2 + binary64.tiny) → |a| ≤ B / 2 + reach κ E dr.2 := by
    intro a b B h1 h2
    have h3 := abs_sub_abs_le_abs_sub a b
    unfold reach
    linarith
  exact ⟨f k1 g1, f k2 g2, f k3 g3⟩

theorem out_row {lib : Libm} {ρ : Type} {dr rr dcr : Range} {rows : List (V3 ℝ × ρ)} {c : V3 ℝ} {draws : List (ℝ × ℝ)} {out : List (Sky × V3 ℝ × ρ)}
    (h : OutputF lib dr rr dcr rows c draws out) {r : Sky × V3 ℝ × ρ} (hr : r ∈ out) :
    ∃ row ∈ rows, row.2 = r.2.2 ∧ ∃ d ∈ draws, ∃ s, PlacedF lib dr rr dcr c s ∧ TransformF binary64 s row.1 false r.2.1 ∧
      selectedF lib true true dr rr dcr d.1 d.2 r.2.1 = true := by
  obtain ⟨s, moved, hs, hm, rfl⟩ := h
  unfold cutskyRowsF at hr
  obtain ⟨p, hp, rfl⟩ := List.mem_map.1 hr
  obtain ⟨hz, hsel⟩ := List.mem_filter.1 hp
  have h1 : p.1 ∈ moved := (List.of_mem_zip (a := p.1) (b := p.2) hz).1
  have h2 : p.2 ∈ draws := (List.of_mem_zip (a := p.1) (b := p.2) hz).2
  obtain ⟨i, hi, e⟩ := List.mem_iff_getElem.1 h1
  have hi' : i < rows.length := by rw [hm.length_eq]; exact hi
  have hf := (List.forall₂_iff_get.1 hm).2 i hi' hi
  simp only [List.get_eq_getElem] at hf
  rw [e] at hf
  exact ⟨rows[i], List.getElem_mem _, hf.2.symm, p.2, h2, s, hs, hf.1, hsel⟩

/-- C141: each row of a catalog comes from a row of the box, with the same columns. Its position on the sky is that of a point in the distance, RA and Dec
ranges, up to 4 10⁻¹⁴ of the largest distance, and so is the position where exact arithmetic moves the row, up to this and the error `E`. -/
theorem C141_survey {lib : Libm} {κ : ℝ} (hl : Fine lib) (ha : Accurate lib κ) (hκ : κ ≤ 1 / 1000) {dr rr dcr : Range} (hr : Ranges dr rr dcr)
    {ρ : Type} {rows : List (V3 ℝ × ρ)} {c : V3 ℝ} {draws : List (ℝ × ℝ)} {out : List (Sky × V3 ℝ × ρ)}
    (h : OutputF lib dr rr dcr rows c draws out) {E : ℝ} (hc : ∀ row ∈ rows, Clear lib dr rr dcr E c row.1) (hd : ∀ d ∈ draws, 0 < d.1 ∧ 0 < d.2) :
    ∀ r ∈ out, ∃ row ∈ rows, row.2 = r.2.2 ∧ ∃ d t b, InRange dr d ∧ InRange rr t ∧ InRange dcr b ∧
      (r.2.1 - skyPoint d t b).norm ≤ (10 * κ + 4 / 10 ^ 14) * dr.2 ∧
      ((cutskyToBox dr rr dcr).2.transform (row.1 - c) false - skyPoint d t b).norm ≤ E + (10 * κ + 4 / 10 ^ 14) * dr.2 := by
  intro r hm
  obtain ⟨row, hrow, hid, d, hdm, s, hs, hy, hsel⟩ := out_row h hm
  have hx := hc row hrow
  have w1 : |dcr.1| ≤ 90 := hr.dec1.trans (by norm_num)
  have w2 : |dcr.2| ≤ 90 := hr.dec2.trans (by norm_num)
  have h := (C140_isometry hl hr.dist0 hr.dist hr.distFloat hr.sensible w1 w2 hs hy).trans hx.error
  obtain ⟨d, t, b, q1, q2, q3, hk⟩ := kept_near ha hκ hr (hx.normal s _ hs hy) (hd d hdm).1 (hd d hdm).2 hsel
  rw [Verif.Lemmas.RoundedIsometry.norm_sub_comm] at h
  exact ⟨row, hrow, hid, d, t, b, q1, q2, q3, hk, (tri _ r.2.1 _).trans (add_le_add h hk)⟩

/-- C141: each row of a catalog comes from a row of the box, with the same columns, whose position is in the sub-box of this catalog, or outside by
`reach` at most. -/
theorem C141_inside {lib : Libm} {κ : ℝ} (hl : Fine lib) (ha : Accurate lib κ) (hκ : κ ≤ 1 / 1000) {dr rr dcr : Range} (hr : Ranges dr rr dcr)
    (hcov : CoversAll dr rr dcr) {ρ : Type} {rows : List (V3 ℝ × ρ)} {c : V3 ℝ} {draws : List (ℝ × ℝ)} {out : List (Sky × V3 ℝ × ρ)}
    (h : OutputF lib dr rr dcr rows c draws out) {E : ℝ} (hc : ∀ row ∈ rows, Clear lib dr rr dcr E c row.1) (hd : ∀ d ∈ draws, 0 < d.1 ∧ 0 < d.2) :
    ∀ r ∈ out, ∃ row ∈ rows, row.2 = r.2.2 ∧ NearBox (cutskyBoxsizeF lib dr rr dcr) c (reach κ E dr.2) row.1 := by
  intro r hm
  obtain ⟨row, hrow, hid, d, hdm, s, hs, hy, hsel⟩ := out_row h hm
  exact ⟨row, hrow, hid, kept_in_box hl ha hκ hr hcov (hc row hrow) hs hy (hd d hdm).1 (hd d hdm).2 hsel⟩

theorem apart {b x y i r t : ℝ} (h : SegmentsApart i b x y) (hi : 2 * r < i) (h1 : |t - x| ≤ b / 2 + r) (h2 : |t - y| ≤ b / 2 + r) : False := by
  obtain ⟨a1, a2⟩ := abs_le.1 h1
  obtain ⟨a3, a4⟩ := abs_le.1 h2
  rcases h with h | h <;> linarith

theorem pairwise_forall₂ {α β : Type} {R : α → β → Prop} {P : α → α → Prop} {Q : β → β → Prop} {l : List α} {m : List β} (h : List.Forall₂ R l m)
    (hp : l.Pairwise P) (hq : ∀ a a' b b', a ∈ l → a' ∈ l → R a b → R a' b' → P a a' → Q b b') : m.Pairwise Q := by
  induction h with
  | nil => exact .nil
  | @cons a b l m hab hlm ih =>
    obtain ⟨p1, p2⟩ := List.pairwise_cons.1 hp
    refine List.pairwise_cons.2 ⟨fun b' hb' => ?_, ih p2 fun a a' b b' h1 h2 => hq a a' b b' (List.mem_cons_of_mem _ h1) (List.mem_cons_of_mem _ h2)⟩
    obtain ⟨i, hi, e⟩ := List.mem_iff_getElem.1 hb'
    have hi' : i < l.length := by rw [hlm.length_eq]; exact hi
    have hf := (List.forall₂_iff_get.1 hlm).2 i hi' hi
    simp only [List.get_eq_getElem] at hf
    rw [e] at hf
    exact hq a l[i] b b' List.mem_cons_self (List.mem_cons_of_mem _ (List.getElem_mem _)) hab hf (p1 _ (List.getElem_mem _))

theorem zip_pairwise {α β : Type} {P : α → α → Prop} {l : List α} (h : l.Pairwise P) (m : List β) : (l.zip m).Pairwise fun p q => P p.1 q.1 := by
  induction l generalizing m with
  | nil => exact .nil
  | cons a l ih =>
    cases m with
    | nil => exact .nil
    | cons b m =>
      obtain ⟨p1, p2⟩ := List.pairwise_cons.1 h
      exact List.pairwise_cons.2 ⟨fun q hq => p1 _ (List.of_mem_zip (a := q.1) (b := q.2) hq).1, ih p2 m⟩

/-- C141: the catalogs of one call of `cutsky`, for a survey that its box covers. If the internal margins are larger than twice `reach`, and than the errors
of the centres of sub-boxes, no object is in two of the catalogs. There are as many catalogs as asked for. -/
theorem C141_disjoint {lib : Libm} {κ : ℝ} (hl : Fine lib) (ha : Accurate lib κ) (hκ : κ ≤ 1 / 1000) {dr rr dcr : Range} (hr : Ranges dr rr dcr)
    (hcov : CoversAll dr rr dcr) {ρ : Type} {B c : V3 ℝ} {external internal : Margin} {noutput : Option ℤ} {rows : List (V3 ℝ × ρ)} {centers : List (V3 ℝ)}
    {draws : List (List (ℝ × ℝ))} {outs : List (List (Sky × V3 ℝ × ρ))}
    (h : OutputsF lib dr rr dcr B c external internal noutput rows centers draws outs)
    (hB : binary64.IsFloat B.x ∧ binary64.IsFloat B.y ∧ binary64.IsFloat B.z) (hc : binary64.IsFloat c.x ∧ binary64.IsFloat c.y ∧ binary64.IsFloat c.z)
    (hem : ∀ m, Requested m external → binary64.IsFloat m) (him : ∀ m, Requested m internal → binary64.IsFloat m)
    (hs8 : 8 * binary64.tiny ≤ (cutskyBoxsizeF lib dr rr dcr).x ∧ 8 * binary64.tiny ≤ (cutskyBoxsizeF lib dr rr dcr).y ∧
      8 * binary64.tiny ≤ (cutskyBoxsizeF lib dr rr dcr).z)
    (hlen : ∀ cs, (axisLayoutF binary64 B.x (cutskyBoxsizeF lib dr rr dcr).x c.x external.toV3.x internal.toV3.x = .ok cs ∨
      axisLayoutF binary64 B.y (cutskyBoxsizeF lib dr rr dcr).y c.y external.toV3.y internal.toV3.y = .ok cs ∨
      axisLayoutF binary64 B.z (cutskyBoxsizeF lib dr rr dcr).z c.z external.toV3.z internal.toV3.z = .ok cs) → cs.length ≤ 2 ^ binary64.p)
    {E : ℝ} (hclear : ∀ row ∈ rows, ∀ p ∈ centers, Clear lib dr rr dcr E p row.1) (hd : ∀ l ∈ draws, ∀ d ∈ l, 0 < d.1 ∧ 0 < d.2)
    (hid : rows.Pairwise fun r r' => r.2 ≠ r'.2)
    (hm : 2 * reach κ E dr.2 + slack binary64 B.x c.x < (wanted internal external).x ∧ 2 * reach κ E dr.2 + slack binary64 B.y c.y < (wanted internal external).y ∧
      2 * reach κ E dr.2 + slack binary64 B.z c.z < (wanted internal external).z) :
    outs.Pairwise (fun o o' => ∀ r ∈ o, ∀ r' ∈ o', r.2.2 ≠ r'.2.2) ∧ ∀ n, noutput = some n → outs.length = n.toNat := by
  obtain ⟨h1, h2, h3⟩ := h
  have hsf : ∀ (cr cd sr sd : ℝ), binary64.IsFloat (surveySizeF binary64 dr cr cd sr sd).x ∧ binary64.IsFloat (surveySizeF binary64 dr cr cd sr sd).y ∧
      binary64.IsFloat (surveySizeF binary64 dr cr cd sr sd).z := fun _ _ _ _ => ⟨Fmt.rnd_isFloat _, Fmt.rnd_isFloat _, Fmt.rnd_isFloat _⟩
  obtain ⟨-, hap, hn⟩ := Verif.Props.RoundedLayout.C138_boxes (F := binary64) (by rw [u64]; norm_num) h1 hB (hsf _ _ _ _) hc hem him hs8 hlen
  refine ⟨pairwise_forall₂ h3 (zip_pairwise hap draws) ?_, fun n hno => ?_⟩
  · intro p p' o o' hp hp' ho ho' hpp r hro r' hro' heq
    obtain ⟨cp, cd⟩ := List.of_mem_zip (a := p.1) (b := p.2) hp
    obtain ⟨cp', cd'⟩ := List.of_mem_zip (a := p'.1) (b := p'.2) hp'
    obtain ⟨row, hrow, e1, n1, n2, n3⟩ := C141_inside hl ha hκ hr hcov ho (fun row hrow => hclear row hrow _ cp) (hd _ cd) r hro
    obtain ⟨row', hrow', e2, m1, m2, m3⟩ := C141_inside hl ha hκ hr hcov ho' (fun row hrow => hclear row hrow _ cp') (hd _ cd') r' hro'
    have hsame : row = row' := by
      by_contra hne
      have : Std.Symm fun r r' : V3 ℝ × ρ => r.2 ≠ r'.2 := ⟨fun _ _ h => h.symm⟩
      exact hid.forall hrow hrow' hne (by rw [e1, e2, heq])
    subst hsame
    rcases hpp with hpp | hpp | hpp
    · exact apart hpp (by linarith [hm.1]) n1 m1
    · exact apart hpp (by linarith [hm.2.1]) n2 m2
    · exact apart hpp (by linarith [hm.2.2]) n3 m3
  · rw [← h3.length_eq, List.length_zip, h2, min_self]
    exact hn n hno

/-! ### Catalogs exist -/

theorem dot_total (a b : V3 ℝ) : ∃ r, DotF binary64 a b r := ⟨_, _, .refl _, .mul (.mul (.mul .nil))⟩

theorem mulVec_total (m : M3 ℝ) (v : V3 ℝ) : ∃ w, MulVecF binary64 m v w := by
  obtain ⟨x, hx⟩ := dot_total (row0 m) v
  obtain ⟨y, hy⟩ := dot_total (row1 m) v
  obtain ⟨z, hz⟩ := dot_total (row2 m) v
  exact ⟨⟨x, y, z⟩, hx, hy, hz⟩

theorem mul_total (a b : M3 ℝ) : ∃ c, MulF binary64 a b c := by
  obtain ⟨x, hx⟩ := mulVec_total a (row0 b.tr)
  obtain ⟨y, hy⟩ := mulVec_total a (row1 b.tr)
  obtain ⟨z, hz⟩ := mulVec_total a (row2 b.tr)
  exact ⟨⟨x.x, y.x, z.x, x.y, y.y, z.y, x.z, y.z, z.z⟩, hx, hy, hz⟩

theorem placed_total (lib : Libm) (dr rr dcr : Range) (c : V3 ℝ) : ∃ s, PlacedF lib dr rr dcr c s := by
  have step : ∀ (s : Isom) (m : M3 ℝ), ∃ s', StepF binary64 s (.dotOrigin m) s' := by
    intro s m
    obtain ⟨r, hr⟩ := mul_total m s.rot
    obtain ⟨t, ht⟩ := mulVec_total m s.trans
    exact ⟨_, .dotOrigin hr ht⟩
  unfold PlacedF cutskyOpsF
  obtain ⟨s1, h1⟩ := step ⟨Isom.init.rot, addF binary64 Isom.init.trans
    ⟨binary64.rnd (dr.2 - binary64.rnd ((cutskyBoxsizeF lib dr rr dcr).x / 2)), 0, 0⟩⟩
    (turnF lib ⟨0, 1, 0⟩ (binary64.rnd (-binary64.rnd (dcr.1 + dcr.2) / 2)))
  obtain ⟨s2, h2⟩ := step s1 (turnF lib ⟨0, 0, 1⟩ (binary64.rnd (binary64.rnd ((pointedRangeF rr).1 + (pointedRangeF rr).2) / 2)))
  obtain ⟨r, hr⟩ := mul_total s2.rot Isom.init.rot
  obtain ⟨t, ht⟩ := mulVec_total s2.rot (addF binary64 Isom.init.trans (-c))
  exact ⟨⟨r, addF binary64 t s2.trans⟩, _, s2, .cons .translationOrigin .nil, .cons .translationOrigin (.cons h1 (.cons h2 .nil)), t, hr, ht, rfl⟩

theorem transform_total (s : Isom) (x : V3 ℝ) : ∃ y, TransformF binary64 s x false y := by
  obtain ⟨w, hw⟩ := mulVec_total s.rot x
  exact ⟨_, w, hw, rfl⟩

theorem output_total (lib : Libm) {ρ : Type} (dr rr dcr : Range) (rows : List (V3 ℝ × ρ)) (c : V3 ℝ) (draws : List (ℝ × ℝ)) :
    ∃ out, OutputF lib dr rr dcr rows c draws out := by
  obtain ⟨s, hs⟩ := placed_total lib dr rr dcr c
  have : ∃ moved : List (V3 ℝ × ρ), List.Forall₂ (fun r m => TransformF binary64 s r.1 false m.1 ∧ m.2 = r.2) rows moved := by
    induction rows with
    | nil => exact ⟨[], .nil⟩
    | cons r rows ih =>
      obtain ⟨l, hl⟩ := ih
      obtain ⟨y, hy⟩ := transform_total s r.1
      exact ⟨(y, r.2) :: l, .cons ⟨hy, rfl⟩ hl⟩
  obtain ⟨moved, hm⟩ := this
  exact ⟨_, s, moved, hs, hm, rfl⟩

/-- C141: catalogs are returned for any rows once the centres of sub-boxes are. -/
theorem C141_returned (lib : Libm) {ρ : Type} {dr rr dcr : Range} {B c : V3 ℝ} {external internal : Margin} {noutput : Option ℤ} (rows : List (V3 ℝ × ρ))
    {centers : List (V3 ℝ)} (h : centresF binary64 B c (cutskyBoxsizeF lib dr rr dcr) external internal noutput = .ok centers)
    {draws : List (List (ℝ × ℝ))} (hd : draws.length = centers.length) :
    ∃ outs, OutputsF lib dr rr dcr B c external internal noutput rows centers draws outs := by
  have : ∀ l : List (V3 ℝ × List (ℝ × ℝ)), ∃ outs : List (List (Sky × V3 ℝ × ρ)),
      List.Forall₂ (fun p out => OutputF lib dr rr dcr rows p.1 p.2 out) l outs := by
    intro l
    induction l with
    | nil => exact ⟨[], .nil⟩
    | cons p l ih =>
      obtain ⟨outs, ho⟩ := ih
      obtain ⟨o, hp⟩ := output_total lib dr rr dcr rows p.1 p.2
      exact ⟨o :: outs, .cons hp ho⟩
  obtain ⟨outs, ho⟩ := this (centers.zip draws)
  exact ⟨outs, h, hd, ho⟩

/-- Rows that exact arithmetic moves away from the planes of coordinates meet the conditions of the theorems. -/
theorem clear_of {lib : Libm} (hl : Fine lib) {dr rr dcr : Range} (hr : Ranges dr rr dcr) {E : ℝ} {c x q : V3 ℝ}
    (hE : 4 / 10 ^ 12 * (x.norm + c.norm + dr.2 + 50 * binary64.tiny) ≤ E) (hq : (cutskyToBox dr rr dcr).2.transform (x - c) false = q)
    (h1 : 1 + E ≤ |q.x|) (h2 : 1 + E ≤ |q.y|) (h3 : 1 + E ≤ |q.z|) : Clear lib dr rr dcr E c x := by
  refine ⟨hE, fun s y hs hy => ?_⟩
  have h := (C140_isometry hl hr.dist0 hr.dist hr.distFloat hr.sensible (hr.dec1.trans (by norm_num)) (hr.dec2.trans (by norm_num)) hs hy).trans hE
  rw [show (cutskyIsometry dr rr dcr).transform (x - c) false = q from hq] at h
  obtain ⟨k1, k2, k3⟩ := abs_le_norm (y - q)
  simp only [V3.sub_x, V3.sub_y, V3.sub_z] at k1 k2 k3
  have ht := tiny_le_one
  have f : ∀ {a b : ℝ}, 1 + E ≤ |b| → |a - b| ≤ (y - q).norm → binary64.tiny ≤ a ^ 2 := by
    intro a b hb hab
    have h4 := abs_sub_abs_le_abs_sub b a
    rw [abs_sub_comm b a] at h4
    have h5 : 1 ≤ |a| := by linarith
    have h6 : 1 ≤ |a| ^ 2 := one_le_pow₀ h5
    rw [sq_abs] at h6
    linarith
  obtain ⟨w, -, hw⟩ := hy
  rw [if_neg (by simp)] at hw
  refine ⟨⟨?_, .inl (f h1 k1)⟩, ⟨?_, .inl (f h2 k2)⟩, ⟨?_, .inl (f h3 k3)⟩⟩ <;> rw [hw] <;> exact Fmt.rnd_isFloat _

/-! ### A survey -/

theorem nat_isFloat (n : ℕ) (h : n ≤ 2 ^ 53) : binary64.IsFloat n := nat_float n h

theorem survey_ranges : Ranges (0, 1000) (10, 70) (-30, 30) := by
  refine ⟨le_rfl, by norm_num, ?_, by norm_num, by norm_num, by norm_num, ?_, ?_, by norm_num, by norm_num [abs_of_neg], by norm_num [abs_of_pos]⟩
  · simpa using nat_isFloat 1000 (by norm_num)
  · simpa using nat_isFloat 10 (by norm_num)
  · simpa using nat_isFloat 70 (by norm_num)

theorem survey_width : raWidth (10, 70) = 60 := by norm_num [raWidth]

theorem survey_covers : CoversAll (0, 1000) (10, 70) (-30, 30) :=
  C21_equator_partial rfl (by rw [survey_width]; norm_num) (by rw [survey_width]; norm_num) rfl (by norm_num) (by norm_num)

theorem survey_size {lib : Libm} (hl : Fine lib) : |(cutskyBoxsizeF lib (0, 1000) (10, 70) (-30, 30)).x - 1000| ≤ 1 / 10 ^ 9 ∧
    |(cutskyBoxsizeF lib (0, 1000) (10, 70) (-30, 30)).y - 1000| ≤ 1 / 10 ^ 9 ∧ |(cutskyBoxsizeF lib (0, 1000) (10, 70) (-30, 30)).z - 1000| ≤ 1 / 10 ^ 9 := by
  have hr := survey_ranges
  obtain ⟨h1, h2, h3⟩ := C140_boxsize hl hr.dist0 hr.dist hr.distFloat hr.sensible (hr.dec1.trans (by norm_num)) (hr.dec2.trans (by norm_num))
  have hs : Real.sin (rad 30) = 1 / 2 := by
    have e : rad 30 = Real.pi / 6 := by unfold rad; ring
    rw [e, Real.sin_pi_div_six]
  rw [cutskyBoxsize_eq (by rw [survey_width]; norm_num) (by rw [survey_width]; norm_num) (by norm_num), survey_width] at h1 h2 h3
  norm_num [hs] at h1 h2 h3
  have ht := tiny_le_one
  have ht0 := tiny_pos (F := binary64)
  refine ⟨h1.trans ?_, h2.trans ?_, h3.trans ?_⟩ <;> norm_num <;> linarith

theorem survey_axis {b : ℝ} (hf : binary64.IsFloat b) (h : |b - 1000| ≤ 1 / 10 ^ 9) :
    ∃ cs, axisLayoutF binary64 2500 b 0 (some 100) (some 100) = .ok cs ∧ cs.length = 2 := by
  obtain ⟨h1, h2⟩ := abs_le.1 h
  have f1 : binary64.IsFloat 100 := by simpa using nat_isFloat 100 (by norm_num)
  have f2 : binary64.IsFloat 2500 := by simpa using nat_isFloat 2500 (by norm_num)
  refine Verif.Props.RoundedLayout.C138_exactly (by rw [u64]; norm_num) f2 hf f1 f1 (by norm_num at h1; linarith) (by norm_num) (by norm_num) (by norm_num [binary64])
    (.inl (by norm_num)) ⟨by norm_num, ?_⟩ ?_
  · rw [u64]
    norm_num at h1 h2 ⊢
    linarith
  · rw [u64]
    norm_num at h1 h2 ⊢
    linarith

/-- Non-vacuity of C141: distances up to 1000, RA from 10 to 70 and Dec from -30 to 30, cut from a box of size 2500 with margins of 100. Eight sub-boxes are
found, and the eight catalogs of any set of objects whose errors are at most 10⁻⁶, with distinct identifiers, have none in common. -/
example : (∃ centers, centresF binary64 ⟨2500, 2500, 2500⟩ 0 (cutskyBoxsizeF Verif.Props.RoundedSky.exactLib (0, 1000) (10, 70) (-30, 30))
      (.all (some 100)) (.all (some 100)) none = .ok centers ∧ centers.length = 8) ∧
    ∀ (rows : List (V3 ℝ × ℕ)) centers draws outs,
      OutputsF Verif.Props.RoundedSky.exactLib (0, 1000) (10, 70) (-30, 30) ⟨2500, 2500, 2500⟩ 0 (.all (some 100)) (.all (some 100)) none rows centers draws outs →
      (∀ row ∈ rows, ∀ p ∈ centers, Clear Verif.Props.RoundedSky.exactLib (0, 1000) (10, 70) (-30, 30) (1 / 10 ^ 6) p row.1) →
      (∀ l ∈ draws, ∀ d ∈ l, 0 < d.1 ∧ 0 < d.2) → (rows.Pairwise fun r r' => r.2 ≠ r'.2) →
      outs.Pairwise fun o o' => ∀ r ∈ o, ∀ r' ∈ o', r.2.2 ≠ r'.2.2 := by
  obtain ⟨s1, s2, s3⟩ := survey_size exactLib_fine
  have hx : binary64.IsFloat (cutskyBoxsizeF Verif.Props.RoundedSky.exactLib (0, 1000) (10, 70) (-30, 30)).x := Fmt.rnd_isFloat _
  have hy : binary64.IsFloat (cutskyBoxsizeF Verif.Props.RoundedSky.exactLib (0, 1000) (10, 70) (-30, 30)).y := Fmt.rnd_isFloat _
  have hz : binary64.IsFloat (cutskyBoxsizeF Verif.Props.RoundedSky.exactLib (0, 1000) (10, 70) (-30, 30)).z := Fmt.rnd_isFloat _
  obtain ⟨xs, ex, lx⟩ := survey_axis hx s1
  obtain ⟨ys, ey, ly⟩ := survey_axis hy s2
  obtain ⟨zs, ez, lz⟩ := survey_axis hz s3
  have f0 : binary64.IsFloat 0 := by simpa using nat_isFloat 0 (by norm_num)
  have f1 : binary64.IsFloat 100 := by simpa using nat_isFloat 100 (by norm_num)
  have f2 : binary64.IsFloat 2500 := by simpa using nat_isFloat 2500 (by norm_num)
  have ht := tiny_le_one
  have ht0 := tiny_pos (F := binary64)
  refine ⟨⟨product3 xs ys zs, ?_, ?_⟩, fun rows centers draws outs h hclear hd hid => ?_⟩
  · unfold centresF
    simp only [Margin.toV3]
    have e0 : (0 : V3 ℝ).x = 0 ∧ (0 : V3 ℝ).y = 0 ∧ (0 : V3 ℝ).z = 0 := ⟨rfl, rfl, rfl⟩
    rw [e0.1, e0.2.1, e0.2.2, ex, ey, ez]
    rfl
  · simp [product3, lx, ly, lz]
  · refine (C141_disjoint exactLib_fine Verif.Props.RoundedSky.exactLib_accurate (by norm_num) survey_ranges survey_covers h ⟨f2, f2, f2⟩ ⟨f0, f0, f0⟩
      ?_ ?_ ?_ ?_ hclear hd hid ?_).1
    · intro m hm
      simp only [Requested, Option.some.injEq] at hm
      rw [← hm]
      exact f1
    · intro m hm
      simp only [Requested, Option.some.injEq] at hm
      rw [← hm]
      exact f1
    · have g1 := (abs_le.1 s1).1
      have g2 := (abs_le.1 s2).1
      have g3 := (abs_le.1 s3).1
      norm_num at g1 g2 g3
      refine ⟨?_, ?_, ?_⟩ <;> linarith
    · intro cs hcs
      simp only [Margin.toV3] at hcs
      have e0 : (0 : V3 ℝ).x = 0 ∧ (0 : V3 ℝ).y = 0 ∧ (0 : V3 ℝ).z = 0 := ⟨rfl, rfl, rfl⟩
      rw [e0.1, e0.2.1, e0.2.2, ex, ey, ez] at hcs
      have : cs.length = 2 := by
        rcases hcs with hcs | hcs | hcs <;> cases hcs <;> assumption
      rw [this]
      norm_num [binary64]
    · have e0 : (0 : V3 ℝ).x = 0 ∧ (0 : V3 ℝ).y = 0 ∧ (0 : V3 ℝ).z = 0 := ⟨rfl, rfl, rfl⟩
      simp only [e0, wanted, Verif.Props.RoundedLayout.asked, reach, slack, Option.getD_some, abs_zero]
      rw [u64]
      norm_num
      linarith

theorem sin_10 : 1 / 10 ≤ Real.sin (rad 10) ∧ Real.sin (rad 10) ≤ 2 / 10 ∧ 9 / 10 ≤ Real.cos (rad 10) := by
  have hpi := Real.pi_pos
  have h1 := Real.pi_lt_d2
  have e : rad 10 = Real.pi / 18 := by unfold rad; ring
  rw [e]
  refine ⟨?_, ?_, ?_⟩
  · have h2 := Real.mul_le_sin (x := Real.pi / 18) (by positivity) (by linarith)
    have e3 : 2 / Real.pi * (Real.pi / 18) = 1 / 9 := by field_simp; norm_num
    linarith
  · have := Real.sin_le (x := Real.pi / 18) (by positivity)
    linarith
  · have := Real.one_sub_sq_div_two_le_cos (x := Real.pi / 18)
    nlinarith

/-- Non-vacuity of `C141_survey` and `C141_inside`: in the same survey, for any sub-box with a centre not too far away, there is a position at which an object
meets the conditions and is in the catalog. -/
example (c : V3 ℝ) (hc : c.norm ≤ 5000) : ∃ x out, Clear Verif.Props.RoundedSky.exactLib (0, 1000) (10, 70) (-30, 30) (1 / 10 ^ 6) c x ∧
    OutputF Verif.Props.RoundedSky.exactLib (0, 1000) (10, 70) (-30, 30) [(x, 7)] c [(1 / 2, 1 / 2)] out ∧ ∃ sky y, out = [(sky, y, 7)] := by
  have hr := survey_ranges
  obtain ⟨s1, s2, s3⟩ := sin_10
  have hw := survey_width
  obtain ⟨p', hp', hpp⟩ : ∃ p', (cutskyToBox (0, 1000) (10, 70) (-30, 30)).2.transform p' false = skyPoint 500 30 10 ∧ p'.norm ≤ 10000 := by
    obtain ⟨p', hb, hp'⟩ := survey_covers 500 30 10 ⟨by norm_num, by norm_num⟩ (inRa_self (by norm_num) (by norm_num)) ⟨by norm_num, by norm_num⟩
    refine ⟨p', hp', le_of_sq (by norm_num) ?_⟩
    have hs : Real.sin (rad 30) = 1 / 2 := by
      have e : rad 30 = Real.pi / 6 := by unfold rad; ring
      rw [e, Real.sin_pi_div_six]
    have hb' : InCentredBox ⟨1000, 1000, 1000⟩ p' := by
      have : (cutskyToBox (0, 1000) (10, 70) (-30, 30)).1 = ⟨1000, 1000, 1000⟩ := by
        have h := cutskyBoxsize_eq (dr := (0, 1000)) (rr := (10, 70)) (dcr := (-30, 30)) (by rw [hw]; norm_num) (by rw [hw]; norm_num) (by norm_num)
        refine Eq.trans h ?_
        rw [hw]
        ext <;> norm_num [hs]
      rwa [this] at hb
    obtain ⟨⟨b1, b2⟩, ⟨b3, b4⟩, b5, b6⟩ := hb'
    simp only at b1 b2 b3 b4 b5 b6
    nlinarith
  have e1 : c + p' - c = p' := by ext <;> simp
  have hn : (c + p').norm ≤ 15000 := by
    have h := Verif.Lemmas.RoundedIsometry.norm_sub_le' (c + p') p'
    have e : c + p' - p' = c := by ext <;> simp
    rw [e] at h
    linarith
  have ht := tiny_le_one
  have ht0 := tiny_pos (F := binary64)
  have hE : 4 / 10 ^ 12 * ((c + p').norm + c.norm + ((0, 1000) : Range).2 + 50 * binary64.tiny) ≤ 1 / 10 ^ 6 := by
    norm_num
    linarith
  have hE0 : 0 ≤ 4 / 10 ^ 12 * ((c + p').norm + c.norm + ((0, 1000) : Range).2 + 50 * binary64.tiny) := by
    have := V3.norm_nonneg (c + p')
    have := V3.norm_nonneg c
    positivity
  have e30 : rad 30 = Real.pi / 6 := by unfold rad; ring
  have hs30 : Real.sin (rad 30) = 1 / 2 := by rw [e30, Real.sin_pi_div_six]
  have hc30 : 1 / 2 ≤ Real.cos (rad 30) := by
    rw [e30, Real.cos_pi_div_six]
    have : (1 : ℝ) ≤ √3 := Real.one_le_sqrt.2 (by norm_num)
    linarith
  have g1 : 9 / 20 ≤ Real.cos (rad 10) * Real.cos (rad 30) := by nlinarith
  have hclear : Clear Verif.Props.RoundedSky.exactLib (0, 1000) (10, 70) (-30, 30) (1 / 10 ^ 6) c (c + p') := by
    refine clear_of (q := skyPoint 500 30 10) exactLib_fine hr hE (by rw [e1]; exact hp') ?_ ?_ ?_
    · refine le_trans ?_ (le_abs_self _)
      simp only [skyPoint]
      norm_num
      linarith
    · refine le_trans ?_ (le_abs_self _)
      simp only [skyPoint, hs30]
      norm_num
      linarith
    · refine le_trans ?_ (le_abs_self _)
      simp only [skyPoint]
      norm_num
      linarith
  obtain ⟨s, hs⟩ := placed_total Verif.Props.RoundedSky.exactLib (0, 1000) (10, 70) (-30, 30) c
  obtain ⟨y, hy⟩ := transform_total s (c + p')
  obtain ⟨n1, n2, n3⟩ := hclear.normal s y hs hy
  set e := 4 / 10 ^ 12 * ((c + p').norm + c.norm + ((0, 1000) : Range).2 + 50 * binary64.tiny) with he
  have hu : binary64.u ≤ 1 / 10 ^ 15 := by rw [u64]; norm_num
  have hu0 := Fmt.u_pos (F := binary64)
  have hue := mul_le_mul hu hE hE0 (by norm_num)
  have hd : RoundedCutsky.distErr e 500 ≤ 1 := by
    unfold RoundedCutsky.distErr
    norm_num at hu hE hue ⊢
    linarith
  have hra : raErr (1 / 2 ^ 51) e (500 * Real.cos (rad 10)) ≤ 1 := by
    unfold raErr
    have h1 : 90 * (e / (500 * Real.cos (rad 10))) ≤ 1 / 2 := by
      rw [mul_div_assoc', div_le_iff₀ (by positivity)]
      norm_num at hE ⊢
      linarith
    have h2 : (34 * binary64.u + 1 / 2 ^ 51) * (180 / Real.pi) ≤ (34 / 10 ^ 15 + 1 / 2 ^ 51) * 60 := by
      refine mul_le_mul (by linarith) ?_ (by positivity) (by norm_num)
      rw [div_le_iff₀ Real.pi_pos]
      have := Real.pi_gt_three
      linarith
    norm_num at h2
    linarith
  have hdec : decErr (1 / 2 ^ 51) e 500 ≤ 1 / 10 := by
    unfold decErr
    norm_num at hu hE ⊢
    linarith
  have hsel := (C140_survey (radial := true) (angular := true) (u := 1 / 2) (v := 1 / 2) exactLib_fine Verif.Props.RoundedSky.exactLib_accurate hr.dist0 hr.dist
    hr.distFloat hr.sensible (hr.dec1.trans (by norm_num)) (hr.dec2.trans (by norm_num)) (by norm_num : (0 : ℝ) ≤ 500) hp' hs hy n1 n2 n3 he
    (by norm_num at hE ⊢; linarith) ⟨by norm_num, by norm_num⟩ ⟨by norm_num, by norm_num⟩).2.1
  have hin := hsel ⟨fun _ => ⟨by simp only; linarith, by simp only; linarith⟩, fun _ => ⟨hr.raFloat1, hr.raFloat2, hr.ra0, hr.ra1, by simp only; linarith,
    by simp only; linarith, hr.dec1.trans (by norm_num), hr.dec2.trans (by norm_num), by
      simp only
      have : rad (-30) = -rad 30 := by unfold rad; ring
      rw [this, Real.sin_neg, hs30]
      linarith, by
      simp only
      rw [hs30]
      linarith⟩⟩
  refine ⟨c + p', _, hclear, ⟨s, [(y, 7)], hs, .cons ⟨hy, rfl⟩ .nil, rfl⟩, skyF Verif.Props.RoundedSky.exactLib y, y, ?_⟩
  simp only [cutskyRowsF, List.zip_cons_cons, List.zip_nil_right]
  rw [List.filter_cons_of_pos (by exact hin)]
  rfl

end Verif.Props.RoundedOutputs
