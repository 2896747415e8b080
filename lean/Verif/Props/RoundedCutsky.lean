import Verif.Model.RoundedCutsky
import Verif.Props.RoundedMask
import Verif.Props.RoundedSky
import Verif.Props.RoundedIsometry
import Verif.Spec.Cutsky
import Mathlib.Analysis.SpecialFunctions.Trigonometric.Bounds

/-!
# C139: selection of cut-sky catalogs with rounding errors
-/

namespace Verif.Props.RoundedCutsky

open Verif Verif.Model Verif.Model.Rounded Verif.Model.RoundedMask Verif.Model.RoundedSky Verif.Model.RoundedCutsky Verif.Spec
open Verif.Props.RoundedSky (Accurate u64)
open Verif.Props.Rounded (Regular conv64 twoPi64)
open Verif.Model.RoundedRemap (fl_pos)
open Verif.Lemmas.RoundedIsometry (norm_sub_le' norm_sub_comm)

/-! ### Directions of points close to each other -/

theorem arg_near_one {t : ℂ} {r : ℝ} (h : ‖t‖ ≤ r) (hr : r < 1) : |Complex.arg (1 + t)| ≤ Real.pi / 2 * r := by
  have hr0 : 0 ≤ r := (norm_nonneg t).trans h
  have hre : -r ≤ t.re := (abs_le.1 ((Complex.abs_re_le_norm t).trans h)).1
  have hpos : 0 < (1 + t).re := by rw [Complex.add_re, Complex.one_re]; linarith
  have hne : (1 + t) ≠ 0 := by
    intro h0
    rw [h0, Complex.zero_re] at hpos
    exact lt_irrefl _ hpos
  have hlt : |Complex.arg (1 + t)| < Real.pi / 2 := by
    rw [Complex.abs_arg_lt_pi_div_two_iff]
    exact Or.inl hpos
  have hn : 0 < ‖1 + t‖ := norm_pos_iff.2 hne
  have hsq : t.re ^ 2 + t.im ^ 2 ≤ r ^ 2 := by
    have h1 : ‖t‖ ^ 2 ≤ r ^ 2 := pow_le_pow_left₀ (norm_nonneg t) h 2
    rw [Complex.sq_norm, Complex.normSq_apply] at h1
    linarith
  have him : |(1 + t).im| ≤ r * ‖1 + t‖ := by
    refine abs_le_of_sq_le_sq ?_ (mul_nonneg hr0 hn.le)
    rw [mul_pow, Complex.sq_norm, Complex.normSq_apply, Complex.add_im, Complex.add_re, Complex.one_im, Complex.one_re, zero_add]
    have hr2 : 0 ≤ 1 - r ^ 2 := by nlinarith
    nlinarith [sq_nonneg (r ^ 2 + t.re), mul_le_mul_of_nonneg_right hsq hr2]
  have hsin : |Real.sin (Complex.arg (1 + t))| ≤ r := by
    rw [Complex.sin_arg, abs_div, abs_of_pos hn, div_le_iff₀ hn]
    exact him
  have hj := Real.mul_le_sin (abs_nonneg (Complex.arg (1 + t))) hlt.le
  have hs : Real.sin |Complex.arg (1 + t)| = |Real.sin (Complex.arg (1 + t))| := by
    rcases le_total 0 (Complex.arg (1 + t)) with h0 | h0
    · rw [abs_of_nonneg h0, abs_of_nonneg (Real.sin_nonneg_of_nonneg_of_le_pi h0 (Complex.arg_le_pi _))]
    · rw [abs_of_nonpos h0, Real.sin_neg, abs_of_nonpos (Real.sin_nonpos_of_nonpos_of_neg_pi_le h0 (Complex.neg_pi_lt_arg _).le)]
  rw [hs] at hj
  have hpi := Real.pi_pos
  have := hj.trans hsin
  rw [div_mul_eq_mul_div, div_le_iff₀ hpi] at this
  linarith

/-- A point of the plane within `e` of the one at distance `ρ` and angle `A` is seen at the angle `A`, up to `π / 2 e / ρ`. -/
theorem arg_near {ρ A e x y : ℝ} (hρ : e < ρ) (h : (x - ρ * Real.cos A) ^ 2 + (y - ρ * Real.sin A) ^ 2 ≤ e ^ 2) (he : 0 ≤ e) :
    ∃ m : ℤ, |Complex.arg ⟨x, y⟩ - (A + m * (2 * Real.pi))| ≤ Real.pi / 2 * (e / ρ) := by
  have hρ0 : 0 < ρ := he.trans_lt hρ
  set z : ℂ := ρ * (Real.cos A + Real.sin A * Complex.I) with hz
  have hzre : z.re = ρ * Real.cos A := by simp [hz, -Complex.ofReal_cos, -Complex.ofReal_sin]
  have hzim : z.im = ρ * Real.sin A := by simp [hz, -Complex.ofReal_cos, -Complex.ofReal_sin]
  have hzn : ‖z‖ = ρ := by
    rw [← Real.sqrt_sq (norm_nonneg z), Complex.sq_norm, Complex.normSq_apply, hzre, hzim]
    have : ρ * Real.cos A * (ρ * Real.cos A) + ρ * Real.sin A * (ρ * Real.sin A) = ρ ^ 2 := by
      have := Real.sin_sq_add_cos_sq A
      have e1 : ρ * Real.cos A * (ρ * Real.cos A) + ρ * Real.sin A * (ρ * Real.sin A) = ρ ^ 2 * (Real.sin A ^ 2 + Real.cos A ^ 2) := by ring
      rw [e1, this, mul_one]
    rw [this, Real.sqrt_sq hρ0.le]
  have hz0 : z ≠ 0 := by
    intro h0
    rw [h0, norm_zero] at hzn
    linarith
  set w : ℂ := ⟨x, y⟩ with hw
  have hwz : ‖w - z‖ ≤ e := by
    refine (sq_le_sq₀ (norm_nonneg _) he).1 ?_
    rw [Complex.sq_norm, Complex.normSq_apply, Complex.sub_re, Complex.sub_im, hzre, hzim]
    simp only [hw]
    linarith
  have ht : ‖(w - z) / z‖ ≤ e / ρ := by
    rw [norm_div, hzn]
    exact div_le_div_of_nonneg_right hwz hρ0.le
  have h1 := arg_near_one ht ((div_lt_one hρ0).2 hρ)
  have hw' : w = z * (1 + (w - z) / z) := by field_simp; ring
  have hne : 1 + (w - z) / z ≠ 0 := by
    intro h0
    have h2 : ‖(w - z) / z‖ = 1 := by
      rw [show (w - z) / z = -1 by linear_combination h0, norm_neg, norm_one]
    rw [h2, le_div_iff₀ hρ0] at ht
    linarith
  have ha : ((Complex.arg w : ℝ) : Real.Angle) = ((A + Complex.arg (1 + (w - z) / z) : ℝ) : Real.Angle) := by
    conv_lhs => rw [hw']
    rw [Complex.arg_mul_coe_angle hz0 hne, Real.Angle.coe_add]
    congr 1
    rw [hz]
    exact_mod_cast Complex.arg_mul_cos_add_sin_mul_I_coe_angle hρ0 (A : Real.Angle)
  rw [Real.Angle.angle_eq_iff_two_pi_dvd_sub] at ha
  obtain ⟨k, hk⟩ := ha
  refine ⟨k, ?_⟩
  have : Complex.arg w - (A + k * (2 * Real.pi)) = Complex.arg (1 + (w - z) / z) := by linarith
  rw [this]
  exact h1

theorem sq_parts (v : V3 ℝ) : v.norm ^ 2 = v.x ^ 2 + v.y ^ 2 + v.z ^ 2 := by
  unfold V3.norm
  rw [Real.sq_sqrt (by positivity)]

theorem skyPoint_norm {R : ℝ} (hR : 0 ≤ R) (a b : ℝ) : (skyPoint R a b).norm = R := by
  have h : (skyPoint R a b).norm ^ 2 = R ^ 2 := by
    rw [sq_parts]
    simp only [skyPoint]
    have h1 := Real.sin_sq_add_cos_sq (rad a)
    have h2 := Real.sin_sq_add_cos_sq (rad b)
    linear_combination R ^ 2 * Real.cos (rad b) ^ 2 * h1 + R ^ 2 * h2
  exact (sq_eq_sq₀ (V3.norm_nonneg _) hR).1 h

theorem ratio_near {z Z N R e : ℝ} (hR : 0 < R) (hN : 0 < N) (hz : |z| ≤ N) (h1 : |z - Z| ≤ e) (h2 : |N - R| ≤ e) : |z / N - Z / R| ≤ 2 * e / R := by
  have e1 : z / N - Z / R = ((z - Z) + z / N * (R - N)) / R := by field_simp; ring
  rw [e1, abs_div, abs_of_pos hR]
  refine div_le_div_of_nonneg_right ((abs_add_le _ _).trans ?_) hR.le
  have h3 : |z / N| ≤ 1 := by rw [abs_div, abs_of_pos hN]; exact (div_le_one hN).2 hz
  rw [abs_mul, abs_sub_comm R N]
  have := mul_le_mul h3 h2 (abs_nonneg _) zero_le_one
  linarith

/-- Error of RA, in degrees, for a point at distance `ρ` of the axis of the poles, known up to `e`. -/
noncomputable def raErr (κ e ρ : ℝ) : ℝ := (34 * binary64.u + κ) * (180 / Real.pi) + 90 * (e / ρ)

/-- C139: columns of the cut-sky catalog. A row which is moved within `e` of the point at distance `R`, RA `a` and Dec `b`, gets this distance, this RA up
to whole turns, and the sine of this Dec, up to `e` and to a few rounding errors. -/
theorem C139_columns {lib : Libm} {κ : ℝ} (hl : Accurate lib κ) {R a b e : ℝ} {y : V3 ℝ} (hx : Regular binary64 y.x) (hy : Regular binary64 y.y)
    (hz : Regular binary64 y.z) (h : (y - skyPoint R a b).norm ≤ e) (hR : 0 ≤ R) (he : e < R * Real.cos (rad b)) :
    ∃ dist ra dec, skyF lib y = ⟨dist, ra, some dec⟩ ∧ |dist - R| ≤ e + 4 * binary64.u * (R + e) ∧
      (∃ m : ℤ, |ra - (a + m * 360)| ≤ raErr κ e (R * Real.cos (rad b))) ∧
      |Real.sin (rad dec) - Real.sin (rad b)| ≤ 10 * binary64.u + κ + 2 * e / R ∧
      0 ≤ ra ∧ ra ≤ 360 ∧ |dec| ≤ 90 ∧ binary64.IsFloat ra := by
  have hu := Fmt.u_pos (F := binary64)
  have he0 : 0 ≤ e := (V3.norm_nonneg _).trans h
  have hRe : e < R := he.trans_le (by have := mul_le_mul_of_nonneg_left (Real.cos_le_one (rad b)) hR; linarith)
  have hR0 : 0 < R := he0.trans_lt hRe
  have hn1 := norm_sub_le' y (skyPoint R a b)
  have hn2 := norm_sub_le' (skyPoint R a b) y
  rw [norm_sub_comm (skyPoint R a b) y] at hn2
  rw [skyPoint_norm hR] at hn1 hn2
  have hyn : 0 < y.norm := by linarith
  have h0 : y ≠ 0 := by
    rintro rfl
    have : (0 : V3 ℝ).norm ^ 2 = 0 := by rw [sq_parts]; simp
    have := pow_pos hyn 2
    linarith
  have hN : |y.norm - R| ≤ e := abs_le.2 ⟨by linarith, by linarith⟩
  have hsq : (y - skyPoint R a b).norm ^ 2 ≤ e ^ 2 := pow_le_pow_left₀ (V3.norm_nonneg _) h 2
  rw [sq_parts] at hsq
  simp only [V3.sub_x, V3.sub_y, V3.sub_z, skyPoint] at hsq
  have hxy : (y.x - R * Real.cos (rad b) * Real.cos (rad a)) ^ 2 + (y.y - R * Real.cos (rad b) * Real.sin (rad a)) ^ 2 ≤ e ^ 2 := by
    have := sq_nonneg (y.z - R * Real.sin (rad b))
    rw [mul_assoc, mul_assoc]
    linarith
  have hzz : |y.z - R * Real.sin (rad b)| ≤ e := by
    refine abs_le_of_sq_le_sq ?_ he0
    have := sq_nonneg (y.x - R * (Real.cos (rad b) * Real.cos (rad a)))
    have := sq_nonneg (y.y - R * (Real.cos (rad b) * Real.sin (rad a)))
    linarith
  have hyz : |y.z| ≤ y.norm := by
    refine abs_le_of_sq_le_sq ?_ hyn.le
    have := sq_parts y
    have := sq_nonneg y.x
    have := sq_nonneg y.y
    linarith
  obtain ⟨m, hm⟩ := arg_near he hxy he0
  obtain ⟨dist, ra, dec, hs, k1, ⟨n, k2⟩, k3, k4, k5⟩ := Verif.Props.RoundedSky.C130_sky hl true h0 hx hy hz
  have hc : conversion true = Real.pi / 180 := by simp [conversion]
  have ht : Verif.Props.turn true = 360 := by simp [Verif.Props.turn]
  rw [ht] at k4 k5
  rw [hc] at k2 k3
  have hra : ra = binary64.rnd (wrapAngleF binary64 (lib.atan2 y.y y.x) false / convF binary64 true) := by
    have := congrArg Sky.ra hs
    exact this.symm
  refine ⟨dist, ra, dec, hs, ?_, ⟨m + n, ?_⟩, ?_, ?_, (abs_le.1 k4).2, by linarith, by rw [hra]; exact Fmt.rnd_isFloat _⟩
  · have h1 := abs_sub_le dist y.norm R
    have h2 : 4 * binary64.u * y.norm ≤ 4 * binary64.u * (R + e) := mul_le_mul_of_nonneg_left (by linarith) (by linarith)
    linarith
  · have hpi := Real.pi_pos
    have h1 : |ra * (Real.pi / 180) - (rad a + (m + n) * (2 * Real.pi))| ≤ 34 * binary64.u + κ + Real.pi / 2 * (e / (R * Real.cos (rad b))) := by
      have := abs_sub_le (ra * (Real.pi / 180)) (Complex.arg ⟨y.x, y.y⟩ + n * (2 * Real.pi)) (rad a + (m + n) * (2 * Real.pi))
      have h2 : Complex.arg ⟨y.x, y.y⟩ + n * (2 * Real.pi) - (rad a + (m + n) * (2 * Real.pi)) =
          Complex.arg ⟨y.x, y.y⟩ - (rad a + m * (2 * Real.pi)) := by ring
      rw [h2] at this
      linarith
    have h3 : ra - (a + ((m + n : ℤ) : ℝ) * 360) = (ra * (Real.pi / 180) - (rad a + (m + n) * (2 * Real.pi))) * (180 / Real.pi) := by
      unfold rad
      push_cast
      field_simp
      ring
    rw [h3, abs_mul, abs_of_pos (by positivity : 0 < 180 / Real.pi)]
    refine (mul_le_mul_of_nonneg_right h1 (by positivity)).trans (le_of_eq ?_)
    unfold raErr
    field_simp
    ring
  · have h1 := ratio_near hR0 hyn hyz hzz hN
    rw [mul_div_cancel_left₀ _ hR0.ne'] at h1
    have h2 := abs_sub_le (Real.sin (rad dec)) (y.z / y.norm) (Real.sin (rad b))
    unfold rad at h2 h1 ⊢
    linarith
  · rw [hra]
    refine Fmt.rnd_nonneg (div_nonneg (Verif.Props.Rounded.C111_range _).2.2.1 (Verif.Props.RoundedSky.conv_pos64 true).le)

/-- Error of the distance. -/
noncomputable def distErr (e R : ℝ) : ℝ := e + 4 * binary64.u * (R + e)

/-- Error of the sine of Dec. -/
noncomputable def decErr (κ e R : ℝ) : ℝ := 10 * binary64.u + κ + 2 * e / R

/-- The point at distance `R`, RA `a` and Dec `b` is in the ranges that are asked for, and farther from their ends than the errors; the sines of Dec are
compared. -/
def Inside (κ : ℝ) (radial angular : Bool) (dr rr dcr : ℝ × ℝ) (R a b e : ℝ) : Prop :=
  (radial = true → dr.1 + distErr e R ≤ R ∧ R + distErr e R ≤ dr.2) ∧
  (angular = true → binary64.IsFloat rr.1 ∧ binary64.IsFloat rr.2 ∧ 0 ≤ rr.1 ∧ rr.2 < 360 ∧
    rr.1 + raErr κ e (R * Real.cos (rad b)) < a ∧ a + raErr κ e (R * Real.cos (rad b)) ≤ rr.2 ∧ |dcr.1| ≤ 90 ∧ |dcr.2| ≤ 90 ∧
    Real.sin (rad dcr.1) + decErr κ e R ≤ Real.sin (rad b) ∧ Real.sin (rad b) + decErr κ e R ≤ Real.sin (rad dcr.2))

/-- The point at distance `R`, RA `a` and Dec `b` is out of one of the ranges that are asked for, and farther from it than the errors. -/
def Outside (κ : ℝ) (radial angular : Bool) (dr rr dcr : ℝ × ℝ) (R a b e : ℝ) : Prop :=
  (radial = true ∧ (R + distErr e R < dr.1 ∨ dr.2 + distErr e R < R)) ∨
  (angular = true ∧ binary64.IsFloat rr.1 ∧ binary64.IsFloat rr.2 ∧ 0 ≤ rr.1 ∧ rr.2 < 360 ∧ rr.1 + 1 / 2 ^ 40 ≤ rr.2 ∧
    ∀ (m : ℤ) (t : ℝ), rr.1 ≤ t → t ≤ rr.2 → raErr κ e (R * Real.cos (rad b)) + 1 / 2 ^ 41 < |a + m * 360 - t|) ∨
  (angular = true ∧ |dcr.1| ≤ 90 ∧ |dcr.2| ≤ 90 ∧
    (Real.sin (rad b) + decErr κ e R < Real.sin (rad dcr.1) ∨ Real.sin (rad dcr.2) + decErr κ e R < Real.sin (rad b)))

/-- Dec of the same order as their sines. -/
theorem dec_le {b c : ℝ} (hb : |b| ≤ 90) (hc : |c| ≤ 90) : Real.sin (rad b) ≤ Real.sin (rad c) ↔ b ≤ c := by
  have hpi := Real.pi_pos
  have hm : ∀ {t : ℝ}, |t| ≤ 90 → rad t ∈ Set.Icc (-(Real.pi / 2)) (Real.pi / 2) := by
    intro t ht
    obtain ⟨h1, h2⟩ := abs_le.1 ht
    unfold rad
    constructor <;> nlinarith
  rw [Real.strictMonoOn_sin.le_iff_le (hm hb) (hm hc)]
  unfold rad
  exact mul_le_mul_iff_left₀ (by positivity)

theorem dec_lt {b c : ℝ} (hb : |b| ≤ 90) (hc : |c| ≤ 90) : Real.sin (rad b) < Real.sin (rad c) ↔ b < c := by
  rw [← not_le, ← not_le, dec_le hc hb]

theorem clip_one : clip01 1 = 1 := by norm_num [clip01]

/-- C139: a row moved within `e` of the point at distance `R`, RA `a` and Dec `b` is in the cut-sky catalog if this point is in the distance, RA and Dec
ranges, and farther from their ends than the errors. -/
theorem C139_kept {lib : Libm} {κ : ℝ} (hl : Accurate lib κ) {radial angular : Bool} {dr rr dcr : Range} {u v R a b e : ℝ} {y : V3 ℝ}
    (hx : Regular binary64 y.x) (hy : Regular binary64 y.y) (hz : Regular binary64 y.z) (h : (y - skyPoint R a b).norm ≤ e) (hR : 0 ≤ R)
    (he : e < R * Real.cos (rad b)) (hu : u ≤ 1) (hv : v ≤ 1)
    (hi : Inside κ radial angular dr rr dcr R a b e) :
    selectedF lib radial angular dr rr dcr u v y = true := by
  obtain ⟨dist, ra, dec, hs, k1, ⟨m, k2⟩, k3, r0, r1, hdec, hf⟩ := C139_columns hl hx hy hz h hR he
  obtain ⟨hr, ha⟩ := hi
  unfold selectedF
  rw [hs, Bool.and_eq_true]
  constructor
  · cases radial with
    | false => rfl
    | true =>
      obtain ⟨h1, h2⟩ := hr rfl
      unfold distErr at h1 h2
      obtain ⟨k1a, k1b⟩ := abs_le.1 k1
      have hp : uniformRadialProb 1 (some dr) dist = 1 := by
        unfold uniformRadialProb
        simp only
        rw [if_pos, clip_one]
        simp only [Bool.and_eq_true, decide_eq_true_eq]
        constructor <;> linarith
      simp [hp, hu]
  · cases angular with
    | false => rfl
    | true =>
      obtain ⟨f1, f2, h0, h3, h4, h5, h6, h7, h8, h9⟩ := ha rfl
      unfold decErr at h8 h9
      obtain ⟨k2a, k2b⟩ := abs_le.1 k2
      obtain ⟨k3a, k3b⟩ := abs_le.1 k3
      have hm : m = 0 := by
        rcases lt_trichotomy m 0 with hm | hm | hm
        · have : (m : ℝ) ≤ -1 := by exact_mod_cast Int.le_sub_one_of_lt hm
          linarith
        · exact hm
        · have : (1 : ℝ) ≤ m := by exact_mod_cast hm
          linarith
      rw [hm, Int.cast_zero, zero_mul, add_zero] at k2a k2b
      have hp : uniformAngularProbF 1 rr dcr ra (some dec) = 1 := by
        rw [Verif.Props.RoundedMask.C115_plain 1 f1 f2 hf h0 h3 (by linarith) (by linarith), clip_one]
        exact ⟨(dec_le h6 hdec).1 (by linarith), (dec_le hdec h7).1 (by linarith)⟩
      simp [hp, hv]

theorem wrap_360 : wrapAngleF binary64 360 = 0 := by
  have h1 : binary64.rnd (360 * convF binary64 true) = twoPi binary64 := by
    rw [conv64, twoPi64, fl_pos (c := 7074237752028440 / 2 ^ 50) 2 7074237752028440 (by norm_num) (by norm_num) (by norm_num) (by norm_num) (by norm_num)]
    norm_num
  have h2 : fmod (twoPi binary64) (twoPi binary64) = 0 := by
    have hT : 0 < twoPi binary64 := by rw [twoPi64]; norm_num
    unfold fmod
    rw [div_self hT.ne']
    simp
  unfold wrapAngleF npMod
  rw [h1, h2, if_neg (lt_irrefl _), zero_div]
  exact Fmt.rnd_exact ⟨0, 0, by norm_num, by norm_num [binary64], by norm_num⟩

theorem mask_360 {rr d : Range} {dec : Option ℝ} (f1 : binary64.IsFloat rr.1) (f2 : binary64.IsFloat rr.2) (h0 : 0 ≤ rr.1) (h1 : rr.2 < 360)
    (hw : rr.1 + 1 / 2 ^ 40 ≤ rr.2) (h : uniformAngularProbF 1 rr d 360 dec ≠ 0) : rr.1 ≤ 1 / 2 ^ 41 := by
  have e1 := abs_le.1 (Verif.Props.RoundedMask.wrap_err f1 h0 (by linarith [show (0 : ℝ) < 1 / 2 ^ 40 by norm_num]))
  have e2 := abs_le.1 (Verif.Props.RoundedMask.wrap_err f2 (by linarith [show (0 : ℝ) < 1 / 2 ^ 40 by norm_num]) h1)
  have n1 : (1 : ℝ) / 2 ^ 42 + 1 / 2 ^ 42 < 1 / 2 ^ 40 := by norm_num
  have n2 : (1 : ℝ) / 2 ^ 42 < 1 / 2 ^ 41 := by norm_num
  have hlt : wrapAngleF binary64 rr.1 < wrapAngleF binary64 rr.2 := by linarith
  unfold uniformAngularProbF at h
  rw [wrap_360] at h
  split_ifs at h with hm
  · unfold angularRarangeF maskRanges at hm
    simp only [not_le.2 hlt, decide_false, Bool.and_false, Bool.false_eq_true, if_false, if_pos hlt.le] at hm
    rw [Bool.and_eq_true, Bool.and_eq_true, decide_eq_true_eq, decide_eq_true_eq] at hm
    linarith [hm.1.1]
  · exact absurd rfl h

theorem prob_dec {rr d : Range} {ra dec : ℝ} (h : uniformAngularProbF 1 rr d ra (some dec) ≠ 0) : d.1 ≤ dec ∧ dec ≤ d.2 := by
  unfold uniformAngularProbF at h
  split_ifs at h with hm
  · unfold maskRanges at hm
    rw [Bool.and_eq_true] at hm
    simpa using hm.2
  · exact absurd rfl h

/-- C139: a row moved within `e` of the point at distance `R`, RA `a` and Dec `b` is not in the cut-sky catalog if this point is out of the distance, RA or
Dec range, and farther from it than the errors. -/
theorem C139_dropped {lib : Libm} {κ : ℝ} (hl : Accurate lib κ) {radial angular : Bool} {dr rr dcr : Range} {u v R a b e : ℝ} {y : V3 ℝ}
    (hx : Regular binary64 y.x) (hy : Regular binary64 y.y) (hz : Regular binary64 y.z) (h : (y - skyPoint R a b).norm ≤ e) (hR : 0 ≤ R)
    (he : e < R * Real.cos (rad b)) (hu : 0 < u) (hv : 0 < v)
    (ho : Outside κ radial angular dr rr dcr R a b e) :
    selectedF lib radial angular dr rr dcr u v y = false := by
  obtain ⟨dist, ra, dec, hs, k1, ⟨m, k2⟩, k3, r0, r1, hdec, hf⟩ := C139_columns hl hx hy hz h hR he
  unfold selectedF
  rw [hs]
  rcases ho with ⟨rfl, ho⟩ | ⟨rfl, f1, f2, h0, h3, h4, ho⟩ | ⟨rfl, h6, h7, ho⟩
  · have hp : uniformRadialProb 1 (some dr) dist = 0 := by
      unfold uniformRadialProb
      simp only
      rw [if_neg]
      simp only [Bool.and_eq_true, decide_eq_true_eq]
      unfold distErr at ho
      obtain ⟨k1a, k1b⟩ := abs_le.1 k1
      rintro ⟨g1, g2⟩
      rcases ho with ho | ho <;> linarith
    simp [hp, hu]
  · have hp : uniformAngularProbF 1 rr dcr ra (some dec) = 0 := by
      by_contra hne
      rcases r1.lt_or_eq with hlt | rfl
      · obtain ⟨g1, g2⟩ := Verif.Props.RoundedMask.C115_only 1 f1 f2 hf h0 h3 h4 r0 hlt hne
        have hw : rr.1 ≤ rr.2 := by linarith [show (0 : ℝ) < 1 / 2 ^ 40 by norm_num]
        set t := max rr.1 (min ra rr.2) with ht
        have t1 : rr.1 ≤ t := le_max_left _ _
        have t2 : t ≤ rr.2 := max_le hw (min_le_right _ _)
        have t3 : |ra - t| ≤ 1 / 2 ^ 41 := by
          rw [abs_le, ht]
          have hp : (0 : ℝ) < 1 / 2 ^ 41 := by norm_num
          rcases le_total ra rr.2 with q | q
          · rw [min_eq_left q]
            rcases le_total rr.1 ra with q' | q'
            · rw [max_eq_right q']; constructor <;> linarith
            · rw [max_eq_left q']; constructor <;> linarith
          · rw [min_eq_right q, max_eq_right hw]; constructor <;> linarith
        have := ho m t t1 t2
        have h5 := abs_sub_le (a + m * 360) ra t
        rw [abs_sub_comm (a + m * 360) ra] at h5
        linarith
      · have g := mask_360 f1 f2 h0 h3 h4 hne
        have := ho (m - 1) rr.1 le_rfl (by linarith [show (0 : ℝ) < 1 / 2 ^ 40 by norm_num])
        have h5 := abs_sub_le (a + (m - 1 : ℤ) * 360) 0 rr.1
        have h6 : |a + (m - 1 : ℤ) * 360 - 0| = |360 - (a + m * 360)| := by
          rw [← abs_neg]
          push_cast
          congr 1
          ring
        rw [h6, zero_sub, abs_neg, abs_of_nonneg h0] at h5
        linarith
    simp [hp, hv]
  · have hp : uniformAngularProbF 1 rr dcr ra (some dec) = 0 := by
      by_contra hne
      obtain ⟨g1, g2⟩ := prob_dec hne
      have q1 := (dec_le h6 hdec).2 g1
      have q2 := (dec_le hdec h7).2 g2
      obtain ⟨k3a, k3b⟩ := abs_le.1 k3
      unfold decErr at ho
      rcases ho with ho | ho <;> linarith
    simp [hp, hv]

/-- C139: the cut-sky catalog. If each row is moved close to a point well inside the ranges, or to one well outside, the catalog has the rows of the
first kind, in their order and once each, with the sky coordinates of their positions. Draws are never exactly 0. -/
theorem C139_catalog {lib : Libm} {κ : ℝ} (hl : Accurate lib κ) {ρ : Type} {radial angular : Bool} {dr rr dcr : Range} (keep : V3 ℝ × ρ → Bool)
    {rows : List (V3 ℝ × ρ)} {draws : List (ℝ × ℝ)} (hn : rows.length = draws.length)
    (hd : ∀ d ∈ draws, 0 < d.1 ∧ d.1 ≤ 1 ∧ 0 < d.2 ∧ d.2 ≤ 1)
    (hk : ∀ p ∈ rows, Regular binary64 p.1.x ∧ Regular binary64 p.1.y ∧ Regular binary64 p.1.z ∧ ∃ R a b e, 0 ≤ R ∧ e < R * Real.cos (rad b) ∧
      (p.1 - skyPoint R a b).norm ≤ e ∧
      if keep p then Inside κ radial angular dr rr dcr R a b e else Outside κ radial angular dr rr dcr R a b e) :
    cutskyRowsF lib radial angular dr rr dcr draws rows = (rows.filter keep).map fun p => (skyF lib p.1, p) := by
  unfold cutskyRowsF
  induction rows generalizing draws with
  | nil => rfl
  | cons p rows ih =>
    cases draws with
    | nil => simp at hn
    | cons d draws =>
      obtain ⟨hx, hy, hz, R, a, b, e, hR, he, h, hif⟩ := hk p List.mem_cons_self
      obtain ⟨u0, u1, v0, v1⟩ := hd d List.mem_cons_self
      have hrec := ih (draws := draws) (by simpa using hn) (fun d hm => hd d (List.mem_cons_of_mem _ hm)) (fun q hm => hk q (List.mem_cons_of_mem _ hm))
      rw [List.zip_cons_cons, List.filter_cons, List.filter_cons]
      by_cases hp : keep p = true
      · rw [if_pos hp] at hif
        rw [C139_kept hl hx hy hz h hR he u1 v1 hif, if_pos rfl, if_pos hp, List.map_cons, List.map_cons, hrec]
      · rw [if_neg hp] at hif
        rw [C139_dropped hl hx hy hz h hR he u0 v0 hif, if_neg Bool.false_ne_true, if_neg hp, hrec]

open Verif.Model.RoundedIsometry Verif.Props.RoundedIsometry in
/-- C139: from the isometry. A row which a history of up to a million calls moves, in exact arithmetic, to the point at distance `R`, RA `a` and Dec `b` is
kept or dropped by the masks as this point is inside or outside the ranges, with the error of that isometry in double precision. -/
theorem C139_moved {lib : Libm} {κ : ℝ} (hl : Accurate lib κ) {radial angular : Bool} {dr rr dcr : Range} {u v R a b : ℝ} {ops : List OpF}
    {ops' : List Isom.Op} (ho : List.Forall₂ (Stands (2 / 10 ^ 13)) ops ops') {s : Isom} (hs : RunF binary64 Isom.init ops s) {x y : V3 ℝ}
    (hy : TransformF binary64 s x false y) (hn : ops.length ≤ 10 ^ 6) (hreg : Regular binary64 y.x ∧ Regular binary64 y.y ∧ Regular binary64 y.z)
    (hp : (Isom.init.run ops').transform x false = skyPoint R a b) (hR : 0 ≤ R) {e : ℝ}
    (he : e = 5 / 10 ^ 13 * (2 * ops.length + 1) * (x.norm + shifts ops + 6 * (ops.length + 2) * binary64.tiny))
    (hc : e < R * Real.cos (rad b)) (hu : 0 < u ∧ u ≤ 1) (hv : 0 < v ∧ v ≤ 1) :
    (Inside κ radial angular dr rr dcr R a b e → selectedF lib radial angular dr rr dcr u v y = true) ∧
    (Outside κ radial angular dr rr dcr R a b e → selectedF lib radial angular dr rr dcr u v y = false) := by
  have h := C128_double ho hs hy hn
  rw [hp, ← he] at h
  exact ⟨C139_kept hl hreg.1 hreg.2.1 hreg.2.2 h hR hc hu.2 hv.2, C139_dropped hl hreg.1 hreg.2.1 hreg.2.2 h hR hc hu.1 hv.1⟩

theorem sky_45 : skyPoint (1000 * √2) 45 0 = ⟨1000, 1000, 0⟩ := by
  have h2 : √2 * √2 = 2 := Real.mul_self_sqrt (by norm_num)
  have e1 : rad 45 = Real.pi / 4 := by unfold rad; ring
  have e2 : rad 0 = 0 := by unfold rad; ring
  unfold skyPoint
  rw [e1, e2, Real.cos_pi_div_four, Real.sin_pi_div_four, Real.cos_zero, Real.sin_zero]
  ext <;> simp <;> linarith

theorem regular_nat (n : ℕ) (h : n ≤ 2 ^ 53) : Regular binary64 n := by
  refine ⟨⟨n, 0, by rw [abs_of_nonneg (by positivity)]; exact_mod_cast h, by norm_num [binary64], by simp⟩, ?_⟩
  rcases Nat.eq_zero_or_pos n with rfl | hn
  · right; simp
  · left
    have h1 : (1 : ℝ) ≤ n := by exact_mod_cast hn
    have h2 : binary64.tiny ≤ 1 := by
      unfold Fmt.tiny
      exact zpow_le_one_of_nonpos₀ (by norm_num) (by norm_num [binary64])
    nlinarith

/-- The point at RA 45 and Dec 0 is in the catalog from 1000 to 2000 with RA 10 to 80 and Dec -10 to 10, not in the one from 2000 to 3000. -/
example : Inside (1 / 2 ^ 51) true true (1000, 2000) (10, 80) (-10, 10) (1000 * √2) 45 0 0 ∧
    Outside (1 / 2 ^ 51) true true (2000, 3000) (10, 80) (-10, 10) (1000 * √2) 45 0 0 ∧
    selectedF Verif.Props.RoundedSky.exactLib true true (1000, 2000) (10, 80) (-10, 10) (1 / 2) (1 / 3) ⟨1000, 1000, 0⟩ = true := by
  have f : ∀ n : ℕ, n ≤ 2 ^ 53 → binary64.IsFloat n := fun n h => (regular_nat n h).1
  have h1 : (1.4 : ℝ) ≤ √2 := Real.le_sqrt_of_sq_le (by norm_num)
  have h2 : √2 ≤ 1.5 := Real.sqrt_le_iff.2 ⟨by norm_num, by norm_num⟩
  have hpi := Real.pi_gt_three
  have hpi' := Real.pi_lt_four
  have e2 : rad 0 = 0 := by unfold rad; ring
  have e3 : rad (-10) = -rad 10 := by unfold rad; ring
  have hs : 1 / 9 ≤ Real.sin (rad 10) := by
    have e : rad 10 = Real.pi / 18 := by unfold rad; ring
    rw [e]
    refine le_trans (le_of_eq ?_) (Real.mul_le_sin (by positivity) (by linarith))
    field_simp
    norm_num
  have hd : distErr 0 (1000 * √2) ≤ 1 := by
    unfold distErr
    rw [u64]
    linarith
  have hr : raErr (1 / 2 ^ 51) 0 (1000 * √2 * Real.cos (rad 0)) ≤ 1 := by
    unfold raErr
    rw [u64, zero_div, mul_zero, add_zero]
    have : 180 / Real.pi ≤ 60 := by rw [div_le_iff₀ (by positivity)]; linarith
    linarith
  have hk : decErr (1 / 2 ^ 51) 0 (1000 * √2) ≤ 1 / 9 := by
    unfold decErr
    rw [u64]
    norm_num
  have hin : Inside (1 / 2 ^ 51) true true (1000, 2000) (10, 80) (-10, 10) (1000 * √2) 45 0 0 := by
    refine ⟨fun _ => ⟨by dsimp only; linarith, by dsimp only; linarith⟩, fun _ => ⟨by simpa using f 10 (by norm_num), by simpa using f 80 (by norm_num),
      by norm_num, by norm_num, by dsimp only; linarith, by dsimp only; linarith, by norm_num [abs_of_neg], by norm_num [abs_of_pos], ?_, ?_⟩⟩
    · dsimp only
      rw [e3, Real.sin_neg, e2, Real.sin_zero]
      linarith
    · dsimp only
      rw [e2, Real.sin_zero]
      linarith
  refine ⟨hin, Or.inl ⟨rfl, Or.inl (by dsimp only; linarith)⟩, ?_⟩
  refine C139_kept Verif.Props.RoundedSky.exactLib_accurate (by simpa using regular_nat 1000 (by norm_num)) (by simpa using regular_nat 1000 (by norm_num))
    (by simpa using regular_nat 0 (by norm_num)) (e := 0) ?_ (by positivity) ?_ (by norm_num) (by norm_num) hin
  · rw [sky_45]
    simp [V3.norm]
  · rw [e2, Real.cos_zero]
    positivity

end Verif.Props.RoundedCutsky
