import Verif.Model.RoundedSky
import Verif.Lemmas.RoundedTwoVectors
import Verif.Props.RoundedTwoVectors
import Verif.Props.Sky

/-!
# C130: sky coordinates with rounding errors
-/

namespace Verif.Props.RoundedSky

open Verif Verif.Model Verif.Model.Rounded Verif.Model.RoundedSky Verif.Props.Rounded Verif.Lemmas.RoundedIsometry

/-- The functions of the C library err by at most `κ`, and stay in their ranges. -/
structure Accurate (lib : Libm) (κ : ℝ) : Prop where
  cos : ∀ t, |lib.cos t - Real.cos t| ≤ κ
  sin : ∀ t, |lib.sin t - Real.sin t| ≤ κ
  asin : ∀ t, |t| ≤ 1 → |lib.asin t - Real.arcsin t| ≤ κ
  atan2 : ∀ x y, |lib.atan2 y x - Complex.arg ⟨x, y⟩| ≤ κ
  cos_le : ∀ t, |lib.cos t| ≤ 1
  sin_le : ∀ t, |lib.sin t| ≤ 1
  asin_le : ∀ t, |t| ≤ 1 → |lib.asin t| ≤ npPi / 2
  atan2_le : ∀ x y, |lib.atan2 y x| ≤ npPi

theorem u64 : binary64.u = 1 / 2 ^ 53 := by norm_num [Fmt.u, binary64]

theorem conversion_pos (d : Bool) : 0 < conversion d := by
  have := Real.pi_pos
  cases d <;> simp [conversion] <;> positivity

theorem conversion_le (d : Bool) : conversion d ≤ 1 := by
  have := Real.pi_lt_d2
  cases d <;> simp [conversion]
  linarith

theorem conv_err (d : Bool) : |convF binary64 d - conversion d| ≤ binary64.u * conversion d := by
  cases d with
  | false => simp [convF, conversion, Fmt.u_pos.le]
  | true =>
    rw [conv64, u64]
    have h1 := Real.pi_gt_d20
    have h2 := Real.pi_lt_d20
    simp only [conversion, if_true]
    rw [abs_le]
    constructor <;> norm_num at h1 h2 ⊢ <;> linarith

theorem conv_pos64 (d : Bool) : 0 < convF binary64 d := by
  cases d with
  | false => norm_num [convF]
  | true => rw [conv64]; norm_num

/-- An angle multiplied by the factor of conversion. -/
theorem rad_err {a M : ℝ} (d : Bool) (h : |a * conversion d| ≤ M) :
    |binary64.rnd (a * convF binary64 d) - a * conversion d| ≤ binary64.u * (201 / 100 * M + 1 / 2) := by
  have hu := Fmt.u_pos (F := binary64)
  have hu' : binary64.u ≤ 1 / 100 := by rw [u64]; norm_num
  have hc := conv_err d
  have hp := conversion_pos d
  have h1 : |a * convF binary64 d - a * conversion d| ≤ binary64.u * M := by
    rw [← mul_sub, abs_mul]
    rw [abs_mul, abs_of_pos hp] at h
    calc |a| * |convF binary64 d - conversion d| ≤ |a| * (binary64.u * conversion d) := mul_le_mul_of_nonneg_left hc (abs_nonneg a)
      _ = binary64.u * (|a| * conversion d) := by ring
      _ ≤ _ := mul_le_mul_of_nonneg_left h hu.le
  have hM : 0 ≤ M := (abs_nonneg _).trans h
  have h2 : |a * convF binary64 d| ≤ 101 / 100 * M := by
    have := abs_le_sub (a * convF binary64 d) (a * conversion d)
    nlinarith
  have h3 := rnd_bound (F := binary64) h2
  have h4 := abs_tri (binary64.rnd (a * convF binary64 d)) (a * convF binary64 d) (a * conversion d)
  nlinarith

/-- An angle divided by the factor of conversion. -/
theorem deg_err {A M : ℝ} (d : Bool) (h : |A| ≤ M) :
    |binary64.rnd (A / convF binary64 d) * conversion d - A| ≤ binary64.u * (203 / 100 * M + 1 / 2) := by
  have hu := Fmt.u_pos (F := binary64)
  have hu' : binary64.u ≤ 1 / 1000 := by rw [u64]; norm_num
  have hc := conv_err d
  have hp := conversion_pos d
  have hl := conversion_le d
  have hq := conv_pos64 d
  set c := convF binary64 d
  set C := conversion d
  have hM : 0 ≤ M := (abs_nonneg _).trans h
  have hc' := abs_le.1 hc
  have hC : C ≤ 101 / 100 * c := by nlinarith
  have h1 : |A / c * C - A| ≤ binary64.u * (101 / 100 * M) := by
    have e : A / c * C - A = A * ((C - c) / c) := by field_simp
    rw [e, abs_mul, abs_div, abs_of_pos hq, abs_sub_comm]
    have : |c - C| / c ≤ 101 / 100 * binary64.u := by
      rw [div_le_iff₀ hq]
      calc |c - C| ≤ binary64.u * C := hc
        _ ≤ binary64.u * (101 / 100 * c) := mul_le_mul_of_nonneg_left hC hu.le
        _ = _ := by ring
    calc |A| * (|c - C| / c) ≤ M * (101 / 100 * binary64.u) := mul_le_mul h this (by positivity) hM
      _ = _ := by ring
  have h2 := rnd_err_tiny (F := binary64) (A / c)
  have ht := tiny_le (F := binary64)
  have h3 : |(binary64.rnd (A / c) - A / c) * C| ≤ binary64.u * (101 / 100 * M + 1 / 2) := by
    rw [abs_mul, abs_of_pos hp]
    have e1 : |A / c| * C ≤ 101 / 100 * M := by
      rw [abs_div, abs_of_pos hq, div_mul_eq_mul_div, div_le_iff₀ hq]
      calc |A| * C ≤ M * (101 / 100 * c) := mul_le_mul h hC hp.le hM
        _ = _ := by ring
    have ht0 := Verif.Lemmas.RoundedIsometry.tiny_pos (F := binary64)
    have e2 : binary64.tiny * C ≤ 1 / 2 := by nlinarith
    calc |binary64.rnd (A / c) - A / c| * C ≤ binary64.u * (|A / c| + binary64.tiny) * C := mul_le_mul_of_nonneg_right h2 hp.le
      _ = binary64.u * (|A / c| * C + binary64.tiny * C) := by ring
      _ ≤ _ := mul_le_mul_of_nonneg_left (by linarith) hu.le
  have h4 := abs_add_le ((binary64.rnd (A / c) - A / c) * C) (A / c * C - A)
  have e : (binary64.rnd (A / c) - A / c) * C + (A / c * C - A) = binary64.rnd (A / c) * C - A := by ring
  rw [e] at h4
  nlinarith

theorem npPi_lt : npPi < Real.pi ∧ (3 : ℝ) < npPi ∧ npPi < 315 / 100 := by
  have h1 := Real.pi_gt_d20
  rw [npPi_eq]
  norm_num at h1 ⊢
  linarith

theorem twoPi_err : |twoPi binary64 - 2 * Real.pi| ≤ 23 / 10 * binary64.u := by
  have h1 := Real.pi_gt_d20
  have h2 := Real.pi_lt_d20
  rw [twoPi64, u64, abs_le]
  constructor <;> norm_num at h1 h2 ⊢ <;> linarith

/-- `wrap_angle` of the result of `atan2`. -/
theorem wrap_err {A : ℝ} (h : |A| ≤ npPi) : ∃ n : ℤ, |wrapAngleF binary64 A false - (A + n * (2 * Real.pi))| ≤ 20 * binary64.u ∧
    |wrapAngleF binary64 A false| ≤ 2 * npPi := by
  have hu := Fmt.u_pos (F := binary64)
  obtain ⟨p1, p2, p3⟩ := npPi_lt
  have eT : twoPi binary64 = 2 * npPi := by rw [twoPi64, npPi_eq]; norm_num
  have hpf : binary64.IsFloat npPi := Fmt.rnd_isFloat _
  have htf : binary64.IsFloat (2 * npPi) := by rw [← eT]; exact Fmt.rnd_isFloat _
  have ht := twoPi_err
  rw [eT] at ht
  have e1 : convF binary64 false = 1 := rfl
  unfold wrapAngleF
  rw [e1, mul_one, div_one, eT]
  have hA := rnd_bound (F := binary64) (h.trans p3.le)
  have hr : |binary64.rnd A| ≤ npPi := by
    rw [abs_le] at h ⊢
    exact ⟨Fmt.le_rnd (Fmt.isFloat_neg hpf) h.1, Fmt.rnd_le hpf h.2⟩
  set r := binary64.rnd A
  have hr' := abs_le.1 hr
  have hT : 0 < 2 * npPi := by linarith
  unfold npMod
  by_cases h0 : 0 ≤ r
  · have ef : fmod r (2 * npPi) = r := by
      unfold fmod
      rw [if_pos (div_nonneg h0 hT.le), Int.floor_eq_zero_iff.2 ⟨div_nonneg h0 hT.le, by rw [div_lt_one hT]; linarith⟩]
      simp
    rw [ef, if_neg (not_lt.2 h0)]
    have e2 : binary64.rnd r = r := Fmt.rnd_idem _
    rw [e2]
    refine ⟨0, ?_, by linarith⟩
    rw [Int.cast_zero, zero_mul, add_zero]
    nlinarith
  · push Not at h0
    have hn : r / (2 * npPi) < 0 := div_neg_of_neg_of_pos h0 hT
    have ec : ⌈r / (2 * npPi)⌉ = 0 := by
      rw [Int.ceil_eq_iff, lt_div_iff₀ hT]
      push_cast
      constructor <;> linarith
    have ef : fmod r (2 * npPi) = r := by
      unfold fmod
      rw [if_neg (not_le.2 hn), ec]
      simp
    rw [ef, if_pos h0, Fmt.rnd_idem]
    have hb : |r + 2 * npPi| ≤ 63 / 10 := by
      rw [abs_le]; constructor <;> linarith
    have h2 := rnd_bound (F := binary64) hb
    refine ⟨1, ?_, ?_⟩
    · rw [abs_le] at h2 hA ht ⊢
      push_cast
      constructor <;> nlinarith
    · rw [abs_of_nonneg (Fmt.rnd_nonneg (by linarith))]
      exact Fmt.rnd_le htf (by linarith)

/-- C130: `cartesian_to_sky` in double precision: the distance is right up to 4 rounding errors; RA, in radians, up to 34 and the error of
`atan2`, and whole turns; the sine of Dec up to 10 and the error of `asin`. There is no `nan`, and RA and Dec are in their ranges. -/
theorem C130_sky {lib : Libm} {κ : ℝ} (hl : Accurate lib κ) (d : Bool) {v : V3 ℝ} (h0 : v ≠ 0) (hx : Regular binary64 v.x)
    (hy : Regular binary64 v.y) (hz : Regular binary64 v.z) :
    ∃ dist ra dec, cartesianToSkyF binary64 lib.atan2 lib.asin v d = ⟨dist, ra, some dec⟩ ∧
      |dist - v.norm| ≤ 4 * binary64.u * v.norm ∧
      (∃ n : ℤ, |ra * conversion d - (Complex.arg ⟨v.x, v.y⟩ + n * (2 * Real.pi))| ≤ 34 * binary64.u + κ) ∧
      |Real.sin (dec * conversion d) - v.z / v.norm| ≤ 10 * binary64.u + κ ∧
      |ra| ≤ turn d ∧ |dec| ≤ turn d / 4 := by
  have hu := Fmt.u_pos (F := binary64)
  have hu' : binary64.u ≤ 1 / 1000 := by rw [u64]; norm_num
  obtain ⟨p1, p2, p3⟩ := npPi_lt
  have hN := V3.norm_pos h0
  obtain ⟨gx, gy, gz, -⟩ := C113_coordinates binary64 v hx hy hz
  obtain ⟨lo, hi⟩ := C113_accuracy binary64 v hx hy hz
  have eN : Real.sqrt (v.x ^ 2 + v.y ^ 2 + v.z ^ 2) = v.norm := rfl
  rw [eN] at lo hi
  obtain ⟨⟨-, -, t1⟩, -, -, t2⟩ := Verif.Props.RoundedIsometry.C128_axis (F := binary64) h0 hx hy hz
  have et : (Model.RoundedIsometry.losF binary64 v).z = binary64.rnd (v.z / distanceF binary64 v) := rfl
  rw [et] at t1 t2
  have hd : 0 < distanceF binary64 v := by
    have : 0 < (1 - binary64.u) ^ 3 * v.norm := by
      have : 0 < 1 - binary64.u := by linarith
      positivity
    linarith
  set D := distanceF binary64 v with hD
  set t := binary64.rnd (v.z / D) with htd
  obtain ⟨n, w1, w2⟩ := wrap_err (hl.atan2_le v.x v.y)
  set W := wrapAngleF binary64 (lib.atan2 v.y v.x) false with hW
  have hconv := conv_pos64 d
  refine ⟨D, binary64.rnd (W / convF binary64 d), binary64.rnd (lib.asin t / convF binary64 d), ?_, ?_, ⟨n, ?_⟩, ?_, ?_, ?_⟩
  · unfold cartesianToSkyF
    simp only [← hD, ← hW, ← htd, if_neg hd.ne', if_pos t1]
  · rw [abs_le]
    constructor
    · have : (1 - 4 * binary64.u) * v.norm ≤ (1 - binary64.u) ^ 3 * v.norm := mul_le_mul_of_nonneg_right (by nlinarith [sq_nonneg binary64.u]) hN.le
      linarith
    · have : (1 + binary64.u) ^ 3 * v.norm ≤ (1 + 4 * binary64.u) * v.norm := mul_le_mul_of_nonneg_right (by nlinarith [sq_nonneg binary64.u]) hN.le
      linarith
  · have h1 := deg_err (M := 62832 / 10000) d (w2.trans (by linarith [Real.pi_lt_d6]))
    have h2 := hl.atan2 v.x v.y
    rw [abs_le] at h1 h2 w1 ⊢
    constructor <;> nlinarith
  · have h1 := deg_err (M := 158 / 100) d ((hl.asin_le t t1).trans (by linarith))
    have h2 := hl.asin t t1
    have h3 := Real.abs_sin_sub_sin_le (binary64.rnd (lib.asin t / convF binary64 d) * conversion d) (Real.arcsin t)
    rw [Real.sin_arcsin (abs_le.1 t1).1 (abs_le.1 t1).2] at h3
    have h4 := abs_tri (binary64.rnd (lib.asin t / convF binary64 d) * conversion d) (lib.asin t) (Real.arcsin t)
    have h5 := abs_tri (Real.sin (binary64.rnd (lib.asin t / convF binary64 d) * conversion d)) t (v.z / v.norm)
    nlinarith
  · have hf : binary64.rnd (2 * npPi / convF binary64 d) ≤ turn d := by
      have eT : twoPi binary64 = 2 * npPi := by rw [twoPi64, npPi_eq]; norm_num
      rw [← eT]
      cases d with
      | true => rw [turn64]; simp [turn]
      | false =>
        have : convF binary64 false = 1 := rfl
        rw [this, div_one, Fmt.rnd_exact twoPi_float, eT]
        simp only [turn, Bool.false_eq_true, if_false]
        linarith
    have w := abs_le.1 w2
    have h1 := Fmt.rnd_mono (F := binary64) ((div_le_div_iff_of_pos_right hconv).2 w.1)
    have h2 := Fmt.rnd_mono (F := binary64) ((div_le_div_iff_of_pos_right hconv).2 w.2)
    rw [neg_div, Fmt.rnd_neg] at h1
    rw [abs_le]
    constructor <;> linarith
  · have hf : binary64.rnd (npPi / 2 / convF binary64 d) ≤ turn d / 4 := by
      cases d with
      | true => rw [right64]; norm_num [turn]
      | false =>
        have : convF binary64 false = 1 := rfl
        have hpf : binary64.IsFloat (npPi / 2) := by
          rw [npPi_eq]
          exact ⟨884279719003555, -49, by norm_num [binary64], by norm_num [binary64], by norm_num⟩
        rw [this, div_one, Fmt.rnd_exact hpf]
        simp only [turn, Bool.false_eq_true, if_false]
        linarith
    have w := abs_le.1 (hl.asin_le t t1)
    have h1 := Fmt.rnd_mono (F := binary64) ((div_le_div_iff_of_pos_right hconv).2 w.1)
    have h2 := Fmt.rnd_mono (F := binary64) ((div_le_div_iff_of_pos_right hconv).2 w.2)
    rw [neg_div, Fmt.rnd_neg] at h1
    rw [abs_le]
    constructor <;> linarith

/-- A unit coordinate multiplied by the distance. -/
theorem times_dist {dist p q e : ℝ} (hd : binary64.tiny ≤ dist) (hp : |p| ≤ 1) (h : |p - q| ≤ e) :
    |binary64.rnd (dist * p) - dist * q| ≤ dist * (e + 2 * binary64.u) := by
  have hu := Fmt.u_pos (F := binary64)
  have ht := Verif.Lemmas.RoundedIsometry.tiny_pos (F := binary64)
  have hd0 : 0 < dist := ht.trans_le hd
  have h1 := rnd_err_tiny (F := binary64) (dist * p)
  rw [abs_mul, abs_of_pos hd0] at h1
  have h2 : |dist * p - dist * q| ≤ dist * e := by
    rw [← mul_sub, abs_mul, abs_of_pos hd0]
    exact mul_le_mul_of_nonneg_left h hd0.le
  have h3 := abs_tri (binary64.rnd (dist * p)) (dist * p) (dist * q)
  have h4 : dist * |p| + binary64.tiny ≤ 2 * dist := by nlinarith
  have h5 := mul_le_mul_of_nonneg_left h4 hu.le
  linarith

/-- C130: `sky_to_cartesian` in double precision: each coordinate is right up to 21 rounding errors and twice the error of `cos` and `sin`,
in units of the distance, for RA up to one turn and Dec up to a quarter. -/
theorem C130_position {lib : Libm} {κ : ℝ} (hl : Accurate lib κ) (d : Bool) {dist ra dec : ℝ} (hd : binary64.tiny ≤ dist)
    (hra : |ra| ≤ turn d) (hdec : |dec| ≤ turn d / 4) :
    |(skyToCartesianF binary64 lib dist ra dec d).x - dist * (Real.cos (dec * conversion d) * Real.cos (ra * conversion d))| ≤
        dist * (21 * binary64.u + 2 * κ) ∧
      |(skyToCartesianF binary64 lib dist ra dec d).y - dist * (Real.cos (dec * conversion d) * Real.sin (ra * conversion d))| ≤
        dist * (21 * binary64.u + 2 * κ) ∧
      |(skyToCartesianF binary64 lib dist ra dec d).z - dist * Real.sin (dec * conversion d)| ≤ dist * (6 * binary64.u + κ) := by
  have hu := Fmt.u_pos (F := binary64)
  have hp := conversion_pos d
  have ht := turn_conv d
  have pi1 := Real.pi_lt_d4
  have M1 : |ra * conversion d| ≤ 62832 / 10000 := by
    rw [abs_mul, abs_of_pos hp]
    have := mul_le_mul_of_nonneg_right hra hp.le
    linarith
  have M2 : |dec * conversion d| ≤ 15708 / 10000 := by
    rw [abs_mul, abs_of_pos hp]
    have := mul_le_mul_of_nonneg_right hdec hp.le
    linarith
  have r1 := rad_err d M1
  have r2 := rad_err d M2
  have c1 := (abs_tri _ _ _).trans (add_le_add (hl.cos (binary64.rnd (ra * convF binary64 d)))
    ((Real.abs_cos_sub_cos_le (binary64.rnd (ra * convF binary64 d)) (ra * conversion d)).trans r1))
  have s1 := (abs_tri _ _ _).trans (add_le_add (hl.sin (binary64.rnd (ra * convF binary64 d)))
    ((Real.abs_sin_sub_sin_le (binary64.rnd (ra * convF binary64 d)) (ra * conversion d)).trans r1))
  have c2 := (abs_tri _ _ _).trans (add_le_add (hl.cos (binary64.rnd (dec * convF binary64 d)))
    ((Real.abs_cos_sub_cos_le (binary64.rnd (dec * convF binary64 d)) (dec * conversion d)).trans r2))
  have s2 := (abs_tri _ _ _).trans (add_le_add (hl.sin (binary64.rnd (dec * convF binary64 d)))
    ((Real.abs_sin_sub_sin_le (binary64.rnd (dec * convF binary64 d)) (dec * conversion d)).trans r2))
  have hd0 : 0 ≤ dist := (Verif.Lemmas.RoundedIsometry.tiny_pos (F := binary64)).le.trans hd
  have key : ∀ {p q : ℝ}, |p| ≤ 1 → |q| ≤ 1 → |p - q| ≤ κ + binary64.u * (201 / 100 * (62832 / 10000) + 1 / 2) →
      |binary64.rnd (dist * binary64.rnd (lib.cos (binary64.rnd (dec * convF binary64 d)) * p)) -
        dist * (Real.cos (dec * conversion d) * q)| ≤ dist * (21 * binary64.u + 2 * κ) := by
    intro p q h1 h2 h3
    have a1 := mul_close (hl.cos_le (binary64.rnd (dec * convF binary64 d))) h2 c2 h3
    have a2 := mul_one_le (hl.cos_le (binary64.rnd (dec * convF binary64 d))) h1
    have a3 := rnd_bound (F := binary64) a2
    have a4 := (abs_tri _ _ _).trans (add_le_add a3 a1)
    refine (times_dist hd (rnd_one a2) a4).trans (mul_le_mul_of_nonneg_left ?_ hd0)
    nlinarith
  refine ⟨key (hl.cos_le _) (Real.abs_cos_le_one _) c1, key (hl.sin_le _) (Real.abs_sin_le_one _) s1, ?_⟩
  refine (times_dist hd (hl.sin_le _) s2).trans (mul_le_mul_of_nonneg_left ?_ hd0)
  nlinarith

theorem tiny_le_dist {v : V3 ℝ} (h0 : v ≠ 0) (hx : Regular binary64 v.x) (hy : Regular binary64 v.y) (hz : Regular binary64 v.z) :
    binary64.tiny ≤ distanceF binary64 v := by
  obtain ⟨gx, gy, gz, -⟩ := C113_coordinates binary64 v hx hy hz
  have ht := Verif.Lemmas.RoundedIsometry.tiny_pos (F := binary64)
  have ht' := tiny_le (F := binary64)
  have key : ∀ {c : ℝ}, Regular binary64 c → c ≠ 0 → binary64.tiny ≤ |c| := by
    intro c h hc
    have h1 := h.2.resolve_right hc
    rw [← sq_abs] at h1
    by_contra h2
    push Not at h2
    nlinarith [abs_nonneg c]
  by_contra h
  push Not at h
  apply h0
  have e : ∀ {c : ℝ}, Regular binary64 c → |c| ≤ distanceF binary64 v → c = 0 := by
    intro c h1 h2
    by_contra h3
    have := key h1 h3
    linarith
  ext
  · exact e hx gx
  · exact e hy gy
  · exact e hz gz

/-- Cosines of two declinations whose sines are close. -/
theorem cos_close {a b e : ℝ} (ha : 0 ≤ Real.cos a) (hb : 0 ≤ Real.cos b) (h : |Real.sin a - Real.sin b| ≤ e) :
    |Real.cos a - Real.cos b| ^ 2 ≤ 2 * e ∧ |Real.cos a - Real.cos b| * Real.cos b ≤ 2 * e := by
  have h1 : |Real.cos a - Real.cos b| * (Real.cos a + Real.cos b) ≤ 2 * e := by
    rw [← abs_of_nonneg (add_nonneg ha hb), ← abs_mul]
    have e1 : (Real.cos a - Real.cos b) * (Real.cos a + Real.cos b) = -((Real.sin a - Real.sin b) * (Real.sin a + Real.sin b)) := by
      have := Real.sin_sq_add_cos_sq a
      have := Real.sin_sq_add_cos_sq b
      nlinarith
    rw [e1, abs_neg, abs_mul]
    have h2 : |Real.sin a + Real.sin b| ≤ 2 := by
      have := Real.sin_le_one a
      have := Real.sin_le_one b
      have := Real.neg_one_le_sin a
      have := Real.neg_one_le_sin b
      rw [abs_le]; constructor <;> linarith
    nlinarith [abs_nonneg (Real.sin a - Real.sin b), abs_nonneg (Real.sin a + Real.sin b)]
  have h3 : |Real.cos a - Real.cos b| ≤ Real.cos a + Real.cos b := by
    rw [abs_le]; constructor <;> linarith
  have h4 := abs_nonneg (Real.cos a - Real.cos b)
  constructor <;> nlinarith

/-- C130 (full statement: each coordinate comes back up to some number of rounding errors, in units of the distance). In double precision,
`cartesian_to_sky` then `sky_to_cartesian` gives back `z` up to 21 rounding errors and three times those of the C library; `x` and `y` up to
60 rounding errors, four times those of the C library, and `δ`: the square of `δ` is some rounding errors, and `δ` is some rounding errors
over the cosine of Dec. Missing: near the poles `δ` is the square root of a rounding error, see `C130_pole_violated`. -/
theorem C130_round_trip_partial {lib : Libm} {κ : ℝ} (hl : Accurate lib κ) (d : Bool) {v : V3 ℝ} (h0 : v ≠ 0) (hx : Regular binary64 v.x)
    (hy : Regular binary64 v.y) (hz : Regular binary64 v.z) :
    ∃ w, thereAndBack binary64 lib v d = some w ∧ |w.z - v.z| ≤ v.norm * (21 * binary64.u + 3 * κ) ∧
      ∃ δ, 0 ≤ δ ∧ |w.x - v.x| ≤ v.norm * (60 * binary64.u + 4 * κ + δ) ∧ |w.y - v.y| ≤ v.norm * (60 * binary64.u + 4 * κ + δ) ∧
        δ ^ 2 ≤ 2 * (10 * binary64.u + κ) ∧ δ * Real.sqrt (v.x ^ 2 + v.y ^ 2) ≤ 2 * (10 * binary64.u + κ) * v.norm := by
  have hu := Fmt.u_pos (F := binary64)
  have hu' : binary64.u ≤ 1 / 1000 := by rw [u64]; norm_num
  have hκ : 0 ≤ κ := (abs_nonneg _).trans (hl.cos 0)
  have hN := V3.norm_pos h0
  obtain ⟨dist, ra, dec, hs, e1, ⟨n, e2⟩, e3, e4, e5⟩ := C130_sky hl d h0 hx hy hz
  have hdist : binary64.tiny ≤ dist := by
    have := tiny_le_dist h0 hx hy hz
    have h : dist = distanceF binary64 v := by rw [show dist = (cartesianToSkyF binary64 lib.atan2 lib.asin v d).dist by rw [hs]]; rfl
    rwa [h]
  obtain ⟨f1, f2, f3⟩ := C130_position hl d hdist e4 e5
  refine ⟨skyToCartesianF binary64 lib dist ra dec d, by simp [thereAndBack, hs], ?_, ?_⟩
  all_goals
    have hdist0 : 0 ≤ dist := (Verif.Lemmas.RoundedIsometry.tiny_pos (F := binary64)).le.trans hdist
    have e1' := abs_le.1 e1
    have hdle : dist ≤ 101 / 100 * v.norm := by nlinarith
  · have g1 : |dist * Real.sin (dec * conversion d) - v.z| ≤ v.norm * (14 * binary64.u + κ) := by
      have e : dist * Real.sin (dec * conversion d) - v.z = (dist - v.norm) * Real.sin (dec * conversion d) +
          v.norm * (Real.sin (dec * conversion d) - v.z / v.norm) := by field_simp; ring
      rw [e]
      refine (abs_add_le _ _).trans ?_
      rw [abs_mul, abs_mul, abs_of_pos hN]
      have := mul_le_mul e1 (Real.abs_sin_le_one (dec * conversion d)) (abs_nonneg _) (by positivity)
      have := mul_le_mul_of_nonneg_left e3 hN.le
      linarith
    have g2 := abs_tri (skyToCartesianF binary64 lib dist ra dec d).z (dist * Real.sin (dec * conversion d)) v.z
    have g3 : dist * (6 * binary64.u + κ) ≤ v.norm * (101 / 100 * (6 * binary64.u + κ)) := by
      have := mul_le_mul_of_nonneg_right hdle (by positivity : 0 ≤ 6 * binary64.u + κ)
      linarith
    have g4 : v.norm * (101 / 100 * (6 * binary64.u + κ)) + v.norm * (14 * binary64.u + κ) ≤ v.norm * (21 * binary64.u + 3 * κ) := by
      rw [← mul_add]
      exact mul_le_mul_of_nonneg_left (by linarith) hN.le
    linarith
  · set a := dec * conversion d
    set b := Real.arcsin (v.z / v.norm) with hb
    set φ := Complex.arg ⟨v.x, v.y⟩ with hφ
    have hq : |v.z / v.norm| ≤ 1 := by
      rw [abs_div, abs_of_pos hN, div_le_one hN]; exact Verif.Props.abs_z_le_norm v
    have esb : Real.sin b = v.z / v.norm := Real.sin_arcsin (abs_le.1 hq).1 (abs_le.1 hq).2
    have hcb : 0 ≤ Real.cos b := Real.cos_nonneg_of_neg_pi_div_two_le_of_le (Real.neg_pi_div_two_le_arcsin _) (Real.arcsin_le_pi_div_two _)
    have hca : 0 ≤ Real.cos a := by
      have ht := turn_conv d
      have h := mul_le_mul_of_nonneg_right e5 (conversion_pos d).le
      rw [← abs_of_pos (conversion_pos d), ← abs_mul, abs_of_pos (conversion_pos d)] at h
      have h' := abs_le.1 h
      exact Real.cos_nonneg_of_neg_pi_div_two_le_of_le (by linarith) (by linarith)
    rw [← esb] at e3
    obtain ⟨k1, k2⟩ := cos_close hca hcb e3
    have hρ := norm_mul_cos_dec h0
    rw [← hb] at hρ
    have eρ : Real.sqrt (v.x ^ 2 + v.y ^ 2) = ‖(⟨v.x, v.y⟩ : ℂ)‖ := by
      rw [Complex.norm_def, Complex.normSq_mk, ← sq, ← sq]
    have hxe : v.x = v.norm * (Real.cos b * Real.cos φ) := by
      have := Complex.norm_mul_cos_arg (⟨v.x, v.y⟩ : ℂ)
      simp only at this
      rw [← mul_assoc, hρ, hφ, this]
    have hye : v.y = v.norm * (Real.cos b * Real.sin φ) := by
      have := Complex.norm_mul_sin_arg (⟨v.x, v.y⟩ : ℂ)
      simp only at this
      rw [← mul_assoc, hρ, hφ, this]
    have hc : |Real.cos (ra * conversion d) - Real.cos φ| ≤ 34 * binary64.u + κ := by
      rw [← Real.cos_add_int_mul_two_pi φ n]
      exact (Real.abs_cos_sub_cos_le _ _).trans e2
    have hsn : |Real.sin (ra * conversion d) - Real.sin φ| ≤ 34 * binary64.u + κ := by
      rw [← Real.sin_add_int_mul_two_pi φ n]
      exact (Real.abs_sin_sub_sin_le _ _).trans e2
    set δ := |Real.cos a - Real.cos b| with hδ
    have key : ∀ {w p q c : ℝ}, |p| ≤ 1 → |q| ≤ 1 → |p - q| ≤ 34 * binary64.u + κ → c = v.norm * (Real.cos b * q) →
        |w - dist * (Real.cos a * p)| ≤ dist * (21 * binary64.u + 2 * κ) → |w - c| ≤ v.norm * (60 * binary64.u + 4 * κ + δ) := by
      intro w p q c hp hq' hpq hc hw
      have g1 := mul_close (Real.abs_cos_le_one a) hq' hδ.ge hpq
      have g2 : |dist * (Real.cos a * p) - c| ≤ v.norm * (38 * binary64.u + κ + δ) := by
        have e : dist * (Real.cos a * p) - c = (dist - v.norm) * (Real.cos a * p) + v.norm * (Real.cos a * p - Real.cos b * q) := by
          rw [hc]; ring
        rw [e]
        refine (abs_add_le _ _).trans ?_
        rw [abs_mul (dist - v.norm), abs_mul v.norm, abs_of_pos hN]
        have i1 := mul_le_mul e1 (mul_one_le (Real.abs_cos_le_one a) hp) (abs_nonneg _) (by positivity)
        have i2 := mul_le_mul_of_nonneg_left g1 hN.le
        linarith
      have g3 : dist * (21 * binary64.u + 2 * κ) ≤ v.norm * (101 / 100 * (21 * binary64.u + 2 * κ)) := by
        have := mul_le_mul_of_nonneg_right hdle (by positivity : 0 ≤ 21 * binary64.u + 2 * κ)
        linarith
      have g4 : v.norm * (101 / 100 * (21 * binary64.u + 2 * κ)) + v.norm * (38 * binary64.u + κ + δ) ≤
          v.norm * (60 * binary64.u + 4 * κ + δ) := by
        rw [← mul_add]
        exact mul_le_mul_of_nonneg_left (by linarith) hN.le
      have g5 := abs_tri w (dist * (Real.cos a * p)) c
      linarith
    refine ⟨δ, abs_nonneg _, key (Real.abs_cos_le_one _) (Real.abs_cos_le_one _) hc hxe f1,
      key (Real.abs_sin_le_one _) (Real.abs_sin_le_one _) hsn hye f2, k1, ?_⟩
    rw [eρ, ← hρ]
    have := mul_le_mul_of_nonneg_right k2 hN.le
    linarith

/-- C130 in numbers, for functions of the C library right up to 2 ^ -51 (one unit of the last digit of pi): in units of the distance `z` comes
back up to 1e-14; `x` and `y` up to 1e-13 at Dec up to 84 degrees, and up to 1e-7 everywhere. Missing: 1e-13 near the poles, see
`C130_pole_violated`. -/
theorem C130_double_partial {lib : Libm} (hl : Accurate lib (1 / 2 ^ 51)) (d : Bool) {v : V3 ℝ} (h0 : v ≠ 0) (hx : Regular binary64 v.x)
    (hy : Regular binary64 v.y) (hz : Regular binary64 v.z) :
    ∃ w, thereAndBack binary64 lib v d = some w ∧ |w.z - v.z| ≤ 1 / 10 ^ 14 * v.norm ∧
      (|w.x - v.x| ≤ 1 / 10 ^ 7 * v.norm ∧ |w.y - v.y| ≤ 1 / 10 ^ 7 * v.norm) ∧
      (v.norm ≤ 10 * Real.sqrt (v.x ^ 2 + v.y ^ 2) → |w.x - v.x| ≤ 1 / 10 ^ 13 * v.norm ∧ |w.y - v.y| ≤ 1 / 10 ^ 13 * v.norm) := by
  have hN := V3.norm_pos h0
  obtain ⟨w, h1, h2, δ, h3, h4, h5, h6, h7⟩ := C130_round_trip_partial hl d h0 hx hy hz
  rw [u64] at h2 h4 h5 h6 h7
  have hδ : δ ≤ 6 / 10 ^ 8 := by
    refine le_of_sq_le_sq ?_ (by norm_num)
    exact h6.trans (by norm_num)
  refine ⟨w, h1, ?_, ⟨?_, ?_⟩, fun hρ => ?_⟩
  · refine h2.trans ?_
    rw [mul_comm]
    exact mul_le_mul_of_nonneg_right (by norm_num) hN.le
  · refine h4.trans ?_
    rw [mul_comm]
    exact mul_le_mul_of_nonneg_right (by linarith) hN.le
  · refine h5.trans ?_
    rw [mul_comm]
    exact mul_le_mul_of_nonneg_right (by linarith) hN.le
  · have hδ' : δ ≤ 280 / 2 ^ 53 := by
      have h := mul_le_mul_of_nonneg_left hρ h3
      have : δ * v.norm ≤ 280 / 2 ^ 53 * v.norm := by
        have e : (2 : ℝ) * (10 * (1 / 2 ^ 53) + 1 / 2 ^ 51) * v.norm = 28 / 2 ^ 53 * v.norm := by ring
        rw [e] at h7
        have e' : (280 : ℝ) / 2 ^ 53 * v.norm = 10 * (28 / 2 ^ 53 * v.norm) := by ring
        rw [e']
        linarith
      exact le_of_mul_le_mul_right this hN
    constructor
    · refine h4.trans ?_
      rw [mul_comm]
      exact mul_le_mul_of_nonneg_right (by linarith) hN.le
    · refine h5.trans ?_
      rw [mul_comm]
      exact mul_le_mul_of_nonneg_right (by linarith) hN.le

/-- C130 is violated near the poles: at a distance of 2 ^ 27, an object at 1 from the axis comes back on it, whatever the functions of the C
library, right up to 2 ^ -49: `arcsin` cannot tell `z / dist` from 1. -/
theorem C130_pole_violated {lib : Libm} {κ : ℝ} (hκ : κ ≤ 1 / 2 ^ 49) (hl : Accurate lib κ) (d : Bool) :
    ∃ w, thereAndBack binary64 lib ⟨1, 0, 2 ^ 27⟩ d = some w ∧ |w.x| ≤ 1 / 10 ^ 5 := by
  have hu := Fmt.u_pos (F := binary64)
  obtain ⟨p1, p2, p3⟩ := npPi_lt
  have r1 : binary64.rnd ((1 : ℝ) ^ 2) = 1 := by rw [one_pow]; exact Fmt.rnd_exact one_float
  have r2 : binary64.rnd ((0 : ℝ) ^ 2) = 0 := by rw [zero_pow two_ne_zero]; exact Fmt.rnd_zero
  have r3 : binary64.rnd (((2 : ℝ) ^ 27) ^ 2) = 2 ^ 54 := by
    have e : ((2 : ℝ) ^ 27) ^ 2 = 2 ^ 54 := by norm_num
    rw [e]
    exact Fmt.rnd_exact ⟨1, 54, by norm_num [binary64], by norm_num [binary64], by norm_num⟩
  have r4 : binary64.rnd ((1 : ℝ) + 2 ^ 54) = 2 ^ 54 := by
    rw [rnd_eq (F := binary64) (k := 54) (n := 2 ^ 52) (by norm_num [abs_of_pos]) (by norm_num [abs_of_pos])
      (by norm_num [binary64]) (by norm_num [binary64, abs_lt])]
    norm_num [binary64]
  have r5 : binary64.rnd (Real.sqrt (2 ^ 54)) = 2 ^ 27 := by
    have e : Real.sqrt ((2 : ℝ) ^ 54) = 2 ^ 27 := by
      rw [show (2 : ℝ) ^ 54 = (2 ^ 27) ^ 2 by norm_num, Real.sqrt_sq (by positivity)]
    rw [e]
    exact Fmt.rnd_exact ⟨1, 27, by norm_num [binary64], by norm_num [binary64], by norm_num⟩
  have hD : distanceF binary64 ⟨1, 0, 2 ^ 27⟩ = 2 ^ 27 := by
    unfold distanceF
    simp only [r1, r2, r3]
    rw [add_zero, Fmt.rnd_exact one_float, r4, r5]
  have ht : binary64.tiny ≤ 1 := zpow_le_one_of_nonpos₀ (by norm_num) (by norm_num [binary64])
  have h0 : (⟨1, 0, 2 ^ 27⟩ : V3 ℝ) ≠ 0 := by
    intro h
    have := congrArg V3.x h
    norm_num at this
  have rx : Regular binary64 1 := ⟨one_float, .inl (by simpa using ht)⟩
  have ry : Regular binary64 0 := ⟨⟨0, 0, by norm_num, by norm_num [binary64], by norm_num⟩, .inr rfl⟩
  have rz : Regular binary64 (2 ^ 27) :=
    ⟨⟨1, 27, by norm_num [binary64], by norm_num [binary64], by norm_num⟩, .inl (ht.trans (by norm_num))⟩
  obtain ⟨dist, ra, dec, hs, -, -, -, e4, e5⟩ := C130_sky hl d h0 rx ry rz
  have ed : dist = 2 ^ 27 := by
    rw [show dist = (cartesianToSkyF binary64 lib.atan2 lib.asin ⟨1, 0, 2 ^ 27⟩ d).dist by rw [hs]]
    exact hD
  have et : binary64.rnd ((2 : ℝ) ^ 27 / 2 ^ 27) = 1 := by
    rw [div_self (by positivity)]
    exact Fmt.rnd_exact one_float
  have edec : dec = binary64.rnd (lib.asin 1 / convF binary64 d) := by
    have h : (cartesianToSkyF binary64 lib.atan2 lib.asin ⟨1, 0, 2 ^ 27⟩ d).dec = some dec := by rw [hs]
    unfold cartesianToSkyF at h
    simp only [hD, et] at h
    rw [if_neg (by positivity), if_pos (by norm_num)] at h
    exact (Option.some.inj h).symm
  have hpos : binary64.tiny ≤ dist := by rw [ed]; exact ht.trans (by norm_num)
  obtain ⟨f1, -, -⟩ := C130_position hl d hpos e4 e5
  refine ⟨skyToCartesianF binary64 lib dist ra dec d, by simp [thereAndBack, hs], ?_⟩
  have g1 := deg_err (M := 158 / 100) d ((hl.asin_le 1 (by norm_num)).trans (by linarith))
  rw [← edec] at g1
  have g2 := hl.asin 1 (by norm_num)
  rw [Real.arcsin_one] at g2
  have g3 := Real.abs_cos_sub_cos_le (dec * conversion d) (Real.pi / 2)
  rw [Real.cos_pi_div_two, sub_zero] at g3
  have g4 := abs_tri (dec * conversion d) (lib.asin 1) (Real.pi / 2)
  have g5 : |Real.cos (dec * conversion d) * Real.cos (ra * conversion d)| ≤ 4 * binary64.u + κ := by
    rw [abs_mul]
    have := Real.abs_cos_le_one (ra * conversion d)
    nlinarith [abs_nonneg (Real.cos (dec * conversion d)), abs_nonneg (Real.cos (ra * conversion d))]
  have g6 : |dist * (Real.cos (dec * conversion d) * Real.cos (ra * conversion d))| ≤ dist * (4 * binary64.u + κ) := by
    rw [abs_mul, abs_of_nonneg (by rw [ed]; positivity)]
    exact mul_le_mul_of_nonneg_left g5 (by rw [ed]; positivity)
  have g7 := abs_le_sub (skyToCartesianF binary64 lib dist ra dec d).x (dist * (Real.cos (dec * conversion d) * Real.cos (ra * conversion d)))
  rw [u64, ed] at f1 g6
  rw [ed] at g7 ⊢
  have : (2 : ℝ) ^ 27 * (21 * (1 / 2 ^ 53) + 2 * κ) + 2 ^ 27 * (4 * (1 / 2 ^ 53) + κ) ≤ 1 / 10 ^ 5 := by
    have : (2 : ℝ) ^ 27 * (3 * κ) ≤ 2 ^ 27 * (3 * (1 / 2 ^ 49)) := by
      refine mul_le_mul_of_nonneg_left (by linarith) (by positivity)
    norm_num at this ⊢
    linarith
  exact g7.trans ((add_le_add g6 f1).trans ((add_comm _ _).trans_le this))

/-- Library for the examples: exact functions, cut at the rounded value of pi. -/
noncomputable def exactLib : Libm :=
  ⟨Real.cos, Real.sin, fun t => max (-(npPi / 2)) (min (npPi / 2) (Real.arcsin t)),
    fun y x => max (-npPi) (min npPi (Complex.arg ⟨x, y⟩))⟩

theorem cut_le {a b x : ℝ} (hab : 0 ≤ a) (hb : a ≤ b) (hx : |x| ≤ b) : |max (-a) (min a x) - x| ≤ b - a ∧ |max (-a) (min a x)| ≤ a := by
  have h := abs_le.1 hx
  rcases le_total a x with h1 | h1
  · rw [min_eq_left h1, max_eq_right (by linarith), abs_of_nonneg hab, abs_sub_comm, abs_of_nonneg (by linarith)]
    exact ⟨by linarith, le_refl _⟩
  · rw [min_eq_right h1]
    rcases le_total (-a) x with h2 | h2
    · rw [max_eq_right h2, sub_self, abs_zero, abs_le]
      exact ⟨by linarith, h2, h1⟩
    · rw [max_eq_left h2, abs_neg, abs_of_nonneg hab, abs_of_nonneg (by linarith)]
      exact ⟨by linarith, le_refl _⟩

theorem exactLib_accurate : Accurate exactLib (1 / 2 ^ 51) := by
  obtain ⟨p1, p2, p3⟩ := npPi_lt
  have h2 := Real.pi_lt_d20
  have hd : Real.pi - npPi ≤ 1 / 2 ^ 51 := by
    rw [npPi_eq]
    norm_num at h2 ⊢
    linarith
  have ha : ∀ t, |Real.arcsin t| ≤ Real.pi / 2 := fun t => abs_le.2 ⟨Real.neg_pi_div_two_le_arcsin t, Real.arcsin_le_pi_div_two t⟩
  refine ⟨fun t => ?_, fun t => ?_, fun t _ => ?_, fun x y => ?_, Real.abs_cos_le_one, Real.abs_sin_le_one, fun t _ => ?_, fun x y => ?_⟩
  · simp [exactLib]
  · simp [exactLib]
  · exact (cut_le (by linarith) (by linarith) (ha t)).1.trans (by linarith)
  · exact (cut_le (by linarith) p1.le (Complex.abs_arg_le_pi _)).1.trans hd
  · exact (cut_le (by linarith) (by linarith) (ha t)).2
  · exact (cut_le (by linarith) p1.le (Complex.abs_arg_le_pi _)).2

/-- Non-vacuity of C130: (3, 4, 12) comes back up to 1.3e-12. -/
example : ∃ w, thereAndBack binary64 exactLib ⟨3, 4, 12⟩ true = some w ∧ |w.x - 3| ≤ 13 / 10 ^ 13 := by
  have ht : binary64.tiny ≤ 1 := zpow_le_one_of_nonpos₀ (by norm_num) (by norm_num [binary64])
  have hf : ∀ n : ℤ, 1 ≤ n → n ≤ 100 → Regular binary64 n := by
    intro n h1 h2
    refine ⟨⟨n, 0, ?_, by norm_num [binary64], by norm_num⟩, .inl (ht.trans ?_)⟩
    · have e : (2 : ℤ) ^ binary64.p = 9007199254740992 := by norm_num [binary64]
      rw [e, abs_of_pos (by omega)]
      omega
    · have : (1 : ℝ) ≤ n := by exact_mod_cast h1
      nlinarith
  have hn : (⟨3, 4, 12⟩ : V3 ℝ).norm = 13 := by
    unfold V3.norm
    rw [show (3 : ℝ) ^ 2 + 4 ^ 2 + 12 ^ 2 = 13 ^ 2 by norm_num, Real.sqrt_sq (by norm_num)]
  obtain ⟨w, h1, -, -, h2⟩ := C130_double_partial exactLib_accurate true (v := ⟨3, 4, 12⟩) (by intro h; have := congrArg V3.x h; norm_num at this)
    (by exact_mod_cast hf 3 (by norm_num) (by norm_num)) (by exact_mod_cast hf 4 (by norm_num) (by norm_num))
    (by exact_mod_cast hf 12 (by norm_num) (by norm_num))
  refine ⟨w, h1, ?_⟩
  have h3 := (h2 (by rw [hn, show (3 : ℝ) ^ 2 + 4 ^ 2 = 5 ^ 2 by norm_num, Real.sqrt_sq (by norm_num)]; norm_num)).1
  rw [hn] at h3
  exact h3.trans (by norm_num)

end Verif.Props.RoundedSky
