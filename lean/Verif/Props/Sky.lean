import Verif.Model.Sky
import Verif.Lemmas.Remap
import Mathlib.Analysis.SpecialFunctions.Trigonometric.Angle
import Mathlib.Analysis.SpecialFunctions.Integrals.Basic
import Mathlib.Tactic.NormNum

/-!
# C22-C24: sky coordinates, angles and areas
-/

namespace Verif.Props
open Verif Verif.Model

/-- A full turn, in degrees or radians. -/
noncomputable def turn (degree : Bool) : ℝ := if degree then 360 else 2 * Real.pi

theorem conv_pos (d : Bool) : 0 < conversion d := by
  cases d <;> simp [conversion]; positivity

theorem turn_conv (d : Bool) : turn d * conversion d = 2 * Real.pi := by
  cases d <;> simp [turn, conversion]; ring

theorem turn_pos (d : Bool) : 0 < turn d := by cases d <;> simp [turn]; positivity

theorem pmod_range {m : ℝ} (hm : 0 < m) (a : ℝ) : 0 ≤ pmod a m ∧ pmod a m < m := by
  unfold pmod
  have h1 := Int.floor_le (a / m)
  have h2 := Int.lt_floor_add_one (a / m)
  rw [le_div_iff₀ hm] at h1
  rw [div_lt_iff₀ hm] at h2
  constructor <;> nlinarith

theorem pmod_unique {m : ℝ} (hm : 0 < m) {a b : ℝ} {k : ℤ} (h : b = a + k * m) (h0 : 0 ≤ b) (h1 : b < m) :
    pmod a m = b := by
  have : ⌊a / m⌋ = -k := by
    rw [Int.floor_eq_iff, le_div_iff₀ hm, div_lt_iff₀ hm]
    push_cast
    constructor <;> linarith
  rw [pmod, this, h]; push_cast; ring

/-! ## C23 -/

/-- C23: `wrap_angle` returns an angle in [0, turn) which differs from the input by a whole number of turns. -/
theorem C23_wrap (a : ℝ) (d : Bool) :
    0 ≤ wrapAngle a d ∧ wrapAngle a d < turn d ∧ ∃ k : ℤ, wrapAngle a d = a + k * turn d := by
  have hc := conv_pos d
  have hpi : (0 : ℝ) < 2 * Real.pi := by positivity
  obtain ⟨h1, h2⟩ := pmod_range hpi (a * conversion d)
  refine ⟨div_nonneg h1 hc.le, ?_, -⌊a * conversion d / (2 * Real.pi)⌋, ?_⟩
  · rw [wrapAngle, div_lt_iff₀ hc, turn_conv]; exact h2
  · rw [wrapAngle, pmod, ← turn_conv d]
    field_simp
    push_cast
    ring

/-- C23: it is the only one. -/
theorem C23_wrap_unique {a b : ℝ} (d : Bool) (h0 : 0 ≤ b) (h1 : b < turn d) (k : ℤ) (h : b = a + k * turn d) :
    wrapAngle a d = b := by
  have hc := conv_pos d
  have hpi : (0 : ℝ) < 2 * Real.pi := by positivity
  rw [wrapAngle, div_eq_iff hc.ne']
  refine pmod_unique hpi (k := k) ?_ (by positivity) ?_
  · rw [h, ← turn_conv d]; ring
  · rw [← turn_conv d]; exact mul_lt_mul_of_pos_right h1 hc

/-- C23: invariance by full turns. -/
theorem C23_wrap_turns (a : ℝ) (d : Bool) (k : ℤ) : wrapAngle (a + k * turn d) d = wrapAngle a d := by
  obtain ⟨h0, h1, k', hk⟩ := C23_wrap a d
  exact C23_wrap_unique d h0 h1 (k' - k) (by rw [hk]; push_cast; ring)

/-- C23: idempotence. -/
theorem C23_wrap_idempotent (a : ℝ) (d : Bool) : wrapAngle (wrapAngle a d) d = wrapAngle a d := by
  obtain ⟨h0, h1, k, hk⟩ := C23_wrap a d
  exact C23_wrap_unique d h0 h1 0 (by simp)

/-- C23: ranges of the results of `cartesian_to_sky`; Dec is not a number exactly at the origin. -/
theorem C23_ranges (p : V3 ℝ) (d : Bool) :
    0 ≤ (cartesianToSky p d).dist ∧ 0 ≤ (cartesianToSky p d).ra ∧ (cartesianToSky p d).ra < turn d ∧
      ((cartesianToSky p d).dec = none ↔ p = 0) ∧
      ∀ dec, (cartesianToSky p d).dec = some dec → -(turn d / 4) ≤ dec ∧ dec ≤ turn d / 4 := by
  have hc := conv_pos d
  obtain ⟨h0, h1, -⟩ := C23_wrap (arctan2 p.y p.x) false
  refine ⟨V3.norm_nonneg _, div_nonneg h0 hc.le, ?_, ?_, ?_⟩
  · simp only [cartesianToSky]
    rw [div_lt_iff₀ hc, turn_conv]; exact h1
  · simp only [cartesianToSky]
    rw [← V3.norm_eq_zero]
    split <;> simp [*]
  · intro dec h
    simp only [cartesianToSky] at h
    split at h
    · simp at h
    · simp only [Option.some.injEq] at h
      have hq : turn d / 4 * conversion d = Real.pi / 2 := by have := turn_conv d; linarith
      rw [← h, le_div_iff₀ hc, div_le_iff₀ hc, neg_mul, hq]
      exact ⟨Real.neg_pi_div_two_le_arcsin _, Real.arcsin_le_pi_div_two _⟩

/-! ## C22 -/

theorem cos_wrap (a : ℝ) : Real.cos (wrapAngle a false) = Real.cos a ∧ Real.sin (wrapAngle a false) = Real.sin a := by
  obtain ⟨-, -, k, hk⟩ := C23_wrap a false
  rw [hk]
  simp only [turn, Bool.false_eq_true, if_false]
  exact ⟨Real.cos_add_int_mul_two_pi a k, Real.sin_add_int_mul_two_pi a k⟩

theorem norm_mul_cos_dec {p : V3 ℝ} (hp : p ≠ 0) :
    p.norm * Real.cos (Real.arcsin (p.z / p.norm)) = ‖(⟨p.x, p.y⟩ : ℂ)‖ := by
  have hn := V3.norm_pos hp
  rw [Real.cos_arcsin]
  have h1 : 1 - (p.z / p.norm) ^ 2 = (p.x ^ 2 + p.y ^ 2) / p.norm ^ 2 := by
    have := V3.norm_sq p
    field_simp
    linarith
  rw [h1, Real.sqrt_div (by positivity), Real.sqrt_sq hn.le, mul_div_cancel₀ _ hn.ne', Complex.norm_def,
    Complex.normSq_mk]
  congr 1; ring

theorem abs_z_le_norm (p : V3 ℝ) : |p.z| ≤ p.norm := by
  rw [← Real.sqrt_sq_eq_abs]
  exact Real.sqrt_le_sqrt (by nlinarith [sq_nonneg p.x, sq_nonneg p.y])

/-- C22: `cartesian_to_sky` then `sky_to_cartesian` gives the position back, in degrees or radians. -/
theorem C22_from_cartesian {p : V3 ℝ} (hp : p ≠ 0) (d : Bool) :
    ∃ dec, (cartesianToSky p d).dec = some dec ∧
      skyToCartesian (.float (cartesianToSky p d).dist) (.float (cartesianToSky p d).ra) (.float dec) d = p := by
  have hn := V3.norm_pos hp
  have hc := conv_pos d
  refine ⟨Real.arcsin (p.z / p.norm) / conversion d, by simp [cartesianToSky, hn.ne'], ?_⟩
  obtain ⟨c1, c2⟩ := cos_wrap (arctan2 p.y p.x)
  have hd := norm_mul_cos_dec hp
  have hz : -1 ≤ p.z / p.norm ∧ p.z / p.norm ≤ 1 := by
    rw [← abs_le, abs_div, abs_of_pos hn, div_le_one hn]; exact abs_z_le_norm p
  simp only [skyToCartesian, cartesianToSky, Num.val, Num.kind, Kind.join, store, div_mul_cancel₀ _ hc.ne', c1, c2,
    Real.sin_arcsin hz.1 hz.2]
  have k1 := Complex.norm_mul_cos_arg (⟨p.x, p.y⟩ : ℂ)
  have k2 := Complex.norm_mul_sin_arg (⟨p.x, p.y⟩ : ℂ)
  ext
  · simp only [V3.smul_x, reduceCtorEq, and_self, if_false]
    rw [← mul_assoc, hd]; exact k1
  · simp only [V3.smul_y, reduceCtorEq, and_self, if_false]
    rw [← mul_assoc, hd]; exact k2
  · simp only [V3.smul_z, reduceCtorEq, and_self, if_false]
    exact mul_div_cancel₀ _ hn.ne'

/-- The statement of C22 for given arguments: distance and Dec are recovered, RA up to full turns. -/
def SkyRoundTrip (dist ra dec : Num) (d : Bool) : Prop :=
  let s := cartesianToSky (skyToCartesian dist ra dec d) d
  s.dist = dist.val ∧ s.ra = wrapAngle ra.val d ∧ s.dec = some dec.val

theorem norm_polar (r A D : ℝ) (hr : 0 ≤ r) :
    (⟨r * (Real.cos D * Real.cos A), r * (Real.cos D * Real.sin A), r * Real.sin D⟩ : V3 ℝ).norm = r := by
  have : (⟨r * (Real.cos D * Real.cos A), r * (Real.cos D * Real.sin A), r * Real.sin D⟩ : V3 ℝ).norm ^ 2 = r ^ 2 := by
    rw [V3.norm_sq]
    have h1 := Real.sin_sq_add_cos_sq A
    have h2 := Real.sin_sq_add_cos_sq D
    linear_combination r ^ 2 * h2 + r ^ 2 * Real.cos D ^ 2 * h1
  exact (sq_eq_sq₀ (V3.norm_nonneg _) hr).1 this

theorem wrap_arg_polar (r A : ℝ) (hr : 0 < r) :
    wrapAngle (arctan2 (r * Real.sin A) (r * Real.cos A)) false = wrapAngle A false := by
  have hz : (⟨r * Real.cos A, r * Real.sin A⟩ : ℂ) = r * (Real.cos A + Real.sin A * Complex.I) := by
    apply Complex.ext <;> simp [-Complex.ofReal_cos, -Complex.ofReal_sin]
  have ha : arctan2 (r * Real.sin A) (r * Real.cos A) = toIocMod Real.two_pi_pos (-Real.pi) A := by
    rw [arctan2, hz]
    have := Complex.arg_mul_cos_add_sin_mul_I_eq_toIocMod hr A
    push_cast at this ⊢
    exact this
  have := C23_wrap_turns A false (-toIocDiv Real.two_pi_pos (-Real.pi) A)
  rw [← this, ha]
  congr 1
  rw [toIocMod, zsmul_eq_mul]
  simp only [turn, Bool.false_eq_true, if_false]
  push_cast
  ring

theorem wrap_conv (a : ℝ) (d : Bool) : wrapAngle (a * conversion d) false / conversion d = wrapAngle a d := by
  simp [wrapAngle, conversion]

/-- C22: `sky_to_cartesian` then `cartesian_to_sky`, when not all the arguments are integers. -/
theorem C22_from_sky_partial {dist ra dec : Num} (hk : ¬ (dist.kind = .int ∧ ra.kind = .int ∧ dec.kind = .int))
    (d : Bool) (hd : 0 < dist.val) (h1 : -(turn d / 4) < dec.val) (h2 : dec.val < turn d / 4) :
    SkyRoundTrip dist ra dec d := by
  have hc := conv_pos d
  have hq : turn d / 4 * conversion d = Real.pi / 2 := by have := turn_conv d; linarith
  have b1 : -(Real.pi / 2) < dec.val * conversion d := by
    rw [← hq, ← neg_mul]; exact mul_lt_mul_of_pos_right h1 hc
  have b2 : dec.val * conversion d < Real.pi / 2 := by
    rw [← hq]; exact mul_lt_mul_of_pos_right h2 hc
  have hcos : 0 < Real.cos (dec.val * conversion d) := Real.cos_pos_of_mem_Ioo ⟨b1, b2⟩
  have hkind : (dist.kind.join ra.kind).join dec.kind = .float := by
    cases h1 : dist.kind <;> cases h2 : ra.kind <;> cases h3 : dec.kind <;> simp_all [Kind.join]
  have hp : skyToCartesian dist ra dec d =
      ⟨dist.val * (Real.cos (dec.val * conversion d) * Real.cos (ra.val * conversion d)),
        dist.val * (Real.cos (dec.val * conversion d) * Real.sin (ra.val * conversion d)),
        dist.val * Real.sin (dec.val * conversion d)⟩ := by
    simp only [skyToCartesian, hkind, store]; rfl
  unfold SkyRoundTrip
  simp only [hp, cartesianToSky, norm_polar _ _ _ hd.le, hd.ne', if_false]
  refine ⟨trivial, ?_, ?_⟩
  · rw [← mul_assoc, ← mul_assoc, wrap_arg_polar _ _ (by positivity), wrap_conv]
  · rw [mul_div_cancel_left₀ _ hd.ne', Real.arcsin_sin b1.le b2.le, mul_div_cancel_right₀ _ hc.ne']

/-- C22: in particular RA in [0, turn) is recovered. -/
theorem C22_from_sky_exact_partial {dist ra dec : Num}
    (hk : ¬ (dist.kind = .int ∧ ra.kind = .int ∧ dec.kind = .int))
    (d : Bool) (hd : 0 < dist.val) (h1 : -(turn d / 4) < dec.val) (h2 : dec.val < turn d / 4)
    (h3 : 0 ≤ ra.val) (h4 : ra.val < turn d) :
    let s := cartesianToSky (skyToCartesian dist ra dec d) d
    s.dist = dist.val ∧ s.ra = ra.val ∧ s.dec = some dec.val := by
  obtain ⟨a, b, c⟩ := C22_from_sky_partial (ra := ra) hk d hd h1 h2
  exact ⟨a, b.trans (C23_wrap_unique d h3 h4 0 (by simp)), c⟩

example : ¬ ((Num.int 100).kind = .int ∧ (Num.float 30.5).kind = .int ∧ (Num.int (-20)).kind = .int) ∧
    0 < (Num.int 100).val ∧ -(turn true / 4) < (Num.int (-20)).val ∧ (Num.int (-20)).val < turn true / 4 := by
  refine ⟨by simp [Num.kind], ?_, ?_, ?_⟩ <;> norm_num [Num.val, turn]

/-- C22: at the poles distance and Dec are recovered and RA is 0. -/
theorem C22_poles (r A : ℝ) (hr : 0 < r) (north : Bool) :
    let dec : ℝ := if north then 90 else -90
    let s := cartesianToSky (skyToCartesian (.float r) (.float A) (.float dec) true) true
    s.dist = r ∧ s.ra = 0 ∧ s.dec = some dec := by
  have hpi := Real.pi_pos
  intro dec
  have hD : dec * conversion true = if north then Real.pi / 2 else -(Real.pi / 2) := by
    simp only [dec, conversion]; cases north <;> simp <;> ring
  have hcos : Real.cos (dec * conversion true) = 0 := by rw [hD]; cases north <;> simp
  have hsin : Real.sin (dec * conversion true) = if north then 1 else -1 := by rw [hD]; cases north <;> simp
  have hp : skyToCartesian (.float r) (.float A) (.float dec) true = ⟨0, 0, r * if north then 1 else -1⟩ := by
    simp only [skyToCartesian, Num.kind, Kind.join, store, Num.val, hcos, hsin]
    ext <;> simp
  have hn : (⟨0, 0, r * if north then 1 else -1⟩ : V3 ℝ).norm = r := by
    have : (⟨0, 0, r * if north then 1 else -1⟩ : V3 ℝ).norm ^ 2 = r ^ 2 := by
      rw [V3.norm_sq]; cases north <;> simp
    exact (sq_eq_sq₀ (V3.norm_nonneg _) hr.le).1 this
  have hz : arctan2 0 0 = 0 := by
    have : (⟨0, 0⟩ : ℂ) = 0 := rfl
    rw [arctan2, this, Complex.arg_zero]
  intro s
  refine ⟨by simp only [s, hp, cartesianToSky, hn], ?_, ?_⟩
  · simp only [s, hp, cartesianToSky, hz]
    have : wrapAngle 0 false = 0 := C23_wrap_unique false le_rfl (turn_pos _) 0 (by simp)
    rw [this, zero_div]
  · simp only [s, hp, cartesianToSky, hn, hr.ne', if_false, mul_div_cancel_left₀ _ hr.ne', dec, conversion]
    cases north <;> simp [Real.arcsin_neg] <;> field_simp <;> norm_num

/-- C22 is violated when all the arguments are integers: the unit vector is truncated to integers. -/
theorem C22_integers_violated : ¬ ∀ (dist ra dec : Num) (d : Bool), 0 < dist.val → -(turn d / 4) < dec.val →
    dec.val < turn d / 4 → SkyRoundTrip dist ra dec d := by
  intro h
  have h' := (h (.int 100) (.int 45) (.int 0) true (by norm_num [Num.val]) (by norm_num [Num.val, turn])
    (by norm_num [Num.val, turn])).1
  have e1 : Real.cos (45 * (Real.pi / 180)) = Real.sqrt 2 / 2 := by
    rw [← Real.cos_pi_div_four]; congr 1; ring
  have e2 : Real.sin (45 * (Real.pi / 180)) = Real.sqrt 2 / 2 := by
    rw [← Real.sin_pi_div_four]; congr 1; ring
  have hs : ⌊Real.sqrt 2 / 2⌋ = 0 := by
    rw [Int.floor_eq_iff]
    have h0 := Real.sqrt_nonneg 2
    have h2 : Real.sqrt 2 < 2 := by rw [Real.sqrt_lt' (by norm_num)]; norm_num
    constructor <;> push_cast <;> linarith
  have hp : skyToCartesian (.int 100) (.int 45) (.int 0) true = 0 := by
    have h0 : (0 : ℝ) ≤ Real.sqrt 2 / 2 := by positivity
    simp only [skyToCartesian, Num.kind, Kind.join, Num.val, conversion, if_true, Int.cast_ofNat, Int.cast_zero,
      zero_mul, Real.cos_zero, Real.sin_zero, one_mul, e1, e2, store, and_self, h0, hs, le_refl, Int.floor_zero]
    ext <;> simp
  rw [hp] at h'
  simp [cartesianToSky, V3.norm, Num.val] at h'

/-- Truncation of a sine or cosine to an integer. -/
theorem store_int_unit {x : ℝ} (h1 : -1 ≤ x) (h2 : x ≤ 1) : store .int x = if x = 1 then 1 else if x = -1 then -1 else 0 := by
  unfold store
  simp only
  split_ifs with h h3 h4 h5 h6
  · simp [h3]
  · rw [h4] at h
    norm_num at h
  · rw [Int.floor_eq_zero_iff.mpr ⟨h, lt_of_le_of_ne h2 h3⟩]
    simp
  · rw [h5] at h
    norm_num at h
  · have : ⌈x⌉ = -1 := by
      rw [h6, Int.ceil_eq_iff]
      norm_num
    rw [this]
    norm_num
  · have : ⌈x⌉ = 0 := by
      rw [Int.ceil_eq_iff]
      have := lt_of_le_of_ne h1 (Ne.symm h6)
      push_cast
      constructor <;> linarith
    rw [this]
    simp

/-- C22: what integers give: each coordinate is the distance, its opposite or zero, and it is not zero only where the direction is
along the axis. -/
theorem C22_integers (dist ra dec : ℤ) (d : Bool) :
    let u : V3 ℝ := ⟨Real.cos (dec * conversion d) * Real.cos (ra * conversion d),
      Real.cos (dec * conversion d) * Real.sin (ra * conversion d), Real.sin (dec * conversion d)⟩
    let cut : ℝ → ℝ := fun c => if c = 1 then (dist : ℝ) else if c = -1 then -(dist : ℝ) else 0
    skyToCartesian (.int dist) (.int ra) (.int dec) d = ⟨cut u.x, cut u.y, cut u.z⟩ := by
  intro u cut
  have hb : ∀ a b : ℝ, |a| ≤ 1 → |b| ≤ 1 → -1 ≤ a * b ∧ a * b ≤ 1 := by
    intro a b ha hb
    have : |a * b| ≤ 1 := by rw [abs_mul]; exact mul_le_one₀ ha (abs_nonneg _) hb
    exact abs_le.mp this
  have hcut : ∀ c : ℝ, -1 ≤ c → c ≤ 1 → (dist : ℝ) * store .int c = cut c := by
    intro c h1 h2
    rw [store_int_unit h1 h2]
    simp only [cut]
    split_ifs <;> simp
  have hx := hb (Real.cos (dec * conversion d)) (Real.cos (ra * conversion d)) (Real.abs_cos_le_one _) (Real.abs_cos_le_one _)
  have hy := hb (Real.cos (dec * conversion d)) (Real.sin (ra * conversion d)) (Real.abs_cos_le_one _) (Real.abs_sin_le_one _)
  ext
  · exact hcut _ hx.1 hx.2
  · exact hcut _ hy.1 hy.2
  · exact hcut _ (Real.neg_one_le_sin _) (Real.sin_le_one _)

/-! ## C24 -/

/-- C24: the area is the integral over the box of the solid angle element cos(Dec) dRA dDec, in square degrees. -/
theorem C24_solid_angle (r d : ℝ × ℝ) :
    radecboxArea r d = ∫ y in d.1..d.2, ∫ _x in r.1..r.2, Real.cos (y * (Real.pi / 180)) := by
  have hc : (Real.pi / 180 : ℝ) ≠ 0 := by positivity
  simp only [intervalIntegral.integral_const, smul_eq_mul, intervalIntegral.integral_const_mul]
  rw [intervalIntegral.integral_comp_mul_right (fun y => Real.cos y) hc, integral_cos]
  simp only [radecboxArea, rad2deg, deg2rad, smul_eq_mul]
  field_simp

/-- C24: the full sky has 4 pi steradians. -/
theorem C24_full_sky : radecboxArea (0, 360) (-90, 90) * (Real.pi / 180) ^ 2 = 4 * Real.pi := by
  have hpi := Real.pi_ne_zero
  have e1 : Real.sin (90 * (Real.pi / 180)) = 1 := by rw [← Real.sin_pi_div_two]; congr 1; ring
  have e2 : Real.sin (-90 * (Real.pi / 180)) = -1 := by rw [neg_mul, Real.sin_neg, e1]
  simp only [radecboxArea, rad2deg, deg2rad, e1, e2]
  field_simp
  norm_num

/-- C24: additivity when the box is split. -/
theorem C24_additive (a b c d e f : ℝ) :
    radecboxArea (a, c) (d, e) = radecboxArea (a, b) (d, e) + radecboxArea (b, c) (d, e) ∧
    radecboxArea (a, b) (d, f) = radecboxArea (a, b) (d, e) + radecboxArea (a, b) (e, f) := by
  constructor <;> simp only [radecboxArea] <;> ring

theorem rad2deg_sin_mono {x y : ℝ} (h1 : -90 ≤ x) (h2 : x ≤ y) (h3 : y ≤ 90) :
    rad2deg (Real.sin (deg2rad x)) ≤ rad2deg (Real.sin (deg2rad y)) := by
  have hpi := Real.pi_pos
  have hc : 0 < Real.pi / 180 := by positivity
  have : Real.sin (deg2rad x) ≤ Real.sin (deg2rad y) := by
    apply Real.sin_le_sin_of_le_of_le_pi_div_two <;> simp only [deg2rad] <;> nlinarith
  exact mul_le_mul_of_nonneg_right this (by positivity)

/-- C24: for increasing limits (RA not wrapping through 0), the area is non-negative, and monotone. -/
theorem C24_monotone_partial {r r' d d' : ℝ × ℝ} (hr : r'.1 ≤ r.1 ∧ r.1 ≤ r.2 ∧ r.2 ≤ r'.2)
    (hd : -90 ≤ d'.1 ∧ d'.1 ≤ d.1 ∧ d.1 ≤ d.2 ∧ d.2 ≤ d'.2 ∧ d'.2 ≤ 90) :
    0 ≤ radecboxArea r d ∧ radecboxArea r d ≤ radecboxArea r' d' := by
  have m1 := rad2deg_sin_mono hd.1 hd.2.1 (by linarith [hd.2.2.1, hd.2.2.2.1, hd.2.2.2.2])
  have m2 := rad2deg_sin_mono (x := d.1) (y := d.2) (by linarith [hd.1, hd.2.1]) hd.2.2.1
    (by linarith [hd.2.2.2.1, hd.2.2.2.2])
  have m3 := rad2deg_sin_mono (x := d.2) (y := d'.2) (by linarith [hd.1, hd.2.1, hd.2.2.1]) hd.2.2.2.1 hd.2.2.2.2
  simp only [radecboxArea]
  constructor
  · exact mul_nonneg (by linarith) (by linarith [hr.2.1])
  · exact mul_le_mul (by linarith) (by linarith [hr.1, hr.2.2]) (by linarith [hr.2.1]) (by linarith)

example : ((0 : ℝ) ≤ 10 ∧ (10 : ℝ) ≤ 40 ∧ (40 : ℝ) ≤ 90) ∧
    (-90 ≤ (-80 : ℝ) ∧ (-80 : ℝ) ≤ -20 ∧ (-20 : ℝ) ≤ 30 ∧ (30 : ℝ) ≤ 60 ∧ (60 : ℝ) ≤ 90) := by norm_num

/-- C24 is violated for RA ranges which wrap through 0, such as 300 to 40 degrees: the area is negative, while that of
the same region written as 300 to 400 degrees is positive. -/
theorem C24_wrapped_violated : ∃ r d : ℝ × ℝ, r.2 < r.1 ∧ r.1 < 360 ∧ 0 ≤ r.2 ∧ -90 ≤ d.1 ∧ d.1 < d.2 ∧ d.2 ≤ 90 ∧
    radecboxArea r d < 0 ∧ 0 < radecboxArea (r.1, r.2 + 360) d := by
  refine ⟨(300, 40), (-90, 90), by norm_num, by norm_num, by norm_num, by norm_num, by norm_num, by norm_num, ?_⟩
  have hpi := Real.pi_pos
  have e1 : Real.sin (90 * (Real.pi / 180)) = 1 := by rw [← Real.sin_pi_div_two]; congr 1; ring
  have e2 : Real.sin (-90 * (Real.pi / 180)) = -1 := by rw [neg_mul, Real.sin_neg, e1]
  simp only [radecboxArea, rad2deg, deg2rad, e1, e2]
  have : 0 < 180 / Real.pi := by positivity
  constructor <;> nlinarith

end Verif.Props
