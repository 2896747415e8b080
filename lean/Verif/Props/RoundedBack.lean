import Verif.Props.RoundedSky
import Verif.Lemmas.Remap

/-!
# C130: sky coordinates to positions and back, with rounding errors
-/

namespace Verif.Props.RoundedBack

open Verif Verif.Model Verif.Model.Rounded Verif.Model.RoundedSky Verif.Props.Rounded Verif.Props.RoundedSky Verif.Lemmas.RoundedIsometry

set_option exponentiation.threshold 1100 in
theorem tiny64_le {N : ℝ} (h : 1 / 2 ^ 200 ≤ N) : binary64.tiny ≤ 1 / 2 ^ 100 * N ∧ binary64.tiny ≤ 1 / 2 ^ 100 * N ^ 2 := by
  have e : binary64.tiny = 1 / 2 ^ 1022 := by norm_num [Fmt.tiny, binary64]
  rw [e]
  constructor
  · have : (1 : ℝ) / 2 ^ 1022 ≤ 1 / 2 ^ 100 * (1 / 2 ^ 200) := by norm_num
    linarith [mul_le_mul_of_nonneg_left h (by positivity : (0 : ℝ) ≤ 1 / 2 ^ 100)]
  · have h2 : (1 / 2 ^ 200 : ℝ) ^ 2 ≤ N ^ 2 := pow_le_pow_left₀ (by positivity) h 2
    have : (1 : ℝ) / 2 ^ 1022 ≤ 1 / 2 ^ 100 * (1 / 2 ^ 200) ^ 2 := by norm_num
    linarith [mul_le_mul_of_nonneg_left h2 (by positivity : (0 : ℝ) ≤ 1 / 2 ^ 100)]

theorem norm_sq' (v : V3 ℝ) : v.norm ^ 2 = v.x ^ 2 + v.y ^ 2 + v.z ^ 2 := Real.sq_sqrt (by positivity)

/-- Sum of squares, even if squares of some coordinates underflow. -/
theorem sum_err {v : V3 ℝ} (hN : 1 / 2 ^ 200 ≤ v.norm) :
    |binary64.rnd (binary64.rnd (binary64.rnd (v.x ^ 2) + binary64.rnd (v.y ^ 2)) + binary64.rnd (v.z ^ 2)) - v.norm ^ 2| ≤
      4 * binary64.u * v.norm ^ 2 := by
  have hu := Fmt.u_pos (F := binary64)
  have hu' : binary64.u ≤ 1 / 1000 := by rw [u64]; norm_num
  obtain ⟨-, ht⟩ := tiny64_le hN
  have hn := norm_sq' v
  have hq : 0 ≤ v.norm ^ 2 := sq_nonneg _
  have a := rnd_err_tiny (F := binary64) (v.x ^ 2)
  have b := rnd_err_tiny (F := binary64) (v.y ^ 2)
  have c := rnd_err_tiny (F := binary64) (v.z ^ 2)
  rw [abs_of_nonneg (sq_nonneg v.x)] at a
  rw [abs_of_nonneg (sq_nonneg v.y)] at b
  rw [abs_of_nonneg (sq_nonneg v.z)] at c
  set X := binary64.rnd (v.x ^ 2)
  set Y := binary64.rnd (v.y ^ 2)
  set Z := binary64.rnd (v.z ^ 2)
  set Q := v.norm ^ 2
  have d := rnd_err_tiny (F := binary64) (X + Y)
  set P := binary64.rnd (X + Y)
  have e := rnd_err_tiny (F := binary64) (P + Z)
  have hX : 0 ≤ X := Fmt.rnd_nonneg (sq_nonneg _)
  have hY : 0 ≤ Y := Fmt.rnd_nonneg (sq_nonneg _)
  have hZ : 0 ≤ Z := Fmt.rnd_nonneg (sq_nonneg _)
  have hP : 0 ≤ P := Fmt.rnd_nonneg (by positivity)
  rw [abs_of_nonneg (add_nonneg hX hY)] at d
  rw [abs_of_nonneg (add_nonneg hP hZ)] at e
  set t := binary64.tiny
  set S := binary64.rnd (P + Z)
  have ht' : t ≤ 1 / 1000 * Q := ht.trans (mul_le_mul_of_nonneg_right (by norm_num) hq)
  have s1 : |X + Y + Z - Q| ≤ binary64.u * (1003 / 1000 * Q) := by
    have e1 : X + Y + Z - Q = (X - v.x ^ 2) + (Y - v.y ^ 2) + (Z - v.z ^ 2) := by rw [hn]; ring
    rw [e1]
    have := abs_add_three (X - v.x ^ 2) (Y - v.y ^ 2) (Z - v.z ^ 2)
    have : binary64.u * (v.x ^ 2 + t) + binary64.u * (v.y ^ 2 + t) + binary64.u * (v.z ^ 2 + t) = binary64.u * (Q + 3 * t) := by rw [hn]; ring
    have := mul_le_mul_of_nonneg_left (by linarith : Q + 3 * t ≤ 1003 / 1000 * Q) hu.le
    linarith
  have s1' := abs_le.1 s1
  have uQ : binary64.u * (1003 / 1000 * Q) ≤ 2 / 1000 * Q := by nlinarith
  have s2 : |P - (X + Y)| ≤ binary64.u * (101 / 100 * Q) := d.trans (mul_le_mul_of_nonneg_left (by linarith) hu.le)
  have s2' := abs_le.1 s2
  have uQ' : binary64.u * (101 / 100 * Q) ≤ 2 / 1000 * Q := by nlinarith
  have s3 : |S - (P + Z)| ≤ binary64.u * (101 / 100 * Q) := e.trans (mul_le_mul_of_nonneg_left (by linarith) hu.le)
  have s3' := abs_le.1 s3
  rw [abs_le]
  have : 0 ≤ binary64.u * Q := by positivity
  constructor <;> linarith

/-- The distance, even if squares of some coordinates underflow. -/
theorem distance_err {v : V3 ℝ} (hN : 1 / 2 ^ 200 ≤ v.norm) : |distanceF binary64 v - v.norm| ≤ 6 * binary64.u * v.norm := by
  have hu := Fmt.u_pos (F := binary64)
  have hu' : binary64.u ≤ 1 / 1000 := by rw [u64]; norm_num
  have hN0 : 0 < v.norm := lt_of_lt_of_le (by positivity) hN
  obtain ⟨ht, -⟩ := tiny64_le hN
  have h := sum_err hN
  unfold distanceF
  set S := binary64.rnd (binary64.rnd (binary64.rnd (v.x ^ 2) + binary64.rnd (v.y ^ 2)) + binary64.rnd (v.z ^ 2))
  have hS : 0 ≤ S := by
    have := (abs_le.1 h).1
    nlinarith [sq_nonneg v.norm]
  set r := Real.sqrt S
  have hr : 0 ≤ r := Real.sqrt_nonneg S
  have er : r ^ 2 = S := Real.sq_sqrt hS
  have h1 : |r - v.norm| ≤ 4 * binary64.u * v.norm := by
    have e1 : |r - v.norm| * (r + v.norm) ≤ 4 * binary64.u * v.norm ^ 2 := by
      rw [← abs_of_nonneg (add_nonneg hr hN0.le), ← abs_mul]
      have : (r - v.norm) * (r + v.norm) = S - v.norm ^ 2 := by rw [← er]; ring
      rwa [this]
    have e2 : |r - v.norm| * v.norm ≤ 4 * binary64.u * v.norm * v.norm := by nlinarith [abs_nonneg (r - v.norm), mul_nonneg (abs_nonneg (r - v.norm)) hr]
    exact le_of_mul_le_mul_right e2 hN0
  have h2 := rnd_err_tiny (F := binary64) r
  rw [abs_of_nonneg hr] at h2
  have h3 := abs_tri (binary64.rnd r) r v.norm
  have h4 := (abs_le.1 h1).2
  have ht' : binary64.tiny ≤ 1 / 1000 * v.norm := ht.trans (mul_le_mul_of_nonneg_right (by norm_num) hN0.le)
  have h6 : 4 * binary64.u * v.norm ≤ 4 / 1000 * v.norm := by nlinarith
  have h5 : binary64.u * (r + binary64.tiny) ≤ binary64.u * (2 * v.norm) := mul_le_mul_of_nonneg_left (by linarith) hu.le
  linarith

/-- The distance is not below the third coordinate. -/
theorem le_distance {v : V3 ℝ} (hN : 1 / 2 ^ 200 ≤ v.norm) (hz : binary64.IsFloat v.z) : |v.z| ≤ distanceF binary64 v := by
  by_cases h : binary64.tiny ≤ v.z ^ 2 ∨ v.z = 0
  · exact ge_coord ⟨hz, h⟩ (sum_ge (F := binary64) v).2.2
  · push Not at h
    have hu' : binary64.u ≤ 1 / 1000 := by rw [u64]; norm_num
    have hN0 : 0 < v.norm := lt_of_lt_of_le (by positivity) hN
    obtain ⟨-, ht⟩ := tiny64_le hN
    have hd := (abs_le.1 (distance_err hN)).1
    have h1 : |v.z| ≤ v.norm / 2 := by
      refine abs_le_of_sq_le_sq ?_ (by positivity)
      have : (1 : ℝ) / 2 ^ 100 * v.norm ^ 2 ≤ 1 / 4 * v.norm ^ 2 := mul_le_mul_of_nonneg_right (by norm_num) (sq_nonneg _)
      nlinarith [h.1]
    nlinarith

/-- C130: `cartesian_to_sky` of positions which are not too close to the origin, even if squares of some coordinates underflow. -/
theorem C130_sky_far {lib : Libm} {κ : ℝ} (hl : Accurate lib κ) (d : Bool) {v : V3 ℝ} (hN : 1 / 2 ^ 200 ≤ v.norm) (hz : binary64.IsFloat v.z) :
    ∃ dist ra dec, cartesianToSkyF binary64 lib.atan2 lib.asin v d = ⟨dist, ra, some dec⟩ ∧
      |dist - v.norm| ≤ 6 * binary64.u * v.norm ∧
      (∃ n : ℤ, |ra * conversion d - (Complex.arg ⟨v.x, v.y⟩ + n * (2 * Real.pi))| ≤ 34 * binary64.u + κ) ∧
      |Real.sin (dec * conversion d) - v.z / v.norm| ≤ 12 * binary64.u + κ ∧
      |ra| ≤ turn d ∧ |dec| ≤ turn d / 4 := by
  have hu := Fmt.u_pos (F := binary64)
  have hu' : binary64.u ≤ 1 / 1000 := by rw [u64]; norm_num
  obtain ⟨p1, p2, p3⟩ := npPi_lt
  have hN0 : 0 < v.norm := lt_of_lt_of_le (by positivity) hN
  have hde := distance_err hN
  have hle := le_distance hN hz
  have hde' := abs_le.1 hde
  have hd : 0 < distanceF binary64 v := by nlinarith
  have hlow : 99 / 100 * v.norm ≤ distanceF binary64 v := by nlinarith
  set D := distanceF binary64 v with hD
  have hq : |v.z / D| ≤ 1 := by rw [abs_div, abs_of_pos hd, div_le_one hd]; exact hle
  have t1 : |binary64.rnd (v.z / D)| ≤ 1 := Verif.Lemmas.RoundedIsometry.rnd_one hq
  have t2 : |binary64.rnd (v.z / D) - v.z / v.norm| ≤ 8 * binary64.u := by
    have a := rnd_bound (F := binary64) hq
    have e1 : v.z / D - v.z / v.norm = v.z / v.norm * ((v.norm - D) / D) := by field_simp
    have hq' : |v.z / v.norm| ≤ 1 := by rw [abs_div, abs_of_pos hN0, div_le_one hN0]; exact Verif.Props.abs_z_le_norm v
    have b : |v.z / D - v.z / v.norm| ≤ 65 / 10 * binary64.u := by
      rw [e1, abs_mul]
      have : |(v.norm - D) / D| ≤ 65 / 10 * binary64.u := by
        rw [abs_div, abs_of_pos hd, div_le_iff₀ hd, abs_sub_comm]
        nlinarith
      nlinarith [abs_nonneg (v.z / v.norm), abs_nonneg ((v.norm - D) / D)]
    have c := abs_tri (binary64.rnd (v.z / D)) (v.z / D) (v.z / v.norm)
    linarith
  set t := binary64.rnd (v.z / D) with htd
  obtain ⟨n, w1, w2⟩ := wrap_err (hl.atan2_le v.x v.y)
  set W := wrapAngleF binary64 (lib.atan2 v.y v.x) false with hW
  have hconv := conv_pos64 d
  refine ⟨D, binary64.rnd (W / convF binary64 d), binary64.rnd (lib.asin t / convF binary64 d), ?_, hde, ⟨n, ?_⟩, ?_, ?_, ?_⟩
  · unfold cartesianToSkyF
    simp only [← hD, ← hW, ← htd, if_neg hd.ne', if_pos t1]
  · have h1 := deg_err (M := 62832 / 10000) d (w2.trans (by linarith [Real.pi_lt_d6]))
    have h2 := hl.atan2 v.x v.y
    rw [abs_le] at h1 h2 w1 ⊢
    constructor <;> nlinarith
  · have h1 := deg_err (M := 158 / 100) d ((hl.asin_le t t1).trans (by linarith))
    have h2 := hl.asin t t1
    have h3 := Real.abs_sin_sub_sin_le (binary64.rnd (lib.asin t / convF binary64 d) * conversion d) (Real.arcsin t)
    rw [Real.sin_arcsin (abs_le.1 t1).1 (abs_le.1 t1).2] at h3
    have h4 := abs_tri (binary64.rnd (lib.asin t / convF binary64 d) * conversion d) (lib.asin t) (Real.arcsin t)
    have h5 := abs_tri (Real.sin (binary64.rnd (lib.asin t / convF binary64 d) * conversion d)) t (v.z / v.norm)
    nlinarith
  · have hf : binary64.rnd (2 * npPi / convF binary64 d) ≤ turn d := by
      have eT : twoPi binary64 = 2 * npPi := by rw [twoPi64, npPi_eq]; norm_num
      rw [← eT]
      cases d with
      | true => rw [turn64]; simp [turn]
      | false =>
        have : convF binary64 false = 1 := rfl
        rw [this, div_one, Fmt.rnd_exact twoPi_float, eT]
        simp only [turn, Bool.false_eq_true, if_false]
        linarith
    have w := abs_le.1 w2
    have h1 := Fmt.rnd_mono (F := binary64) ((div_le_div_iff_of_pos_right hconv).2 w.1)
    have h2 := Fmt.rnd_mono (F := binary64) ((div_le_div_iff_of_pos_right hconv).2 w.2)
    rw [neg_div, Fmt.rnd_neg] at h1
    rw [abs_le]
    constructor <;> linarith
  · have hf : binary64.rnd (npPi / 2 / convF binary64 d) ≤ turn d / 4 := by
      cases d with
      | true => rw [right64]; norm_num [turn]
      | false =>
        have : convF binary64 false = 1 := rfl
        have hpf : binary64.IsFloat (npPi / 2) := by
          rw [npPi_eq]
          exact ⟨884279719003555, -49, by norm_num [binary64], by norm_num [binary64], by norm_num⟩
        rw [this, div_one, Fmt.rnd_exact hpf]
        simp only [turn, Bool.false_eq_true, if_false]
        linarith
    have w := abs_le.1 (hl.asin_le t t1)
    have h1 := Fmt.rnd_mono (F := binary64) ((div_le_div_iff_of_pos_right hconv).2 w.1)
    have h2 := Fmt.rnd_mono (F := binary64) ((div_le_div_iff_of_pos_right hconv).2 w.2)
    rw [neg_div, Fmt.rnd_neg] at h1
    rw [abs_le]
    constructor <;> linarith

/-! ### Angles -/

/-- Declinations whose sines are close. -/
theorem dec_close {a b e : ℝ} (ha : |a| ≤ Real.pi / 2) (hb : |b| ≤ Real.pi / 2) (h : |Real.sin a - Real.sin b| ≤ e) :
    |a - b| * Real.cos b ≤ Real.pi * e ∧ |a - b| ^ 2 ≤ 5 * e := by
  have hpi := Real.pi_pos
  have ha' := abs_le.1 ha
  have hb' := abs_le.1 hb
  have hcb : 0 ≤ Real.cos b := Real.cos_nonneg_of_neg_pi_div_two_le_of_le (by linarith) (by linarith)
  have hca : 0 ≤ Real.cos a := Real.cos_nonneg_of_neg_pi_div_two_le_of_le (by linarith) (by linarith)
  have hab : |a - b| / 2 ≤ Real.pi / 2 := by
    have : |a - b| ≤ Real.pi := by rw [abs_le]; constructor <;> linarith
    linarith
  have e1 := Real.sin_sub_sin a b
  rw [e1, abs_mul, abs_mul, abs_two] at h
  have es : |Real.sin ((a - b) / 2)| = Real.sin (|a - b| / 2) := by
    have h0 : 0 ≤ Real.sin (|a - b| / 2) := Real.sin_nonneg_of_nonneg_of_le_pi (by positivity) (by linarith)
    rcases abs_cases (a - b) with ⟨h1, -⟩ | ⟨h1, -⟩
    · rw [h1] at h0 ⊢
      exact abs_of_nonneg h0
    · rw [h1, neg_div, Real.sin_neg] at h0 ⊢
      exact abs_of_nonpos (by linarith)
  have hs : |a - b| / Real.pi ≤ |Real.sin ((a - b) / 2)| := by
    rw [es]
    have := Real.mul_le_sin (by positivity : 0 ≤ |a - b| / 2) hab
    have e2 : 2 / Real.pi * (|a - b| / 2) = |a - b| / Real.pi := by field_simp
    rwa [e2] at this
  have hc : Real.cos b / 2 ≤ |Real.cos ((a + b) / 2)| := by
    have e3 := Real.cos_add_cos a b
    have : Real.cos a + Real.cos b ≤ 2 * |Real.cos ((a + b) / 2)| := by
      rw [e3]
      refine (le_abs_self _).trans ?_
      rw [abs_mul, abs_mul, abs_two]
      have := Real.abs_cos_le_one ((a - b) / 2)
      nlinarith [abs_nonneg (Real.cos ((a + b) / 2))]
    linarith
  have hc' : |Real.sin ((a - b) / 2)| ≤ |Real.cos ((a + b) / 2)| := by
    rw [es, ← Real.cos_pi_div_two_sub, ← Real.cos_abs ((a + b) / 2)]
    refine (Real.cos_le_cos_of_nonneg_of_le_pi (abs_nonneg _) ?_ ?_).trans (le_abs_self _)
    · linarith [abs_nonneg (a - b)]
    · rw [abs_div, abs_two]
      rcases abs_cases (a - b) with ⟨h1, -⟩ | ⟨h1, -⟩ <;> rcases abs_cases (a + b) with ⟨h2, -⟩ | ⟨h2, -⟩ <;> rw [h1, h2] <;> linarith
  have hd0 : 0 ≤ |a - b| / Real.pi := by positivity
  have ed : |a - b| = Real.pi * (|a - b| / Real.pi) := by field_simp
  set q := |a - b| / Real.pi
  have pi4 := Real.pi_lt_d2
  constructor
  · rw [ed, mul_assoc]
    refine mul_le_mul_of_nonneg_left ?_ hpi.le
    nlinarith [mul_le_mul hs hc (by positivity) (abs_nonneg _)]
  · have h2 : 2 * (q * q) ≤ e := by nlinarith [mul_le_mul hs (hs.trans hc') hd0 (abs_nonneg _)]
    rw [ed]
    have h3 : Real.pi ^ 2 ≤ 10 := by nlinarith
    nlinarith [mul_nonneg hd0 hd0]

/-- Directions of two points of the plane which are close to each other. -/
theorem ra_close {x y r R c ε : ℝ} (hR : 0 < R) (hc : 0 ≤ c) (hε : 0 ≤ ε) (hx : |x - R * (c * Real.cos r)| ≤ R * ε)
    (hy : |y - R * (c * Real.sin r)| ≤ R * ε) :
    ∃ n : ℤ, |Complex.arg ⟨x, y⟩ - (r + n * (2 * Real.pi))| * c ≤ 13 * ε := by
  have hpi := Real.pi_pos
  have pi4 := Real.pi_lt_d2
  set φ := Complex.arg ⟨x, y⟩ with hφ
  set ρ := ‖(⟨x, y⟩ : ℂ)‖
  have ex : ρ * Real.cos φ = x := Complex.norm_mul_cos_arg (⟨x, y⟩ : ℂ)
  have ey : ρ * Real.sin φ = y := Complex.norm_mul_sin_arg (⟨x, y⟩ : ℂ)
  have hρ : 0 ≤ ρ := norm_nonneg _
  refine ⟨round ((φ - r) / (2 * Real.pi)), ?_⟩
  set n := round ((φ - r) / (2 * Real.pi)) with hn
  have hr := abs_sub_round ((φ - r) / (2 * Real.pi))
  rw [← hn] at hr
  set Δ := φ - (r + n * (2 * Real.pi)) with hΔ
  have hΔ' : |Δ| ≤ Real.pi := by
    have e : Δ = ((φ - r) / (2 * Real.pi) - n) * (2 * Real.pi) := by rw [hΔ]; field_simp; ring
    rw [e, abs_mul, abs_of_pos (by positivity : 0 < 2 * Real.pi)]
    nlinarith
  have eΔ : φ = r + Δ + n * (2 * Real.pi) := by rw [hΔ]; ring
  have hcos : Real.cos φ = Real.cos (r + Δ) := by rw [eΔ, Real.cos_add_int_mul_two_pi]
  have hsin : Real.sin φ = Real.sin (r + Δ) := by rw [eΔ, Real.sin_add_int_mul_two_pi]
  rw [hcos] at ex
  rw [hsin] at ey
  have hone := Real.sin_sq_add_cos_sq r
  have e1 : ρ * Real.sin Δ = (y - R * (c * Real.sin r)) * Real.cos r - (x - R * (c * Real.cos r)) * Real.sin r := by
    rw [← ex, ← ey, Real.sin_add, Real.cos_add]
    linear_combination (-ρ * Real.sin Δ) * hone
  have e2 : ρ * Real.cos Δ = R * c + (x - R * (c * Real.cos r)) * Real.cos r + (y - R * (c * Real.sin r)) * Real.sin r := by
    rw [← ex, ← ey, Real.sin_add, Real.cos_add]
    linear_combination (-ρ * Real.cos Δ + R * c) * hone
  have b : ∀ {p q : ℝ}, |p| ≤ R * ε → |q| ≤ 1 → |p * q| ≤ R * ε := by
    intro p q h1 h2
    rw [abs_mul]
    have := mul_le_mul h1 h2 (abs_nonneg _) (by positivity)
    linarith
  have b1 := abs_le.1 (b hy (Real.abs_cos_le_one r))
  have b2 := abs_le.1 (b hx (Real.abs_sin_le_one r))
  have b3 := abs_le.1 (b hx (Real.abs_cos_le_one r))
  have b4 := abs_le.1 (b hy (Real.abs_sin_le_one r))
  have f1 : ρ * |Real.sin Δ| ≤ 2 * (R * ε) := by
    have e3 : ρ * |Real.sin Δ| = |ρ * Real.sin Δ| := by rw [abs_mul, abs_of_nonneg hρ]
    rw [e3, e1, abs_le]
    constructor <;> linarith
  have f2 : R * c - 2 * (R * ε) ≤ ρ * Real.cos Δ := by rw [e2]; linarith
  rcases le_or_gt c (4 * ε) with h | h
  · have h1 := mul_le_mul hΔ' h hc hpi.le
    have h2 := mul_le_mul_of_nonneg_right (by linarith : Real.pi * 4 ≤ 13) hε
    linarith
  · have hRc : 0 < R * c := mul_pos hR (by linarith)
    have f3 : R * c / 2 ≤ ρ * Real.cos Δ := by nlinarith
    have hcpos : 0 < Real.cos Δ := by
      by_contra hneg
      push Not at hneg
      nlinarith
    have hhalf : |Δ| ≤ Real.pi / 2 := by
      by_contra hgt
      push Not at hgt
      have := Real.cos_nonpos_of_pi_div_two_le_of_le hgt.le (by linarith)
      rw [Real.cos_abs] at this
      linarith
    have f4 : R * c / 2 ≤ ρ := f3.trans (mul_le_of_le_one_right hρ (Real.cos_le_one Δ))
    have es : 2 / Real.pi * |Δ| ≤ |Real.sin Δ| := by
      have h1 := Real.mul_le_sin (abs_nonneg Δ) hhalf
      rcases abs_cases Δ with ⟨h2, -⟩ | ⟨h2, -⟩
      · rw [h2] at h1 ⊢
        exact h1.trans (le_abs_self _)
      · rw [h2, Real.sin_neg] at h1
        rw [h2]
        exact h1.trans (neg_le_abs _)
    have f5 : R * c / 2 * (2 / Real.pi * |Δ|) ≤ 2 * (R * ε) := (mul_le_mul f4 es (by positivity) hρ).trans f1
    have f6 : R * (c * |Δ|) ≤ R * (2 * Real.pi * ε) := by
      have e : R * c / 2 * (2 / Real.pi * |Δ|) = R * (c * |Δ|) / Real.pi := by field_simp
      rw [e, div_le_iff₀ hpi] at f5
      linarith
    have f7 := le_of_mul_le_mul_left f6 hR
    have f8 := mul_le_mul_of_nonneg_right (by linarith : 2 * Real.pi ≤ 13) hε
    linarith

/-- C130, back (full statement: RA and Dec come back up to some number of rounding errors). In double precision, `sky_to_cartesian` then
`cartesian_to_sky` gives back the distance up to 55 rounding errors and five times those of the C library, RA up to whole turns and Dec up to some
hundreds of rounding errors over the cosine of Dec. Missing: near the poles Dec comes back up to the square root of a rounding error. -/
theorem C130_back_partial {lib : Libm} {κ : ℝ} (hl : Accurate lib κ) (hκ : κ ≤ 1 / 100) (d : Bool) {dist ra dec : ℝ} (hd : 1 / 2 ^ 100 ≤ dist)
    (hra : |ra| ≤ turn d) (hdec : |dec| ≤ turn d / 4) :
    ∃ dist' ra' dec', cartesianToSkyF binary64 lib.atan2 lib.asin (skyToCartesianF binary64 lib dist ra dec d) d = ⟨dist', ra', some dec'⟩ ∧
      |dist' - dist| ≤ dist * (55 * binary64.u + 5 * κ) ∧
      (∃ n : ℤ, |ra' - (ra + n * turn d)| * conversion d * Real.cos (dec * conversion d) ≤ 307 * binary64.u + 27 * κ) ∧
      |dec' - dec| * conversion d * Real.cos (dec * conversion d) ≤ 227 * binary64.u + 26 * κ ∧
      (|dec' - dec| * conversion d) ^ 2 ≤ 360 * binary64.u + 40 * κ := by
  have hu := Fmt.u_pos (F := binary64)
  have hu' : binary64.u ≤ 1 / 10000 := by rw [u64]; norm_num
  have hκ0 : 0 ≤ κ := (abs_nonneg _).trans (hl.cos 0)
  have pi4 := Real.pi_lt_d4
  have hd0 : 0 < dist := lt_of_lt_of_le (by positivity) hd
  have ht : binary64.tiny ≤ dist := by
    have := (tiny64_le ((by norm_num : (1 : ℝ) / 2 ^ 200 ≤ 1 / 2 ^ 100).trans hd)).1
    have h : (1 : ℝ) / 2 ^ 100 * dist ≤ 1 * dist := mul_le_mul_of_nonneg_right (by norm_num) hd0.le
    linarith
  obtain ⟨f1, f2, f3⟩ := C130_position hl d ht hra hdec
  have hz : binary64.IsFloat (skyToCartesianF binary64 lib dist ra dec d).z := Fmt.rnd_isFloat _
  set w := skyToCartesianF binary64 lib dist ra dec d with hw
  set r := ra * conversion d with hr
  set b := dec * conversion d with hb
  have hcp := conversion_pos d
  have htc := turn_conv d
  have hbq : |b| ≤ Real.pi / 2 := by
    rw [hb, abs_mul, abs_of_pos hcp]
    have := mul_le_mul_of_nonneg_right hdec hcp.le
    linarith
  have hc : 0 ≤ Real.cos b := Real.cos_nonneg_of_neg_pi_div_two_le_of_le (by linarith [(abs_le.1 hbq).1]) (abs_le.1 hbq).2
  -- distance of the position
  have hnw : |w.norm - dist| ≤ dist * (48 * binary64.u + 5 * κ) := by
    set p : V3 ℝ := ⟨dist * (Real.cos b * Real.cos r), dist * (Real.cos b * Real.sin r), dist * Real.sin b⟩ with hp
    have ep : p.norm = dist := by
      have : p.norm ^ 2 = dist ^ 2 := by
        rw [norm_sq', hp]
        have h1 := Real.sin_sq_add_cos_sq b
        have h2 := Real.sin_sq_add_cos_sq r
        simp only
        linear_combination dist ^ 2 * Real.cos b ^ 2 * h2 + dist ^ 2 * h1
      exact (pow_left_inj₀ (Real.sqrt_nonneg _) hd0.le two_ne_zero).1 this
    have h1 := norm_sub_le' w p
    have h2 := norm_sub_le' p w
    rw [norm_sub_comm] at h2
    have h3 := Verif.Model.Remap.norm_le_abs (w - p)
    have h4 : |(w - p).x| + |(w - p).y| + |(w - p).z| ≤ dist * (48 * binary64.u + 5 * κ) := by
      have := add_le_add (add_le_add f1 f2) f3
      refine this.trans (le_of_eq ?_)
      ring
    rw [ep] at h1 h2
    rw [abs_le]
    constructor <;> linarith
  have hnw' := abs_le.1 hnw
  have hsm : dist * (48 * binary64.u + 5 * κ) ≤ dist * (1 / 10) := mul_le_mul_of_nonneg_left (by linarith) hd0.le
  have hN : 1 / 2 ^ 200 ≤ w.norm := by
    have : (1 : ℝ) / 2 ^ 200 ≤ 9 / 10 * (1 / 2 ^ 100) := by norm_num
    linarith
  have hN0 : 0 < w.norm := lt_of_lt_of_le (by positivity) hN
  obtain ⟨dist', ra', dec', hs, g1, ⟨m, g2⟩, g3, g4, g5⟩ := C130_sky_far hl d hN hz
  refine ⟨dist', ra', dec', hs, ?_, ?_, ?_⟩
  · have h1 := abs_tri dist' w.norm dist
    have h2 : 6 * binary64.u * w.norm ≤ 7 * binary64.u * dist := by nlinarith
    linarith
  · obtain ⟨n, h1⟩ := ra_close hd0 hc (by positivity : 0 ≤ 21 * binary64.u + 2 * κ) f1 f2
    refine ⟨n + m, ?_⟩
    have e : |ra' - (ra + ((n + m : ℤ) : ℝ) * turn d)| * conversion d = |ra' * conversion d - (r + ((n + m : ℤ) : ℝ) * (2 * Real.pi))| := by
      rw [← htc, ← abs_of_pos hcp, ← abs_mul, abs_of_pos hcp, hr]
      congr 1
      ring
    rw [e]
    have h2 := abs_tri (ra' * conversion d) (Complex.arg ⟨w.x, w.y⟩ + m * (2 * Real.pi)) (r + ((n + m : ℤ) : ℝ) * (2 * Real.pi))
    have e2 : Complex.arg ⟨w.x, w.y⟩ + m * (2 * Real.pi) - (r + ((n + m : ℤ) : ℝ) * (2 * Real.pi)) = Complex.arg ⟨w.x, w.y⟩ - (r + n * (2 * Real.pi)) := by
      push_cast; ring
    rw [e2] at h2
    have h3 := mul_le_mul_of_nonneg_right h2 hc
    have h4 : |ra' * conversion d - (Complex.arg ⟨w.x, w.y⟩ + m * (2 * Real.pi))| * Real.cos b ≤ 34 * binary64.u + κ := by
      have := mul_le_mul g2 (Real.cos_le_one b) hc (by positivity)
      linarith
    rw [add_mul] at h3
    linarith
  · have h1 : |w.z / w.norm - Real.sin b| ≤ 60 * binary64.u + 7 * κ := by
      have e : w.z / w.norm - Real.sin b = ((w.z - dist * Real.sin b) - (w.norm - dist) * Real.sin b) / w.norm := by field_simp; ring
      rw [e, abs_div, abs_of_pos hN0, div_le_iff₀ hN0]
      refine (abs_sub _ _).trans ?_
      rw [abs_mul]
      have := mul_le_mul hnw (Real.abs_sin_le_one b) (abs_nonneg _) (by positivity)
      have h5 : dist * (54 * binary64.u + 6 * κ) ≤ (60 * binary64.u + 7 * κ) * w.norm := by
        have : 9 / 10 * dist ≤ w.norm := by linarith
        have := mul_le_mul_of_nonneg_left this (by positivity : 0 ≤ 60 * binary64.u + 7 * κ)
        have : 0 ≤ dist * κ := by positivity
        nlinarith
      linarith
    have h2 : |Real.sin (dec' * conversion d) - Real.sin b| ≤ 72 * binary64.u + 8 * κ := by
      have := abs_tri (Real.sin (dec' * conversion d)) (w.z / w.norm) (Real.sin b)
      linarith
    have ha : |dec' * conversion d| ≤ Real.pi / 2 := by
      rw [abs_mul, abs_of_pos hcp]
      have := mul_le_mul_of_nonneg_right g5 hcp.le
      linarith
    obtain ⟨k1, k2⟩ := dec_close ha hbq h2
    have e : |dec' - dec| * conversion d = |dec' * conversion d - b| := by
      rw [← abs_of_pos hcp, ← abs_mul, abs_of_pos hcp, hb]
      congr 1
      ring
    rw [e]
    refine ⟨k1.trans ?_, k2.trans (by linarith)⟩
    nlinarith

/-- C130 in numbers, for functions of the C library right up to 2 ^ -51: the distance comes back up to 1e-14 in relative units, RA and Dec, in
radians, up to 1e-13 over the cosine of Dec, and Dec up to 3e-7 everywhere. -/
theorem C130_back_double_partial {lib : Libm} (hl : Accurate lib (1 / 2 ^ 51)) (d : Bool) {dist ra dec : ℝ} (hd : 1 / 2 ^ 100 ≤ dist)
    (hra : |ra| ≤ turn d) (hdec : |dec| ≤ turn d / 4) :
    ∃ dist' ra' dec', cartesianToSkyF binary64 lib.atan2 lib.asin (skyToCartesianF binary64 lib dist ra dec d) d = ⟨dist', ra', some dec'⟩ ∧
      |dist' - dist| ≤ 1 / 10 ^ 14 * dist ∧
      (∃ n : ℤ, |ra' - (ra + n * turn d)| * conversion d * Real.cos (dec * conversion d) ≤ 1 / 10 ^ 13) ∧
      |dec' - dec| * conversion d * Real.cos (dec * conversion d) ≤ 1 / 10 ^ 13 ∧ |dec' - dec| * conversion d ≤ 3 / 10 ^ 7 := by
  obtain ⟨dist', ra', dec', h1, h2, ⟨n, h3⟩, h4, h5⟩ := C130_back_partial hl (by norm_num) d hd hra hdec
  have hd0 : 0 < dist := lt_of_lt_of_le (by positivity) hd
  rw [u64] at h2 h3 h4 h5
  refine ⟨dist', ra', dec', h1, ?_, ⟨n, h3.trans (by norm_num)⟩, h4.trans (by norm_num), ?_⟩
  · refine h2.trans ?_
    rw [mul_comm]
    exact mul_le_mul_of_nonneg_right (by norm_num) hd0.le
  · exact le_of_sq_le_sq (h5.trans (by norm_num)) (by norm_num)

/-- C130, not vacuous: a distance of 1000 at RA = 30 and Dec = 60 degrees. -/
example : ∃ dist' ra' dec', cartesianToSkyF binary64 exactLib.atan2 exactLib.asin (skyToCartesianF binary64 exactLib 1000 30 60 true) true =
    ⟨dist', ra', some dec'⟩ ∧ |dist' - 1000| ≤ 1 / 10 ^ 11 := by
  obtain ⟨dist', ra', dec', h1, h2, -⟩ := C130_back_double_partial exactLib_accurate true (dist := 1000) (ra := 30) (dec := 60) (by norm_num)
    (by norm_num [turn]) (by norm_num [turn])
  exact ⟨dist', ra', dec', h1, h2.trans (by norm_num)⟩

end Verif.Props.RoundedBack
