import Verif.Model.RoundedOpenings
import Verif.Props.RoundedPlacement
import Verif.Props.BoxToCutsky

/-!
# C142: `box_to_cutsky` with rounding errors
-/

namespace Verif.Props.RoundedOpenings

open Verif Verif.Model Verif.Model.Rounded Verif.Model.RoundedSky Verif.Model.RoundedOpenings Verif.Spec
open Verif.Props.RoundedSky Verif.Props.RoundedPlacement

/-- Points of the box of size `b` centred on the x axis with its far face at x = `dmax`, or outside by at most `t`, but not beyond the far face. -/
def NearPlacedBox (b : V3 ℝ) (dmax t : ℝ) (p : V3 ℝ) : Prop :=
  (dmax - b.x - t ≤ p.x ∧ p.x ≤ dmax) ∧ |p.y| ≤ b.y / 2 + t ∧ |p.z| ≤ b.z / 2 + t

/-- The tolerance. -/
noncomputable def slack (κ dmax : ℝ) : ℝ := (κ + 1 / 10 ^ 14) * dmax + 1 / 10 ^ 200

theorem sub_tiny : (2 : ℝ) ^ binary64.emin / 2 ≤ 1 / 10 ^ 201 := by
  have e : (2 : ℝ) ^ binary64.emin = 1 / 2 ^ 1074 := by
    show (2 : ℝ) ^ (-1074 : ℤ) = _
    rw [zpow_neg]
    norm_cast
    rw [one_div]
  have h1 : (10 : ℝ) ^ 201 ≤ 2 ^ 1074 := by
    calc (10 : ℝ) ^ 201 ≤ (2 ^ 4) ^ 201 := pow_le_pow_left₀ (by norm_num) (by norm_num) _
      _ = 2 ^ (4 * 201) := by rw [pow_mul]
      _ ≤ 2 ^ 1074 := pow_le_pow_right₀ (by norm_num) (by norm_num)
  have h2 : (1 : ℝ) / 2 ^ 1074 ≤ 1 / 10 ^ 201 := one_div_le_one_div_of_le (by positivity) h1
  have h3 : (0 : ℝ) ≤ 1 / 2 ^ 1074 := by positivity
  rw [e]
  linarith

theorem err (x : ℝ) : |binary64.rnd x - x| ≤ 1 / 2 ^ 53 * |x| + 1 / 10 ^ 201 := by
  have h := Fmt.rnd_err_all (F := binary64) x
  rw [u64] at h
  linarith [sub_tiny]

theorem err' {x m : ℝ} (h0 : 0 ≤ x) (h : x ≤ m) : binary64.rnd x ≤ x + (1 / 2 ^ 53 * m + 1 / 10 ^ 201) := by
  have h1 := (abs_le.1 (err x)).2
  rw [abs_of_nonneg h0] at h1
  linarith

/-- Quotients do not exceed the exact ones by much. -/
theorem over {H dmax : ℝ} (hH : 0 ≤ H) (hd : 0 < dmax) :
    dmax * min 1 (binary64.rnd (binary64.rnd H / dmax)) ≤ H + (1 / 10 ^ 15 * dmax + 1 / 10 ^ 200) := by
  set h := binary64.rnd H with hh
  have hn : 0 ≤ h := Fmt.rnd_nonneg hH
  have hx : 0 ≤ h / dmax := by positivity
  have h1 := (abs_le.1 (err (h / dmax))).2
  rw [abs_of_nonneg hx] at h1
  have h2 := (abs_le.1 (err H)).2
  rw [abs_of_nonneg hH, ← hh] at h2
  have ht : (0 : ℝ) ≤ 1 / 10 ^ 201 := by positivity
  have ht1 : (1 : ℝ) / 10 ^ 201 ≤ 1 / 10 ^ 17 := one_div_le_one_div_of_le (by positivity) (pow_le_pow_right₀ (by norm_num) (by norm_num))
  have ht3 : (1 : ℝ) / 10 ^ 200 = 10 * (1 / 10 ^ 201) := by norm_num
  rw [ht3]
  set τ : ℝ := 1 / 10 ^ 201
  set m := min 1 (binary64.rnd (h / dmax)) with hm
  have m1 : m ≤ 1 := min_le_left _ _
  have m2 : m ≤ binary64.rnd (h / dmax) := min_le_right _ _
  have e : dmax * (h / dmax) = h := by field_simp
  have h3 : dmax * m ≤ (1 + 1 / 2 ^ 53) * h + dmax * τ := by
    have : m ≤ h / dmax + (1 / 2 ^ 53 * (h / dmax) + τ) := by linarith
    have := mul_le_mul_of_nonneg_left this hd.le
    nlinarith
  by_cases hc : H ≤ 2 * dmax
  · nlinarith
  · nlinarith

theorem sin_bound {φ q η : ℝ} (h0 : -(Real.pi / 2) ≤ φ) (q1 : q ≤ 1) (q0 : -1 ≤ q) (hη : 0 ≤ η) (h : φ ≤ Real.arcsin q + η) : Real.sin φ ≤ q + η := by
  rcases le_total φ (Real.arcsin q) with h1 | h1
  · have := Real.sin_le_sin_of_le_of_le_pi_div_two h0 (Real.arcsin_le_pi_div_two q) h1
    rw [Real.sin_arcsin q0 q1] at this
    linarith
  · have := (trig_near (t := φ) (t' := Real.arcsin q) (e := η) (by rw [abs_of_nonneg (by linarith)]; linarith)).2
    rw [Real.sin_arcsin q0 q1] at this
    linarith [(abs_le.1 this).2]

theorem abs_sin_bound {θ q η : ℝ} (q1 : q ≤ 1) (q0 : 0 ≤ q) (hη : 0 ≤ η) (h : |θ| ≤ Real.arcsin q + η) : |Real.sin θ| ≤ q + η := by
  have hpi := Real.pi_pos
  obtain ⟨h1, h2⟩ := abs_le.1 h
  by_cases hb : |θ| ≤ Real.pi / 2
  · obtain ⟨b1, b2⟩ := abs_le.1 hb
    refine abs_le.2 ⟨?_, sin_bound b1 q1 (by linarith) hη h2⟩
    have := sin_bound (φ := -θ) (by linarith) q1 (by linarith) hη (by linarith)
    rw [Real.sin_neg] at this
    linarith
  · have key : ∀ φ, Real.pi / 2 ≤ φ → φ ≤ Real.arcsin q + η → |Real.sin φ| ≤ q + η := by
      intro φ hφ hh
      have := (trig_near (t := φ) (t' := Real.arcsin q) (e := η) (by
        rw [abs_of_nonneg (by linarith [Real.arcsin_le_pi_div_two q])]; linarith)).2
      rw [Real.sin_arcsin (by linarith) q1] at this
      obtain ⟨a, b⟩ := abs_le.1 this
      exact abs_le.2 ⟨by linarith, by linarith⟩
    rcases abs_cases θ with ⟨a, b⟩ | ⟨a, b⟩
    · exact key θ (by rw [← a]; linarith) h2
    · have := key (-θ) (by rw [← a]; linarith) (by linarith)
      rwa [Real.sin_neg, abs_neg] at this

theorem cos_bound {θ q η : ℝ} (q1 : q ≤ 1) (q0 : 0 ≤ q) (hη : 0 ≤ η) (h : |θ| ≤ Real.arcsin q + Real.pi / 2 + η) : -(q + η) ≤ Real.cos θ := by
  have := sin_bound (φ := |θ| - Real.pi / 2) (by linarith [abs_nonneg θ]) q1 (by linarith) hη (by linarith)
  rw [Real.sin_sub_pi_div_two, Real.cos_abs] at this
  linarith

/-- Angles in degrees do not exceed the exact ones by much. -/
theorem degrees_le {a x : ℝ} (h0 : 0 ≤ a) (h4 : a ≤ 4) (h : InRange (-npDegreesF a, npDegreesF a) x) : |rad x| ≤ a + 5 / 10 ^ 15 := by
  obtain ⟨p1, p2, p3⟩ := npPi_lt
  have pe := pi_err
  rw [u64] at pe
  have hx : |x| ≤ npDegreesF a := abs_le.2 h
  have hpi := Real.pi_gt_three
  have hpi4 := Real.pi_lt_d2
  have er : |rad x| = |x| * (Real.pi / 180) := by unfold rad; rw [abs_mul, abs_of_pos (by positivity : 0 < Real.pi / 180)]
  have ht1 : (1 : ℝ) / 10 ^ 201 ≤ 1 / 10 ^ 17 := one_div_le_one_div_of_le (by positivity) (pow_le_pow_right₀ (by norm_num) (by norm_num))
  set C := binary64.rnd (180 / npPi) with hC
  have hc0 : 0 ≤ 180 / npPi := by positivity
  have hc1 : 180 / npPi ≤ 60 := by rw [div_le_iff₀ (by linarith)]; linarith
  have hC0 : 0 ≤ C := Fmt.rnd_nonneg hc0
  have hC1 := err' hc0 hc1
  rw [← hC] at hC1
  have k1 : 180 / npPi * (Real.pi / 180) ≤ 1 + 1 / 10 ^ 16 := by
    have : 180 / npPi * (Real.pi / 180) = Real.pi / npPi := by field_simp
    rw [this, div_le_iff₀ (by linarith)]
    have := (abs_le.1 pe).1
    norm_num at this ⊢
    linarith
  have k2 : C * (Real.pi / 180) ≤ 1 + 3 / 10 ^ 16 := by
    have h1 := mul_le_mul_of_nonneg_right hC1 (by positivity : 0 ≤ Real.pi / 180)
    have h2 : (1 / 2 ^ 53 * 60 + 1 / 10 ^ 201) * (Real.pi / 180) ≤ (1 / 2 ^ 53 * 60 + 1 / 10 ^ 17) * (315 / 100 / 180) :=
      mul_le_mul (by linarith) (by linarith) (by positivity) (by positivity)
    rw [add_mul] at h1
    norm_num only at h1 h2 k1 ⊢
    linarith
  have k3 := (abs_le.1 (err (a * C))).2
  rw [abs_of_nonneg (by positivity)] at k3
  have k4 : npDegreesF a ≤ (1 + 1 / 2 ^ 53) * (a * C) + 1 / 10 ^ 201 := by
    unfold npDegreesF
    linarith
  rw [er]
  have k5 := mul_le_mul_of_nonneg_right (hx.trans k4) (by positivity : 0 ≤ Real.pi / 180)
  have k6 : a * (C * (Real.pi / 180)) ≤ a * (1 + 3 / 10 ^ 16) := mul_le_mul_of_nonneg_left k2 h0
  have k7 : (1 : ℝ) / 10 ^ 201 * (Real.pi / 180) ≤ 1 / 10 ^ 17 * 1 := mul_le_mul ht1 (by linarith) (by positivity) (by positivity)
  have k8 : ((1 + 1 / 2 ^ 53) * (a * C) + 1 / 10 ^ 201) * (Real.pi / 180) =
      (1 + 1 / 2 ^ 53) * (a * (C * (Real.pi / 180))) + 1 / 10 ^ 201 * (Real.pi / 180) := by ring
  rw [k8] at k5
  norm_num at k5 k6 k7 ⊢
  linarith

theorem degrees_ge {a x : ℝ} (h0 : 0 ≤ a) (h4 : a ≤ 4) (h : |rad x| ≤ a - 5 / 10 ^ 15) : InRange (-npDegreesF a, npDegreesF a) x := by
  obtain ⟨p1, p2, p3⟩ := npPi_lt
  have hpi := Real.pi_gt_three
  have hpi4 := Real.pi_lt_d2
  have er : |rad x| = |x| * (Real.pi / 180) := by unfold rad; rw [abs_mul, abs_of_pos (by positivity : 0 < Real.pi / 180)]
  rw [er] at h
  suffices hx : |x| ≤ npDegreesF a from abs_le.1 hx
  have ht1 : (1 : ℝ) / 10 ^ 201 ≤ 1 / 10 ^ 17 := one_div_le_one_div_of_le (by positivity) (pow_le_pow_right₀ (by norm_num) (by norm_num))
  set C := binary64.rnd (180 / npPi) with hC
  have hc0 : 0 ≤ 180 / npPi := by positivity
  have hc1 : 180 / npPi ≤ 60 := by rw [div_le_iff₀ (by linarith)]; linarith
  have hC0 : 0 ≤ C := Fmt.rnd_nonneg hc0
  have hC1 : 180 / npPi - (1 / 2 ^ 53 * 60 + 1 / 10 ^ 201) ≤ C := by
    have h1 := (abs_le.1 (err (180 / npPi))).1
    rw [abs_of_nonneg hc0, ← hC] at h1
    linarith
  have k1 : 1 ≤ 180 / npPi * (Real.pi / 180) := by
    have : 180 / npPi * (Real.pi / 180) = Real.pi / npPi := by field_simp
    rw [this, le_div_iff₀ (by linarith)]
    linarith
  have k2 : 1 - 3 / 10 ^ 16 ≤ C * (Real.pi / 180) := by
    have h1 := mul_le_mul_of_nonneg_right hC1 (by positivity : 0 ≤ Real.pi / 180)
    have h2 : (1 / 2 ^ 53 * 60 + 1 / 10 ^ 201) * (Real.pi / 180) ≤ (1 / 2 ^ 53 * 60 + 1 / 10 ^ 17) * (315 / 100 / 180) :=
      mul_le_mul (by linarith) (by linarith) (by positivity) (by positivity)
    rw [sub_mul] at h1
    norm_num only at h1 h2 k1 ⊢
    linarith
  have k3 := (abs_le.1 (err (a * C))).1
  rw [abs_of_nonneg (by positivity)] at k3
  have k4 : (1 - 1 / 2 ^ 53) * (a * C) - 1 / 10 ^ 201 ≤ npDegreesF a := by
    unfold npDegreesF
    linarith
  have k6 : a * (1 - 3 / 10 ^ 16) ≤ a * (C * (Real.pi / 180)) := mul_le_mul_of_nonneg_left k2 h0
  have k7 : (1 : ℝ) / 10 ^ 201 * (Real.pi / 180) ≤ 1 / 10 ^ 17 * 1 := mul_le_mul ht1 (by linarith) (by positivity) (by positivity)
  have k5 := mul_le_mul_of_nonneg_right k4 (by positivity : 0 ≤ Real.pi / 180)
  have k8 : ((1 - 1 / 2 ^ 53) * (a * C) - 1 / 10 ^ 201) * (Real.pi / 180) =
      (1 - 1 / 2 ^ 53) * (a * (C * (Real.pi / 180))) - 1 / 10 ^ 201 * (Real.pi / 180) := by ring
  rw [k8] at k5
  refine le_of_mul_le_mul_right (a := Real.pi / 180) ?_ (by positivity)
  norm_num at k5 k6 k7 h ⊢
  linarith

/-- Quotients below one are not much below the exact ones. -/
theorem over_ge {H dmax : ℝ} (hH : 0 ≤ H) (hd : 0 < dmax) (hq : binary64.rnd (binary64.rnd H / dmax) ≤ 1) :
    H ≤ dmax * binary64.rnd (binary64.rnd H / dmax) + (1 / 10 ^ 15 * dmax + 1 / 10 ^ 200) := by
  set h := binary64.rnd H with hh
  have hn : 0 ≤ h := Fmt.rnd_nonneg hH
  have hx : 0 ≤ h / dmax := by positivity
  have h1 := (abs_le.1 (err (h / dmax))).1
  rw [abs_of_nonneg hx] at h1
  have h2 := (abs_le.1 (err H)).1
  rw [abs_of_nonneg hH, ← hh] at h2
  have ht : (0 : ℝ) ≤ 1 / 10 ^ 201 := by positivity
  have ht1 : (1 : ℝ) / 10 ^ 201 ≤ 1 / 10 ^ 17 := one_div_le_one_div_of_le (by positivity) (pow_le_pow_right₀ (by norm_num) (by norm_num))
  have ht3 : (1 : ℝ) / 10 ^ 200 = 10 * (1 / 10 ^ 201) := by norm_num
  rw [ht3]
  generalize (1 : ℝ) / 10 ^ 201 = τ at *
  set q := binary64.rnd (h / dmax) with hqq
  have e : dmax * (h / dmax) = h := by field_simp
  have h3 : (1 - 1 / 2 ^ 53) * h ≤ dmax * q + dmax * τ := by
    have : h / dmax ≤ q + (1 / 2 ^ 53 * (h / dmax) + τ) := by linarith
    have := mul_le_mul_of_nonneg_left this hd.le
    nlinarith
  have h4 : dmax * q ≤ dmax := mul_le_of_le_one_right hd.le hq
  have h5 : dmax * τ ≤ dmax * (1 / 10 ^ 17) := mul_le_mul_of_nonneg_left ht1 hd.le
  have h6 : (1 - 1 / 2 ^ 53) * H ≤ h + τ := by linarith
  have h7 : h ≤ 2 * dmax := by
    norm_num at h3 h5
    linarith
  have h8 : H ≤ 3 * dmax + 2 * τ := by
    norm_num at h6
    linarith
  norm_num at h3 h5 h6 ⊢
  linarith

theorem arcsin_gap {x y : ℝ} (hx : -1 ≤ x) (hy : y ≤ 1) (h : x ≤ y) : Real.arcsin x + (y - x) ≤ Real.arcsin y := by
  have hm := Real.monotone_arcsin h
  have := (trig_near (t := Real.arcsin y) (t' := Real.arcsin x) (e := Real.arcsin y - Real.arcsin x) (by rw [abs_of_nonneg (by linarith)])).2
  rw [Real.sin_arcsin hx (by linarith), Real.sin_arcsin (by linarith) hy, abs_of_nonneg (by linarith)] at this
  linarith

/-- What the half-openings of a box promise. -/
structure Promise (b : V3 ℝ) (dmax t a0 a1 : ℝ) : Prop where
  a0_nonneg : 0 ≤ a0
  a0_le : a0 ≤ 4
  a1_nonneg : 0 ≤ a1
  a1_le : a1 ≤ 4
  y : ∀ θ, |θ| ≤ a0 + 5 / 10 ^ 15 → dmax * |Real.sin θ| ≤ b.y / 2 + t
  z : ∀ θ, |θ| ≤ a1 + 5 / 10 ^ 15 → dmax * |Real.sin θ| ≤ b.z / 2 + t
  x : ∀ θ φ, |θ| ≤ a0 + 5 / 10 ^ 15 → |φ| ≤ a1 + 5 / 10 ^ 15 → dmax * -(Real.cos θ * Real.cos φ) ≤ b.x - dmax + t
  wy : ∀ θ, |θ| ≤ Real.pi / 2 - 1 / 10 ^ 14 → dmax * |Real.sin θ| ≤ b.y / 2 - t → |θ| ≤ a0 - 5 / 10 ^ 15
  wz : ∀ θ, |θ| ≤ Real.pi / 2 - 1 / 10 ^ 14 → dmax * |Real.sin θ| ≤ b.z / 2 - t → |θ| ≤ a1 - 5 / 10 ^ 15
  wx : binary64.IsFloat dmax → dmax ≤ b.y / 2 → ∀ θ, |θ| ≤ Real.pi - 1 / 10 ^ 14 → dmax * -Real.cos θ ≤ b.x - dmax - t → |θ| ≤ a0 - 5 / 10 ^ 15

theorem over_nonneg {H dmax : ℝ} (hH : 0 ≤ H) (hd : 0 < dmax) : 0 ≤ binary64.rnd (binary64.rnd H / dmax) :=
  Fmt.rnd_nonneg (div_nonneg (Fmt.rnd_nonneg hH) hd.le)

theorem npArcsinF_eq {lib : Libm} {q : ℝ} (h0 : 0 ≤ q) (h1 : q ≤ 1) : npArcsinF lib q = .ok (lib.asin q) := by
  unfold npArcsinF
  rw [if_pos ⟨by linarith, h1⟩]

/-- Arcs of sines of quotients below one. -/
theorem arc {lib : Libm} {κ : ℝ} (hl : Accurate lib κ) {q : ℝ} (h0 : 0 ≤ q) (h1 : q ≤ 1) :
    lib.asin q ≤ Real.arcsin q + κ ∧ lib.asin q ≤ 2 ∧ -2 ≤ lib.asin q ∧ 0 ≤ κ := by
  have hq : |q| ≤ 1 := abs_le.2 ⟨by linarith, h1⟩
  obtain ⟨a1, a2⟩ := abs_le.1 (hl.asin q hq)
  obtain ⟨b1, b2⟩ := abs_le.1 (hl.asin_le q hq)
  have := npPi_lt.2.2
  exact ⟨by linarith, by linarith, by linarith, (abs_nonneg _).trans (hl.asin q hq)⟩

/-- Libraries whose arcs of sines of numbers that are not negative are not negative. -/
def Signed (lib : Libm) : Prop := ∀ t, 0 ≤ t → t ≤ 1 → 0 ≤ lib.asin t

theorem side {lib : Libm} {κ : ℝ} (hl : Accurate lib κ) {s dmax θ : ℝ} (hs : 0 ≤ s) (hd : 0 < dmax)
    (h : halfOverF s dmax < 1 → |θ| ≤ lib.asin (halfOverF s dmax) + 5 / 10 ^ 15) : dmax * |Real.sin θ| ≤ s / 2 + slack κ dmax := by
  have hκ := (arc hl le_rfl zero_le_one).2.2.2
  have ho := over (H := s / 2) (by linarith) hd
  have hq0 : 0 ≤ halfOverF s dmax := over_nonneg (by linarith) hd
  change dmax * min 1 (halfOverF s dmax) ≤ _ at ho
  have hk : 0 ≤ κ * dmax := by positivity
  unfold slack
  by_cases h1 : halfOverF s dmax < 1
  · rw [min_eq_right h1.le] at ho
    obtain ⟨a1, -⟩ := arc hl hq0 h1.le
    have := abs_sin_bound (η := κ + 5 / 10 ^ 15) h1.le hq0 (by positivity) ((h h1).trans (by linarith))
    have := mul_le_mul_of_nonneg_left this hd.le
    nlinarith
  · rw [min_eq_left (not_lt.1 h1)] at ho
    have := mul_le_mul_of_nonneg_left (Real.abs_sin_le_one θ) hd.le
    nlinarith

theorem arc_ge {lib : Libm} {κ : ℝ} (hl : Accurate lib κ) {φ H dmax : ℝ} (hφ : |φ| ≤ Real.pi / 2) (hH : 0 ≤ H) (hd : 0 < dmax)
    (h1 : binary64.rnd (binary64.rnd H / dmax) ≤ 1) (h : dmax * Real.sin φ ≤ H - slack κ dmax) :
    φ ≤ lib.asin (binary64.rnd (binary64.rnd H / dmax)) - 9 / 10 ^ 15 := by
  have hκ := (arc hl le_rfl zero_le_one).2.2.2
  have ho := over_ge hH hd h1
  have hq0 := over_nonneg hH hd
  set q := binary64.rnd (binary64.rnd H / dmax)
  have hs : Real.sin φ ≤ q - (κ + 9 / 10 ^ 15) := by
    refine le_of_mul_le_mul_left (a := dmax) ?_ hd
    unfold slack at h
    have e : dmax * (q - (κ + 9 / 10 ^ 15)) = dmax * q + (1 / 10 ^ 15 * dmax + 1 / 10 ^ 200) - ((κ + 1 / 10 ^ 14) * dmax + 1 / 10 ^ 200) := by ring
    rw [e]
    linarith
  obtain ⟨b1, b2⟩ := abs_le.1 hφ
  have e := Real.arcsin_sin b1 b2
  have g := arcsin_gap (Real.neg_one_le_sin φ) h1 (by linarith [(by positivity : 0 ≤ κ + 9 / 10 ^ 15)])
  rw [e] at g
  have := (abs_le.1 (hl.asin q (abs_le.2 ⟨by linarith, h1⟩))).1
  linarith

theorem side_ge {lib : Libm} {κ : ℝ} (hl : Accurate lib κ) {s dmax θ : ℝ} (hs : 0 ≤ s) (hd : 0 < dmax) (hθ : |θ| ≤ Real.pi / 2)
    (h1 : halfOverF s dmax ≤ 1) (h : dmax * |Real.sin θ| ≤ s / 2 - slack κ dmax) : |θ| ≤ lib.asin (halfOverF s dmax) - 5 / 10 ^ 15 := by
  have hpi := Real.pi_pos
  have e : Real.sin |θ| = |Real.sin θ| := by
    rcases abs_cases θ with ⟨a, b⟩ | ⟨a, b⟩
    · rw [a] at hθ ⊢
      rw [abs_of_nonneg (Real.sin_nonneg_of_nonneg_of_le_pi b (by linarith))]
    · rw [a] at hθ ⊢
      have := Real.sin_nonneg_of_nonneg_of_le_pi (x := -θ) (by linarith) (by linarith)
      rw [Real.sin_neg] at this ⊢
      rw [abs_of_nonpos (by linarith)]
  have := arc_ge hl (φ := |θ|) (by rwa [abs_abs]) (H := s / 2) (by linarith) hd h1 (by rw [e]; exact h)
  refine this.trans ?_
  unfold halfOverF
  linarith

theorem product {c d m η : ℝ} (hm : η ≤ m) (hm0 : 0 ≤ m) (hc1 : |c| ≤ 1) (hd1 : |d| ≤ 1) (hc : -m ≤ c) (hd : -η ≤ d) : -m ≤ c * d := by
  obtain ⟨c1, c2⟩ := abs_le.1 hc1
  obtain ⟨d1, d2⟩ := abs_le.1 hd1
  rcases le_total 0 c with h | h <;> rcases le_total 0 d with h' | h'
  · nlinarith [mul_nonneg h h']
  · nlinarith
  · nlinarith
  · nlinarith [mul_nonneg_of_nonpos_of_nonpos h h']

theorem half_pi : 0 ≤ binary64.rnd (npPi / 2) ∧ binary64.rnd (npPi / 2) ≤ Real.pi / 2 + 3 / 10 ^ 16 ∧ Real.pi / 2 - 5 / 10 ^ 16 ≤ binary64.rnd (npPi / 2) := by
  obtain ⟨p1, p2, p3⟩ := npPi_lt
  have h := err' (x := npPi / 2) (m := 2) (by linarith) (by linarith)
  have ht1 : (1 : ℝ) / 10 ^ 201 ≤ 1 / 10 ^ 17 := one_div_le_one_div_of_le (by positivity) (pow_le_pow_right₀ (by norm_num) (by norm_num))
  refine ⟨Fmt.rnd_nonneg (by linarith), h.trans ?_, ?_⟩
  · norm_num only at ht1 ⊢
    linarith
  · have h1 := (abs_le.1 (err (npPi / 2))).1
    rw [abs_of_nonneg (by linarith)] at h1
    have h2 := (abs_le.1 pi_err).1
    rw [u64] at h2
    norm_num only at ht1 h1 h2 ⊢
    linarith

theorem join {lib : Libm} {p q a0 a1 : ℝ} (hp : 0 ≤ p) (hq : 0 ≤ q)
    (ea0 : (if p < 1 then (do .ok (binary64.rnd ((← npArcsinF lib p) + binary64.rnd (npPi / 2)))) else .ok npPi) = (.ok a0 : Except Err ℝ))
    (ea1 : (if q < 1 then npArcsinF lib q else .ok (binary64.rnd (npPi / 2))) = .ok a1) :
    (do
      let dra ← if p < 1 then do .ok (binary64.rnd ((← npArcsinF lib p) + binary64.rnd (npPi / 2))) else .ok npPi
      let ddec ← if q < 1 then npArcsinF lib q else .ok (binary64.rnd (npPi / 2))
      .ok ((0 : ℝ), dra, ddec)) = (.ok (0, a0, a1) : Except Err (ℝ × ℝ × ℝ)) := by
  by_cases u1 : p < 1 <;> by_cases u2 : q < 1
  · rw [if_pos u1, npArcsinF_eq hp u1.le] at ea0
    rw [if_pos u2, npArcsinF_eq hq u2.le] at ea1
    simp only [u1, u2, if_true, npArcsinF_eq hp u1.le, npArcsinF_eq hq u2.le]
    rw [← Except.ok.inj ea0, ← Except.ok.inj ea1]
    rfl
  · rw [if_pos u1, npArcsinF_eq hp u1.le] at ea0
    rw [if_neg u2] at ea1
    simp only [u1, u2, if_true, if_false, npArcsinF_eq hp u1.le]
    rw [← Except.ok.inj ea0, ← Except.ok.inj ea1]
    rfl
  · rw [if_neg u1] at ea0
    rw [if_pos u2, npArcsinF_eq hq u2.le] at ea1
    simp only [u1, u2, if_true, if_false, npArcsinF_eq hq u2.le]
    rw [← Except.ok.inj ea0, ← Except.ok.inj ea1]
    rfl
  · rw [if_neg u1] at ea0
    rw [if_neg u2] at ea1
    simp only [u1, u2, if_false]
    rw [← Except.ok.inj ea0, ← Except.ok.inj ea1]
    rfl

theorem half_openings {lib : Libm} (acos : ℝ → ℝ) {κ : ℝ} (hl : Accurate lib κ) (hs : Signed lib) {b : V3 ℝ} {dmax : ℝ} (dmin : ℝ) (hz : 0 ≤ b.z)
    (hzy : b.z ≤ b.y) (hd : 0 < dmax) (hx : dmax ≤ b.x) :
    ∃ a0 a1, halfOpeningsF lib acos b dmax dmin = .ok (0, a0, a1) ∧ Promise b dmax (slack κ dmax) a0 a1 := by
  have hy : 0 ≤ b.y := hz.trans hzy
  have hκ := (arc hl le_rfl zero_le_one).2.2.2
  have hdx : binary64.rnd (dmax - b.x) = -binary64.rnd (b.x - dmax) := by rw [← Fmt.rnd_neg, neg_sub]
  have hH : 0 ≤ b.x - dmax := by linarith
  have hn : 0 ≤ binary64.rnd (b.x - dmax) := Fmt.rnd_nonneg hH
  have qy0 : 0 ≤ halfOverF b.y dmax := over_nonneg (by linarith) hd
  have qz0 : 0 ≤ halfOverF b.z dmax := over_nonneg (by linarith) hd
  have qzy : halfOverF b.z dmax ≤ halfOverF b.y dmax :=
    Fmt.rnd_mono (div_le_div_of_nonneg_right (Fmt.rnd_mono (by linarith)) hd.le)
  obtain ⟨p1, p2, p3⟩ := npPi_lt
  obtain ⟨hp0, hp1, hp2⟩ := half_pi
  have hpi4 := Real.pi_lt_d2
  have hk : 0 ≤ κ * dmax := by positivity
  have ht : (0 : ℝ) ≤ 1 / 10 ^ 200 := by positivity
  have hcos : ∀ θ, |Real.cos θ| ≤ 1 := Real.abs_cos_le_one
  have small : ∀ {q θ : ℝ}, 0 ≤ q → q ≤ 1 → |θ| ≤ lib.asin q + 5 / 10 ^ 15 → -(κ + 6 / 10 ^ 15) ≤ Real.cos θ := by
    intro q θ h0 h1 hθ
    have h3 := Real.arcsin_le_pi_div_two q
    have := cos_bound (θ := θ) (q := 0) (η := κ + 6 / 10 ^ 15) zero_le_one le_rfl (by positivity) (by
      rw [Real.arcsin_zero]
      linarith [(arc hl h0 h1).1])
    linarith
  unfold halfOpeningsF
  simp only [hdx]
  rw [if_neg hd.ne', if_pos (by linarith), abs_neg, abs_of_nonneg hn]
  by_cases h1 : halfOverF b.y dmax < 1
  · have h2 := qzy.trans_lt h1
    rw [if_pos h1, npArcsinF_eq qy0 h1.le, npArcsinF_eq qz0 h2.le]
    refine ⟨_, _, rfl, hs _ qy0 h1.le, ?_, hs _ qz0 h2.le, ?_, fun θ hθ => side hl hy hd fun _ => hθ, fun θ hθ => side hl hz hd fun _ => hθ, ?_,
      fun θ hθ h => side_ge hl hy hd (by linarith) h1.le h, fun θ hθ h => side_ge hl hz hd (by linarith) h2.le h, ?_⟩
    · linarith [(arc hl qy0 h1.le).2.1]
    · linarith [(arc hl qz0 h2.le).2.1]
    · intro θ φ hθ hφ
      have := product le_rfl (by positivity) (hcos _) (hcos _) (small qy0 h1.le hθ) (small qz0 h2.le hφ)
      have := mul_le_mul_of_nonneg_left (neg_le.1 this) hd.le
      unfold slack
      nlinarith
    · intro hf hle
      refine absurd h1 (not_lt.2 ?_)
      have h3 : dmax ≤ binary64.rnd (b.y / 2) := Fmt.le_rnd hf hle
      exact Fmt.le_rnd Verif.Props.Rounded.one_float ((one_le_div hd).2 h3)
  · rw [if_neg h1]
    have ho := over hH hd
    have hpn := over_nonneg hH hd
    set p := binary64.rnd (binary64.rnd (b.x - dmax) / dmax) with hp
    -- Dec
    obtain ⟨a1, ea1, a10, a14, ha1, ca1, wa1⟩ : ∃ a1, (if halfOverF b.z dmax < 1 then npArcsinF lib (halfOverF b.z dmax) else .ok (binary64.rnd (npPi / 2))) = .ok a1 ∧
        0 ≤ a1 ∧ a1 ≤ 4 ∧ (∀ θ, |θ| ≤ a1 + 5 / 10 ^ 15 → dmax * |Real.sin θ| ≤ b.z / 2 + slack κ dmax) ∧
        (∀ θ, |θ| ≤ a1 + 5 / 10 ^ 15 → -(κ + 6 / 10 ^ 15) ≤ Real.cos θ) ∧
        (∀ θ, |θ| ≤ Real.pi / 2 - 1 / 10 ^ 14 → dmax * |Real.sin θ| ≤ b.z / 2 - slack κ dmax → |θ| ≤ a1 - 5 / 10 ^ 15) := by
      by_cases h2 : halfOverF b.z dmax < 1
      · rw [if_pos h2, npArcsinF_eq qz0 h2.le]
        exact ⟨_, rfl, hs _ qz0 h2.le, by linarith [(arc hl qz0 h2.le).2.1], fun θ hθ => side hl hz hd fun _ => hθ, fun θ hθ => small qz0 h2.le hθ,
          fun θ hθ h => side_ge hl hz hd (by linarith) h2.le h⟩
      · rw [if_neg h2]
        refine ⟨_, rfl, hp0, by linarith, fun θ _ => side hl hz hd fun h => absurd h h2, fun θ hθ => ?_, fun θ hθ _ => by linarith⟩
        have := cos_bound (θ := θ) (q := 0) (η := κ + 6 / 10 ^ 15) zero_le_one le_rfl (by positivity) (by
          rw [Real.arcsin_zero]
          linarith)
        linarith
    -- RA
    obtain ⟨a0, ea0, a00, a04, ca0, wa0, wx0⟩ : ∃ a0, (if p < 1 then (do .ok (binary64.rnd ((← npArcsinF lib p) + binary64.rnd (npPi / 2)))) else .ok npPi) =
        (.ok a0 : Except Err ℝ) ∧ 0 ≤ a0 ∧ a0 ≤ 4 ∧
        (∀ θ φ, |θ| ≤ a0 + 5 / 10 ^ 15 → |φ| ≤ a1 + 5 / 10 ^ 15 → dmax * -(Real.cos θ * Real.cos φ) ≤ b.x - dmax + slack κ dmax) ∧
        Real.pi / 2 - 5 / 10 ^ 16 ≤ a0 ∧
        (∀ θ, |θ| ≤ Real.pi - 1 / 10 ^ 14 → dmax * -Real.cos θ ≤ b.x - dmax - slack κ dmax → |θ| ≤ a0 - 5 / 10 ^ 15) := by
      by_cases h2 : p < 1
      · rw [if_pos h2, npArcsinF_eq hpn h2.le]
        obtain ⟨r1, r2, r3, -⟩ := arc hl hpn h2.le
        have r0 := hs _ hpn h2.le
        have r4 := err' (x := lib.asin p + binary64.rnd (npPi / 2)) (m := 4) (by linarith) (by linarith)
        have ht1 : (1 : ℝ) / 10 ^ 201 ≤ 1 / 10 ^ 17 := one_div_le_one_div_of_le (by positivity) (pow_le_pow_right₀ (by norm_num) (by norm_num))
        have r5 : binary64.rnd (lib.asin p + binary64.rnd (npPi / 2)) ≤ lib.asin p + Real.pi / 2 + 9 / 10 ^ 16 := by
          norm_num only at ht1 r4 hp1 ⊢
          linarith
        have r6 := (abs_le.1 (err (lib.asin p + binary64.rnd (npPi / 2)))).1
        rw [abs_of_nonneg (by linarith)] at r6
        have r7 : lib.asin p + Real.pi / 2 - 2 / 10 ^ 15 ≤ binary64.rnd (lib.asin p + binary64.rnd (npPi / 2)) := by
          norm_num only at ht1 r6 hp1 hp2 ⊢
          linarith
        refine ⟨_, rfl, Fmt.rnd_nonneg (by linarith), by linarith, fun θ φ hθ hφ => ?_, hp2.trans ?_, fun θ hθ h => ?_⟩
        rotate_left
        · exact (Fmt.rnd_idem (npPi / 2)).symm.le.trans (Fmt.rnd_mono (by linarith))
        · have := arc_ge hl (φ := |θ| - Real.pi / 2) (abs_le.2 ⟨by linarith [abs_nonneg θ], by linarith⟩) hH hd h2.le (by
            rw [Real.sin_sub_pi_div_two, Real.cos_abs]
            exact h)
          rw [← hp] at this
          linarith
        have c1 := cos_bound (θ := θ) (q := p) (η := κ + 6 / 10 ^ 15) h2.le hpn (by positivity) (by linarith)
        have := product (by linarith) (by positivity) (hcos _) (hcos _) c1 (ca1 φ hφ)
        have := mul_le_mul_of_nonneg_left (neg_le.1 this) hd.le
        rw [min_eq_right h2.le] at ho
        unfold slack
        nlinarith
      · rw [if_neg h2]
        have pe := (abs_le.1 pi_err).1
        rw [u64] at pe
        have pe' : Real.pi - 5 / 10 ^ 16 ≤ npPi := by
          norm_num only at pe ⊢
          linarith
        refine ⟨_, rfl, by linarith, by linarith, fun θ φ _ _ => ?_, by linarith, fun θ hθ _ => by linarith⟩
        have : |Real.cos θ * Real.cos φ| ≤ 1 := by rw [abs_mul]; exact mul_le_one₀ (hcos _) (abs_nonneg _) (hcos _)
        have := mul_le_mul_of_nonneg_left (neg_le.1 (abs_le.1 this).1) hd.le
        rw [min_eq_left (not_lt.1 h2)] at ho
        unfold slack
        nlinarith
    refine ⟨a0, a1, ?_, a00, a04, a10, a14, fun θ _ => side hl hy hd fun h => absurd h h1, ha1, ca0, fun θ hθ _ => by linarith, wa1,
      fun _ _ => wx0⟩
    exact join hpn qz0 ea0 ea1

/-- C142: `box_to_cutsky`, for an observer in the box: it returns ranges, with distances from 0, and each point in them is in the box, or outside by at most
10⁻¹⁴ of the maximum distance, plus the error of the arc of a sine in the library. -/
theorem C142_inside {lib : Libm} (acos : ℝ → ℝ) {κ : ℝ} (hl : Accurate lib κ) (hs : Signed lib) {b : V3 ℝ} {dmax : ℝ} (dmin : ℝ) (hy : 0 ≤ b.y) (hz : 0 ≤ b.z)
    (hd : 0 < dmax) (hx : dmax ≤ b.x) :
    ∃ rr dcr, boxToCutskyF lib acos b dmax dmin = .ok ((0, dmax), rr, dcr) ∧
      ∀ d ra dec, InRange (0, dmax) d → InRange rr ra → InRange dcr dec → NearPlacedBox b dmax (slack κ dmax) (skyPoint d ra dec) := by
  have hcos : ∀ θ, |Real.cos θ| ≤ 1 := Real.abs_cos_le_one
  have hsin : ∀ θ, |Real.sin θ| ≤ 1 := Real.abs_sin_le_one
  have hκ := (arc hl le_rfl zero_le_one).2.2.2
  have hs0 : 0 ≤ slack κ dmax := by unfold slack; positivity
  have key : ∀ {d ra dec Y Z : ℝ}, InRange (0, dmax) d → dmax * |Real.sin (rad ra)| ≤ Y + slack κ dmax → dmax * |Real.sin (rad dec)| ≤ Z + slack κ dmax →
      dmax * -(Real.cos (rad dec) * Real.cos (rad ra)) ≤ b.x - dmax + slack κ dmax →
      (dmax - b.x - slack κ dmax ≤ (skyPoint d ra dec).x ∧ (skyPoint d ra dec).x ≤ dmax) ∧ |(skyPoint d ra dec).y| ≤ Y + slack κ dmax ∧
        |(skyPoint d ra dec).z| ≤ Z + slack κ dmax := by
    intro d ra dec Y Z ⟨d0, d1⟩ h2 h3 h1
    simp only at d0 d1
    have hc : |Real.cos (rad dec) * Real.cos (rad ra)| ≤ 1 := by rw [abs_mul]; exact mul_le_one₀ (hcos _) (abs_nonneg _) (hcos _)
    obtain ⟨c1, c2⟩ := abs_le.1 hc
    simp only [skyPoint]
    refine ⟨⟨?_, ?_⟩, ?_, ?_⟩
    · rcases le_total 0 (Real.cos (rad dec) * Real.cos (rad ra)) with h | h
      · have := mul_nonneg d0 h
        linarith
      · have := mul_le_mul_of_nonneg_right d1 (neg_nonneg.2 h)
        linarith
    · have := mul_le_mul_of_nonneg_left c2 d0
      linarith
    · rw [abs_mul, abs_of_nonneg d0, abs_mul]
      refine le_trans ?_ h2
      refine mul_le_mul d1 ?_ (by positivity) hd.le
      exact mul_le_of_le_one_left (abs_nonneg _) (hcos _)
    · rw [abs_mul, abs_of_nonneg d0]
      exact le_trans (mul_le_mul_of_nonneg_right d1 (abs_nonneg _)) h3
  unfold boxToCutskyF
  by_cases h : b.y < b.z
  · obtain ⟨a0, a1, e, f⟩ := half_openings acos hl hs (b := ⟨b.x, b.z, b.y⟩) dmin hy h.le hd hx
    simp only [h, decide_true, if_true]
    rw [e]
    refine ⟨_, _, rfl, fun d ra dec h1 h2 h3 => ?_⟩
    have g2 := degrees_le f.a1_nonneg f.a1_le h2
    have g3 := degrees_le f.a0_nonneg f.a0_le h3
    exact key h1 (f.z _ g2) (f.y _ g3) (f.x _ _ g3 g2)
  · obtain ⟨a0, a1, e, f⟩ := half_openings acos hl hs (b := b) dmin hz (not_lt.1 h) hd hx
    simp only [h, decide_false, Bool.false_eq_true, if_false]
    rw [e]
    refine ⟨_, _, rfl, fun d ra dec h1 h2 h3 => ?_⟩
    have g2 := degrees_le f.a0_nonneg f.a0_le h2
    have g3 := degrees_le f.a1_nonneg f.a1_le h3
    have := f.x _ _ g2 g3
    rw [mul_comm (Real.cos (rad ra))] at this
    exact key h1 (f.y _ g2) (f.z _ g3) this

theorem rad_small {x m : ℝ} (h : |x| ≤ m - 1 / 10 ^ 12) : |rad x| ≤ m * (Real.pi / 180) - 1 / 10 ^ 14 := by
  have hpi := Real.pi_gt_three
  have er : |rad x| = |x| * (Real.pi / 180) := by unfold rad; rw [abs_mul, abs_of_pos (by positivity : 0 < Real.pi / 180)]
  have := mul_le_mul_of_nonneg_right h (by positivity : 0 ≤ Real.pi / 180)
  rw [er]
  nlinarith

/-- C142: the ranges are as wide as the box allows, up to the same tolerance: at the maximum distance, on the equator and on the meridian through the axis, points
of the box that are farther than the tolerance from its faces are in the ranges. For an observer who can look back, this holds up to 180 degrees. -/
theorem C142_widest {lib : Libm} (acos : ℝ → ℝ) {κ : ℝ} (hl : Accurate lib κ) (hs : Signed lib) {b : V3 ℝ} {dmax dmin : ℝ} (hy : 0 ≤ b.y) (hz : 0 ≤ b.z)
    (hd : 0 < dmax) (hx : dmax ≤ b.x) {dr rr dcr : ℝ × ℝ} (he : boxToCutskyF lib acos b dmax dmin = .ok (dr, rr, dcr)) :
    dr = (0, dmax) ∧
    (∀ ra, |ra| ≤ 90 - 1 / 10 ^ 12 → |(skyPoint dmax ra 0).y| ≤ b.y / 2 - slack κ dmax → InRange rr ra) ∧
    (∀ dec, |dec| ≤ 90 - 1 / 10 ^ 12 → |(skyPoint dmax 0 dec).z| ≤ b.z / 2 - slack κ dmax → InRange dcr dec) ∧
    (binary64.IsFloat dmax → b.z ≤ b.y → dmax ≤ b.y / 2 → ∀ ra, |ra| ≤ 180 - 1 / 10 ^ 12 →
      dmax - b.x + slack κ dmax ≤ (skyPoint dmax ra 0).x → InRange rr ra) := by
  have e0 : rad 0 = 0 := by unfold rad; ring
  have e90 : 90 * (Real.pi / 180) = Real.pi / 2 := by ring
  have e180 : 180 * (Real.pi / 180) = Real.pi := by ring
  simp only [skyPoint, e0, Real.cos_zero, one_mul, mul_one, abs_mul, abs_of_pos hd]
  unfold boxToCutskyF at he
  by_cases h : b.y < b.z
  · obtain ⟨a0, a1, e, f⟩ := half_openings acos hl hs (b := ⟨b.x, b.z, b.y⟩) dmin hy h.le hd hx
    simp only [h, decide_true, if_true] at he
    rw [e] at he
    have he' := Except.ok.inj he
    simp only [Prod.mk.injEq] at he'
    obtain ⟨rfl, rfl, rfl⟩ := he'
    refine ⟨rfl, fun ra h1 h2 => ?_, fun dec h1 h2 => ?_, fun _ h1 => absurd h (not_lt.2 h1)⟩
    · exact degrees_ge f.a1_nonneg f.a1_le (f.wz _ (by rw [← e90]; exact rad_small h1) h2)
    · exact degrees_ge f.a0_nonneg f.a0_le (f.wy _ (by rw [← e90]; exact rad_small h1) h2)
  · obtain ⟨a0, a1, e, f⟩ := half_openings acos hl hs (b := b) dmin hz (not_lt.1 h) hd hx
    simp only [h, decide_false, Bool.false_eq_true, if_false] at he
    rw [e] at he
    have he' := Except.ok.inj he
    simp only [Prod.mk.injEq] at he'
    obtain ⟨rfl, rfl, rfl⟩ := he'
    refine ⟨rfl, fun ra h1 h2 => ?_, fun dec h1 h2 => ?_, fun h0 _ h1 ra h2 h3 => ?_⟩
    · exact degrees_ge f.a0_nonneg f.a0_le (f.wy _ (by rw [← e90]; exact rad_small h1) h2)
    · exact degrees_ge f.a1_nonneg f.a1_le (f.wz _ (by rw [← e90]; exact rad_small h1) h2)
    · exact degrees_ge f.a0_nonneg f.a0_le (f.wx h0 h1 _ (by rw [← e180]; exact rad_small h2) (by linarith))

/-- C142: for an observer out of the box, whose near corners are not nearer than the maximum distance, a minimum distance that does not reach the box is
rejected. -/
theorem C142_rejected {lib : Libm} {acos : ℝ → ℝ} {b : V3 ℝ} {dmax dmin : ℝ} (hd : dmax ≠ 0) (h0 : 0 < binary64.rnd (dmax - b.x))
    (hc : dmax ≤ binary64.rnd (Real.sqrt (binary64.rnd (binary64.rnd (binary64.rnd (dmax - b.x) ^ 2) + binary64.rnd (binary64.rnd (max b.y b.z / 2) ^ 2)))))
    (hm : dmin < binary64.rnd (dmax - b.x)) : boxToCutskyF lib acos b dmax dmin = .error .valueError := by
  have key : ∀ c : V3 ℝ, c.x = b.x → c.y = max b.y b.z → halfOpeningsF lib acos c dmax dmin = .error .valueError := by
    intro c e1 e2
    unfold halfOpeningsF
    simp only [e1, e2]
    rw [if_neg hd, if_neg (not_le.2 h0), if_neg (not_lt.2 hc), if_pos hm]
    rfl
  unfold boxToCutskyF
  by_cases h : b.y < b.z
  · simp only [h, decide_true, if_true]
    rw [key ⟨b.x, b.z, b.y⟩ rfl (max_eq_right h.le).symm]
    rfl
  · simp only [h, decide_false, Bool.false_eq_true, if_false]
    rw [key b rfl (max_eq_left (not_lt.1 h)).symm]
    rfl

/-- Near corners that are computed to be at least `dmax` away are at least about `dmax` away. -/
theorem corner {dx Y dmax : ℝ} (h0 : 0 ≤ dx) (h1 : dx ≤ dmax) (hY : 0 ≤ Y) (hY1 : Y / 2 ≤ dmax)
    (hc : dmax ≤ binary64.rnd (Real.sqrt (binary64.rnd (binary64.rnd (dx ^ 2) + binary64.rnd (binary64.rnd (Y / 2) ^ 2))))) :
    dmax ^ 2 ≤ dx ^ 2 + (Y / 2) ^ 2 + (1 / 10 ^ 14 - 1 / 10 ^ 15) * dmax ^ 2 + 100 * (1 / 10 ^ 201) * dmax + 100 * (1 / 10 ^ 201) := by
  have hd : 0 ≤ dmax := h0.trans h1
  have ht : (0 : ℝ) ≤ 1 / 10 ^ 201 := by positivity
  have ht1 : (1 : ℝ) / 10 ^ 201 ≤ 1 / 10 ^ 17 := one_div_le_one_div_of_le (by positivity) (pow_le_pow_right₀ (by norm_num) (by norm_num))
  have er : ∀ {x m : ℝ}, 0 ≤ x → x ≤ m → binary64.rnd x ≤ x + (1 / 10 ^ 15 * m / 8 + 1 / 10 ^ 201) := by
    intro x m hx hm
    have := err' hx hm
    have h2 : (1 : ℝ) / 2 ^ 53 ≤ 1 / 10 ^ 15 / 8 := by norm_num
    have := mul_le_mul_of_nonneg_right h2 (hx.trans hm)
    linarith
  generalize (1 : ℝ) / 10 ^ 201 = τ at *
  have hA : dx ^ 2 ≤ dmax ^ 2 := pow_le_pow_left₀ h0 h1 2
  have hB : (Y / 2) ^ 2 ≤ dmax ^ 2 := pow_le_pow_left₀ (by positivity) hY1 2
  have s1 := er (sq_nonneg dx) hA
  have g := er (by positivity : 0 ≤ Y / 2) hY1
  have gn : 0 ≤ binary64.rnd (Y / 2) := Fmt.rnd_nonneg (by positivity)
  set h := binary64.rnd (Y / 2)
  set D := dmax ^ 2 with hD
  have hD0 : 0 ≤ D := sq_nonneg _
  have hτd : 0 ≤ τ * dmax := by positivity
  have hττ : τ * τ ≤ τ * 1 := mul_le_mul_of_nonneg_left (by linarith) ht
  have s2 : h ^ 2 ≤ (Y / 2) ^ 2 + 3 / 10 ^ 15 / 8 * D + 3 * (τ * dmax) + τ := by
    have a1 : h ^ 2 ≤ (Y / 2 + (1 / 10 ^ 15 * dmax / 8 + τ)) ^ 2 := pow_le_pow_left₀ gn g 2
    have a2 : Y / 2 * (1 / 10 ^ 15 * dmax / 8 + τ) ≤ dmax * (1 / 10 ^ 15 * dmax / 8 + τ) := mul_le_mul_of_nonneg_right hY1 (by positivity)
    nlinarith
  have s3 := er (sq_nonneg h) s2
  have n1 : 0 ≤ binary64.rnd (dx ^ 2) := Fmt.rnd_nonneg (sq_nonneg _)
  have n2 : 0 ≤ binary64.rnd (h ^ 2) := Fmt.rnd_nonneg (sq_nonneg _)
  have s4 : binary64.rnd (dx ^ 2) + binary64.rnd (h ^ 2) ≤ dx ^ 2 + (Y / 2) ^ 2 + 6 / 10 ^ 15 / 8 * D + 4 * (τ * dmax) + 4 * τ := by
    norm_num at s1 s2 s3 ⊢
    linarith
  have s5 := er (by positivity) s4
  set S := binary64.rnd (binary64.rnd (dx ^ 2) + binary64.rnd (h ^ 2))
  have hS : 0 ≤ S := Fmt.rnd_nonneg (by positivity)
  have s6 : S ≤ dx ^ 2 + (Y / 2) ^ 2 + 9 / 10 ^ 15 / 8 * D + 5 * (τ * dmax) + 6 * τ := by
    norm_num at s4 s5 ⊢
    linarith
  have s7 := er (Real.sqrt_nonneg S) le_rfl
  have hsq : Real.sqrt S ^ 2 = S := Real.sq_sqrt hS
  have hw := Real.sqrt_nonneg S
  set w := Real.sqrt S
  have s8 : D ≤ 2 * (τ * dmax) + (1 + 1 / 10 ^ 15 / 2) * S := by
    have a1 : dmax - τ ≤ (1 + 1 / 10 ^ 15 / 8) * w := by linarith
    by_cases hdt : dmax ≤ τ
    · have := mul_le_mul_of_nonneg_right hdt hd
      have : 0 ≤ (1 + 1 / 10 ^ 15 / 2) * S := by positivity
      nlinarith
    · have a2 := pow_le_pow_left₀ (by linarith) a1 2
      rw [mul_pow, hsq] at a2
      have a3 : (1 + 1 / 10 ^ 15 / 8 : ℝ) ^ 2 * S ≤ (1 + 1 / 10 ^ 15 / 2) * S := mul_le_mul_of_nonneg_right (by norm_num) hS
      nlinarith [sq_nonneg τ]
  norm_num at s6 s8 ⊢
  linarith

/-- The tolerance for a minimum distance that is given. -/
noncomputable def slack' (κ dmax : ℝ) : ℝ := (κ + 2 / 10 ^ 7) * dmax + 1 / 10 ^ 90

theorem slack_le {κ dmax : ℝ} (hd : 0 ≤ dmax) : slack κ dmax ≤ slack' κ dmax := by
  unfold slack slack'
  have h1 : (1 : ℝ) / 10 ^ 200 ≤ 1 / 10 ^ 90 := one_div_le_one_div_of_le (by positivity) (pow_le_pow_right₀ (by norm_num) (by norm_num))
  nlinarith

theorem front {κ dmax dmin dx Y a θ : ℝ} (hκ : 0 ≤ κ) (h0 : 0 < dx) (h1 : dx ≤ dmin) (h2 : dmin ≤ dmax) (hY : 0 ≤ Y)
    (hc : dmax ≤ binary64.rnd (Real.sqrt (binary64.rnd (binary64.rnd (dx ^ 2) + binary64.rnd (binary64.rnd (Y / 2) ^ 2)))))
    (ha : a ≤ Real.arccos (binary64.rnd (dx / dmin)) + κ) (h : |θ| ≤ a + 5 / 10 ^ 15) : dmax * |Real.sin θ| ≤ Y / 2 + slack' κ dmax := by
  have hd : 0 < dmax := by linarith
  have hm : 0 < dmin := by linarith
  have hk : 0 ≤ κ * dmax := by positivity
  have hs0 : 0 ≤ slack' κ dmax := by unfold slack'; positivity
  by_cases hY1 : Y / 2 ≤ dmax
  swap
  · have := mul_le_mul_of_nonneg_left (Real.abs_sin_le_one θ) hd.le
    linarith
  have q1 : dx / dmin ≤ 1 := (div_le_one hm).2 h1
  have q0 : 0 ≤ dx / dmin := by positivity
  have c1 : binary64.rnd (dx / dmin) ≤ 1 := Fmt.rnd_le Verif.Props.Rounded.one_float q1
  have c0 : 0 ≤ binary64.rnd (dx / dmin) := Fmt.rnd_nonneg q0
  have ce := (abs_le.1 (err (dx / dmin))).1
  rw [abs_of_nonneg q0] at ce
  have cn := corner h0.le (h1.trans h2) hY hY1 hc
  have ht : (0 : ℝ) ≤ 1 / 10 ^ 201 := by positivity
  have ht1 : (1 : ℝ) / 10 ^ 201 ≤ 1 / 10 ^ 17 := one_div_le_one_div_of_le (by positivity) (pow_le_pow_right₀ (by norm_num) (by norm_num))
  have ht2 : (1000000 : ℝ) * (1 / 10 ^ 201) ≤ 1 / 10 ^ 180 := by norm_num
  have hr : dx / dmax ≤ dx / dmin := div_le_div_of_nonneg_left h0.le hm h2
  set c := binary64.rnd (dx / dmin)
  set r := dx / dmax with hrr
  have hr0 : 0 ≤ r := by positivity
  have hr1 : r ≤ 1 := hr.trans q1
  have er : dx = r * dmax := by rw [hrr]; field_simp
  have cr : r - 2 / 10 ^ 16 ≤ c := by
    norm_num only at ce ht1 ⊢
    linarith
  have c2 : r ^ 2 - 4 / 10 ^ 16 ≤ c ^ 2 := by
    by_cases hb : r ≤ 2 / 10 ^ 16
    · have : r ^ 2 ≤ 2 / 10 ^ 16 * 1 := by rw [sq]; exact mul_le_mul hb hr1 hr0 (by norm_num)
      have := sq_nonneg c
      linarith
    · have := pow_le_pow_left₀ (by linarith) cr 2
      nlinarith
  have hc2 : 0 ≤ 1 - c ^ 2 := by nlinarith
  have hs := abs_sin_bound (θ := θ) (q := Real.sqrt (1 - c ^ 2)) (η := κ + 5 / 10 ^ 15) (by rw [Real.sqrt_le_one]; nlinarith) (Real.sqrt_nonneg _) (by positivity) (by
    rw [← Real.arccos_eq_arcsin c0]
    linarith)
  have key : dmax * Real.sqrt (1 - c ^ 2) ≤ Y / 2 + (1 / 10 ^ 7 * dmax + 1 / 10 ^ 90) := by
    refine abs_le_of_sq_le_sq' ?_ (by positivity) |>.2
    rw [mul_pow, Real.sq_sqrt hc2]
    have e2 : (1 / 10 ^ 7 * dmax + 1 / 10 ^ 90 : ℝ) ^ 2 = 1 / 10 ^ 14 * dmax ^ 2 + 2 / 10 ^ 97 * dmax + 1 / 10 ^ 180 := by ring
    have e3 : (Y / 2) ^ 2 + (1 / 10 ^ 7 * dmax + 1 / 10 ^ 90 : ℝ) ^ 2 ≤ (Y / 2 + (1 / 10 ^ 7 * dmax + 1 / 10 ^ 90)) ^ 2 := by
      have : 0 ≤ Y / 2 * (1 / 10 ^ 7 * dmax + 1 / 10 ^ 90) := by positivity
      nlinarith
    refine le_trans ?_ e3
    rw [e2]
    have e4 : dmax ^ 2 * (r ^ 2 - 4 / 10 ^ 16) ≤ dmax ^ 2 * c ^ 2 := mul_le_mul_of_nonneg_left c2 (sq_nonneg _)
    have e5 : dx ^ 2 = dmax ^ 2 * r ^ 2 := by rw [er]; ring
    have e6 : 100 * (1 / 10 ^ 201) * dmax ≤ 2 / 10 ^ 97 * dmax := mul_le_mul_of_nonneg_right (by norm_num) hd.le
    have e7 := sq_nonneg dmax
    have e8 : dmax ^ 2 * (1 - c ^ 2) = dmax ^ 2 - dmax ^ 2 * c ^ 2 := by ring
    rw [e5] at cn
    rw [e8]
    linarith
  have := mul_le_mul_of_nonneg_left hs hd.le
  unfold slack'
  nlinarith

theorem npArcsinF_ok {lib : Libm} {q a : ℝ} (h : npArcsinF lib q = .ok a) : a = lib.asin q ∧ -1 ≤ q ∧ q ≤ 1 := by
  unfold npArcsinF at h
  split at h
  · rename_i hq
    exact ⟨(Except.ok.inj h).symm, hq⟩
  · exact absurd h (by simp)

theorem npArccosF_ok {acos : ℝ → ℝ} {q a : ℝ} (h : npArccosF acos q = .ok a) : a = acos q ∧ -1 ≤ q ∧ q ≤ 1 := by
  unfold npArccosF at h
  split at h
  · rename_i hq
    exact ⟨(Except.ok.inj h).symm, hq⟩
  · exact absurd h (by simp)

/-- Functions `arccos` within `κ`, and between 0 and 4. -/
structure AccurateAcos (acos : ℝ → ℝ) (κ : ℝ) : Prop where
  err : ∀ t, |t| ≤ 1 → |acos t - Real.arccos t| ≤ κ
  range : ∀ t, |t| ≤ 1 → 0 ≤ acos t ∧ acos t ≤ 4

theorem cos_near {θ α δ : ℝ} (h0 : 0 ≤ α) (h1 : α ≤ Real.pi) (hδ : 0 ≤ δ) (h : |θ| ≤ α + δ) : Real.cos α - δ ≤ Real.cos θ := by
  rw [← Real.cos_abs θ]
  rcases le_total |θ| α with h2 | h2
  · have := Real.cos_le_cos_of_nonneg_of_le_pi (abs_nonneg θ) h1 h2
    linarith
  · have := (trig_near (t := |θ|) (t' := α) (e := δ) (by rw [abs_of_nonneg (by linarith)]; linarith)).1
    linarith [(abs_le.1 this).1]

/-- Points beyond the minimum distance, within half-openings of cosine `C`, are beyond the near face. -/
theorem beyond {κ dmax bx dm d C θ : ℝ} (hκ : 0 ≤ κ) (hbx : 0 ≤ bx) (hx : 0 < dmax - bx) (hdm : 0 < dm) (h1 : dm ≤ d) (h2 : d ≤ dmax) (hC : 0 ≤ C)
    (hc : C - (κ + 5 / 10 ^ 15) ≤ Real.cos θ) (hdx : binary64.rnd (dmax - bx) - (1 / 10 ^ 15 * dmax + 2 * (1 / 10 ^ 201)) ≤ dm * C) :
    dmax - bx - slack κ dmax ≤ d * Real.cos θ := by
  have hd : 0 < dmax := by linarith
  have e := (abs_le.1 (err (dmax - bx))).1
  rw [abs_of_pos hx] at e
  have ht : (0 : ℝ) ≤ 1 / 10 ^ 201 := by positivity
  have ht3 : (1 : ℝ) / 10 ^ 200 = 10 * (1 / 10 ^ 201) := by norm_num
  have k0 : (1 : ℝ) / 2 ^ 53 * (dmax - bx) ≤ 1 / 10 ^ 15 * dmax := mul_le_mul (by norm_num) (by linarith) hx.le (by norm_num)
  have hk : 0 ≤ κ * dmax := by positivity
  have g : dmax - bx - (2 / 10 ^ 15 * dmax + 3 * (1 / 10 ^ 201)) ≤ dm * C := by linarith
  unfold slack
  rw [ht3]
  generalize (1 : ℝ) / 10 ^ 201 = τ at *
  set η := κ + 5 / 10 ^ 15 with hη
  have hη0 : 0 ≤ η := by positivity
  have e1 : (κ + 1 / 10 ^ 14) * dmax = η * dmax + 5 / 10 ^ 15 * dmax := by rw [hη]; ring
  rw [e1]
  rcases le_total 0 (Real.cos θ) with h | h
  · have a1 : dm * Real.cos θ ≤ d * Real.cos θ := mul_le_mul_of_nonneg_right h1 h
    have a2 : dm * (C - η) ≤ dm * Real.cos θ := mul_le_mul_of_nonneg_left hc hdm.le
    have a3 : dm * η ≤ dmax * η := mul_le_mul_of_nonneg_right (h1.trans h2) hη0
    nlinarith
  · have a0 : 0 ≤ Real.cos θ + η := by linarith
    have a1 : dmax * Real.cos θ ≤ d * Real.cos θ := mul_le_mul_of_nonpos_right h2 h
    have a2 : dm * C ≤ dm * (Real.cos θ + η) := mul_le_mul_of_nonneg_left (by linarith) hdm.le
    have a3 : dm * (Real.cos θ + η) ≤ dmax * (Real.cos θ + η) := mul_le_mul_of_nonneg_right (h1.trans h2) a0
    nlinarith

/-- The near face, for half-openings of which the cosine is the distance of the near face over the minimum distance. -/
theorem beyond_acos {acos : ℝ → ℝ} {κ dmax bx dm d a θ : ℝ} (hκ : 0 ≤ κ) (hca : AccurateAcos acos κ) (hbx : 0 ≤ bx) (hx : 0 < dmax - bx)
    (hdx : 0 < binary64.rnd (dmax - bx)) (hdm : 0 < dm) (h1 : dm ≤ d) (h2 : d ≤ dmax) (h3 : binary64.rnd (binary64.rnd (dmax - bx) / dm) ≤ 1)
    (ha : a ≤ acos (binary64.rnd (binary64.rnd (dmax - bx) / dm))) (hθ : |θ| ≤ a + 5 / 10 ^ 15) : dmax - bx - slack κ dmax ≤ d * Real.cos θ := by
  have q0 : 0 ≤ binary64.rnd (dmax - bx) / dm := by positivity
  have e := (abs_le.1 (err (binary64.rnd (dmax - bx) / dm))).2
  rw [abs_of_nonneg q0] at e
  have c0 : 0 ≤ binary64.rnd (binary64.rnd (dmax - bx) / dm) := Fmt.rnd_nonneg q0
  have hh := (abs_le.1 (hca.err _ (abs_le.2 ⟨by linarith, h3⟩))).2
  have hov := over_ge (H := dmax - bx) (dmax := dm) hx.le hdm h3
  have ed : dm * (binary64.rnd (dmax - bx) / dm) = binary64.rnd (dmax - bx) := by field_simp
  have e' := (abs_le.1 (err (binary64.rnd (dmax - bx) / dm))).1
  rw [abs_of_nonneg q0] at e'
  set c := binary64.rnd (binary64.rnd (dmax - bx) / dm)
  refine beyond hκ hbx hx hdm h1 h2 c0 ?_ ?_
  · have := cos_near (θ := θ) (Real.arccos_nonneg c) (Real.arccos_le_pi c) (δ := κ + 5 / 10 ^ 15) (by positivity) (by linarith)
    rwa [Real.cos_arccos (by linarith) h3] at this
  · have ht : (0 : ℝ) ≤ 1 / 10 ^ 201 := by positivity
    have ht1 : (1 : ℝ) / 10 ^ 201 ≤ 1 / 10 ^ 17 := one_div_le_one_div_of_le (by positivity) (pow_le_pow_right₀ (by norm_num) (by norm_num))
    have hq2 : binary64.rnd (dmax - bx) / dm ≤ 2 := by
      norm_num only at e' ht1
      linarith
    have a1 : binary64.rnd (dmax - bx) / dm - 5 / 10 ^ 16 ≤ c := by
      norm_num only at e' ht1 ⊢
      linarith
    have a2 := mul_le_mul_of_nonneg_left a1 hdm.le
    rw [mul_sub, ed] at a2
    have : dm * (5 / 10 ^ 16) ≤ dmax * (5 / 10 ^ 16) := mul_le_mul_of_nonneg_right (h1.trans h2) (by norm_num)
    linarith

theorem half_outside {lib : Libm} {acos : ℝ → ℝ} {κ : ℝ} (hl : Accurate lib κ) (hs : Signed lib) (hca : AccurateAcos acos κ) {b : V3 ℝ} {dmax dmin : ℝ}
    (hy : 0 ≤ b.y) (hz : 0 ≤ b.z) (hd : 0 < dmax) (hdx : 0 < binary64.rnd (dmax - b.x)) {dm a0 a1 : ℝ}
    (he : halfOpeningsF lib acos b dmax dmin = .ok (dm, a0, a1)) (hbx : 0 ≤ b.x) (hx : 0 < dmax - b.x) :
    (0 ≤ a0 ∧ a0 ≤ 4 ∧ 0 ≤ a1 ∧ a1 ≤ 4) ∧
    (dm ≤ dmax → ∀ θ, |θ| ≤ a0 + 5 / 10 ^ 15 → dmax * |Real.sin θ| ≤ b.y / 2 + slack' κ dmax) ∧
    (∀ θ, |θ| ≤ a1 + 5 / 10 ^ 15 → dmax * |Real.sin θ| ≤ b.z / 2 + slack' κ dmax) ∧
    (∀ θ d, |θ| ≤ a0 + 5 / 10 ^ 15 → 0 < dm → dm ≤ d → d ≤ dmax → dmax - b.x - slack κ dmax ≤ d * Real.cos θ) ∧
    (∀ θ d, |θ| ≤ a1 + 5 / 10 ^ 15 → 0 < dm → dm ≤ d → d ≤ dmax → dmax - b.x - slack κ dmax ≤ d * Real.cos θ) := by
  have hκ := (arc hl le_rfl zero_le_one).2.2.2
  have qy0 : 0 ≤ halfOverF b.y dmax := over_nonneg (by linarith) hd
  have qz0 : 0 ≤ halfOverF b.z dmax := over_nonneg (by linarith) hd
  have hsl := slack_le (κ := κ) hd.le
  have last : ∀ {dm' dra : ℝ}, (do
      let thetaDmax ← npArcsinF lib (halfOverF b.z dmax)
      let thetaDmin ← npArccosF acos (binary64.rnd (binary64.rnd (dmax - b.x) / dm'))
      .ok (dm', dra, min thetaDmax thetaDmin)) = (.ok (dm, a0, a1) : Except Err (ℝ × ℝ × ℝ)) →
      dm = dm' ∧ a0 = dra ∧ 0 ≤ a1 ∧ a1 ≤ 4 ∧ (∀ θ, |θ| ≤ a1 + 5 / 10 ^ 15 → dmax * |Real.sin θ| ≤ b.z / 2 + slack' κ dmax) ∧
      (∀ θ d, |θ| ≤ a1 + 5 / 10 ^ 15 → 0 < dm → dm ≤ d → d ≤ dmax → dmax - b.x - slack κ dmax ≤ d * Real.cos θ) := by
    intro dm' dra h
    cases h1 : npArcsinF lib (halfOverF b.z dmax) with
    | error _ => rw [h1] at h; exact absurd h (by simp [bind, Except.bind])
    | ok t1 =>
      cases h2 : npArccosF acos (binary64.rnd (binary64.rnd (dmax - b.x) / dm')) with
      | error _ => rw [h1, h2] at h; exact absurd h (by simp [bind, Except.bind])
      | ok t2 =>
        rw [h1, h2] at h
        have h' := Except.ok.inj h
        simp only [Prod.mk.injEq] at h'
        obtain ⟨rfl, rfl, rfl⟩ := h'
        obtain ⟨rfl, -, k1⟩ := npArcsinF_ok h1
        obtain ⟨rfl, k2⟩ := npArccosF_ok h2
        refine ⟨rfl, rfl, le_min (hs _ qz0 k1) (hca.range _ (abs_le.2 k2)).1, (min_le_left _ _).trans (by linarith [(arc hl qz0 k1).2.1]), fun θ hθ => ?_,
          fun θ d hθ p1 p2 p3 => beyond_acos hκ hca hbx hx hdx p1 p2 p3 k2.2 (min_le_right _ _) hθ⟩
        have := side hl hz hd (θ := θ) fun _ => hθ.trans (add_le_add_left (min_le_left _ _) _)
        linarith
  unfold halfOpeningsF at he
  simp only at he
  rw [if_neg hd.ne', if_neg (not_le.2 hdx)] at he
  split at he
  · cases h1 : npArcsinF lib (halfOverF b.y dmax) with
    | error _ => rw [h1] at he; exact absurd he (by simp [bind, Except.bind])
    | ok t1 =>
      rw [h1] at he
      obtain ⟨rfl, rfl, g1, g2, g3, g4⟩ := last he
      obtain ⟨rfl, -, k1⟩ := npArcsinF_ok h1
      refine ⟨⟨hs _ qy0 k1, by linarith [(arc hl qy0 k1).2.1], g1, g2⟩, fun _ θ hθ => ?_, g3, fun θ d hθ p1 p2 p3 => ?_, g4⟩
      · have := side hl hy hd (θ := θ) fun _ => hθ
        linarith
      · have hC : 0 < lib.cos (lib.asin (halfOverF b.y dmax)) := by
          by_contra hn
          have := Fmt.rnd_mono (F := binary64) (div_nonpos_of_nonneg_of_nonpos hdx.le (not_lt.1 hn))
          rw [Fmt.rnd_zero] at this
          linarith
        have a2 := (arc hl qy0 k1).2.1
        have hcl := (abs_le.1 (hl.cos (lib.asin (halfOverF b.y dmax)))).2
        have hc1 := (abs_le.1 (hl.cos_le (lib.asin (halfOverF b.y dmax)))).2
        set C := lib.cos (lib.asin (halfOverF b.y dmax))
        refine beyond hκ hbx hx p1 p2 p3 hC.le ?_ ?_
        · have := cos_near (θ := θ) (hs _ qy0 k1) (by linarith [Real.pi_gt_three]) (by norm_num) hθ
          linarith
        · have q0 : 0 ≤ binary64.rnd (dmax - b.x) / C := by positivity
          have e := (abs_le.1 (err (binary64.rnd (dmax - b.x) / C))).1
          rw [abs_of_nonneg q0] at e
          have eb := err' hx.le (by linarith : dmax - b.x ≤ dmax)
          have ed : binary64.rnd (dmax - b.x) / C * C = binary64.rnd (dmax - b.x) := by field_simp
          have ht : (0 : ℝ) ≤ 1 / 10 ^ 201 := by positivity
          have a3 := mul_le_mul_of_nonneg_right e hC.le
          have a4 : (1 : ℝ) / 10 ^ 201 * C ≤ 1 / 10 ^ 201 * 1 := mul_le_mul_of_nonneg_left hc1 ht
          have a5 : -(1 / 2 ^ 53 * (binary64.rnd (dmax - b.x) / C) + 1 / 10 ^ 201) * C =
              -(1 / 2 ^ 53 * (binary64.rnd (dmax - b.x) / C * C)) - 1 / 10 ^ 201 * C := by ring
          rw [sub_mul, a5, ed] at a3
          have hdmn : binary64.rnd (dmax - b.x) ≤ 2 * dmax + 1 / 10 ^ 201 := by linarith
          generalize (1 : ℝ) / 10 ^ 201 = τ at *
          norm_num at a3 ⊢
          linarith
  · rename_i hcor
    split at he
    · exact absurd he (by simp [bind, Except.bind])
    · rename_i hm
      cases h1 : npArccosF acos (binary64.rnd (binary64.rnd (dmax - b.x) / dmin)) with
      | error _ => rw [h1] at he; exact absurd he (by simp [bind, Except.bind])
      | ok t1 =>
        rw [h1] at he
        obtain ⟨rfl, rfl, g1, g2, g3, g4⟩ := last (dm' := dmin) (dra := t1) he
        obtain ⟨rfl, k1⟩ := npArccosF_ok h1
        have r := hca.range _ (abs_le.2 k1)
        refine ⟨⟨r.1, r.2, g1, g2⟩, fun hdm θ hθ => ?_, g3,
          fun θ d hθ p1 p2 p3 => beyond_acos hκ hca hbx hx hdx p1 p2 p3 k1.2 le_rfl hθ, g4⟩
        exact front hκ hdx (not_lt.1 hm) hdm hy (not_lt.1 hcor) (by linarith [(abs_le.1 (hca.err _ (abs_le.2 k1))).2]) hθ

/-- C142: `box_to_cutsky`, for an observer out of the box: points in the ranges that are returned are not beyond the far face, and not outside of the sides by more
than 2 10⁻⁷ of the maximum distance, plus the error of the library. On the equator and on the meridian through the axis they are not in front of the near face by more than the tolerance of
`C142_inside`. (That elsewhere they can be in front of the near face is `C20_outside_violated`.) -/
theorem C142_outside {lib : Libm} {acos : ℝ → ℝ} {κ : ℝ} (hl : Accurate lib κ) (hs : Signed lib) (hca : AccurateAcos acos κ) {b : V3 ℝ} {dmax dmin : ℝ}
    (hbx : 0 ≤ b.x) (hy : 0 ≤ b.y) (hz : 0 ≤ b.z) (hx : 0 < dmax - b.x) (hdx : 0 < binary64.rnd (dmax - b.x)) {dr rr dcr : ℝ × ℝ}
    (he : boxToCutskyF lib acos b dmax dmin = .ok (dr, rr, dcr)) {d ra dec : ℝ} (h0 : 0 ≤ d) (h1 : InRange dr d) (h2 : InRange rr ra) (h3 : InRange dcr dec) :
    dr.2 = dmax ∧ (skyPoint d ra dec).x ≤ dmax ∧ |(skyPoint d ra dec).y| ≤ b.y / 2 + slack' κ dmax ∧ |(skyPoint d ra dec).z| ≤ b.z / 2 + slack' κ dmax ∧
      (0 < dr.1 → ra = 0 ∨ dec = 0 → dmax - b.x - slack κ dmax ≤ (skyPoint d ra dec).x) := by
  have hd : 0 < dmax := by linarith
  have e0 : rad 0 = 0 := by unfold rad; ring
  have hcos : ∀ θ, |Real.cos θ| ≤ 1 := Real.abs_cos_le_one
  have key : ∀ {Y Z : ℝ}, d ≤ dmax → dmax * |Real.sin (rad ra)| ≤ Y + slack' κ dmax → dmax * |Real.sin (rad dec)| ≤ Z + slack' κ dmax →
      (skyPoint d ra dec).x ≤ dmax ∧ |(skyPoint d ra dec).y| ≤ Y + slack' κ dmax ∧ |(skyPoint d ra dec).z| ≤ Z + slack' κ dmax := by
    intro Y Z d1 k2 k3
    have hc : |Real.cos (rad dec) * Real.cos (rad ra)| ≤ 1 := by rw [abs_mul]; exact mul_le_one₀ (hcos _) (abs_nonneg _) (hcos _)
    obtain ⟨c1, c2⟩ := abs_le.1 hc
    simp only [skyPoint]
    refine ⟨?_, ?_, ?_⟩
    · have := mul_le_mul_of_nonneg_left c2 h0
      linarith
    · rw [abs_mul, abs_of_nonneg h0, abs_mul]
      exact le_trans (mul_le_mul d1 (mul_le_of_le_one_left (abs_nonneg _) (hcos _)) (by positivity) hd.le) k2
    · rw [abs_mul, abs_of_nonneg h0]
      exact le_trans (mul_le_mul_of_nonneg_right d1 (abs_nonneg _)) k3
  unfold boxToCutskyF at he
  by_cases h : b.y < b.z
  · simp only [h, decide_true, if_true] at he
    cases e : halfOpeningsF lib acos ⟨b.x, b.z, b.y⟩ dmax dmin with
    | error _ => rw [e] at he; exact absurd he (by simp [bind, Except.bind])
    | ok t =>
      obtain ⟨dm, a0, a1⟩ := t
      obtain ⟨⟨n1, n2, n3, n4⟩, f0, f1, f2, f3⟩ := half_outside hl hs hca (b := ⟨b.x, b.z, b.y⟩) hz hy hd hdx e hbx hx
      rw [e] at he
      have he' := Except.ok.inj he
      simp only [Prod.mk.injEq] at he'
      obtain ⟨rfl, rfl, rfl⟩ := he'
      have hdm : dm ≤ dmax := h1.1.trans h1.2
      obtain ⟨w1, w2, w3⟩ := key h1.2 (f1 _ (degrees_le n3 n4 h2)) (f0 hdm _ (degrees_le n1 n2 h3))
      refine ⟨rfl, w1, w2, w3, fun p0 hor => ?_⟩
      rcases hor with rfl | rfl
      · have := f2 _ d (degrees_le n1 n2 h3) p0 h1.1 h1.2
        simpa only [skyPoint, e0, Real.cos_zero, mul_one] using this
      · have := f3 _ d (degrees_le n3 n4 h2) p0 h1.1 h1.2
        simpa only [skyPoint, e0, Real.cos_zero, one_mul] using this
  · simp only [h, decide_false, Bool.false_eq_true, if_false] at he
    cases e : halfOpeningsF lib acos b dmax dmin with
    | error _ => rw [e] at he; exact absurd he (by simp [bind, Except.bind])
    | ok t =>
      obtain ⟨dm, a0, a1⟩ := t
      obtain ⟨⟨n1, n2, n3, n4⟩, f0, f1, f2, f3⟩ := half_outside hl hs hca (b := b) hy hz hd hdx e hbx hx
      rw [e] at he
      have he' := Except.ok.inj he
      simp only [Prod.mk.injEq] at he'
      obtain ⟨rfl, rfl, rfl⟩ := he'
      have hdm : dm ≤ dmax := h1.1.trans h1.2
      obtain ⟨w1, w2, w3⟩ := key h1.2 (f0 hdm _ (degrees_le n1 n2 h2)) (f1 _ (degrees_le n3 n4 h3))
      refine ⟨rfl, w1, w2, w3, fun p0 hor => ?_⟩
      rcases hor with rfl | rfl
      · have := f3 _ d (degrees_le n3 n4 h3) p0 h1.1 h1.2
        simpa only [skyPoint, e0, Real.cos_zero, mul_one] using this
      · have := f2 _ d (degrees_le n1 n2 h2) p0 h1.1 h1.2
        simpa only [skyPoint, e0, Real.cos_zero, one_mul] using this

theorem exactLib_signed : Signed exactLib := by
  intro t h0 _
  have := npPi_lt.2.1
  exact le_max_of_le_right (le_min (by linarith) (Real.arcsin_nonneg.2 h0))

/-- Non-vacuity of `C142_inside` and `C142_widest`: the observer of a box of sides 500, 600 and 300 who looks up to 400 away, and can look neither back nor
up; a point at RA 40 is in the range, one at Dec 30 is not. -/
example : ∃ rr dcr, boxToCutskyF exactLib Real.arccos ⟨500, 600, 300⟩ 400 0 = .ok ((0, 400), rr, dcr) ∧ InRange rr 40 ∧ ¬ InRange dcr 30 := by
  obtain ⟨rr, dcr, e, h⟩ := C142_inside Real.arccos exactLib_accurate exactLib_signed (b := ⟨500, 600, 300⟩) (dmax := 400) 0 (by norm_num) (by norm_num)
    (by norm_num) (by norm_num)
  have hsl : slack (1 / 2 ^ 51) 400 ≤ 1 := by
    unfold slack
    norm_num
  have w := C142_widest Real.arccos exactLib_accurate exactLib_signed (b := ⟨500, 600, 300⟩) (by norm_num) (by norm_num) (by norm_num) (by norm_num) e
  have e0 : rad 0 = 0 := by unfold rad; ring
  have e40 : rad 40 = 2 * Real.pi / 9 := by unfold rad; ring
  have hpi := Real.pi_lt_d2
  have hpi0 := Real.pi_gt_three
  have ra40 : InRange rr 40 := by
    refine w.2.1 40 (by norm_num) ?_
    simp only [skyPoint, e0, Real.cos_zero, one_mul, e40]
    have h1 := Real.sin_le (x := 2 * Real.pi / 9) (by positivity)
    have h2 := Real.sin_nonneg_of_nonneg_of_le_pi (x := 2 * Real.pi / 9) (by positivity) (by linarith)
    rw [abs_of_nonneg (by positivity)]
    norm_num at hpi ⊢
    linarith
  refine ⟨rr, dcr, e, ra40, fun hd => ?_⟩
  have hz := (h 400 40 30 ⟨by norm_num, by norm_num⟩ ra40 hd).2.2
  have e30 : rad 30 = Real.pi / 6 := by unfold rad; ring
  simp only [skyPoint, e30, Real.sin_pi_div_six] at hz
  rw [abs_of_nonneg (by norm_num)] at hz
  norm_num at hz
  linarith

theorem ints (n : ℤ) (hn : |n| ≤ 2 ^ 53) : binary64.rnd n = n := Fmt.rnd_exact ⟨n, 0, by simpa [binary64] using hn, by norm_num [binary64], by simp⟩

theorem far_corner : binary64.rnd (400 - 100) = 300 ∧ (400 : ℝ) ≤ binary64.rnd (Real.sqrt (binary64.rnd (binary64.rnd (300 ^ 2) +
    binary64.rnd (binary64.rnd (2000 / 2) ^ 2)))) := by
  have h1 : binary64.rnd (400 - 100) = 300 := by have := ints 300 (by norm_num); norm_num at this ⊢; exact this
  have h2 : binary64.rnd (2000 / 2) = 1000 := by have := ints 1000 (by norm_num); norm_num at this ⊢; exact this
  have h3 : binary64.rnd (300 ^ 2) = 90000 := by have := ints 90000 (by norm_num); norm_num at this ⊢; exact this
  have h4 : binary64.rnd (1000 ^ 2) = 1000000 := by have := ints 1000000 (by norm_num); norm_num at this ⊢; exact this
  have h5 : binary64.rnd (90000 + 1000000) = 1090000 := by have := ints 1090000 (by norm_num); norm_num at this ⊢; exact this
  refine ⟨h1, ?_⟩
  rw [h2, h3, h4, h5]
  exact Fmt.le_rnd (by have := Fmt.rnd_isFloat (F := binary64) (400 : ℤ); rw [ints 400 (by norm_num)] at this; exact_mod_cast this)
    (Real.le_sqrt_of_sq_le (by norm_num))

/-- Non-vacuity of `C142_rejected`. -/
example : boxToCutskyF exactLib Real.arccos ⟨100, 2000, 300⟩ 400 0 = .error .valueError := by
  obtain ⟨h1, h2⟩ := far_corner
  refine C142_rejected (by norm_num) (by simp only [h1]; norm_num) ?_ (by simp only [h1]; norm_num)
  rw [show max (2000 : ℝ) 300 = 2000 by norm_num]
  simp only [h1]
  exact h2

theorem arccos_accurate : AccurateAcos Real.arccos (1 / 2 ^ 51) :=
  ⟨fun t _ => by simp, fun t _ => ⟨Real.arccos_nonneg t, (Real.arccos_le_pi t).trans (by linarith [Real.pi_lt_d2])⟩⟩

/-- Non-vacuity of `C142_outside`: the same box with a minimum distance of 350; the point at 375 along the axis is in the ranges. -/
example : ∃ dr rr dcr, 0 < binary64.rnd (400 - 100) ∧ boxToCutskyF exactLib Real.arccos ⟨100, 2000, 300⟩ 400 350 = .ok (dr, rr, dcr) ∧ InRange dr 375 ∧
    InRange rr 0 ∧ InRange dcr 0 := by
  obtain ⟨h1, h2⟩ := far_corner
  have c0 : 0 ≤ binary64.rnd (300 / 350) := Fmt.rnd_nonneg (by norm_num)
  have c1 : binary64.rnd (300 / 350) ≤ 1 := Fmt.rnd_le Verif.Props.Rounded.one_float (by norm_num)
  have q0 : 0 ≤ halfOverF 300 400 := over_nonneg (by norm_num) (by norm_num)
  have q1 : halfOverF 300 400 ≤ 1 := by
    have h3 : binary64.rnd (300 / 2) = 150 := by have := ints 150 (by norm_num); norm_num at this ⊢; exact this
    unfold halfOverF
    rw [h3]
    exact Fmt.rnd_le Verif.Props.Rounded.one_float (by norm_num)
  have e : halfOpeningsF exactLib Real.arccos ⟨100, 2000, 300⟩ 400 350 = .ok (350, Real.arccos (binary64.rnd (300 / 350)),
      min (exactLib.asin (halfOverF 300 400)) (Real.arccos (binary64.rnd (300 / 350)))) := by
    unfold halfOpeningsF
    simp only [h1]
    rw [if_neg (by norm_num), if_neg (by norm_num), if_neg (not_lt.2 h2), if_neg (by norm_num)]
    simp only [npArcsinF_eq q0 q1, npArccosF, bind, Except.bind,
      if_pos (show -1 ≤ binary64.rnd (300 / 350) ∧ binary64.rnd (300 / 350) ≤ 1 from ⟨by linarith, c1⟩)]
  have n : ∀ {a : ℝ}, 0 ≤ a → InRange (-npDegreesF a, npDegreesF a) 0 := by
    intro a ha
    have : 0 ≤ npDegreesF a := Fmt.rnd_nonneg (mul_nonneg ha (Fmt.rnd_nonneg (by have := npPi_lt.2.1; positivity)))
    exact ⟨by simpa using this, this⟩
  refine ⟨(350, 400), _, _, by rw [h1]; norm_num, ?_, ⟨by norm_num, by norm_num⟩, n (Real.arccos_nonneg (binary64.rnd (300 / 350))),
    n (le_min (exactLib_signed _ q0 q1) (Real.arccos_nonneg (binary64.rnd (300 / 350))))⟩
  unfold boxToCutskyF
  simp only [show ¬ (2000 : ℝ) < 300 by norm_num, decide_false, Bool.false_eq_true, if_false]
  rw [e]
  rfl

end Verif.Props.RoundedOpenings
