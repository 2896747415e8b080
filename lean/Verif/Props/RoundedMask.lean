import Verif.Model.RoundedMask
import Verif.Props.Mask
import Verif.Props.Rounded
import Verif.Lemmas.RoundedGap

/-!
# C115, C116: angular masks and random positions with rounding errors
-/

namespace Verif.Props.RoundedMask

open Verif Verif.Spec Verif.Model Verif.Model.Rounded Verif.Model.RoundedMask Verif.Props.Rounded Verif.Model.RoundedRemap

/-- Double-precision numbers below 360 are at least the last digit below. -/
theorem lt_360 {x : ℝ} (h : binary64.IsFloat x) (h1 : x < 360) : x ≤ 360 - 1 / 2 ^ 44 := by
  obtain ⟨m, e, hm, -, rfl⟩ := h
  have hm' : |m| ≤ 2 ^ 53 := hm
  by_cases he : -44 ≤ e
  · obtain ⟨k, rfl⟩ : ∃ k : ℕ, e = -44 + k := ⟨(e + 44).toNat, by omega⟩
    rw [zpow_add₀ (by norm_num), zpow_natCast] at h1 ⊢
    have e1 : ((2 : ℝ) ^ (-44 : ℤ)) = 1 / 2 ^ 44 := by norm_num
    rw [e1] at h1 ⊢
    have h2 : ((m * 2 ^ k : ℤ) : ℝ) < ((360 * 2 ^ 44 : ℤ) : ℝ) := by
      push_cast
      have : (m : ℝ) * (1 / 2 ^ 44 * 2 ^ k) = m * 2 ^ k / 2 ^ 44 := by ring
      rw [this, div_lt_iff₀ (by positivity)] at h1
      linarith
    have h3 : m * 2 ^ k ≤ 360 * 2 ^ 44 - 1 := by
      have : m * 2 ^ k < 360 * 2 ^ 44 := by exact_mod_cast h2
      omega
    have h4 : ((m * 2 ^ k : ℤ) : ℝ) ≤ ((360 * 2 ^ 44 - 1 : ℤ) : ℝ) := by exact_mod_cast h3
    push_cast at h4
    have : (m : ℝ) * (1 / 2 ^ 44 * 2 ^ k) = m * 2 ^ k / 2 ^ 44 := by ring
    rw [this, div_le_iff₀ (by positivity)]
    linarith
  · have h2 : (2 : ℝ) ^ e ≤ 2 ^ (-45 : ℤ) := zpow_le_zpow_right₀ (by norm_num) (by omega)
    have e1 : ((2 : ℝ) ^ (-45 : ℤ)) = 1 / 2 ^ 45 := by norm_num
    rw [e1] at h2
    have h3 : (m : ℝ) ≤ 2 ^ 53 := by
      have := (abs_le.1 hm').2
      exact_mod_cast this
    have h4 : (0 : ℝ) < 2 ^ e := Fmt.two_zpow_pos e
    have h5 : (m : ℝ) * 2 ^ e ≤ 2 ^ 53 * (1 / 2 ^ 45) :=
      (mul_le_mul_of_nonneg_right h3 h4.le).trans (mul_le_mul_of_nonneg_left h2 (by norm_num))
    norm_num at h5 ⊢
    linarith

theorem conv_pos : 0 < convF binary64 true := by rw [conv64]; norm_num

theorem mul_lt_turn {x : ℝ} (h : binary64.IsFloat x) (h1 : x < 360) : binary64.rnd (x * convF binary64 true) < twoPi binary64 := by
  have hx := lt_360 h h1
  have hm : binary64.rnd (x * convF binary64 true) ≤ binary64.rnd ((360 - 1 / 2 ^ 44) * convF binary64 true) :=
    Fmt.rnd_mono (mul_le_mul_of_nonneg_right hx conv_pos.le)
  refine hm.trans_lt ?_
  rw [conv64, twoPi64, fl_pos (c := 7074237752028439 / 2 ^ 50) 2 7074237752028439 (by norm_num) (by norm_num) (by norm_num)
    (by norm_num) (by norm_num)]
  norm_num

/-- Below a turn, wrapping multiplies and divides by the same number. -/
theorem wrap_small {x : ℝ} (h : binary64.IsFloat x) (h0 : 0 ≤ x) (h1 : x < 360) :
    wrapAngleF binary64 x = binary64.rnd (binary64.rnd (x * convF binary64 true) / convF binary64 true) := by
  have hlt := mul_lt_turn h h1
  have hnn : 0 ≤ binary64.rnd (x * convF binary64 true) := Fmt.rnd_nonneg (mul_nonneg h0 conv_pos.le)
  have hT : 0 < twoPi binary64 := by rw [twoPi64]; norm_num
  unfold wrapAngleF
  congr 2
  set y := binary64.rnd (x * convF binary64 true)
  have hf : fmod y (twoPi binary64) = y := by
    unfold fmod
    have hq : 0 ≤ y / twoPi binary64 := div_nonneg hnn hT.le
    have : ⌊y / twoPi binary64⌋ = 0 := by
      rw [Int.floor_eq_zero_iff]
      exact ⟨hq, (div_lt_one hT).2 hlt⟩
    rw [if_pos hq, this]
    simp
  unfold npMod
  rw [hf, if_neg (not_lt.2 hnn)]

theorem wrap_mono {x y : ℝ} (hx : binary64.IsFloat x) (hy : binary64.IsFloat y) (h0 : 0 ≤ x) (h : x ≤ y) (h1 : y < 360) :
    wrapAngleF binary64 x ≤ wrapAngleF binary64 y := by
  rw [wrap_small hx h0 (h.trans_lt h1), wrap_small hy (h0.trans h) h1]
  exact Fmt.rnd_mono ((div_le_div_iff_of_pos_right conv_pos).2 (Fmt.rnd_mono (mul_le_mul_of_nonneg_right h conv_pos.le)))

theorem wrap_err {x : ℝ} (h : binary64.IsFloat x) (h0 : 0 ≤ x) (h1 : x < 360) : |wrapAngleF binary64 x - x| ≤ 1 / 2 ^ 42 := by
  rw [wrap_small h h0 h1]
  have hκ := conv_pos
  have hκv := conv64
  set κ := convF binary64 true
  have a := Fmt.rnd_err_all (F := binary64) (x * κ)
  set y := binary64.rnd (x * κ)
  have b := Fmt.rnd_err_all (F := binary64) (y / κ)
  set w := binary64.rnd (y / κ)
  have hu : binary64.u = 1 / 2 ^ 53 := rfl
  have hη : (2 : ℝ) ^ binary64.emin / 2 ≤ 1 / 2 ^ 80 := by
    have : (2 : ℝ) ^ binary64.emin ≤ 2 ^ (-80 : ℤ) := zpow_le_zpow_right₀ (by norm_num) (by norm_num [binary64])
    have e : (2 : ℝ) ^ (-80 : ℤ) = 1 / 2 ^ 80 := by norm_num
    rw [e] at this
    have := Fmt.two_zpow_pos binary64.emin
    linarith
  have hη0 : (0 : ℝ) ≤ 2 ^ binary64.emin / 2 := (half_pos (Fmt.two_zpow_pos _)).le
  set η : ℝ := 2 ^ binary64.emin / 2
  rw [hu] at a b
  rw [abs_of_nonneg (mul_nonneg h0 hκ.le)] at a
  have a' : |y / κ - x| ≤ 1 / 2 ^ 53 * 360 + 1 / 2 ^ 70 := by
    have e : y / κ - x = (y - x * κ) / κ := by field_simp
    rw [e, abs_div, abs_of_pos hκ, div_le_iff₀ hκ]
    have h2 : x * κ ≤ 360 * κ := mul_le_mul_of_nonneg_right h1.le hκ.le
    have h3 : (1 : ℝ) / 2 ^ 80 ≤ 1 / 2 ^ 70 * κ := by rw [hκv]; norm_num
    nlinarith
  have b' : |y / κ| ≤ 361 := by
    have := abs_sub_abs_le_abs_sub (y / κ) x
    rw [abs_of_nonneg h0] at this
    have : (1 : ℝ) / 2 ^ 53 * 360 + 1 / 2 ^ 70 ≤ 1 := by norm_num
    linarith
  have t := abs_sub_le w (y / κ) x
  have h4 : (1 : ℝ) / 2 ^ 53 * 361 + 1 / 2 ^ 80 + (1 / 2 ^ 53 * 360 + 1 / 2 ^ 70) ≤ 1 / 2 ^ 42 := by norm_num
  nlinarith

/-- C115: with rounding errors, an angular mask loses nothing of a range of right ascensions within [0, 360), ends included. -/
theorem C115_plain (nbar : ℝ) {r d : Range} {ra dec : ℝ} (f1 : binary64.IsFloat r.1) (f2 : binary64.IsFloat r.2) (f : binary64.IsFloat ra)
    (h0 : 0 ≤ r.1) (h1 : r.2 < 360) (ha : r.1 ≤ ra) (hb : ra ≤ r.2) (hd : InRange d dec) :
    uniformAngularProbF nbar r d ra (some dec) = clip01 nbar := by
  have m1 := wrap_mono f1 f h0 ha (hb.trans_lt h1)
  have m2 := wrap_mono f f2 (h0.trans ha) hb h1
  have hr := (C111_range ra).1.2
  have h360 : (360 : ℝ) ≤ binary64.rnd (wrapAngleF binary64 r.2 + 360) := by
    refine Fmt.le_rnd ⟨360, 0, by norm_num [binary64], by norm_num [binary64], by norm_num⟩ ?_
    have := (C111_range r.2).1.1
    linarith
  unfold uniformAngularProbF
  rw [if_pos]
  unfold angularRarangeF maskRanges
  obtain ⟨hd1, hd2⟩ := hd
  simp only
  split_ifs with c1 c2 c2 <;> simp only at c2 <;> simp [hd1, hd2, m1, m2]
  · exact hr.trans h360

/-- C115: with rounding errors, an angular mask selects no right ascension farther than 2^-41 degrees from a range within [0, 360), unless
the range itself is as narrow as that. -/
theorem C115_only (nbar : ℝ) {r d : Range} {ra : ℝ} {dec : Option ℝ} (f1 : binary64.IsFloat r.1) (f2 : binary64.IsFloat r.2)
    (f : binary64.IsFloat ra) (h0 : 0 ≤ r.1) (h1 : r.2 < 360) (hw : r.1 + 1 / 2 ^ 40 ≤ r.2) (hr0 : 0 ≤ ra) (hr1 : ra < 360)
    (h : uniformAngularProbF nbar r d ra dec ≠ 0) : r.1 - 1 / 2 ^ 41 ≤ ra ∧ ra ≤ r.2 + 1 / 2 ^ 41 := by
  have e1 := abs_le.1 (wrap_err f1 h0 (by linarith [show (0 : ℝ) < 1 / 2 ^ 40 by norm_num]))
  have e2 := abs_le.1 (wrap_err f2 (by linarith [show (0 : ℝ) < 1 / 2 ^ 40 by norm_num]) h1)
  have e := abs_le.1 (wrap_err f hr0 hr1)
  have n1 : (1 : ℝ) / 2 ^ 42 + 1 / 2 ^ 42 < 1 / 2 ^ 40 := by norm_num
  have n2 : (1 : ℝ) / 2 ^ 42 + 1 / 2 ^ 42 = 1 / 2 ^ 41 := by norm_num
  have hlt : wrapAngleF binary64 r.1 < wrapAngleF binary64 r.2 := by linarith
  unfold uniformAngularProbF at h
  split_ifs at h with hm
  · unfold angularRarangeF maskRanges at hm
    simp only [not_le.2 hlt, decide_false, Bool.and_false, Bool.false_eq_true, if_false, if_pos hlt.le] at hm
    rw [Bool.and_eq_true, Bool.and_eq_true, decide_eq_true_eq, decide_eq_true_eq] at hm
    obtain ⟨⟨a, b⟩, -⟩ := hm
    constructor <;> linarith
  · exact absurd rfl h

/-- The right ascensions 10 to 20 degrees. -/
example : uniformAngularProbF 1 (10, 20) (-5, 5) 20 (some 0) = clip01 1 := by
  have f : ∀ n : ℕ, n ≤ 2 ^ 53 → binary64.IsFloat n := fun n hn =>
    ⟨n, 0, by rw [abs_of_nonneg (by positivity)]; exact_mod_cast hn, by norm_num [binary64], by simp⟩
  exact C115_plain 1 (by simpa using f 10 (by norm_num)) (by simpa using f 20 (by norm_num)) (by simpa using f 20 (by norm_num))
    (by norm_num) (by norm_num) (by norm_num) (by norm_num) (by norm_num [InRange])

theorem wrap_30 : wrapAngleF binary64 30 = 8444249301319679 / 2 ^ 48 := by
  have h : binary64.rnd (30 * (5030569068109113 / 2 ^ 58)) = 4716158501352293 / 2 ^ 53 :=
    fl_pos (-1) 4716158501352293 (by norm_num) (by norm_num) (by norm_num) (by norm_num) (by norm_num)
  rw [wrap_small ⟨30, 0, by norm_num [binary64], by norm_num [binary64], by norm_num⟩ (by norm_num) (by norm_num), conv64, h]
  exact fl_pos 4 8444249301319679 (by norm_num) (by norm_num) (by norm_num) (by norm_num) (by norm_num)

theorem wrap_390 : wrapAngleF binary64 390 = 8444249301319685 / 2 ^ 48 := by
  have h1 : binary64.rnd (390 * convF binary64 true) = 7663757564697477 / 2 ^ 50 := by
    rw [conv64]
    exact fl_pos 2 7663757564697477 (by norm_num) (by norm_num) (by norm_num) (by norm_num) (by norm_num)
  have h2 : fmod (7663757564697477 / 2 ^ 50) (twoPi binary64) = 589519812669037 / 2 ^ 50 := by
    unfold fmod
    rw [twoPi64]
    have hf : ⌊(7663757564697477 / 2 ^ 50 / (884279719003555 / 2 ^ 47) : ℝ)⌋ = 1 := by
      rw [Int.floor_eq_iff]
      norm_num
    rw [if_pos (by norm_num), hf]
    norm_num
  have h3 : npMod binary64 (7663757564697477 / 2 ^ 50) (twoPi binary64) = 589519812669037 / 2 ^ 50 := by
    unfold npMod
    rw [h2, if_neg (by norm_num)]
  unfold wrapAngleF
  rw [h1, h3, conv64]
  exact fl_pos 4 8444249301319685 (by norm_num) (by norm_num) (by norm_num) (by norm_num) (by norm_num)

/-- C115 is violated by ranges of a full turn: with rounding errors, a mask for the right ascensions from 30 to 390 degrees selects
nothing farther than 2^-41 degrees from 30, where exact arithmetic selects all from 30 to 360; and random directions drawn for this mask are
all within 2^-41 degrees of 30. -/
theorem C115_turn_violated :
    (∀ (nbar : ℝ) (d : Range) (ra : ℝ) (dec : Option ℝ), binary64.IsFloat ra → 0 ≤ ra → ra < 360 →
      uniformAngularProbF nbar (30, 390) d ra dec ≠ 0 → |ra - 30| ≤ 1 / 2 ^ 41) ∧
    (∀ u, 0 ≤ u → u ≤ 1 → |drawRa (angularRarangeF (30, 390)) u - 30| ≤ 1 / 2 ^ 41) ∧
    ∀ (nbar : ℝ) (d : Range) (ra dec : ℝ), 30 ≤ ra → ra < 360 → InRange d dec →
      uniformAngularProb nbar (some (30, 390)) (some d) ra (some dec) = clip01 nbar := by
  have hr : angularRarangeF (30, 390) = (8444249301319679 / 2 ^ 48, 8444249301319685 / 2 ^ 48) := by
    unfold angularRarangeF
    simp only [wrap_30, wrap_390]
    rw [if_neg]
    norm_num
  refine ⟨fun nbar d ra dec f h0 h1 h => ?_, fun u h0 h1 => ?_, fun nbar d ra dec h0 h1 hd => ?_⟩
  · have e := abs_le.1 (wrap_err f h0 h1)
    unfold uniformAngularProbF at h
    split_ifs at h with hm
    · rw [hr] at hm
      unfold maskRanges at hm
      simp only at hm
      rw [if_pos (by norm_num), Bool.and_eq_true, Bool.and_eq_true, decide_eq_true_eq, decide_eq_true_eq] at hm
      obtain ⟨⟨a, b⟩, -⟩ := hm
      rw [abs_le]
      have n1 : (8444249301319679 / 2 ^ 48 : ℝ) - 1 / 2 ^ 42 ≥ 30 - 1 / 2 ^ 41 := by norm_num
      have n2 : (8444249301319685 / 2 ^ 48 : ℝ) + 1 / 2 ^ 42 ≤ 30 + 1 / 2 ^ 41 := by norm_num
      constructor <;> linarith
    · exact absurd rfl h
  · rw [hr]
    unfold drawRa uniformF
    simp only
    rw [if_neg (by norm_num)]
    have hd : binary64.rnd (8444249301319685 / 2 ^ 48 - 8444249301319679 / 2 ^ 48) = 6 / 2 ^ 48 := by
      rw [show (8444249301319685 / 2 ^ 48 - 8444249301319679 / 2 ^ 48 : ℝ) = 6 / 2 ^ 48 by norm_num]
      exact Fmt.rnd_exact ⟨6, -48, by norm_num [binary64], by norm_num [binary64], by norm_num⟩
    rw [hd]
    have hs0 : 0 ≤ binary64.rnd (6 / 2 ^ 48 * u) := Fmt.rnd_nonneg (by positivity)
    have hs1 : binary64.rnd (6 / 2 ^ 48 * u) ≤ 6 / 2 ^ 48 :=
      Fmt.rnd_le ⟨6, -48, by norm_num [binary64], by norm_num [binary64], by norm_num⟩ (by
        have := mul_le_mul_of_nonneg_left h1 (by norm_num : (0 : ℝ) ≤ 6 / 2 ^ 48)
        linarith)
    set s := binary64.rnd (6 / 2 ^ 48 * u)
    have ht0 : (8444249301319679 / 2 ^ 48 : ℝ) ≤ binary64.rnd (8444249301319679 / 2 ^ 48 + s) :=
      Fmt.le_rnd ⟨8444249301319679, -48, by norm_num [binary64], by norm_num [binary64], by norm_num⟩ (by linarith)
    have ht1 : binary64.rnd (8444249301319679 / 2 ^ 48 + s) ≤ 8444249301319685 / 2 ^ 48 :=
      Fmt.rnd_le ⟨8444249301319685, -48, by norm_num [binary64], by norm_num [binary64], by norm_num⟩ (by
        have : (8444249301319679 / 2 ^ 48 : ℝ) + 6 / 2 ^ 48 = 8444249301319685 / 2 ^ 48 := by norm_num
        linarith)
    set t := binary64.rnd (8444249301319679 / 2 ^ 48 + s)
    have n1 : (8444249301319679 / 2 ^ 48 : ℝ) ≥ 30 - 1 / 2 ^ 41 := by norm_num
    have n2 : (8444249301319685 / 2 ^ 48 : ℝ) ≤ 30 + 1 / 2 ^ 41 := by norm_num
    have n3 : (1 : ℝ) / 2 ^ 41 ≤ 1 := by norm_num
    have hf : fmod t 360 = t := by
      unfold fmod
      have hq : 0 ≤ t / 360 := by linarith
      have : ⌊t / 360⌋ = 0 := by
        rw [Int.floor_eq_zero_iff]
        constructor
        · exact hq
        · linarith
      rw [if_pos hq, this]
      simp
    have : npMod binary64 t 360 = t := by
      unfold npMod
      rw [hf, if_neg (by linarith)]
    rw [this, abs_le]
    constructor <;> linarith
  · have w0 : wrapAngle 30 = 30 := C23_wrap_unique true (by norm_num) (by norm_num [turn]) 0 (by simp)
    have w1 : wrapAngle 390 = 30 := C23_wrap_unique true (by norm_num) (by norm_num [turn]) (-1) (by norm_num [turn])
    have w2 : wrapAngle ra = ra := C23_wrap_unique true (by linarith) (by simpa [turn] using h1) 0 (by simp)
    rw [C28_crossing_partial nbar d (by norm_num) (by simp only [w0, w1]; norm_num), if_pos]
    exact ⟨by simp only [w0, w2]; exact h0, hd⟩

/-! ### Random positions -/

variable {F : Fmt}

theorem half_float : F.IsFloat (1 / 2) := by
  have hp := F.hp
  have he := F.he
  refine ⟨1, -1, ?_, by omega, by norm_num⟩
  rw [abs_one]
  exact one_le_pow₀ (by norm_num)

theorem one_float : F.IsFloat 1 := by
  have he := F.he
  refine ⟨1, 0, ?_, by omega, by norm_num⟩
  rw [abs_one]
  exact one_le_pow₀ (by norm_num)

theorem uniform_bounds {u : ℝ} (h0 : 0 ≤ u) (h1 : u ≤ 1) :
    -1 / 2 ≤ uniformF F (-1 / 2) (1 / 2) u ∧ uniformF F (-1 / 2) (1 / 2) u ≤ 1 / 2 := by
  unfold uniformF
  rw [show (1 / 2 - -1 / 2 : ℝ) = 1 by norm_num, Fmt.rnd_exact one_float, one_mul]
  have a := Fmt.rnd_nonneg (F := F) h0
  have b : F.rnd u ≤ 1 := Fmt.rnd_le one_float h1
  constructor
  · refine Fmt.le_rnd ?_ (by linarith)
    rw [show (-1 / 2 : ℝ) = -(1 / 2) by norm_num]
    exact Fmt.isFloat_neg half_float
  · exact Fmt.rnd_le half_float (by linarith)

/-- C116: with rounding errors, positions of a random box catalog are in the closed box, whose faces are those computed in the same precision,
whatever the draw, the side and the center. -/
theorem C116_box {size center u : ℝ} (hs : 0 ≤ size) (hh : F.IsFloat (size / 2)) (h0 : 0 ≤ u) (h1 : u ≤ 1) :
    F.rnd (center - size / 2) ≤ randomPositionF F size center u ∧ randomPositionF F size center u ≤ F.rnd (center + size / 2) ∧
    (F.IsFloat (center - size / 2) → F.IsFloat (center + size / 2) →
      center - size / 2 ≤ randomPositionF F size center u ∧ randomPositionF F size center u ≤ center + size / 2) := by
  obtain ⟨a, b⟩ := uniform_bounds (F := F) h0 h1
  have a' : -(size / 2) ≤ F.rnd (size * uniformF F (-1 / 2) (1 / 2) u) := by
    refine Fmt.le_rnd (Fmt.isFloat_neg hh) ?_
    have := mul_le_mul_of_nonneg_left a hs
    linarith
  have b' : F.rnd (size * uniformF F (-1 / 2) (1 / 2) u) ≤ size / 2 := by
    refine Fmt.rnd_le hh ?_
    have := mul_le_mul_of_nonneg_left b hs
    linarith
  have lo : F.rnd (center - size / 2) ≤ randomPositionF F size center u := Fmt.rnd_mono (by linarith)
  have hi : randomPositionF F size center u ≤ F.rnd (center + size / 2) := Fmt.rnd_mono (by linarith)
  refine ⟨lo, hi, fun f1 f2 => ?_⟩
  rw [Fmt.rnd_exact f1] at lo
  rw [Fmt.rnd_exact f2] at hi
  exact ⟨lo, hi⟩

/-- Draws of numpy: 53 random digits. -/
def IsDraw (u : ℝ) : Prop := ∃ k : ℕ, k < 2 ^ 53 ∧ u = k / 2 ^ 53

theorem uniform_exact {u : ℝ} (hu : IsDraw u) : uniformF binary64 (-1 / 2) (1 / 2) u = u - 1 / 2 := by
  obtain ⟨k, hk, rfl⟩ := hu
  unfold uniformF
  rw [show (1 / 2 - -1 / 2 : ℝ) = 1 by norm_num, Fmt.rnd_exact one_float, one_mul]
  have f1 : binary64.IsFloat ((k : ℝ) / 2 ^ 53) :=
    ⟨k, -53, by rw [abs_of_nonneg (by positivity)]; exact_mod_cast hk.le, by norm_num [binary64], by
      rw [show (2 : ℝ) ^ (-53 : ℤ) = 1 / 2 ^ 53 by norm_num]; push_cast; ring⟩
  rw [Fmt.rnd_exact f1]
  have f2 : binary64.IsFloat ((k : ℝ) / 2 ^ 53 - 1 / 2) := by
    refine ⟨k - 2 ^ 52, -53, ?_, by norm_num [binary64], ?_⟩
    · rw [abs_le]
      constructor
      · have : (0 : ℤ) ≤ k := by positivity
        show -(2 : ℤ) ^ 53 ≤ _
        omega
      · have : (k : ℤ) < 2 ^ 53 := by exact_mod_cast hk
        show _ ≤ (2 : ℤ) ^ 53
        omega
    · rw [show (2 : ℝ) ^ (-53 : ℤ) = 1 / 2 ^ 53 by norm_num]
      push_cast
      ring
  rw [show (-1 / 2 + (k : ℝ) / 2 ^ 53) = k / 2 ^ 53 - 1 / 2 by ring]
  exact Fmt.rnd_exact f2

/-- C116: around the origin, positions are below the upper face. -/
theorem C116_centered_partial {size u : ℝ} (hs : binary64.tiny ≤ size / 4) (hh : binary64.IsFloat (size / 2)) (hu : IsDraw u) :
    -(size / 2) ≤ randomPositionF binary64 size 0 u ∧ randomPositionF binary64 size 0 u < size / 2 := by
  have ht : 0 < binary64.tiny := Fmt.two_zpow_pos _
  have hu' := hu
  obtain ⟨k, hk, rfl⟩ := hu
  have hk' : (k : ℝ) ≤ 2 ^ 53 - 1 := by
    have : (k : ℝ) + 1 ≤ 2 ^ 53 := by exact_mod_cast hk
    linarith
  have h1 : (k : ℝ) / 2 ^ 53 ≤ 1 - 1 / 2 ^ 53 := by
    rw [div_le_iff₀ (by positivity)]
    norm_num at hk' ⊢
    linarith
  have lo := (C116_box (F := binary64) (center := 0) (u := k / 2 ^ 53) (by linarith : 0 ≤ size) hh (by positivity) (by
    have : (0 : ℝ) < 1 / 2 ^ 53 := by positivity
    linarith)).1
  rw [zero_sub, Fmt.rnd_neg, Fmt.rnd_exact hh] at lo
  refine ⟨lo, ?_⟩
  unfold randomPositionF
  rw [uniform_exact hu', add_zero, Fmt.rnd_idem]
  have hle : size * (k / 2 ^ 53 - 1 / 2) ≤ size / 2 * (1 - 1 / 2 ^ 52) := by
    have := mul_le_mul_of_nonneg_left h1 (by linarith : 0 ≤ size)
    have e : size / 2 * (1 - 1 / 2 ^ 52) = size * (1 - 1 / 2 ^ 53) - size * (1 / 2) := by ring
    rw [e]
    linarith
  refine (Fmt.rnd_mono hle).trans_lt ?_
  have hz : 0 < size / 2 * (1 - 1 / 2 ^ 52) := mul_pos (by linarith) (by norm_num)
  have hn : (1 : ℝ) / 2 ≤ 1 - 1 / 2 ^ 52 := by norm_num
  have err := Fmt.rnd_err (F := binary64) (x := size / 2 * (1 - 1 / 2 ^ 52)) (by
    rw [abs_of_pos hz]
    have := mul_le_mul_of_nonneg_left hn (by linarith : 0 ≤ size / 2)
    linarith)
  rw [abs_of_pos hz, show binary64.u = 1 / 2 ^ 53 from rfl] at err
  have := (abs_le.1 err).2
  have e2 : size / 2 * (1 - 1 / 2 ^ 52) + 1 / 2 ^ 53 * (size / 2 * (1 - 1 / 2 ^ 52)) = size / 2 * ((1 - 1 / 2 ^ 52) * (1 + 1 / 2 ^ 53)) := by
    ring
  have e3 : size / 2 * ((1 - 1 / 2 ^ 52) * (1 + 1 / 2 ^ 53)) < size / 2 * 1 :=
    mul_lt_mul_of_pos_left (by norm_num) (by linarith)
  linarith

/-- C116 is violated at the upper face: the largest draw in the box [0, 1200) gives the position 1200. -/
theorem C116_end_violated : ∃ u, IsDraw u ∧ randomPositionF binary64 1200 600 u = 1200 := by
  have hd : IsDraw (1 - 1 / 2 ^ 53) := ⟨2 ^ 53 - 1, by norm_num, by norm_num⟩
  refine ⟨1 - 1 / 2 ^ 53, hd, ?_⟩
  unfold randomPositionF
  rw [uniform_exact hd]
  have h : binary64.rnd (1200 * (1 - 1 / 2 ^ 53 - 1 / 2)) = 5277655813324799 / 2 ^ 43 :=
    fl_pos 9 5277655813324799 (by norm_num) (by norm_num) (by norm_num) (by norm_num) (by norm_num)
  rw [h]
  exact fl_pos_even 10 5277655813324800 (by norm_num) (by norm_num) (by norm_num) (by norm_num) (by norm_num) (by decide)

/-- A box of side 1000 around the origin. -/
example : randomPositionF binary64 1000 0 (1 - 1 / 2 ^ 53) < 500 := by
  have h := (C116_centered_partial (size := 1000) (u := 1 - 1 / 2 ^ 53) ?_
    ⟨500, 0, by norm_num [binary64], by norm_num [binary64], by norm_num⟩ ⟨2 ^ 53 - 1, by norm_num, by norm_num⟩).2
  · linarith
  · have : binary64.tiny ≤ 2 ^ (0 : ℤ) := zpow_le_zpow_right₀ (by norm_num) (by norm_num [binary64])
    norm_num at this ⊢
    linarith

end Verif.Props.RoundedMask
