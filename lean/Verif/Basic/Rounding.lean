import Mathlib.Data.Int.Log
import Mathlib.Data.Real.Basic
import Mathlib.Algebra.Order.Round
import Mathlib.Algebra.Order.Archimedean.Real.Basic
import Mathlib.Algebra.Order.Field.Power
import Mathlib.Tactic.Linarith
import Mathlib.Tactic.Ring
import Mathlib.Tactic.FieldSimp
import Mathlib.Tactic.NormNum
import Mathlib.Tactic.Positivity
import Mathlib.Algebra.Ring.Parity

/-!
# Binary floating-point numbers

Rounding to the nearest number of `p` binary digits, ties to even, with gradual underflow below `2 ^ (emin + p - 1)`, without overflow:
IEEE 754 arithmetic for results that are finite. Each operation of numpy on floats is the operation on real numbers, rounded.
-/

namespace Verif

/-- A format: number of digits of the significand, exponent of the smallest positive number. All formats in use represent integers with
room below 1 (`he`). -/
structure Fmt where
  p : ℕ
  hp : 2 ≤ p
  emin : ℤ
  he : emin + p ≤ 0

/-- float64 of numpy, the type of python numbers. (`utils.py:36`). -/
def binary64 : Fmt := ⟨53, by norm_num, -1074, by norm_num⟩

/-- float32 of numpy. (`gaussian_mock.py:180`). -/
def binary32 : Fmt := ⟨24, by norm_num, -149, by norm_num⟩

/-- Nearest integer, ties to even. -/
noncomputable def rne (t : ℝ) : ℤ :=
  if Int.fract t < 1 / 2 then ⌊t⌋ else if 1 / 2 < Int.fract t then ⌊t⌋ + 1 else if Even ⌊t⌋ then ⌊t⌋ else ⌊t⌋ + 1

theorem rne_floor (t : ℝ) : ⌊t⌋ ≤ rne t ∧ rne t ≤ ⌊t⌋ + 1 := by
  unfold rne
  split_ifs <;> constructor <;> omega

theorem rne_int (n : ℤ) : rne n = n := by
  unfold rne
  simp

theorem rne_err (t : ℝ) : |(rne t : ℝ) - t| ≤ 1 / 2 := by
  have h := Int.floor_add_fract t
  have h0 := Int.fract_nonneg t
  have h1 := Int.fract_lt_one t
  unfold rne
  rw [abs_le]
  split_ifs <;> push_cast <;> constructor <;> linarith

theorem rne_mono {s t : ℝ} (h : s ≤ t) : rne s ≤ rne t := by
  have hf : ⌊s⌋ ≤ ⌊t⌋ := Int.floor_le_floor h
  rcases hf.lt_or_eq with hlt | heq
  · have := (rne_floor s).2
    have := (rne_floor t).1
    omega
  · have hs := Int.floor_add_fract s
    have ht := Int.floor_add_fract t
    have hfr : Int.fract s ≤ Int.fract t := by
      rw [heq] at hs
      linarith
    unfold rne
    rw [heq]
    split_ifs <;> first | omega | (exfalso; linarith)

theorem rne_neg (t : ℝ) : rne (-t) = - rne t := by
  by_cases h0 : Int.fract t = 0
  · have : t = ⌊t⌋ := by
      have := Int.floor_add_fract t
      rw [h0] at this
      linarith
    rw [this, rne_int, ← Int.cast_neg, rne_int]
  · have hfl : ⌊-t⌋ = -⌊t⌋ - 1 := by
      have h1 := Int.fract_lt_one t
      have h2 := lt_of_le_of_ne (Int.fract_nonneg t) (Ne.symm h0)
      have h := Int.floor_add_fract t
      rw [Int.floor_eq_iff]
      push_cast
      constructor <;> linarith
    have hfr : Int.fract (-t) = 1 - Int.fract t := Int.fract_neg h0
    unfold rne
    rw [hfl, hfr]
    have he : Even (-⌊t⌋ - 1) ↔ ¬ Even ⌊t⌋ := by
      rw [Int.even_sub_one, even_neg]
    simp only [he]
    split_ifs <;> first | omega | (exfalso; linarith)

theorem le_rne {n : ℤ} {t : ℝ} (h : (n : ℝ) ≤ t) : n ≤ rne t := by
  have := rne_mono h
  rwa [rne_int] at this

theorem rne_le {n : ℤ} {t : ℝ} (h : t ≤ n) : rne t ≤ n := by
  have := rne_mono h
  rwa [rne_int] at this

namespace Fmt

variable (F : Fmt)

/-- Exponent of the last digit of numbers near `x`. -/
noncomputable def expo (x : ℝ) : ℤ := max (Int.log 2 |x| - (F.p - 1)) F.emin

/-- Rounding. -/
noncomputable def rnd (x : ℝ) : ℝ := rne (x / 2 ^ F.expo x) * 2 ^ F.expo x

/-- Numbers of the format. -/
def IsFloat (x : ℝ) : Prop := ∃ (m e : ℤ), |m| ≤ 2 ^ F.p ∧ F.emin ≤ e ∧ x = m * 2 ^ e

variable {F}

theorem two_zpow_pos (e : ℤ) : (0 : ℝ) < 2 ^ e := by positivity

theorem expo_neg (x : ℝ) : F.expo (-x) = F.expo x := by
  unfold expo
  rw [abs_neg]

theorem rnd_neg (x : ℝ) : F.rnd (-x) = - F.rnd x := by
  unfold rnd
  rw [expo_neg, neg_div, rne_neg]
  push_cast
  ring

theorem rnd_zero : F.rnd 0 = 0 := by
  have := rne_int 0
  simp only [Int.cast_zero] at this
  simp [rnd, this]

theorem rnd_exact {x : ℝ} (h : F.IsFloat x) : F.rnd x = x := by
  obtain ⟨m, e, hm, he, rfl⟩ := h
  by_cases h0 : m = 0
  · simp [h0, rnd_zero]
  set x : ℝ := m * 2 ^ e with hx
  have hx0 : 0 < |x| := by
    rw [hx, abs_mul]
    have : (0 : ℝ) < |(m : ℝ)| := abs_pos.2 (by exact_mod_cast h0)
    positivity
  have key : ∃ n : ℤ, x / 2 ^ F.expo x = n := by
    by_cases hle : F.expo x ≤ e
    · refine ⟨m * 2 ^ (e - F.expo x).toNat, ?_⟩
      have : (2 : ℝ) ^ e = 2 ^ (e - F.expo x).toNat * 2 ^ F.expo x := by
        rw [← zpow_natCast, ← zpow_add₀ (by norm_num)]
        congr 1
        omega
      rw [div_eq_iff (two_zpow_pos _).ne']
      push_cast
      rw [mul_assoc, ← this]
    · push Not at hle
      have h1 : F.expo x = Int.log 2 |x| - (F.p - 1) := by
        unfold expo at hle ⊢
        rcases max_choice (Int.log 2 |x| - (F.p - 1)) F.emin with h | h
        · exact h
        · rw [h] at hle; omega
      have h2 : (2 : ℝ) ^ Int.log 2 |x| ≤ |x| := by
        have := Int.zpow_log_le_self (b := 2) (r := |x|) (by norm_num) hx0
        exact_mod_cast this
      have h3 : |x| ≤ 2 ^ (e + F.p) := by
        rw [hx, abs_mul, abs_of_pos (two_zpow_pos e), zpow_add₀ (by norm_num), mul_comm]
        refine mul_le_mul_of_nonneg_left ?_ (two_zpow_pos e).le
        rw [zpow_natCast]
        exact_mod_cast hm
      have h4 : (2 : ℝ) ^ Int.log 2 |x| ≤ 2 ^ (e + F.p) := h2.trans h3
      have h5 : Int.log 2 |x| ≤ e + F.p := (zpow_le_zpow_iff_right₀ (by norm_num)).1 h4
      have h6 : Int.log 2 |x| = e + F.p := by omega
      have h7 : F.expo x = e + 1 := by omega
      have h8 : |x| = 2 ^ (e + F.p) := le_antisymm h3 (by rw [← h6]; exact h2)
      have hp := F.hp
      have h9 : |x| / 2 ^ F.expo x = ((2 ^ (F.p - 1) : ℤ) : ℝ) := by
        rw [h8, h7, div_eq_iff (two_zpow_pos _).ne']
        push_cast
        rw [← zpow_natCast, ← zpow_add₀ (by norm_num)]
        congr 1
        omega
      rcases abs_choice x with h | h
      · exact ⟨2 ^ (F.p - 1), by rw [← h9, h]⟩
      · refine ⟨-2 ^ (F.p - 1), ?_⟩
        push_cast at h9 ⊢
        rw [← h9, h]
        ring
  obtain ⟨n, hn⟩ := key
  unfold rnd
  rw [hn, rne_int, ← hn]
  field_simp

theorem abs_lt_expo (x : ℝ) : |x| / 2 ^ F.expo x < 2 ^ F.p := by
  rw [div_lt_iff₀ (two_zpow_pos _), ← zpow_natCast, ← zpow_add₀ (by norm_num)]
  have h1 : |x| < 2 ^ (Int.log 2 |x| + 1) := by
    have := Int.lt_zpow_succ_log_self (b := 2) (by norm_num) |x|
    exact_mod_cast this
  refine lt_of_lt_of_le h1 ((zpow_le_zpow_iff_right₀ (by norm_num)).2 ?_)
  have : Int.log 2 |x| - (F.p - 1) ≤ F.expo x := le_max_left _ _
  omega

/-- Rounded numbers are numbers of the format. -/
theorem rnd_isFloat (x : ℝ) : F.IsFloat (F.rnd x) := by
  refine ⟨rne (x / 2 ^ F.expo x), F.expo x, ?_, le_max_right _ _, rfl⟩
  have h := abs_lt_expo (F := F) x
  have h2 : |x / 2 ^ F.expo x| ≤ ((2 ^ F.p : ℤ) : ℝ) := by
    rw [abs_div, abs_of_pos (two_zpow_pos _)]
    push_cast
    exact h.le
  rw [abs_le] at h2 ⊢
  refine ⟨le_rne ?_, rne_le h2.2⟩
  push_cast
  push_cast at h2
  exact h2.1

theorem rnd_idem (x : ℝ) : F.rnd (F.rnd x) = F.rnd x := rnd_exact (rnd_isFloat x)

theorem isFloat_iff {x : ℝ} : F.IsFloat x ↔ F.rnd x = x := ⟨rnd_exact, fun h => h ▸ rnd_isFloat x⟩

theorem isFloat_neg {x : ℝ} (h : F.IsFloat x) : F.IsFloat (-x) := by
  rw [isFloat_iff, rnd_neg, rnd_exact h]

theorem rnd_nonneg {x : ℝ} (h : 0 ≤ x) : 0 ≤ F.rnd x := by
  unfold rnd
  have : (0 : ℤ) ≤ rne (x / 2 ^ F.expo x) := le_rne (by simpa using by positivity)
  have : (0 : ℝ) ≤ rne (x / 2 ^ F.expo x) := by exact_mod_cast this
  positivity

theorem rnd_mono_pos {x y : ℝ} (hx : 0 < x) (h : x ≤ y) : F.rnd x ≤ F.rnd y := by
  have hy : 0 < y := hx.trans_le h
  have hlog : Int.log 2 |x| ≤ Int.log 2 |y| := by
    rw [abs_of_pos hx, abs_of_pos hy]
    exact Int.log_mono_right hx h
  have he : F.expo x ≤ F.expo y := max_le_max (by omega) le_rfl
  rcases he.lt_or_eq with hlt | heq
  · have hk : F.expo y = Int.log 2 |y| - (F.p - 1) := by
      rcases max_choice (Int.log 2 |y| - (F.p - 1)) F.emin with h | h
      · exact h
      · have h1 : F.expo y = F.emin := h
        have h2 : F.emin ≤ F.expo x := le_max_right _ _
        omega
    set k := Int.log 2 |y| with hkd
    have hp := F.hp
    have hxk : x < 2 ^ k := by
      have h1 : |x| < 2 ^ (Int.log 2 |x| + 1) := by
        have := Int.lt_zpow_succ_log_self (b := 2) (by norm_num) |x|
        exact_mod_cast this
      rw [abs_of_pos hx] at h1
      refine lt_of_lt_of_le h1 ((zpow_le_zpow_iff_right₀ (by norm_num)).2 ?_)
      have : Int.log 2 |x| - (F.p - 1) ≤ F.expo x := le_max_left _ _
      rw [abs_of_pos hx] at this
      omega
    have hky : (2 : ℝ) ^ k ≤ y := by
      have := Int.zpow_log_le_self (b := 2) (r := |y|) (by norm_num) (abs_pos.2 hy.ne')
      rw [abs_of_pos hy] at this
      rw [hkd, abs_of_pos hy]
      exact_mod_cast this
    have split : ∀ e : ℤ, e ≤ k → (2 : ℝ) ^ k = ((2 ^ (k - e).toNat : ℤ) : ℝ) * 2 ^ e := by
      intro e hek
      push_cast
      rw [← zpow_natCast, ← zpow_add₀ (by norm_num)]
      congr 1
      omega
    have a : F.rnd x ≤ 2 ^ k := by
      rw [split (F.expo x) (by omega)]
      unfold rnd
      refine mul_le_mul_of_nonneg_right ?_ (two_zpow_pos _).le
      refine Int.cast_le.2 (rne_le ?_)
      rw [div_le_iff₀ (two_zpow_pos _), ← split (F.expo x) (by omega)]
      exact hxk.le
    have b : 2 ^ k ≤ F.rnd y := by
      rw [split (F.expo y) (by omega)]
      unfold rnd
      refine mul_le_mul_of_nonneg_right ?_ (two_zpow_pos _).le
      refine Int.cast_le.2 (le_rne ?_)
      rw [le_div_iff₀ (two_zpow_pos _), ← split (F.expo y) (by omega)]
      exact hky
    exact a.trans b
  · unfold rnd
    rw [heq]
    refine mul_le_mul_of_nonneg_right ?_ (two_zpow_pos _).le
    exact Int.cast_le.2 (rne_mono ((div_le_div_iff_of_pos_right (two_zpow_pos _)).2 h))

/-- Rounding is monotone. -/
theorem rnd_mono {x y : ℝ} (h : x ≤ y) : F.rnd x ≤ F.rnd y := by
  rcases lt_trichotomy x 0 with hx | hx | hx
  · rcases lt_or_ge y 0 with hy | hy
    · have := rnd_mono_pos (F := F) (x := -y) (y := -x) (by linarith) (by linarith)
      rw [rnd_neg, rnd_neg] at this
      linarith
    · have h1 := rnd_nonneg (F := F) (x := -x) (by linarith)
      rw [rnd_neg] at h1
      have h2 := rnd_nonneg (F := F) hy
      linarith
  · rw [hx, rnd_zero]
    exact rnd_nonneg (hx ▸ h)
  · exact rnd_mono_pos hx h

theorem rnd_le {x y : ℝ} (hy : F.IsFloat y) (h : x ≤ y) : F.rnd x ≤ y := by
  rw [← rnd_exact hy]
  exact rnd_mono h

theorem le_rnd {x y : ℝ} (hy : F.IsFloat y) (h : y ≤ x) : y ≤ F.rnd x := by
  rw [← rnd_exact hy]
  exact rnd_mono h

theorem rnd_err_expo (x : ℝ) : |F.rnd x - x| ≤ 2 ^ F.expo x / 2 := by
  have h := rne_err (x / 2 ^ F.expo x)
  have hpos := two_zpow_pos (F.expo x)
  have e : F.rnd x - x = (rne (x / 2 ^ F.expo x) - x / 2 ^ F.expo x) * 2 ^ F.expo x := by
    unfold rnd
    field_simp
  rw [e, abs_mul, abs_of_pos hpos]
  nlinarith

/-- Relative error of rounding: half the last digit, `2 ^ -p`, away from underflow. -/
noncomputable def u (F : Fmt) : ℝ := 1 / 2 ^ F.p

theorem u_pos : 0 < F.u := by
  unfold u
  positivity

theorem u_le : F.u ≤ 1 / 4 := by
  unfold u
  have : (2 : ℝ) ^ 2 ≤ 2 ^ F.p := pow_le_pow_right₀ (by norm_num) F.hp
  rw [div_le_div_iff₀ (by positivity) (by norm_num)]
  linarith

/-- Smallest positive number with all its digits. -/
noncomputable def tiny (F : Fmt) : ℝ := 2 ^ (F.emin + F.p - 1)

theorem rnd_err {x : ℝ} (h : F.tiny ≤ |x|) : |F.rnd x - x| ≤ F.u * |x| := by
  have hx : 0 < |x| := (two_zpow_pos _).trans_le h
  have h1 : F.emin + F.p - 1 ≤ Int.log 2 |x| := by
    have : ((2 : ℕ) : ℝ) ^ (F.emin + F.p - 1) ≤ |x| := by exact_mod_cast h
    exact (Int.zpow_le_iff_le_log (by norm_num) hx).1 this
  have h2 : F.expo x = Int.log 2 |x| - (F.p - 1) := max_eq_left (by omega)
  have h3 : (2 : ℝ) ^ Int.log 2 |x| ≤ |x| := by
    have := Int.zpow_log_le_self (b := 2) (r := |x|) (by norm_num) hx
    exact_mod_cast this
  refine (rnd_err_expo x).trans ?_
  have h4 : (2 : ℝ) ^ F.expo x / 2 = F.u * 2 ^ Int.log 2 |x| := by
    rw [h2, u, show Int.log 2 |x| - ((F.p : ℤ) - 1) = Int.log 2 |x| + 1 - F.p by ring, zpow_sub₀ (by norm_num),
      zpow_add₀ (by norm_num), zpow_natCast, zpow_one]
    field_simp
  rw [h4]
  exact mul_le_mul_of_nonneg_left h3 u_pos.le

/-- With underflow, the error is at most half the smallest number. -/
theorem rnd_err_all (x : ℝ) : |F.rnd x - x| ≤ F.u * |x| + 2 ^ F.emin / 2 := by
  by_cases h : F.tiny ≤ |x|
  · have := rnd_err h
    have := two_zpow_pos F.emin
    linarith
  · push Not at h
    have he : F.expo x = F.emin ∨ |x| = 0 := by
      by_cases hx : |x| = 0
      · exact .inr hx
      · left
        have hx : 0 < |x| := lt_of_le_of_ne (abs_nonneg x) (Ne.symm hx)
        have h1 : Int.log 2 |x| < F.emin + F.p - 1 := by
          have : |x| < ((2 : ℕ) : ℝ) ^ (F.emin + F.p - 1) := by exact_mod_cast h
          exact (Int.lt_zpow_iff_log_lt (by norm_num) hx).1 this
        exact max_eq_right (by omega)
    rcases he with he | he
    · have := rnd_err_expo (F := F) x
      rw [he] at this
      have := mul_nonneg (u_pos (F := F)).le (abs_nonneg x)
      linarith
    · have : x = 0 := abs_eq_zero.1 he
      rw [this, rnd_zero]
      have := two_zpow_pos F.emin
      simp
      positivity

end Fmt

end Verif
