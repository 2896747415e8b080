import Verif.Model.Rounded
import Verif.Props.Sky
import Mathlib.Analysis.Real.Pi.Bounds

/-!
# C111, C112, C113: angles, wrapped positions and distances with rounding errors
-/

namespace Verif.Props.Rounded

open Verif Verif.Model Verif.Model.Rounded

variable {F : Fmt}

/-! ### Numbers -/

/-- Result of a rounding, from the nearest multiple of the last digit. -/
theorem rnd_eq {x : ℝ} {k n : ℤ} (h1 : (2 : ℝ) ^ k ≤ |x|) (h2 : |x| < 2 ^ (k + 1)) (hk : F.emin ≤ k - (F.p - 1))
    (hn : |x / 2 ^ (k - ((F.p : ℤ) - 1)) - n| < 1 / 2) : F.rnd x = n * 2 ^ (k - ((F.p : ℤ) - 1)) := by
  have hx : 0 < |x| := (Fmt.two_zpow_pos k).trans_le h1
  have hl : Int.log 2 |x| = k := by
    refine le_antisymm ?_ ?_
    · have : Int.log 2 |x| < k + 1 := (Int.lt_zpow_iff_log_lt (by norm_num) hx).1 (by exact_mod_cast h2)
      omega
    · exact (Int.zpow_le_iff_le_log (by norm_num) hx).1 (by exact_mod_cast h1)
  have he : F.expo x = k - (F.p - 1) := by
    unfold Fmt.expo
    rw [hl, max_eq_left hk]
  unfold Fmt.rnd
  rw [he]
  congr 2
  have e := rne_err (x / 2 ^ (k - ((F.p : ℤ) - 1)))
  rw [abs_lt] at hn
  rw [abs_le] at e
  have a : (rne (x / 2 ^ (k - ((F.p : ℤ) - 1))) : ℝ) < n + 1 := by linarith
  have b : (n : ℝ) - 1 < rne (x / 2 ^ (k - ((F.p : ℤ) - 1))) := by linarith
  have a' : rne (x / 2 ^ (k - ((F.p : ℤ) - 1))) < n + 1 := by exact_mod_cast a
  have b' : n - 1 < rne (x / 2 ^ (k - ((F.p : ℤ) - 1))) := by exact_mod_cast b
  omega

theorem npPi_eq : npPi = 884279719003555 / 2 ^ 48 := by
  have h1 := Real.pi_gt_d20
  have h2 := Real.pi_lt_d20
  have := rnd_eq (F := binary64) (x := Real.pi) (k := 1) (n := 7074237752028440)
    (by rw [abs_of_pos Real.pi_pos]; norm_num; linarith) (by rw [abs_of_pos Real.pi_pos]; norm_num; linarith) (by norm_num [binary64])
    (by
      norm_num [binary64]
      rw [abs_lt]
      constructor <;> norm_num at h1 h2 ⊢ <;> linarith)
  unfold npPi
  rw [this]
  norm_num [binary64]

theorem conv64 : convF binary64 true = 5030569068109113 / 2 ^ 58 := by
  have h : binary64.rnd (npPi / 180) = 5030569068109113 / 2 ^ 58 := by
    rw [npPi_eq, rnd_eq (F := binary64) (k := -6) (n := 5030569068109113) (by norm_num [abs_of_pos]) (by norm_num [abs_of_pos])
      (by norm_num [binary64]) (by norm_num [binary64, abs_lt])]
    norm_num [binary64]
  unfold convF
  rw [if_pos rfl, Fmt.rnd_idem, h]

theorem twoPi64 : twoPi binary64 = 884279719003555 / 2 ^ 47 := by
  have h : binary64.rnd (2 * npPi) = 884279719003555 / 2 ^ 47 := by
    rw [npPi_eq, rnd_eq (F := binary64) (k := 2) (n := 7074237752028440) (by norm_num [abs_of_pos]) (by norm_num [abs_of_pos])
      (by norm_num [binary64]) (by norm_num [binary64, abs_lt])]
    norm_num [binary64]
  unfold twoPi
  rw [Fmt.rnd_idem, h]

theorem conv32 : convF binary32 true = 9370165 / 2 ^ 29 := by
  have h := conv64
  unfold convF at h ⊢
  rw [if_pos rfl, Fmt.rnd_idem] at h
  rw [if_pos rfl, h, rnd_eq (F := binary32) (k := -6) (n := 9370165) (by norm_num [abs_of_pos]) (by norm_num [abs_of_pos])
    (by norm_num [binary32]) (by norm_num [binary32, abs_lt])]
  norm_num [binary32]

theorem twoPi32 : twoPi binary32 = 13176795 / 2 ^ 21 := by
  have h := twoPi64
  unfold twoPi at h ⊢
  rw [Fmt.rnd_idem] at h
  rw [h, rnd_eq (F := binary32) (k := 2) (n := 13176795) (by norm_num [abs_of_pos]) (by norm_num [abs_of_pos])
    (by norm_num [binary32]) (by norm_num [binary32, abs_lt])]
  norm_num [binary32]

theorem turn64 : binary64.rnd (twoPi binary64 / convF binary64 true) = 360 := by
  rw [twoPi64, conv64, rnd_eq (F := binary64) (k := 8) (n := 360 * 2 ^ 44) (by norm_num [abs_of_pos]) (by norm_num [abs_of_pos])
    (by norm_num [binary64]) (by norm_num [binary64, abs_lt])]
  norm_num [binary64]

theorem turn32 : binary32.rnd (twoPi binary32 / convF binary32 true) = 360 := by
  rw [twoPi32, conv32, rnd_eq (F := binary32) (k := 8) (n := 360 * 2 ^ 15) (by norm_num [abs_of_pos]) (by norm_num [abs_of_pos])
    (by norm_num [binary32]) (by norm_num [binary32, abs_lt])]
  norm_num [binary32]

theorem turn64' : binary64.rnd (360 * convF binary64 true) = twoPi binary64 := by
  rw [twoPi64, conv64, rnd_eq (F := binary64) (k := 2) (n := 7074237752028440) (by norm_num [abs_of_pos]) (by norm_num [abs_of_pos])
    (by norm_num [binary64]) (by norm_num [binary64, abs_lt])]
  norm_num [binary64]

/-! ### Remainders -/

theorem fmod_eq (a b : ℝ) : ∃ n : ℤ, fmod a b = a - n * b := ⟨_, by unfold fmod; rw [mul_comm]⟩

theorem fmod_bounds (a : ℝ) {b : ℝ} (hb : 0 < b) : -b < fmod a b ∧ fmod a b < b ∧ (0 ≤ a → 0 ≤ fmod a b ∧ fmod a b ≤ a) ∧
    (a ≤ 0 → fmod a b ≤ 0 ∧ a ≤ fmod a b) := by
  have e : a = b * (a / b) := by field_simp
  have hd : 0 ≤ a / b ↔ 0 ≤ a := by
    constructor
    · intro h
      rw [e]
      positivity
    · intro h
      positivity
  unfold fmod
  split_ifs with h
  · have h1 := Int.floor_le (a / b)
    have h2 := Int.lt_floor_add_one (a / b)
    have h3 : (0 : ℝ) ≤ ⌊a / b⌋ := by exact_mod_cast Int.floor_nonneg.2 h
    have m1 := mul_le_mul_of_nonneg_left h1 hb.le
    have m2 := mul_lt_mul_of_pos_left h2 hb
    have m3 := mul_nonneg hb.le h3
    rw [← e] at m1 m2
    have h0 := hd.1 h
    refine ⟨by linarith, by linarith, fun _ => ⟨by linarith, by linarith⟩, fun h' => ?_⟩
    have : a = 0 := le_antisymm h' h0
    rw [this]
    simp
  · push Not at h
    have h1 := Int.le_ceil (a / b)
    have h2 := Int.ceil_lt_add_one (a / b)
    have h3 : ((⌈a / b⌉ : ℤ) : ℝ) ≤ 0 := by
      have : ⌈a / b⌉ ≤ 0 := Int.ceil_le.2 (by simpa using h.le)
      exact_mod_cast this
    have m1 := mul_le_mul_of_nonneg_left h1 hb.le
    have m2 := mul_lt_mul_of_pos_left h2 hb
    have m3 := mul_nonneg_of_nonpos_of_nonpos (neg_nonpos.2 hb.le) h3
    rw [← e] at m1
    have m4 : b * ⌈a / b⌉ < a + b := by
      rw [mul_add, ← e, mul_one] at m2
      exact m2
    refine ⟨by linarith, by nlinarith, fun h' => absurd (hd.2 h') (by linarith), fun _ => ⟨by linarith, by nlinarith⟩⟩

/-- The remainder of two numbers of the format is one too: it is exact. -/
theorem fmod_isFloat {a b : ℝ} (hb : 0 < b) (ha : F.IsFloat a) (hbf : F.IsFloat b) : F.IsFloat (fmod a b) := by
  obtain ⟨n, hn⟩ := fmod_eq a b
  obtain ⟨h1, h2, h3, h4⟩ := fmod_bounds a hb
  have hab : |fmod a b| ≤ |a| := by
    rcases le_total 0 a with h | h
    · rw [abs_of_nonneg h, abs_of_nonneg (h3 h).1]
      exact (h3 h).2
    · rw [abs_of_nonpos h, abs_of_nonpos (h4 h).1]
      linarith [(h4 h).2]
  have hbb : |fmod a b| ≤ |b| := by
    rw [abs_of_pos hb, abs_le]
    constructor <;> linarith
  obtain ⟨m, e, hm, he, rfl⟩ := ha
  obtain ⟨k, f, hk, hf, rfl⟩ := hbf
  have split : ∀ e f : ℤ, f ≤ e → (2 : ℝ) ^ e = 2 ^ (e - f).toNat * 2 ^ f := by
    intro e f h
    rw [← zpow_natCast, ← zpow_add₀ (by norm_num)]
    congr 1
    omega
  have bound : ∀ (c d g : ℤ), |(c : ℝ) * 2 ^ g| ≤ |(d : ℝ) * 2 ^ g| → |c| ≤ |d| := by
    intro c d g h
    rw [abs_mul, abs_mul] at h
    have := le_of_mul_le_mul_right h (abs_pos.2 (Fmt.two_zpow_pos g).ne')
    exact_mod_cast this
  rcases le_total e f with h | h
  · have hr : fmod ((m : ℝ) * 2 ^ e) (k * 2 ^ f) = ((m - n * k * 2 ^ (f - e).toNat : ℤ) : ℝ) * 2 ^ e := by
      rw [hn, split f e h]
      push_cast
      ring
    rw [hr] at hab ⊢
    exact ⟨_, _, (bound _ _ _ hab).trans hm, he, rfl⟩
  · have hr : fmod ((m : ℝ) * 2 ^ e) (k * 2 ^ f) = ((m * 2 ^ (e - f).toNat - n * k : ℤ) : ℝ) * 2 ^ f := by
      rw [hn, split e f h]
      push_cast
      ring
    rw [hr] at hbb ⊢
    exact ⟨_, _, (bound _ _ _ hbb).trans hk, hf, rfl⟩

theorem npMod_range (a : ℝ) {b : ℝ} (hb : 0 < b) (hf : F.IsFloat b) : 0 ≤ npMod F a b ∧ npMod F a b ≤ b := by
  obtain ⟨h1, h2, -⟩ := fmod_bounds a hb
  unfold npMod
  split_ifs with h
  · exact ⟨Fmt.rnd_nonneg (by linarith), Fmt.rnd_le hf (by linarith)⟩
  · push Not at h
    exact ⟨h, h2.le⟩

theorem npMod_isFloat {a b : ℝ} (hb : 0 < b) (ha : F.IsFloat a) (hf : F.IsFloat b) : F.IsFloat (npMod F a b) := by
  unfold npMod
  split_ifs
  · exact Fmt.rnd_isFloat _
  · exact fmod_isFloat hb ha hf

/-- Up to a multiple of `b`, with the error of one rounding. -/
theorem npMod_err (a : ℝ) {b : ℝ} (hb : 0 < b) : ∃ n : ℤ, |npMod F a b - (a - n * b)| ≤ F.u * b + 2 ^ F.emin / 2 ∧ |(n : ℝ)| * b ≤ |a| + b := by
  obtain ⟨n, hn⟩ := fmod_eq a b
  obtain ⟨h1, h2, h3, h4⟩ := fmod_bounds a hb
  have hη := Fmt.two_zpow_pos F.emin
  have hu := mul_pos (Fmt.u_pos (F := F)) hb
  have hn' : |(n : ℝ) * b| ≤ |a| := by
    have : (n : ℝ) * b = a - fmod a b := by rw [hn]; ring
    rw [this]
    rcases le_total 0 a with h | h
    · rw [abs_of_nonneg h, abs_le]
      constructor <;> linarith [(h3 h).1, (h3 h).2]
    · rw [abs_of_nonpos h, abs_le]
      constructor <;> linarith [(h4 h).1, (h4 h).2]
  rw [abs_mul, abs_of_pos hb] at hn'
  unfold npMod
  split_ifs with h
  · refine ⟨n - 1, ?_, ?_⟩
    · have e : a - ((n - 1 : ℤ) : ℝ) * b = fmod a b + b := by
        rw [hn]
        push_cast
        ring
      rw [e]
      refine (Fmt.rnd_err_all _).trans ?_
      have : |fmod a b + b| ≤ b := by
        rw [abs_le]
        constructor <;> linarith
      have := mul_le_mul_of_nonneg_left this (Fmt.u_pos (F := F)).le
      linarith
    · push_cast
      have := abs_sub (n : ℝ) 1
      rw [abs_one] at this
      nlinarith
  · refine ⟨n, ?_, by linarith⟩
    rw [hn, sub_self, abs_zero]
    positivity

/-! ### C111: angles -/

theorem twoPi_float : F.IsFloat (twoPi F) := Fmt.rnd_isFloat _

theorem wrap_range (F : Fmt) (degree : Bool) (h1 : 0 < twoPi F) (h2 : 0 < convF F degree) (angle : ℝ) :
    0 ≤ wrapAngleF F angle degree ∧ wrapAngleF F angle degree ≤ F.rnd (twoPi F / convF F degree) := by
  obtain ⟨a, b⟩ := npMod_range (F := F) (F.rnd (angle * convF F degree)) h1 twoPi_float
  exact ⟨Fmt.rnd_nonneg (div_nonneg a h2.le), Fmt.rnd_mono ((div_le_div_iff_of_pos_right h2).2 b)⟩

/-- C111. With rounding errors, `wrap_angle` gives angles from 0 to 360 degrees, both included, in double and in single precision; in
double precision, angles in radians are below 2 pi. -/
theorem C111_range (angle : ℝ) : (0 ≤ wrapAngleF binary64 angle ∧ wrapAngleF binary64 angle ≤ 360) ∧
    (0 ≤ wrapAngleF binary32 angle ∧ wrapAngleF binary32 angle ≤ 360) ∧
    0 ≤ wrapAngleF binary64 angle false ∧ wrapAngleF binary64 angle false < 2 * Real.pi := by
  refine ⟨?_, ?_, ?_⟩
  · have := wrap_range binary64 true (by rw [twoPi64]; norm_num) (by rw [conv64]; norm_num) angle
    rwa [turn64] at this
  · have := wrap_range binary32 true (by rw [twoPi32]; norm_num) (by rw [conv32]; norm_num) angle
    rwa [turn32] at this
  · have := wrap_range binary64 false (by rw [twoPi64]; norm_num) (by norm_num [convF]) angle
    have e : convF binary64 false = 1 := rfl
    rw [e, div_one, Fmt.rnd_exact twoPi_float] at this
    refine ⟨this.1, this.2.trans_lt ?_⟩
    rw [twoPi64]
    have := Real.pi_gt_d20
    norm_num at this ⊢
    linarith

/-- C111. Wrapping does not move angles by more than rounding errors: up to turns, the result is the angle within 3 |angle| + 1500 times
2 ^ -53, in degrees. -/
theorem C111_accuracy (angle : ℝ) : ∃ n : ℤ,
    |wrapAngleF binary64 angle - (angle - 360 * n)| ≤ (3 * |angle| + 1500) * (1 / 2 ^ 53) := by
  set κ := convF binary64 true with hκ
  set T := twoPi binary64 with hT
  have hκv : κ = 5030569068109113 / 2 ^ 58 := conv64
  have hTv : T = 884279719003555 / 2 ^ 47 := twoPi64
  have hκ0 : 0 < κ := by rw [hκv]; norm_num
  have hT0 : 0 < T := by rw [hTv]; norm_num
  set η : ℝ := 2 ^ binary64.emin / 2 with hη
  have hu : binary64.u = 1 / 2 ^ 53 := rfl
  have hη1 : η ≤ 1 / 2 ^ 80 := by
    have : (2 : ℝ) ^ binary64.emin ≤ 2 ^ (-80 : ℤ) := zpow_le_zpow_right₀ (by norm_num) (by norm_num [binary64])
    have e : (2 : ℝ) ^ (-80 : ℤ) = 1 / 2 ^ 80 := by norm_num
    rw [e] at this
    have := Fmt.two_zpow_pos binary64.emin
    simp only [hη]
    linarith
  have hη0 : 0 ≤ η := by
    have := Fmt.two_zpow_pos binary64.emin
    simp only [hη]
    positivity
  set x := binary64.rnd (angle * κ) with hx
  have ex : |x - angle * κ| ≤ binary64.u * (|angle| * κ) + η := by
    have := Fmt.rnd_err_all (F := binary64) (angle * κ)
    rwa [abs_mul, abs_of_pos hκ0] at this
  obtain ⟨n, e1, e2⟩ := npMod_err (F := binary64) x hT0
  set m := npMod binary64 x T with hm
  obtain ⟨m0, m1⟩ := npMod_range (F := binary64) x hT0 twoPi_float
  have e3 : |wrapAngleF binary64 angle - m / κ| ≤ binary64.u * (m / κ) + η := by
    have := Fmt.rnd_err_all (F := binary64) (m / κ)
    rwa [abs_of_nonneg (div_nonneg m0 hκ0.le)] at this
  have hr : |360 - T / κ| ≤ T / κ * (1 / 2 ^ 53) := by
    rw [hTv, hκv]
    norm_num [abs_le]
  have hTκ : T / κ ≤ 361 := by
    rw [hTv, hκv]
    norm_num
  refine ⟨n, ?_⟩
  rw [hu] at ex e1 e3
  have hi : 1 / κ ≤ 58 := by rw [hκv]; norm_num
  have hi0 : 0 < 1 / κ := by positivity
  -- everything divided by the conversion
  have f1 : |x / κ - angle| ≤ (1 / 2 ^ 53) * |angle| + η * 58 := by
    have : x / κ - angle = (x - angle * κ) * (1 / κ) := by field_simp
    rw [this, abs_mul, abs_of_pos hi0]
    have h := mul_le_mul_of_nonneg_right ex hi0.le
    have h' : ((1 : ℝ) / 2 ^ 53 * (|angle| * κ) + η) * (1 / κ) = 1 / 2 ^ 53 * |angle| + η * (1 / κ) := by field_simp
    rw [h'] at h
    exact h.trans (by nlinarith)
  have f2 : |m / κ - (x / κ - n * (T / κ))| ≤ (1 / 2 ^ 53) * 361 + η * 58 := by
    have : m / κ - (x / κ - n * (T / κ)) = (m - (x - n * T)) * (1 / κ) := by field_simp
    rw [this, abs_mul, abs_of_pos hi0]
    have h := mul_le_mul_of_nonneg_right e1 hi0.le
    have h' : ((1 : ℝ) / 2 ^ 53 * T + η) * (1 / κ) = 1 / 2 ^ 53 * (T / κ) + η * (1 / κ) := by ring
    rw [h'] at h
    exact h.trans (by nlinarith)
  have f3 : |(n : ℝ) * (T / κ) - 360 * n| ≤ (1 / 2 ^ 53) * (|angle| + (1 / 2 ^ 53) * |angle| + η * 58 + 361) := by
    have : (n : ℝ) * (T / κ) - 360 * n = -(n * (360 - T / κ)) := by ring
    rw [this, abs_neg, abs_mul]
    have h1 := mul_le_mul_of_nonneg_left hr (abs_nonneg (n : ℝ))
    have h2 : |(n : ℝ)| * (T / κ * (1 / 2 ^ 53)) = (1 / 2 ^ 53) * (|(n : ℝ)| * T * (1 / κ)) := by ring
    have h3 := mul_le_mul_of_nonneg_right e2 hi0.le
    have h4 : (|x| + T) * (1 / κ) = |x / κ| + T / κ := by
      rw [abs_div, abs_of_pos hκ0]
      ring
    have h5 : |x / κ| ≤ |angle| + (1 / 2 ^ 53 * |angle| + η * 58) := by
      have := abs_sub_abs_le_abs_sub (x / κ) angle
      linarith
    have h6 : |(n : ℝ)| * T * (1 / κ) ≤ |angle| + (1 / 2 ^ 53) * |angle| + η * 58 + 361 := by
      rw [h4] at h3
      linarith
    rw [h2] at h1
    exact h1.trans (mul_le_mul_of_nonneg_left h6 (by norm_num))
  have f4 : |wrapAngleF binary64 angle - m / κ| ≤ (1 / 2 ^ 53) * 361 + η := by
    refine e3.trans ?_
    have : m / κ ≤ 361 := ((div_le_div_iff_of_pos_right hκ0).2 m1).trans hTκ
    linarith
  have tot : wrapAngleF binary64 angle - (angle - 360 * n) = (wrapAngleF binary64 angle - m / κ) + (m / κ - (x / κ - n * (T / κ))) +
      (x / κ - angle) - (n * (T / κ) - 360 * n) := by ring
  have ha := abs_nonneg angle
  have t1 := abs_sub ((wrapAngleF binary64 angle - m / κ) + (m / κ - (x / κ - n * (T / κ))) + (x / κ - angle)) (n * (T / κ) - 360 * n)
  have t2 := abs_add_le ((wrapAngleF binary64 angle - m / κ) + (m / κ - (x / κ - n * (T / κ)))) (x / κ - angle)
  have t3 := abs_add_le (wrapAngleF binary64 angle - m / κ) (m / κ - (x / κ - n * (T / κ)))
  rw [tot]
  refine (t1.trans (add_le_add (t2.trans (add_le_add (t3.trans (add_le_add f4 f2)) f1)) f3)).trans ?_
  linarith

/-- C111 is violated at the upper end: an angle just below 0 is wrapped to 360, not below it, in double precision. Wrapping again gives 0:
the function is not idempotent. -/
theorem C111_end_violated : ∃ angle : ℝ, binary64.IsFloat angle ∧ -360 < angle ∧ angle < 0 ∧ wrapAngleF binary64 angle = 360 ∧
    wrapAngleF binary64 (wrapAngleF binary64 angle) = 0 := by
  have hT : 0 < twoPi binary64 := by rw [twoPi64]; norm_num
  have hκ : 0 < convF binary64 true := by rw [conv64]; norm_num
  have h1 : wrapAngleF binary64 (-1 / 2 ^ 70) = 360 := by
    have hx : binary64.rnd (-1 / 2 ^ 70 * convF binary64 true) = -(convF binary64 true / 2 ^ 70) := by
      rw [show (-1 / 2 ^ 70 * convF binary64 true) = -(convF binary64 true / 2 ^ 70) by ring, Fmt.rnd_neg, Fmt.rnd_exact]
      refine ⟨5030569068109113, -128, by norm_num [binary64], by norm_num [binary64], ?_⟩
      rw [conv64]
      norm_num
    have hf : fmod (-(convF binary64 true / 2 ^ 70)) (twoPi binary64) = -(convF binary64 true / 2 ^ 70) := by
      unfold fmod
      rw [conv64, twoPi64]
      have hc : ⌈(-(5030569068109113 / 2 ^ 58 / 2 ^ 70) / (884279719003555 / 2 ^ 47) : ℝ)⌉ = 0 := by
        rw [Int.ceil_eq_iff]
        norm_num
      rw [if_neg (by norm_num), hc]
      norm_num
    have hm : npMod binary64 (-(convF binary64 true / 2 ^ 70)) (twoPi binary64) = twoPi binary64 := by
      unfold npMod
      rw [hf, if_pos (neg_lt_zero.2 (by positivity)), conv64, twoPi64, rnd_eq (F := binary64) (k := 2) (n := 7074237752028440)
        (by norm_num [abs_of_pos]) (by norm_num [abs_of_pos]) (by norm_num [binary64]) (by norm_num [binary64, abs_lt])]
      norm_num [binary64]
    unfold wrapAngleF
    rw [hx, hm, turn64]
  refine ⟨-1 / 2 ^ 70, ⟨-1, -70, by norm_num [binary64], by norm_num [binary64], by norm_num⟩, by norm_num, by norm_num, h1, ?_⟩
  rw [h1]
  unfold wrapAngleF
  have : npMod binary64 (twoPi binary64) (twoPi binary64) = 0 := by
    have : fmod (twoPi binary64) (twoPi binary64) = 0 := by
      unfold fmod
      rw [div_self hT.ne']
      simp
    unfold npMod
    rw [this, if_neg (lt_irrefl _)]
  rw [turn64', this, zero_div, Fmt.rnd_zero]

/-- C111 is violated in single precision for radians: an angle just below 0 is wrapped to more than a turn. -/
theorem C111_single_violated : ∃ angle : ℝ, binary32.IsFloat angle ∧ -1 < angle ∧ angle < 0 ∧
    2 * Real.pi < wrapAngleF binary32 angle false := by
  refine ⟨-1 / 2 ^ 40, ⟨-1, -40, by norm_num [binary32], by norm_num [binary32], by norm_num⟩, by norm_num, by norm_num, ?_⟩
  have hx : binary32.rnd (-1 / 2 ^ 40) = -1 / 2 ^ 40 := Fmt.rnd_exact
    ⟨-1, -40, by norm_num [binary32], by norm_num [binary32], by norm_num⟩
  have hf : fmod (-1 / 2 ^ 40) (twoPi binary32) = -1 / 2 ^ 40 := by
    unfold fmod
    rw [twoPi32]
    have hc : ⌈(-1 / 2 ^ 40 / (13176795 / 2 ^ 21) : ℝ)⌉ = 0 := by
      rw [Int.ceil_eq_iff]
      norm_num
    rw [if_neg (by norm_num), hc]
    norm_num
  have hm : npMod binary32 (-1 / 2 ^ 40) (twoPi binary32) = twoPi binary32 := by
    unfold npMod
    rw [hf, if_pos (by norm_num), twoPi32, rnd_eq (F := binary32) (k := 2) (n := 13176795)
      (by norm_num [abs_of_pos]) (by norm_num [abs_of_pos]) (by norm_num [binary32]) (by norm_num [binary32, abs_lt])]
    norm_num [binary32]
  have e : convF binary32 false = 1 := rfl
  unfold wrapAngleF
  rw [e, mul_one, hx, hm, div_one, Fmt.rnd_exact twoPi_float, twoPi32]
  have := Real.pi_lt_d20
  norm_num at this ⊢
  linarith

/-! ### C112: periodic wrapping of positions -/

/-- C112. With rounding errors, wrapped positions of Lagrangian mocks are in the box, ends included, and are the positions up to periods
and rounding errors. -/
theorem C112_box (F : Fmt) {offset size : ℝ} (ho : F.IsFloat offset) (hs : F.IsFloat size) (h0 : 0 < size) (x : ℝ) :
    offset ≤ wrapPosition F offset size x ∧ wrapPosition F offset size x ≤ F.rnd (offset + size) ∧
    ∃ n : ℤ, |wrapPosition F offset size x - (x - n * size)| ≤
      F.u * (|x - offset| + 2 * size + |offset|) + 3 / 2 * 2 ^ F.emin := by
  obtain ⟨m0, m1⟩ := npMod_range (F := F) (F.rnd (x - offset)) h0 hs
  refine ⟨Fmt.le_rnd ho (by linarith), Fmt.rnd_mono (by linarith), ?_⟩
  obtain ⟨n, e1, -⟩ := npMod_err (F := F) (F.rnd (x - offset)) h0
  refine ⟨n, ?_⟩
  have e2 := Fmt.rnd_err_all (F := F) (x - offset)
  have e3 := Fmt.rnd_err_all (F := F) (npMod F (F.rnd (x - offset)) size + offset)
  have e4 : |npMod F (F.rnd (x - offset)) size + offset| ≤ size + |offset| := by
    refine (abs_add_le _ _).trans ?_
    rw [abs_of_nonneg m0]
    linarith
  have e5 := mul_le_mul_of_nonneg_left e4 (Fmt.u_pos (F := F)).le
  have tot : wrapPosition F offset size x - (x - n * size) =
      (F.rnd (npMod F (F.rnd (x - offset)) size + offset) - (npMod F (F.rnd (x - offset)) size + offset)) +
      (npMod F (F.rnd (x - offset)) size - (F.rnd (x - offset) - n * size)) + (F.rnd (x - offset) - (x - offset)) := by
    unfold wrapPosition
    ring
  rw [tot]
  refine (abs_add_le _ _).trans ((add_le_add ((abs_add_le _ _).trans (add_le_add e3 e1)) e2).trans ?_)
  linarith

/-- C112 is violated at the upper end: in a box from -500 to 500, a particle just below the lower face is put on the upper face, which
is not part of a periodic box. -/
theorem C112_end_violated : ∃ x : ℝ, binary64.IsFloat x ∧ x < -500 ∧ wrapPosition binary64 (-500) 1000 x = -500 + 1000 := by
  have hx : binary64.rnd (-500 - 1 / 2 ^ 44 - -500) = -1 / 2 ^ 44 := by
    rw [show (-500 - 1 / 2 ^ 44 - -500 : ℝ) = -1 / 2 ^ 44 by norm_num]
    exact Fmt.rnd_exact ⟨-1, -44, by norm_num [binary64], by norm_num [binary64], by norm_num⟩
  have hf : fmod (-1 / 2 ^ 44) 1000 = -1 / 2 ^ 44 := by
    unfold fmod
    have hc : ⌈(-1 / 2 ^ 44 / 1000 : ℝ)⌉ = 0 := by
      rw [Int.ceil_eq_iff]
      norm_num
    rw [if_neg (by norm_num), hc]
    norm_num
  have hr : binary64.rnd (-1 / 2 ^ 44 + 1000) = 1000 := by
    have hl : Int.log 2 |(-1 / 2 ^ 44 + 1000 : ℝ)| = 9 := by
      refine le_antisymm ?_ ?_
      · have : Int.log 2 |(-1 / 2 ^ 44 + 1000 : ℝ)| < 10 := (Int.lt_zpow_iff_log_lt (by norm_num) (by norm_num [abs_of_pos])).1
          (by norm_num [abs_of_pos])
        omega
      · exact (Int.zpow_le_iff_le_log (by norm_num) (by norm_num [abs_of_pos])).1 (by norm_num [abs_of_pos])
    have he : binary64.expo (-1 / 2 ^ 44 + 1000) = -43 := by
      unfold Fmt.expo
      rw [hl]
      norm_num [binary64]
    have hfl : ⌊((-1 / 2 ^ 44 + 1000) / 2 ^ (-43 : ℤ) : ℝ)⌋ = 8796093022207999 := by
      rw [Int.floor_eq_iff]
      norm_num
    have hfr : Int.fract ((-1 / 2 ^ 44 + 1000) / 2 ^ (-43 : ℤ) : ℝ) = 1 / 2 := by
      unfold Int.fract
      rw [hfl]
      norm_num
    unfold Fmt.rnd
    rw [he]
    unfold rne
    rw [hfr, hfl, if_neg (lt_irrefl _), if_neg (lt_irrefl _), if_neg (by decide)]
    norm_num
  have hm : npMod binary64 (-1 / 2 ^ 44) 1000 = 1000 := by
    unfold npMod
    rw [hf, if_pos (by norm_num), hr]
  refine ⟨-500 - 1 / 2 ^ 44, ⟨-(500 * 2 ^ 44 + 1), -44, by norm_num [binary64], by norm_num [binary64], by norm_num⟩, by norm_num, ?_⟩
  unfold wrapPosition
  rw [hx, hm, show (1000 + -500 : ℝ) = -500 + 1000 by norm_num, show (-500 + 1000 : ℝ) = 500 by norm_num]
  exact Fmt.rnd_exact ⟨500, 0, by norm_num [binary64], by norm_num [binary64], by norm_num⟩

theorem one_float : F.IsFloat 1 := by
  refine ⟨1, 0, ?_, ?_, by norm_num⟩
  · rw [abs_one]
    exact one_le_pow₀ (by norm_num)
  · have := F.he
    have := F.hp
    omega

/-- C112. `Cuboid.inverse_transform` gives positions in the box, ends included. -/
theorem C112_remap (F : Fmt) {size : ℝ} (hs : F.IsFloat size) (h0 : 0 < size) (x : ℝ) :
    0 ≤ unitToBox F size x ∧ unitToBox F size x ≤ size := by
  obtain ⟨m0, m1⟩ := npMod_range (F := F) x one_pos one_float
  exact ⟨Fmt.rnd_nonneg (mul_nonneg m0 h0.le), Fmt.rnd_le hs (by nlinarith)⟩

/-- C112 is violated at the upper end for `Cuboid.inverse_transform` too. -/
theorem C112_remap_end_violated {size : ℝ} (hs : binary64.IsFloat size) : ∃ x : ℝ, binary64.IsFloat x ∧ unitToBox binary64 size x = size := by
  have hf : fmod (-1 / 2 ^ 60) 1 = -1 / 2 ^ 60 := by
    unfold fmod
    have hc : ⌈(-1 / 2 ^ 60 / 1 : ℝ)⌉ = 0 := by
      rw [Int.ceil_eq_iff]
      norm_num
    rw [if_neg (by norm_num), hc]
    norm_num
  have hr : binary64.rnd (-1 / 2 ^ 60 + 1) = 1 := by
    rw [rnd_eq (F := binary64) (k := -1) (n := 2 ^ 53) (by norm_num [abs_of_pos]) (by norm_num [abs_of_pos])
      (by norm_num [binary64]) (by norm_num [binary64, abs_lt])]
    norm_num [binary64]
  refine ⟨-1 / 2 ^ 60, ⟨-1, -60, by norm_num [binary64], by norm_num [binary64], by norm_num⟩, ?_⟩
  unfold unitToBox npMod
  rw [hf, if_pos (by norm_num), hr, one_mul, Fmt.rnd_exact hs]

/-! ### C113: distances and declinations -/

/-- The square root of the rounded square of a number is that number, without underflow. -/
theorem sqrt_sq {z : ℝ} (hz : F.IsFloat z) (ht : F.tiny ≤ z ^ 2 ∨ z = 0) : F.rnd (Real.sqrt (F.rnd (z ^ 2))) = |z| := by
  rcases ht with ht | rfl
  swap
  · simp [Fmt.rnd_zero]
  wlog hp : 0 ≤ z generalizing z
  · have := this (z := -z) (Fmt.isFloat_neg hz) (by rwa [neg_sq]) (by linarith)
    rwa [neg_sq, abs_neg] at this
  have htp := Fmt.two_zpow_pos (F.emin + F.p - 1)
  have hz0 : 0 < z := by
    rcases hp.lt_or_eq with h | h
    · exact h
    · rw [← h] at ht
      unfold Fmt.tiny at ht
      norm_num at ht
      linarith
  rw [abs_of_pos hz0]
  have hFp := F.hp
  have hFe := F.he
  set k := Int.log 2 |z| with hk
  have hk1 : (2 : ℝ) ^ k ≤ z := by
    have := Int.zpow_log_le_self (b := 2) (r := |z|) (by norm_num) (abs_pos.2 hz0.ne')
    rw [← hk] at this
    rw [abs_of_pos hz0] at this
    exact_mod_cast this
  have hk2 : z < 2 ^ (k + 1) := by
    have := Int.lt_zpow_succ_log_self (b := 2) (by norm_num) |z|
    rw [← hk] at this
    rw [abs_of_pos hz0] at this
    exact_mod_cast this
  -- no underflow
  have hkmin : F.emin + F.p - 1 ≤ k := by
    by_contra hlt
    push Not at hlt
    have h1 : z < 2 ^ (F.emin + F.p - 1) := hk2.trans_le (zpow_le_zpow_right₀ (by norm_num) (by omega))
    have h2 : (2 : ℝ) ^ (F.emin + F.p - 1) ≤ 1 := zpow_le_one_of_nonpos₀ (by norm_num) (by omega)
    unfold Fmt.tiny at ht
    nlinarith
  set e := k - ((F.p : ℤ) - 1) with he
  have hexp : F.expo z = e := by
    unfold Fmt.expo
    exact max_eq_left (by omega)
  have hzr := Fmt.rnd_exact hz
  set m := rne (z / 2 ^ e) with hm
  have hzm : z = m * 2 ^ e := by
    conv_lhs => rw [← hzr]
    unfold Fmt.rnd
    rw [hexp]
  set q : ℝ := 2 ^ e with hq
  have hq0 : 0 < q := Fmt.two_zpow_pos e
  have hqp : (2 : ℝ) ^ k = q * 2 ^ ((F.p : ℤ) - 1) := by
    rw [hq, ← zpow_add₀ (by norm_num)]
    congr 1
    omega
  have hP : (2 : ℝ) ≤ 2 ^ ((F.p : ℤ) - 1) := by
    have : (2 : ℝ) ^ (1 : ℤ) ≤ 2 ^ ((F.p : ℤ) - 1) := zpow_le_zpow_right₀ (by norm_num) (by omega)
    simpa using this
  set P : ℝ := 2 ^ ((F.p : ℤ) - 1) with hPd
  have hd := Fmt.rnd_err_expo (F := F) (z ^ 2)
  set δ := F.rnd (z ^ 2) - z ^ 2 with hδ
  have hz2 : 0 < z ^ 2 := by positivity
  have hl2 : F.expo (z ^ 2) = Int.log 2 (z ^ 2) - (F.p - 1) := by
    unfold Fmt.expo
    rw [abs_of_pos hz2]
    refine max_eq_left ?_
    have : F.emin + F.p - 1 ≤ Int.log 2 (z ^ 2) := (Int.zpow_le_iff_le_log (by norm_num) hz2).1 (by exact_mod_cast ht)
    omega
  -- the error of the square is below z q - q² / 4
  have hsmall : |δ| < z * q - q ^ 2 / 4 := by
    have hzq : q * P ≤ z := hqp ▸ hk1
    by_cases hc : z ^ 2 < 2 ^ (2 * k + 1)
    · have hlog : Int.log 2 (z ^ 2) ≤ 2 * k := by
        have : Int.log 2 (z ^ 2) < 2 * k + 1 := (Int.lt_zpow_iff_log_lt (by norm_num) hz2).1 (by exact_mod_cast hc)
        omega
      have hb : (2 : ℝ) ^ F.expo (z ^ 2) ≤ q * (q * P) := by
        have : q * (q * P) = 2 ^ (2 * k - ((F.p : ℤ) - 1)) := by
          rw [← hqp, hq, ← zpow_add₀ (by norm_num)]
          congr 1
          omega
        rw [this, hl2]
        exact zpow_le_zpow_right₀ (by norm_num) (by omega)
      have : q ^ 2 < q * z := by nlinarith
      nlinarith
    · push Not at hc
      have hlog : Int.log 2 (z ^ 2) ≤ 2 * k + 1 := by
        have h4 : z ^ 2 < 2 ^ (2 * k + 2) := by
          have : (2 : ℝ) ^ (2 * k + 2) = 2 ^ (k + 1) * 2 ^ (k + 1) := by
            rw [← zpow_add₀ (by norm_num)]
            congr 1
            omega
          rw [this, sq]
          exact mul_lt_mul'' hk2 hk2 hz0.le hz0.le
        have : Int.log 2 (z ^ 2) < 2 * k + 2 := (Int.lt_zpow_iff_log_lt (by norm_num) hz2).1 (by exact_mod_cast h4)
        omega
      have hb : (2 : ℝ) ^ F.expo (z ^ 2) ≤ 2 * (q * (q * P)) := by
        have : 2 * (q * (q * P)) = 2 ^ (2 * k + 1 - ((F.p : ℤ) - 1)) := by
          rw [← hqp, hq, ← zpow_add₀ (by norm_num), ← zpow_one_add₀ (by norm_num)]
          congr 1
          omega
        rw [this, hl2]
        exact zpow_le_zpow_right₀ (by norm_num) (by omega)
      have hz2' : 2 * (q * P) ^ 2 ≤ z ^ 2 := by
        have : 2 * (q * P) ^ 2 = 2 ^ (2 * k + 1) := by
          rw [← hqp, ← zpow_natCast, ← zpow_mul, ← zpow_one_add₀ (by norm_num)]
          congr 1
          push_cast
          omega
        rw [this]
        exact hc
      -- z is at least 1.4 q P
      have hz14 : 7 / 5 * (q * P) ≤ z := by
        have hqP : 0 < q * P := by positivity
        nlinarith
      have hmul : 7 / 5 * (q * (q * P)) ≤ z * q := by nlinarith
      have : q ^ 2 * 2 ≤ q * (q * P) := by nlinarith [sq_nonneg q]
      have : 0 < q * (q * P) := by positivity
      linarith
  have hs1 : (z - q / 2) ^ 2 < F.rnd (z ^ 2) := by
    have := (abs_lt.1 hsmall).1
    have e1 : F.rnd (z ^ 2) = z ^ 2 + δ := by rw [hδ]; ring
    rw [e1]
    nlinarith
  have hs2 : F.rnd (z ^ 2) < (z + q / 2) ^ 2 := by
    have := (abs_lt.1 hsmall).2
    have e1 : F.rnd (z ^ 2) = z ^ 2 + δ := by rw [hδ]; ring
    rw [e1]
    nlinarith
  set s := Real.sqrt (F.rnd (z ^ 2)) with hs
  have hzq2 : 0 ≤ z - q / 2 := by
    have : q * P ≤ z := hqp ▸ hk1
    nlinarith
  have t1 : z - q / 2 < s := Real.lt_sqrt_of_sq_lt hs1
  have t2 : s < z + q / 2 := (Real.sqrt_lt' (by positivity)).2 hs2
  have hs0 : 0 ≤ s := Real.sqrt_nonneg _
  by_cases hpow : z = 2 ^ k
  · -- power of two: the square is exact
    have hsq : F.rnd (z ^ 2) = z ^ 2 := by
      refine Fmt.rnd_exact ⟨1, 2 * k, ?_, ?_, ?_⟩
      · rw [abs_one]
        exact one_le_pow₀ (by norm_num)
      · have h1 : F.emin + F.p - 1 ≤ 2 * k := by
          have : z ^ 2 = ((2 : ℕ) : ℝ) ^ (2 * k) := by
            rw [hpow, ← zpow_natCast, ← zpow_mul]
            push_cast
            congr 1
            omega
          rw [this] at ht
          unfold Fmt.tiny at ht
          exact (zpow_le_zpow_iff_right₀ (by norm_num : (1 : ℝ) < 2)).1 (by exact_mod_cast ht)
        omega
      · rw [hpow, ← zpow_natCast, ← zpow_mul]
        push_cast
        rw [one_mul]
        congr 1
        omega
    rw [hs, hsq, Real.sqrt_sq hz0.le, hzr]
  · have hint : (2 : ℝ) ^ k + q ≤ z := by
      have h1 : (2 : ℝ) ^ k < z := lt_of_le_of_ne hk1 (Ne.symm hpow)
      have hPi : P = ((2 ^ (F.p - 1) : ℤ) : ℝ) := by
        rw [hPd]
        push_cast
        rw [← zpow_natCast]
        congr 1
        omega
      rw [hqp, hzm, hPi, mul_comm q] at h1
      have h2 : (2 ^ (F.p - 1) : ℤ) < m := by
        have := lt_of_mul_lt_mul_right h1 hq0.le
        exact_mod_cast this
      have h3 : ((2 ^ (F.p - 1) : ℤ) : ℝ) + 1 ≤ m := by exact_mod_cast h2
      rw [hqp, hzm, hPi]
      nlinarith
    have htop : z + q ≤ 2 ^ (k + 1) := by
      have h1 : z < 2 ^ (k + 1) := hk2
      have hPi : (2 : ℝ) ^ (k + 1) = ((2 ^ F.p : ℤ) : ℝ) * q := by
        rw [hq]
        push_cast
        rw [← zpow_natCast, ← zpow_add₀ (by norm_num)]
        congr 1
        omega
      rw [hPi, hzm] at h1
      have h2 : m < (2 ^ F.p : ℤ) := by
        have := lt_of_mul_lt_mul_right h1 hq0.le
        exact_mod_cast this
      have h3 : (m : ℝ) + 1 ≤ ((2 ^ F.p : ℤ) : ℝ) := by exact_mod_cast h2
      rw [hPi, hzm]
      nlinarith
    have := rnd_eq (F := F) (x := s) (k := k) (n := m) (by rw [abs_of_nonneg hs0]; linarith) (by rw [abs_of_nonneg hs0]; linarith)
      (by omega) (by
        rw [← he, ← hq]
        have : s / q - m = (s - z) / q := by
          rw [sub_div]
          congr 1
          rw [hzm]
          field_simp
        rw [this, abs_div, abs_of_pos hq0, div_lt_iff₀ hq0, abs_lt]
        constructor <;> linarith)
    rw [this, hzm]

/-- A coordinate whose square does not underflow. -/
def Regular (F : Fmt) (c : ℝ) : Prop := F.IsFloat c ∧ (F.tiny ≤ c ^ 2 ∨ c = 0)

theorem sum_ge (v : V3 ℝ) : F.rnd (v.x ^ 2) ≤ F.rnd (F.rnd (F.rnd (v.x ^ 2) + F.rnd (v.y ^ 2)) + F.rnd (v.z ^ 2)) ∧
    F.rnd (v.y ^ 2) ≤ F.rnd (F.rnd (F.rnd (v.x ^ 2) + F.rnd (v.y ^ 2)) + F.rnd (v.z ^ 2)) ∧
    F.rnd (v.z ^ 2) ≤ F.rnd (F.rnd (F.rnd (v.x ^ 2) + F.rnd (v.y ^ 2)) + F.rnd (v.z ^ 2)) := by
  have hx := Fmt.rnd_nonneg (F := F) (sq_nonneg v.x)
  have hy := Fmt.rnd_nonneg (F := F) (sq_nonneg v.y)
  have hz := Fmt.rnd_nonneg (F := F) (sq_nonneg v.z)
  have h1 : F.rnd (v.x ^ 2) ≤ F.rnd (F.rnd (v.x ^ 2) + F.rnd (v.y ^ 2)) := Fmt.le_rnd (Fmt.rnd_isFloat _) (by linarith)
  have h2 : F.rnd (v.y ^ 2) ≤ F.rnd (F.rnd (v.x ^ 2) + F.rnd (v.y ^ 2)) := Fmt.le_rnd (Fmt.rnd_isFloat _) (by linarith)
  exact ⟨Fmt.le_rnd (Fmt.rnd_isFloat _) (by linarith), Fmt.le_rnd (Fmt.rnd_isFloat _) (by linarith),
    Fmt.le_rnd (Fmt.rnd_isFloat _) (by linarith)⟩

theorem ge_coord {c S : ℝ} (h : Regular F c) (hS : F.rnd (c ^ 2) ≤ S) : |c| ≤ F.rnd (Real.sqrt S) := by
  rw [← sqrt_sq h.1 h.2]
  exact Fmt.rnd_mono (Real.sqrt_le_sqrt hS)

/-- C113. The distance is never below a coordinate, rounding errors or not, and it is exact along the axes. -/
theorem C113_coordinates (F : Fmt) (v : V3 ℝ) (hx : Regular F v.x) (hy : Regular F v.y) (hz : Regular F v.z) :
    |v.x| ≤ distanceF F v ∧ |v.y| ≤ distanceF F v ∧ |v.z| ≤ distanceF F v ∧
    (v.y = 0 → v.z = 0 → distanceF F v = |v.x|) ∧ (v.x = 0 → v.z = 0 → distanceF F v = |v.y|) ∧
    (v.x = 0 → v.y = 0 → distanceF F v = |v.z|) := by
  obtain ⟨h1, h2, h3⟩ := sum_ge (F := F) v
  refine ⟨ge_coord hx h1, ge_coord hy h2, ge_coord hz h3, fun a b => ?_, fun a b => ?_, fun a b => ?_⟩
  · rw [← sqrt_sq hx.1 hx.2]
    simp [distanceF, a, b, Fmt.rnd_zero, Fmt.rnd_idem]
  · rw [← sqrt_sq hy.1 hy.2]
    simp [distanceF, a, b, Fmt.rnd_zero, Fmt.rnd_idem]
  · rw [← sqrt_sq hz.1 hz.2]
    simp [distanceF, a, b, Fmt.rnd_zero, Fmt.rnd_idem]

theorem rel {x : ℝ} (h0 : 0 ≤ x) (h : F.tiny ≤ x ∨ x = 0) : (1 - F.u) * x ≤ F.rnd x ∧ F.rnd x ≤ (1 + F.u) * x := by
  rcases h with h | h
  · have := Fmt.rnd_err (F := F) (x := x) (by rwa [abs_of_nonneg h0])
    rw [abs_of_nonneg h0, abs_le] at this
    constructor <;> linarith [this.1, this.2]
  · simp [h, Fmt.rnd_zero]

theorem tiny_rnd {x : ℝ} (h : F.tiny ≤ x ∨ x = 0) : F.tiny ≤ F.rnd x ∨ F.rnd x = 0 := by
  rcases h with h | h
  · refine .inl (Fmt.le_rnd ⟨1, F.emin + F.p - 1, ?_, ?_, ?_⟩ h)
    · rw [abs_one]
      exact one_le_pow₀ (by norm_num)
    · have := F.hp
      omega
    · simp [Fmt.tiny]
  · exact .inr (by rw [h, Fmt.rnd_zero])

theorem tiny_pos : 0 < F.tiny := Fmt.two_zpow_pos _

theorem tiny_add {x y : ℝ} (hx : F.tiny ≤ x ∨ x = 0) (hy : F.tiny ≤ y ∨ y = 0) : F.tiny ≤ x + y ∨ x + y = 0 := by
  have := tiny_pos (F := F)
  rcases hx with hx | hx <;> rcases hy with hy | hy
  · left; linarith
  · left; rw [hy, add_zero]; exact hx
  · left; rw [hx, zero_add]; exact hy
  · right; rw [hx, hy, add_zero]

/-- C113. The relative error of distances is at most three roundings. -/
theorem C113_accuracy (F : Fmt) (v : V3 ℝ) (hx : Regular F v.x) (hy : Regular F v.y) (hz : Regular F v.z) :
    (1 - F.u) ^ 3 * Real.sqrt (v.x ^ 2 + v.y ^ 2 + v.z ^ 2) ≤ distanceF F v ∧
    distanceF F v ≤ (1 + F.u) ^ 3 * Real.sqrt (v.x ^ 2 + v.y ^ 2 + v.z ^ 2) := by
  have hu0 := Fmt.u_pos (F := F)
  have hu1 := Fmt.u_le (F := F)
  have sq0 : ∀ {c : ℝ}, Regular F c → F.tiny ≤ c ^ 2 ∨ c ^ 2 = 0 := fun h => h.2.imp_right fun h => by rw [h]; norm_num
  have ax := rel (sq_nonneg v.x) (sq0 hx)
  have ay := rel (sq_nonneg v.y) (sq0 hy)
  have az := rel (sq_nonneg v.z) (sq0 hz)
  have tx := tiny_rnd (sq0 hx)
  have ty := tiny_rnd (sq0 hy)
  have tz := tiny_rnd (sq0 hz)
  have nx := Fmt.rnd_nonneg (F := F) (sq_nonneg v.x)
  have ny := Fmt.rnd_nonneg (F := F) (sq_nonneg v.y)
  have nz := Fmt.rnd_nonneg (F := F) (sq_nonneg v.z)
  set X := F.rnd (v.x ^ 2)
  set Y := F.rnd (v.y ^ 2)
  set Z := F.rnd (v.z ^ 2)
  have txy := tiny_add tx ty
  have axy := rel (add_nonneg nx ny) txy
  have nxy := Fmt.rnd_nonneg (F := F) (add_nonneg nx ny)
  have txy' := tiny_rnd txy
  set A := F.rnd (X + Y)
  have ts := tiny_add txy' tz
  have as := rel (add_nonneg nxy nz) ts
  have ns := Fmt.rnd_nonneg (F := F) (add_nonneg nxy nz)
  have ts' := tiny_rnd ts
  set S := F.rnd (A + Z) with hS
  set N2 := v.x ^ 2 + v.y ^ 2 + v.z ^ 2 with hN2
  have hN0 : 0 ≤ N2 := by positivity
  have hm : 0 < 1 - F.u := by linarith
  have lo : (1 - F.u) ^ 3 * N2 ≤ S := by
    have h1 : (1 - F.u) ^ 2 * (v.x ^ 2 + v.y ^ 2) ≤ A := by
      have h := mul_le_mul_of_nonneg_left (add_le_add ax.1 ay.1) hm.le
      have e : (1 - F.u) * ((1 - F.u) * v.x ^ 2 + (1 - F.u) * v.y ^ 2) = (1 - F.u) ^ 2 * (v.x ^ 2 + v.y ^ 2) := by ring
      rw [e] at h
      exact h.trans axy.1
    have h2 : (1 - F.u) ^ 2 * v.z ^ 2 ≤ Z := by
      have : (1 - F.u) ^ 2 ≤ 1 - F.u := pow_le_of_le_one hm.le (by linarith) (by norm_num)
      have := mul_le_mul_of_nonneg_right this (sq_nonneg v.z)
      linarith [az.1]
    have := mul_le_mul_of_nonneg_left (add_le_add h1 h2) hm.le
    have e : (1 - F.u) * ((1 - F.u) ^ 2 * (v.x ^ 2 + v.y ^ 2) + (1 - F.u) ^ 2 * v.z ^ 2) = (1 - F.u) ^ 3 * N2 := by rw [hN2]; ring
    rw [e] at this
    exact this.trans as.1
  have up : S ≤ (1 + F.u) ^ 3 * N2 := by
    have h1 : A ≤ (1 + F.u) ^ 2 * (v.x ^ 2 + v.y ^ 2) := by
      have h := mul_le_mul_of_nonneg_left (add_le_add ax.2 ay.2) (by linarith : (0 : ℝ) ≤ 1 + F.u)
      have e : (1 + F.u) * ((1 + F.u) * v.x ^ 2 + (1 + F.u) * v.y ^ 2) = (1 + F.u) ^ 2 * (v.x ^ 2 + v.y ^ 2) := by ring
      rw [e] at h
      exact axy.2.trans h
    have h2 : Z ≤ (1 + F.u) ^ 2 * v.z ^ 2 := by
      have : 1 + F.u ≤ (1 + F.u) ^ 2 := le_self_pow₀ (by linarith) (by norm_num)
      have := mul_le_mul_of_nonneg_right this (sq_nonneg v.z)
      linarith [az.2]
    have := mul_le_mul_of_nonneg_left (add_le_add h1 h2) (by linarith : (0 : ℝ) ≤ 1 + F.u)
    have e : (1 + F.u) * ((1 + F.u) ^ 2 * (v.x ^ 2 + v.y ^ 2) + (1 + F.u) ^ 2 * v.z ^ 2) = (1 + F.u) ^ 3 * N2 := by rw [hN2]; ring
    rw [e] at this
    exact as.2.trans this
  have trt : F.tiny ≤ Real.sqrt S ∨ Real.sqrt S = 0 := by
    rcases ts' with h | h
    · left
      refine Real.le_sqrt_of_sq_le (le_trans ?_ h)
      have : F.tiny ≤ 1 := zpow_le_one_of_nonpos₀ (by norm_num) (by have := F.he; omega)
      exact pow_le_of_le_one tiny_pos.le this (by norm_num)
    · right
      rw [h, Real.sqrt_zero]
  have ar := rel (Real.sqrt_nonneg S) trt
  constructor
  · have h1 : (1 - F.u) ^ 2 * Real.sqrt N2 ≤ Real.sqrt S := by
      refine Real.le_sqrt_of_sq_le (le_trans ?_ lo)
      rw [mul_pow, Real.sq_sqrt hN0]
      refine mul_le_mul_of_nonneg_right ?_ hN0
      rw [← pow_mul]
      exact pow_le_pow_of_le_one hm.le (by linarith) (by norm_num)
    have := mul_le_mul_of_nonneg_left h1 hm.le
    have e : (1 - F.u) * ((1 - F.u) ^ 2 * Real.sqrt N2) = (1 - F.u) ^ 3 * Real.sqrt N2 := by ring
    rw [e] at this
    exact this.trans ar.1
  · have h1 : Real.sqrt S ≤ (1 + F.u) ^ 2 * Real.sqrt N2 := by
      refine Real.sqrt_le_iff.2 ⟨by positivity, up.trans ?_⟩
      rw [mul_pow, Real.sq_sqrt hN0]
      refine mul_le_mul_of_nonneg_right ?_ hN0
      rw [← pow_mul]
      exact pow_le_pow_right₀ (by linarith) (by norm_num)
    have := mul_le_mul_of_nonneg_left h1 (by linarith : (0 : ℝ) ≤ 1 + F.u)
    have e : (1 + F.u) * ((1 + F.u) ^ 2 * Real.sqrt N2) = (1 + F.u) ^ 3 * Real.sqrt N2 := by ring
    rw [e] at this
    exact ar.2.trans this

theorem right64 : binary64.rnd (npPi / 2 / convF binary64 true) = 90 := by
  rw [npPi_eq, conv64, rnd_eq (F := binary64) (k := 6) (n := 90 * 2 ^ 46) (by norm_num [abs_of_pos]) (by norm_num [abs_of_pos])
    (by norm_num [binary64]) (by norm_num [binary64, abs_lt])]
  norm_num [binary64]

/-- C113. In double precision `cartesian_to_sky` gives no `nan` away from the origin, declinations in [-90, 90] and right ascensions in
[0, 360], if `asin` of the C library gives values between -pi / 2 and pi / 2 (rounded). -/
theorem C113_sky (atan2 : ℝ → ℝ → ℝ) (asin : ℝ → ℝ) (ha : ∀ t, |t| ≤ 1 → |asin t| ≤ npPi / 2) (v : V3 ℝ) (hx : Regular binary64 v.x)
    (hy : Regular binary64 v.y) (hz : Regular binary64 v.z) (h0 : v ≠ ⟨0, 0, 0⟩) :
    0 < (cartesianToSkyF binary64 atan2 asin v).dist ∧
    (0 ≤ (cartesianToSkyF binary64 atan2 asin v).ra ∧ (cartesianToSkyF binary64 atan2 asin v).ra ≤ 360) ∧
    ∃ dec, (cartesianToSkyF binary64 atan2 asin v).dec = some dec ∧ -90 ≤ dec ∧ dec ≤ 90 := by
  obtain ⟨dx, dy, dz, -⟩ := C113_coordinates binary64 v hx hy hz
  have hd : 0 < distanceF binary64 v := by
    by_contra h
    push Not at h
    have e1 := abs_nonpos_iff.1 (dx.trans h)
    have e2 := abs_nonpos_iff.1 (dy.trans h)
    have e3 := abs_nonpos_iff.1 (dz.trans h)
    apply h0
    cases v
    simp only at e1 e2 e3
    rw [e1, e2, e3]
  have hκ : 0 < convF binary64 true := by rw [conv64]; norm_num
  have hT : 0 < twoPi binary64 := by rw [twoPi64]; norm_num
  refine ⟨hd, ?_, ?_⟩
  · have h := wrap_range binary64 false hT (by norm_num [convF]) (atan2 v.y v.x)
    have e : convF binary64 false = 1 := rfl
    rw [e, div_one, Fmt.rnd_exact twoPi_float] at h
    refine ⟨Fmt.rnd_nonneg (div_nonneg h.1 hκ.le), ?_⟩
    have := Fmt.rnd_mono (F := binary64) ((div_le_div_iff_of_pos_right hκ).2 h.2)
    rwa [turn64] at this
  · have hq : |binary64.rnd (v.z / distanceF binary64 v)| ≤ 1 := by
      have h1 : |v.z / distanceF binary64 v| ≤ 1 := by
        rw [abs_div, abs_of_pos hd, div_le_one hd]
        exact dz
      rw [abs_le] at h1 ⊢
      exact ⟨Fmt.le_rnd (Fmt.isFloat_neg one_float) h1.1, Fmt.rnd_le one_float h1.2⟩
    refine ⟨_, by simp only [cartesianToSkyF]; rw [if_neg hd.ne', if_pos hq], ?_⟩
    have hs := abs_le.1 (ha _ hq)
    have h1 := Fmt.rnd_mono (F := binary64) ((div_le_div_iff_of_pos_right hκ).2 hs.1)
    have h2 := Fmt.rnd_mono (F := binary64) ((div_le_div_iff_of_pos_right hκ).2 hs.2)
    rw [neg_div, Fmt.rnd_neg, right64] at h1
    rw [right64] at h2
    exact ⟨h1, h2⟩

/-- C113 is violated with underflow: at a distance of 2 ^ -600 the distance is zero and the declination `nan`, although the position is
not the origin. -/
theorem C113_underflow_violated (atan2 : ℝ → ℝ → ℝ) (asin : ℝ → ℝ) : ∃ z : ℝ, binary64.IsFloat z ∧ z ≠ 0 ∧
    (cartesianToSkyF binary64 atan2 asin ⟨0, 0, z⟩).dist = 0 ∧ (cartesianToSkyF binary64 atan2 asin ⟨0, 0, z⟩).dec = none := by
  have hr : binary64.rnd ((2 ^ (-600 : ℤ) : ℝ) ^ 2) = 0 := by
    have e : ((2 : ℝ) ^ (-600 : ℤ)) ^ 2 = 2 ^ (-1200 : ℤ) := by
      rw [← zpow_natCast, ← zpow_mul]
      norm_num
    have hl : Int.log 2 ((2 : ℝ) ^ (-1200 : ℤ)) = -1200 := by
      have := Int.log_zpow (R := ℝ) (b := 2) (by norm_num) (-1200)
      exact_mod_cast this
    have he : binary64.expo ((2 : ℝ) ^ (-1200 : ℤ)) = -1074 := by
      unfold Fmt.expo
      rw [abs_of_pos (Fmt.two_zpow_pos _), hl]
      norm_num [binary64]
    rw [e]
    unfold Fmt.rnd
    rw [he, ← zpow_sub₀ (by norm_num)]
    have h1 : (2 : ℝ) ^ ((-1200 : ℤ) - -1074) ≤ 1 / 4 := by
      have : (2 : ℝ) ^ ((-1200 : ℤ) - -1074) ≤ 2 ^ (-2 : ℤ) := zpow_le_zpow_right₀ (by norm_num) (by norm_num)
      refine this.trans (by norm_num)
    have h0 := Fmt.two_zpow_pos ((-1200 : ℤ) - -1074)
    have hf : ⌊(2 : ℝ) ^ ((-1200 : ℤ) - -1074)⌋ = 0 := by
      rw [Int.floor_eq_iff]
      rw [Int.cast_zero, zero_add]
      exact ⟨h0.le, h1.trans_lt (by norm_num)⟩
    have hfr : Int.fract ((2 : ℝ) ^ ((-1200 : ℤ) - -1074)) < 1 / 2 := by
      unfold Int.fract
      rw [hf, Int.cast_zero, sub_zero]
      exact h1.trans_lt (by norm_num)
    unfold rne
    rw [if_pos hfr, hf]
    simp
  have hd : distanceF binary64 ⟨0, 0, 2 ^ (-600 : ℤ)⟩ = 0 := by
    unfold distanceF
    simp only [hr]
    simp [Fmt.rnd_zero]
  refine ⟨2 ^ (-600 : ℤ), ⟨1, -600, by norm_num [binary64], by norm_num [binary64], by norm_num⟩, (Fmt.two_zpow_pos _).ne', hd, ?_⟩
  unfold cartesianToSkyF
  simp only
  rw [if_pos hd]

/-- Non-vacuity: (3, 4, 12) meets the hypotheses. -/
example : Regular binary64 3 ∧ Regular binary64 4 ∧ Regular binary64 12 ∧ Regular binary64 0 := by
  have ht : binary64.tiny ≤ 1 := zpow_le_one_of_nonpos₀ (by norm_num) (by norm_num [binary64])
  refine ⟨⟨⟨3, 0, ?_, ?_, ?_⟩, .inl ?_⟩, ⟨⟨4, 0, ?_, ?_, ?_⟩, .inl ?_⟩, ⟨⟨12, 0, ?_, ?_, ?_⟩, .inl ?_⟩, ⟨⟨0, 0, ?_, ?_, ?_⟩, .inr rfl⟩⟩ <;>
    first | exact ht.trans (by norm_num) | norm_num [binary64]

end Verif.Props.Rounded
