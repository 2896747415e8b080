import Verif.Lemmas.RoundedRemap

/-!
# A remapping evaluated in double precision

Roundings of the computation of the cells for lattice vectors (2, 1, 0), (1, 1, 0), (0, 0, 1), and of the tests of the position
(1/4, 1/8 - 3/2^56, z), one theorem per operation.
-/

namespace Verif.Model.RoundedRemap

open Verif Verif.Model Verif.Model.Remap

theorem expo_pos {x : ℝ} (k : ℤ) (h1 : (2 : ℝ) ^ k ≤ x) (h2 : x < 2 ^ (k + 1)) (hk : -1022 ≤ k) : binary64.expo x = k - 52 := by
  have hx : 0 < x := (Fmt.two_zpow_pos k).trans_le h1
  have hl : Int.log 2 x = k := by
    refine le_antisymm ?_ ?_
    · have : Int.log 2 x < k + 1 := (Int.lt_zpow_iff_log_lt (by norm_num) hx).1 (by exact_mod_cast h2)
      omega
    · exact (Int.zpow_le_iff_le_log (by norm_num) hx).1 (by exact_mod_cast h1)
  unfold Fmt.expo
  rw [abs_of_pos hx, hl, max_eq_left] <;> simp only [binary64] <;> push_cast <;> omega

theorem rne_eq {t : ℝ} {n : ℤ} (h1 : (n : ℝ) - 1 / 2 < t) (h2 : t < n + 1 / 2) : rne t = n := by
  have e := rne_err t
  rw [abs_le] at e
  have a : (rne t : ℝ) < n + 1 := by linarith
  have b : (n : ℝ) - 1 < rne t := by linarith
  have a' : rne t < n + 1 := by exact_mod_cast a
  have b' : n - 1 < rne t := by exact_mod_cast b
  omega

theorem rne_eq_even {t : ℝ} {n : ℤ} (h1 : (n : ℝ) - 1 / 2 ≤ t) (h2 : t ≤ n + 1 / 2) (hn : Even n) : rne t = n := by
  rcases h1.lt_or_eq with h1 | h1
  · rcases h2.lt_or_eq with h2 | h2
    · exact rne_eq h1 h2
    · have hf : ⌊t⌋ = n := by
        rw [Int.floor_eq_iff]
        constructor <;> linarith
      have hr : Int.fract t = 1 / 2 := by
        rw [← Int.self_sub_floor, hf, h2]
        ring
      unfold rne
      rw [hr, hf]
      simp [hn]
  · have hf : ⌊t⌋ = n - 1 := by
      rw [Int.floor_eq_iff]
      push_cast
      constructor <;> linarith
    have hr : Int.fract t = 1 / 2 := by
      rw [← Int.self_sub_floor, hf, ← h1]
      push_cast
      ring
    have ho : ¬ Even (n - 1) := by
      rw [Int.even_sub_one, not_not]
      exact hn
    unfold rne
    rw [hr, hf]
    simp [ho]

theorem fl_pos {x c : ℝ} (k n : ℤ) (h1 : (2 : ℝ) ^ k ≤ x ∧ x < 2 ^ (k + 1)) (hk : -1022 ≤ k) (h2 : ((n : ℝ) - 1 / 2) * 2 ^ (k - 52) < x)
    (h3 : x < (n + 1 / 2) * 2 ^ (k - 52)) (hc : (n : ℝ) * 2 ^ (k - 52) = c) : binary64.rnd x = c := by
  have hp := Fmt.two_zpow_pos (k - 52)
  unfold Fmt.rnd
  rw [expo_pos k h1.1 h1.2 hk, rne_eq (n := n) (by rwa [lt_div_iff₀ hp]) (by rwa [div_lt_iff₀ hp]), hc]

theorem fl_pos_even {x c : ℝ} (k n : ℤ) (h1 : (2 : ℝ) ^ k ≤ x ∧ x < 2 ^ (k + 1)) (hk : -1022 ≤ k)
    (h2 : ((n : ℝ) - 1 / 2) * 2 ^ (k - 52) ≤ x) (h3 : x ≤ (n + 1 / 2) * 2 ^ (k - 52)) (hc : (n : ℝ) * 2 ^ (k - 52) = c) (hn : Even n) :
    binary64.rnd x = c := by
  have hp := Fmt.two_zpow_pos (k - 52)
  unfold Fmt.rnd
  rw [expo_pos k h1.1 h1.2 hk, rne_eq_even (n := n) (by rwa [le_div_iff₀ hp]) (by rwa [div_le_iff₀ hp]) hn, hc]

theorem fl_neg {x c : ℝ} (k n : ℤ) (h1 : (2 : ℝ) ^ k ≤ -x ∧ -x < 2 ^ (k + 1)) (hk : -1022 ≤ k) (h2 : ((n : ℝ) - 1 / 2) * 2 ^ (k - 52) < -x)
    (h3 : -x < (n + 1 / 2) * 2 ^ (k - 52)) (hc : (n : ℝ) * 2 ^ (k - 52) = -c) : binary64.rnd x = c := by
  have := fl_pos k n h1 hk h2 h3 hc
  rw [Fmt.rnd_neg] at this
  exact neg_injective this

theorem fl_neg_even {x c : ℝ} (k n : ℤ) (h1 : (2 : ℝ) ^ k ≤ -x ∧ -x < 2 ^ (k + 1)) (hk : -1022 ≤ k)
    (h2 : ((n : ℝ) - 1 / 2) * 2 ^ (k - 52) ≤ -x) (h3 : -x ≤ (n + 1 / 2) * 2 ^ (k - 52)) (hc : (n : ℝ) * 2 ^ (k - 52) = -c) (hn : Even n) :
    binary64.rnd x = c := by
  have := fl_pos_even k n h1 hk h2 h3 hc hn
  rw [Fmt.rnd_neg] at this
  exact neg_injective this

theorem fl_sqrt {q c : ℝ} (k n : ℤ) (h1 : ((2 : ℝ) ^ k) ^ 2 ≤ q ∧ q < (2 ^ (k + 1)) ^ 2) (hk : -1022 ≤ k) (hn : 1 ≤ n)
    (h2 : (((n : ℝ) - 1 / 2) * 2 ^ (k - 52)) ^ 2 < q) (h3 : q < ((n + 1 / 2) * 2 ^ (k - 52)) ^ 2) (hc : (n : ℝ) * 2 ^ (k - 52) = c) :
    binary64.rnd (Real.sqrt q) = c := by
  have hp := Fmt.two_zpow_pos (k - 52)
  have hn' : (1 : ℝ) ≤ n := by exact_mod_cast hn
  refine fl_pos k n ⟨Real.le_sqrt_of_sq_le h1.1, ?_⟩ hk (Real.lt_sqrt_of_sq_lt h2) ?_ hc
  · exact (Real.sqrt_lt' (Fmt.two_zpow_pos _)).2 h1.2
  · exact (Real.sqrt_lt' (by positivity)).2 h3

theorem gap_1 : binary64.rnd (2 * 2) = 4 :=
  fl_pos (2) 4503599627370496 (by norm_num) (by norm_num) (by norm_num) (by norm_num) (by norm_num)

theorem gap_2 : binary64.rnd (1 * 1) = 1 :=
  fl_pos (0) 4503599627370496 (by norm_num) (by norm_num) (by norm_num) (by norm_num) (by norm_num)

theorem gap_3 : binary64.rnd (4 + 1) = 5 :=
  fl_pos (2) 5629499534213120 (by norm_num) (by norm_num) (by norm_num) (by norm_num) (by norm_num)

theorem gap_4 : binary64.rnd (5) = 5 :=
  fl_pos (2) 5629499534213120 (by norm_num) (by norm_num) (by norm_num) (by norm_num) (by norm_num)

theorem gap_5 : binary64.rnd (1 + 1) = 2 :=
  fl_pos (1) 4503599627370496 (by norm_num) (by norm_num) (by norm_num) (by norm_num) (by norm_num)

theorem gap_6 : binary64.rnd (2) = 2 :=
  fl_pos (1) 4503599627370496 (by norm_num) (by norm_num) (by norm_num) (by norm_num) (by norm_num)

theorem gap_7 : binary64.rnd (2 * 1) = 2 :=
  fl_pos (1) 4503599627370496 (by norm_num) (by norm_num) (by norm_num) (by norm_num) (by norm_num)

theorem gap_8 : binary64.rnd (2 + 1) = 3 :=
  fl_pos (1) 6755399441055744 (by norm_num) (by norm_num) (by norm_num) (by norm_num) (by norm_num)

theorem gap_9 : binary64.rnd (3) = 3 :=
  fl_pos (1) 6755399441055744 (by norm_num) (by norm_num) (by norm_num) (by norm_num) (by norm_num)

theorem gap_10 : binary64.rnd (-3 / 5) = -(5404319552844595 / 2 ^ 53) :=
  fl_neg (-1) 5404319552844595 (by norm_num) (by norm_num) (by norm_num) (by norm_num) (by norm_num)

theorem gap_11 : binary64.rnd (-(5404319552844595 / 2 ^ 53) * 2) = -(5404319552844595 / 2 ^ 52) :=
  fl_neg (0) 5404319552844595 (by norm_num) (by norm_num) (by norm_num) (by norm_num) (by norm_num)

theorem gap_12 : binary64.rnd (-(5404319552844595 / 2 ^ 53) * 1) = -(5404319552844595 / 2 ^ 53) :=
  fl_neg (-1) 5404319552844595 (by norm_num) (by norm_num) (by norm_num) (by norm_num) (by norm_num)

theorem gap_13 : binary64.rnd (1 + -(5404319552844595 / 2 ^ 52)) = -(900719925474099 / 2 ^ 52) :=
  fl_neg (-3) 7205759403792792 (by norm_num) (by norm_num) (by norm_num) (by norm_num) (by norm_num)

theorem gap_14 : binary64.rnd (1 + -(5404319552844595 / 2 ^ 53)) = (3602879701896397 / 2 ^ 53) :=
  fl_pos (-2) 7205759403792794 (by norm_num) (by norm_num) (by norm_num) (by norm_num) (by norm_num)

theorem gap_15 : binary64.rnd (1) = 1 :=
  fl_pos (0) 4503599627370496 (by norm_num) (by norm_num) (by norm_num) (by norm_num) (by norm_num)

theorem gap_16 : binary64.rnd (Real.sqrt (5)) = (629397181890197 / 2 ^ 48) :=
  fl_sqrt (1) 5035177455121576 (by norm_num) (by norm_num) (by norm_num) (by norm_num) (by norm_num) (by norm_num)

theorem gap_17 : binary64.rnd (-(900719925474099 / 2 ^ 52) * -(900719925474099 / 2 ^ 52)) = (720575940379279 / 2 ^ 54) :=
  fl_pos (-5) 5764607523034232 (by norm_num) (by norm_num) (by norm_num) (by norm_num) (by norm_num)

theorem gap_18 : binary64.rnd ((3602879701896397 / 2 ^ 53) * (3602879701896397 / 2 ^ 53)) = (1441151880758559 / 2 ^ 53) :=
  fl_pos (-3) 5764607523034236 (by norm_num) (by norm_num) (by norm_num) (by norm_num) (by norm_num)

theorem gap_19 : binary64.rnd ((720575940379279 / 2 ^ 54) + (1441151880758559 / 2 ^ 53)) = (3602879701896397 / 2 ^ 54) :=
  fl_pos (-3) 7205759403792794 (by norm_num) (by norm_num) (by norm_num) (by norm_num) (by norm_num)

theorem gap_20 : binary64.rnd ((3602879701896397 / 2 ^ 54)) = (3602879701896397 / 2 ^ 54) :=
  fl_pos (-3) 7205759403792794 (by norm_num) (by norm_num) (by norm_num) (by norm_num) (by norm_num)

theorem gap_21 : binary64.rnd (Real.sqrt (3602879701896397 / 2 ^ 54)) = (8056283928194521 / 2 ^ 54) :=
  fl_sqrt (-2) 8056283928194521 (by norm_num) (by norm_num) (by norm_num) (by norm_num) (by norm_num) (by norm_num)

theorem gap_22 : binary64.rnd (Real.sqrt (1)) = 1 :=
  fl_sqrt (0) 4503599627370496 (by norm_num) (by norm_num) (by norm_num) (by norm_num) (by norm_num) (by norm_num)

theorem gap_23 : binary64.rnd (2 / (629397181890197 / 2 ^ 48)) = (8056283928194521 / 2 ^ 53) :=
  fl_pos (-1) 8056283928194521 (by norm_num) (by norm_num) (by norm_num) (by norm_num) (by norm_num)

theorem gap_24 : binary64.rnd (1 / (629397181890197 / 2 ^ 48)) = (8056283928194521 / 2 ^ 54) :=
  fl_pos (-2) 8056283928194521 (by norm_num) (by norm_num) (by norm_num) (by norm_num) (by norm_num)

theorem gap_25 : binary64.rnd (-(900719925474099 / 2 ^ 52) / (8056283928194521 / 2 ^ 54)) = -(1007035491024315 / 2 ^ 51) :=
  fl_neg (-2) 8056283928194520 (by norm_num) (by norm_num) (by norm_num) (by norm_num) (by norm_num)

theorem gap_26 : binary64.rnd ((3602879701896397 / 2 ^ 53) / (8056283928194521 / 2 ^ 54)) = (4028141964097261 / 2 ^ 52) :=
  fl_pos (-1) 8056283928194522 (by norm_num) (by norm_num) (by norm_num) (by norm_num) (by norm_num)

theorem gap_27 : binary64.rnd (1 / 1) = 1 :=
  fl_pos (0) 4503599627370496 (by norm_num) (by norm_num) (by norm_num) (by norm_num) (by norm_num)

theorem gap_28 : binary64.rnd (-(900719925474099 / 2 ^ 52)) = -(900719925474099 / 2 ^ 52) :=
  fl_neg (-3) 7205759403792792 (by norm_num) (by norm_num) (by norm_num) (by norm_num) (by norm_num)

theorem gap_29 : binary64.rnd ((3602879701896397 / 2 ^ 53)) = (3602879701896397 / 2 ^ 53) :=
  fl_pos (-2) 7205759403792794 (by norm_num) (by norm_num) (by norm_num) (by norm_num) (by norm_num)

theorem gap_30 : binary64.rnd (2 + -(900719925474099 / 2 ^ 52)) = (8106479329266893 / 2 ^ 52) :=
  fl_pos (0) 8106479329266893 (by norm_num) (by norm_num) (by norm_num) (by norm_num) (by norm_num)

theorem gap_31 : binary64.rnd (1 + (3602879701896397 / 2 ^ 53)) = (3152519739159347 / 2 ^ 51) :=
  fl_pos_even (0) 6305039478318694 (by norm_num) (by norm_num) (by norm_num) (by norm_num) (by norm_num) (by decide)

theorem gap_32 : binary64.rnd ((8106479329266893 / 2 ^ 52)) = (8106479329266893 / 2 ^ 52) :=
  fl_pos (0) 8106479329266893 (by norm_num) (by norm_num) (by norm_num) (by norm_num) (by norm_num)

theorem gap_33 : binary64.rnd ((3152519739159347 / 2 ^ 51)) = (3152519739159347 / 2 ^ 51) :=
  fl_pos (0) 6305039478318694 (by norm_num) (by norm_num) (by norm_num) (by norm_num) (by norm_num)

theorem gap_34 : binary64.rnd (1 * (8056283928194521 / 2 ^ 53)) = (8056283928194521 / 2 ^ 53) :=
  fl_pos (-1) 8056283928194521 (by norm_num) (by norm_num) (by norm_num) (by norm_num) (by norm_num)

theorem gap_35 : binary64.rnd ((8056283928194521 / 2 ^ 53)) = (8056283928194521 / 2 ^ 53) :=
  fl_pos (-1) 8056283928194521 (by norm_num) (by norm_num) (by norm_num) (by norm_num) (by norm_num)

theorem gap_36 : binary64.rnd ((8056283928194521 / 2 ^ 53) * (1 / 2 ^ 2)) = (8056283928194521 / 2 ^ 55) :=
  fl_pos (-3) 8056283928194521 (by norm_num) (by norm_num) (by norm_num) (by norm_num) (by norm_num)

theorem gap_37 : binary64.rnd ((8056283928194521 / 2 ^ 54) * (9007199254740989 / 2 ^ 56)) = (4028141964097259 / 2 ^ 56) :=
  fl_pos (-5) 8056283928194518 (by norm_num) (by norm_num) (by norm_num) (by norm_num) (by norm_num)

theorem gap_38 : binary64.rnd ((8056283928194521 / 2 ^ 55) + (4028141964097259 / 2 ^ 56)) = (5035177455121575 / 2 ^ 54) :=
  fl_pos (-2) 5035177455121575 (by norm_num) (by norm_num) (by norm_num) (by norm_num) (by norm_num)

theorem gap_39 : binary64.rnd ((5035177455121575 / 2 ^ 54)) = (5035177455121575 / 2 ^ 54) :=
  fl_pos (-2) 5035177455121575 (by norm_num) (by norm_num) (by norm_num) (by norm_num) (by norm_num)

theorem gap_40 : binary64.rnd ((5035177455121575 / 2 ^ 54) + -(8056283928194521 / 2 ^ 53)) = -(2769347600316867 / 2 ^ 52) :=
  fl_neg_even (-1) 5538695200633734 (by norm_num) (by norm_num) (by norm_num) (by norm_num) (by norm_num) (by decide)

theorem gap_41 : binary64.rnd (-(900719925474099 / 2 ^ 52) + 1) = (3602879701896397 / 2 ^ 52) :=
  fl_pos (-1) 7205759403792794 (by norm_num) (by norm_num) (by norm_num) (by norm_num) (by norm_num)

theorem gap_42 : binary64.rnd ((3602879701896397 / 2 ^ 53) + -1) = -(5404319552844595 / 2 ^ 53) :=
  fl_neg (-1) 5404319552844595 (by norm_num) (by norm_num) (by norm_num) (by norm_num) (by norm_num)

theorem gap_43 : binary64.rnd ((3602879701896397 / 2 ^ 52) * (1007035491024315 / 2 ^ 51)) = (201407098204863 / 2 ^ 49) :=
  fl_pos (-2) 6445027142555616 (by norm_num) (by norm_num) (by norm_num) (by norm_num) (by norm_num)

theorem gap_44 : binary64.rnd (-(5404319552844595 / 2 ^ 53) * -(4028141964097261 / 2 ^ 52)) = (4833770356916713 / 2 ^ 53) :=
  fl_pos (-1) 4833770356916713 (by norm_num) (by norm_num) (by norm_num) (by norm_num) (by norm_num)

theorem gap_45 : binary64.rnd ((201407098204863 / 2 ^ 49) + (4833770356916713 / 2 ^ 53)) = (8056283928194521 / 2 ^ 53) :=
  fl_pos (-1) 8056283928194521 (by norm_num) (by norm_num) (by norm_num) (by norm_num) (by norm_num)

theorem gap_46 : binary64.rnd ((1007035491024315 / 2 ^ 51) * (1 / 2 ^ 2)) = (1007035491024315 / 2 ^ 53) :=
  fl_pos (-4) 8056283928194520 (by norm_num) (by norm_num) (by norm_num) (by norm_num) (by norm_num)

theorem gap_47 : binary64.rnd (-(4028141964097261 / 2 ^ 52) * (9007199254740989 / 2 ^ 56)) = -(8056283928194519 / 2 ^ 56) :=
  fl_neg (-4) 8056283928194519 (by norm_num) (by norm_num) (by norm_num) (by norm_num) (by norm_num)

theorem gap_48 : binary64.rnd ((1007035491024315 / 2 ^ 53) + -(8056283928194519 / 2 ^ 56)) = (1 / 2 ^ 56) :=
  fl_pos (-56) 4503599627370496 (by norm_num) (by norm_num) (by norm_num) (by norm_num) (by norm_num)

theorem gap_49 : binary64.rnd ((1 / 2 ^ 56)) = (1 / 2 ^ 56) :=
  fl_pos (-56) 4503599627370496 (by norm_num) (by norm_num) (by norm_num) (by norm_num) (by norm_num)

theorem gap_50 : binary64.rnd ((1 / 2 ^ 56) + -(8056283928194521 / 2 ^ 53)) = -(8056283928194521 / 2 ^ 53) :=
  fl_neg (-1) 8056283928194521 (by norm_num) (by norm_num) (by norm_num) (by norm_num) (by norm_num)

theorem gap_51 : binary64.rnd (-(1007035491024315 / 2 ^ 51) * (1 / 2 ^ 2)) = -(1007035491024315 / 2 ^ 53) :=
  fl_neg (-4) 8056283928194520 (by norm_num) (by norm_num) (by norm_num) (by norm_num) (by norm_num)

theorem gap_52 : binary64.rnd ((4028141964097261 / 2 ^ 52) * (9007199254740989 / 2 ^ 56)) = (8056283928194519 / 2 ^ 56) :=
  fl_pos (-4) 8056283928194519 (by norm_num) (by norm_num) (by norm_num) (by norm_num) (by norm_num)

theorem gap_53 : binary64.rnd (-(1007035491024315 / 2 ^ 53) + (8056283928194519 / 2 ^ 56)) = -(1 / 2 ^ 56) :=
  fl_neg (-56) 4503599627370496 (by norm_num) (by norm_num) (by norm_num) (by norm_num) (by norm_num)

theorem gap_54 : binary64.rnd (-(1 / 2 ^ 56)) = -(1 / 2 ^ 56) :=
  fl_neg (-56) 4503599627370496 (by norm_num) (by norm_num) (by norm_num) (by norm_num) (by norm_num)

theorem gap_55 : binary64.rnd (-(900719925474099 / 2 ^ 52) * (1007035491024315 / 2 ^ 51)) = -(6445027142555615 / 2 ^ 56) :=
  fl_neg (-4) 6445027142555615 (by norm_num) (by norm_num) (by norm_num) (by norm_num) (by norm_num)

theorem gap_56 : binary64.rnd (-(6445027142555615 / 2 ^ 56) + (4833770356916713 / 2 ^ 53)) = (4028141964097261 / 2 ^ 53) :=
  fl_pos (-2) 8056283928194522 (by norm_num) (by norm_num) (by norm_num) (by norm_num) (by norm_num)

theorem gap_57 : binary64.rnd ((4028141964097261 / 2 ^ 53)) = (4028141964097261 / 2 ^ 53) :=
  fl_pos (-2) 8056283928194522 (by norm_num) (by norm_num) (by norm_num) (by norm_num) (by norm_num)

theorem gap_58 : binary64.rnd ((1 / 2 ^ 56) + -(4028141964097261 / 2 ^ 53)) = -(4028141964097261 / 2 ^ 53) :=
  fl_neg (-2) 8056283928194522 (by norm_num) (by norm_num) (by norm_num) (by norm_num) (by norm_num)

theorem gap_59 : binary64.rnd (-1) = -1 :=
  fl_neg (0) 4503599627370496 (by norm_num) (by norm_num) (by norm_num) (by norm_num) (by norm_num)

theorem gap_60 : binary64.rnd (-1 * -(1007035491024315 / 2 ^ 51)) = (1007035491024315 / 2 ^ 51) :=
  fl_pos (-2) 8056283928194520 (by norm_num) (by norm_num) (by norm_num) (by norm_num) (by norm_num)

theorem gap_61 : binary64.rnd ((1007035491024315 / 2 ^ 51)) = (1007035491024315 / 2 ^ 51) :=
  fl_pos (-2) 8056283928194520 (by norm_num) (by norm_num) (by norm_num) (by norm_num) (by norm_num)

theorem gap_62 : binary64.rnd (-(1 / 2 ^ 56) + -(1007035491024315 / 2 ^ 51)) = -(1007035491024315 / 2 ^ 51) :=
  fl_neg (-2) 8056283928194520 (by norm_num) (by norm_num) (by norm_num) (by norm_num) (by norm_num)

theorem gap_63 : binary64.rnd (-(900719925474099 / 2 ^ 52) + -1) = -(5404319552844595 / 2 ^ 52) :=
  fl_neg (0) 5404319552844595 (by norm_num) (by norm_num) (by norm_num) (by norm_num) (by norm_num)

theorem gap_64 : binary64.rnd (-(5404319552844595 / 2 ^ 52) * (1007035491024315 / 2 ^ 51)) = -(604221294614589 / 2 ^ 50) :=
  fl_neg (-1) 4833770356916712 (by norm_num) (by norm_num) (by norm_num) (by norm_num) (by norm_num)

theorem gap_65 : binary64.rnd (-(604221294614589 / 2 ^ 50) + (4833770356916713 / 2 ^ 53)) = (1 / 2 ^ 53) :=
  fl_pos (-53) 4503599627370496 (by norm_num) (by norm_num) (by norm_num) (by norm_num) (by norm_num)

theorem gap_66 : binary64.rnd ((1 / 2 ^ 53)) = (1 / 2 ^ 53) :=
  fl_pos (-53) 4503599627370496 (by norm_num) (by norm_num) (by norm_num) (by norm_num) (by norm_num)

theorem gap_67 : binary64.rnd ((1 / 2 ^ 56) + -(1 / 2 ^ 53)) = -(7 / 2 ^ 56) :=
  fl_neg (-54) 7881299347898368 (by norm_num) (by norm_num) (by norm_num) (by norm_num) (by norm_num)

theorem gap_68 : binary64.rnd ((8056283928194521 / 2 ^ 54) * (1 / 2 ^ 1)) = (8056283928194521 / 2 ^ 55) :=
  fl_pos (-3) 8056283928194521 (by norm_num) (by norm_num) (by norm_num) (by norm_num) (by norm_num)

theorem gap_69 : binary64.rnd ((8056283928194521 / 2 ^ 55) + (8056283928194521 / 2 ^ 55)) = (8056283928194521 / 2 ^ 54) :=
  fl_pos (-2) 8056283928194521 (by norm_num) (by norm_num) (by norm_num) (by norm_num) (by norm_num)

theorem gap_70 : binary64.rnd ((8056283928194521 / 2 ^ 54)) = (8056283928194521 / 2 ^ 54) :=
  fl_pos (-2) 8056283928194521 (by norm_num) (by norm_num) (by norm_num) (by norm_num) (by norm_num)

theorem gap_71 : binary64.rnd (2 * -(8056283928194521 / 2 ^ 53)) = -(8056283928194521 / 2 ^ 52) :=
  fl_neg (0) 8056283928194521 (by norm_num) (by norm_num) (by norm_num) (by norm_num) (by norm_num)

theorem gap_72 : binary64.rnd (1 * -(8056283928194521 / 2 ^ 54)) = -(8056283928194521 / 2 ^ 54) :=
  fl_neg (-2) 8056283928194521 (by norm_num) (by norm_num) (by norm_num) (by norm_num) (by norm_num)

theorem gap_73 : binary64.rnd (-(8056283928194521 / 2 ^ 52) + -(8056283928194521 / 2 ^ 54)) = -(629397181890197 / 2 ^ 48) :=
  fl_neg (1) 5035177455121576 (by norm_num) (by norm_num) (by norm_num) (by norm_num) (by norm_num)

theorem gap_74 : binary64.rnd (-(629397181890197 / 2 ^ 48)) = -(629397181890197 / 2 ^ 48) :=
  fl_neg (1) 5035177455121576 (by norm_num) (by norm_num) (by norm_num) (by norm_num) (by norm_num)

theorem gap_75 : binary64.rnd (-(8056283928194521 / 2 ^ 53) * (1 / 2 ^ 2)) = -(8056283928194521 / 2 ^ 55) :=
  fl_neg (-3) 8056283928194521 (by norm_num) (by norm_num) (by norm_num) (by norm_num) (by norm_num)

theorem gap_76 : binary64.rnd (-(8056283928194521 / 2 ^ 54) * (1 / 2 ^ 1)) = -(8056283928194521 / 2 ^ 55) :=
  fl_neg (-3) 8056283928194521 (by norm_num) (by norm_num) (by norm_num) (by norm_num) (by norm_num)

theorem gap_77 : binary64.rnd (-(8056283928194521 / 2 ^ 55) + -(8056283928194521 / 2 ^ 55)) = -(8056283928194521 / 2 ^ 54) :=
  fl_neg (-2) 8056283928194521 (by norm_num) (by norm_num) (by norm_num) (by norm_num) (by norm_num)

theorem gap_78 : binary64.rnd (-(8056283928194521 / 2 ^ 54)) = -(8056283928194521 / 2 ^ 54) :=
  fl_neg (-2) 8056283928194521 (by norm_num) (by norm_num) (by norm_num) (by norm_num) (by norm_num)

theorem gap_79 : binary64.rnd (-(8056283928194521 / 2 ^ 54) + (629397181890197 / 2 ^ 48)) = (4028141964097261 / 2 ^ 51) :=
  fl_pos (0) 8056283928194522 (by norm_num) (by norm_num) (by norm_num) (by norm_num) (by norm_num)

theorem gap_80 : binary64.rnd ((4028141964097261 / 2 ^ 52) * (1 / 2 ^ 1)) = (4028141964097261 / 2 ^ 53) :=
  fl_pos (-2) 8056283928194522 (by norm_num) (by norm_num) (by norm_num) (by norm_num) (by norm_num)

theorem gap_81 : binary64.rnd (-(1007035491024315 / 2 ^ 53) + (4028141964097261 / 2 ^ 53)) = (1510553236536473 / 2 ^ 52) :=
  fl_pos (-2) 6042212946145892 (by norm_num) (by norm_num) (by norm_num) (by norm_num) (by norm_num)

theorem gap_82 : binary64.rnd ((1510553236536473 / 2 ^ 52)) = (1510553236536473 / 2 ^ 52) :=
  fl_pos (-2) 6042212946145892 (by norm_num) (by norm_num) (by norm_num) (by norm_num) (by norm_num)

theorem gap_83 : binary64.rnd ((3602879701896397 / 2 ^ 53) * -(4028141964097261 / 2 ^ 52)) = -(3222513571277809 / 2 ^ 53) :=
  fl_neg (-2) 6445027142555618 (by norm_num) (by norm_num) (by norm_num) (by norm_num) (by norm_num)

theorem gap_84 : binary64.rnd (-(6445027142555615 / 2 ^ 56) + -(3222513571277809 / 2 ^ 53)) = -(4028141964097261 / 2 ^ 53) :=
  fl_neg (-2) 8056283928194522 (by norm_num) (by norm_num) (by norm_num) (by norm_num) (by norm_num)

theorem gap_85 : binary64.rnd (-(4028141964097261 / 2 ^ 53)) = -(4028141964097261 / 2 ^ 53) :=
  fl_neg (-2) 8056283928194522 (by norm_num) (by norm_num) (by norm_num) (by norm_num) (by norm_num)

theorem gap_86 : binary64.rnd (-(4028141964097261 / 2 ^ 52) * (1 / 2 ^ 1)) = -(4028141964097261 / 2 ^ 53) :=
  fl_neg (-2) 8056283928194522 (by norm_num) (by norm_num) (by norm_num) (by norm_num) (by norm_num)

theorem gap_87 : binary64.rnd ((1007035491024315 / 2 ^ 53) + -(4028141964097261 / 2 ^ 53)) = -(1510553236536473 / 2 ^ 52) :=
  fl_neg (-2) 6042212946145892 (by norm_num) (by norm_num) (by norm_num) (by norm_num) (by norm_num)

theorem gap_88 : binary64.rnd (-(1510553236536473 / 2 ^ 52)) = -(1510553236536473 / 2 ^ 52) :=
  fl_neg (-2) 6042212946145892 (by norm_num) (by norm_num) (by norm_num) (by norm_num) (by norm_num)

theorem gap_89 : binary64.rnd (-(1510553236536473 / 2 ^ 52) + (4028141964097261 / 2 ^ 53)) = (1007035491024315 / 2 ^ 53) :=
  fl_pos (-4) 8056283928194520 (by norm_num) (by norm_num) (by norm_num) (by norm_num) (by norm_num)

theorem gap_90 : binary64.rnd (1 * (1 / 2 ^ 1)) = (1 / 2 ^ 1) :=
  fl_pos (-1) 4503599627370496 (by norm_num) (by norm_num) (by norm_num) (by norm_num) (by norm_num)

theorem gap_91 : binary64.rnd ((1 / 2 ^ 1)) = (1 / 2 ^ 1) :=
  fl_pos (-1) 4503599627370496 (by norm_num) (by norm_num) (by norm_num) (by norm_num) (by norm_num)

theorem gap_92 : binary64.rnd (1 * -1) = -1 :=
  fl_neg (0) 4503599627370496 (by norm_num) (by norm_num) (by norm_num) (by norm_num) (by norm_num)

theorem gap_93 : binary64.rnd (-1 * (1 / 2 ^ 1)) = -(1 / 2 ^ 1) :=
  fl_neg (-1) 4503599627370496 (by norm_num) (by norm_num) (by norm_num) (by norm_num) (by norm_num)

theorem gap_94 : binary64.rnd (-(1 / 2 ^ 1)) = -(1 / 2 ^ 1) :=
  fl_neg (-1) 4503599627370496 (by norm_num) (by norm_num) (by norm_num) (by norm_num) (by norm_num)

theorem gap_95 : binary64.rnd (-(1 / 2 ^ 1) + 1) = (1 / 2 ^ 1) :=
  fl_pos (-1) 4503599627370496 (by norm_num) (by norm_num) (by norm_num) (by norm_num) (by norm_num)

/-- Evaluation of arithmetic with the roundings above. -/
macro "gap" : tactic => `(tactic| simp only [dotF, normF, addF, smulF, unitF, V3.zero_x, V3.zero_y, V3.zero_z, V3.neg_x, V3.neg_y, V3.neg_z, mul_zero, zero_mul, add_zero, zero_add, zero_div, neg_zero, neg_neg, Fmt.rnd_zero, gap_1, gap_2, gap_3, gap_4, gap_5, gap_6, gap_7, gap_8, gap_9, gap_10, gap_11, gap_12, gap_13, gap_14, gap_15, gap_16, gap_17, gap_18, gap_19, gap_20, gap_21, gap_22, gap_23, gap_24, gap_25, gap_26, gap_27, gap_28, gap_29, gap_30, gap_31, gap_32, gap_33, gap_34, gap_35, gap_36, gap_37, gap_38, gap_39, gap_40, gap_41, gap_42, gap_43, gap_44, gap_45, gap_46, gap_47, gap_48, gap_49, gap_50, gap_51, gap_52, gap_53, gap_54, gap_55, gap_56, gap_57, gap_58, gap_59, gap_60, gap_61, gap_62, gap_63, gap_64, gap_65, gap_66, gap_67, gap_68, gap_69, gap_70, gap_71, gap_72, gap_73, gap_74, gap_75, gap_76, gap_77, gap_78, gap_79, gap_80, gap_81, gap_82, gap_83, gap_84, gap_85, gap_86, gap_87, gap_88, gap_89, gap_90, gap_91, gap_92, gap_93, gap_94, gap_95])

theorem gap_alpha : alphaF binary64 ⟨2, 1, 0⟩ ⟨1, 1, 0⟩ = -(5404319552844595 / 2 ^ 53) := by
  unfold alphaF
  gap

theorem gap_gamma : gammaF binary64 ⟨2, 1, 0⟩ ⟨1, 1, 0⟩ ⟨0, 0, 1⟩ = 0 := by
  unfold gammaF
  gap

theorem gap_beta : betaF binary64 ⟨2, 1, 0⟩ ⟨1, 1, 0⟩ ⟨0, 0, 1⟩ = 0 := by
  unfold betaF
  rw [gap_gamma]
  gap

theorem gap_orthogonalize : orthogonalizeF binary64 ⟨2, 1, 0⟩ ⟨1, 1, 0⟩ ⟨0, 0, 1⟩ = (⟨2, 1, 0⟩, ⟨-(900719925474099 / 2 ^ 52), (3602879701896397 / 2 ^ 53), 0⟩, ⟨0, 0, 1⟩) := by
  unfold orthogonalizeF
  rw [gap_alpha, gap_gamma, gap_beta]
  gap

theorem gap_unit1 : unitF binary64 ⟨2, 1, 0⟩ = ⟨(8056283928194521 / 2 ^ 53), (8056283928194521 / 2 ^ 54), 0⟩ := by
  gap

theorem gap_unit2 : unitF binary64 ⟨-(900719925474099 / 2 ^ 52), (3602879701896397 / 2 ^ 53), 0⟩ = ⟨-(1007035491024315 / 2 ^ 51), (4028141964097261 / 2 ^ 52), 0⟩ := by
  gap

theorem gap_unit3 : unitF binary64 ⟨0, 0, 1⟩ = ⟨0, 0, 1⟩ := by
  gap

theorem gap_vertices : verticesF binary64 ⟨2, 1, 0⟩ ⟨-(900719925474099 / 2 ^ 52), (3602879701896397 / 2 ^ 53), 0⟩ ⟨0, 0, 1⟩ =
    [0, ⟨0, 0, 1⟩, ⟨-(900719925474099 / 2 ^ 52), (3602879701896397 / 2 ^ 53), 0⟩, ⟨-(900719925474099 / 2 ^ 52), (3602879701896397 / 2 ^ 53), 1⟩, ⟨2, 1, 0⟩, ⟨2, 1, 1⟩, ⟨(8106479329266893 / 2 ^ 52), (3152519739159347 / 2 ^ 51), 0⟩, ⟨(8106479329266893 / 2 ^ 52), (3152519739159347 / 2 ^ 51), 1⟩] := by
  unfold verticesF
  gap

theorem gap_range {x y : ℝ} (a b : ℤ) (ha : ⌊x⌋ = a) (hb : ⌈y⌉ = b) : arange ⌊x⌋ ⌈y⌉ = arange a b := by
  rw [ha, hb]

theorem gap_rangex : tileRangeF binary64 V3.x ⟨2, 1, 0⟩ ⟨-(900719925474099 / 2 ^ 52), (3602879701896397 / 2 ^ 53), 0⟩ ⟨0, 0, 1⟩ = [-1, 0, 1] := by
  unfold tileRangeF
  rw [gap_vertices]
  rw [gap_range (-1) 2 (by norm_num [minOf, min_def, Int.floor_eq_iff]) (by norm_num [maxOf, max_def, Int.ceil_eq_iff])]
  rfl

theorem gap_rangey : tileRangeF binary64 V3.y ⟨2, 1, 0⟩ ⟨-(900719925474099 / 2 ^ 52), (3602879701896397 / 2 ^ 53), 0⟩ ⟨0, 0, 1⟩ = [0, 1] := by
  unfold tileRangeF
  rw [gap_vertices]
  rw [gap_range (0) 2 (by norm_num [minOf, min_def, Int.floor_eq_iff]) (by norm_num [maxOf, max_def, Int.ceil_eq_iff])]
  rfl

theorem gap_rangez : tileRangeF binary64 V3.z ⟨2, 1, 0⟩ ⟨-(900719925474099 / 2 ^ 52), (3602879701896397 / 2 ^ 53), 0⟩ ⟨0, 0, 1⟩ = [0] := by
  unfold tileRangeF
  rw [gap_vertices]
  rw [gap_range (0) 1 (by norm_num [minOf, min_def, Int.floor_eq_iff]) (by norm_num [maxOf, max_def, Int.ceil_eq_iff])]
  rfl

theorem gap_tiles (i : V3 ℤ) (hi : i ∈ tilesF binary64 ⟨2, 1, 0⟩ ⟨-(900719925474099 / 2 ^ 52), (3602879701896397 / 2 ^ 53), 0⟩ ⟨0, 0, 1⟩) :
    i = ⟨-1, 0, 0⟩ ∨ i = ⟨-1, 1, 0⟩ ∨ i = ⟨0, 0, 0⟩ ∨ i = ⟨0, 1, 0⟩ ∨ i = ⟨1, 0, 0⟩ ∨ i = ⟨1, 1, 0⟩ := by
  unfold tilesF at hi
  rw [gap_rangex, gap_rangey, gap_rangez] at hi
  simpa using hi

theorem gap_tile : (⟨0, 0, 0⟩ : V3 ℤ) ∈ tilesF binary64 ⟨2, 1, 0⟩ ⟨-(900719925474099 / 2 ^ 52), (3602879701896397 / 2 ^ 53), 0⟩ ⟨0, 0, 1⟩ := by
  unfold tilesF
  rw [gap_rangex, gap_rangey, gap_rangez]
  simp

theorem gap_shift (a b : ℤ) : -toReal ⟨a, b, 0⟩ = ⟨-(a : ℝ), -(b : ℝ), 0⟩ := by
  ext
  · rfl
  · rfl
  · simp [toReal]

theorem gap_test0 (z : ℝ) : testF binary64 (planeF binary64 (addF binary64 0 ⟨1, 0, 0⟩) ⟨(8056283928194521 / 2 ^ 53), (8056283928194521 / 2 ^ 54), 0⟩) ⟨(1 / 2 ^ 2), (9007199254740989 / 2 ^ 56), z⟩ < 0 := by
  have : testF binary64 (planeF binary64 (addF binary64 0 ⟨1, 0, 0⟩) ⟨(8056283928194521 / 2 ^ 53), (8056283928194521 / 2 ^ 54), 0⟩) ⟨(1 / 2 ^ 2), (9007199254740989 / 2 ^ 56), z⟩ = -(2769347600316867 / 2 ^ 52) := by
    unfold testF planeF
    gap
  rw [this]
  norm_num

theorem gap_test1 (z : ℝ) : testF binary64 (planeF binary64 (addF binary64 (addF binary64 0 ⟨-(900719925474099 / 2 ^ 52), (3602879701896397 / 2 ^ 53), 0⟩) ⟨1, -1, 0⟩) (-⟨-(1007035491024315 / 2 ^ 51), (4028141964097261 / 2 ^ 52), 0⟩)) ⟨(1 / 2 ^ 2), (9007199254740989 / 2 ^ 56), z⟩ < 0 := by
  have : testF binary64 (planeF binary64 (addF binary64 (addF binary64 0 ⟨-(900719925474099 / 2 ^ 52), (3602879701896397 / 2 ^ 53), 0⟩) ⟨1, -1, 0⟩) (-⟨-(1007035491024315 / 2 ^ 51), (4028141964097261 / 2 ^ 52), 0⟩)) ⟨(1 / 2 ^ 2), (9007199254740989 / 2 ^ 56), z⟩ = -(8056283928194521 / 2 ^ 53) := by
    unfold testF planeF
    gap
  rw [this]
  norm_num

theorem gap_test2 (z : ℝ) : testF binary64 (planeF binary64 (addF binary64 0 ⟨0, 0, 0⟩) ⟨-(1007035491024315 / 2 ^ 51), (4028141964097261 / 2 ^ 52), 0⟩) ⟨(1 / 2 ^ 2), (9007199254740989 / 2 ^ 56), z⟩ < 0 := by
  have : testF binary64 (planeF binary64 (addF binary64 0 ⟨0, 0, 0⟩) ⟨-(1007035491024315 / 2 ^ 51), (4028141964097261 / 2 ^ 52), 0⟩) ⟨(1 / 2 ^ 2), (9007199254740989 / 2 ^ 56), z⟩ = -(1 / 2 ^ 56) := by
    unfold testF planeF
    gap
  rw [this]
  norm_num

theorem gap_test3 (z : ℝ) : testF binary64 (planeF binary64 (addF binary64 (addF binary64 0 ⟨-(900719925474099 / 2 ^ 52), (3602879701896397 / 2 ^ 53), 0⟩) ⟨0, -1, 0⟩) (-⟨-(1007035491024315 / 2 ^ 51), (4028141964097261 / 2 ^ 52), 0⟩)) ⟨(1 / 2 ^ 2), (9007199254740989 / 2 ^ 56), z⟩ < 0 := by
  have : testF binary64 (planeF binary64 (addF binary64 (addF binary64 0 ⟨-(900719925474099 / 2 ^ 52), (3602879701896397 / 2 ^ 53), 0⟩) ⟨0, -1, 0⟩) (-⟨-(1007035491024315 / 2 ^ 51), (4028141964097261 / 2 ^ 52), 0⟩)) ⟨(1 / 2 ^ 2), (9007199254740989 / 2 ^ 56), z⟩ = -(4028141964097261 / 2 ^ 53) := by
    unfold testF planeF
    gap
  rw [this]
  norm_num

theorem gap_test4 (z : ℝ) : testF binary64 (planeF binary64 (addF binary64 0 ⟨-1, 0, 0⟩) ⟨-(1007035491024315 / 2 ^ 51), (4028141964097261 / 2 ^ 52), 0⟩) ⟨(1 / 2 ^ 2), (9007199254740989 / 2 ^ 56), z⟩ < 0 := by
  have : testF binary64 (planeF binary64 (addF binary64 0 ⟨-1, 0, 0⟩) ⟨-(1007035491024315 / 2 ^ 51), (4028141964097261 / 2 ^ 52), 0⟩) ⟨(1 / 2 ^ 2), (9007199254740989 / 2 ^ 56), z⟩ = -(1007035491024315 / 2 ^ 51) := by
    unfold testF planeF
    gap
  rw [this]
  norm_num

theorem gap_test5 (z : ℝ) : testF binary64 (planeF binary64 (addF binary64 (addF binary64 0 ⟨-(900719925474099 / 2 ^ 52), (3602879701896397 / 2 ^ 53), 0⟩) ⟨-1, -1, 0⟩) (-⟨-(1007035491024315 / 2 ^ 51), (4028141964097261 / 2 ^ 52), 0⟩)) ⟨(1 / 2 ^ 2), (9007199254740989 / 2 ^ 56), z⟩ < 0 := by
  have : testF binary64 (planeF binary64 (addF binary64 (addF binary64 0 ⟨-(900719925474099 / 2 ^ 52), (3602879701896397 / 2 ^ 53), 0⟩) ⟨-1, -1, 0⟩) (-⟨-(1007035491024315 / 2 ^ 51), (4028141964097261 / 2 ^ 52), 0⟩)) ⟨(1 / 2 ^ 2), (9007199254740989 / 2 ^ 56), z⟩ = -(7 / 2 ^ 56) := by
    unfold testF planeF
    gap
  rw [this]
  norm_num

theorem gap_inside0 : 0 < testF binary64 (planeF binary64 (addF binary64 0 ⟨0, 0, 0⟩) ⟨(8056283928194521 / 2 ^ 53), (8056283928194521 / 2 ^ 54), 0⟩) ⟨(1 / 2 ^ 2), (1 / 2 ^ 1), (1 / 2 ^ 1)⟩ := by
  have : testF binary64 (planeF binary64 (addF binary64 0 ⟨0, 0, 0⟩) ⟨(8056283928194521 / 2 ^ 53), (8056283928194521 / 2 ^ 54), 0⟩) ⟨(1 / 2 ^ 2), (1 / 2 ^ 1), (1 / 2 ^ 1)⟩ = (8056283928194521 / 2 ^ 54) := by
    unfold testF planeF
    gap
  rw [this]
  norm_num

theorem gap_inside1 : 0 < testF binary64 (planeF binary64 (addF binary64 (addF binary64 0 ⟨2, 1, 0⟩) ⟨0, 0, 0⟩) (-⟨(8056283928194521 / 2 ^ 53), (8056283928194521 / 2 ^ 54), 0⟩)) ⟨(1 / 2 ^ 2), (1 / 2 ^ 1), (1 / 2 ^ 1)⟩ := by
  have : testF binary64 (planeF binary64 (addF binary64 (addF binary64 0 ⟨2, 1, 0⟩) ⟨0, 0, 0⟩) (-⟨(8056283928194521 / 2 ^ 53), (8056283928194521 / 2 ^ 54), 0⟩)) ⟨(1 / 2 ^ 2), (1 / 2 ^ 1), (1 / 2 ^ 1)⟩ = (4028141964097261 / 2 ^ 51) := by
    unfold testF planeF
    gap
  rw [this]
  norm_num

theorem gap_inside2 : 0 < testF binary64 (planeF binary64 (addF binary64 0 ⟨0, 0, 0⟩) ⟨-(1007035491024315 / 2 ^ 51), (4028141964097261 / 2 ^ 52), 0⟩) ⟨(1 / 2 ^ 2), (1 / 2 ^ 1), (1 / 2 ^ 1)⟩ := by
  have : testF binary64 (planeF binary64 (addF binary64 0 ⟨0, 0, 0⟩) ⟨-(1007035491024315 / 2 ^ 51), (4028141964097261 / 2 ^ 52), 0⟩) ⟨(1 / 2 ^ 2), (1 / 2 ^ 1), (1 / 2 ^ 1)⟩ = (1510553236536473 / 2 ^ 52) := by
    unfold testF planeF
    gap
  rw [this]
  norm_num

theorem gap_inside3 : 0 < testF binary64 (planeF binary64 (addF binary64 (addF binary64 0 ⟨-(900719925474099 / 2 ^ 52), (3602879701896397 / 2 ^ 53), 0⟩) ⟨0, 0, 0⟩) (-⟨-(1007035491024315 / 2 ^ 51), (4028141964097261 / 2 ^ 52), 0⟩)) ⟨(1 / 2 ^ 2), (1 / 2 ^ 1), (1 / 2 ^ 1)⟩ := by
  have : testF binary64 (planeF binary64 (addF binary64 (addF binary64 0 ⟨-(900719925474099 / 2 ^ 52), (3602879701896397 / 2 ^ 53), 0⟩) ⟨0, 0, 0⟩) (-⟨-(1007035491024315 / 2 ^ 51), (4028141964097261 / 2 ^ 52), 0⟩)) ⟨(1 / 2 ^ 2), (1 / 2 ^ 1), (1 / 2 ^ 1)⟩ = (1007035491024315 / 2 ^ 53) := by
    unfold testF planeF
    gap
  rw [this]
  norm_num

theorem gap_inside4 : 0 < testF binary64 (planeF binary64 (addF binary64 0 ⟨0, 0, 0⟩) ⟨0, 0, 1⟩) ⟨(1 / 2 ^ 2), (1 / 2 ^ 1), (1 / 2 ^ 1)⟩ := by
  have : testF binary64 (planeF binary64 (addF binary64 0 ⟨0, 0, 0⟩) ⟨0, 0, 1⟩) ⟨(1 / 2 ^ 2), (1 / 2 ^ 1), (1 / 2 ^ 1)⟩ = (1 / 2 ^ 1) := by
    unfold testF planeF
    gap
  rw [this]
  norm_num

theorem gap_inside5 : 0 < testF binary64 (planeF binary64 (addF binary64 (addF binary64 0 ⟨0, 0, 1⟩) ⟨0, 0, 0⟩) (-⟨0, 0, 1⟩)) ⟨(1 / 2 ^ 2), (1 / 2 ^ 1), (1 / 2 ^ 1)⟩ := by
  have : testF binary64 (planeF binary64 (addF binary64 (addF binary64 0 ⟨0, 0, 1⟩) ⟨0, 0, 0⟩) (-⟨0, 0, 1⟩)) ⟨(1 / 2 ^ 2), (1 / 2 ^ 1), (1 / 2 ^ 1)⟩ = (1 / 2 ^ 1) := by
    unfold testF planeF
    gap
  rw [this]
  norm_num

end Verif.Model.RoundedRemap
