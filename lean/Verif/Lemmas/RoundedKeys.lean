import Verif.Lemmas.RoundedGap

/-!
# Two sizes of remapped boxes evaluated in double precision

Roundings of the computation of the sizes for lattice vectors (1, 1, 1), (0, 1, 1), (0, 0, 1) and (1, 1, 1), (0, 1, 0), (-1, 1, 0), one
theorem per operation.
-/

namespace Verif.Model.RoundedRemap

open Verif Verif.Model Verif.Model.Remap

theorem key_1 : binary64.rnd (1 * 1) = 1 :=
  fl_pos (0) 4503599627370496 (by norm_num) (by norm_num) (by norm_num) (by norm_num) (by norm_num)

theorem key_2 : binary64.rnd (1 + 1) = 2 :=
  fl_pos (1) 4503599627370496 (by norm_num) (by norm_num) (by norm_num) (by norm_num) (by norm_num)

theorem key_3 : binary64.rnd (2 + 1) = 3 :=
  fl_pos (1) 6755399441055744 (by norm_num) (by norm_num) (by norm_num) (by norm_num) (by norm_num)

theorem key_4 : binary64.rnd (1) = 1 :=
  fl_pos (0) 4503599627370496 (by norm_num) (by norm_num) (by norm_num) (by norm_num) (by norm_num)

theorem key_5 : binary64.rnd (-2 / 3) = -(6004799503160661 / 2 ^ 53) :=
  fl_neg (-1) 6004799503160661 (by norm_num) (by norm_num) (by norm_num) (by norm_num) (by norm_num)

theorem key_6 : binary64.rnd (-(6004799503160661 / 2 ^ 53) * 1) = -(6004799503160661 / 2 ^ 53) :=
  fl_neg (-1) 6004799503160661 (by norm_num) (by norm_num) (by norm_num) (by norm_num) (by norm_num)

theorem key_7 : binary64.rnd (-(6004799503160661 / 2 ^ 53) + 1) = (3002399751580331 / 2 ^ 53) :=
  fl_pos (-2) 6004799503160662 (by norm_num) (by norm_num) (by norm_num) (by norm_num) (by norm_num)

theorem key_8 : binary64.rnd (-(6004799503160661 / 2 ^ 53) * 2) = -(6004799503160661 / 2 ^ 52) :=
  fl_neg (0) 6004799503160661 (by norm_num) (by norm_num) (by norm_num) (by norm_num) (by norm_num)

theorem key_9 : binary64.rnd (-(6004799503160661 / 2 ^ 52) + 2) = (3002399751580331 / 2 ^ 52) :=
  fl_pos (-1) 6004799503160662 (by norm_num) (by norm_num) (by norm_num) (by norm_num) (by norm_num)

theorem key_10 : binary64.rnd (-(3002399751580331 / 2 ^ 53) / (3002399751580331 / 2 ^ 52)) = -(1 / 2 ^ 1) :=
  fl_neg (-1) 4503599627370496 (by norm_num) (by norm_num) (by norm_num) (by norm_num) (by norm_num)

theorem key_11 : binary64.rnd (-(1 / 2 ^ 1) * 2) = -1 :=
  fl_neg (0) 4503599627370496 (by norm_num) (by norm_num) (by norm_num) (by norm_num) (by norm_num)

theorem key_12 : binary64.rnd (1 + -1) = 0 := by
  rw [show (1 + -1 : ℝ) = 0 by norm_num, Fmt.rnd_zero]

theorem key_13 : binary64.rnd (-(6004799503160661 / 2 ^ 53)) = -(6004799503160661 / 2 ^ 53) :=
  fl_neg (-1) 6004799503160661 (by norm_num) (by norm_num) (by norm_num) (by norm_num) (by norm_num)

theorem key_14 : binary64.rnd (1 + -(6004799503160661 / 2 ^ 53)) = (3002399751580331 / 2 ^ 53) :=
  fl_pos (-2) 6004799503160662 (by norm_num) (by norm_num) (by norm_num) (by norm_num) (by norm_num)

theorem key_15 : binary64.rnd (-(1 / 2 ^ 1) * 1) = -(1 / 2 ^ 1) :=
  fl_neg (-1) 4503599627370496 (by norm_num) (by norm_num) (by norm_num) (by norm_num) (by norm_num)

theorem key_16 : binary64.rnd (-(1 / 2 ^ 1)) = -(1 / 2 ^ 1) :=
  fl_neg (-1) 4503599627370496 (by norm_num) (by norm_num) (by norm_num) (by norm_num) (by norm_num)

theorem key_17 : binary64.rnd (1 + -(1 / 2 ^ 1)) = (1 / 2 ^ 1) :=
  fl_pos (-1) 4503599627370496 (by norm_num) (by norm_num) (by norm_num) (by norm_num) (by norm_num)

theorem key_18 : binary64.rnd (1 * 5500) = 5500 :=
  fl_pos (12) 6047313952768000 (by norm_num) (by norm_num) (by norm_num) (by norm_num) (by norm_num)

theorem key_19 : binary64.rnd (-(6004799503160661 / 2 ^ 53) * 5500) = -(8063085270357333 / 2 ^ 41) :=
  fl_neg (11) 8063085270357333 (by norm_num) (by norm_num) (by norm_num) (by norm_num) (by norm_num)

theorem key_20 : binary64.rnd ((3002399751580331 / 2 ^ 53) * 5500) = (4031542635178667 / 2 ^ 41) :=
  fl_pos (10) 8063085270357334 (by norm_num) (by norm_num) (by norm_num) (by norm_num) (by norm_num)

theorem key_21 : binary64.rnd (-(1 / 2 ^ 1) * 5500) = -2750 :=
  fl_neg (11) 6047313952768000 (by norm_num) (by norm_num) (by norm_num) (by norm_num) (by norm_num)

theorem key_22 : binary64.rnd ((1 / 2 ^ 1) * 5500) = 2750 :=
  fl_pos (11) 6047313952768000 (by norm_num) (by norm_num) (by norm_num) (by norm_num) (by norm_num)

theorem key_23 : binary64.rnd (5500 * 5500) = 30250000 :=
  fl_pos (24) 8120172544000000 (by norm_num) (by norm_num) (by norm_num) (by norm_num) (by norm_num)

theorem key_24 : binary64.rnd (30250000 + 30250000) = 60500000 :=
  fl_pos (25) 8120172544000000 (by norm_num) (by norm_num) (by norm_num) (by norm_num) (by norm_num)

theorem key_25 : binary64.rnd (60500000 + 30250000) = 90750000 :=
  fl_pos (26) 6090129408000000 (by norm_num) (by norm_num) (by norm_num) (by norm_num) (by norm_num)

theorem key_26 : binary64.rnd (Real.sqrt (90750000)) = (5237127507757177 / 2 ^ 39) :=
  fl_sqrt (13) 5237127507757177 (by norm_num) (by norm_num) (by norm_num) (by norm_num) (by norm_num) (by norm_num)

theorem key_27 : binary64.rnd (-(8063085270357333 / 2 ^ 41) * -(8063085270357333 / 2 ^ 41)) = (3608965575111111 / 2 ^ 28) :=
  fl_pos (23) 7217931150222222 (by norm_num) (by norm_num) (by norm_num) (by norm_num) (by norm_num)

theorem key_28 : binary64.rnd ((4031542635178667 / 2 ^ 41) * (4031542635178667 / 2 ^ 41)) = (7217931150222223 / 2 ^ 31) :=
  fl_pos (21) 7217931150222223 (by norm_num) (by norm_num) (by norm_num) (by norm_num) (by norm_num)

theorem key_29 : binary64.rnd ((3608965575111111 / 2 ^ 28) + (7217931150222223 / 2 ^ 31)) = (4511206968888889 / 2 ^ 28) :=
  fl_pos (24) 4511206968888889 (by norm_num) (by norm_num) (by norm_num) (by norm_num) (by norm_num)

theorem key_30 : binary64.rnd ((4511206968888889 / 2 ^ 28) + (7217931150222223 / 2 ^ 31)) = (5413448362666667 / 2 ^ 28) :=
  fl_pos (24) 5413448362666667 (by norm_num) (by norm_num) (by norm_num) (by norm_num) (by norm_num)

theorem key_31 : binary64.rnd (Real.sqrt (5413448362666667 / 2 ^ 28)) = (1234402791557901 / 2 ^ 38) :=
  fl_sqrt (12) 4937611166231604 (by norm_num) (by norm_num) (by norm_num) (by norm_num) (by norm_num) (by norm_num)

theorem key_32 : binary64.rnd (-2750 * -2750) = 7562500 :=
  fl_pos (22) 8120172544000000 (by norm_num) (by norm_num) (by norm_num) (by norm_num) (by norm_num)

theorem key_33 : binary64.rnd (2750 * 2750) = 7562500 :=
  fl_pos (22) 8120172544000000 (by norm_num) (by norm_num) (by norm_num) (by norm_num) (by norm_num)

theorem key_34 : binary64.rnd (7562500) = 7562500 :=
  fl_pos (22) 8120172544000000 (by norm_num) (by norm_num) (by norm_num) (by norm_num) (by norm_num)

theorem key_35 : binary64.rnd (7562500 + 7562500) = 15125000 :=
  fl_pos (23) 8120172544000000 (by norm_num) (by norm_num) (by norm_num) (by norm_num) (by norm_num)

theorem key_36 : binary64.rnd (Real.sqrt (15125000)) = (2138048351983139 / 2 ^ 39) :=
  fl_sqrt (11) 8552193407932556 (by norm_num) (by norm_num) (by norm_num) (by norm_num) (by norm_num) (by norm_num)

theorem key_37 : binary64.rnd (1 * -1) = -1 :=
  fl_neg (0) 4503599627370496 (by norm_num) (by norm_num) (by norm_num) (by norm_num) (by norm_num)

theorem key_38 : binary64.rnd (-1 + 1) = 0 := by
  rw [show (-1 + 1 : ℝ) = 0 by norm_num, Fmt.rnd_zero]

theorem key_39 : binary64.rnd (-1 / 3) = -(6004799503160661 / 2 ^ 54) :=
  fl_neg (-2) 6004799503160661 (by norm_num) (by norm_num) (by norm_num) (by norm_num) (by norm_num)

theorem key_40 : binary64.rnd (-(6004799503160661 / 2 ^ 54) * 1) = -(6004799503160661 / 2 ^ 54) :=
  fl_neg (-2) 6004799503160661 (by norm_num) (by norm_num) (by norm_num) (by norm_num) (by norm_num)

theorem key_41 : binary64.rnd (-(6004799503160661 / 2 ^ 54) + 1) = (3002399751580331 / 2 ^ 52) :=
  fl_pos_even (-1) 6004799503160662 (by norm_num) (by norm_num) (by norm_num) (by norm_num) (by norm_num) (by decide)

theorem key_42 : binary64.rnd (-1 / (3002399751580331 / 2 ^ 52)) = -(6755399441055743 / 2 ^ 52) :=
  fl_neg (0) 6755399441055743 (by norm_num) (by norm_num) (by norm_num) (by norm_num) (by norm_num)

theorem key_43 : binary64.rnd (-(6755399441055743 / 2 ^ 52) * 1) = -(6755399441055743 / 2 ^ 52) :=
  fl_neg (0) 6755399441055743 (by norm_num) (by norm_num) (by norm_num) (by norm_num) (by norm_num)

theorem key_44 : binary64.rnd (-(6755399441055743 / 2 ^ 52)) = -(6755399441055743 / 2 ^ 52) :=
  fl_neg (0) 6755399441055743 (by norm_num) (by norm_num) (by norm_num) (by norm_num) (by norm_num)

theorem key_45 : binary64.rnd ((6755399441055743 / 2 ^ 52) / 3) = (9007199254740991 / 2 ^ 54) :=
  fl_pos (-2) 9007199254740991 (by norm_num) (by norm_num) (by norm_num) (by norm_num) (by norm_num)

theorem key_46 : binary64.rnd (-(6004799503160661 / 2 ^ 54)) = -(6004799503160661 / 2 ^ 54) :=
  fl_neg (-2) 6004799503160661 (by norm_num) (by norm_num) (by norm_num) (by norm_num) (by norm_num)

theorem key_47 : binary64.rnd (1 + -(6004799503160661 / 2 ^ 54)) = (3002399751580331 / 2 ^ 52) :=
  fl_pos_even (-1) 6004799503160662 (by norm_num) (by norm_num) (by norm_num) (by norm_num) (by norm_num) (by decide)

theorem key_48 : binary64.rnd ((9007199254740991 / 2 ^ 54) * 1) = (9007199254740991 / 2 ^ 54) :=
  fl_pos (-2) 9007199254740991 (by norm_num) (by norm_num) (by norm_num) (by norm_num) (by norm_num)

theorem key_49 : binary64.rnd (-1 + (9007199254740991 / 2 ^ 54)) = -(1 / 2 ^ 1) :=
  fl_neg_even (-1) 4503599627370496 (by norm_num) (by norm_num) (by norm_num) (by norm_num) (by norm_num) (by decide)

theorem key_50 : binary64.rnd (1 + (9007199254740991 / 2 ^ 54)) = (3 / 2 ^ 1) :=
  fl_pos (0) 6755399441055744 (by norm_num) (by norm_num) (by norm_num) (by norm_num) (by norm_num)

theorem key_51 : binary64.rnd ((9007199254740991 / 2 ^ 54)) = (9007199254740991 / 2 ^ 54) :=
  fl_pos (-2) 9007199254740991 (by norm_num) (by norm_num) (by norm_num) (by norm_num) (by norm_num)

theorem key_52 : binary64.rnd ((3 / 2 ^ 1) + -(6755399441055743 / 2 ^ 52)) = (1 / 2 ^ 52) :=
  fl_pos (-52) 4503599627370496 (by norm_num) (by norm_num) (by norm_num) (by norm_num) (by norm_num)

theorem key_53 : binary64.rnd (-(6004799503160661 / 2 ^ 54) * 5500) = -(8063085270357333 / 2 ^ 42) :=
  fl_neg (10) 8063085270357333 (by norm_num) (by norm_num) (by norm_num) (by norm_num) (by norm_num)

theorem key_54 : binary64.rnd ((3002399751580331 / 2 ^ 52) * 5500) = (4031542635178667 / 2 ^ 40) :=
  fl_pos (11) 8063085270357334 (by norm_num) (by norm_num) (by norm_num) (by norm_num) (by norm_num)

theorem key_55 : binary64.rnd ((1 / 2 ^ 52) * 5500) = (1375 / 2 ^ 50) :=
  fl_pos (-40) 6047313952768000 (by norm_num) (by norm_num) (by norm_num) (by norm_num) (by norm_num)

theorem key_56 : binary64.rnd ((9007199254740991 / 2 ^ 54) * 5500) = (6047313952767999 / 2 ^ 41) :=
  fl_pos (11) 6047313952767999 (by norm_num) (by norm_num) (by norm_num) (by norm_num) (by norm_num)

theorem key_57 : binary64.rnd (-(8063085270357333 / 2 ^ 42) * -(8063085270357333 / 2 ^ 42)) = (3608965575111111 / 2 ^ 30) :=
  fl_pos (21) 7217931150222222 (by norm_num) (by norm_num) (by norm_num) (by norm_num) (by norm_num)

theorem key_58 : binary64.rnd ((4031542635178667 / 2 ^ 40) * (4031542635178667 / 2 ^ 40)) = (7217931150222223 / 2 ^ 29) :=
  fl_pos (23) 7217931150222223 (by norm_num) (by norm_num) (by norm_num) (by norm_num) (by norm_num)

theorem key_59 : binary64.rnd ((3608965575111111 / 2 ^ 30) + (7217931150222223 / 2 ^ 29)) = (4511206968888889 / 2 ^ 28) :=
  fl_pos (24) 4511206968888889 (by norm_num) (by norm_num) (by norm_num) (by norm_num) (by norm_num)

theorem key_60 : binary64.rnd ((4511206968888889 / 2 ^ 28) + (3608965575111111 / 2 ^ 30)) = (5413448362666667 / 2 ^ 28) :=
  fl_pos (24) 5413448362666667 (by norm_num) (by norm_num) (by norm_num) (by norm_num) (by norm_num)

theorem key_61 : binary64.rnd ((1375 / 2 ^ 50) * (1375 / 2 ^ 50)) = (1890625 / 2 ^ 100) :=
  fl_pos (-80) 8120172544000000 (by norm_num) (by norm_num) (by norm_num) (by norm_num) (by norm_num)

theorem key_62 : binary64.rnd ((6047313952767999 / 2 ^ 41) * (6047313952767999 / 2 ^ 41)) = (8120172543999997 / 2 ^ 30) :=
  fl_pos (22) 8120172543999997 (by norm_num) (by norm_num) (by norm_num) (by norm_num) (by norm_num)

theorem key_63 : binary64.rnd (7562500 + (1890625 / 2 ^ 100)) = 7562500 :=
  fl_pos (22) 8120172544000000 (by norm_num) (by norm_num) (by norm_num) (by norm_num) (by norm_num)

theorem key_64 : binary64.rnd (7562500 + (8120172543999997 / 2 ^ 30)) = (4060086271999999 / 2 ^ 28) :=
  fl_pos_even (23) 8120172543999998 (by norm_num) (by norm_num) (by norm_num) (by norm_num) (by norm_num) (by decide)

theorem key_65 : binary64.rnd (Real.sqrt (4060086271999999 / 2 ^ 28)) = (8552193407932555 / 2 ^ 41) :=
  fl_sqrt (11) 8552193407932555 (by norm_num) (by norm_num) (by norm_num) (by norm_num) (by norm_num) (by norm_num)

/-- Evaluation of arithmetic with the roundings above. -/
macro "keys" : tactic => `(tactic| simp only [dotF, normF, addF, smulF, emulF, V3.const, mul_zero, zero_mul, add_zero, zero_add, zero_div, neg_zero, neg_neg, Fmt.rnd_zero, key_1, key_2, key_3, key_4, key_5, key_6, key_7, key_8, key_9, key_10, key_11, key_12, key_13, key_14, key_15, key_16, key_17, key_18, key_19, key_20, key_21, key_22, key_23, key_24, key_25, key_26, key_27, key_28, key_29, key_30, key_31, key_32, key_33, key_34, key_35, key_36, key_37, key_38, key_39, key_40, key_41, key_42, key_43, key_44, key_45, key_46, key_47, key_48, key_49, key_50, key_51, key_52, key_53, key_54, key_55, key_56, key_57, key_58, key_59, key_60, key_61, key_62, key_63, key_64, key_65])

theorem key0_alpha : alphaF binary64 ⟨1, 1, 1⟩ ⟨0, 1, 1⟩ = -(6004799503160661 / 2 ^ 53) := by
  unfold alphaF
  keys

theorem key0_gamma : gammaF binary64 ⟨1, 1, 1⟩ ⟨0, 1, 1⟩ ⟨0, 0, 1⟩ = -(1 / 2 ^ 1) := by
  unfold gammaF
  rw [key0_alpha]
  keys

theorem key0_beta : betaF binary64 ⟨1, 1, 1⟩ ⟨0, 1, 1⟩ ⟨0, 0, 1⟩ = 0 := by
  unfold betaF
  rw [key0_gamma]
  keys

theorem key0_orthogonalize : orthogonalizeF binary64 ⟨1, 1, 1⟩ ⟨0, 1, 1⟩ ⟨0, 0, 1⟩ = (⟨1, 1, 1⟩, ⟨-(6004799503160661 / 2 ^ 53), (3002399751580331 / 2 ^ 53), (3002399751580331 / 2 ^ 53)⟩, ⟨0, -(1 / 2 ^ 1), (1 / 2 ^ 1)⟩) := by
  unfold orthogonalizeF
  rw [key0_alpha, key0_gamma, key0_beta]
  keys

theorem key0_sizes : sizesOfF binary64 (V3.const 5500) (⟨1, 1, 1⟩, ⟨0, 1, 1⟩, ⟨0, 0, 1⟩) = ⟨(5237127507757177 / 2 ^ 39), (1234402791557901 / 2 ^ 38), (2138048351983139 / 2 ^ 39)⟩ := by
  have h1 : toReal ⟨1, 1, 1⟩ = ⟨1, 1, 1⟩ := by simp [toReal]
  have h2 : toReal ⟨0, 1, 1⟩ = ⟨0, 1, 1⟩ := by simp [toReal]
  have h3 : toReal ⟨0, 0, 1⟩ = ⟨0, 0, 1⟩ := by simp [toReal]
  unfold sizesOfF
  rw [h1, h2, h3, key0_orthogonalize]
  keys

theorem key1_alpha : alphaF binary64 ⟨1, 1, 1⟩ ⟨0, 1, 0⟩ = -(6004799503160661 / 2 ^ 54) := by
  unfold alphaF
  keys

theorem key1_gamma : gammaF binary64 ⟨1, 1, 1⟩ ⟨0, 1, 0⟩ ⟨-1, 1, 0⟩ = -(6755399441055743 / 2 ^ 52) := by
  unfold gammaF
  rw [key1_alpha]
  keys

theorem key1_beta : betaF binary64 ⟨1, 1, 1⟩ ⟨0, 1, 0⟩ ⟨-1, 1, 0⟩ = (9007199254740991 / 2 ^ 54) := by
  unfold betaF
  rw [key1_gamma]
  keys

theorem key1_orthogonalize : orthogonalizeF binary64 ⟨1, 1, 1⟩ ⟨0, 1, 0⟩ ⟨-1, 1, 0⟩ = (⟨1, 1, 1⟩, ⟨-(6004799503160661 / 2 ^ 54), (3002399751580331 / 2 ^ 52), -(6004799503160661 / 2 ^ 54)⟩, ⟨-(1 / 2 ^ 1), (1 / 2 ^ 52), (9007199254740991 / 2 ^ 54)⟩) := by
  unfold orthogonalizeF
  rw [key1_alpha, key1_gamma, key1_beta]
  keys

theorem key1_sizes : sizesOfF binary64 (V3.const 5500) (⟨1, 1, 1⟩, ⟨0, 1, 0⟩, ⟨-1, 1, 0⟩) = ⟨(5237127507757177 / 2 ^ 39), (1234402791557901 / 2 ^ 38), (8552193407932555 / 2 ^ 41)⟩ := by
  have h1 : toReal ⟨1, 1, 1⟩ = ⟨1, 1, 1⟩ := by simp [toReal]
  have h2 : toReal ⟨0, 1, 0⟩ = ⟨0, 1, 0⟩ := by simp [toReal]
  have h3 : toReal ⟨-1, 1, 0⟩ = ⟨-1, 1, 0⟩ := by simp [toReal]
  unfold sizesOfF
  rw [h1, h2, h3, key1_orthogonalize]
  keys

end Verif.Model.RoundedRemap
