import Verif.Basic.Vec
import Mathlib.Analysis.Real.Sqrt

/-!
# Errors and real-number helpers shared by the models
-/

namespace Verif

/-- Outcomes other than a value: the python exception raised, or `nan` when numpy would return not-a-number
(0 / 0, x / 0, arcsin outside [-1, 1], ...), which the real-number model cannot represent. -/
inductive Err where
  | valueError
  | indexError
  | typeError
  | keyError
  | nameError
  | assertionError
  | isometryError
  | cuboidError
  | attributeError
  | nan
deriving DecidableEq, Repr

namespace V3

/-- `/repo/mockfactory/utils.py:14-16` `distance`: square root of the sum of squares (one row). -/
noncomputable def norm (u : V3 ℝ) : ℝ := Real.sqrt (u.x ^ 2 + u.y ^ 2 + u.z ^ 2)

theorem sq_nonneg' (u : V3 ℝ) : 0 ≤ u.sq := by
  simp only [V3.sq, V3.dot]; nlinarith [sq_nonneg u.x, sq_nonneg u.y, sq_nonneg u.z]

theorem norm_nonneg (u : V3 ℝ) : 0 ≤ u.norm := Real.sqrt_nonneg _

theorem norm_sq (u : V3 ℝ) : u.norm ^ 2 = u.x ^ 2 + u.y ^ 2 + u.z ^ 2 :=
  Real.sq_sqrt (by positivity)

theorem norm_mul_self (u : V3 ℝ) : u.norm * u.norm = u.x ^ 2 + u.y ^ 2 + u.z ^ 2 := by
  rw [← norm_sq]; ring

theorem norm_eq_zero (u : V3 ℝ) : u.norm = 0 ↔ u = 0 := by
  constructor
  · intro h
    have h2 := norm_sq u
    rw [h] at h2
    have hx : u.x = 0 := by nlinarith [sq_nonneg u.x, sq_nonneg u.y, sq_nonneg u.z]
    have hy : u.y = 0 := by nlinarith [sq_nonneg u.x, sq_nonneg u.y, sq_nonneg u.z]
    have hz : u.z = 0 := by nlinarith [sq_nonneg u.x, sq_nonneg u.y, sq_nonneg u.z]
    ext <;> simp [*]
  · rintro rfl; simp [norm]

theorem norm_pos {u : V3 ℝ} (h : u ≠ 0) : 0 < u.norm :=
  lt_of_le_of_ne (norm_nonneg u) (fun h' => h ((norm_eq_zero u).1 h'.symm))

theorem norm_eq_one_of_sq {u : V3 ℝ} (h : u.x ^ 2 + u.y ^ 2 + u.z ^ 2 = 1) : u.norm = 1 := by
  simp [norm, h]

end V3

end Verif
