import Mathlib.Data.Real.Basic
import Mathlib.Algebra.Polynomial.Derivative

/-!
# Cubic splines through nodes
-/

namespace Verif.Spec

open Polynomial

/-- The cubic spline through the nodes `(x 0, y 0), …, (x n, y n)`, `p i` being its polynomial between the nodes `i` and `i + 1`: first and
second derivatives are continuous; the second and the last but one nodes are not knots: one polynomial for the first two intervals, one
for the last two. -/
structure IsCubicSpline (x y : ℕ → ℝ) (n : ℕ) (p : ℕ → ℝ[X]) : Prop where
  degree : ∀ i < n, (p i).natDegree ≤ 3
  through : ∀ i < n, (p i).eval (x i) = y i ∧ (p i).eval (x (i + 1)) = y (i + 1)
  smooth : ∀ i, i + 1 < n → (p i).derivative.eval (x (i + 1)) = (p (i + 1)).derivative.eval (x (i + 1)) ∧
    (p i).derivative.derivative.eval (x (i + 1)) = (p (i + 1)).derivative.derivative.eval (x (i + 1))
  first : p 0 = p 1
  last : p (n - 2) = p (n - 1)

end Verif.Spec
