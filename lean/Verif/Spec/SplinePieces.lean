import Verif.Spec.Spline
import Verif.Spec.CubicSpline

/-!
# Interpolating splines of order 1 and 3

`UnivariateSpline(x, y, k, s=0)` is the interpolating spline of FITPACK: order 1 joins the nodes with segments, order 3 is the cubic
spline without knots at the second and last but one nodes.
-/

namespace Verif.Spec
open Verif Verif.Model Polynomial

/-- Abscissa and ordinate of the node `i`. -/
noncomputable def nodeX (nodes : List (ℝ × ℝ)) (i : ℕ) : ℝ := (nodes.getD i (0, 0)).1
noncomputable def nodeY (nodes : List (ℝ × ℝ)) (i : ℕ) : ℝ := (nodes.getD i (0, 0)).2

/-- The values of splines of order 1 and 3 are known between nodes. -/
structure SplinePieces (S : Spline) : Prop extends SplineOk S where
  linear : ∀ {nodes}, Spline.Accepted 1 nodes → ∀ i, i + 1 < nodes.length → ∀ z, nodeX nodes i ≤ z → z ≤ nodeX nodes (i + 1) →
    S.value 1 nodes z = nodeY nodes i + (nodeY nodes (i + 1) - nodeY nodes i) * (z - nodeX nodes i) / (nodeX nodes (i + 1) - nodeX nodes i)
  cubic : ∀ {nodes}, Spline.Accepted 3 nodes → ∃ p, IsCubicSpline (nodeX nodes) (nodeY nodes) (nodes.length - 1) p ∧
    ∀ i, i + 1 < nodes.length → ∀ z, nodeX nodes i ≤ z → z ≤ nodeX nodes (i + 1) →
      S.value 3 nodes z = (p i).eval z ∧ S.d1 3 nodes z = (p i).derivative.eval z ∧ S.d2 3 nodes z = (p i).derivative.derivative.eval z

end Verif.Spec
