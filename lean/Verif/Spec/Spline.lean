import Verif.Model.RadialSpline

/-!
# What is assumed of scipy's interpolating splines
-/

namespace Verif.Spec
open Verif Verif.Model

/-- Assumptions on `UnivariateSpline(x, y, k, s=0, ext='zeros')`, for accepted nodes: it goes through the nodes, it is null
outside of them with its derivatives, and it reproduces polynomials of degree 2 if its order is at least 2. -/
structure SplineOk (S : Spline) : Prop where
  through : ∀ {k nodes}, Spline.Accepted k nodes → ∀ p ∈ nodes, S.value k nodes p.1 = p.2
  outside : ∀ {k nodes}, Spline.Accepted k nodes → ∀ a ∈ nodes.head?, ∀ b ∈ nodes.getLast?, ∀ z, z < a.1 ∨ b.1 < z →
    S.value k nodes z = 0 ∧ S.d1 k nodes z = 0 ∧ S.d2 k nodes z = 0
  quadratic : ∀ {k nodes}, Spline.Accepted k nodes → 2 ≤ k → ∀ c2 c1 c0 : ℝ,
    (∀ p ∈ nodes, p.2 = c2 * p.1 ^ 2 + c1 * p.1 + c0) → ∀ a ∈ nodes.head?, ∀ b ∈ nodes.getLast?, ∀ z, a.1 ≤ z → z ≤ b.1 →
    S.value k nodes z = c2 * z ^ 2 + c1 * z + c0 ∧ S.d1 k nodes z = 2 * c2 * z + c1 ∧ S.d2 k nodes z = 2 * c2

end Verif.Spec
