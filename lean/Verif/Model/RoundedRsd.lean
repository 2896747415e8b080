import Verif.Model.RoundedIsometry

/-!
# Model of `rsd_position` with rounding errors

`/repo/mockfactory/make_survey.py:615-640` and `utils.py:137-166`, for a factor that is a number: each operation on floats is rounded
(`Verif/Basic/Rounding.lean`). `Verif/Model/Sky.lean` has the same functions in exact real numbers.
-/

namespace Verif.Model.RoundedRsd

open Verif Verif.Model Verif.Model.RoundedIsometry

variable (F : Fmt)

/-- `utils.py:162-166` `vector_projection`, one row: the direction is divided by its length; the three products are summed in any order. -/
def ProjectionF (vector direction result : V3 ℝ) : Prop :=
  ∃ p, DotF F vector (losF F direction) p ∧
    result = ⟨F.rnd (p * (losF F direction).x), F.rnd (p * (losF F direction).y), F.rnd (p * (losF F direction).z)⟩

/-- `make_survey.py:634-640` `rsd_position`, one row, for the array `los` that gives the line of sight: it is divided by its length here
(lines 631 and 68) and in `vector_projection`. -/
def RsdF (f : ℝ) (los position velocity result : V3 ℝ) : Prop :=
  ∃ rsd, ProjectionF F velocity (losF F los) rsd ∧
    result = ⟨F.rnd (position.x + F.rnd (rsd.x * f)), F.rnd (position.y + F.rnd (rsd.y * f)), F.rnd (position.z + F.rnd (rsd.z * f))⟩

/-- `make_survey.py:630-633` `rsd_position`, one row: `los=None` is the position. -/
inductive RsdPositionF (f : ℝ) : Axis → V3 ℝ → V3 ℝ → V3 ℝ → Prop
  | local {position velocity result : V3 ℝ} : RsdF F f position position velocity result → RsdPositionF f .none position velocity result
  | global {a : Axis} {v position velocity result : V3 ℝ} : AxisArray a v → RsdF F f v position velocity result →
      RsdPositionF f a position velocity result

end Verif.Model.RoundedRsd
