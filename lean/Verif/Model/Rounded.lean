import Verif.Basic.Rounding
import Verif.Basic.Vec
import Verif.Model.Sky

/-!
# Model of angles, distances and periodic wrapping with rounding errors

`/repo/mockfactory/utils.py:14-70`, `lagrangian_mock.py:124-125`, `remap.py:319`: each operation on floats is rounded
(`Verif/Basic/Rounding.lean`). The other parts of the model use exact real numbers. Overflow is left out.
-/

namespace Verif.Model.Rounded

open Verif Verif.Model

variable (F : Fmt)

/-- `fmod(a, b)` of C, exact by the standard. (`utils.py:38`). -/
noncomputable def fmod (a b : ℝ) : ℝ := a - b * (if 0 ≤ a / b then ⌊a / b⌋ else ⌈a / b⌉ : ℤ)

/-- `a % b` of numpy for floats, `b > 0`: the remainder of C, plus `b` if it is negative. (`utils.py:38`, `lagrangian_mock.py:125`,
`remap.py:319`). -/
noncomputable def npMod (a b : ℝ) : ℝ := if fmod a b < 0 then F.rnd (fmod a b + b) else fmod a b

/-- `np.pi`. (`utils.py:36`). -/
noncomputable def npPi : ℝ := binary64.rnd Real.pi

/-- `2. * np.pi`, in the type of the array. (`utils.py:38`). -/
noncomputable def twoPi : ℝ := F.rnd (binary64.rnd (2 * npPi))

/-- `np.pi / 180. if degree else 1.`, in the type of the array. (`utils.py:36, 69`). -/
noncomputable def convF (degree : Bool) : ℝ := if degree then F.rnd (binary64.rnd (npPi / 180)) else 1

/-- `utils.py:19-39` `wrap_angle`. -/
noncomputable def wrapAngleF (angle : ℝ) (degree : Bool := true) : ℝ :=
  F.rnd (npMod F (F.rnd (angle * convF F degree)) (twoPi F) / convF F degree)

/-- `utils.py:14-16` `distance`, one row; numpy adds the three squares in order. -/
noncomputable def distanceF (v : V3 ℝ) : ℝ :=
  F.rnd (Real.sqrt (F.rnd (F.rnd (F.rnd (v.x ^ 2) + F.rnd (v.y ^ 2)) + F.rnd (v.z ^ 2))))

open Classical in
/-- `utils.py:42-70` `cartesian_to_sky`, one row. `atan2` and `asin` are those of the C library, `asin` for arguments in [-1, 1] (it is
`nan` otherwise). -/
noncomputable def cartesianToSkyF (atan2 : ℝ → ℝ → ℝ) (asin : ℝ → ℝ) (v : V3 ℝ) (degree : Bool := true) : Sky :=
  { dist := distanceF F v
    ra := F.rnd (wrapAngleF F (atan2 v.y v.x) false / convF F degree)
    dec := if distanceF F v = 0 then none
      else if |F.rnd (v.z / distanceF F v)| ≤ 1 then some (F.rnd (asin (F.rnd (v.z / distanceF F v)) / convF F degree))
      else none }

/-- `self.position = (self.position - offset) % self.boxsize + offset`, one coordinate. (`lagrangian_mock.py:125`). -/
noncomputable def wrapPosition (offset size x : ℝ) : ℝ := F.rnd (npMod F (F.rnd (x - offset)) size + offset)

/-- `(position % 1.) * self.boxsize`, one coordinate. (`remap.py:319`). -/
noncomputable def unitToBox (size x : ℝ) : ℝ := F.rnd (npMod F x 1 * size)

end Verif.Model.Rounded
