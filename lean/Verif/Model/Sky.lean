import Verif.Model.Isometry
import Mathlib.Analysis.SpecialFunctions.Complex.Arg
import Mathlib.Analysis.SpecialFunctions.Trigonometric.Inverse
import Mathlib.Analysis.SpecialFunctions.Trigonometric.Arctan

/-!
# Model of sky coordinates, areas, projections and redshift-space positions

`/repo/mockfactory/utils.py:14-236` and `make_survey.py:611-640`. Exact reals; `nan` results are `none` or `.error .nan`.
-/

namespace Verif.Model

open Verif

/-- python / numpy `a % m` on floats, for `m > 0`. (`utils.py:36-39`). -/
noncomputable def pmod (a m : ℝ) : ℝ := a - m * ⌊a / m⌋

/-- `conversion = np.pi / 180. if degree else 1.` (`utils.py:36, 69, 99`). -/
noncomputable def conversion (degree : Bool) : ℝ := if degree then Real.pi / 180 else 1

/-- `utils.py:19-39` `wrap_angle`. -/
noncomputable def wrapAngle (angle : ℝ) (degree : Bool := true) : ℝ :=
  pmod (angle * conversion degree) (2 * Real.pi) / conversion degree

/-- numpy `arctan2(y, x)`; zero at the origin. (`utils.py:66`). -/
noncomputable def arctan2 (y x : ℝ) : ℝ := Complex.arg ⟨x, y⟩

/-- One row of the result of `cartesian_to_sky`. (`utils.py:65-70`). -/
structure Sky where
  dist : ℝ
  ra : ℝ
  /-- `none`: `nan`. -/
  dec : Option ℝ

/-- `utils.py:42-70` `cartesian_to_sky`, one row. `position[2] / dist` is 0 / 0 at the origin. -/
noncomputable def cartesianToSky (position : V3 ℝ) (degree : Bool := true) : Sky :=
  let dist := position.norm
  let ra := wrapAngle (arctan2 position.y position.x) false
  { dist := dist
    ra := ra / conversion degree
    dec := if dist = 0 then none else some (Real.arcsin (position.z / dist) / conversion degree) }

/-- A numpy number: an integer or a float, which determine the type of results. (`utils.py:100-103`). -/
inductive Num where
  | int (i : ℤ)
  | float (x : ℝ)

/-- The number itself. (`utils.py:100-103`). -/
def Num.val : Num → ℝ
  | .int i => i
  | .float x => x

/-- Kind of a numpy type. (`utils.py:102`). -/
inductive Kind where
  | int
  | float
deriving DecidableEq

/-- Kind of a number. (`utils.py:102`). -/
def Num.kind : Num → Kind
  | .int _ => .int
  | .float _ => .float

/-- `np.result_type` of two kinds: integer only if both are. (`utils.py:102`). -/
def Kind.join (a b : Kind) : Kind := if a = .int ∧ b = .int then .int else .float

/-- Storing a float in an array element: numpy truncates towards zero if the array is of integers.
(`utils.py:105-107`). -/
noncomputable def store (k : Kind) (x : ℝ) : ℝ :=
  match k with
  | .float => x
  | .int => if 0 ≤ x then (⌊x⌋ : ℤ) else (⌈x⌉ : ℤ)

/-- `utils.py:73-109` `sky_to_cartesian`, one row; `dtype = None` takes the result type of the arguments. Floating-point
types of different precisions are not distinguished. -/
noncomputable def skyToCartesian (dist ra dec : Num) (degree : Bool := true) (dtype : Option Kind := none) : V3 ℝ :=
  let conv := conversion degree
  let k := match dtype with
    | none => (dist.kind.join ra.kind).join dec.kind
    | some k => k
  let cosDec := Real.cos (dec.val * conv)
  let position : V3 ℝ :=
    ⟨store k (cosDec * Real.cos (ra.val * conv)), store k (cosDec * Real.sin (ra.val * conv)),
      store k (Real.sin (dec.val * conv))⟩
  dist.val • position

/-- `np.deg2rad`. (`utils.py:129`). -/
noncomputable def deg2rad (x : ℝ) : ℝ := x * (Real.pi / 180)
/-- `np.rad2deg`. (`utils.py:129`). -/
noncomputable def rad2deg (x : ℝ) : ℝ := x * (180 / Real.pi)

/-- `utils.py:112-134` `radecbox_area`, for scalar limits; arrays of limits are handled element by element. -/
noncomputable def radecboxArea (rarange decrange : ℝ × ℝ) : ℝ :=
  let decfrac := rad2deg (Real.sin (deg2rad decrange.2)) - rad2deg (Real.sin (deg2rad decrange.1))
  let rafrac := rarange.2 - rarange.1
  decfrac * rafrac

/-- `utils.py:137-166` `vector_projection`, one row; `nan` if the direction is null. -/
noncomputable def vectorProjection (vector direction : V3 ℝ) : Except Err (V3 ℝ) := do
  let d ← normalize direction
  .ok (V3.dot vector d • d)

/-- The argument `f` of `rsd_position`. (`make_survey.py:615, 634-640`). -/
inductive Factor where
  | const (f : ℝ)
  | fn (f : ℝ → ℝ)

/-- numpy in-place product of an array of shape (N, 3) by an array of shape (N,): element `i` of the second multiplies
column `i`, which needs N = 3, or the whole array if N = 1; otherwise `ValueError`.
(`make_survey.py:634-640`). -/
def mulRows (rows : List (V3 ℝ)) (f : List ℝ) : Except Err (List (V3 ℝ)) :=
  match f with
  | [a] => .ok (rows.map fun r => a • r)
  | [a, b, c] => .ok (rows.map fun r => V3.emul r ⟨a, b, c⟩)
  | _ => .error .valueError

/-- `make_survey.py:611-640` `ParticleCatalog.rsd_position`; `los = Axis.none` is the local line of sight. A `nan` in one
row is modelled as a `nan` error for the whole result. -/
noncomputable def rsdPosition (f : Factor) (los : Axis) (position velocity : List (V3 ℝ)) :
    Except Err (List (V3 ℝ)) := do
  let rsd ← match los with
    | .none => (position.zip velocity).mapM fun pv => do
        let l ← normalize pv.1
        vectorProjection pv.2 l
    | los => do
        let l ← getLos los
        velocity.mapM fun v => vectorProjection v l
  let rsd ← match f with
    | .const f => .ok (rsd.map fun r => f • r)
    | .fn f => mulRows rsd (position.map fun p => f p.norm)
  .ok (List.zipWith (· + ·) position rsd)

end Verif.Model
