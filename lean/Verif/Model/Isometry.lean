import Verif.Basic.Real
import Mathlib.Analysis.SpecialFunctions.Trigonometric.Basic

/-!
# Model of rotation matrices and `EuclideanIsometry`

`/repo/mockfactory/make_survey.py:17-248`. Numbers are exact reals; arrays of shape (N, 3) are handled row by row.
-/

namespace Verif.Model

open Verif

/-- The `axis` / `los` argument accepted by `_get_los` (`make_survey.py:59-69`): a string, an integer, a 3-vector, or
`None`. -/
inductive Axis where
  | str (s : String)
  | idx (i : Int)
  | vec (v : V3 ℝ)
  | none

/-- python `'xyz'.index(s)`: position of the first occurrence of the substring `s` in `'xyz'`, `ValueError` otherwise.
All the substrings of `'xyz'` are listed. (`make_survey.py:62`). -/
def xyzIndex (s : String) : Except Err Int :=
  if s = "" ∨ s = "x" ∨ s = "xy" ∨ s = "xyz" then .ok 0
  else if s = "y" ∨ s = "yz" then .ok 1
  else if s = "z" then .ok 2
  else .error .valueError

/-- numpy `a = zeros(3); a[i] = value` for an integer `i` (negative indices count from the end).
(`make_survey.py:65-66`). -/
def unitAt {α : Type*} [Zero α] (i : Int) (value : α) : Except Err (V3 α) :=
  if i = 0 ∨ i = -3 then .ok ⟨value, 0, 0⟩
  else if i = 1 ∨ i = -2 then .ok ⟨0, value, 0⟩
  else if i = 2 ∨ i = -1 then .ok ⟨0, 0, value⟩
  else .error .indexError

/-- `los /= utils.distance(los)` (`make_survey.py:68`), `nan` for the null vector. -/
noncomputable def normalize (v : V3 ℝ) : Except Err (V3 ℝ) :=
  if v.norm = 0 then .error .nan else .ok ⟨v.x / v.norm, v.y / v.norm, v.z / v.norm⟩

/-- `make_survey.py:59-69` `_get_los` (same as `gaussian_mock.py:17-26`). With `los = None`, `np.ndim(None) == 0` and `los[None] = 1.` fills the array
with ones. -/
noncomputable def getLos : Axis → Except Err (V3 ℝ)
  | .str s => do normalize (← unitAt (← xyzIndex s) 1)
  | .idx i => do normalize (← unitAt i 1)
  | .none => normalize ⟨1, 1, 1⟩
  | .vec v => normalize v

/-- `[[0., -v[2], v[1]], [v[2], 0., -v[0]], [-v[1], v[0], 0.]]` (`make_survey.py:36` and `:48`). -/
def skew (v : V3 ℝ) : M3 ℝ := ⟨0, -v.z, v.y, v.z, 0, -v.x, -v.y, v.x, 0⟩

/-- `p = v[:, None] * v` (`make_survey.py:47`). -/
def outer (v : V3 ℝ) : M3 ℝ :=
  ⟨v.x * v.x, v.x * v.y, v.x * v.z, v.y * v.x, v.y * v.y, v.y * v.z, v.z * v.x, v.z * v.y, v.z * v.z⟩

open Classical in
/-- `make_survey.py:17-37` `rotation_matrix_from_two_vectors`. The in-place normalisation of float inputs is not
modelled (only the returned matrix is). -/
noncomputable def rotationFromTwoVectors (a b : V3 ℝ) : Except Err (M3 ℝ) := do
  let a ← normalize a
  let b ← normalize b
  let v := V3.cross a b
  let c := V3.dot a b
  let s := v.norm
  if s = 0 then return 1
  let k := skew v
  return 1 + k + ((1 - c) / s ^ 2) • (k * k)

open Classical in
/-- `make_survey.py:40-49` `rotation_matrix_from_vector_angle`, `angle` in degrees. -/
noncomputable def rotationFromVectorAngle (axis : Axis) (angle : ℝ) : Except Err (M3 ℝ) := do
  let v ← getLos axis
  let angle := angle * Real.pi / 180
  if angle = 0 then return 1
  let p := outer v
  let q := skew v
  return p + Real.cos angle • (1 - p) + Real.sin angle • q

/-- State of an `EuclideanIsometry` (`make_survey.py:81-84`): `_rotation` and `_translation`. -/
structure Isom where
  rot : M3 ℝ
  trans : V3 ℝ

namespace Isom

/-- `make_survey.py:81-84` `__init__`. -/
def init : Isom := ⟨1, 0⟩

open Classical in
/-- `make_survey.py:86-91` `is_identity`. -/
noncomputable def isIdentity (s : Isom) (translationalInvariant : Bool) : Bool :=
  let toret := decide (s.rot = 1)
  if !translationalInvariant then toret && decide (s.trans = 0) else toret

/-- `make_survey.py:93-113` `transform`, on one row. -/
def transform (s : Isom) (vector : V3 ℝ) (translationalInvariant : Bool) : V3 ℝ :=
  let toret := s.rot.mulVec vector
  if !translationalInvariant then toret + s.trans else toret

/-- The `frame` argument: 'origin', 'current' or any other value. (`make_survey.py:115, 130-133`). -/
inductive Frame where
  | origin
  | current
  | other
deriving DecidableEq

/-- Result of a mutating method: the state left behind and the exception raised, if any.
(`make_survey.py:115-215`). -/
abbrev Step := Isom × Option Err

/-- `make_survey.py:115-134` `dot`. The rotation is updated before `frame` is checked. -/
def dot (s : Isom) (matrix : M3 ℝ) (frame : Frame) : Step :=
  let s1 : Isom := { s with rot := matrix * s.rot }
  match frame with
  | .origin => ({ s1 with trans := matrix.mulVec s1.trans }, none)
  | .current => (s1, none)
  | .other => (s1, some .isometryError)

/-- `make_survey.py:136-159` `rotation`. Line 158 calls `self.dot(matrix)` with its default `frame='origin'`: the
`frame` argument is not used. `axis` goes through `_get_los` twice (lines 157 and 42). -/
noncomputable def rotation (s : Isom) (angle : ℝ) (axis : Axis) (degree : Bool) (_frame : Frame) : Step :=
  let angle := if !degree then angle * 180 / Real.pi else angle
  match getLos axis with
  | .error e => (s, some e)
  | .ok v => match rotationFromVectorAngle (.vec v) angle with
    | .error e => (s, some e)
    | .ok m => s.dot m .origin

/-- The `shift` argument of `translation`: a scalar or a 3-vector. (`make_survey.py:161-193`). -/
inductive Shift where
  | scalar (a : ℝ)
  | vec (v : V3 ℝ)

/-- The `axis` argument of `translation`: `None`, a string or an integer. (`make_survey.py:161-193`). -/
inductive TAxis where
  | none
  | str (s : String)
  | idx (i : Int)

/-- `make_survey.py:179-187`: the 3-vector to add, before the frame is taken into account. -/
def shiftVector (shift : Shift) (axis : TAxis) : Except Err (V3 ℝ) :=
  match axis, shift with
  | .none, .scalar a => .ok (V3.const a)
  | .none, .vec v => .ok v
  | .str _, .vec _ => .error .isometryError
  | .idx _, .vec _ => .error .isometryError
  | .str s, .scalar a => do unitAt (← xyzIndex s) a
  | .idx i, .scalar a => unitAt i a

/-- `make_survey.py:161-193` `translation`. -/
def translation (s : Isom) (shift : Shift) (axis : TAxis) (frame : Frame) : Step :=
  match shiftVector shift axis with
  | .error e => (s, some e)
  | .ok v => match frame with
    | .current => ({ s with trans := s.trans + s.rot.mulVec v }, none)
    | .origin => ({ s with trans := s.trans + v }, none)
    | .other => (s, some .isometryError)

/-- `make_survey.py:195-210` `reset_rotation`. -/
def resetRotation (s : Isom) (frame : Frame) : Step :=
  match frame with
  | .origin => ({ rot := 1, trans := s.rot.tr.mulVec s.trans }, none)
  | .current => ({ s with rot := 1 }, none)
  | .other => (s, some .isometryError)

/-- `make_survey.py:212-215` `reset_translate`. -/
def resetTranslate (s : Isom) : Step := ({ s with trans := 0 }, none)

/-- `make_survey.py:217-228` `concatenate`. -/
def concatenate (others : List Isom) : Isom :=
  others.foldl (fun new other => ⟨other.rot * new.rot, other.rot.mulVec new.trans + other.trans⟩) init

/-- `make_survey.py:246-248` `__add__`. -/
def add (a b : Isom) : Isom := concatenate [a, b]

/-- `make_survey.py:230-233` `extend` and `:241-244` `__iadd__` (state of `self` afterwards). -/
def extend (a b : Isom) : Isom := concatenate [a, b]

/-- python `sum(isometries)` for a non-empty list: `0 + first` goes through `__radd__` (`make_survey.py:235-239`), which
returns a copy, the following additions through `__add__`. -/
def pySum (first : Isom) (rest : List Isom) : Isom := rest.foldl add first

/-- The mutating calls of the API, with their arguments. (`make_survey.py:115-244`). -/
inductive Op where
  | dot (matrix : M3 ℝ) (frame : Frame)
  | rotation (angle : ℝ) (axis : Axis) (degree : Bool) (frame : Frame)
  | translation (shift : Shift) (axis : TAxis) (frame : Frame)
  | resetRotation (frame : Frame)
  | resetTranslate

/-- One call. (`make_survey.py:115-244`). -/
noncomputable def step (s : Isom) : Op → Step
  | .dot m f => s.dot m f
  | .rotation a x d f => s.rotation a x d f
  | .translation t x f => s.translation t x f
  | .resetRotation f => s.resetRotation f
  | .resetTranslate => s.resetTranslate

/-- State after a history of calls; the caller catches the exceptions and carries on.
(`make_survey.py:115-244`). -/
noncomputable def run (s : Isom) (ops : List Op) : Isom := ops.foldl (fun s op => (s.step op).1) s

end Isom

end Verif.Model
