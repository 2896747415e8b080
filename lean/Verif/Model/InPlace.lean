import Verif.Model.Box
import Verif.Model.Sky
import Verif.Model.MockObject

/-!
# What calls do to the arrays they are given, or gave

`rotation_matrix_from_two_vectors` and `Cuboid.transform` with the type of their arguments, and the catalogs exported by mocks, as
references to arrays.
-/

namespace Verif.Model.InPlace

open Verif Verif.Model

/-- A vector given as argument: type of its numbers, and whether it is a numpy array (`np.asarray` then returns the same array) or a
sequence (`np.asarray` makes a new array). (`make_survey.py:26-27`). -/
structure Arg where
  kind : Kind
  isArray : Bool
  value : V3 ℝ

/-- Content of the argument after `a = np.asarray(a)`, `a /= utils.distance(a)`; `none` is an array of `nan`. (`make_survey.py:26-29`). -/
noncomputable def Arg.after (a : Arg) : Option (V3 ℝ) :=
  if a.isArray then (normalize a.value).toOption else some a.value

/-- `make_survey.py:17-37` `rotation_matrix_from_two_vectors`: result, and content of both arguments afterwards. Division in place of an
array of integers raises `TypeError`. -/
noncomputable def rotationCall (a b : Arg) : Except Err (M3 ℝ) × Option (V3 ℝ) × Option (V3 ℝ) :=
  if a.kind = .int then (.error .typeError, some a.value, some b.value)
  else if b.kind = .int then (.error .typeError, a.after, some b.value)
  else (rotationFromTwoVectors a.value b.value, a.after, b.after)

/-- `remap.py:252-289` `Cuboid.transform` for positions of a given type: `np.array(position)` is a new array of the same type, divided
in place unless the vectors are translational invariant. -/
noncomputable def cuboidTransform (c : Remap.Cuboid) (kind : Kind) (positions : List (V3 ℝ)) (translationalInvariant : Bool) :
    Except Err (List (V3 ℝ)) :=
  if translationalInvariant then c.transform positions true
  else if kind = .int then .error .typeError
  else c.transform positions false

/-- `remap.py:291-322` `Cuboid.inverse_transform`, one row; same remark. -/
noncomputable def cuboidInverse (c : Remap.Cuboid) (kind : Kind) (position : V3 ℝ) (translationalInvariant : Bool) : Except Err (V3 ℝ) :=
  if translationalInvariant then .ok (c.inverseTransform position true)
  else if kind = .int then .error .typeError
  else .ok (c.inverseTransform position false)

/-! ### Catalogs exported by mocks -/

variable {M : Mesh}

/-- A mock, the arrays of positions created so far, which one is bound to `mock.position`, and which one holds the positions of each
catalog exported so far. (`gaussian_mock.py:555, 565-567`). -/
structure Session (M : Mesh) where
  mock : Mock M
  heap : List (Option (List (V3 ℝ)))
  ref : ℕ
  catalogs : List ℕ

/-- A statement: method call on the mock, or `mock.to_catalog()`. (`gaussian_mock.py:329-567`). -/
inductive Stmt (M : Mesh) where
  | call (c : Mock.Call M)
  | toCatalog

/-- Positions of the exported catalogs. (`gaussian_mock.py:565-567`). -/
def Session.positions (w : Session M) : List (Option (List (V3 ℝ))) := w.catalogs.map fun r => w.heap.getD r none

/-- Session of a new mock. (`gaussian_mock.py:221-253`). -/
def Session.init (s : Mock M) : Session M := ⟨s, [s.position], 0, []⟩

/-- A new array is bound to `mock.position`. (`gaussian_mock.py:555`, `lagrangian_mock.py:125`). -/
def Session.bind (w : Session M) (s : Mock M) : Session M :=
  { w with mock := s, heap := w.heap ++ [s.position], ref := w.heap.length }

/-- State after a call that returned: `poisson_sample` binds a new array to `mock.position`; `set_rsd` of Lagrangian mocks adds to the
array in place (`self.position += rsd`, `lagrangian_mock.py:156`); that of Eulerian mocks changes the contrast only. -/
def Session.returned (cls : MockClass) (w : Session M) (s : Mock M) : Mock.Call M → Session M
  | .sample _ _ _ => w.bind s
  | .setRsd _ _ => match cls with
    | .eulerian => { w with mock := s }
    | .lagrangian => { w with mock := s, heap := w.heap.set w.ref s.position }
  | _ => { w with mock := s }

/-- State after a call that raised: `poisson_sample` of Lagrangian mocks has bound a new array if that of the base class returned
(`lagrangian_mock.py:119`). -/
noncomputable def Session.raised (read : (M.Idx → ℝ) → (Fin 3 → ℝ) → ℝ) (w : Session M) (s : Mock M) : Mock.Call M → Session M
  | .sample r c u => match w.mock.sample .eulerian read r c u with
    | .done _ => w.bind s
    | _ => { w with mock := s }
  | _ => { w with mock := s }

/-- `to_catalog` (`gaussian_mock.py:557-567`, `lagrangian_mock.py:158-168`): with `shared`, the catalog holds the array bound to
`mock.position`; otherwise a copy of it (this depends on `mpytools.Catalog`). -/
def Session.export (shared : Bool) (cls : MockClass) (w : Session M) : Session M :=
  match w.mock.toCatalog cls with
  | .error _ => w
  | .ok _ =>
    if shared then { w with catalogs := w.catalogs ++ [w.ref] }
    else { w with heap := w.heap ++ [w.heap.getD w.ref none], catalogs := w.catalogs ++ [w.heap.length] }

/-- One statement, exceptions caught; `none` once a number is not finite. (`gaussian_mock.py:329-567`). -/
noncomputable def Session.exec (shared : Bool) (cls : MockClass) (read : (M.Idx → ℝ) → (Fin 3 → ℝ) → ℝ) (w : Session M) :
    Stmt M → Option (Session M)
  | .toCatalog => some (w.export shared cls)
  | .call c => match w.mock.step cls read c with
    | .done s => some (w.returned cls s c)
    | .raised s _ => some (w.raised read s c)
    | .nan => none

/-- A program. (`gaussian_mock.py:329-567`). -/
noncomputable def Session.run (shared : Bool) (cls : MockClass) (read : (M.Idx → ℝ) → (Fin 3 → ℝ) → ℝ) :
    Session M → List (Stmt M) → Option (Session M)
  | w, [] => some w
  | w, c :: cs => (w.exec shared cls read c).bind fun w' => Session.run shared cls read w' cs

end Verif.Model.InPlace
