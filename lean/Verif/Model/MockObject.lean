import Verif.Model.Mesh

/-!
# Model of the life of a mock

Attributes of the objects of `/repo/mockfactory/gaussian_mock.py`, `eulerian_mock.py` and `lagrangian_mock.py`, call by call. The
fields are those of `Verif/Model/Mesh.lean`. Attributes not yet set are `none`, and reading them raises `AttributeError`. Random
numbers are arguments of the calls. A call that would store a number that is not finite ends the modelled history (`Outcome.nan`).
-/

namespace Verif.Model

open Verif

/-- Class of a mock. (`gaussian_mock.py:141`). -/
inductive MockClass where
  | eulerian
  | lagrangian
deriving DecidableEq

/-- Coordinates of a row. (`lagrangian_mock.py:121-123`). -/
def rowOf (p : Fin 3 → ℝ) : V3 ℝ := ⟨p 0, p 1, p 2⟩

/-- Attributes of a mock: `mesh_delta_k`, `mesh_delta_r`, `mesh_disp_r`, `nbar`, `attrs['norm']`, `position` and `disps`.
(`gaussian_mock.py:223-253, 359, 380-383, 555`). -/
structure Mock (M : Mesh) where
  deltaK : M.Idx → ℂ
  delta : Option (M.Idx → ℝ)
  disp : Option (Fin 3 → M.Idx → ℝ)
  nbar : Option (ℝ ⊕ (M.Idx → ℝ))
  norm : Option ℝ
  position : Option (List (V3 ℝ))
  disps : Option (List (V3 ℝ))

namespace Mock

variable {M : Mesh}

/-- State after `__init__` (`gaussian_mock.py:221-253`): only the modes are set. -/
def init (deltaK : M.Idx → ℂ) : Mock M := ⟨deltaK, none, none, none, none, none, none⟩

/-- The `mesh` argument of `from_complex_delta_field`: a complex or a real field.
(`gaussian_mock.py:256-274`). -/
inductive FieldOf (M : Mesh) where
  | complex (f : M.Idx → ℂ)
  | real (f : M.Idx → ℝ)

/-- `gaussian_mock.py:256-275` `from_complex_delta_field`. -/
noncomputable def fromField : FieldOf M → Mock M
  | .complex f => init f
  | .real f => init (M.r2c fun i => (f i : ℂ))

/-- A method call that changes the mock, with its arguments and its random numbers.
(`gaussian_mock.py:329-555`). -/
inductive Call (M : Mesh) where
  | setReal (bias : Mesh.Bias) (lognormal : Bool)
  | setConstant (nbar : ℝ)
  | setSelection (nbar : Sky → ℝ) (interlacing : ℕ)
  | whiteNoise (noise : M.Idx → ℝ)
  | setRsd (f : Factor) (los : Axis)
  | sample (ranks : List (List M.Idx)) (counts : M.Idx → ℕ) (u : ℕ → Fin 3 → ℝ)

/-- What a call does: return, raise, or store a number that is not finite.
(`gaussian_mock.py:329-555`). -/
inductive Outcome (M : Mesh) where
  | done (s : Mock M)
  | raised (s : Mock M) (e : Err)
  | nan

/-- The fields read by sampling and readout. (`gaussian_mock.py:466-477`). -/
def fields (s : Mock M) (delta : M.Idx → ℝ) (nbar : ℝ ⊕ (M.Idx → ℝ)) : M.Fields :=
  ⟨delta, nbar, s.disp.getD fun _ _ => 0⟩

/-- `set_real_delta_field`: `gaussian_mock.py:329-359`, and `lagrangian_mock.py:53-63` for the displacements. -/
noncomputable def setReal (cls : MockClass) (bias : Mesh.Bias) (lognormal : Bool) (s : Mock M) : Mock M :=
  { s with
    delta := some (M.realDelta bias lognormal s.deltaK)
    disp := match cls with
      | .eulerian => s.disp
      | .lagrangian => some fun a i => (M.dispC s.deltaK a i).re }

/-- `set_analytic_selection_function` with a number (`gaussian_mock.py:377-382`). -/
noncomputable def setConstant (x : ℝ) (s : Mock M) : Mock M :=
  { s with nbar := some (.inl x), norm := some (M.norm ⟨fun _ => 0, .inl x, fun _ _ => 0⟩) }

/-- `set_analytic_selection_function` with a callable (`gaussian_mock.py:383-422`). -/
noncomputable def setSelection (nbar : Sky → ℝ) (interlacing : ℕ) (s : Mock M) : Mock M :=
  { s with nbar := some (.inr (M.selection nbar interlacing))
           norm := some (M.norm ⟨fun _ => 0, .inr (M.selection nbar interlacing), fun _ _ => 0⟩) }

open Classical in
/-- `set_real_white_noise` (`gaussian_mock.py:433-438`). -/
noncomputable def whiteNoise (noise : M.Idx → ℝ) (s : Mock M) : Outcome M :=
  match s.delta, s.nbar with
  | some delta, some nbar =>
    if ∃ i, M.whiteNoise (s.fields delta nbar) noise i = none then .nan
    else .done { s with delta := some fun i => (M.whiteNoise (s.fields delta nbar) noise i).getD 0 }
  | _, _ => .raised s .attributeError

open Classical in
/-- `EulerianLinearMock.set_rsd` (`eulerian_mock.py:50-99`): `self.mesh_delta_r` is read before the line of sight. -/
noncomputable def eulerianSetRsd (f : Factor) (los : Axis) (s : Mock M) : Outcome M :=
  match s.delta with
  | none => .raised s .attributeError
  | some delta =>
    match M.eulerianRsd f los s.deltaK delta with
    | .error .nan => .nan
    | .error e => .raised s e
    | .ok r => if ∃ i, r i = none then .nan else .done { s with delta := some fun i => (r i).getD 0 }

/-- `lagrangian_mock.py:146-149`: a given line of sight is read by `_get_los` (nothing to read for the local one). -/
noncomputable def readLos : Axis → Except Err Unit
  | .none => .ok ()
  | los => (getLos los).map fun _ => ()

/-- `LagrangianLinearMock.set_rsd` (`lagrangian_mock.py:146-156`): a given line of sight is read before `self.disps`. -/
noncomputable def lagrangianSetRsd (f : Factor) (los : Axis) (s : Mock M) : Outcome M :=
  match readLos los with
  | .error .nan => .nan
  | .error e => .raised s e
  | .ok _ =>
    match s.position, s.disps with
    | some position, some disps =>
      match lagrangianRsd f los position disps with
      | .error .nan => .nan
      | .error e => .raised s e
      | .ok p => .done { s with position := some p }
    | _, _ => .raised s .attributeError

/-- `poisson_sample`: `gaussian_mock.py:501-555`, and `lagrangian_mock.py:119-125`, where `read` is `mesh.readout` of pmesh. -/
noncomputable def sample (cls : MockClass) (read : (M.Idx → ℝ) → (Fin 3 → ℝ) → ℝ) (ranks : List (List M.Idx)) (counts : M.Idx → ℕ)
    (u : ℕ → Fin 3 → ℝ) (s : Mock M) : Outcome M :=
  match s.delta, s.nbar with
  | some delta, some nbar =>
    match M.poissonSample (s.fields delta nbar) ranks counts u with
    | .error e => .raised s e
    | .ok positions =>
      match cls with
      | .eulerian => .done { s with position := some (positions.map rowOf) }
      | .lagrangian =>
        match s.disp with
        | none => .raised { s with position := some (positions.map rowOf) } .attributeError
        | some disp =>
          let rows := M.lagrangianSample
            (fun a p => read (disp a) fun d => p d - M.boxcenter d + M.boxsize d / 2) positions
          .done { s with position := some (rows.map fun r => rowOf r.1), disps := some (rows.map fun r => rowOf r.2) }
  | _, _ => .raised s .attributeError

/-- One call. (`gaussian_mock.py:329-555`). -/
noncomputable def step (cls : MockClass) (read : (M.Idx → ℝ) → (Fin 3 → ℝ) → ℝ) (s : Mock M) : Call M → Outcome M
  | .setReal b l => .done (s.setReal cls b l)
  | .setConstant x => .done (s.setConstant x)
  | .setSelection n i => .done (s.setSelection n i)
  | .whiteNoise n => s.whiteNoise n
  | .setRsd f los => match cls with
    | .eulerian => s.eulerianSetRsd f los
    | .lagrangian => s.lagrangianSetRsd f los
  | .sample r c u => s.sample cls read r c u

/-- Mock after a history of calls, whose exceptions are caught, with the exception raised by each call; `none` once a number is
not finite. (`gaussian_mock.py:329-555`). -/
noncomputable def run (cls : MockClass) (read : (M.Idx → ℝ) → (Fin 3 → ℝ) → ℝ) :
    Mock M → List (Call M) → Option (Mock M × List (Option Err))
  | s, [] => some (s, [])
  | s, c :: cs =>
    match s.step cls read c with
    | .done s' => (run cls read s' cs).map fun r => (r.1, none :: r.2)
    | .raised s' e => (run cls read s' cs).map fun r => (r.1, some e :: r.2)
    | .nan => none

/-- A catalog exported by `to_catalog`. (`gaussian_mock.py:565-567`). -/
structure Export where
  boxsize : V3 ℝ
  boxcenter : V3 ℝ
  position : List (V3 ℝ)
  velocity : Option (List (V3 ℝ))

/-- `to_catalog`: `gaussian_mock.py:565-567`, `lagrangian_mock.py:166-168`. -/
def toCatalog (cls : MockClass) (s : Mock M) : Except Err Export :=
  match cls, s.position, s.disps with
  | .eulerian, some p, _ => .ok ⟨rowOf M.boxsize, rowOf M.boxcenter, p, none⟩
  | .lagrangian, some p, some d => .ok ⟨rowOf M.boxsize, rowOf M.boxcenter, p, some d⟩
  | _, _, _ => .error .attributeError

/-- `to_nbodykit_mesh` (`gaussian_mock.py:492-499`): field exported. -/
def toMesh (s : Mock M) : Except Err (M.Idx → ℝ) :=
  match s.delta, s.nbar with
  | some delta, some nbar => .ok fun i => delta i * (s.fields delta nbar).nbarAt i
  | _, _ => .error .attributeError

end Mock

/-- `__init__(self, power, nmesh, boxsize, cellsize)` called with two positional arguments (`gaussian_mock.py:179`): box size and mesh
size. -/
noncomputable def positionalMesh (arg1 arg2 : MeshSize) : Except Err (V3 ℝ × V3 ℤ) := resolveMesh (some arg1) (some arg2) none

/-- Keywords accepted by `set_analytic_selection_function` (`gaussian_mock.py:361`): any other one raises `TypeError`. -/
def selectionKeyword (name : String) : Except Err Unit :=
  if name = "nbar" ∨ name = "interlacing" then .ok () else .error .typeError

/-! ### `ArrayMesh` -/

/-- A numpy type: real or complex, with its number of bytes. (`gaussian_mock.py:106-113`). -/
structure DType where
  complex : Bool
  itemsize : ℕ
deriving DecidableEq

/-- `gaussian_mock.py:104-111`: type of the mesh, from that of the array and its total size; `complexField` says whether 'complex' is
in `type`. -/
def arrayDtype (complexField : Bool) (array : DType) (cells csize : ℕ) : DType :=
  if complexField then
    let itemsize := if array.complex then array.itemsize else array.itemsize * 2
    if cells ≠ csize then ⟨false, itemsize / 2⟩ else ⟨true, itemsize⟩
  else array

/-- `gaussian_mock.py:60-125` `ArrayMesh`: `real` says whether `type` is 'real', `hasRoot` whether `mpiroot` is given, `nmesh` whether it
is given. `ParticleMesh` is not defined in the module (`:115`): it is imported inside of another function only. -/
def arrayMesh (real hasRoot nmesh : Bool) : Except Err Unit := do
  if !nmesh then
    if real && hasRoot then pure () else throw .valueError
  throw .nameError

end Verif.Model
