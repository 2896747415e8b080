import Verif.Model.Isometry
import Verif.Model.Remap

/-!
# Model of `BoxCatalog`

`/repo/mockfactory/make_survey.py:660-887` (moves, `remap`, `subbox`, `pad`). A catalog is a list of rows held by one
process. Aliasing between catalogs is the subject of `Verif/Model/Alias.lean`; here every method returns the new value.
-/

namespace Verif.Model

open Verif
open Remap (Cuboid)

/-- One row of a `ParticleCatalog` (`make_survey.py:525-613`): position, velocity, the other columns listed in `vectors`
(`vecs`: those that move under translations, `tis`: those also listed in `translational_invariants`), and all the
remaining columns (`rest`). -/
@[ext] structure Row (ρ : Type) where
  pos : V3 ℝ
  vel : V3 ℝ
  vecs : List (V3 ℝ)
  tis : List (V3 ℝ)
  rest : ρ

/-- State of a `BoxCatalog` (`make_survey.py:660-704`). -/
@[ext] structure Box (ρ : Type) where
  boxsize : V3 ℝ
  boxcenter : V3 ℝ
  rows : List (Row ρ)

namespace Row
variable {ρ : Type}

/-- Loop over the vector columns `for name in self.vectors: self[name] = operation.transform(self[name],
translational_invariant=name in self._translational_invariants)` (`make_survey.py:722-723`, `:747-748`, `:656-657`). -/
def transform (op : Isom) (r : Row ρ) : Row ρ :=
  { r with pos := op.transform r.pos false, vel := op.transform r.vel true,
           vecs := r.vecs.map fun v => op.transform v false, tis := r.tis.map fun v => op.transform v true }

end Row

/-- `boxsize` and `boxcenter` arguments: `None`, a number or a 3-vector.
(`make_survey.py:668, 685-690`). -/
inductive SizeArg where
  | none
  | scalar (a : ℝ)
  | vec (v : V3 ℝ)

/-- `_make_array(value, 3)` (`make_survey.py:52-56`). -/
def SizeArg.toVec : SizeArg → Option (V3 ℝ)
  | .none => Option.none
  | .scalar a => some (V3.const a)
  | .vec v => some v

namespace Box
variable {ρ : Type}

/-- `make_survey.py:692-704` `from_dict`: `attrsSize`, `attrsCenter` are the entries 'boxsize' and 'boxcenter' of `attrs`
(`.none` if missing). -/
def fromDict (rows : List (Row ρ)) (boxsize boxcenter attrsSize attrsCenter : SizeArg) : Except Err (Box ρ) :=
  let size := match boxsize.toVec with
    | some v => some v
    | Option.none => attrsSize.toVec
  match size with
  | Option.none => .error .valueError
  | some s =>
    let center := match boxcenter.toVec with
      | some v => v
      | Option.none => match attrsCenter.toVec with
        | some v => v
        | Option.none => V3.const 0
    .ok ⟨s, center, rows⟩

/-- Result of an in-place method: catalog left behind and exception raised, if any.
(`make_survey.py:706-748`). -/
abbrev Step (ρ : Type) := Box ρ × Option Err

/-- `make_survey.py:706-723` `translate`. -/
def translate (b : Box ρ) (shift : Isom.Shift) (axis : Isom.TAxis) : Step ρ :=
  match Isom.init.translation shift axis .origin with
  | (_, some e) => (b, some e)
  | (op, Option.none) =>
    ({ b with boxcenter := op.transform b.boxcenter false, rows := b.rows.map (Row.transform op) }, Option.none)

/-- `make_survey.py:725-727` `recenter`. -/
def recenter (b : Box ρ) : Step ρ := b.translate (.vec (-b.boxcenter)) .none

/-- `make_survey.py:729-748` `rotate`. -/
noncomputable def rotate (b : Box ρ) (angleOverHalfpi : ℤ) (axis : Axis) : Step ρ :=
  let angle : ℝ := angleOverHalfpi * Real.pi / 2
  match Isom.init.rotation angle axis false .origin with
  | (_, some e) => (b, some e)
  | (op, Option.none) =>
    ({ boxcenter := op.transform b.boxcenter false
       boxsize := (op.transform b.boxsize true).map abs
       rows := b.rows.map (Row.transform op) }, Option.none)

/-- The in-place moves, with their arguments. (`make_survey.py:706-748`). -/
inductive Move where
  | translate (shift : Isom.Shift) (axis : Isom.TAxis)
  | recenter
  | rotate (angleOverHalfpi : ℤ) (axis : Axis)

/-- One call. (`make_survey.py:706-748`). -/
noncomputable def move (b : Box ρ) : Move → Step ρ
  | .translate s a => b.translate s a
  | .recenter => b.recenter
  | .rotate k a => b.rotate k a

/-- Catalog after a history of calls; the caller catches exceptions and carries on.
(`make_survey.py:706-748`). -/
noncomputable def run (b : Box ρ) (ops : List Move) : Box ρ := ops.foldl (fun b op => (b.move op).1) b

/-- `self.boxcenter - self.boxsize / 2.` (`make_survey.py:838, 879`). -/
noncomputable def lower (b : Box ρ) : V3 ℝ :=
  ⟨b.boxcenter.x - b.boxsize.x / 2, b.boxcenter.y - b.boxsize.y / 2, b.boxcenter.z - b.boxsize.z / 2⟩
/-- `self.boxcenter + self.boxsize / 2.` (`make_survey.py:838, 879`). -/
noncomputable def upper (b : Box ρ) : V3 ℝ :=
  ⟨b.boxcenter.x + b.boxsize.x / 2, b.boxcenter.y + b.boxsize.y / 2, b.boxcenter.z + b.boxsize.z / 2⟩

/-- Arguments of `remap` (`make_survey.py:788-801`). -/
inductive RemapArgs where
  /-- no argument -/
  | nothing
  /-- one `Cuboid` -/
  | cuboid (c : Cuboid)
  /-- three lattice vectors, as three arguments or as one sequence of three -/
  | vectors (u1 u2 u3 : V3 ℝ)
  /-- one sequence holding a single lattice vector: `cuboid` is never assigned -/
  | single (u : V3 ℝ)

/-- `make_survey.py:788-801`: the cuboid `remap` uses. -/
noncomputable def remapCuboid (b : Box ρ) : RemapArgs → Except Err Cuboid
  | .nothing => .error .valueError
  | .cuboid c => .ok c
  | .vectors u1 u2 u3 => Cuboid.init u1 u2 u3 b.boxsize
  | .single _ => .error .nameError

/-- One column of positions through `cuboid.transform(self[name] - offset) + cuboidoffset` (`make_survey.py:806`),
row by row: `Cuboid.transform` raises as soon as one row is in no cell. -/
noncomputable def remapPos (c : Cuboid) (offset cuboidoffset p : V3 ℝ) : Except Err (V3 ℝ) := do
  match ← c.transform [p - offset] false with
  | [q] => .ok (q + cuboidoffset)
  | _ => .error .valueError

/-- `make_survey.py:803-806`, one row. -/
noncomputable def remapRow (c : Cuboid) (offset cuboidoffset : V3 ℝ) (r : Row ρ) : Except Err (Row ρ) := do
  let pos ← remapPos c offset cuboidoffset r.pos
  let vecs ← r.vecs.mapM (remapPos c offset cuboidoffset)
  return { r with pos := pos, vel := c.project r.vel, vecs := vecs, tis := r.tis.map c.project }

/-- `make_survey.py:774-809` `remap`. -/
noncomputable def remap (b : Box ρ) (args : RemapArgs) : Except Err (Box ρ) := do
  let cuboid ← b.remapCuboid args
  let new : Box ρ := { b with boxsize := cuboid.cuboidsize }
  let rows ← b.rows.mapM (remapRow cuboid b.lower new.lower)
  return { new with rows := rows }

/-- The `ranges` argument of `subbox`: one range, or a sequence of ranges. (`make_survey.py:811-838`). -/
inductive Ranges where
  | one (min max : ℝ)
  | many (l : List (ℝ × ℝ))

open Classical in
/-- `make_survey.py:811-850` `subbox`. -/
noncomputable def subbox (b : Box ρ) (ranges : Ranges) (boxsizeUnit : Bool) : Except Err (Box ρ) :=
  let ranges := match ranges with
    | .one lo hi => [(lo, hi), (lo, hi), (lo, hi)]
    | .many l => l
  match ranges with
  | [r0, r1, r2] =>
    let conv (size offset : ℝ) (r : ℝ × ℝ) : ℝ × ℝ :=
      if boxsizeUnit then (size * r.1 + offset, size * r.2 + offset) else r
    let x := conv b.boxsize.x b.lower.x r0
    let y := conv b.boxsize.y b.lower.y r1
    let z := conv b.boxsize.z b.lower.z r2
    let box0 : V3 ℝ := ⟨max b.lower.x x.1, max b.lower.y y.1, max b.lower.z z.1⟩
    let box1 : V3 ℝ := ⟨min b.upper.x x.2, min b.upper.y y.2, min b.upper.z z.2⟩
    .ok { boxsize := box1 - box0
          boxcenter := (box1 + box0).map (· / 2)
          rows := b.rows.filter fun r => decide ((x.1 ≤ r.pos.x ∧ r.pos.x < x.2) ∧ (y.1 ≤ r.pos.y ∧ r.pos.y < y.2) ∧
            (z.1 ≤ r.pos.z ∧ r.pos.z < z.2)) }
  | _ => .error .valueError

/-- `np.arange(-np.ceil(factor) + 1, np.ceil(factor))` (`make_survey.py:873`). -/
noncomputable def padShifts (factor : ℝ) : List ℝ :=
  (Remap.arange (-⌈factor⌉ + 1) ⌈factor⌉).map fun k : ℤ => (k : ℝ)

/-- `self.boxsize * shift` (`make_survey.py:877`), where `shift` is a 1-tuple holding one array of shape (n,), because line
876 has `itertools.product(shifts)` and not `itertools.product(*shifts)`: shapes (3,) and (1, n) broadcast to (1, 3) for
n = 1 and n = 3, and raise `ValueError` otherwise. -/
def padBroadcast (boxsize : V3 ℝ) : List ℝ → Except Err (V3 ℝ)
  | [k] => .ok ⟨boxsize.x * k, boxsize.y * k, boxsize.z * k⟩
  | [i, j, k] => .ok ⟨boxsize.x * i, boxsize.y * j, boxsize.z * k⟩
  | _ => .error .valueError

/-- `tmp` (`make_survey.py:874-877`), one row: all the position-like columns are shifted, the others are kept. -/
def shiftRow (s : V3 ℝ) (r : Row ρ) : Row ρ := { r with pos := r.pos + s, vecs := r.vecs.map (· + s) }

open Classical in
/-- `make_survey.py:878-884`: the shifted rows whose position is in the closed padded box. -/
noncomputable def padImage (b : Box ρ) (newsize s : V3 ℝ) : List (Row ρ) :=
  let new : Box ρ := { b with boxsize := newsize }
  (b.rows.map (shiftRow s)).filter fun r => decide
    ((new.lower.x ≤ r.pos.x ∧ new.lower.y ≤ r.pos.y ∧ new.lower.z ≤ r.pos.z) ∧
      (r.pos.x ≤ new.upper.x ∧ r.pos.y ≤ new.upper.y ∧ r.pos.z ≤ new.upper.z))

/-- `make_survey.py:852-887` `pad`, for one factor per axis. `copy` is assumed to copy the `_boxsize` array, otherwise
line 871 would also change `self.boxsize`, see `Verif/Model/Alias.lean`. -/
noncomputable def pad (b : Box ρ) (factors : V3 ℝ) : Except Err (Box ρ) := do
  let newsize := V3.emul b.boxsize factors
  let shifts ← [padShifts factors.x, padShifts factors.y, padShifts factors.z].mapM (padBroadcast b.boxsize)
  return { b with boxsize := newsize, rows := shifts.flatMap (b.padImage newsize) }

end Box

end Verif.Model
