import Verif.Model.Script
import Verif.Model.Sv3
import Verif.Model.Footprint
import Mathlib.Data.Int.Bitwise

/-!
# Model of the cuts of the SV3 script

`/repo/desi/from_box_to_desi_sv3_cutsky.py:99-126` (lattices of the remapped boxes) and `:185-248` (one group of rosettes, one catalog:
mean line of sight, remapping, isometries, redshift space distortions, selection of the rows).
-/

namespace Verif.Model.Sv3

open Verif Verif.Model

/-- `from_box_to_desi_sv3_cutsky.py:105`: `Cuboid.generate_lattice_vectors(maxint=3, maxcomb=1, sort=False, boxsize=500.)`. The
copy kept in a file (`:101-106`) is not modelled. -/
noncomputable def lattice (coprimes : List (List ℤ)) : Remap.Dict (List ℝ) (List Script.L3) :=
  Remap.generateLatticeVectors coprimes (some 1) (V3.const 500) [] false

/-- `from_box_to_desi_sv3_cutsky.py:119-126`, sizes of the remapped boxes. The script writes the decimal expansions of these numbers
(to 17 digits) and uses them as keys of the dictionary. -/
noncomputable def cuboidsize1 : List ℝ := [500 * Real.sqrt 6, 500 * Real.sqrt (5 / 6), 500 * Real.sqrt (1 / 5)]

/-- `from_box_to_desi_sv3_cutsky.py:122`, same. -/
noncomputable def cuboidsize2 : List ℝ := [500 * Real.sqrt 6, 500 * Real.sqrt (1 / 2), 500 * Real.sqrt (1 / 3)]

/-- `lattice[cuboidsize][0]` (`from_box_to_desi_sv3_cutsky.py:201`). -/
noncomputable def latticeAt (d : Remap.Dict (List ℝ) (List Script.L3)) (size : List ℝ) : Except Err Script.L3 :=
  open Classical in
  match d.lookup size with
  | none => .error .keyError
  | some [] => .error .indexError
  | some (u :: _) => .ok u

/-- `from_box_to_desi_sv3_cutsky.py:194-195`: mean of the unit vectors to the rosettes. -/
noncomputable def meanLos (dirs : List (ℝ × ℝ)) : Except Err (V3 ℝ) :=
  if dirs = [] then .error .nan
  else .ok ((1 / (dirs.length : ℝ)) • (dirs.map fun d => skyToCartesian (.float 1) (.float d.1) (.float d.2)).foldr (· + ·) 0)

/-- `from_box_to_desi_sv3_cutsky.py:196`. -/
noncomputable def groupCenter (los : V3 ℝ) : Except Err (ℝ × ℝ) :=
  let sky := cartesianToSky los
  match sky.dec with
  | none => .error .nan
  | some dec => .ok (sky.ra, dec)

/-- `from_box_to_desi_sv3_cutsky.py:197`: `EuclideanIsometry().rotation(angle, axis=los)`. -/
noncomputable def losRotation (angle : ℝ) (los : V3 ℝ) : Except Err Isom :=
  match Isom.init.rotation angle (.vec los) true .origin with
  | (_, some e) => .error e
  | (rot, none) => .ok rot

/-- `from_box_to_desi_sv3_cutsky.py:203-207`: the remapped box moved to the sky, then rotated about the line of sight. -/
noncomputable def moveGroup {ρ : Type} (remapped : Box ρ) (dmax ra0 dec0 : ℝ) (rot : Isom) : Except Err (List (Row ρ)) := do
  let (drange, rarange, decrange) ← boxToCutsky remapped.boxsize dmax 0
  let rarange : Model.Range := (rarange.1 + ra0, rarange.2 + ra0)
  let decrange : Model.Range := (decrange.1 + dec0, decrange.2 + dec0)
  match ← isometryForCutsky remapped drange rarange decrange (.all none) (.all none) (some 1) with
  | .many _ => .error .attributeError
  | .one isometry => .ok (((cutskyFromIsometry remapped isometry none none none).map fun r => r.row).map fun r => r.transform rot)

/-- `from_box_to_desi_sv3_cutsky.py:209-213`: positions with redshift space distortions for the data, without for the randoms. -/
noncomputable def usedPosition {ρ : Type} (data : Bool) (rsdFactor : ℝ) (rows : List (Row ρ)) : Except Err (List (V3 ℝ)) :=
  if data then rsdPosition (.const rsdFactor) .none (rows.map fun r => r.pos) (rows.map fun r => r.vel)
  else .ok (rows.map fun r => r.pos)

/-- `from_box_to_desi_sv3_cutsky.py:194-215`, one group of rosettes and one catalog, up to the sky coordinates; `data` tells the data
from the randoms, `u` is `lattice[cuboidsize][0]`. In the result, `rsdPosition` is the position used for the sky coordinates. -/
noncomputable def cutGroup {ρ : Type} (data : Bool) (catalog : Box ρ) (u : Script.L3) (dirs : List (ℝ × ℝ)) (angle dmax rsdFactor : ℝ) :
    Except Err (List (Script.SurveyRow ρ)) := do
  let los ← meanLos dirs
  let (ra0, dec0) ← groupCenter los
  let rot ← losRotation angle los
  let remapped ← catalog.remap (.vectors (Remap.toReal u.1) (Remap.toReal u.2.1) (Remap.toReal u.2.2))
  let rows ← moveGroup remapped dmax ra0 dec0 rot
  let position ← usedPosition data rsdFactor rows
  .ok (List.zipWith (fun r p => ⟨r, p, cartesianToSky p⟩) rows position)

/-! ### Selection -/

/-- `from_box_to_desi_sv3_cutsky.py:192`: tiles of the rosettes of a group. -/
def groupTiles (tiles : List (ℕ × List ℤ)) : List ℕ → Except Err (List ℤ)
  | [] => .ok []
  | r :: rs => do
    match tiles.lookup r with
    | none => .error .keyError
    | some t => .ok (t ++ (← groupTiles tiles rs))

/-- `from_box_to_desi_sv3_cutsky.py:240-243`: rows with none of the bits. -/
def maskBits {α : Type} (bits : List ℕ) (maskbits : α → ℤ) (rows : List α) : List α :=
  pick rows (rows.map fun r => bits.foldl (fun m b => m && decide (Int.land (maskbits r) (2 ^ b) = 0)) true)

/-- `from_box_to_desi_sv3_cutsky.py:219-221` and `:235-243`: selection on the tiles, the radial mask (probability `prob`, draws `u`) and,
if `bits` is given, the mask bits. `table`: TILEID and position of the tiles of the survey. -/
noncomputable def selectRows {α : Type} (dm : Footprint.Desimodel) (table : List (ℤ × Footprint.Pos)) (tiles : List ℤ)
    (prob : ℝ → ℝ) (u : List ℝ) (bits : Option (List ℕ)) (pos : α → Footprint.Pos) (z : α → ℝ) (maskbits : α → ℤ) (rows : List α) :
    List α :=
  let selected := (table.filter fun t => decide (t.1 ∈ tiles)).map fun t => t.2
  let inside := rows.map fun r => (dm.inDesi selected (pos r)).1
  let mask := List.zipWith (· && ·) inside (maskCall (rows.map fun r => prob (z r)) u)
  let kept := pick rows mask
  match bits with
  | none => kept
  | some bits => if bits = [] then kept else maskBits bits maskbits kept

end Verif.Model.Sv3
