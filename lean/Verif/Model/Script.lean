import Verif.Model.Mask
import Verif.Model.Cutsky

/-!
# Model of `/repo/desi/from_box_to_desi_cutsky.py`, first part

`remap_the_box` and `apply_rsd_and_cutsky`. Arithmetic is exact, so that two lattices giving the same box size share one
key of the dictionary of `generate_lattice_vectors`; in floating point the keys differ by rounding, see
`Verif/Model/RoundedRemap.lean`.
-/

namespace Verif.Model.Script
open Verif
open Verif.Model.Remap (generateLatticeVectors toReal)

/-- Three lattice vectors. (`from_box_to_desi_cutsky.py:25-29`). -/
abbrev L3 := V3 ℤ × V3 ℤ × V3 ℤ

/-- `from_box_to_desi_cutsky.py:25-27`: the lattice vectors tried by the script; `coprimes` is the order in which python
goes through the set of coprime triples. -/
noncomputable def scriptLattice (coprimes : List (List ℤ)) : Remap.Dict (List ℝ) (List L3) :=
  generateLatticeVectors coprimes (some 1) (V3.const 5500)
    [⟨8000, some 10000⟩, ⟨4000, some 5000⟩, ⟨2000, some 4000⟩] false

/-- `from_box_to_desi_cutsky.py:29`, `list(lattice.values())[1][0]`. -/
def pickLattice {κ : Type} (lattice : Remap.Dict κ (List L3)) : Except Err L3 :=
  match lattice[1]? with
  | none => .error .indexError
  | some (_, l) =>
    match l[0]? with
    | none => .error .indexError
    | some u => .ok u

/-- `from_box_to_desi_cutsky.py:30-38`: the catalog remapped with the vectors, then turned twice. Exceptions raised by the
in-place rotations are passed on. -/
noncomputable def remapWith {ρ : Type} (u : L3) (catalog : Box ρ) : Except Err (Box ρ) := do
  let catalog ← catalog.remap (.vectors (toReal u.1) (toReal u.2.1) (toReal u.2.2))
  match catalog.rotate 1 (.str "y") with
  | (_, some e) => .error e
  | (catalog, none) =>
    match catalog.rotate 1 (.str "x") with
    | (_, some e) => .error e
    | (catalog, none) => .ok catalog

/-- `from_box_to_desi_cutsky.py:16-38` `remap_the_box`. -/
noncomputable def remapTheBox {ρ : Type} (coprimes : List (List ℤ)) (catalog : Box ρ) : Except Err (Box ρ) := do
  let u ← pickLattice (scriptLattice coprimes)
  remapWith u catalog

/-- A row of the cut-sky catalog of the script, with columns 'RSDPosition', 'DISTANCE', 'RA', 'DEC'.
(`from_box_to_desi_cutsky.py:84-88`). -/
structure SurveyRow (ρ : Type) where
  row : Row ρ
  rsdPosition : V3 ℝ
  sky : Sky

/-- Call of `utils.cartesian_to_sky(position, degree=True)` (`utils.py:42`) on an array, with keyword arguments: python
refuses the unknown ones before doing anything. -/
noncomputable def cartesianToSkyCall (keywords : List String) (position : List (V3 ℝ)) : Except Err (List Sky) :=
  if keywords.all (fun k => k == "degree") then .ok (position.map fun p => cartesianToSky p true) else .error .typeError

/-- `from_box_to_desi_cutsky.py:41-93` `apply_rsd_and_cutsky`, with the keyword arguments passed to `cartesian_to_sky` as
a parameter: line 89 passes `wrap=True`, see `applyRsdAndCutsky`. The masks, which the script does not use, are left out. -/
noncomputable def rsdAndCutsky {ρ : Type} (keywords : List String) (catalog : Box ρ)
    (dmin dmax rsdFactor centerRa centerDec : ℝ) : Except Err (List (SurveyRow ρ)) := do
  let (drange, rarange, decrange) ← boxToCutsky catalog.boxsize dmax dmin
  let rarange : Model.Range := (rarange.1 + centerRa, rarange.2 + centerRa)
  let decrange : Model.Range := (decrange.1 + centerDec, decrange.2 + centerDec)
  match ← isometryForCutsky catalog drange rarange decrange (.all none) (.all none) (some 1) with
  | .many _ => .error .attributeError
  | .one isometry =>
    let data := (cutskyFromIsometry catalog isometry none none none).map fun r => r.row
    let rsd ← rsdPosition (.const rsdFactor) .none (data.map fun r => r.pos) (data.map fun r => r.vel)
    let sky ← cartesianToSkyCall keywords rsd
    .ok (List.zipWith (fun r s => ⟨r, s.1, s.2⟩) data (rsd.zip sky))

/-- `from_box_to_desi_cutsky.py:41-93` `apply_rsd_and_cutsky`. -/
noncomputable def applyRsdAndCutsky {ρ : Type} (catalog : Box ρ) (dmin dmax rsdFactor centerRa centerDec : ℝ) :
    Except Err (List (SurveyRow ρ)) :=
  rsdAndCutsky ["wrap"] catalog dmin dmax rsdFactor centerRa centerDec

end Verif.Model.Script
