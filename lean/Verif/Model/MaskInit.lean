import Verif.Model.Mask
import Verif.Model.Radial
import Verif.Model.Names

/-!
# Model of the constructors of masks

`/repo/mockfactory/make_survey.py:1205-1249`, `:1375-1433`, `:1743-1856`. Files are represented by their content; the wrapper
`CurrentMPIComm.enable` of mpytools passes `mpicomm` as a keyword, which is an assumption on this package.
-/

namespace Verif.Model.MaskInit

open Verif Verif.Model

/-! ### Collections -/

/-- `make_survey.py:1246`: `MaskCollection(...)` runs `BaseMask.__init__` (`:1205-1216`), whose only argument is `mpicomm`: a positional
argument, here the items of a dictionary, is a second value for `mpicomm`. The dictionary is empty. -/
def collectionInit {κ α : Type} (positional : Option (List (κ × α))) : Except Err (List (κ × α)) :=
  match positional with
  | none => .ok []
  | some _ => .error .typeError

/-- `masks[label] = mask`, one by one (`make_survey.py:1246`: the class is a `dict`). -/
def collectionFill {κ α : Type} [DecidableEq κ] (masks : List (κ × α)) (items : List (κ × α)) : List (κ × α) :=
  items.foldl (fun d x => Names.put x.1 x.2 d) masks

/-! ### Tabulated radial masks -/

/-- `make_survey.py:1380`, `:1408-1420`: nodes of `TabulatedRadialMask`. `z` is a required argument of the function; a file replaces
`z` and `nbar`; comparing `None` with a number raises `TypeError` (`:1420`). -/
def tabulatedNodes (z nbar : Option (List ℝ)) (file : Option (List (ℝ × ℝ))) : Except Err (List (ℝ × ℝ)) :=
  match z with
  | none => .error .typeError
  | some z => match file with
    | some rows => .ok rows
    | none => match nbar with
      | none => .error .typeError
      | some nbar => .ok (z.zip nbar)

/-- `make_survey.py:1380-1427` `TabulatedRadialMask.__init__` with its arguments, linear interpolation (`Verif/Model/Radial.lean`). -/
noncomputable def tabulated (z nbar : Option (List ℝ)) (file : Option (List (ℝ × ℝ))) (zrange : Option Range) (norm : Option ℝ) :
    Except Err TabMask := do TabMask.init (← tabulatedNodes z nbar file) zrange norm

/-! ### Mangle masks -/

/-- Polygons: identifier and weight of a direction, `polyid_and_weight` of pymangle. (`make_survey.py:1792`). -/
abbrev Polygons := ℝ → Option ℝ → ℤ × ℝ

/-- The attribute `nbar` of a Mangle mask: the object of pymangle read from a file, or `np.asarray` of the argument, an array without
dimension that holds it. (`make_survey.py:1768-1770`). -/
inductive MangleAttr where
  | object (p : Polygons)
  | array (p : Option Polygons)

/-- `make_survey.py:1750-1770` `MangleAngularMask.__init__`. -/
def mangleInit (nbar file : Option Polygons) : MangleAttr :=
  match file with
  | some p => .object p
  | none => .array nbar

/-- `make_survey.py:1772-1796` `MangleAngularMask.prob`, one direction: arrays have no method `polyid_and_weight`. -/
noncomputable def manglePr (nbar : MangleAttr) (rarange decrange : Option Range) (ra : ℝ) (dec : Option ℝ) : Except Err ℝ :=
  match nbar with
  | .array _ => .error .attributeError
  | .object p =>
    let r := p (wrapAngle ra) dec
    .ok (mangleProb rarange decrange ra dec r.1 r.2)

/-! ### Healpix masks -/

/-- Keywords of `BaseAngularMask.__init__`. (`make_survey.py:1633`). -/
def angularKeywords : List String := ["rarange", "decrange", "mpicomm"]

/-- Keywords of `healpy.fitsfunc.read_map` besides `nest`, as documented by healpy (not part of this repository).
(`make_survey.py:1827`). -/
def readMapKeywords : List String := ["field", "dtype", "partial", "hdu", "h", "verbose", "memmap", "offset"]

open Classical in
/-- `make_survey.py:1809-1830` `HealpixAngularMask.__init__`: the map. `kwargs` are the names of the other keywords, all of them passed
both to the base class and, with a file, to `read_map`. `np.asarray(None)` has one element. `npix2nside` accepts the sizes 12 n². -/
noncomputable def healpixInit (nbar file : Option (List ℝ)) (kwargs : List String) : Except Err (List ℝ) :=
  if ¬ kwargs ⊆ angularKeywords then .error .typeError
  else do
    let map ← match file with
      | some m => if kwargs ⊆ readMapKeywords then .ok m else .error .typeError
      | none => match nbar with
        | some m => .ok m
        | none => .error .valueError
    if ∃ n : ℕ, 0 < n ∧ map.length = 12 * n ^ 2 then .ok map else .error .valueError

end Verif.Model.MaskInit
