import Verif.Basic.Real
import Verif.Basic.Vec

/-!
# Model of the DESI footprint cuts

`/repo/mockfactory/desi/footprint.py` and the region functions of `/repo/desi/from_box_to_desi_cutsky.py`. The tile files and the
functions of `desimodel`, `regressis` and the process environment are parameters. Positions are arrays of one dimension. Logging is
left out.
-/

namespace Verif.Model.Footprint

open Verif

/-! ## Import of the module (`footprint.py:10-24`) -/

/-- The variables of the process environment. (`footprint.py:11-23`). -/
abbrev Env := String → Option String

/-- `os.environ[name] = value`. (`footprint.py:23`). -/
def Env.set (env : Env) (name value : String) : Env := fun n => if n = name then some value else env n

/-- `/global/cfs/cdirs/desi/spectro/redux`, default of `redux_path` (`footprint.py:15`). -/
def defaultRedux : String := "/global/cfs/cdirs/desi/spectro/redux"

/-- Default of `DESI_SURVEYOPS` (`footprint.py:23`). -/
def defaultOps : String := "/global/cfs/cdirs/desi/survey/ops/surveyops/trunk"

/-- `redux_path` and the environment after the import of the module (`footprint.py:11-23`). The second `try` is part of the
`except` block of the first one, and assigns `redux_path`. -/
def importModule (env : Env) : String × Env :=
  match env "DESI_SPECTRO_REDUX" with
  | some path => (path, env)
  | none =>
    let reduxPath := defaultRedux
    match env "DESI_SURVEYOPS" with
    | some path => (path, env)
    | none => (reduxPath, env.set "DESI_SURVEYOPS" defaultOps)

/-- `os.path.join(a, b)` of a path `b` that is not absolute. (`footprint.py:26`). -/
def joinPath (a b : String) : String :=
  if a = "" ∨ a.toList.getLast? = some '/' then a ++ b else a ++ "/" ++ b

/-- The default `tiles_fn`, `os.path.join(redux_path, '{redux}/tiles-{redux}.csv')` (`footprint.py:26`), as the function of `redux`
given by `tiles_fn.format(redux=redux)` (`footprint.py:91`). Braces in `redux_path`, which `format` would read as fields, are not
modelled. -/
def defaultTilesFn (reduxPath redux : String) : String :=
  joinPath reduxPath (redux ++ "/tiles-" ++ redux ++ ".csv")

/-! ## Tiles and positions -/

/-- A row of a csv file of tiles: the columns used by `is_in_desi_footprint`, and the identifier.
(`footprint.py:92-96`). -/
structure CsvTile where
  tileid : ℤ
  survey : String
  faprgrm : String
  lastnight : ℤ
  tilera : ℝ
  tiledec : ℝ

/-- A row of the table of `desimodel.io.load_tiles`. (`footprint.py:87-88`). -/
structure OpsTile where
  tileid : ℤ
  program : String
  ra : ℝ
  dec : ℝ

/-- RA, Dec. (`footprint.py:25`). -/
abbrev Pos := ℝ × ℝ

/-- What the function reads from disk and from `desimodel`: the csv file at a path, the table of `load_tiles`,
`find_tiles_over_point` (rows of the tiles over a position) and `is_point_in_desi` (whether the position is in a tile, and the row of
the closest tile). Both functions of `desimodel` only use the columns RA, DEC of the tiles.
(`footprint.py:87, 92, 99, 105`). -/
structure Desimodel where
  readCsv : String → Except Err (List CsvTile)
  loadTiles : Except Err (List OpsTile)
  overPoint : List Pos → Pos → List ℕ
  inDesi : List Pos → Pos → Bool × ℕ

/-- What `is_in_desi_footprint` returns: the mask, with the rows of the tiles of each position or with one row for each position
if requested. (`footprint.py:98-105`). -/
inductive Answer where
  | mask (m : List Bool)
  | maskRows (m : List Bool) (rows : List (List ℕ))
  | maskRow (m : List Bool) (row : List ℕ)

/-- The branches on `release` (`footprint.py:68-83`): `some (redux, lastnight)` for the csv files, `none` for `y5`. -/
def releaseTable (release : String) : Except Err (Option (String × Option ℤ)) :=
  let release := release.toLower
  if release ∈ ["sv3", "onepercent"] then .ok (some ("fuji", none))
  else if release ∈ ["da02", "m3"] then .ok (some ("guadalupe", none))
  else if release = "y1" then .ok (some ("daily", some 20220613))
  else if release = "y3" then .ok (some ("loa", none))
  else if release = "y5" then .ok none
  else .error .valueError

/-- The tiles (`footprint.py:85-96`), as the list of their centres. -/
def selectTiles (dm : Desimodel) (release program survey : String) (tilesFn : String → String) : Except Err (List Pos) := do
  match ← releaseTable release with
  | none =>
    let tiles ← dm.loadTiles
    let tiles := tiles.filter fun t => t.program = program.toUpper
    return tiles.map fun t => (t.ra, t.dec)
  | some (redux, lastnight) =>
    let tiles ← dm.readCsv (tilesFn redux)
    let tiles := tiles.filter fun t => t.survey = survey ∧ t.faprgrm = program
    let tiles := match lastnight with
      | some night => tiles.filter fun (t : CsvTile) => t.lastnight ≤ night
      | none => tiles
    return tiles.map fun (t : CsvTile) => (t.tilera, t.tiledec)

/-- `is_in_desi_footprint` (`footprint.py:25-105`). -/
def isInDesiFootprint (dm : Desimodel) (points : List Pos) (release : String) (npasses : Option ℤ) (program survey : String)
    (tilesFn : String → String) (returnTileIndex : Bool) : Except Err Answer := do
  let tiles ← selectTiles dm release program survey tilesFn
  match npasses with
  | some n =>
    let tileId := points.map (dm.overPoint tiles)
    let mask := tileId.map fun tt => decide (n ≤ (tt.length : ℤ))
    if returnTileIndex then return .maskRows mask tileId
    else return .mask mask
  | none =>
    if returnTileIndex then
      return .maskRow (points.map fun p => (dm.inDesi tiles p).1) (points.map fun p => (dm.inDesi tiles p).2)
    else return .mask (points.map fun p => (dm.inDesi tiles p).1)

/-! ## Photometric regions (`from_box_to_desi_cutsky.py:201-252`) -/

/-- `photometric_region_center` (`from_box_to_desi_cutsky.py:201-212`). In the last branch the `ValueError` is built but not raised,
so that `ra` has no value at the `return` (`UnboundLocalError`, a `NameError`). -/
noncomputable def regionCenter (region : String) : Except Err Pos :=
  if region = "N" then .ok (192.3, 56)
  else if region ∈ ["N+DN", "N+SNGC"] then .ok (192, 35)
  else if region ∈ ["DN", "SNGC"] then .ok (192, 13)
  else if region ∈ ["DS", "SSGC"] then .ok (6.4, 5.3)
  else .error .nameError

/-- `regressis`: the healpix pixel of a position, and the footprint maps by name.
(`from_box_to_desi_cutsky.py:244-253`). -/
structure Regressis where
  pixel : Pos → ℕ
  footprint : String → ℕ → Bool

/-- `convert_dict` (`from_box_to_desi_cutsky.py:252`). -/
def convertDict : List (String × String) :=
  [("N", "north"), ("DN", "south_mid_ngc"), ("N+SNGC", "ngc"), ("SNGC", "south_mid_ngc"), ("DS", "south_mid_sgc"),
    ("SSGC", "south_mid_sgc"), ("DES", "des")]

/-- The cuts on RA, Dec used without `regressis` (`from_box_to_desi_cutsky.py:226-242`) for one position. -/
noncomputable def fallbackMask (region : String) (p : Pos) : Bool :=
  let (ra, dec) := p
  let decCut : ℝ := 32.375
  let mask := if region = "N" then decide (dec > decCut) else decide (dec < decCut)
  if region ∈ ["DN", "DS", "SNGC", "SSGC"] then
    let maskRa := decide (ra > 100 - dec) && decide (ra < 280 + dec)
    if region ∈ ["DN", "SNGC"] then mask && maskRa
    else (mask && decide (dec > -25)) && !maskRa
  else mask

/-- `is_in_photometric_region` (`from_box_to_desi_cutsky.py:215-253`): the pixels (`none` for `nan`) and the mask. `regressis` is
`none` if the package is not installed. -/
noncomputable def isInPhotometricRegion (regressis : Option Regressis) (points : List Pos) (region : String) :
    Except Err (List (Option ℕ) × List Bool) :=
  let region := region.toUpper
  if region ∈ ["N", "DN", "DS", "N+SNGC", "SNGC", "SSGC", "DES"] then
    match regressis with
    | none =>
      if region = "DES" then .error .valueError
      else .ok (points.map fun _ => none, points.map (fallbackMask region))
    | some r =>
      match convertDict.lookup region with
      | none => .error .keyError
      | some name => .ok (points.map fun p => some (r.pixel p), points.map fun p => r.footprint name (r.pixel p))
  else .error .assertionError

/-- `catalog[mask]`. (`from_box_to_desi_cutsky.py:269`). -/
def takeRows {α : Type*} : List α → List Bool → List α
  | x :: xs, b :: bs => if b then x :: takeRows xs bs else takeRows xs bs
  | _, _ => []

/-- An object of a cutsky: RA, Dec, its other columns, and the column `HPX` once it is set.
(`from_box_to_desi_cutsky.py:256-269`). -/
structure Obj (α : Type*) where
  pos : Pos
  rest : α
  hpx : Option (Option ℕ)

/-- `cutsky['HPX'] = values`. (`from_box_to_desi_cutsky.py:267`). -/
def setHpx {α : Type*} (objs : List (Obj α)) (values : List (Option ℕ)) : List (Obj α) :=
  objs.zipWith (fun o v => { o with hpx := some v }) values

/-- `apply_photo_desi_footprint` (`from_box_to_desi_cutsky.py:256-269`) on one rank: the catalog given by the caller, which receives
the column `HPX`, and the catalog returned. -/
noncomputable def applyPhotoDesiFootprint {α : Type} (dm : Desimodel) (regressis : Option Regressis) (tilesFn : String → String)
    (cutsky : List (Obj α)) (region release program : String) (npasses : Option ℤ) : Except Err (List (Obj α) × List (Obj α)) := do
  let points := cutsky.map Obj.pos
  let answer ← isInDesiFootprint dm points release npasses program "main" tilesFn false
  match answer with
  | .mask isInDesi =>
    let (hpx, isInPhoto) ← isInPhotometricRegion regressis points region
    let cutsky := setHpx cutsky hpx
    return (cutsky, takeRows cutsky (isInDesi.zipWith (· && ·) isInPhoto))
  | _ => throw .typeError

end Verif.Model.Footprint
