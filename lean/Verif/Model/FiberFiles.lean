import Verif.Model.Fiber
import Verif.Model.Names
import Mathlib.Data.Nat.Bitwise

/-!
# Model of the inputs of fiber assignment

`/repo/mockfactory/desi/fiber_assignment.py:32-133`, `:199-235`: tiles, names of the files of a tile, observing conditions, and
stuck positioners. Files, dates and the field rotation of `desimodel` are parameters.
-/

namespace Verif.Model.Fiber

open Verif Verif.Model Names

/-! ### Tiles -/

/-- A row of the table of tiles of the survey operations (`fiber_assignment.py:39`); other columns in `extra`. -/
structure OpsTile (E : Type) where
  id : ℕ
  program : String
  pass : ℤ
  extra : E

/-- `build_tiles_for_fa` (`fiber_assignment.py:32-50`, `fiber_assignment_v0.py:30-48`). `ops` is the table, `observed` the tile identifiers of the release,
`conditions` the bits of `desitarget.targetmask.obsconditions`, which `mask` returns, an unknown name raising `KeyError`. Returns the
tiles with their `OBSCONDITIONS`. -/
def buildTiles {E : Type} (conditions : String → Option ℕ) (ops : List (OpsTile E)) (observed : List ℕ) (program : String) (npasses : ℤ) :
    Except Err (List (OpsTile E × ℕ)) :=
  let tiles := ops.filter fun t => observed.contains t.id && decide (t.program = program.toUpper) && decide (t.pass < npasses)
  match conditions program.toUpper with
  | some c => .ok (tiles.map fun t => (t, c))
  | none => .error .keyError

/-! ### Files of a tile -/

/-- `fn.format(f"{tileid:06d}"[:3], f"{tileid:06d}")` for `fn` with two fields, between the texts `a`, `b` and `c`. -/
def tileFile (a b c : List Char) (tileid : ℕ) : List Char := a ++ (padded 6 tileid).take 3 ++ b ++ padded 6 tileid ++ c

/-- The file of sky targets of a tile (`fiber_assignment.py:58-59`). -/
def skyFile (tileid : ℕ) : List Char :=
  tileFile "/dvs_ro/cfs/cdirs/desi/survey/fiberassign/main/".toList "/".toList "-sky.fits".toList tileid

/-- The file of the assignment of a tile in the survey (`fiber_assignment.py:71-72`, `:170-171`). -/
def assignFile (tileid : ℕ) : List Char :=
  tileFile "/dvs_ro/cfs/cdirs/desi/target/fiberassign/tiles/trunk/".toList "/fiberassign-".toList ".fits.gz".toList tileid

/-- `read_sky_targets` (`fiber_assignment.py:53-66`): the rows of the files, one after the other. -/
def readSkyTargets {ρ : Type} (read : List Char → Except Err (List ρ)) (tiles : List ℕ) : Except Err (List ρ) := do
  return (← (tiles.map skyFile).mapM read).flatten

/-- `fafns_for_tiles` (`fiber_assignment.py:69-73`). -/
def fafnsForTiles (tiles : List ℕ) : List Char := join [','] (tiles.map assignFile)

/-! ### Stuck positioners -/

/-- A row of the extension FIBERASSIGN (`fiber_assignment.py:222`). -/
structure FiberRow where
  loc : ℤ
  status : ℕ
  objtype : String

/-- What `stuck_on_sky_from_fafns` reads in a file: the tile of the header, the rows of FIBERASSIGN, and the locations and target
types of SKY_MONITOR (`fiber_assignment.py:217-228`). -/
structure AssignData where
  tileid : ℤ
  fibers : List FiberRow
  monitors : List (ℤ × ℕ)

/-- `stuck_sky[tile_id]` for one file (`fiber_assignment.py:220-231`). `stuck`, `broken`: bits of `fiberassign.hardware`; `sky`: bit of
`fiberassign.targets`. Items are sorted, keys being distinct. -/
def stuckFile (stuck broken sky : ℕ) (f : AssignData) : List (ℤ × Bool) :=
  let sel := f.fibers.filter fun r => r.status &&& (stuck ||| broken) = stuck
  let d := sel.foldl (fun d r => put r.loc (decide (r.objtype = "SKY")) d) []
  let d := f.monitors.foldl (fun d r => put r.1 (decide (0 < r.2 &&& sky)) d) d
  d.mergeSort fun a b => decide (a.1 ≤ b.1)

/-- `stuck_on_sky_from_fafns` (`fiber_assignment.py:199-233`). -/
def stuckOnSky (stuck broken sky : ℕ) (read : List Char → Except Err AssignData) (fafns : List Char) :
    Except Err (List (ℤ × List (ℤ × Bool))) :=
  (split ',' fafns).foldlM (fun d fn => do
    let f ← read fn
    return put f.tileid (stuckFile stuck broken sky f) d) []

/-! ### Observing conditions -/

/-- One tile given to the `Tiles` class of `fiberassign` (`fiber_assignment.py:134`): tile, date of the observation, angle of the
field and hour angle. -/
structure ObsTile (τ : Type) where
  tile : Tile
  date : τ
  theta : ℝ
  ha : ℝ

/-- `obsdatestr` (`fiber_assignment.py:97-115`). `obsdate`: option; `column`: column `OBSDATE` of the table of tiles, if any, one per
tile; `survey`: `'2022-07-01'`. (`tile.names`, which the class of tables may lack, is read as the names of columns.) -/
def obsDates {τ : Type} (survey : τ) (obsdate : Option τ) (column : Option (List τ)) (n : ℕ) : List τ :=
  match obsdate with
  | some d => List.replicate n d
  | none => match column with
    | some l => l
    | none => List.replicate n survey

/-- `theta_obs` (`fiber_assignment.py:119-127`). `rotation`: `field_rotation_angle` at a date. -/
def obsThetas {τ : Type} (rotation : ℝ → ℝ → τ → ℝ) (fieldrot : Option ℝ) (dates : List τ) (tiles : List Tile) : List ℝ :=
  match fieldrot with
  | none => (tiles.zip dates).map fun p => rotation p.1.ra p.1.dec p.2
  | some x => List.replicate tiles.length x

/-- `ha_obs` (`fiber_assignment.py:130-132`). -/
noncomputable def obsHas (ha : Option ℝ) (n : ℕ) : List ℝ :=
  match ha with
  | some x => List.replicate n x
  | none => List.replicate n 0

/-- `convert_tiles_to_fiberassign` (`fiber_assignment.py:84-134`). -/
noncomputable def convertTiles {τ : Type} (survey : τ) (rotation : ℝ → ℝ → τ → ℝ) (obsdate : Option τ) (fieldrot ha : Option ℝ)
    (column : Option (List τ)) (tiles : List Tile) : List (ObsTile τ) :=
  let dates := obsDates survey obsdate column tiles.length
  (((tiles.zip dates).zip (obsThetas rotation fieldrot dates tiles)).zip (obsHas ha tiles.length)).map
    fun p => ⟨p.1.1.1, p.1.1.2, p.1.2, p.2⟩

end Verif.Model.Fiber
