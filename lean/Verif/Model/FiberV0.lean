import Verif.Model.Fiber

/-!
# Model of the earlier fiber assignment

`/repo/mockfactory/desi/fiber_assignment_v0.py`. All tiles of a rank are assigned at once, with sky targets, which may be loaded before;
there is no quality flag of spectra. `_extract_info_assignment` (`:335-389`), `_compute_completeness_weight_one_pass` (`:590-632`) and
`compute_completeness_weight` (`:635-710`) are, but for logging, those of `fiber_assignment.py`, and are modelled by `extract`, `compPass`
and `completenessWeight`. Likewise `build_tiles_for_fa` (`:30-48`) is modelled by `buildTiles`.
-/

namespace Verif.Model.FiberV0

open Verif Verif.Model Verif.Model.Fiber

/-! ### Sky targets -/

/-- A sky target (`fiber_assignment_v0.py:50`): position, other columns. -/
structure Sky (S : Type) where
  ra : ℝ
  dec : ℝ
  extra : S

/-- Type of the files of sky targets (`fiber_assignment_v0.py:106-120`). -/
inductive Filetype
  | fits
  | bigfile
  | other

/-- Path of a file of a directory (`os.path.join`, `fiber_assignment_v0.py:109, 117`). -/
def joinPath (dirname name : List Char) : List Char := if dirname.getLast? = some '/' then dirname ++ name else dirname ++ '/' :: name

/-- The files that are read (`fiber_assignment_v0.py:106-120`); `names` are the files of the directory that `glob` lists with `*`
(hidden files are not). Any other type is logged, and the name `fns` is then missing. -/
def skyFiles (type : Filetype) (dirname : List Char) (names : List (List Char)) : Except Err (List (List Char)) :=
  match type with
  | .fits => .ok ((names.filter fun n => (".fits".toList).isSuffixOf n).map (joinPath dirname))
  | .bigfile => .ok ((names.map (joinPath dirname)).filter fun n => ! n.contains '.')
  | .other => .error .nameError

/-- `read_sky_targets` (`fiber_assignment_v0.py:90-139`): rows of the files that lie in a tile (`desimodel.footprint.is_point_in_desi`).
Rows are those of all ranks. -/
def readSkyTargets {S : Type} (inTiles : List Tile → ℝ → ℝ → Bool) (read : List Char → Except Err (List (Sky S))) (type : Filetype)
    (dirname : List Char) (names : List (List Char)) (tiles : List Tile) : Except Err (List (Sky S)) := do
  let fns ← skyFiles type dirname names
  let rows ← fns.mapM read
  return rows.flatten.filter fun s => inTiles tiles s.ra s.dec

/-- The packages and files: tiles over a point (indices), sky targets on disk in tiles, assignment of tiles.
(`fiber_assignment_v0.py:235, 437-449, 513-514`). -/
structure World0 (E S : Type) where
  find : List Tile → ℝ → ℝ → List ℕ
  disk : List Tile → List (Sky S)
  engine : List Tile → List (PRow E) → List (Sky S) → Except Err Assignment

/-- What `tileOf` and `subcatalog` need: lines 508-525 of `fiber_assignment_v0.py` are lines 493-508 of `fiber_assignment.py`. -/
def World0.points {E S : Type} (w : World0 E S) : World E := ⟨w.find, fun _ _ => .error .nameError, fun _ => none⟩

variable {E S : Type}

/-- `convert_targets_to_fiberassign` (`fiber_assignment_v0.py:207-244`): sky targets that are loaded. -/
def loadSky (w : World0 E S) (tiles : List Tile) (useSky : Bool) (sky : Option (List (Sky S))) : List (Sky S) :=
  if useSky then
    match sky with
    | none => w.disk tiles
    | some s => s
  else []

/-- `_run_assign_init` (`fiber_assignment_v0.py:142-257`): `sky_targets` is not passed on to `convert_targets_to_fiberassign`
(line 252). -/
def assignInit (w : World0 E S) (tiles : List Tile) (useSky : Bool) (_sky : Option (List (Sky S))) : List (Sky S) :=
  loadSky w tiles useSky none

/-- The tiles treated by a rank (`fiber_assignment_v0.py:565`). -/
def ownTiles (tilesInPass : List Tile) (rows : List (PRow E)) : List Tile := tilesInPass.filter fun t => t.id ∈ rows.map PRow.tile

/-- `_run_fiber_assignment_one_pass` (`fiber_assignment_v0.py:415-457`), with `_run_assign_full` (`:260-332`), which is the package,
and `_apply_mtl_one_pass` (`:392-412`); not run on a rank that has no tile (`:567-568`). -/
def onePass0 (w : World0 E S) (useSky : Bool) (tilesInPass : List Tile) (sky : Option (List (Sky S))) (rows : List (PRow E)) :
    Except Err (List (PRow E)) :=
  match ownTiles tilesInPass rows with
  | [] => .ok rows
  | t :: ts => do
    let asgn ← w.engine (t :: ts) rows (assignInit w (t :: ts) useSky sky)
    let tg ← extract asgn
    pure (markObserved (markAvailable rows tg.2) tg.1)

/-! ### Sky targets of a pass -/

/-- Tiles that targets of any rank lie on, in increasing order (`fiber_assignment_v0.py:543`). -/
def targetTiles (ranks : List (List (PRow E))) : List ℤ := (ranks.flatten.map PRow.tile).dedup.mergeSort fun a b => decide (a ≤ b)

/-- `target_tile_in_pass[idx[0]] if len(idx) != 0 else -1` (`fiber_assignment_v0.py:548-549`). -/
def skyTile (find : List Tile → ℝ → ℝ → List ℕ) (tilesInPass : List Tile) (ids : List ℤ) (s : Sky S) : Except Err ℤ :=
  match find (tilesInPass.filter fun t => t.id ∈ ids) s.ra s.dec with
  | [] => .ok (-1)
  | i :: _ =>
    match ids[i]? with
    | some t => .ok t
    | none => .error .indexError

/-- Sky targets of a rank with their tile (`fiber_assignment_v0.py:548-554`). -/
def skyRows (find : List Tile → ℝ → ℝ → List ℕ) (tilesInPass : List Tile) (ids : List ℤ) (sky : List (Sky S)) :
    Except Err (List (Sky S × ℤ)) := do
  let labels ← sky.mapM (skyTile find tilesInPass ids)
  pure ((sky.zip labels).filter fun x => decide (0 ≤ x.2))

/-- Sky targets of the pass, on all ranks, spread according to their tile (`fiber_assignment_v0.py:536-560`). -/
def skyInPass (find : List Tile → ℝ → ℝ → List ℕ) (skySched : List (List (Sky S × ℤ)) → List (List (Sky S × ℤ)))
    (tilesInPass : List Tile) (moved : List (List (PRow E))) (sky : List (List (Sky S))) : Except Err (List (List (Sky S × ℤ))) := do
  pure (skySched (← sky.mapM (skyRows find tilesInPass (targetTiles moved))))

/-! ### All passes -/

/-- How rows of targets and of sky targets are spread over ranks in each pass (`fiber_assignment_v0.py:529, 559`). -/
structure Spread (E S : Type) where
  targets : ℕ → List (List (PRow E)) → List (List (PRow E))
  sky : ℕ → List (List (Sky S × ℤ)) → List (List (Sky S × ℤ))

/-- The sky targets given to each rank in a pass (`fiber_assignment_v0.py:535-561`); `sky` are the sky targets of each rank, if they were
loaded before. -/
def skiesOf (w : World0 E S) (sched : Spread E S) (tiles : List Tile) (sky : Option (List (List (Sky S)))) (moved : List (List (PRow E)))
    (p : ℕ) : Except Err (List (Option (List (Sky S)))) :=
  match sky with
  | none => .ok (moved.map fun _ => none)
  | some s => do
    let l ← skyInPass w.find (sched.sky p) (tilesOfPass tiles p) moved s
    pure (l.map fun x => some (x.map Prod.fst))

/-- The pass once rows are spread over ranks (`fiber_assignment_v0.py:565-584`). -/
def passWith (w : World0 E S) (tilesInPass : List Tile) (useSky : Bool) (skies : List (Option (List (Sky S))))
    (sub moved : List (List (PRow E))) (ranks : List (List (Target E))) (p : ℕ) : Except Err (List (List (Target E))) := do
  let worked ← (moved.zip skies).mapM fun x => onePass0 w useSky tilesInPass x.2 x.1
  let back := Blinding.splitSizes (sub.map List.length) (worked.flatten.mergeSort fun a b => decide (a.index ≤ b.index))
  if back.map (List.map PRow.index) = sub.map (List.map PRow.index) then
    pure (List.zipWith (fun rows q => putMask (update p) (rows.map (selected w.points tilesInPass)) rows q) ranks back)
  else .error .assertionError

/-- One pass (`fiber_assignment_v0.py:508-584`); see `distribute` for the exchange of rows. -/
def passStep0 (w : World0 E S) (sched : Spread E S) (tiles : List Tile) (useSky : Bool) (sky : Option (List (List (Sky S))))
    (ranks : List (List (Target E))) (p : ℕ) : Except Err (List (List (Target E))) := do
  let tilesInPass := tilesOfPass tiles p
  let sub := subcatalog w.points tilesInPass ranks
  let moved := sched.targets p sub
  let skies ← skiesOf w sched tiles sky moved p
  passWith w tilesInPass useSky skies sub moved ranks p

/-- `apply_fiber_assignment` (`fiber_assignment_v0.py:460-587`). -/
def applyFiberAssignment0 (w : World0 E S) (sched : Spread E S) (tiles : List Tile) (npasses : ℕ) (useSky : Bool)
    (sky : Option (List (List (Sky S)))) (ranks : List (List (Target E))) : Except Err (List (List (Target E))) :=
  (List.range npasses).foldlM (passStep0 w sched tiles useSky sky) (ranks.map (List.map (initial npasses)))

/-! ### Calls in which all ranks take part -/

/-- Collective calls of MPI and mpytools that the functions make (`fiber_assignment.py:445-544`, `fiber_assignment_v0.py:460-587`). -/
inductive Call
  | gather
  | cindex
  | csort
  | barrier
deriving DecidableEq

/-- Calls made only by ranks that have tiles in the pass (`fiber_assignment_v0.py:567-568`): `_run_fiber_assignment_one_pass` waits
four times (`:438, 444, 450, 456`), `_run_assign_full` six times (`:283-329`), on `COMM_WORLD`, taken here to be `mpicomm`. -/
def tileCalls0 : List Call := List.replicate 6 .barrier ++ List.replicate 4 .barrier

/-- Calls of a rank in one pass (`fiber_assignment_v0.py:523-577`): `sky` if sky targets were loaded before, `own` if the rank has
tiles. -/
def passCalls0 (sky own : Bool) : List Call :=
  [.cindex, .csort, .barrier, .gather]
    ++ (if sky then [.gather, .barrier, .barrier, .csort, .barrier] else [])
    ++ (if own then tileCalls0 else [])
    ++ [.barrier, .csort, .barrier]

/-- Calls of a rank in a run (`fiber_assignment_v0.py:500-586`); `own p` if the rank has tiles in pass `p`. -/
def runCalls0 (sky : Bool) (npasses : ℕ) (own : ℕ → Bool) : List Call :=
  [.gather] ++ (List.range npasses).flatMap (fun p => passCalls0 sky (own p)) ++ [.barrier]

/-- Calls made only by ranks that have tiles in the pass, in the current version (`fiber_assignment.py:424-442`, and the functions
it calls, `:188-276`, `:279-421`): none. -/
def tileCalls : List Call := []

/-- Calls of a rank in one pass of the current version (`fiber_assignment.py:503-534`). -/
def passCalls (own : Bool) : List Call :=
  [.cindex, .barrier, .csort, .barrier, .gather] ++ (if own then tileCalls else []) ++ [.barrier, .csort, .barrier]

/-- Calls of a rank in a run of the current version (`fiber_assignment.py:485-543`). -/
def runCalls (npasses : ℕ) (own : ℕ → Bool) : List Call :=
  [.gather] ++ (List.range npasses).flatMap (fun p => passCalls (own p)) ++ [.barrier]

/-- Calls of a rank for completeness weights, in both versions (`fiber_assignment.py:621-664`, `fiber_assignment_v0.py:666-709`);
`_compute_completeness_weight_one_pass` makes none. -/
def weightCalls (npasses : ℕ) (own : ℕ → Bool) : List Call :=
  [.gather] ++ (List.range npasses).flatMap (fun p => [.cindex, .csort] ++ (if own p then tileCalls else []) ++ [.csort, .gather])
    ++ [.barrier]

end Verif.Model.FiberV0
