import Verif.Model.Blinding
import Mathlib.Data.List.Sort
import Mathlib.Data.List.Dedup

/-!
# Model of fiber assignment

`/repo/mockfactory/desi/fiber_assignment.py`. The packages that do the work on one tile (`fiberassign`, `desimodel`, `desitarget`)
and the files they read are parameters: which tiles lie over a point (`find`), the outcome of the assignment of one tile
(`engine`), and the quality flags of the spectra of one tile (`zmtl`). A catalogue is the list of the rows of each rank. A run
fails if one rank raises; what the other ranks then do is in `Verif/Model/MpiErrors.lean`. Logging and timing are left out.
-/

namespace Verif.Model.Fiber

open Verif Verif.Model

/-- A tile: identifier, pass, centre (columns of `tiles`, `fiber_assignment.py:32-50`). -/
structure Tile where
  id : ℤ
  pass : ℤ
  ra : ℝ
  dec : ℝ

/-- A row of `targets` (`fiber_assignment.py:488-491`): identifier, position, other input columns, observations requested and
done, whether a fiber could reach it, fiber and observation of each pass. -/
structure Target (E : Type) where
  tid : ℤ
  ra : ℝ
  dec : ℝ
  extra : E
  more : ℤ
  numobs : ℤ
  available : Bool
  fiber : List ℤ
  obsPass : List Bool

/-- A row of `targets_in_pass` (`fiber_assignment.py:503-506`). -/
structure PRow (E : Type) where
  tid : ℤ
  ra : ℝ
  dec : ℝ
  extra : E
  more : ℤ
  numobs : ℤ
  available : Bool
  tile : ℤ
  obs : Bool
  fiber : ℤ
  index : ℕ

/-- The outcome of `fiberassign` on one tile, as it is read by `fiber_assignment.py:286-311`: tiles that were assigned, target of
each location of a tile, targets within reach of each location of a tile, fiber at each location, type of each target.
Dictionaries are lists of key and value in order. -/
structure Assignment where
  tiles : List ℤ
  assigned : ℤ → List (ℤ × ℤ)
  avail : ℤ → List (ℤ × List ℤ)
  fiberOf : ℤ → Option ℤ
  type : ℤ → ℕ

/-! ### numpy helpers -/

/-- `desitarget.geomask.match(A, B)`: indices of equal elements. Documented for arrays without repeated elements; here an element
of `A` goes with the first element of `B` equal to it. (`fiber_assignment.py:374, 378, 578`). -/
def matchIdx (A B : List ℤ) : List (ℕ × ℕ) :=
  A.zipIdx.filterMap fun a => if a.1 ∈ B then some (a.2, B.idxOf a.1) else none

/-- `l[idx] = ...` with the values at `idx2`, element by element. (`fiber_assignment.py:375-382`). -/
def updateAt {α : Type*} (pairs : List (ℕ × ℕ)) (f : α → ℕ → α) (l : List α) : List α :=
  pairs.foldl (fun l p => l.modify p.1 fun a => f a p.2) l

/-- `l[mask] = values`. (`fiber_assignment.py:541-544, 654-664`). -/
def putMask {α β : Type*} (f : α → β → α) : List Bool → List α → List β → List α
  | true :: m, a :: l, b :: bs => f a b :: putMask f m l bs
  | false :: m, a :: l, bs => a :: putMask f m l bs
  | _, l, _ => l

/-- `l[mask]`. (`fiber_assignment.py:368, 370`). -/
def takeMask {α : Type*} : List Bool → List α → List α
  | true :: m, a :: l => a :: takeMask m l
  | false :: m, _ :: l => takeMask m l
  | _, _ => []

/-- `np.unique(l[:, 0], return_index=True)` and `l[idx]` (`fiber_assignment.py:318-319`): in increasing order of the first column,
the first row with each value. -/
def uniqueFirst (l : List (ℤ × ℤ)) : List (ℤ × ℤ) :=
  ((l.map Prod.fst).dedup.mergeSort (fun a b => decide (a ≤ b))).filterMap fun a => l.find? fun x => decide (x.1 = a)

/-- `np.unique(l, return_counts=True)` (`fiber_assignment.py:575`). -/
def uniqueCounts (l : List ℤ) : List (ℤ × ℕ) := (l.dedup.mergeSort (fun a b => decide (a ≤ b))).map fun a => (a, l.count a)

/-! ### One tile -/

/-- `tgs.get(id).type & 2**0 != 0`. (`fiber_assignment.py:297`). -/
def Assignment.science (asgn : Assignment) (id : ℤ) : Bool := asgn.type id % 2 = 1

/-- `fibers[x]`: `KeyError` if there is no such location. (`fiber_assignment.py:300, 309, 315`). -/
def Assignment.fiberAt (asgn : Assignment) (loc : ℤ) : Except Err ℤ :=
  match asgn.fiberOf loc with
  | some f => .ok f
  | none => .error .keyError

/-- The targets assigned to one tile, with their fibers, and the targets within reach of the fibers assigned to a science target,
each with one fiber (`fiber_assignment.py:292-320`; the column `FA_TYPE` is left out). `none` if no science target is assigned. -/
def extractTile (asgn : Assignment) (t : ℤ) : Except Err (Option (List (ℤ × ℤ) × List (ℤ × ℤ))) :=
  let tdata := asgn.assigned t
  let avail := asgn.avail t
  if tdata.any fun x => asgn.science x.2 then do
    let tgAssign ← (tdata.filter fun x => asgn.science x.2).mapM fun x => do
      let f ← asgn.fiberAt x.1
      pure (x.2, f)
    let withFiber ← avail.mapM fun x => do
      let f ← asgn.fiberAt x.1
      pure (f, x.2)
    let ok := withFiber.filter fun x => x.1 ∈ tgAssign.map Prod.snd
    let tgAvail := ok.flatMap fun x => (x.2.filter fun av => asgn.science av).map fun av => (av, x.1)
    -- `np.array([])[:, 0]` raises
    if tgAvail = [] then .error .indexError
    else pure (some (tgAssign, uniqueFirst tgAvail))
  else pure none

/-- `_extract_info_assignment` (`fiber_assignment.py:279-333`, `fiber_assignment_v0.py:335-389`): assigned and available targets of all tiles, with fibers. -/
def extract (asgn : Assignment) : Except Err (List (ℤ × ℤ) × List (ℤ × ℤ)) := do
  let l ← asgn.tiles.mapM (extractTile asgn)
  let l := l.filterMap id
  pure ((l.map Prod.fst).flatten, (l.map Prod.snd).flatten)

/-- The flags of a spectrum that are looked at (`fiber_assignment.py:365`). -/
structure Zwarn where
  nodata : Bool
  badSpec : Bool
  badPetal : Bool

/-- The spectrum can be used (`fiber_assignment.py:365`). -/
def Zwarn.good (z : Zwarn) : Bool := !(z.nodata || (z.badSpec || z.badPetal))

/-- The flags of the fibers of the 10 petals; a petal without file is flagged bad (`fiber_assignment.py:357-363`). -/
def zwarns (petals : ℕ → Option (List Zwarn)) : List Zwarn :=
  (List.range 10).flatMap fun i => match petals i with
    | some l => l
    | none => List.replicate 500 ⟨false, false, true⟩

/-- `np.arange(0, 5000, 1)[sel_good_fibers]` (`fiber_assignment.py:365-370`): `IndexError` if there are not 5000 flags. -/
def goodFibers (petals : ℕ → Option (List Zwarn)) : Except Err (List ℤ) :=
  if (zwarns petals).length = 5000 then
    .ok ((zwarns petals).zipIdx.filterMap fun z => if z.1.good then some (z.2 : ℤ) else none)
  else .error .indexError

/-- Update of the rows that can be reached (`fiber_assignment.py:374-376`). -/
def markAvailable {E : Type} (rows : List (PRow E)) (tg : List (ℤ × ℤ)) : List (PRow E) :=
  updateAt (matchIdx (rows.map PRow.tid) (tg.map Prod.fst))
    (fun r j => { r with available := true, fiber := (tg.map Prod.snd).getD j 0 }) rows

/-- Update of the rows that are observed (`fiber_assignment.py:378-382`). -/
def markObserved {E : Type} (rows : List (PRow E)) (tg : List (ℤ × ℤ)) : List (PRow E) :=
  updateAt (matchIdx (rows.map PRow.tid) (tg.map Prod.fst))
    (fun r j => { r with more := r.more - 1, numobs := r.numobs + 1, fiber := (tg.map Prod.snd).getD j 0, obs := true }) rows

/-- `_apply_mtl_one_tile` (`fiber_assignment.py:336-382`). `zmtl` gives the flags of the petals of a tile; `IndexError` if the
tile is not in the list of tiles that were processed (line 353). -/
def applyMtl {E : Type} (zmtl : ℤ → Option (ℕ → Option (List Zwarn))) (rows : List (PRow E)) (tgAssign tgAvail : List (ℤ × ℤ))
    (tileid : ℤ) : Except Err (List (PRow E)) :=
  match zmtl tileid with
  | none => .error .indexError
  | some petals => do
    let good ← goodFibers petals
    let tgAssign := tgAssign.filter fun x => x.2 ∈ good
    let tgAvail := tgAvail.filter fun x => x.2 ∈ good
    pure (markObserved (markAvailable rows tgAvail) tgAssign)

/-- The external packages and files: tiles over a point (indices), assignment of one tile given the rows of a rank, flags.
(`fiber_assignment.py:385-421, 488-544`). -/
structure World (E : Type) where
  find : List Tile → ℝ → ℝ → List ℕ
  engine : Tile → List (PRow E) → Except Err Assignment
  zmtl : ℤ → Option (ℕ → Option (List Zwarn))

/-- `_run_fiber_assignment_one_tile` (`fiber_assignment.py:385-421`). -/
def oneTile {E : Type} (w : World E) (rows : List (PRow E)) (tile : Tile) : Except Err (List (PRow E)) := do
  let asgn ← w.engine tile rows
  let tg ← extract asgn
  applyMtl w.zmtl rows tg.1 tg.2 tile.id

/-- `_run_fiber_assignment_one_pass` (`fiber_assignment.py:424-442`) on the tiles that rows of the rank lie on
(`fiber_assignment.py:520-525`). -/
def onePass {E : Type} (w : World E) (tiles : List Tile) (rows : List (PRow E)) : Except Err (List (PRow E)) :=
  (tiles.filter fun t => t.id ∈ rows.map PRow.tile).foldlM (oneTile w) rows

/-! ### Exchange between ranks -/

/-- `Catalog.csort(key, size='orderby_counts')` of mpytools: `moved` holds the same rows, sorted by key over the ranks, rows with
the same key being on the same rank. Nothing more is assumed on how keys are shared out between ranks, or on the order of rows
with the same key. (`fiber_assignment.py:514, 531, 645, 653`). -/
structure Csort {ρ : Type} (key : ρ → ℤ) (sub moved : List (List ρ)) : Prop where
  ranks : moved.length = sub.length
  rows : moved.flatten.Perm sub.flatten
  sorted : moved.flatten.Pairwise fun a b => key a ≤ key b
  together : moved.Pairwise fun l l' => ∀ a ∈ l, ∀ b ∈ l', key a ≠ key b

/-- Rows are sent to the ranks that treat their tile, worked on there, sent back and put in their initial order, which is checked
(`fiber_assignment.py:512-533`, `644-655`). -/
def distribute {ρ : Type} (index : ρ → ℕ) (sched : List (List ρ) → List (List ρ)) (work : List ρ → Except Err (List ρ))
    (sub : List (List ρ)) : Except Err (List (List ρ)) := do
  let worked ← (sched sub).mapM work
  let back := Blinding.splitSizes (sub.map List.length) (worked.flatten.mergeSort fun a b => decide (index a ≤ index b))
  if back.map (List.map index) = sub.map (List.map index) then pure back else .error .assertionError

/-- `cindex()` of mpytools: rows numbered over all ranks, from a start.
(`fiber_assignment.py:506, 641`). -/
def cindexFrom {α : Type*} : ℕ → List (List α) → List (List (α × ℕ))
  | _, [] => []
  | k, l :: ls => l.zipIdx k :: cindexFrom (k + l.length) ls

/-! ### All passes -/

/-- The tile a target lies on in a pass, `-1` if none (`fiber_assignment.py:498-499`). An index out of range, for which Python raises
`IndexError`, gives `-1` too; `desimodel` returns indices of the tiles it was given. -/
def tileOf {E : Type} (w : World E) (tilesInPass : List Tile) (r : Target E) : ℤ :=
  match w.find tilesInPass r.ra r.dec with
  | [] => -1
  | i :: _ => (tilesInPass.map Tile.id).getD i (-1)

/-- `tiles[tiles['PASS'] == pass_id]` (`fiber_assignment.py:494`). -/
def tilesOfPass (tiles : List Tile) (p : ℕ) : List Tile := tiles.filter fun t => t.pass = p

/-- Rows that take part in the pass (`fiber_assignment.py:501`). -/
def selected {E : Type} (w : World E) (tilesInPass : List Tile) (r : Target E) : Bool :=
  decide (0 ≤ tileOf w tilesInPass r) && decide (1 ≤ r.more)

/-- A row of the subcatalogue (`fiber_assignment.py:503-506`). -/
def toPRow {E : Type} (w : World E) (tilesInPass : List Tile) (r : Target E) (index : ℕ) : PRow E :=
  { tid := r.tid, ra := r.ra, dec := r.dec, extra := r.extra, more := r.more, numobs := r.numobs, available := r.available,
    tile := tileOf w tilesInPass r, obs := false, fiber := -1, index := index }

/-- The subcatalogue of all ranks (`fiber_assignment.py:501-506`). -/
def subcatalog {E : Type} (w : World E) (tilesInPass : List Tile) (ranks : List (List (Target E))) : List (List (PRow E)) :=
  (cindexFrom 0 (ranks.map fun rows => takeMask (rows.map (selected w tilesInPass)) rows)).map
    (List.map fun x => toPRow w tilesInPass x.1 x.2)

/-- Update of one row after pass `p` (`fiber_assignment.py:537-541`). -/
def update {E : Type} (p : ℕ) (r : Target E) (q : PRow E) : Target E :=
  { r with more := q.more, numobs := q.numobs, available := q.available, obsPass := r.obsPass.set p q.obs,
           fiber := r.fiber.set p q.fiber }

/-- One pass (`fiber_assignment.py:493-541`). -/
def passStep {E : Type} (w : World E) (sched : ℕ → List (List (PRow E)) → List (List (PRow E))) (tiles : List Tile)
    (ranks : List (List (Target E))) (p : ℕ) : Except Err (List (List (Target E))) := do
  let tilesInPass := tilesOfPass tiles p
  let back ← distribute PRow.index (sched p) (onePass w tilesInPass) (subcatalog w tilesInPass ranks)
  pure (List.zipWith (fun rows q => putMask (update p) (rows.map (selected w tilesInPass)) rows q) ranks back)

/-- New columns (`fiber_assignment.py:488-491`). -/
def initial {E : Type} (npasses : ℕ) (r : Target E) : Target E :=
  { r with numobs := 0, available := false, fiber := List.replicate npasses (-1), obsPass := List.replicate npasses false }

/-- `apply_fiber_assignment` (`fiber_assignment.py:445-544`). `sched p` says how rows are spread over ranks in pass `p`. -/
def applyFiberAssignment {E : Type} (w : World E) (sched : ℕ → List (List (PRow E)) → List (List (PRow E))) (tiles : List Tile)
    (npasses : ℕ) (ranks : List (List (Target E))) : Except Err (List (List (Target E))) :=
  (List.range npasses).foldlM (passStep w sched tiles) (ranks.map (List.map (initial npasses)))

/-! ### Completeness weights -/

/-- A row of the subcatalogue for completeness weights (`fiber_assignment.py:635-641`; `AVAILABLE` is not used). Weights are whole
numbers; `none` is `nan`. -/
structure CRow where
  weight : Option ℤ
  tile : ℤ
  obs : Bool
  fiber : ℤ
  notUsed : Bool
  index : ℕ

/-- One tile (`fiber_assignment.py:563-589`). -/
def compTile (rows : List CRow) (tile : ℤ) : List CRow :=
  let selTile := rows.map fun r => decide (r.tile = tile)
  let inTile := takeMask selTile rows
  let selObs := inTile.map CRow.obs
  let fiberAssign := (takeMask selObs inTile).map CRow.fiber
  let selComp := inTile.map fun r => r.notUsed && decide (r.fiber ≠ -1)
  let fiberComp := (takeMask selComp inTile).map CRow.fiber
  let fiberId := uniqueCounts fiberComp
  let pairs := matchIdx fiberAssign (fiberId.map Prod.fst)
  let weights := updateAt pairs (fun w j => w.map (· + ((fiberId.map Prod.snd).getD j 0 : ℕ)))
    ((takeMask selObs inTile).map CRow.weight)
  let inTile := putMask (fun r w => { r with weight := w }) selObs inTile weights
  let inTile := List.zipWith (fun (s : Bool) r => if s then { r with notUsed := false } else r) selComp inTile
  putMask (fun _ r => r) selTile rows inTile

/-- `_compute_completeness_weight_one_pass` (`fiber_assignment.py:547-589`, `fiber_assignment_v0.py:590-632`), on the tiles that rows of the rank lie on. -/
def compPass (tiles : List Tile) (rows : List CRow) : List CRow :=
  ((tiles.filter fun t => t.id ∈ rows.map CRow.tile).map Tile.id).foldl compTile rows

/-- A target with its weight and whether it may still be counted. (`fiber_assignment.py:592-665`, `fiber_assignment_v0.py:635-710`). -/
structure Weighted (E : Type) where
  row : Target E
  weight : Option ℤ
  notUsed : Bool

/-- `fiber_assignment.py:638-641`: `OBS_PASS` and `FIBER` of the pass. -/
def toCRow {E : Type} (w : World E) (tilesInPass : List Tile) (p : ℕ) (x : Weighted E) (index : ℕ) : CRow :=
  { weight := x.weight, tile := tileOf w tilesInPass x.row, obs := x.row.obsPass.getD p false, fiber := x.row.fiber.getD p (-1),
    notUsed := x.notUsed, index := index }

/-- One pass (`fiber_assignment.py:627-659`). -/
def compStep {E : Type} (w : World E) (sched : ℕ → List (List CRow) → List (List CRow)) (tiles : List Tile)
    (ranks : List (List (Weighted E))) (p : ℕ) : Except Err (List (List (Weighted E))) := do
  let tilesInPass := tilesOfPass tiles p
  let sel := fun x : Weighted E => decide (0 ≤ tileOf w tilesInPass x.row)
  let sub := (cindexFrom 0 (ranks.map fun rows => takeMask (rows.map sel) rows)).map
    (List.map fun x => toCRow w tilesInPass p x.1 x.2)
  let back ← distribute CRow.index (sched p) (fun rows => .ok (compPass tilesInPass rows)) sub
  pure (List.zipWith (fun rows q => putMask (fun x (c : CRow) => { x with weight := c.weight, notUsed := c.notUsed })
    (rows.map sel) rows q) ranks back)

/-- Start (`fiber_assignment.py:619-625`): available targets that were never observed are to be counted; weight 1 for observed
targets, `nan` for others. -/
def weighted {E : Type} (r : Target E) : Weighted E :=
  { row := r, weight := if r.numobs = 0 then none else some 1, notUsed := r.available && decide (r.numobs = 0) }

/-- `compute_completeness_weight` (`fiber_assignment.py:592-665`, `fiber_assignment_v0.py:635-710`): rows with their weight. -/
def completenessWeight {E : Type} (w : World E) (sched : ℕ → List (List CRow) → List (List CRow)) (tiles : List Tile)
    (npasses : ℕ) (ranks : List (List (Target E))) : Except Err (List (List (Target E × Option ℤ))) := do
  let out ← (List.range npasses).foldlM (compStep w sched tiles) (ranks.map (List.map weighted))
  pure (out.map (List.map fun x => (x.row, x.weight)))

end Verif.Model.Fiber
