import Verif.Model.Mpi
import Verif.Model.PoissonRanks
import Verif.Model.Bricks

/-!
# Programs of ranks in which some rank may raise

`/repo/mockfactory/make_survey.py:1241-1243, 1851-1856`, `/repo/mockfactory/gaussian_mock.py:501-555`,
`/repo/mockfactory/desi/brick_pixel_quantities.py:25-145`, `/repo/mockfactory/desi/fiber_assignment.py:445-665`, in the manner of `Verif/Model/Mpi.lean`.
-/

namespace Verif.Model.Mpi

open Verif Verif.Model

variable {C α : Type}

/-! ### Calls of masks -/

open Classical in
/-- `make_survey.py:1241-1243` `BaseMask.__call__` on rank `i`: `prob` may raise; `MPIRandomState` broadcasts the seed and gathers the
sizes of all ranks. -/
noncomputable def maskCall (comm : C) (prob : List α → Except Err (List ℝ)) (u : ℕ → ℕ → ℝ) (i : ℕ) (rows : List α) : Prog C (List Bool) :=
  match prob rows with
  | .error e => .done (.error e)
  | .ok p =>
    .call comm (.bcast 0) () fun _ =>
    .call comm .allgather p.length fun sizes =>
      .done (.ok (p.mapIdx fun j x => decide (u sizes.sum ((sizes.take i).sum + j) ≤ x)))

open Classical in
/-- `make_survey.py:1851-1856` `HealpixAngularMask.prob`, all rows: `healpy.ang2pix` raises `ValueError` if one of the colatitudes is not
in [0, π] (up to 1e-5 above) or not a number; `pix` is the pixel of a position. -/
noncomputable def healpixRows (nbar : List ℝ) (rarange decrange : Option Range) (pix : ℝ → ℝ → ℕ) (rows : List (ℝ × Option ℝ)) :
    Except Err (List ℝ) :=
  if ∀ r ∈ rows, ∃ dec, r.2 = some dec ∧ 0 ≤ (-dec + 90) * Real.pi / 180 ∧ (-dec + 90) * Real.pi / 180 ≤ Real.pi + 1 / 100000 then
    .ok (rows.map fun r => healpixProb nbar rarange decrange r.1 r.2 (pix (wrapAngle r.1) (r.2.getD 0)))
  else .error .valueError

/-! ### Poisson sampling -/

/-- The means that numpy is given on rank `i` by `MPIRandomState`, which treats the stream by chunks: those of all chunks in which the
rank has rows. (`gaussian_mock.py:518-521`). -/
def chunks (chunk : ℕ) (lam : List (List ℝ)) (i : ℕ) : List ℝ :=
  let start := ((lam.take i).map List.length).sum
  let mine := (List.range (lam.getD i []).length).map fun l => (start + l) / chunk
  (lam.flatten.zipIdx.filter fun x => x.2 / chunk ∈ mine).map (·.1)

open Classical in
/-- `gaussian_mock.py:501-555` `poisson_sample` on rank `i`, holding `nodes`: seeds (line 511), sizes of the random state (518), `ravel`
(521), exchange of chunks and draws, for which numpy raises `ValueError` if a mean is negative (521), `unravel` (523), total number
(525), parallel sort (543), sizes of the second random state (545). -/
noncomputable def poisson (comm : C) (M : Mesh) (s : M.Fields) (pois : List ℝ → ℕ → ℕ) (u : ℕ → ℕ → Fin 3 → ℝ) (chunk i : ℕ)
    (nodes : List M.Idx) : Prog C (List (Fin 3 → ℝ)) :=
  .call comm (.bcast 0) () fun _ =>
  .call comm .allgather nodes.length fun _ =>
  .call comm (.other "ravel") (nodes.map fun k => (M.cellId k, M.cellMean s k)) fun rows =>
  let lam := mpiSort rows
  .call comm (.other "chunks") () fun _ =>
  if ∃ x ∈ chunks chunk lam i, x < 0 then .done (.error .valueError)
  else
    .call comm (.other "unravel") ((mpiDraw pois lam).getD i []) fun number =>
    .call comm .allreduce () fun _ =>
    .call comm (.other "sort") (M.repeated (M.unravel number) nodes) fun rows =>
    let positions := mpiSort rows
    .call comm .allgather (positions.getD i []).length fun _ =>
    .done (.ok (List.zipWith (fun p v d => p d + (0 + (M.cell d - 0) * v d) + (M.boxcenter d - M.boxsize d / 2)) (positions.getD i [])
      ((mpiDraw (fun rows j => u rows.length j) positions).getD i [])))

/-! ### Quantities of bricks -/

open Verif.Model.Bricks in
/-- `brick_pixel_quantities.py:133-145`: end of `get_brick_pixel_quantities` on a rank, that has read `data` for its rows `moved`, `sub`
being the rows of all ranks in the initial order: `headers` are the names and types of columns of all ranks that have rows. Sort back
(141). -/
noncomputable def bricksBack (current : C) (sub : List (List Bricks.Row)) (moved : List Bricks.Row) (data : List (String × Arr)) (j : ℕ)
    (headers : List (Option (List (String × Dtype)))) : Prog C (List (String × Arr)) :=
  match headers.filterMap id with
  | [] => .done (.ok [])
  | h :: hs =>
    if hs.any fun h' => h' ≠ h then .done (.error .typeError)
    else
      .call current (.other "csort") (indexed moved data) fun rows =>
      let back := (Blinding.splitSizes (sub.map List.length) (rows.flatten.mergeSort fun a b => decide (a.1 ≤ b.1))).getD j []
      if back.map Prod.fst = (sub.getD j []).map Bricks.Row.index then .done (.ok (toColumns h back)) else .done (.error .assertionError)

open Verif.Model.Bricks in
/-- `brick_pixel_quantities.py:25-145` `get_brick_pixel_quantities` on a rank holding `coords`; `j` is its rank in the current
communicator, on which catalogs are made (lines 86, 130, 138), whatever `mpicomm`: index (88) and sort by bricks (93), number of bricks
(94). `mpicomm` is used on lines 62 and 132. -/
noncomputable def bricks (current comm : C) (s : Survey) (sched : List (List Bricks.Row) → List (List Bricks.Row))
    (columns : List Column) (j : ℕ)
    (coords : List (ℝ × ℝ)) : Prog C (List (String × Arr)) :=
  if columns = [] then .done (.ok [])
  else
    .call comm .allreduce coords.length fun l =>
    if l.sum = 0 then .done (.ok [])
    else
      .call current .allgather coords.length fun _ =>
      .call current (.other "csort") coords fun all =>
      let sub := makeRows s all
      let moved := (sched sub).getD j []
      .call current (.gather 0) () fun _ =>
      match oneRank s columns moved with
      | .error e => .done (.error e)
      | .ok data =>
        .call comm .allgather (if moved = [] then none else some (header data)) fun headers =>
          bricksBack current sub moved data j headers

/-! ### Fiber assignment -/

section fiber
open Verif.Model.Fiber

variable {E ρ γ : Type}

/-- `mpicomm.Barrier()`, in `apply_fiber_assignment` only (`fiber_assignment.py:509, 515, 526, 534`). -/
def barrier (comm : C) (b : Bool) (p : Prog C γ) : Prog C γ := if b then .call comm (.other "barrier") () fun _ => p else p

/-- `fiber_assignment.py:503-535`, `638-656`: a pass on a rank, for its rows that take part: number the rows over all ranks, sort by
tile, work on tiles of the rank, sort back, check the order, and go on. The numbers of tiles of all ranks (line 517) are gathered with
barriers only. -/
def exchange (comm : C) (b : Bool) (index : ρ → ℕ) (sched : List (List ρ) → List (List ρ)) (work : List ρ → Except Err (List ρ)) (j : ℕ)
    (make : α → ℕ → ρ) (rows : List α) (k : List ρ → Prog C γ) : Prog C γ :=
  .call comm .allgather rows.length fun sizes =>
  let mine := (rows.zipIdx (sizes.take j).sum).map fun x => make x.1 x.2
  barrier comm b <|
  .call comm (.other "csort") mine fun sub =>
  barrier comm b <|
  (if b then (fun p => .call comm .allgather () fun _ => p) else id) <|
  match work ((sched sub).getD j []) with
  | .error e => .done (.error e)
  | .ok w =>
    barrier comm b <|
    .call comm (.other "csort") w fun worked =>
    let back := (Blinding.splitSizes (sub.map List.length) (worked.flatten.mergeSort fun x y => decide (index x ≤ index y))).getD j []
    if back.map index = mine.map index then barrier comm b (k back) else .done (.error .assertionError)

/-- `fiber_assignment.py:493-543`: passes on a rank. -/
def fiberPasses (comm : C) (w : World E) (sched : ℕ → List (List (PRow E)) → List (List (PRow E))) (tiles : List Tile) (j : ℕ) :
    List ℕ → List (Target E) → Prog C (List (Target E))
  | [], rows => .call comm (.other "barrier") () fun _ => .done (.ok rows)
  | p :: ps, rows =>
    let tilesInPass := tilesOfPass tiles p
    let sel := rows.map (selected w tilesInPass)
    exchange comm true PRow.index (sched p) (onePass w tilesInPass) j (toPRow w tilesInPass) (takeMask sel rows) fun q =>
      fiberPasses comm w sched tiles j ps (putMask (update p) sel rows q)

/-- `fiber_assignment.py:445-544` `apply_fiber_assignment` on a rank (`mpy.gather`, line 485, is on the current communicator, which
`mpicomm` is documented to be). -/
def fiberAssignment (comm : C) (w : World E) (sched : ℕ → List (List (PRow E)) → List (List (PRow E))) (tiles : List Tile) (npasses j : ℕ)
    (rows : List (Target E)) : Prog C (List (Target E)) :=
  .call comm .allgather rows.length fun _ => fiberPasses comm w sched tiles j (List.range npasses) (rows.map (initial npasses))

/-- `fiber_assignment.py:627-664`: passes of the completeness weights on a rank. -/
def weightPasses (comm : C) (w : World E) (sched : ℕ → List (List CRow) → List (List CRow)) (tiles : List Tile) (j : ℕ) :
    List ℕ → List (Weighted E) → Prog C (List (Target E × Option ℤ))
  | [], rows => .call comm (.other "barrier") () fun _ => .done (.ok (rows.map fun x => (x.row, x.weight)))
  | p :: ps, rows =>
    let tilesInPass := tilesOfPass tiles p
    let sel := rows.map fun x => decide (0 ≤ tileOf w tilesInPass x.row)
    exchange comm false CRow.index (sched p) (fun rows => .ok (compPass tilesInPass rows)) j (toCRow w tilesInPass p) (takeMask sel rows)
      fun q =>
      .call comm (.gather 0) () fun _ =>
        weightPasses comm w sched tiles j ps (putMask (fun x (c : CRow) => { x with weight := c.weight, notUsed := c.notUsed }) sel rows q)

/-- `fiber_assignment.py:592-665` `compute_completeness_weight` on a rank. -/
def weights (comm : C) (w : World E) (sched : ℕ → List (List CRow) → List (List CRow)) (tiles : List Tile) (npasses j : ℕ)
    (rows : List (Target E)) : Prog C (List (Target E × Option ℤ)) :=
  .call comm (.gather 0) () fun _ => weightPasses comm w sched tiles j (List.range npasses) (rows.map weighted)

end fiber

end Verif.Model.Mpi
