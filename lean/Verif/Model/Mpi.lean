import Verif.Model.Blinding
import Verif.Model.MaskInit
import Verif.Model.RadialDensity

/-!
# Model of what each rank does: programs that make collective calls

The programs of a rank in `/repo/mockfactory/make_survey.py`, `gaussian_mock.py` and `blinding/catalog.py`, as far as collective calls
are concerned. A rank offers a value in a collective call, and goes on with the values offered by all ranks of the communicator, in
order of rank: it makes of them what MPI would have given it (a sum, the value of the root, ...). How calls of different ranks meet is
in `Verif/Spec/Mpi.lean`. A communicator is a name, `i` the rank in the communicator of the object.
-/

namespace Verif.Model.Mpi

open Verif Verif.Model Verif.Model.Blinding

/-- Kinds of collective calls; `other` are those of packages that are not part of this repository (pmesh, mpytools).
(`make_survey.py:488, 1341-1353, 1481`). -/
inductive Op where
  | allreduce
  | allgather
  | bcast (root : ℕ)
  | gather (root : ℕ)
  | scatter (root : ℕ)
  | other (name : String)
deriving DecidableEq

/-- What is left to do for a rank: it has returned or raised, it never ends, or it makes a collective call and goes on. The end of
`sample` (`make_survey.py:1341-1354`) is typical. -/
inductive Prog (C : Type) (α : Type) : Type 1 where
  | done (o : Except Err α)
  | spin
  | call (c : C) (op : Op) {β : Type} (x : β) (k : List β → Prog C α)

variable {C α β : Type}

/-! ### Sampling of masks and random catalogs -/

/-- `make_survey.py:1339-1354`, `:1706-1722`: `sample` on a rank, from round `t` on, `z` being what was accepted and `dsize` what is
missing. The stream of candidates `cand` and whether they are accepted, `acc`, are those of `Verif/Model/Mask.lean`. `bcast_seed` and
`MPIRandomState` of mpytools (lines 1343, 1325) are a broadcast and a gathering of sizes on all ranks; `source.get` (line 1354) is
written as a gathering of all rows on all ranks. The program goes on with `next`; `fuel` bounds the number of rounds. -/
def sampleFrom (comm : C) (cand : ℕ → ℕ → α) (acc : ℕ → ℕ → Bool) (i size : ℕ) (next : List α → Prog C β) :
    ℕ → ℕ → List α → ℤ → Prog C β
  | 0, _, _, _ => .spin
  | fuel + 1, t, z, dsize =>
    .call comm .allreduce dsize fun ds =>
      if 0 < ds.sum then
        .call comm (.bcast 0) () fun _ =>
        .call comm .allgather size fun sizes =>
          let new := accepted cand acc sizes t i
          sampleFrom comm cand acc i size next fuel (t + 1) (z ++ new) (dsize - new.length)
      else if t = 0 then .done (.error .valueError)
      else
        .call comm .allgather z.length fun _ =>
        .call comm .allgather size fun sizes =>
        .call comm (.other "get") z fun all => next ((all.flatten.drop (sizes.take i).sum).take size)

/-- `make_survey.py:1298-1354` `BaseRadialMask.sample`, `:1674-1722` `BaseAngularMask.sample`, on a rank. -/
def sample (comm : C) (cand : ℕ → ℕ → α) (acc : ℕ → ℕ → Bool) (i size fuel : ℕ) (next : List α → Prog C β) : Prog C β :=
  sampleFrom comm cand acc i size next fuel 0 [] size

/-- `make_survey.py:1097-1136` `RandomBoxCatalog`, on a rank that draws `size` points: the sizes are gathered by `MPIRandomState`. -/
def randomBox (comm : C) (boxsize boxcenter : V3 ℝ) (u : ℕ → V3 ℝ) (i size : ℕ) : Prog C (List (V3 ℝ)) :=
  .call comm .allgather size fun sizes =>
    .done (.ok ((List.range size).map fun j => randomBoxPosition boxsize boxcenter (u ((sizes.take i).sum + j))))

/-- `make_survey.py:1186-1195`: `RandomCutskyCatalog` on a rank: directions, then distances if there is a range of distances; `fuel`
bounds the rounds of each. -/
noncomputable def randomCutsky (comm : C) (rarange decrange : Range) (drange : Option Range) (uv : ℕ → ℕ → ℝ × ℝ)
    (w hidden1 hidden2 : ℕ → ℕ → ℝ) (i size fuel : ℕ) : Prog C (List (ℝ × ℝ) × List ℝ) :=
  let candA := fun t i => angularCandidate (some rarange) (some decrange) (uv t i).1 (uv t i).2
  sample comm candA (angularDecisions rarange decrange candA hidden1) i size fuel fun radec =>
    match drange with
    | none => .done (.ok (radec, radec.map fun _ => 1))
    | some d =>
      let candR := fun t i => radialCandidate d.1 d.2 (w t i)
      sample comm candR (radialDecisions d candR hidden2) i size fuel fun dist => .done (.ok (radec, dist))

/-! ### Normalisation of tabulated masks -/

/-- A procedure that finds a zero of a function, such as `scipy.optimize.brentq` (`make_survey.py:1586`): it asks for the value of the
function at points that depend on previous values, then gives a number, or raises. -/
inductive Solver where
  | found (x : ℝ)
  | fails (e : Err)
  | ask (x : ℝ) (reply : ℝ → Solver)

/-- The procedure applied to a function. (`make_survey.py:1586`). -/
def Solver.run (f : ℝ → ℝ) : Solver → Except Err ℝ
  | .found x => .ok x
  | .fails e => .error e
  | .ask x reply => (reply (f x)).run f

/-- `make_survey.py:1580-1590`: the procedure on a rank, whose function adds up `part` over ranks at each evaluation (line 1550). The
number found is that of rank 0 (line 1587). -/
noncomputable def solve (comm : C) (part : ℝ → ℝ) (target : ℝ) (next : ℝ → Prog C β) : Solver → Prog C β
  | .found x => .call comm (.bcast 0) x fun l => next (l.getD 0 0)
  | .fails e => .done (.error e)
  | .ask x reply => .call comm .allreduce (part x) fun l => solve comm part target next (reply (l.sum / target - 1))

/-- Sum on a rank of probabilities times weights, for a norm (`make_survey.py:1550`). -/
noncomputable def partOf (t : TabMask) (z w : List ℝ) (norm : ℝ) : ℝ :=
  (List.zipWith (fun x y => ({ t with norm := norm } : TabMask).prob x * y) z w).sum

/-- `make_survey.py:1552-1594` `normalize(target, z, weights)` on a rank, redshifts being scattered over ranks. `solver` is the
procedure for given bounds. Returns the norm. A rank without weights counts each redshift as 1 (`:1546`). Ranks that give weights whose
number is not that of redshifts are left out. The case of a null sum of weights, or of a null target, stores numbers that are not
finite: `nan`. -/
noncomputable def normalize (comm : C) (t : TabMask) (target : ℝ) (z : List ℝ) (weights : Option (List ℝ)) (solver : ℝ → Solver) :
    Prog C ℝ :=
  let body := fun w : List ℝ =>
    match TabMask.minPositive t.nodes with
    | none => .done (.error .valueError)
    | some m =>
      if target = 0 then .done (.error .nan)
      else solve comm (partOf t z w) target (fun norm =>
        .call comm .allreduce (partOf t z w norm) fun _ => .done (.ok norm)) (solver (1 / m))
  if ¬ (0 ≤ target ∧ target ≤ 1) then .done (.error .valueError)
  else match weights with
    | none => body (z.map fun _ => 1)
    | some w => .call comm .allreduce w.sum fun l => if l.sum = 0 then .done (.error .nan) else body (w.map (· / l.sum))

/-! ### Tables read from a file -/

/-- `make_survey.py:1408-1427`: `TabulatedRadialMask(..., filename=...)` on rank `i`: rank 0 reads the file (`np.loadtxt`, which may
raise), and broadcasts the two columns. -/
noncomputable def tabulatedFile (comm : C) (file : Except Err (List (ℝ × ℝ))) (zrange : Option Range) (norm : Option ℝ) (i : ℕ) :
    Prog C TabMask :=
  let share := fun x : List ℝ × List ℝ =>
    .call comm (.bcast 0) x.1 fun z => .call comm (.bcast 0) x.2 fun nbar =>
      .done (TabMask.init ((z.getD 0 []).zip (nbar.getD 0 [])) zrange norm)
  if i = 0 then
    match file with
    | .error e => .done (.error e)
    | .ok rows => share (rows.map (·.1), rows.map (·.2))
  else share ([], [])

/-! ### Calls that are not given the communicator of the object -/

/-- mpytools `bcast_seed(size=None)` on the current communicator, `draw` being the random number of the rank, if no seed is given
(`gaussian_mock.py:227`, `:433`). -/
def withSeed (current : C) (seed : Option ℕ) (draw : ℕ) (next : ℕ → Prog C β) : Prog C β :=
  match seed with
  | some s => next s
  | none => .call current (.bcast 0) draw fun l => next (l.getD 0 0)

/-- `gaussian_mock.py:223-253` `BaseGaussianMock.__init__` on a rank: `wrong` is the exception of lines 237-245, if any; `noise` gives
the white noise of pmesh for a seed. The creation of meshes and the white noise are collective calls of pmesh on the communicator
of the object (lines 249-253). Returns the seed and the white noise. -/
def mockInit (current comm : C) (wrong : Option Err) (noise : ℕ → α) (seed : Option ℕ) (draw : ℕ) : Prog C (ℕ × α) :=
  withSeed current seed draw fun s =>
    match wrong with
    | some e => .done (.error e)
    | none => .call comm (.other "mesh") () fun _ => .call comm (.other "noise") s fun l => .done (.ok (s, noise (l.getD 0 0)))

/-- `gaussian_mock.py:424-439` `set_real_white_noise` on a rank: the noise that is added. -/
def whiteNoise (current comm : C) (noise : ℕ → α) (seed : Option ℕ) (draw : ℕ) : Prog C α :=
  withSeed current seed draw fun s => .call comm (.other "noise") s fun l => .done (.ok (noise (l.getD 0 0)))

/-- `make_survey.py:481-518` `RedshiftDensityInterpolator.__init__` on a rank holding `rows`, `mpiroot` being `None`: number of
redshifts on the current communicator (line 492), variance and range (lines 493, 495), counts (line 505) on the communicator of the
object. The value offered to the last call is the rows, from which all sums over ranks follow. -/
noncomputable def density (current comm : C) (bins : DensityInterp.BinsArg) (fsky : Option ℝ) (distance : Option (ℝ → ℝ)) (order : ℕ)
    (rows : List (ℝ × ℝ)) : Prog C DensityInterp.State :=
  let counts := fun size : ℕ => .call comm .allreduce rows fun all =>
    .done (DensityInterp.init size none all bins fsky distance order)
  let range := fun size : ℕ => .call comm .allreduce () fun _ => .call comm .allreduce () fun _ => counts size
  match bins with
  | .default => .call current .allreduce rows.length fun l => .call comm .allreduce () fun _ => range l.sum
  | .number _ => range 0
  | .edges _ => counts 0

/-- `catalog.py:384-399` `shuffle` on a rank holding `rows`, `i` being its rank in the communicator of the object and `j` in the current
one, over which `MPIRandomState` cuts its stream `u` (line 384). `shuf` is the shuffling of rank 0. -/
noncomputable def shuffle (current comm : C) (isrdd : Bool) (frac : ℝ) (u : ℕ → ℝ) (shuf : List ℝ → List ℝ) (i j : ℕ) (rows : List (V3 ℝ)) :
    Prog C (List (V3 ℝ)) :=
  .call current .allgather rows.length fun sizes =>
  .call current (.bcast 0) () fun _ =>
    let mask := shuffleMask frac ((List.range rows.length).map fun n => u ((sizes.take j).sum + n))
    let radial := (masked mask rows).map (radialOf isrdd)
    .call comm (.gather 0) radial fun all =>
    .call comm (.scatter 0) radial.length fun lens =>
      .done (shuffleRank isrdd mask rows ((splitSizes lens (shuf all.flatten)).getD i []))

/-- `catalog.py:631-634`, end of `png` for positions, on a rank: `rows` are the positions with their shifts, `sign` is that of
line 634. The mean shift is over the current communicator (line 633); an empty catalog gives `nan`. -/
noncomputable def pngShift (current : C) (sign : ℝ) (rows : List (V3 ℝ × V3 ℝ)) : Prog C (List (V3 ℝ)) :=
  .call current .allreduce (rows.map (·.2)) fun all =>
    let mean : V3 ℝ := (1 / (all.flatten.length : ℝ)) • all.flatten.foldr (· + ·) 0
    if all.flatten = [] then .done (.ok []) else .done (.ok (rows.map fun r => r.1 + sign • (r.2 - mean)))

end Verif.Model.Mpi
