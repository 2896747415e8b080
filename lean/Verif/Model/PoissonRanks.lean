import Verif.Model.Mesh
import Verif.Model.Blinding

/-!
# Model of Poisson sampling and of seeded selections, rank by rank

`/repo/mockfactory/gaussian_mock.py:501-555`, `/repo/mockfactory/make_survey.py:1241-1243, 1916-1919`. One list for each rank. Random
streams (mpytools), `ravel` and `unravel` (pmesh) and the parallel sort (mpsort) are modelled from their documented behaviour.
-/

namespace Verif.Model

open Verif.Model.Blinding (splitSizes)

/-- mpytools `MPIRandomState(size=..., seed=...)`, a method called with one argument for each row: rank `r` gets the draws of its rows,
counted over all ranks. `draw` is the stream of the seed: draw of each row, given the arguments of all rows.
(`gaussian_mock.py:518-521, 545-546`, `make_survey.py:1242-1243, 1917-1918`). -/
def mpiDraw {α β : Type*} (draw : List α → ℕ → β) (parts : List (List α)) : List (List β) :=
  parts.mapIdx fun r part => (List.range part.length).map fun l => draw parts.flatten (((parts.take r).map List.length).sum + l)

/-- `mpsort.sort(values, orderby=keys, comm=...)`: values of all ranks in increasing order of keys; each rank gets as many as it gave.
(`gaussian_mock.py:543`; pmesh `ravel`). -/
def mpiSort {β : Type*} (parts : List (List (ℕ × β))) : List (List β) :=
  splitSizes (parts.map List.length) ((parts.flatten.mergeSort fun a b => decide (a.1 ≤ b.1)).map (·.2))

namespace Mesh

variable (M : Mesh)

/-- pmesh `ravel`: values at nodes in C order of the whole mesh, cut over ranks. (`gaussian_mock.py:521`). -/
def ravel {α : Type*} (ranks : List (List M.Idx)) (f : M.Idx → α) : List (List α) :=
  mpiSort (ranks.map fun nodes => nodes.map fun i => (M.cellId i, f i))

/-- pmesh `unravel`: value of a node from the values in C order. (`gaussian_mock.py:522-523`, `readout` at the nodes, `:534-536`). -/
def unravel (flat : List (List ℕ)) (i : M.Idx) : ℕ := flat.flatten.getD (M.cellId i) 0

open Classical in
/-- `gaussian_mock.py:501-555` `poisson_sample`: positions of each rank. `ranks`: nodes of each rank. `pois`: draws of
`rng.poisson(lam=...)` with the first seed, given the means; `u`: draws of [0, 1) with the second seed, given the number of rows.
A negative mean is a `ValueError` of numpy, taken to end all ranks. -/
noncomputable def poissonRanks (s : M.Fields) (ranks : List (List M.Idx)) (pois : List ℝ → ℕ → ℕ) (u : ℕ → ℕ → Fin 3 → ℝ) :
    Except Err (List (List (Fin 3 → ℝ))) :=
  let lam := M.ravel ranks (M.cellMean s)
  if ∃ x ∈ lam.flatten, x < 0 then .error .valueError
  else
    let number := mpiDraw pois lam
    let positions := mpiSort (ranks.map (M.repeated (M.unravel number)))
    let shift := mpiDraw (fun rows j => u rows.length j) positions
    .ok (List.zipWith (List.zipWith fun p v d => p d + (0 + (M.cell d - 0) * v d) + (M.boxcenter d - M.boxsize d / 2)) positions shift)

end Mesh

/-- `make_survey.py:1241-1243` `BaseMask.__call__` with a seed, on all ranks: `prob` is :meth:`prob` of one row. -/
noncomputable def maskRanks {α : Type*} (prob : α → ℝ) (u : ℕ → ℕ → ℝ) (parts : List (List α)) : List (List Bool) :=
  open Classical in
  List.zipWith (List.zipWith fun a v => decide (v ≤ prob a)) parts (mpiDraw (fun rows j => u rows.length j) parts)

/-- `make_survey.py:1916-1919` `sample` of redshift smearings with a seed, on all ranks: `ppf` is :meth:`ppf` of one draw and redshift. -/
noncomputable def smearRanks {β : Type*} (ppf : ℝ → ℝ → β) (u : ℕ → ℕ → ℝ) (parts : List (List ℝ)) : List (List β) :=
  List.zipWith (List.zipWith fun z v => ppf v z) parts (mpiDraw (fun rows j => u rows.length j) parts)

end Verif.Model
