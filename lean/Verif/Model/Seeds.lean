import Verif.Model.Mask

/-!
# Model of the seeds of samplings and selections

`/repo/mockfactory/make_survey.py:1240-1243`, `:1327-1354`, `:1695-1722`, and the seeds of `/repo/desi/from_box_to_desi_cutsky.py`.
Samplings are those of `Verif/Model/Mask.lean`, with the seed from which the candidates of each round are drawn.
-/

namespace Verif.Model.Seeds

open Verif Verif.Model

/-- Seed of round `t` of `sample(size, seed=seed)`, `t` starting from 0: `seed = bcast_seed(seed=seed, size=None) + 1` before each round
(`make_survey.py:1343`, `:1710`). `bcast_seed` returns a given seed unchanged, as mpytools documents. -/
def roundSeed (seed : ℕ) : ℕ → ℕ
  | 0 => seed + 1
  | t + 1 => roundSeed seed t + 1

/-- Candidates of `sample`: `point s n i` is the `i`-th point drawn by `MPIRandomState` with seed `s` among `n` points over all ranks
(`make_survey.py:1328-1335`, `:1696-1702`). -/
def seededCandidates {α : Type} (point : ℕ → ℕ → ℕ → α) (seed : ℕ) (sizes : List ℕ) (t i : ℕ) : α :=
  point (roundSeed seed t) sizes.sum i

/-- `sample(size, seed=seed)` (`make_survey.py:1302-1354`, `:1674-1722`), for masks that decide on a point by its position only (selection
probabilities 0 and 1): the loop ends after `n` rounds and the ranks return `out`. -/
def SampleSeed {α : Type} (point : ℕ → ℕ → ℕ → α) (keep : α → Bool) (sizes : List ℕ) (seed n : ℕ)
    (out : Except Err (List (List α))) : Prop :=
  let cand := seededCandidates point seed sizes
  let acc := fun t i => keep (cand t i)
  StopsAfter cand acc sizes n ∧ out = sampleResult cand acc sizes n

/-- The same for masks with any selection probabilities: `make_survey.py:1336`, `:1703` call the mask without seed, and the decisions `acc`
are any. -/
def SampleAny {α : Type} (point : ℕ → ℕ → ℕ → α) (acc : ℕ → ℕ → Bool) (sizes : List ℕ) (seed n : ℕ)
    (out : Except Err (List (List α))) : Prop :=
  let cand := seededCandidates point seed sizes
  StopsAfter cand acc sizes n ∧ out = sampleResult cand acc sizes n

/-- `mask(..., seed=seed)` of a catalog, on one rank (`make_survey.py:1241-1243`): `u s i` is the `i`-th uniform draw of seed `s`. -/
noncomputable def maskSeed (u : ℕ → ℕ → ℝ) (seed : ℕ) (prob : List ℝ) : List Bool :=
  maskCall prob ((List.range prob.length).map (u seed))

/-- Seeds of the script for region `i` (`from_box_to_desi_cutsky.py:362-364`, `:379`, `:413`, `:427`, `:147-149`): the redshift errors and
the radial selection of the data; the positions and, before its first increment, the redshifts of the randoms. -/
def scriptSeeds (i : ℕ) : List ℕ := [79 + i + 13, 79 + i, 792 + i, (792 + i) * 276]

end Verif.Model.Seeds
