import Verif.Model.Radial
import Verif.Model.Blinding
import Mathlib.MeasureTheory.Integral.IntervalIntegral.Basic

/-!
# Model of the integral and of the normalisation of a tabulated radial mask, with all their arguments

`/repo/mockfactory/make_survey.py:1498-1594`. The integral of a sample is `TabMask.integral` of `Verif/Model/Radial.lean`; here are the
integral without sample, samples that lie on one rank or on all, and arguments left to `None`.
-/

namespace Verif.Model.TabMask

open Verif Verif.Model Verif.Model.Blinding

open Classical in
/-- `make_survey.py:1498-1501` `zmask`. -/
noncomputable def zmask (t : TabMask) : List Bool := t.nodes.map fun p => decide (t.zrange.1 ≤ p.1 ∧ p.1 ≤ t.zrange.2)

/-- `self.interp.integral(self.zrange[0], self.zrange[1])` (`make_survey.py:1541`): integral of the interpolating line, zero outside the
table; the sum that scipy computes is taken as the exact integral. -/
noncomputable def interpIntegral (t : TabMask) : ℝ :=
  ∫ z in t.zrange.1..t.zrange.2, (linInterp (probNodes t.norm t.nodes) z).getD 0

/-- `make_survey.py:1540-1550` `integral`, once arrays are on all ranks: sample and weights of all ranks, `none` if not given. -/
noncomputable def integralAny (t : TabMask) (z weights : Option (List ℝ)) (normalizeWeights : Bool) : Except Err ℝ :=
  match z, weights with
  | none, none => .ok t.interpIntegral
  | none, some _ => .error .valueError
  | some z, w => t.integral z w normalizeWeights

/-- `make_survey.py:1552-1594` `normalize(target, z, weights)`, `none` being arguments that are not given; see `TabMask.normalize` for
the root finder, the exception of `integral` goes through it. -/
def normalizeAny (t : TabMask) (target : ℝ) (z weights : Option (List ℝ)) (result : Except Err TabMask) : Prop :=
  if ¬ (0 ≤ target ∧ target ≤ 1) then result = .error .valueError
  else match TabMask.normalizeWeights weights with
    | .error e => result = .error e
    | .ok w => match minPositive t.nodes with
      | none => result = .error .valueError
      | some m =>
        match ({ t with norm := 0 } : TabMask).integralAny z w false, ({ t with norm := 1 / m } : TabMask).integralAny z w false with
        | .ok f0, .ok f1 =>
          if target = 0 then result = .error .nan
          else if 0 < (f0 / target - 1) * (f1 / target - 1) then result = .error .valueError
          else ∃ c, 0 ≤ c ∧ c ≤ 1 / m ∧ ({ t with norm := c } : TabMask).integralAny z w false = .ok target ∧
            result = .ok { t with norm := c }
        | .error e, _ => result = .error e
        | _, .error e => result = .error e

/-! ### Ranks -/

/-- `make_survey.py:1534-1538`, `:1575-1579`: an argument on each rank. With `mpiroot`, the array of this rank, if it has one, is cut
between all ranks (mpytools `scatter`) and what other ranks give is not used. -/
def inputArray (mpiroot : Option ℕ) (ranks : List (Option (List ℝ))) : List (Option (List ℝ)) :=
  match mpiroot with
  | none => ranks
  | some r => match ranks.getD r none with
    | none => ranks
    | some l => (splitSizes (localSizes l.length ranks.length) l).map some

/-- The collective calls of a rank: number of redshifts, sum of weights, sum of probabilities (`make_survey.py:1540-1550`). -/
inductive SumCall where
  | sizes
  | weights
  | total
  deriving DecidableEq

/-- The collective calls a rank makes (`make_survey.py:1540-1550`). A rank without redshifts returns or raises without any. A rank
whose weights and redshifts have different numbers raises before the last one (numpy broadcasting of a single weight is left out). -/
def sumCalls (z weights : Option (List ℝ)) (normalizeWeights : Bool) : List SumCall :=
  match z, weights with
  | none, _ => []
  | some _, none => if normalizeWeights then [.sizes, .total] else [.total]
  | some z, some w =>
    (if normalizeWeights then [.weights] else []) ++ if z.length = w.length then [.total] else []

/-- `weights / total` on a rank (`make_survey.py:1544-1549`). -/
noncomputable def rankWeights (z : List ℝ) (weights : Option (List ℝ)) (normalizeWeights : Bool) (total : ℝ) : List ℝ :=
  match weights with
  | none => z.map fun _ => if normalizeWeights then 1 / total else 1
  | some w => if normalizeWeights then w.map (· / total) else w

/-- `make_survey.py:1510-1550` `integral` with all its arguments, on all ranks: `ranks` are the redshifts and weights given on each
rank, `z` and `weights` cut between ranks if need be. `none` if ranks do not make the same collective calls: then at least one rank
waits for ever, or sums of different kinds are mixed. `total` is the sum over ranks of what they give to the first call, null if there
is none. -/
noncomputable def integralRun (t : TabMask) (mpiroot : Option ℕ) (zs ws : List (Option (List ℝ))) (normalizeWeights : Bool) :
    Option (List (Except Err ℝ)) :=
  let args := List.zip (inputArray mpiroot zs) (inputArray mpiroot ws)
  let calls := args.map fun a => sumCalls a.1 a.2 normalizeWeights
  if ∀ c ∈ calls, ∀ c' ∈ calls, c = c' then
    let total : ℝ := (args.map fun a =>
      if .sizes ∈ sumCalls a.1 a.2 normalizeWeights then ((a.1.getD []).length : ℝ)
      else if .weights ∈ sumCalls a.1 a.2 normalizeWeights then (a.2.getD []).sum else 0).sum
    let value : ℝ := (args.map fun a =>
      (List.zipWith (fun x w => t.prob x * w) (a.1.getD []) (rankWeights (a.1.getD []) a.2 normalizeWeights total)).sum).sum
    some (args.map fun a => match a.1, a.2 with
      | none, none => .ok t.interpIntegral
      | none, some _ => .error .valueError
      | some z, w =>
        if (∃ w', w = some w' ∧ z.length ≠ w'.length) then .error .valueError
        else if normalizeWeights ∧ total = 0 then .error .nan else .ok value)
  else none

end Verif.Model.TabMask
