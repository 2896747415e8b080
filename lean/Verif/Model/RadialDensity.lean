import Verif.Model.RadialSpline
import Verif.Model.Blinding

/-!
# Model of `RedshiftDensityInterpolator`, rule for the bins and interpolation included

`/repo/mockfactory/make_survey.py:441-522`. The histogram is `redshiftDensity` of `Verif/Model/Radial.lean`. Each row is a redshift
with its weight, 1 if `weights` is `None`.
-/

namespace Verif.Model.DensityInterp

open Verif Verif.Model Verif.Model.Blinding

/-- `make_survey.py:481-485`: with `mpiroot` the rows of this rank are shared between ranks, the others are not used; otherwise rows
are taken as they are. Redshifts are not `None` on the root. -/
def inputRows (mpiroot : Option ℕ) (rows : List (List (ℝ × ℝ))) : List (List (ℝ × ℝ)) :=
  match mpiroot with
  | none => rows
  | some r => splitSizes (localSizes (rows.getD r []).length rows.length) (rows.getD r [])

/-- mpytools `cvar(z, aweights=weights, ddof=1)` as numpy's `cov` (`make_survey.py:493`): weighted sum of squared deviations
from the weighted mean, over the sum of weights minus the sum of squared weights over the sum of weights. `none` is `nan`. -/
noncomputable def variance (rows : List (ℝ × ℝ)) : Option ℝ :=
  let w := (rows.map fun r => r.2).sum
  let mean := (rows.map fun r => r.2 * r.1).sum / w
  let dof := w - (rows.map fun r => r.2 ^ 2).sum / w
  if w = 0 ∨ dof = 0 then none else some ((rows.map fun r => r.2 * (r.1 - mean) ^ 2).sum / dof)

/-- `make_survey.py:493-494`: width of bins; `size` is that of line 492. -/
noncomputable def scottWidth (size : ℕ) (var : ℝ) : ℝ := √var * (24 * √Real.pi / size) ^ (1 / 3 : ℝ)

/-- The `bins` argument: `None` or `'scott'`, a number, an array. (`make_survey.py:490, 500`). -/
inductive BinsArg where
  | default
  | number (n : ℕ)
  | edges (l : List ℝ)

/-- `make_survey.py:490-501`. `size` is `mpy.csize(z)` (line 492), which is not given `self.mpicomm`: it is the number of redshifts
of the processes of the default communicator. A width that is null or `nan` gives one bin (lines 496-497), hence a single node,
refused by the spline (line 518): it is written `valueError` at once. -/
noncomputable def chooseBins (size : ℕ) (rows : List (ℝ × ℝ)) : BinsArg → Except Err Bins
  | .number n => .ok (.number n)
  | .edges l => .ok (.edges l)
  | .default =>
    match variance rows with
    | none => .error .valueError
    | some v => if 0 < scottWidth size v then .ok (.scott (scottWidth size v)) else .error .valueError

/-- `make_survey.py:516`: centres of bins. -/
noncomputable def centers (edges : List ℝ) : List ℝ := (List.zip edges edges.tail).map fun e => (e.1 + e.2) / 2

/-- Attributes `edges`, and `z`, `nbar` as nodes, with `interp_order`. (`make_survey.py:515-518`). -/
structure State where
  edges : List ℝ
  nodes : List (ℝ × ℝ)
  order : ℕ

open Classical in
/-- `make_survey.py:441-518` `RedshiftDensityInterpolator.__init__`. Edges that decrease are refused by `np.histogram` (line 504),
before any other effect. An empty shell gives a density which is infinite or `nan`
(line 517): `nan` error, if nodes are accepted. -/
noncomputable def init (size : ℕ) (mpiroot : Option ℕ) (rows : List (List (ℝ × ℝ))) (bins : BinsArg) (fsky : Option ℝ)
    (distance : Option (ℝ → ℝ)) (order : ℕ) : Except Err State := do
  let rows := inputRows mpiroot rows
  let bins ← chooseBins size rows.flatten bins
  let (edges, _, nbar) ← redshiftDensity rows bins fsky distance
  if ¬ edges.Pairwise (· ≤ ·) then .error .valueError else
  let nodes := List.zip (centers edges) nbar
  if ¬ Spline.Accepted order nodes then .error .valueError
  else if 0 ∈ shellVolumes fsky (edgeDistances distance edges) then .error .nan
  else .ok ⟨edges, nodes, order⟩

/-- `make_survey.py:520-522` `__call__`, at one redshift. -/
def call (S : Spline) (s : State) (z : ℝ) : ℝ := S.value s.order s.nodes z

end Verif.Model.DensityInterp
