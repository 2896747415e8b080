import Verif.Model.Mask
import Mathlib.Analysis.SpecialFunctions.Log.Base

/-!
# Model of tabulated radial functions

`/repo/mockfactory/make_survey.py:386-522` (`DistanceToRedshift`, `RedshiftDensityInterpolator`) and `:1375-1624`
(`TabulatedRadialMask`). Splines of scipy are modelled for `interp_order = 1`: piecewise linear functions through the nodes.
-/

namespace Verif.Model

open Verif

open Classical in
/-- `scipy.interpolate.UnivariateSpline(x, y, k=1, s=0)` at one point: the segment of the piecewise linear function through the
nodes `(x, y)`; `none` outside of the nodes. (`make_survey.py:1496`). -/
noncomputable def linInterp : List (ℝ × ℝ) → ℝ → Option ℝ
  | (x0, y0) :: (x1, y1) :: rest, x =>
    if x < x0 then none
    else if x ≤ x1 then some (y0 + (x - x0) / (x1 - x0) * (y1 - y0))
    else linInterp ((x1, y1) :: rest) x
  | _, _ => none

open Classical in
/-- Arguments accepted by `UnivariateSpline(x, y, k=1, s=0)`: at least two nodes, strictly increasing abscissae; otherwise
`ValueError`. (`make_survey.py:1496`). -/
noncomputable def splineArgs (nodes : List (ℝ × ℝ)) : Except Err Unit :=
  if 2 ≤ nodes.length ∧ (nodes.map (·.1)).Pairwise (· < ·) then .ok () else .error .valueError

/-! ### Distance to redshift -/

/-- `make_survey.py:413-414`: `np.concatenate([[0.], np.logspace(-8, np.log10(zmax), nz)])`, for `nz ≥ 2`. -/
noncomputable def zgrid (zmax : ℝ) (nz : ℕ) : List ℝ :=
  0 :: (List.range nz).map fun k : ℕ => (10 : ℝ) ^ (-8 + (Real.logb 10 zmax + 8) * k / (nz - 1))

/-- `make_survey.py:415-416`: nodes of the interpolation. -/
noncomputable def distanceNodes (distance : ℝ → ℝ) (zmax : ℝ) (nz : ℕ) : List (ℝ × ℝ) :=
  (zgrid zmax nz).map fun z => (distance z, z)

/-- `make_survey.py:390-420` `DistanceToRedshift(distance, zmax, nz, interp_order=1)(x)`. -/
noncomputable def distanceToRedshift (distance : ℝ → ℝ) (zmax : ℝ) (nz : ℕ) (x : ℝ) : Except Err ℝ := do
  splineArgs (distanceNodes distance zmax nz)
  match linInterp (distanceNodes distance zmax nz) x with
  | some z => .ok z
  | none => .error .valueError

/-! ### Histogram -/

open Classical in
/-- `np.histogram(z, weights, bins)[0]` for increasing edges: all bins are half-open, but the last one is closed.
(`make_survey.py:504`). -/
noncomputable def histogram : List ℝ → List (ℝ × ℝ) → List ℝ
  | [a, b], rows => [((rows.filter fun r => decide (a ≤ r.1 ∧ r.1 ≤ b)).map (·.2)).sum]
  | a :: b :: edges, rows => ((rows.filter fun r => decide (a ≤ r.1 ∧ r.1 < b)).map (·.2)).sum :: histogram (b :: edges) rows
  | _, _ => []

/-- `mpy.cmin`, `mpy.cmax`: extreme values over all ranks. (`make_survey.py:487-488`). -/
noncomputable def extremes (zs : List ℝ) : Except Err (ℝ × ℝ) :=
  match zs with
  | [] => .error .valueError
  | z :: l => .ok (l.foldl min z, l.foldl max z)

/-- The `bins` argument, arrays left out of the property; `scott dx` carries the width of the rule, which depends on the
variance of the sample (`make_survey.py:492-494`): any positive number. -/
inductive Bins where
  | scott (dx : ℝ)
  | number (n : ℕ)
  | edges (l : List ℝ)

/-- `make_survey.py:490-503`. -/
noncomputable def binEdges (bins : Bins) (zs : List ℝ) : Except Err (List ℝ) :=
  match bins with
  | .edges l => .ok l
  | .scott dx => do
    let (lo, hi) ← extremes zs
    let nbins := max 1 ⌈(hi - lo) / dx⌉
    .ok ((List.range (nbins + 1).toNat).map fun k : ℕ => lo + dx * k)
  | .number n => do
    let (lo, hi) ← extremes zs
    if n = 0 then .ok [lo] else .ok ((List.range (n + 1)).map fun k : ℕ => lo + (hi - lo) * k / n)

/-- Elementwise sum over ranks: `mpy.reduce(counts, op='sum')`. (`make_survey.py:505`). -/
noncomputable def reduceSum (n : ℕ) (counts : List (List ℝ)) : List ℝ := counts.foldl (List.zipWith (· + ·)) (List.replicate n 0)

/-- `make_survey.py:511-514`: shell volumes; `fsky = none` is `None`. -/
noncomputable def shellVolumes (fsky : Option ℝ) (dbins : List ℝ) : List ℝ :=
  (List.zip dbins dbins.tail).map fun e => match fsky with
    | none => 1
    | some f => f * 4 / 3 * Real.pi * (e.2 ^ 3 - e.1 ^ 3)

/-- `make_survey.py:507-510`: distances to the edges; `distance = none` is `None`. -/
def edgeDistances (distance : Option (ℝ → ℝ)) (edges : List ℝ) : List ℝ :=
  match distance with
  | none => edges
  | some f => edges.map f

/-- `make_survey.py:441-518` `RedshiftDensityInterpolator`: edges, summed counts and `nbar`; `rows` are the redshifts and
weights of each rank, `distance = none` the identity. The interpolator is not modelled, nor `nan` in case of empty shells. -/
noncomputable def redshiftDensity (rows : List (List (ℝ × ℝ))) (bins : Bins) (fsky : Option ℝ) (distance : Option (ℝ → ℝ)) :
    Except Err (List ℝ × List ℝ × List ℝ) := do
  let edges ← binEdges bins (rows.flatten.map (·.1))
  let counts := reduceSum (edges.length - 1) (rows.map (histogram edges))
  .ok (edges, counts, List.zipWith (· / ·) counts (shellVolumes fsky (edgeDistances distance edges)))

/-! ### Tabulated radial mask -/

/-- State of a `TabulatedRadialMask` with `interp_order = 1`: `nodes` are the pairs (z, nbar).
(`make_survey.py:1418-1427`). -/
structure TabMask where
  nodes : List (ℝ × ℝ)
  zrange : Range
  norm : ℝ

namespace TabMask

/-- `make_survey.py:1491-1496` `_set_interp`, with `norm` set: `np.minimum(self.norm * self.nbar, 1.)` at the nodes. -/
noncomputable def probNodes (norm : ℝ) (nodes : List (ℝ × ℝ)) : List (ℝ × ℝ) := nodes.map fun p => (p.1, min (norm * p.2) 1)

open Classical in
/-- `make_survey.py:1451-1456`: default normalisation, `max` of an empty array being an exception, and a maximum of zero giving
an infinite factor, then `nan`. -/
noncomputable def defaultNorm (nodes : List (ℝ × ℝ)) (zrange : Range) : Except Err ℝ :=
  match (nodes.filter fun p => decide (zrange.1 ≤ p.1 ∧ p.1 ≤ zrange.2)).map (·.2) with
  | [] => .error .valueError
  | y :: l =>
    let m := max (max (l.foldl max y) ((linInterp nodes zrange.1).getD 0)) ((linInterp nodes zrange.2).getD 0)
    if m = 0 then .error .nan else .ok (1 / m)

/-- `make_survey.py:1429-1489` `prepare`. -/
noncomputable def prepare (nodes : List (ℝ × ℝ)) (zrange : Range) (norm : Option ℝ) : Except Err TabMask := do
  splineArgs nodes
  match norm with
  | some c => .ok ⟨nodes, zrange, c⟩
  | none => do .ok ⟨nodes, zrange, ← defaultNorm nodes zrange⟩

open Classical in
/-- `make_survey.py:1380-1427` `TabulatedRadialMask(z, nbar, zrange, norm, interp_order=1)`. -/
noncomputable def init (nodes : List (ℝ × ℝ)) (zrange : Option Range) (norm : Option ℝ) : Except Err TabMask :=
  if ∃ p ∈ nodes, p.2 < 0 then .error .valueError
  else match nodes.head?, nodes.getLast? with
    | some a, some b =>
      let r := zrange.getD (a.1, b.1)
      if a.1 ≤ r.1 ∧ r.2 ≤ b.1 then prepare nodes r norm else .error .valueError
    | _, _ => .error .indexError

open Classical in
/-- `make_survey.py:1503-1508` `prob`. -/
noncomputable def prob (t : TabMask) (z : ℝ) : ℝ :=
  if t.zrange.1 ≤ z ∧ z ≤ t.zrange.2 then (linInterp (probNodes t.norm t.nodes) z).getD 0 else 0

/-- `scipy.interpolate.UnivariateSpline(x, y, k=3, s=0)` with four nodes: the polynomial of degree 3 through them (default
`interp_order` of the mask, only modelled for four nodes). (`make_survey.py:1496`). -/
noncomputable def cubicInterp (p0 p1 p2 p3 : ℝ × ℝ) (x : ℝ) : ℝ :=
  let term (a b c d : ℝ × ℝ) : ℝ := a.2 * ((x - b.1) * (x - c.1) * (x - d.1)) / ((a.1 - b.1) * (a.1 - c.1) * (a.1 - d.1))
  term p0 p1 p2 p3 + term p1 p0 p2 p3 + term p2 p0 p1 p3 + term p3 p0 p1 p2

open Classical in
/-- `make_survey.py:1503-1508` `prob` for the default `interp_order = 3`, a table of four nodes and a given norm. -/
noncomputable def cubicProb (p0 p1 p2 p3 : ℝ × ℝ) (zrange : Range) (norm z : ℝ) : ℝ :=
  let c (p : ℝ × ℝ) : ℝ × ℝ := (p.1, min (norm * p.2) 1)
  if zrange.1 ≤ z ∧ z ≤ zrange.2 then cubicInterp (c p0) (c p1) (c p2) (c p3) z else 0

/-- `make_survey.py:1540-1550` `integral`, given redshifts: sample over all ranks, `weights = none` if not given. A null sum of
weights (division by zero) gives `nan`. -/
noncomputable def integral (t : TabMask) (z : List ℝ) (weights : Option (List ℝ)) (normalizeWeights : Bool) : Except Err ℝ :=
  match weights with
  | none =>
    if normalizeWeights then
      if z.length = 0 then .error .nan else .ok ((z.map fun x => t.prob x * (1 / z.length)).sum)
    else .ok ((z.map fun x => t.prob x * 1).sum)
  | some w =>
    if normalizeWeights then
      if w.sum = 0 then .error .nan else .ok ((List.zipWith (fun x w' => t.prob x * (w' / w.sum)) z w).sum)
    else .ok ((List.zipWith (fun x w' => t.prob x * w') z w).sum)

/-- `make_survey.py:1575-1587`: the weights used by `normalize`. -/
noncomputable def normalizeWeights (weights : Option (List ℝ)) : Except Err (Option (List ℝ)) :=
  match weights with
  | none => .ok none
  | some w => if w.sum = 0 then .error .nan else .ok (some (w.map (· / w.sum)))

/-- `make_survey.py:1584-1587`: the function passed to the root finder, times `target`. -/
noncomputable def selected (t : TabMask) (z : List ℝ) (weights : Option (List ℝ)) (norm : ℝ) : Except Err ℝ :=
  ({ t with norm := norm } : TabMask).integral z weights false

/-- `self.nbar[self.nbar > 0.].min()` (`make_survey.py:1589`). -/
noncomputable def minPositive (nodes : List (ℝ × ℝ)) : Option ℝ :=
  match (nodes.map (·.2)).filter (fun y => decide (0 < y)) with
  | [] => none
  | y :: l => some (l.foldl min y)

/-- `make_survey.py:1552-1594` `normalize(target, z, weights)`. `optimize.brentq(f, 0, 1 / min)` is modelled as an exact root
finder: `Result t' ` holds of any state whose norm is a root in the bracket; it fails unless the signs at the ends of the
bracket are opposite (an end where the function vanishes is accepted). `target = 0` divides by zero: `nan`. -/
def normalize (t : TabMask) (target : ℝ) (z : List ℝ) (weights : Option (List ℝ)) (result : Except Err TabMask) : Prop :=
  if ¬ (0 ≤ target ∧ target ≤ 1) then result = .error .valueError
  else if target = 0 then result = .error .nan
  else match normalizeWeights weights with
    | .error e => result = .error e
    | .ok w => match minPositive t.nodes with
      | none => result = .error .valueError
      | some m => ∃ f0 f1, t.selected z w 0 = .ok f0 ∧ t.selected z w (1 / m) = .ok f1 ∧
        if 0 < (f0 / target - 1) * (f1 / target - 1) then result = .error .valueError
        else ∃ c, 0 ≤ c ∧ c ≤ 1 / m ∧ t.selected z w c = .ok target ∧ result = .ok { t with norm := c }

/-- `make_survey.py:1616-1618`: default edges. -/
noncomputable def defaultEdges (zs : List ℝ) : List ℝ :=
  match zs.head?, zs.getLast? with
  | some a, some b => a :: (List.zip zs zs.tail).map (fun e => (e.1 + e.2) / 2) ++ [b]
  | _, _ => []

/-- `dedges[1:]**3 - dedges[:-1]**3`. (`make_survey.py:514`). -/
def shells (d : List ℝ) : List ℝ := (List.zip d d.tail).map fun e => e.2 ^ 3 - e.1 ^ 3

open Classical in
/-- `make_survey.py:1599-1624` `convert_to_cosmo`: a number of edges that does not match is a `ValueError` (two edges, which numpy
would broadcast, included), a null volume
gives `nan`. The norm is set again to its default. -/
noncomputable def convertToCosmo (t : TabMask) (dself dtarget : ℝ → ℝ) (zedges : Option (List ℝ)) : Except Err TabMask :=
  let edges := zedges.getD (defaultEdges (t.nodes.map (·.1)))
  let vself := shells (edges.map dself)
  let vtarget := shells (edges.map dtarget)
  if vself.length ≠ t.nodes.length then .error .valueError
  else if ∃ v ∈ vtarget, v = 0 then .error .nan
  else prepare (List.zipWith (fun p v => (p.1, p.2 * v.1 / v.2)) t.nodes (List.zip vself vtarget)) t.zrange none

end TabMask

end Verif.Model
