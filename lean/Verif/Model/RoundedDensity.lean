import Verif.Basic.Rounding
import Verif.Model.Radial

/-!
# Model of redshift histograms with rounding errors

`/repo/mockfactory/make_survey.py:487-517` (`RedshiftDensityInterpolator.__init__`): each operation on floats is rounded
(`Verif/Basic/Rounding.lean`), on one process. `np.linspace` and `np.histogram` are modelled after numpy 1.2x and 2.x. `Verif/Model/Radial.lean`
has the same functions in exact real numbers, with ranks and volumes of shells.
-/

namespace Verif.Model.RoundedDensity

open Verif Verif.Model

variable (F : Fmt)

open Classical in
/-- `np.linspace(lo, hi, num=n + 1, endpoint=True)` (`make_survey.py:501`): multiples of the step added to `lo`, the last value being set to
`hi`. A step that underflows to 0 is not used. -/
noncomputable def linspaceF (lo hi : ℝ) (n : ℕ) : List ℝ :=
  if n = 0 then [lo]
  else
    let delta := F.rnd (hi - lo)
    let step := F.rnd (delta / n)
    (List.range n).map (fun k : ℕ => if step = 0 then F.rnd (F.rnd (F.rnd (k / n) * delta) + lo) else F.rnd (F.rnd (k * step) + lo)) ++ [hi]

/-- `nbins` of the default rule, for bins of width `dx` (`make_survey.py:496-497`). -/
noncomputable def scottNumber (lo hi dx : ℝ) : ℤ := max 1 ⌈F.rnd (F.rnd (hi - lo) / dx)⌉

/-- `minval + dx * np.arange(nbins + 1)` (`make_survey.py:498`). -/
noncomputable def scottF (lo hi dx : ℝ) : List ℝ :=
  (List.range (scottNumber F lo hi dx + 1).toNat).map fun k : ℕ => F.rnd (lo + F.rnd (dx * k))

/-- `make_survey.py:490-503`. The width of the rule is an argument of `Bins.scott`. -/
noncomputable def binEdgesF (bins : Bins) (zs : List ℝ) : Except Err (List ℝ) :=
  match bins with
  | .edges l => .ok l
  | .scott dx => do
    let (lo, hi) ← extremes zs
    .ok (scottF F lo hi dx)
  | .number n => do
    let (lo, hi) ← extremes zs
    .ok (linspaceF F lo hi n)

/-! ### `np.histogram` with given edges (`make_survey.py:504`) -/

open Classical in
/-- Index of an edge in sorted redshifts: `searchsorted(edges[:-1], 'left')`, and `searchsorted(edges[-1:], 'right')` for the last edge. -/
noncomputable def index (last : Bool) (zs : List ℝ) (e : ℝ) : ℕ := (zs.filter fun z => decide (if last then z ≤ e else z < e)).length

/-- Value of `weights.cumsum()` at the last of the given weights, 0 for none. -/
noncomputable def cumsumF (w : List ℝ) : ℝ := w.foldl (fun a x => F.rnd (a + x)) 0

/-- `cum_n` at one edge: the sum over blocks (of 65536 rows in numpy), each of them sorted, of `cw[bin_index]`. -/
noncomputable def cumF (sorted : List (List (ℝ × ℝ))) (last : Bool) (e : ℝ) : ℝ :=
  sorted.foldl (fun c b => F.rnd (c + cumsumF F ((b.map (·.2)).take (index last (b.map (·.1)) e)))) 0

/-- `np.diff(cum_n)` with weights; `sort` is the result of `np.argsort`. -/
noncomputable def histogramF (sort : List (ℝ × ℝ) → List (ℝ × ℝ)) (blocks : List (List (ℝ × ℝ))) (edges : List ℝ) : List ℝ :=
  let cum := edges.mapIdx fun j e => cumF F (blocks.map sort) (j + 1 == edges.length) e
  List.zipWith (fun a b => F.rnd (b - a)) cum cum.tail

/-- `cum_n` at one edge, without weights: integers. -/
noncomputable def cumN (sorted : List (List ℝ)) (last : Bool) (e : ℝ) : ℤ := (sorted.map fun b => (index last b e : ℤ)).sum

/-- `np.diff(cum_n)` without weights. -/
noncomputable def histogramN (sort : List ℝ → List ℝ) (blocks : List (List ℝ)) (edges : List ℝ) : List ℤ :=
  let cum := edges.mapIdx fun j e => cumN (blocks.map sort) (j + 1 == edges.length) e
  List.zipWith (fun a b => b - a) cum cum.tail

/-- `self.z = (bins[:-1] + bins[1:]) / 2.` (`make_survey.py:516`). -/
noncomputable def centersF (edges : List ℝ) : List ℝ := List.zipWith (fun a b => F.rnd (F.rnd (a + b) / 2)) edges edges.tail

end Verif.Model.RoundedDensity
