import Verif.Model.Radial
import Mathlib.Data.EReal.Basic

/-!
# Model of redshift smearings

`/repo/mockfactory/make_survey.py:1859-2071`. A table over errors `dz` (first axis) and redshifts `z` (second axis, of any size `nz`)
is a list of functions of the redshift index. The bivariate spline evaluated by `ppf` and the cubic splines of `_set_interp` are
not modelled but through the values they interpolate.
-/

namespace Verif.Model

open Verif

/-- `np.cumsum(pdf, axis=0)`. (`make_survey.py:1978`). -/
def cumsum {nz : ℕ} (start : Fin nz → ℝ) : List (Fin nz → ℝ) → List (Fin nz → ℝ)
  | [] => []
  | r :: rows => (fun z => start z + r z) :: cumsum (fun z => start z + r z) rows

/-- Errors and cumulative distribution of a smearing, one row per error. (`make_survey.py:1974-1984`). -/
abbrev SmearTable (nz : ℕ) := List (ℝ × (Fin nz → ℝ))

/-- `make_survey.py:1979`: `(cdf - cdf[0]) / (cdf[-1] - cdf[0])`. -/
noncomputable def normalizeCdf {nz : ℕ} (c0 c1 : Fin nz → ℝ) (c : Fin nz → ℝ) : Fin nz → ℝ := fun z => (c z - c0 z) / (c1 z - c0 z)

open Classical in
/-- `make_survey.py:1980-1982`: rows with a cumulative probability strictly between 0 and 1 at all redshifts, with ends added. -/
noncomputable def padRows {nz : ℕ} (d0 d1 : ℝ) (table : SmearTable nz) : SmearTable nz :=
  (d0, fun _ => 0) :: table.filter (fun r => decide (∀ z : Fin nz, 0 < r.2 z ∧ r.2 z < 1)) ++ [(d1, fun _ => 1)]

open Classical in
/-- `make_survey.py:1974-1982` `TabulatedPDF2DRedshiftSmearing.__init__` for a 1D array `dz`, up to the interpolation: rows of
(dz, pdf). A null denominator gives `nan` for all entries of that redshift, hence no row is kept, and the interpolation raises
(`ValueError`). -/
noncomputable def tabulatedCdf {nz : ℕ} (rows : List (ℝ × (Fin nz → ℝ))) : Except Err (SmearTable nz) :=
  match (cumsum (fun _ => 0) (rows.map (·.2))).head?, (cumsum (fun _ => 0) (rows.map (·.2))).getLast?, rows.head?,
    rows.getLast? with
  | some c0, some c1, some r0, some r1 =>
    if ∃ z : Fin nz, c1 z - c0 z = 0 then .error .valueError
    else .ok (padRows r0.1 r1.1
      (List.zip (rows.map (·.1)) ((cumsum (fun _ => 0) (rows.map (·.2))).map (normalizeCdf c0 c1))))
  | _, _, _, _ => .error .indexError

/-- `np.clip(x, lo, hi)`, which is `np.minimum(np.maximum(x, lo), hi)`. (`make_survey.py:1886`). -/
noncomputable def npClip (x lo hi : ℝ) : ℝ := min (max x lo) hi

/-- `np.linspace(a, b, num=n)`, for `n ≥ 2`. (`make_survey.py:1879, 2027`). -/
noncomputable def linspace (a b : ℝ) (n : ℕ) : List ℝ := (List.range n).map fun k : ℕ => a + (b - a) * k / (n - 1)

open Classical in
/-- `make_survey.py:1879-1886`: one iteration (one redshift) of `_set_interp`: the column of the table of `ppf` at
`u = linspace(0, 1, n)`. `spline nodes` is `UnivariateSpline(…, k=3, s=0, ext='raise')`, which needs four nodes or more, of
increasing abscissae. -/
noncomputable def ppfColumn (spline : List (ℝ × ℝ) → ℝ → ℝ) (column : List (ℝ × ℝ)) : Except Err (List ℝ) :=
  match column.head?, column.getLast? with
  | some d0, some d1 =>
    let inner := (column.map fun p => (p.2, p.1)).filter fun p => decide ((1e-12 : ℝ) < p.1 ∧ p.1 < 1 - 1e-12)
    let nodes := (0, d0.1) :: inner ++ [(1, d1.1)]
    if 4 ≤ nodes.length ∧ (nodes.map (·.1)).Pairwise (· < ·) then
      .ok ((linspace 0 1 column.length).map fun u => npClip (spline nodes u) d0.1 d1.1)
    else .error .valueError
  | _, _ => .error .indexError

/-- Column of a table, at a given redshift. (`make_survey.py:1881-1883`). -/
def SmearTable.column {nz : ℕ} (t : SmearTable nz) (z : Fin nz) : List (ℝ × ℝ) := t.map fun r => (r.1, r.2 z)

/-- `make_survey.py:1922-1944` `average`, up to the interpolation; `weights = none` for equal weights. Smearings with other errors
`dz` raise (`np.allclose` being equality); the transforms are taken equal. A null sum of weights gives `nan`. -/
noncomputable def averageCdf {nz : ℕ} (tables : List (SmearTable nz)) (weights : Option (List (Fin nz → ℝ))) :
    Except Err (SmearTable nz) :=
  open Classical in
  match tables with
  | [] => .error .indexError
  | t0 :: _ =>
    let w := weights.getD (tables.map fun _ => fun _ => 1)
    if ∃ t ∈ tables, t.map (·.1) ≠ t0.map (·.1) then .error .valueError
    else if ∃ z, (w.map (· z)).sum = 0 then .error .nan
    else .ok (List.zip (t0.map (·.1)) ((List.range t0.length).map fun k => fun z =>
      (List.zipWith (fun (t : SmearTable nz) w' => ((t[k]?.map (·.2 z)).getD 0) * (w' z / (w.map (· z)).sum)) tables w).sum))

/-! ### Random variables -/

/-- `rv.support()`. (`make_survey.py:2023`). -/
inductive Support where
  | finite (a b : ℝ)
  | infinite
  | below (b : ℝ)
  | above (a : ℝ)

/-- `np.arctanh`, between -1 and 1: infinite at these ends. (`make_survey.py:2045`). -/
noncomputable def npArctanh (x : ℝ) : EReal := if x = -1 then ⊥ else if x = 1 then ⊤ else (Real.log ((1 + x) / (1 - x)) / 2 : ℝ)

/-- `np.log`, of non-negative numbers: minus infinity at zero. (`make_survey.py:2051, 2060`). -/
noncomputable def npLog (x : ℝ) : EReal := if x = 0 then ⊥ else Real.log x

namespace Support

/-- `make_survey.py:2025-2066`, same support for all redshifts, `dzscale` a number: `self.dz`. -/
noncomputable def grid (s : Support) (scale : ℝ) (n : ℕ) : List ℝ :=
  match s with
  | finite a b => linspace a b n
  | infinite => linspace 0 1 n
  | below b => linspace 0 (Real.exp (b / scale)) n
  | above a => linspace (Real.exp (-a / scale)) 0 n

/-- `support_transform`. (`make_survey.py:2031, 2045, 2051, 2060`). -/
noncomputable def transform (s : Support) (scale x : ℝ) : EReal :=
  match s with
  | finite _ _ => x
  | infinite => (scale : EReal) * npArctanh (2 * x - 1)
  | below _ => (scale : EReal) * npLog x
  | above _ => -((scale : EReal) * npLog x)

/-- The points `u` at which the distribution is tabulated, same support for all redshifts (1D arrays): the slices `1:-1` (with
minus infinity first), `1:` and `:1` are transformed, the rest is infinite. -/
noncomputable def points (s : Support) (scale : ℝ) (n : ℕ) : List EReal :=
  (s.grid scale n).mapIdx fun k (x : ℝ) =>
    match s with
    | finite _ _ => (x : EReal)
    | infinite => if k = 0 then ⊥ else if k + 1 = n then ⊤ else s.transform scale x
    | below _ => if k = 0 then ⊥ else s.transform scale x
    | above _ => if k = 0 then s.transform scale x else ⊤

/-- The points `u` for the redshift of index `iz` in case of different supports (2D arrays): the slices are then on the axis of
redshifts. (`make_survey.py:2029, 2055, 2064`). -/
noncomputable def points2d (s : Support) (scale : ℝ) (n : ℕ) (iz : ℕ) : List EReal :=
  (s.grid scale n).map fun (x : ℝ) =>
    match s with
    | finite _ _ => (x : EReal)
    | infinite => s.transform scale x
    | below _ => if iz = 0 then ⊥ else s.transform scale x
    | above _ => if iz = 0 then s.transform scale x else ⊤

/-- Ends of the support. (`make_survey.py:2030, 2046-2048, 2056-2057, 2065-2066`). -/
noncomputable def ends : Support → EReal × EReal
  | finite a b => (a, b)
  | infinite => (⊥, ⊤)
  | below b => (⊥, b)
  | above a => (a, ⊤)

end Support

end Verif.Model
