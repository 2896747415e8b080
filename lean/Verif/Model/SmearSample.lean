import Verif.Model.Smearing
import Verif.Model.RadialSpline

/-!
# Model of redshift smearings as objects: construction, percent points, samples, averages

`/repo/mockfactory/make_survey.py:1859-2071`. Tables are those of `Verif/Model/Smearing.lean`. `spline` is
`UnivariateSpline(…, k=3, s=0, ext='raise')` as there, `cubic` is the interpolating cubic spline of scipy through values given at
`np.linspace(0, 1, n)`: both are parameters, which `columnSpline` and `tableSpline` give from interpolating splines.
-/

namespace Verif.Model

open Verif

/-- Attributes of a smearing with errors `dz` in one dimension: redshifts, errors and cumulative distributions, percent points
tabulated by `_set_interp`, and both transforms. (`make_survey.py:1876, 1974-1984, 2022, 2069-2071`). -/
structure Smear (nz : ℕ) where
  z : Fin nz → ℝ
  table : SmearTable nz
  ppf : Fin nz → List ℝ
  support : ℝ → EReal
  dztransform : ℝ → EReal → EReal

namespace Smear

variable {nz : ℕ}

open Classical in
/-- `make_survey.py:1878-1887` `_set_interp`: percent points of each redshift; scipy raises if a column cannot be interpolated, if
there are less than two redshifts or four errors, or if redshifts do not increase. -/
noncomputable def setInterp (spline : List (ℝ × ℝ) → ℝ → ℝ) (z : Fin nz → ℝ) (columns : Fin nz → List (ℝ × ℝ)) :
    Except Err (Fin nz → List ℝ) :=
  if h : (∀ j, ∃ p, ppfColumn spline (columns j) = .ok p) ∧ 2 ≤ nz ∧ (∀ j, 4 ≤ (columns j).length) ∧
      ∀ i j : Fin nz, i < j → z i < z j then
    .ok fun j => (h.1 j).choose
  else .error .valueError

/-- `make_survey.py:1974-1984` `TabulatedPDF2DRedshiftSmearing.__init__` with errors in one dimension. -/
noncomputable def tabulated (spline : List (ℝ × ℝ) → ℝ → ℝ) (rows : List (ℝ × (Fin nz → ℝ))) (z : Fin nz → ℝ)
    (dztransform : ℝ → EReal → EReal) : Except Err (Smear nz) := do
  let t ← tabulatedCdf rows
  let ppf ← setInterp spline z t.column
  .ok ⟨z, t, ppf, fun x => x, dztransform⟩

/-- `np.pad(self.dz[mask], ((1, 1),), mode='constant', constant_values=(dz[0], dz[-1]))` for two redshifts
(`make_survey.py:1981`, where `self.z.ndim == 2` is false): both axes are padded. `dz[0]` and `dz[-1]` (numbers at both redshifts) are
read as the constants of the first and of the second axis. These are the two first columns of the result, those read afterwards
(`:1883`): one is the padding, the other one the errors of the first redshift. -/
def padErrors2 (first last : Fin 2 → ℝ) (kept : List (Fin 2 → ℝ)) : Fin 2 → List ℝ := fun j =>
  if j = 0 then List.replicate (kept.length + 2) (last 0) else first 0 :: kept.map (fun d => d 0) ++ [first 1]

open Classical in
/-- `make_survey.py:1974-1984` `TabulatedPDF2DRedshiftSmearing.__init__` with errors in two dimensions, percent points only: rows
of (dz, pdf). For more than two redshifts `np.pad` cannot broadcast the constants: `ValueError`. A single redshift is refused by
the spline. -/
noncomputable def tabulated2d (spline : List (ℝ × ℝ) → ℝ → ℝ) (rows : List ((Fin nz → ℝ) × (Fin nz → ℝ))) (z : Fin nz → ℝ) :
    Except Err (Fin nz → List ℝ) :=
  if h : nz = 2 then
    match (cumsum (fun _ => 0) (rows.map (·.2))).head?, (cumsum (fun _ => 0) (rows.map (·.2))).getLast?, rows.head?,
      rows.getLast? with
    | some c0, some c1, some r0, some r1 =>
      if ∃ z : Fin nz, c1 z - c0 z = 0 then .error .valueError
      else
        let kept := (List.zip (rows.map (·.1)) ((cumsum (fun _ => 0) (rows.map (·.2))).map (normalizeCdf c0 c1))).filter
          fun r => decide (∀ z : Fin nz, 0 < r.2 z ∧ r.2 z < 1)
        let cdf (j : Fin nz) : List ℝ := 0 :: kept.map (fun r => r.2 j) ++ [1]
        let dz := padErrors2 (fun i => r0.1 (i.cast h.symm)) (fun i => r1.1 (i.cast h.symm))
          (kept.map fun r i => r.1 (i.cast h.symm))
        setInterp spline z fun j => List.zip (dz (j.cast h)) (cdf j)
    | _, _, _, _ => .error .indexError
  else .error .valueError

/-- The `dzscale` argument: a number or 'ppf'. (`make_survey.py:2036`). -/
inductive DzScale where
  | number (x : ℝ)
  | ppf

/-- `make_survey.py:2023-2066`, distributions with the same support: errors `self.dz`, the points `u` where distributions are
tabulated, and `support_transform`; `q0` is `rvs[0].ppf`, extended by the end of the interval it is asked outside of. -/
noncomputable def rvsGrid (support : Support) (q0 : ℝ → EReal) (scale : DzScale) (n : ℕ) : List ℝ × List EReal × (ℝ → EReal) :=
  match support, scale with
  | .finite a b, _ => (linspace a b n, (linspace a b n).map fun x : ℝ => (x : EReal), fun x => x)
  | _, .ppf => (linspace 0 1 n, (linspace 0 1 n).map q0, q0)
  | s, .number x => (s.grid x n, s.points x n, s.transform x)

/-- `make_survey.py:2021-2071` `RVS2DRedshiftSmearing.__init__`, distributions with the same support: `cdf j` is that of redshift `j`.
-/
noncomputable def rvs (spline : List (ℝ × ℝ) → ℝ → ℝ) (support : Support) (q0 : ℝ → EReal) (cdf : Fin nz → EReal → ℝ)
    (scale : DzScale) (n : ℕ) (z : Fin nz → ℝ) (dztransform : ℝ → EReal → EReal) : Except Err (Smear nz) := do
  let t : SmearTable nz := List.zip (rvsGrid support q0 scale n).1 ((rvsGrid support q0 scale n).2.1.map fun x => fun j => cdf j x)
  let ppf ← setInterp spline z t.column
  .ok ⟨z, t, ppf, (rvsGrid support q0 scale n).2.2, dztransform⟩

/-- `self.interp_ppf(u, z, grid=False)` (`make_survey.py:1887, 1892`), `RectBivariateSpline` with `kx=3`, `ky=1`, `s=0`: cubic splines in
`u` at each redshift, linear between redshifts; redshifts outside of the table are moved to its ends by scipy. -/
noncomputable def quantile (cubic : List ℝ → ℝ → ℝ) (s : Smear nz) (u z : ℝ) : ℝ :=
  let nodes := (List.finRange nz).map fun j => (s.z j, cubic (s.ppf j) u)
  match nodes.head?, nodes.getLast? with
  | some a, some b => (linInterp nodes (npClip z a.1 b.1)).getD 0
  | _, _ => 0

/-- The spline of `_set_interp` (`make_survey.py:1886`): interpolating spline of order 3; it is read between 0 and 1, where its nodes are, so
that `ext='raise'` does not matter. -/
noncomputable def columnSpline (S : Spline) (nodes : List (ℝ × ℝ)) (u : ℝ) : ℝ := S.value 3 nodes u

/-- The spline of `interp_ppf` at one redshift of the table (`make_survey.py:1879, 1887`): interpolating spline of order 3 through the values
at `np.linspace(0, 1, n)`; scipy moves probabilities outside of [0, 1] to its ends. -/
noncomputable def tableSpline (S : Spline) (values : List ℝ) (u : ℝ) : ℝ :=
  S.value 3 (List.zip (linspace 0 1 values.length) values) (npClip u 0 1)

/-- `make_survey.py:1889-1893` `ppf`. -/
noncomputable def error (cubic : List ℝ → ℝ → ℝ) (s : Smear nz) (u z : ℝ) : EReal :=
  s.dztransform z (s.support (s.quantile cubic u z))

/-- `make_survey.py:1899-1919` `sample`, result of each rank. `MPIRandomState` gives to each rank its slice of the numbers `draws`,
which depend on the seed only (as in `accepted` of `Verif/Model/Mask.lean`). -/
noncomputable def sample (cubic : List ℝ → ℝ → ℝ) (s : Smear nz) (draws : ℕ → ℝ) (ranks : List (List ℝ)) : List (List EReal) :=
  (List.range ranks.length).map fun r =>
    (ranks.getD r []).mapIdx fun i z => s.error cubic (draws (((ranks.take r).map List.length).sum + i)) z

open Classical in
/-- `make_survey.py:1921-1945` `average`; `np.allclose` is equality. The transforms are compared at `new.dz`. -/
noncomputable def average (spline : List (ℝ × ℝ) → ℝ → ℝ) (others : List (Smear nz)) (weights : Option (List (Fin nz → ℝ))) :
    Except Err (Smear nz) :=
  match others with
  | [] => .error .indexError
  | s0 :: _ =>
    let dz := s0.table.map (·.1)
    if ∃ s ∈ others, s.table.map (·.1) ≠ dz then .error .valueError
    else if ∃ s ∈ others, ∃ x ∈ dz.tail.dropLast, s.support x ≠ s0.support x then .error .valueError
    else if ∃ s ∈ others, ∃ j, ∃ x ∈ dz, s.dztransform (s0.z j) (x : ℝ) ≠ s0.dztransform (s0.z j) (x : ℝ) then .error .valueError
    else do
      let t ← averageCdf (others.map fun s => s.table) weights
      let ppf ← setInterp spline s0.z t.column
      .ok { s0 with table := t, ppf := ppf }

end Smear

end Verif.Model
