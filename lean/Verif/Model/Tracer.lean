import Verif.Model.Smearing

/-!
# Model of `/repo/mockfactory/desi/redshift_smearing.py`

Files are given by what reading them returns. The distributions are those of scipy and of `mockfactory/utils.py`, named by `Law`;
their cumulative distribution functions are a parameter.
-/

namespace Verif.Model.Tracer
open Verif Verif.Model

/-- A row of a table of redshift errors: 'mean_z' and the five numbers of 'val_fit'.
(`redshift_smearing.py:48-51, 56, 61, 66`). -/
structure Row where
  z : ℝ
  v0 : ℝ
  v1 : ℝ
  v2 : ℝ
  v3 : ℝ
  v4 : ℝ

/-- Distributions used by the module. (`redshift_smearing.py:53-54, 58-59`). -/
inductive Law where
  | laplace (loc scale : ℝ)
  | norm (loc scale : ℝ)
  | truncCauchy (a b loc scale : ℝ)
  | truncNorm (a b loc scale : ℝ)

/-- `rv.support()`. (`make_survey.py:2023`). -/
def Law.support : Law → Support
  | laplace _ _ => .infinite
  | norm _ _ => .infinite
  | truncCauchy a b _ _ => .finite a b
  | truncNorm a b _ _ => .finite a b

/-- `redshift_smearing.py:22-35`: the files to read. An unknown type of uncertainty leaves `fn` to `None`, which cannot be
iterated over. -/
def fileNames (tracer : String) (fn : Option (List String)) (uncertainty : String) : Except Err (List String) :=
  match fn with
  | some fn => .ok fn
  | none =>
    if tracer = "QSO" then
      if uncertainty = "statistical" then
        .ok ["data/" ++ tracer ++ "_redshift_smearing_sv1.ecsv", "data/" ++ tracer ++ "_redshift_smearing_sv3.ecsv"]
      else if uncertainty = "clustering" then .ok ["data/" ++ tracer ++ "_redshift_smearing_clustering.ecsv"]
      else .error .typeError
    else if uncertainty = "clustering" then .error .valueError
    else .ok ["data/" ++ tracer ++ "_redshift_smearing_sv1.ecsv"]

open Classical in
/-- `tt.sort('mean_z')` (`redshift_smearing.py:41`); rows of same redshift are kept in order. -/
noncomputable def sortRows (t : List Row) : List Row := t.mergeSort fun r r' => decide (r.z ≤ r'.z)

open Classical in
/-- `redshift_smearing.py:40-45`: one more file; the first redshift of an empty table does not exist. -/
noncomputable def addTable (table tt : List Row) : Except Err (List Row) :=
  let tt := sortRows tt
  if table = [] then .ok tt
  else match tt with
    | [] => .error .indexError
    | r :: _ => .ok (table.filter (fun r' => decide (r'.z < r.z)) ++ tt)

/-- `redshift_smearing.py:38-45`: the loop over files. -/
noncomputable def readTables (files : String → Except Err (List Row)) : List String → List Row → Except Err (List Row)
  | [], table => .ok table
  | fn :: fns, table => do
    let tt ← files fn
    let table ← addTable table tt
    readTables files fns table

/-- `redshift_smearing.py:49-74`: distributions and weight of one row; a tracer or a type of uncertainty that no branch handles
leaves `la` undefined (`NameError`). -/
noncomputable def rowLaws (tracer uncertainty : String) (r : Row) : Except Err (Law × Law × ℝ) :=
  if tracer = "QSO" then
    if uncertainty = "statistical" then
      .ok (.laplace r.v1 (r.v2 / Real.sqrt 2), .norm r.v1 (r.v3 / Real.sqrt 2), r.v4)
    else if uncertainty = "clustering" then
      .ok (.truncCauchy (-2000) 2000 r.v3 (r.v2 / 2), .truncNorm (-2000) 2000 r.v1 r.v0, r.v4)
    else .error .nameError
  else if tracer = "LRG" then
    .ok (.truncCauchy (-400) 400 r.v3 (r.v2 / 2), .truncNorm (-400) 400 r.v1 r.v0, r.v4)
  else if tracer = "ELG" ∨ tracer = "BGS" then
    .ok (.truncCauchy (-150) 150 r.v3 (r.v2 / 2), .truncNorm (-150) 150 r.v1 r.v0, r.v4)
  else .error .nameError

/-- `constants.c`, in m/s. (`redshift_smearing.py:78, 81`). -/
def speedOfLight : ℝ := 299792458

/-- `redshift_smearing.py:76-81` `dztransform`. -/
noncomputable def dztransform (tracer uncertainty : String) (z dz : ℝ) : ℝ :=
  if tracer = "QSO" ∧ uncertainty = "statistical" then dz / (speedOfLight / 1000) / (1 + z)
  else dz / (speedOfLight / 1000) * (1 + z)

/-- What `TracerRedshiftSmearingRVS` returns, but the transform: redshifts, with both distributions and the weight of the
first; the weight of the second is one minus it (`redshift_smearing.py:83`). -/
noncomputable def tracerRvs (files : String → Except Err (List Row)) (tracer : String) (fn : Option (List String))
    (uncertainty : String) : Except Err (List (ℝ × Law × Law × ℝ)) := do
  let fns ← fileNames tracer fn uncertainty
  let table ← readTables files fns []
  table.mapM fun r => (rowLaws tracer uncertainty r).map fun l => (r.z, l)

/-- `redshift_smearing.py:92-101`: the scale of errors; unknown tracers raise `ValueError`, an unknown type of uncertainty
leaves it undefined. -/
def dzscale (tracer uncertainty : String) : Except Err ℝ :=
  if tracer = "QSO" then
    if uncertainty = "statistical" then .ok 5000
    else if uncertainty = "clustering" then .ok 2000
    else .error .nameError
  else if tracer = "ELG" ∨ tracer = "BGS" then .ok 150
  else if tracer = "LRG" then .ok 400
  else .error .valueError

/-- A redshift with both distributions and the weight of the first.
(`redshift_smearing.py:47, 73, 83`). -/
abbrev Rvs := ℝ × Law × Law × ℝ

/-- `make_survey.py:2021-2071` `RVS2DRedshiftSmearing.__init__`, up to the interpolation, for distributions of same support
as the one of the first redshift `r0` (the module gives the same to all rows), `dzsize=10000`: the errors, and the cumulative
distributions at the corresponding points. -/
noncomputable def lawTable (cdf : Law → EReal → ℝ) (scale : ℝ) (law : Rvs → Law) (r0 : Rvs) (rows : List Rvs) :
    SmearTable rows.length :=
  List.zip ((law r0).support.grid scale 10000) (((law r0).support.points scale 10000).map fun u => fun z => cdf (law rows[z]) u)

/-- The distribution tabulated by a smearing: redshifts and distributions, errors with cumulative distributions, and percent
points of each redshift (`ppf` of `_set_interp`). (`make_survey.py:1922-1944, 2021-2071`). -/
structure Smearing where
  rows : List Rvs
  table : SmearTable rows.length
  ppf : Fin rows.length → List ℝ
  support : Support
  scale : ℝ

open Classical in
/-- `_set_interp` (`make_survey.py:1878-1887`): the percent points; it raises if some column cannot be interpolated, or if there
are less than two redshifts, or not increasing. -/
noncomputable def setInterp (spline : List (ℝ × ℝ) → ℝ → ℝ) (rows : List Rvs) (t : SmearTable rows.length) :
    Except Err (Fin rows.length → List ℝ) :=
  if h : (∀ z, ∃ p, ppfColumn spline (t.column z) = .ok p) ∧ 2 ≤ rows.length ∧ (rows.map fun r => r.1).Pairwise (· < ·) then
    .ok fun z => (h.1 z).choose
  else .error .valueError

/-- `redshift_smearing.py:104`: both smearings, and their average. No redshift at all raises `IndexError` (`dzranges[0]`,
`make_survey.py:2032`). -/
noncomputable def mixture (cdf : Law → EReal → ℝ) (spline : List (ℝ × ℝ) → ℝ → ℝ) (rows : List Rvs) (scale : ℝ) :
    Except Err Smearing :=
  match rows.head? with
  | none => .error .indexError
  | some r0 => do
    let t1 := lawTable cdf scale (fun r => r.2.1) r0 rows
    let t2 := lawTable cdf scale (fun r => r.2.2.1) r0 rows
    let _ ← setInterp spline rows t1
    let _ ← setInterp spline rows t2
    let t ← averageCdf [t1, t2] (some [fun z => rows[z].2.2.2, fun z => 1 - rows[z].2.2.2])
    let ppf ← setInterp spline rows t
    .ok ⟨rows, t, ppf, r0.2.1.support, scale⟩

/-- `redshift_smearing.py:86-104` `TracerRedshiftSmearing`. -/
noncomputable def tracerSmearing (cdf : Law → EReal → ℝ) (spline : List (ℝ × ℝ) → ℝ → ℝ)
    (files : String → Except Err (List Row)) (tracer : String) (fn : Option (List String)) (uncertainty : String) :
    Except Err Smearing := do
  let rows ← tracerRvs files tracer fn uncertainty
  let scale ← dzscale tracer uncertainty
  mixture cdf spline rows scale

/-- `ppf` (`make_survey.py:1889-1893`) at one of the redshifts and at `u = k / (n - 1)`, where the bivariate spline goes
through the tabulated value. Infinite errors are left out (`none`). -/
noncomputable def Smearing.node (s : Smearing) (tracer uncertainty : String) (z : Fin s.rows.length) (k : ℕ) : Option ℝ :=
  match (s.ppf z)[k]? with
  | none => none
  | some x =>
    match s.support.transform s.scale x with
    | some (some dz) => some (dztransform tracer uncertainty s.rows[z].1 dz)
    | _ => none

end Verif.Model.Tracer
