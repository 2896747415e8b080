import Verif.Basic.Real
import Verif.Model.Names
import Mathlib.Analysis.SpecialFunctions.Pow.Real
import Mathlib.Algebra.BigOperators.Group.Finset.Basic

/-!
# Model of the SV3 scripts

`/repo/desi/from_box_to_desi_sv3_cutsky.py` and `/repo/desi/covariance_from_desi_sv3_cutsky.py`: rosettes and regions, names of files,
files that are written and read, downsampling, edges of the bins, and combination of the correlation functions. The cuts of the
boxes themselves are in `Verif.Model.Remap`, `Verif.Model.Cutsky`, `Verif.Model.Mask`; the pair counts (`pycorr`) are parameters.
-/

namespace Verif.Model.Sv3

open Verif Verif.Model.Names

/-! ### Rosettes -/

/-- A row of `rosettes_sv3.ecsv`: ROSETTE_NUMBER, RA, DEC and TILEID (`from_box_to_desi_sv3_cutsky.py:28-30`). -/
structure RosetteRow where
  number : ℕ
  ra : ℝ
  dec : ℝ
  tiles : List Char

/-- `get_region` (`from_box_to_desi_sv3_cutsky.py:19-22`). -/
noncomputable def getRegion (dec : ℝ) : String := if dec > 32.375 then "N" else "S"

/-- The three dictionaries returned by `read_rosettes`. (`from_box_to_desi_sv3_cutsky.py:25-32`). -/
structure Rosettes where
  tiles : List (ℕ × List ℤ)
  direction : List (ℕ × ℝ × ℝ)
  region : List (ℕ × String)

/-- The tiles of one row (`from_box_to_desi_sv3_cutsky.py:29`); `int` is the conversion of a text to a whole number. -/
def rowTiles (int : List Char → Except Err ℤ) (r : RosetteRow) : Except Err (ℕ × List ℤ) := do
  return (r.number, ← (split ',' r.tiles).mapM int)

/-- `read_rosettes` (`from_box_to_desi_sv3_cutsky.py:25-32`). -/
noncomputable def readRosettes (int : List Char → Except Err ℤ) (rows : List RosetteRow) : Except Err Rosettes := do
  let tiles ← rows.mapM (rowTiles int)
  let direction := dict (rows.map fun r => (r.number, r.ra, r.dec))
  return ⟨dict tiles, direction, direction.map fun x => (x.1, getRegion x.2.2)⟩

/-- `region_rosettes[rosettes[0]]` (`from_box_to_desi_sv3_cutsky.py:139`, `covariance_from_desi_sv3_cutsky.py:102`). -/
def firstRegion (region : List (ℕ × String)) : List ℕ → Except Err String
  | [] => .error .indexError
  | r :: _ => match region.lookup r with
    | some s => .ok s
    | none => .error .keyError

/-- One item of `rosettes_to_region` (`from_box_to_desi_sv3_cutsky.py:139`, `covariance_from_desi_sv3_cutsky.py:102`). -/
def groupItem (region : List (ℕ × String)) (g : List ℕ) : Except Err (List ℕ × String) := do return (g, ← firstRegion region g)

/-- `if not all(region_rosettes[rosette] == region for rosette in rosettes): raise` (`from_box_to_desi_sv3_cutsky.py:141-142`,
`covariance_from_desi_sv3_cutsky.py:104-105`). -/
def checkGroup (region : List (ℕ × String)) (s : String) : List ℕ → Except Err Unit
  | [] => .ok ()
  | r :: l => match region.lookup r with
    | none => .error .keyError
    | some t => if t = s then checkGroup region s l else .error .valueError

/-- `rosettes_to_region` (`from_box_to_desi_sv3_cutsky.py:138-142`, `covariance_from_desi_sv3_cutsky.py:101-105`) for groups that are
all different. -/
def groupRegions (region : List (ℕ × String)) (groups : List (List ℕ)) : Except Err (List (List ℕ × String)) := do
  let d ← groups.mapM (groupItem region)
  d.forM fun x => checkGroup region x.2 x.1
  return d

/-- `transform_rosettes` (`from_box_to_desi_sv3_cutsky.py:120-130`), in order. -/
def groups : List (List ℕ) := [[1, 2], [12, 13], [9, 10], [8, 17], [15, 18], [4, 16], [7], [14], [6], [11], [5], [0], [3], [19]]

/-- `all_rosettes` (`covariance_from_desi_sv3_cutsky.py:65`). -/
def covGroups : List (List ℕ) := [[1, 2], [12, 13], [9, 10], [8, 17], [15, 18], [4, 16], [7], [14], [6], [11], [5], [0], [3], [19]]

/-! ### Files -/

/-- `os.path.join(a, b)` of a path `b` that is not absolute. (`from_box_to_desi_sv3_cutsky.py:37`). -/
def joinPath (a b : List Char) : List Char := if a = [] ∨ a.getLast? = some '/' then a ++ b else a ++ '/' :: b

/-- `catalog_fn` (`from_box_to_desi_sv3_cutsky.py:35-37`). `outdir` is a variable of the module: `NameError` if it is not defined. -/
def catalogFn (outdir : Option (List Char)) (name : List Char) (rosettes : List ℕ) (imock : ℕ) : Except Err (List Char) :=
  match outdir with
  | none => .error .nameError
  | some dir => .ok (joinPath dir (name ++ "_rosettes-".toList ++ join ['-'] (rosettes.map decimal) ++ '_' :: decimal imock ++ ".fits".toList))

/-- `corr_fn` (`covariance_from_desi_sv3_cutsky.py:76-77`). -/
def corrFn (outdir corrType : List Char) (rosettes : List ℕ) (imock : ℕ) : List Char :=
  joinPath outdir ("correlation_".toList ++ corrType ++ "_rosettes-".toList ++ join ['-'] (rosettes.map decimal) ++ '_' :: decimal imock ++ ".npy".toList)

/-- `cov_fn` (`covariance_from_desi_sv3_cutsky.py:79-80`). -/
def covFn (outdir corrType : List Char) : List Char := joinPath outdir ("covariance_correlation_".toList ++ corrType ++ ".npy".toList)

/-- `outdir` in `from_box_to_desi_sv3_cutsky.py`: line 90 is run by the script only, not when it is imported.
(`from_box_to_desi_sv3_cutsky.py:90`). -/
def moduleOutdir (isMain : Bool) : Option (List Char) := if isMain then some "_tests".toList else none

/-- A catalog that is written: is it data, the group of rosettes, the mock.
(`from_box_to_desi_sv3_cutsky.py:37, 248, 258`). -/
abbrev File := Bool × List ℕ × ℕ

/-- The catalogs written for one mock (`from_box_to_desi_sv3_cutsky.py:184-258`): the randoms of each group in the regions if the mock is
among the `nran` first ones, then the data, region by region. -/
def mockFiles (regions : List String) (groupRegion : List (List ℕ × String)) (nran imock : ℕ) : List File :=
  ((groupRegion.filter fun x => regions.contains x.2).flatMap fun x => if imock < nran then [(false, x.1, imock)] else []) ++
  regions.flatMap fun region => (groupRegion.filter fun x => x.2 = region).map fun x => (true, x.1, imock)

/-- The run of the script (`from_box_to_desi_sv3_cutsky.py:157-258`): catalogs written, and error. With `--mock_fn`, `mpicomm` is not
defined when the first group is processed (`:191`). (At least one group lies in the regions, `:189`.) -/
def run (mockFn : Bool) (regions : List String) (groupRegion : List (List ℕ × String)) (nran start stop : ℕ) : List File × Option Err :=
  if mockFn then (if start < stop then ([], some .nameError) else ([], none))
  else ((List.range' start (stop - start)).flatMap (mockFiles regions groupRegion nran), none)

/-- The correlation functions computed by `--todo corr` (`covariance_from_desi_sv3_cutsky.py:82-96`): the first error, if a catalog has
no name or cannot be read. `nran`: number of random files read. -/
def corrRun (outdir : Option (List Char)) (present : List Char → Bool) (groups : List (List ℕ)) (nran start stop : ℕ) : Except Err Unit :=
  groups.forM fun g => (List.range' start (stop - start)).forM fun imock => do
    let fn ← catalogFn outdir "data".toList g imock
    if present fn = false then throw .valueError
    (List.range nran).forM fun iran => do
      let fn ← catalogFn outdir "randoms".toList g iran
      if present fn = false then throw .valueError

/-! ### Downsampling -/

/-- The fraction of mock objects to keep in a region (`from_box_to_desi_sv3_cutsky.py:252`). Without any object nothing is left to be
chosen, so that the value does not matter. -/
noncomputable def fraction (ndata total : ℕ) : ℝ := (ndata : ℝ) / total

/-- `mock[rng.uniform() < frac]` on one rank (`from_box_to_desi_sv3_cutsky.py:256-257`). -/
noncomputable def keep {ρ : Type*} (frac : ℝ) (rows : List ρ) (u : List ℝ) : List ρ :=
  ((rows.zip u).filter fun p => decide (p.2 < frac)).map Prod.fst

/-- The mocks of the groups of one region (lists over groups, ranks, rows) that are written (`from_box_to_desi_sv3_cutsky.py:250-258`), with
the draws. -/
noncomputable def downsample {ρ : Type*} (ndata : ℕ) (mocks : List (List (List ρ))) (u : List (List (List ℝ))) : List (List (List ρ)) :=
  let frac := fraction ndata (mocks.map fun m => (m.map List.length).sum).sum
  List.zipWith (fun m u => List.zipWith (keep frac) m u) mocks u

/-! ### Bins -/

/-- `np.linspace(a, b, n)` for `n ≥ 2`. (`covariance_from_desi_sv3_cutsky.py:14, 18, 21`). -/
noncomputable def linspace (a b : ℝ) (n : ℕ) : List ℝ := (List.range n).map fun i : ℕ => a + (i : ℝ) * ((b - a) / (n - 1 : ℕ))

/-- `np.geomspace(a, b, n)` for `n ≥ 2` and positive ends, in exact arithmetic.
(`covariance_from_desi_sv3_cutsky.py:12, 28`). -/
noncomputable def geomspace (a b : ℝ) (n : ℕ) : List ℝ := (List.range n).map fun i : ℕ => a * (b / a) ^ ((i : ℝ) / (n - 1 : ℕ))

/-- `get_edges` (`covariance_from_desi_sv3_cutsky.py:9-31`): edges along each axis. -/
noncomputable def getEdges (corrType binType : String) : Except Err (List (List ℝ)) := do
  let sedges ← if binType = "log" then pure (geomspace 0.01 100 49) else if binType = "lin" then pure (linspace 0 200 201)
    else throw .valueError
  if corrType = "smu" then pure [sedges, linspace (-1) 1 201]
  else if corrType = "rppi" then
    if binType = "lin" then pure [sedges, linspace (-200) 200 401] else pure [sedges, linspace (-40) 40 81]
  else if corrType = "theta" then
    if binType = "lin" then pure [linspace 0 4 101] else pure [geomspace 0.001 4 41]
  else throw .valueError

/-! ### Combination -/

/-- The pair counts of the groups, of a correlation function: the region of each, normalisation of the data pairs, counts in each bin and
normalisation of the random pairs (`covariance_from_desi_sv3_cutsky.py:107-112`). -/
structure Counts (ι κ β : Type*) where
  region : ι → κ
  dd : ι → ℝ
  rr : ι → β → ℝ
  rnorm : ι → ℝ

variable {ι κ β : Type*} [Fintype ι] [DecidableEq κ]

/-- `rescale_region` (`covariance_from_desi_sv3_cutsky.py:108`, `:112-114`). -/
noncomputable def Counts.rescale (c : Counts ι κ β) (k : κ) : ℝ :=
  (∑ i with c.region i = k, c.dd i) / ∑ i with c.region i = k, c.rnorm i

/-- The normalisation of `R1R2.normalize(wnorm=...)` (`covariance_from_desi_sv3_cutsky.py:115`). -/
noncomputable def Counts.wnorm (c : Counts ι κ β) (i : ι) : ℝ := c.rnorm i * c.rescale (c.region i)

/-- The counts of `R1R2.normalize(wnorm=...)` (`covariance_from_desi_sv3_cutsky.py:115`): scaled as the normalisation. -/
noncomputable def Counts.wcounts (c : Counts ι κ β) (i : ι) (b : β) : ℝ := c.rr i b * (c.wnorm i / c.rnorm i)

/-- `ratio` (`covariance_from_desi_sv3_cutsky.py:116`, `:120`). -/
noncomputable def Counts.ratio (c : Counts ι κ β) (i : ι) (b : β) : ℝ := c.wcounts i b / ∑ j, c.wcounts j b

/-- `corr` of one group and one mock (`covariance_from_desi_sv3_cutsky.py:123-141`): all the counts of the numerator are multiplied by
`ratio`, hence so is the correlation function `xi`; `project` stands for the integral over lines of sight. -/
noncomputable def Counts.corr {γ : Type*} (c : Counts ι κ β) (project : (β → ℝ) → γ → ℝ) (i : ι) (xi : β → ℝ) : γ → ℝ :=
  project fun b => c.ratio i b * xi b

/-- `np.mean(all_corr, axis=0)` (`covariance_from_desi_sv3_cutsky.py:142`) over `n` mocks. -/
noncomputable def meanOver {γ : Type*} {n : ℕ} (x : Fin n → γ → ℝ) (g : γ) : ℝ := (∑ m, x m g) / n

/-- `np.cov(all_corr, rowvar=False, ddof=1)` (`covariance_from_desi_sv3_cutsky.py:143`), for at least two mocks. -/
noncomputable def covOver {γ : Type*} {n : ℕ} (x : Fin n → γ → ℝ) (g h : γ) : ℝ :=
  (∑ m, (x m g - meanOver x g) * (x m h - meanOver x h)) / (n - 1 : ℕ)

/-- `mean` (`covariance_from_desi_sv3_cutsky.py:144`): `xi i m` is the correlation function of group `i` in mock `m`. -/
noncomputable def Counts.mean {γ : Type*} (c : Counts ι κ β) (project : (β → ℝ) → γ → ℝ) {n : ℕ} (xi : ι → Fin n → β → ℝ) (g : γ) : ℝ :=
  ∑ i, meanOver (fun m => c.corr project i (xi i m)) g

/-- `cov` (`covariance_from_desi_sv3_cutsky.py:145`). -/
noncomputable def Counts.cov {γ : Type*} (c : Counts ι κ β) (project : (β → ℝ) → γ → ℝ) {n : ℕ} (xi : ι → Fin n → β → ℝ) (g h : γ) : ℝ :=
  ∑ i, covOver (fun m => c.corr project i (xi i m)) g h

end Verif.Model.Sv3
