import Verif.Model.Sky
import Verif.Model.Box
import Verif.Model.Cutsky
import Mathlib.Analysis.SpecialFunctions.Pow.Real

/-!
# Model of masks, their application to catalogs, and sampling

`/repo/mockfactory/make_survey.py:984-1090` (`cutsky_from_isometry`, `cutsky`), `:1092-1197` (random catalogs), `:1200-1372`
and `:1627-1856` (masks). Random draws are arbitrary; the MPI ranks are the elements of lists.
-/

namespace Verif.Model

open Verif

/-! ### Selection -/

/-- `np.clip(x, 0., 1.)`. (`make_survey.py:1369, 1737`). -/
noncomputable def clip01 (x : ℝ) : ℝ := min (max x 0) 1

open Classical in
/-- `make_survey.py:1226-1243` `BaseMask.__call__`: `prob >= uniform(0, 1)`, row by row; `u` are the draws, in [0, 1). -/
noncomputable def maskCall (prob u : List ℝ) : List Bool := List.zipWith (fun p u => decide (u ≤ p)) prob u

/-- numpy boolean indexing `array[mask]`. (`make_survey.py:1276, 1337, 1704`). -/
def pick {α : Type} (l : List α) (mask : List Bool) : List α := ((l.zip mask).filter (·.2)).map (·.1)

/-- numpy assignment `array[mask] = values`. (`make_survey.py:1276`). -/
def scatter {α : Type} : List α → List Bool → List α → List α
  | a :: l, false :: m, v => a :: scatter l m v
  | _ :: l, true :: m, b :: v => b :: scatter l m v
  | l, _, _ => l

/-- `make_survey.py:1251-1277` `MaskCollection.prob`. `masks`: the items of the dictionary, in order, each with its vector
`prob` function; `rows`: chunk label and other variables. -/
def MaskCollection.prob {κ α : Type} [DecidableEq κ] (masks : List (κ × (List α → List ℝ))) (rows : List (κ × α)) : List ℝ :=
  masks.foldl (fun prob km =>
      let mask := rows.map fun r => decide (r.1 = km.1)
      if mask.any id then scatter prob mask (km.2 (pick (rows.map (·.2)) mask)) else prob)
    (rows.map fun _ => 1)

open Classical in
/-- `make_survey.py:1298` and `:1366-1372` `UniformRadialMask.prob`, one redshift; `zrange = none` is `(0., inf)`. -/
noncomputable def uniformRadialProb (nbar : ℝ) (zrange : Option Range) (z : ℝ) : ℝ :=
  let mask : Bool := match zrange with
    | some r => decide (r.1 ≤ z) && decide (z ≤ r.2)
    | none => decide (0 ≤ z)
  if mask then clip01 nbar else 0

open Classical in
/-- `make_survey.py:1648-1657`: the RA range kept by an angular mask. -/
noncomputable def angularRarange (rarange : Option Range) : Range :=
  match rarange with
  | none => (0, 360)
  | some r =>
    let direct : Bool := decide (r.1 < r.2)
    let lo := wrapAngle r.1
    let hi := wrapAngle r.2
    if direct && decide (hi ≤ lo) then (lo, hi + 360) else (lo, hi)

/-- `make_survey.py:1658-1661`. -/
noncomputable def angularDecrange (decrange : Option Range) : Range := decrange.getD (-90, 90)

open Classical in
/-- `make_survey.py:1665-1672` `_mask_ranges`; `dec = none` is `nan`, for which comparisons are false. -/
noncomputable def maskRanges (rarange decrange : Range) (ra : ℝ) (dec : Option ℝ) : Bool :=
  let m := if rarange.1 ≤ rarange.2 then decide (rarange.1 ≤ ra) && decide (ra ≤ rarange.2)
    else decide (rarange.1 ≤ ra) || decide (ra ≤ rarange.2)
  m && match dec with
    | some d => decide (decrange.1 ≤ d) && decide (d ≤ decrange.2)
    | none => false

/-- `make_survey.py:1734-1740` `UniformAngularMask.prob`, one direction. -/
noncomputable def uniformAngularProb (nbar : ℝ) (rarange decrange : Option Range) (ra : ℝ) (dec : Option ℝ) : ℝ :=
  if maskRanges (angularRarange rarange) (angularDecrange decrange) (wrapAngle ra) dec then clip01 nbar else 0

/-- `make_survey.py:1791-1796` `MangleAngularMask.prob`, one direction: `polyid` and `weight` are the results of
`polyid_and_weight`. Line 1794 overwrites the mask made of the polygon identifiers on line 1793. -/
noncomputable def mangleProb (rarange decrange : Option Range) (ra : ℝ) (dec : Option ℝ) (_polyid : ℤ) (weight : ℝ) : ℝ :=
  if maskRanges (angularRarange rarange) (angularDecrange decrange) (wrapAngle ra) dec then weight else 0

/-- `make_survey.py:1851-1856` `HealpixAngularMask.prob`, one direction: `pix` is the pixel index returned by
`healpy.ang2pix`, `nbar` the map. -/
noncomputable def healpixProb (nbar : List ℝ) (rarange decrange : Option Range) (ra : ℝ) (dec : Option ℝ) (pix : ℕ) : ℝ :=
  if maskRanges (angularRarange rarange) (angularDecrange decrange) (wrapAngle ra) dec then nbar.getD pix 0 else 0

/-! ### Cut-sky catalogs -/

/-- A row of a cut-sky catalog: the row of the catalog, and the named columns added to it.
(`make_survey.py:1017-1025`). -/
structure SkyRow (ρ : Type) where
  row : Row ρ
  cols : List (String × Option ℝ)

/-- The `rdd` argument: `None`, or the names of the RA, Dec, distance columns.
(`make_survey.py:984, 1023`). -/
abbrev Rdd := Option (String × String × String)

/-- The default `rdd`. (`make_survey.py:984`). -/
def defaultRdd : Rdd := some ("RA", "DEC", "Distance")

/-- `make_survey.py:1017-1025`: rows moved, sky coordinates added (columns set in order, a later one replacing an earlier
one of the same name). -/
noncomputable def skyRow {ρ : Type} (iso : Isom) (rdd : Rdd) (r : Row ρ) : SkyRow ρ × Sky :=
  let moved := r.transform iso
  let sky := cartesianToSky moved.pos
  let cols := match rdd with
    | none => []
    | some (nra, ndec, ndist) =>
      let set (l : List (String × Option ℝ)) (n : String) (v : Option ℝ) := l.filter (fun c => c.1 ≠ n) ++ [(n, v)]
      set (set (set [] nra (some sky.ra)) ndec sky.dec) ndist (some sky.dist)
  (⟨moved, cols⟩, sky)

/-- A mask as an argument: probability of one row and one draw per row. (`make_survey.py:1027-1028`). -/
structure RadialArg where
  prob : ℝ → ℝ
  draws : List ℝ

/-- An angular mask as an argument. (`make_survey.py:1029-1033`). -/
structure AngularArg where
  prob : ℝ → Option ℝ → ℝ
  draws : List ℝ

/-- `make_survey.py:984-1035` `cutsky_from_isometry`, for one isometry; the rows of all ranks in order. -/
noncomputable def cutskyFromIsometry {ρ : Type} (b : Box ρ) (iso : Isom) (radial : Option RadialArg)
    (angular : Option AngularArg) (rdd : Rdd) : List (SkyRow ρ) :=
  let rows := b.rows.map (skyRow iso rdd)
  let out := rows.map (·.1)
  match radial, angular with
  | some r, some a =>
    let mask := List.zipWith (· && ·) (maskCall (rows.map fun s => r.prob s.2.dist) r.draws)
      (maskCall (rows.map fun s => a.prob s.2.ra s.2.dec) a.draws)
    pick out mask
  | some r, none => pick out (maskCall (rows.map fun s => r.prob s.2.dist) r.draws)
  | none, some a => pick out (maskCall (rows.map fun s => a.prob s.2.ra s.2.dec) a.draws)
  | none, none => out

/-- Same, for a list of isometries (line 1015): `rdd` is not passed on. The draws of each call are given.
(`make_survey.py:1013-1015`). -/
noncomputable def cutskyFromIsometries {ρ : Type} (b : Box ρ)
    (isos : List (Isom × Option RadialArg × Option AngularArg)) (_rdd : Rdd) : List (List (SkyRow ρ)) :=
  isos.map fun a => cutskyFromIsometry b a.1 a.2.1 a.2.2 defaultRdd

/-! ### Sampling -/

/-- Offset of each rank: `np.cumsum([0] + sizes)`. (`make_survey.py:1351, 1353, 1719, 1721`). -/
def offsets (sizes : List ℕ) : List ℕ := (List.range sizes.length).map fun r => (sizes.take r).sum

/-- What rank `r` accepts in round `t` (`make_survey.py:1327-1337`, `:1695-1704`): `MPIRandomState` gives rank `r` the slice
`[offset, offset + size)` of a stream that depends on the seed only (the documented behaviour of mpytools, which is not part
of this repository); `cand t i` is the `i`-th candidate of round `t`, `acc t i` whether the mask keeps it. -/
def accepted {α : Type} (cand : ℕ → ℕ → α) (acc : ℕ → ℕ → Bool) (sizes : List ℕ) (t r : ℕ) : List α :=
  (((List.range (sizes.getD r 0)).map fun i => (sizes.take r).sum + i).filter fun i => acc t i).map fun i => cand t i

/-- What rank `r` holds after `n` rounds: `np.concatenate(z)`.
(`make_survey.py:1345-1348, 1712-1716`). -/
def held {α : Type} (cand : ℕ → ℕ → α) (acc : ℕ → ℕ → Bool) (sizes : List ℕ) (n r : ℕ) : List α :=
  (List.range n).flatMap fun t => accepted cand acc sizes t r

/-- Number of points held by all ranks after `n` rounds. (`make_survey.py:1341-1347, 1708-1715`). -/
def heldTotal {α : Type} (cand : ℕ → ℕ → α) (acc : ℕ → ℕ → Bool) (sizes : List ℕ) (n : ℕ) : ℕ :=
  ((List.range sizes.length).map fun r => (held cand acc sizes n r).length).sum

/-- `make_survey.py:1339-1347`, `:1706-1715`: the loop `while cdsize > 0` ends after `n` rounds. -/
def StopsAfter {α : Type} (cand : ℕ → ℕ → α) (acc : ℕ → ℕ → Bool) (sizes : List ℕ) (n : ℕ) : Prop :=
  sizes.sum ≤ heldTotal cand acc sizes n ∧ ∀ m < n, heldTotal cand acc sizes m < sizes.sum

/-- `make_survey.py:1348-1354`, `:1716-1722`: `sample` once the loop has ended after `n` rounds, result of each rank.
`np.concatenate` of an empty list (no round) raises `ValueError`. -/
def sampleResult {α : Type} (cand : ℕ → ℕ → α) (acc : ℕ → ℕ → Bool) (sizes : List ℕ) (n : ℕ) : Except Err (List (List α)) :=
  if n = 0 then .error .valueError
  else
    let all := (List.range sizes.length).flatMap fun r => held cand acc sizes n r
    .ok ((List.range sizes.length).map fun r => (all.drop (sizes.take r).sum).take (sizes.getD r 0))

/-- `make_survey.py:1696-1702`: a candidate direction of an angular mask, from two uniform draws in [0, 1). -/
noncomputable def angularCandidate (rarange decrange : Option Range) (u v : ℝ) : ℝ × ℝ :=
  let r := angularRarange rarange
  let r : Range := if r.2 < r.1 then (r.1 - 360, r.2) else r
  let d := angularDecrange decrange
  let s0 := Real.sin (d.1 * Real.pi / 180)
  let s1 := Real.sin (d.2 * Real.pi / 180)
  (pmod (r.1 + (r.2 - r.1) * u) 360, Real.arcsin (s0 + (s1 - s0) * v) / (Real.pi / 180))

/-- `make_survey.py:1325-1335`: a candidate of a radial mask, from a uniform draw in [0, 1), as a distance; `d0`, `d1` are
the distances of the ends of the redshift range. The cube root of numpy is `nan` for negative numbers: the distances are
taken non-negative. -/
noncomputable def radialCandidate (d0 d1 u : ℝ) : ℝ := (d0 ^ 3 + (d1 ^ 3 - d0 ^ 3) * u) ^ (1 / 3 : ℝ)

/-! ### Random catalogs -/

/-- `make_survey.py:1131-1132`, `:1181-1182`: `int(nbar * volume + 0.5)` if `csize` is not given. -/
noncomputable def catalogSize (csize : Option ℕ) (nbar volume : ℝ) : ℤ :=
  match csize with
  | some n => n
  | none => trunc (nbar * volume + 1 / 2)

/-- `make_survey.py:1133-1136` `RandomBoxCatalog`, one row: `u` are three draws in [-0.5, 0.5). -/
def randomBoxPosition (boxsize boxcenter u : V3 ℝ) : V3 ℝ := V3.emul boxsize u + boxcenter

/-- Whole catalog, positions of each rank (`size` rows each, with the slice of the stream that belongs to the rank).
(`make_survey.py:1131-1136`). -/
def randomBoxCatalog (boxsize boxcenter : V3 ℝ) (sizes : List ℕ) (u : ℕ → V3 ℝ) : List (List (V3 ℝ)) :=
  (List.range sizes.length).map fun r =>
    (List.range (sizes.getD r 0)).map fun i => randomBoxPosition boxsize boxcenter (u ((sizes.take r).sum + i))

/-- Columns of a `RandomCutskyCatalog` row (`make_survey.py:1186-1197`); `position` is the name of the position column
requested by the user, which is not used. -/
noncomputable def randomCutskyRow (_position : String) (ra dec dist : ℝ) : List (String × (ℝ ⊕ V3 ℝ)) :=
  [("RA", .inl ra), ("DEC", .inl dec), ("Distance", .inl dist),
    ("Position", .inr (skyToCartesian (.float dist) (.float ra) (.float dec)))]

open Classical in
/-- Decisions of the angular mask on its candidates, with draws `hidden` in [0, 1) that the seed does not determine.
(`make_survey.py:1703, 1242-1243`). -/
noncomputable def angularDecisions (rarange decrange : Range) (cand : ℕ → ℕ → ℝ × ℝ) (hidden : ℕ → ℕ → ℝ) (t i : ℕ) : Bool :=
  decide (hidden t i ≤ uniformAngularProb 1 (some rarange) (some decrange) (cand t i).1 (some (cand t i).2))

open Classical in
/-- Decisions of the radial mask. (`make_survey.py:1336, 1242-1243`). -/
noncomputable def radialDecisions (drange : Range) (cand : ℕ → ℕ → ℝ) (hidden : ℕ → ℕ → ℝ) (t i : ℕ) : Bool :=
  decide (hidden t i ≤ uniformRadialProb 1 (some drange) (cand t i))

/-- `make_survey.py:1191-1195`: the distances; `same` are the lists of another column. The inverse of the distance function,
here the identity, is taken exact. -/
noncomputable def randomDistances (drange : Option Range) (sizes : List ℕ) (w hidden : ℕ → ℕ → ℝ) (n : ℕ)
    (same : List (List (ℝ × ℝ))) : Except Err (List (List ℝ)) :=
  match drange with
  | none => .ok (same.map fun l => l.map fun _ => (1 : ℝ))
  | some d =>
    let candR := fun t i => radialCandidate d.1 d.2 (w t i)
    sampleResult candR (radialDecisions d candR hidden) sizes n

/-- `make_survey.py:1186-1197` `RandomCutskyCatalog`, rows of each rank: `n1`, `n2` are the number of rounds of the two
samplings, `uv` and `w` the seeded draws in [0, 1). -/
noncomputable def randomCutskyCatalog (position : String) (rarange decrange : Range) (drange : Option Range)
    (sizes : List ℕ) (uv : ℕ → ℕ → ℝ × ℝ) (w hidden1 hidden2 : ℕ → ℕ → ℝ) (n1 n2 : ℕ) :
    Except Err (List (List (List (String × (ℝ ⊕ V3 ℝ))))) := do
  let candA := fun t i => angularCandidate (some rarange) (some decrange) (uv t i).1 (uv t i).2
  let radec ← sampleResult candA (angularDecisions rarange decrange candA hidden1) sizes n1
  let dist ← randomDistances drange sizes w hidden2 n2 radec
  .ok (List.zipWith (List.zipWith fun a d => randomCutskyRow position a.1 a.2 d) radec dist)

end Verif.Model
