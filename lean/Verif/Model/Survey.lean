import Verif.Model.Script
import Verif.Model.RadialScript
import Verif.Model.Footprint
import Verif.Model.Blinding

/-!
# Model of the main program of `/repo/desi/from_box_to_desi_cutsky.py`

Lines 271-440, from the remapped box on. The functions it calls are those of `Script.lean`, `RadialScript.lean`, `Footprint.lean` and
`Mask.lean`. Maskbits are not added (`add_brick_quantities = False`, line 321). Files are lists of rows; `generate_redshifts` and the
masks are relations, without result when a search does not end.
-/

namespace Verif.Model.Survey

open Verif Verif.Model Verif.Model.Script Verif.Model.Footprint

/-- What the program reads or is given: splines of scipy, distance to a redshift and its interpolated inverse, the n(z) file, the
redshift range, growth rate, smearing, the footprint packages and the release. (`from_box_to_desi_cutsky.py:304-345`). -/
structure Settings where
  spline : Spline
  distance : ℝ → ℝ
  redshift : ℝ → ℝ
  table : List NzRow
  zmin : ℝ
  zmax : ℝ
  rsdFactor : ℝ
  smear : List ℝ → Except Err (List ℝ)
  dm : Desimodel
  regressis : Option Regressis
  tilesFn : String → String
  release : String
  program : String
  npasses : Option ℤ

/-- Random numbers of the program for one region: selection of the data, candidates for the randoms (`uv`), decisions on them, redshifts
of the randoms and decisions on them. (`from_box_to_desi_cutsky.py:364-367`). -/
structure Draws where
  radial : List ℝ
  uv : ℕ → ℕ → ℝ × ℝ
  angular : ℕ → ℕ → ℝ
  z : ℕ → ℕ → ℝ
  zHidden : ℕ → ℕ → ℝ

/-! ### Data -/

/-- RA and Dec of a row with redshift (`from_box_to_desi_cutsky.py:386`); the declination of the origin is `nan`. -/
noncomputable def dataObj {ρ : Type} (r : ℝ × SurveyRow ρ) : Except Err (Obj (ℝ × SurveyRow ρ)) :=
  match r.2.sky.dec with
  | none => .error .nan
  | some dec => .ok ⟨(r.2.sky.ra, dec), r, none⟩

/-- `from_box_to_desi_cutsky.py:372-386`: data of one region; size of the catalog before the footprint cuts, and the rows written. Rows of
all ranks in order: `apply_photo_desi_footprint` acts row by row. `keywords`: those of `cartesian_to_sky`, see `rsdAndCutsky`. -/
def RegionData {ρ : Type} (s : Settings) (keywords : List String) (box : Box ρ) (draws : List ℝ) (region : String)
    (result : Except Err (ℕ × List (Obj (ℝ × SurveyRow ρ)))) : Prop :=
  match (do
    let center ← regionCenter region
    rsdAndCutsky keywords box (s.distance s.zmin) (s.distance s.zmax) s.rsdFactor center.1 center.2) with
  | .error e => result = .error e
  | .ok cutsky =>
    ∃ kept after, ApplyRadialMask s.spline s.distance s.table s.zmin s.zmax (some s.smear) draws
        (cutsky.map fun r => (s.redshift r.sky.dist, r)) kept after ∧
      result = (do
        let kept ← kept
        let objs ← kept.mapM dataObj
        let (_, out) ← applyPhotoDesiFootprint s.dm s.regressis s.tilesFn objs region s.release s.program s.npasses
        .ok (kept.length, out))

/-! ### Randoms -/

/-- `from_box_to_desi_cutsky.py:410-412`: number of randoms, ten times the data before footprint cuts. -/
noncomputable def randomSize (csize : ℕ) : ℤ := trunc (csize * 10 + 1 / 2)

/-- A row of a random catalog (columns and values). (`from_box_to_desi_cutsky.py:418`). -/
abbrev RandomRow := List (String × (ℝ ⊕ V3 ℝ))

/-- `randoms['RA']`, for one row (`from_box_to_desi_cutsky.py:423`). -/
def RandomRow.real (row : RandomRow) (name : String) : Except Err ℝ :=
  match row.lookup name with
  | some (.inl x) => .ok x
  | some (.inr _) => .error .typeError
  | none => .error .keyError

/-- RA and Dec of a random (`from_box_to_desi_cutsky.py:423`). -/
def randomObj (row : RandomRow) : Except Err (Obj RandomRow) := do
  .ok ⟨(← row.real "RA", ← row.real "DEC"), row, none⟩

/-- `from_box_to_desi_cutsky.py:414-418`: ranges of the randoms. -/
noncomputable def randomRanges {ρ : Type} (s : Settings) (box : Box ρ) (region : String) : Except Err (Model.Range × Model.Range) := do
  let center ← regionCenter region
  let (_, rarange, decrange) ← boxToCutsky box.boxsize (s.distance s.zmax) (s.distance s.zmin)
  .ok ((center.1 + rarange.1, center.1 + rarange.2), (center.2 + decrange.1, center.2 + decrange.2))

/-- The footprint cuts on one rank (`from_box_to_desi_cutsky.py:423`). -/
noncomputable def footprintRandoms (s : Settings) (region : String) (rows : List RandomRow) : Except Err (List (Obj RandomRow)) := do
  let objs ← rows.mapM randomObj
  let (_, out) ← applyPhotoDesiFootprint s.dm s.regressis s.tilesFn objs region s.release s.program s.npasses
  .ok out

/-- `from_box_to_desi_cutsky.py:405-432`: randoms of one region, rows of each of the ranks with their redshift. -/
def RegionRandoms {ρ : Type} (s : Settings) (nranks : ℕ) (box : Box ρ) (d : Draws) (region : String) (csize : ℕ)
    (result : Except Err (List (List (ℝ × Obj RandomRow)))) : Prop :=
  match randomRanges s box region with
  | .error e => result = .error e
  | .ok (rarange, decrange) =>
    let sizes := Blinding.localSizes (randomSize csize).toNat nranks
    let cand := fun t i => angularCandidate (some rarange) (some decrange) (d.uv t i).1 (d.uv t i).2
    ∃ n, StopsAfter cand (angularDecisions rarange decrange cand d.angular) sizes n ∧
      match (do
        let ranks ← randomCutskyCatalog "Position" rarange decrange none sizes d.uv (fun _ _ => 0) d.angular (fun _ _ => 0) n 0
        ranks.mapM (footprintRandoms s region)) with
      | .error e => result = .error e
      | .ok ranks =>
        ∃ z, GenerateRedshifts s.spline s.distance s.redshift s.table s.zmin s.zmax (ranks.map List.length) d.z d.zHidden z ∧
          result = (do
            let z ← z
            .ok (List.zipWith (List.zip) z ranks))

/-! ### All regions -/

/-- What is written: one file of data, or the files of randoms, of a region. (`from_box_to_desi_cutsky.py:393-397, 434-440`). -/
inductive File (ρ : Type) where
  | data (region : String) (rows : List (Obj (ℝ × SurveyRow ρ)))
  | randoms (region : String) (ranks : List (List (ℝ × Obj RandomRow)))

/-- `from_box_to_desi_cutsky.py:369-440`, the loop over regions: files written, and the exception that ends the program, if any. -/
def RunRegions {ρ : Type} (s : Settings) (keywords : List String) (nranks : ℕ) (box : Box ρ) (draws : String → Draws) :
    List String → List (File ρ) → Option Err → Prop
  | [], files, error => files = [] ∧ error = none
  | region :: regions, files, error =>
    ∃ data, RegionData s keywords box (draws region).radial region data ∧
      match data with
      | .error e => files = [] ∧ error = some e
      | .ok (csize, rows) =>
        ∃ randoms, RegionRandoms s nranks box (draws region) region csize randoms ∧
          match randoms with
          | .error e => files = [.data region rows] ∧ error = some e
          | .ok ranks => ∃ rest, RunRegions s keywords nranks box draws regions rest error ∧
              files = .data region rows :: .randoms region ranks :: rest

/-- `from_box_to_desi_cutsky.py:369`: the loop over the three regions, given the keywords of the call of `cutsky_from_isometry`. -/
def RunAll {ρ : Type} (s : Settings) (keywords : List String) (nranks : ℕ) (box : Box ρ) (draws : String → Draws)
    (files : List (File ρ)) (error : Option Err) : Prop :=
  RunRegions s keywords nranks box draws ["N", "DN", "DS"] files error

/-- `from_box_to_desi_cutsky.py:362-440`: the program, from the remapped box on. -/
def Run {ρ : Type} (s : Settings) (nranks : ℕ) (box : Box ρ) (draws : String → Draws) (files : List (File ρ)) (error : Option Err) :
    Prop :=
  RunAll s ["wrap"] nranks box draws files error

end Verif.Model.Survey
