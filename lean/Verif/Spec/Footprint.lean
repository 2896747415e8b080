import Verif.Model.Footprint
import Mathlib.Data.Finset.Card
import Mathlib.Data.List.Forall2

/-!
# Specification of the DESI footprint cuts
-/

namespace Verif.Spec.Footprint

open Verif Verif.Model.Footprint

/-- At least `n` different rows of `tiles` are tiles that cover the position `p`. -/
def AtLeast (covers : Pos → Pos → Prop) (n : ℤ) (tiles : List Pos) (p : Pos) : Prop :=
  ∃ rows : Finset ℕ, n ≤ rows.card ∧ ∀ i ∈ rows, ∃ t, tiles[i]? = some t ∧ covers t p

/-- What `desimodel` documents: `find_tiles_over_point` lists the rows of the tiles that cover a position, each once;
`is_point_in_desi` tells whether some tile covers it, and gives the row of the closest tile, which then covers it. -/
structure DesimodelOk (dm : Desimodel) (covers : Pos → Pos → Prop) : Prop where
  nodup : ∀ tiles p, (dm.overPoint tiles p).Nodup
  over : ∀ tiles p i, i ∈ dm.overPoint tiles p ↔ ∃ t, tiles[i]? = some t ∧ covers t p
  inside : ∀ tiles p, (dm.inDesi tiles p).1 = true ↔ ∃ t ∈ tiles, covers t p
  closest : ∀ tiles p, (dm.inDesi tiles p).1 = true → ∃ t, tiles[(dm.inDesi tiles p).2]? = some t ∧ covers t p

/-- Where the tiles of a release come from: the csv file of a reduction, up to some night, or the survey operations. -/
inductive Source where
  | csv (redux : String) (upTo : Option ℤ)
  | ops

/-- The releases, in lower case, and their tiles. -/
inductive Release : String → Source → Prop where
  | sv3 : Release "sv3" (.csv "fuji" none)
  | onepercent : Release "onepercent" (.csv "fuji" none)
  | da02 : Release "da02" (.csv "guadalupe" none)
  | m3 : Release "m3" (.csv "guadalupe" none)
  | y1 : Release "y1" (.csv "daily" (some 20220613))
  | y3 : Release "y3" (.csv "loa" none)
  | y5 : Release "y5" .ops

/-- `t` is a tile of the program and survey, observed for the last time on or before the night `upTo`. -/
def Selected (survey program : String) (upTo : Option ℤ) (t : CsvTile) : Prop :=
  t.survey = survey ∧ t.faprgrm = program ∧ ∀ night, upTo = some night → t.lastnight ≤ night

open Classical in
/-- `tiles` are the centres of the tiles of a program and survey, in the order of their table. -/
def TilesAre (dm : Desimodel) (tilesFn : String → String) (survey program : String) : Source → List Pos → Prop
  | .csv redux upTo, tiles => ∃ table, dm.readCsv (tilesFn redux) = .ok table ∧
      tiles = (table.filter (Selected survey program upTo)).map fun t => (t.tilera, t.tiledec)
  | .ops, tiles => ∃ table, dm.loadTiles = .ok table ∧
      tiles = (table.filter fun t => t.program = program.toUpper).map fun t => (t.ra, t.dec)

/-- The position is in the region, according to `is_in_photometric_region` called on this position. -/
def InRegion (regressis : Option Regressis) (region : String) (p : Pos) : Prop :=
  ∃ hpx, isInPhotometricRegion regressis [p] region = .ok (hpx, [true])

/-- The footprint maps of `regressis`: the three parts are disjoint, and the map of the north galactic cap is the union of its
parts. -/
structure RegressisOk (r : Regressis) : Prop where
  north_ngc : ∀ i, ¬ (r.footprint "north" i = true ∧ r.footprint "south_mid_ngc" i = true)
  north_sgc : ∀ i, ¬ (r.footprint "north" i = true ∧ r.footprint "south_mid_sgc" i = true)
  ngc_sgc : ∀ i, ¬ (r.footprint "south_mid_ngc" i = true ∧ r.footprint "south_mid_sgc" i = true)
  union : ∀ i, r.footprint "ngc" i = true ↔ r.footprint "north" i = true ∨ r.footprint "south_mid_ngc" i = true

end Verif.Spec.Footprint
