import Verif.Model.Fiber
import Mathlib.Algebra.BigOperators.Intervals

/-!
# What fiber assignment relies on

What is asked of the packages used by fiber assignment, in terms of the region of the sky that each tile covers.
-/

namespace Verif.Spec.Fiber

open Verif Verif.Model Verif.Model.Fiber

open Classical in
/-- The rows that lie on a tile. -/
noncomputable def onTile {E : Type} (covers : Tile → ℝ → ℝ → Prop) (t : Tile) (rows : List (PRow E)) : List (PRow E) :=
  rows.filter fun r => decide (covers t r.ra r.dec)

/-- The tiles found over a point are those that cover it. -/
def FindOk {E : Type} (w : World E) (covers : Tile → ℝ → ℝ → Prop) : Prop :=
  ∀ tiles ra dec i, i ∈ w.find tiles ra dec ↔ ∃ t, tiles[i]? = some t ∧ covers t ra dec

/-- Science targets: those of a type with the lowest bit set. -/
def Science (asgn : Assignment) (id : ℤ) : Prop := asgn.type id &&& 2 ^ 0 ≠ 0

/-- What `fiberassign` ensures on a tile: it works on this tile only; a location has one target, a target one location; a science
target is assigned to a location that can reach it; the science targets within reach are rows of the catalogue that lie on the
tile; a location has a fiber (`-1` if there is none), and two locations have different fibers. -/
structure AssignmentOk {E : Type} (covers : Tile → ℝ → ℝ → Prop) (t : Tile) (rows : List (PRow E)) (asgn : Assignment) : Prop where
  tiles : asgn.tiles = [t.id] ∨ asgn.tiles = []
  oneTarget : ((asgn.assigned t.id).map Prod.fst).Nodup
  oneLocation : ((asgn.assigned t.id).map Prod.snd).Nodup
  reach : ∀ x ∈ asgn.assigned t.id, Science asgn x.2 → ∃ ids, (x.1, ids) ∈ asgn.avail t.id ∧ x.2 ∈ ids
  rows : ∀ x ∈ asgn.avail t.id, ∀ id ∈ x.2, Science asgn id → ∃ r ∈ rows, r.tid = id ∧ covers t r.ra r.dec
  fibers : ∀ x ∈ asgn.avail t.id, asgn.fiberOf x.1 ≠ none
  oneFiber : ∀ l l' f, 0 ≤ f → asgn.fiberOf l = some f → asgn.fiberOf l' = some f → l = l'

/-- `fiberassign` behaves so on every tile. -/
def EngineOk {E : Type} (w : World E) (covers : Tile → ℝ → ℝ → Prop) : Prop :=
  ∀ t rows asgn, w.engine t rows = .ok asgn → AssignmentOk covers t rows asgn

/-- The columns `fiberassign` reads. -/
def seen {E : Type} (r : PRow E) : ℤ × ℝ × ℝ × E × ℤ := (r.tid, r.ra, r.dec, r.extra, r.more)

/-- The assignment of a tile depends on the rows that lie on it only, and not on their order. -/
def EngineLocal {E : Type} (w : World E) (covers : Tile → ℝ → ℝ → Prop) : Prop :=
  ∀ t rows rows', ((onTile covers t rows).map seen).Perm ((onTile covers t rows').map seen) → w.engine t rows = w.engine t rows'

/-- Tiles: identifiers are not negative and different within a pass; no target lies on two tiles of one pass. -/
structure TilesOk {E : Type} (covers : Tile → ℝ → ℝ → Prop) (tiles : List Tile) (targets : List (Target E)) : Prop where
  nonneg : ∀ t ∈ tiles, 0 ≤ t.id
  nodup : ∀ p, ((tilesOfPass tiles p).map Tile.id).Nodup
  disjoint : ∀ t ∈ tiles, ∀ t' ∈ tiles, t.pass = t'.pass → ∀ r ∈ targets, covers t r.ra r.dec → covers t' r.ra r.dec → t = t'

/-- The working fibers of a tile. -/
def Works {E : Type} (w : World E) (t : Tile) (f : ℤ) : Prop :=
  ∃ petals, w.zmtl t.id = some petals ∧ ∃ i : ℕ, f = i ∧ ∃ z, (zwarns petals)[i]? = some z ∧ z.nodata = false ∧ z.badSpec = false ∧
    z.badPetal = false

/-- A science target is assigned to a fiber of a tile. -/
def Assigned (asgn : Assignment) (t : Tile) (id f : ℤ) : Prop :=
  t.id ∈ asgn.tiles ∧ ∃ loc, (loc, id) ∈ asgn.assigned t.id ∧ Science asgn id ∧ asgn.fiberOf loc = some f

/-- A science target can be reached with a fiber that is assigned to a science target. -/
def Reached (asgn : Assignment) (t : Tile) (id f : ℤ) : Prop :=
  (∃ id', Assigned asgn t id' f) ∧ ∃ x ∈ asgn.avail t.id, id ∈ x.2 ∧ Science asgn id ∧ asgn.fiberOf x.1 = some f

/-- `f` is the fiber of the first location, in the order of the list of locations, that can reach the target with a fiber assigned to a
science target. -/
def FirstReached (asgn : Assignment) (t : Tile) (id f : ℤ) : Prop :=
  ∃ pre x post, asgn.avail t.id = pre ++ x :: post ∧ id ∈ x.2 ∧ Science asgn id ∧ asgn.fiberOf x.1 = some f ∧
    (∃ id', Assigned asgn t id' f) ∧
    ∀ y ∈ pre, id ∈ y.2 → ∀ g, asgn.fiberOf y.1 = some g → ¬∃ id', Assigned asgn t id' g

/-! ### Completeness weights -/

/-- The identifier of the tile of a pass a target lies on (the first that is found). -/
def tileIn {E : Type} (w : World E) (tiles : List Tile) (p : ℕ) (r : Target E) : Option ℤ :=
  let here := tiles.filter fun t : Tile => decide (t.pass = (p : ℤ))
  (w.find here r.ra r.dec).head?.bind fun i => (here[i]?).map Tile.id

/-- In a pass, a target lies on a tile and has a fiber. -/
def HasFiber {E : Type} (w : World E) (tiles : List Tile) (p : ℕ) (r : Target E) (t f : ℤ) : Prop :=
  tileIn w tiles p r = some t ∧ r.fiber[p]? = some f ∧ f ≠ -1

/-- An available target that was never observed counts for the fiber it has in the first pass where it has one. -/
def CountsFor {E : Type} (w : World E) (tiles : List Tile) (p : ℕ) (r : Target E) (t f : ℤ) : Prop :=
  r.available = true ∧ r.numobs = 0 ∧ HasFiber w tiles p r t f ∧ ∀ q < p, ¬∃ t' f', HasFiber w tiles q r t' f'

open Classical in
/-- The weight of a target: one, plus, for each pass where it was observed, the number of targets that count for its fiber; `none` if it
was never observed. -/
noncomputable def weightOf {E : Type} (w : World E) (tiles : List Tile) (npasses : ℕ) (targets : List (Target E)) (r : Target E) :
    Option ℤ :=
  if r.numobs = 0 then none
  else some (1 + ∑ p ∈ Finset.range npasses, if r.obsPass[p]? = some true then
    (targets.countP fun y => decide (∃ t f, HasFiber w tiles p r t f ∧ CountsFor w tiles p y t f) : ℤ) else 0)

end Verif.Spec.Fiber
