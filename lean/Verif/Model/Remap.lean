import Verif.Basic.Real
import Mathlib.Algebra.Order.Floor.Ring
import Mathlib.Algebra.Order.Archimedean.Basic

/-!
# Model of `/repo/mockfactory/remap.py`, cuboid remapping

Floating-point numbers are reals. `boxsize` is the array of shape (3,) made by `_make_array` (`remap.py:12-16`).
Input positions of shape (N, 3) are lists of rows; an input of shape (3,) is treated as the single row, as in the code
(`np.atleast_2d`, then `toret[0]`). Inputs of another last dimension (`ValueError`) and integer arrays (numpy refuses
the in-place division) are not represented.
-/

namespace Verif.Model.Remap
open Verif

/-- `remap.py:40-42` `det3`. -/
def det3 {K : Type*} [Ring K] (u v w : V3 K) : K :=
  u.x * (v.y * w.z - v.z * w.y) + u.y * (v.z * w.x - v.x * w.z) + u.z * (v.x * w.y - v.y * w.x)

/-- `remap.py:45-56` `orthogonalize` (`square` 30-32 and `dot` 25-27 are `V3.dot`). -/
def orthogonalize {K : Type*} [Field K] (u1 u2 u3 : V3 K) : V3 K × V3 K × V3 K :=
  let s1 := V3.dot u1 u1
  let s2 := V3.dot u2 u2
  let d12 := V3.dot u1 u2
  let d23 := V3.dot u2 u3
  let d13 := V3.dot u1 u3
  let alpha := -d12 / s1
  let gamma := -(alpha * d13 + d23) / (alpha * d12 + s2)
  let beta := -(d13 + gamma * d12) / s1
  (u1, u2 + alpha • u1, u3 + beta • u1 + gamma • u2)

/-- `remap.py:59-76` `Plane`: normal `n` and offset `d`. -/
structure Plane where
  n : V3 ℝ
  d : ℝ

/-- `remap.py:63-76` `Plane.__init__`. -/
def Plane.init (p n : V3 ℝ) : Plane := ⟨n, -V3.dot p n⟩

/-- `remap.py:83-98` `Plane.test`, one row. -/
def Plane.test (pl : Plane) (position : V3 ℝ) : ℝ := V3.dot pl.n position + pl.d

/-- `remap.py:109`, `itertools.product((0, 1), (0, 1), (0, 1))`. -/
def unitCube : List (V3 ℝ) :=
  [⟨0, 0, 0⟩, ⟨0, 0, 1⟩, ⟨0, 1, 0⟩, ⟨0, 1, 1⟩, ⟨1, 0, 0⟩, ⟨1, 0, 1⟩, ⟨1, 1, 0⟩, ⟨1, 1, 1⟩]

open Classical in
/-- `remap.py:100-113` `Plane.test_unit_cube`. -/
noncomputable def Plane.testUnitCube (pl : Plane) : ℤ :=
  let s := unitCube.map pl.test
  let above : ℤ := if ∃ t ∈ s, 0 < t then 1 else 0
  let below : ℤ := if ∃ t ∈ s, t < 0 then 1 else 0
  above - below

/-- `remap.py:116-131` `Cell`: tile label and non-trivial faces. -/
structure Cell where
  ipos : V3 ℤ
  faces : List Plane

/-- Integer vector as a vector of floats, `vec3(ipos)` (`remap.py:19-22`). -/
def toReal (i : V3 ℤ) : V3 ℝ := ⟨i.x, i.y, i.z⟩

/-- `remap.py:133-140` `Cell.isin`, one row. -/
def Cell.isin (c : Cell) (position : V3 ℝ) : Prop := ∀ f ∈ c.faces, 0 ≤ f.test position

/-- `np.arange(imin, imax)`, `remap.py:215`. -/
def arange (imin imax : ℤ) : List ℤ := (List.range (imax - imin).toNat).map (fun k : ℕ => imin + (k : ℤ))

open Classical in
/-- `remap.py:225-237`, loop over the faces of a tile: `none` when one face has the unit cube below (`skipcell`),
otherwise the faces intersected by the unit cube. -/
noncomputable def scanFaces : List Plane → Option (List Plane)
  | [] => some []
  | f :: fs =>
    if f.testUnitCube = 1 then scanFaces fs
    else if f.testUnitCube = 0 then (scanFaces fs).map (f :: ·)
    else none

/-- Attributes of `Cuboid` (`remap.py:178-245`). -/
structure Cuboid where
  e1 : V3 ℝ
  e2 : V3 ℝ
  e3 : V3 ℝ
  n1 : V3 ℝ
  n2 : V3 ℝ
  n3 : V3 ℝ
  boxsize : V3 ℝ
  cuboidresize : V3 ℝ
  cuboidsize : V3 ℝ
  cells : List Cell

/-- `e / norm(e)`, `remap.py:186-189`, `norm` of `remap.py:35-37` (also `Plane.normal`, `:78-81`). -/
noncomputable def unit (e : V3 ℝ) : V3 ℝ := ⟨e.x / e.norm, e.y / e.norm, e.z / e.norm⟩

/-- `remap.py:195-204`: the 8 vertices of the cuboid. -/
def vertices (e1 e2 e3 : V3 ℝ) : List (V3 ℝ) :=
  [0, 0 + e3, 0 + e2, 0 + e2 + e3, 0 + e1, 0 + e1 + e3, 0 + e1 + e2, 0 + e1 + e2 + e3]

/-- `np.min(values)` of the 8 values whose first is `a`, `remap.py:207`. -/
noncomputable def minOf (a : ℝ) (l : List ℝ) : ℝ := l.foldl min a
/-- `np.max(values)`, `remap.py:208`. -/
noncomputable def maxOf (a : ℝ) (l : List ℝ) : ℝ := l.foldl max a

/-- `remap.py:206-215`, one axis: integer coordinates of the tiles. -/
noncomputable def tileRange (coord : V3 ℝ → ℝ) (e1 e2 e3 : V3 ℝ) : List ℤ :=
  arange ⌊minOf (coord 0) ((vertices e1 e2 e3).map coord)⌋ ⌈maxOf (coord 0) ((vertices e1 e2 e3).map coord)⌉

/-- `remap.py:215-216`: `itertools.product(*iranges)`. -/
noncomputable def tiles (e1 e2 e3 : V3 ℝ) : List (V3 ℤ) :=
  (tileRange V3.x e1 e2 e3).flatMap fun i =>
    (tileRange V3.y e1 e2 e3).flatMap fun j =>
      (tileRange V3.z e1 e2 e3).map fun k => ⟨i, j, k⟩

/-- `remap.py:217-223`: the 6 faces of the cuboid, in the coordinates of the tile. -/
noncomputable def tileFaces (e1 e2 e3 : V3 ℝ) (ipos : V3 ℤ) : List Plane :=
  let shift := -toReal ipos
  [Plane.init (0 + shift) (unit e1),
   Plane.init (0 + e1 + shift) (-unit e1),
   Plane.init (0 + shift) (unit e2),
   Plane.init (0 + e2 + shift) (-unit e2),
   Plane.init (0 + shift) (unit e3),
   Plane.init (0 + e3 + shift) (-unit e3)]

/-- `remap.py:216-241`: the cells added by the loop over tiles. -/
noncomputable def keptCells (e1 e2 e3 : V3 ℝ) : List Cell :=
  (tiles e1 e2 e3).filterMap fun ipos =>
    match scanFaces (tileFaces e1 e2 e3 ipos) with
    | none => none
    | some [] => none
    | some (f :: fs) => some ⟨ipos, f :: fs⟩

/-- `remap.py:243-245`: if no cell was added, use the default one. -/
noncomputable def makeCells (e1 e2 e3 : V3 ℝ) : List Cell :=
  match keptCells e1 e2 e3 with
  | [] => [⟨0, []⟩]
  | c :: cs => c :: cs

/-- `remap.py:155-250` `Cuboid.__init__`. -/
noncomputable def Cuboid.init (u1 u2 u3 boxsize : V3 ℝ) : Except Err Cuboid :=
  if det3 u1 u2 u3 ≠ 1 then .error .valueError
  else
    let (e1, e2, e3) := orthogonalize u1 u2 u3
    let resize : V3 ℝ := ⟨(V3.emul boxsize (unit e1)).norm, (V3.emul boxsize (unit e2)).norm, (V3.emul boxsize (unit e3)).norm⟩
    .ok { e1 := e1, e2 := e2, e3 := e3, n1 := unit e1, n2 := unit e2, n3 := unit e3, boxsize := boxsize,
          cuboidresize := resize, cuboidsize := V3.emul resize ⟨e1.norm, e2.norm, e3.norm⟩,
          cells := makeCells e1 e2 e3 }

open Classical in
/-- `remap.py:281-283`, one row and one cell: a position found in the cell is shifted in place. -/
noncomputable def cellStep (s : V3 ℝ × Bool) (c : Cell) : V3 ℝ × Bool :=
  if c.isin s.1 then (s.1 + toReal c.ipos, true) else s

/-- `remap.py:279-283`, one row: loop over the cells; the position is shifted in place each time it is found in a cell,
and the shifted position is the one tested against the next cells. Returns the position and the mask. -/
noncomputable def applyCells (cells : List Cell) (position : V3 ℝ) : V3 ℝ × Bool :=
  cells.foldl cellStep (position, false)

/-- Projection on the unit vectors of the cuboid, `remap.py:276, 286`. -/
def Cuboid.project (c : Cuboid) (v : V3 ℝ) : V3 ℝ := ⟨V3.dot v c.n1, V3.dot v c.n2, V3.dot v c.n3⟩

/-- `remap.py:252-289` `Cuboid.transform`, all rows. -/
noncomputable def Cuboid.transform (c : Cuboid) (positions : List (V3 ℝ)) (translationalInvariant : Bool) :
    Except Err (List (V3 ℝ)) :=
  if translationalInvariant then .ok (positions.map c.project)
  else
    let moved := positions.map fun p => applyCells c.cells (V3.ediv p c.boxsize)
    if moved.all Prod.snd then .ok (moved.map fun s => V3.emul (c.project s.1) c.cuboidresize)
    else .error .cuboidError

/-- Combination of the unit vectors of the cuboid, `remap.py:313, 318`. -/
def Cuboid.combine (c : Cuboid) (p : V3 ℝ) : V3 ℝ := p.x • c.n1 + p.y • c.n2 + p.z • c.n3

/-- `remap.py:291-322` `Cuboid.inverse_transform`, one row. -/
noncomputable def Cuboid.inverseTransform (c : Cuboid) (position : V3 ℝ) (translationalInvariant : Bool) : V3 ℝ :=
  if translationalInvariant then c.combine position
  else
    let p := c.combine (V3.ediv position c.cuboidresize)
    V3.emul ⟨Int.fract p.x, Int.fract p.y, Int.fract p.z⟩ c.boxsize

/-- `remap.py:405-413`: the pairwise branch of `gcd`; python `%` with a positive modulus. -/
def gcdLoop (a b : ℕ) : ℕ :=
  if _h : b = 0 then a else gcdLoop b (a % b)
termination_by b
decreasing_by exact Nat.mod_lt _ (Nat.pos_of_ne_zero _h)

/-- `remap.py:405-413` `gcd(a, b)`: absolute values, then the loop. -/
def gcd2 (a b : ℤ) : ℤ := (gcdLoop (if a < 0 then -a else a).toNat (if b < 0 then -b else b).toNat : ℕ)

/-- `remap.py:399-417` `gcd(*args)`; without arguments `args[0]` raises `IndexError`. -/
def gcd : List ℤ → Except Err ℤ
  | [] => .error .indexError
  | [a] => .ok a
  | [a, b] => .ok (gcd2 a b)
  | a :: b :: c :: l =>
    match gcd (b :: c :: l) with
    | .ok g => .ok (gcd2 a g)
    | .error e => .error e

/-- `sorted([i, j, k])`, `remap.py:441, 446`. -/
def sort3 (i j k : ℤ) : List ℤ := [i, j, k].mergeSort (fun a b => decide (a ≤ b))

/-- `remap.py:420-448` `coprime_triples`: the triples added to the set, in order of insertion and with repetitions
(the set forgets both). -/
def coprimeAdded (range : List ℤ) : List (List ℤ) :=
  range.flatMap fun i => range.flatMap fun j =>
    if gcd [i, j] = .ok 1 then range.map fun k => sort3 i j k
    else (range.filter fun k => decide (gcd [i, j, k] = .ok 1)).map fun k => sort3 i j k

/-- `itertools.permutations` of 3 elements, as 3-vectors, `remap.py:370`. -/
def permutations3 : List ℤ → List (V3 ℤ)
  | [i, j, k] => [⟨i, j, k⟩, ⟨i, k, j⟩, ⟨j, i, k⟩, ⟨j, k, i⟩, ⟨k, i, j⟩, ⟨k, j, i⟩]
  | _ => []

/-- `remap.py:387`: side lengths of the remapped box. -/
noncomputable def sizesOf (boxsize : V3 ℝ) (u : V3 ℤ × V3 ℤ × V3 ℤ) : V3 ℝ :=
  let e := orthogonalize (toReal u.1) (toReal u.2.1) (toReal u.2.2)
  ⟨(V3.emul e.1 boxsize).norm, (V3.emul e.2.1 boxsize).norm, (V3.emul e.2.2 boxsize).norm⟩

/-- `remap.py:389-391`: the key; `sort` puts the sizes in decreasing order. -/
noncomputable def keyOf (sort : Bool) (s : V3 ℝ) : List ℝ :=
  if sort then s.toList.mergeSort (fun a b => decide (b ≤ a)) else s.toList

/-- A range (min, max); `none` for an infinite maximum. (`remap.py:355-362`). -/
structure Range where
  lo : ℝ
  hi : Option ℝ

/-- `lo <= s <= hi`. (`remap.py:376, 388`). -/
def Range.has (r : Range) (s : ℝ) : Prop := r.lo ≤ s ∧ ∀ h ∈ r.hi, s ≤ h

/-- `remap.py:355-362`: `None` or empty gives no selection; missing ranges are unconstraining. -/
def fillRanges (l : List Range) : Option (Range × Range × Range) :=
  match l with
  | [] => none
  | [a] => some (a, ⟨0, none⟩, ⟨0, none⟩)
  | [a, b] => some (a, b, ⟨0, none⟩)
  | a :: b :: c :: _ => some (a, b, c)

/-- Python dictionary, in order of insertion. (`remap.py:383-395`). -/
abbrev Dict (κ β : Type*) := List (κ × β)

open Classical in
/-- `remap.py:392-395`: `toret[box] = [u]`, or append if there is room. -/
noncomputable def addEntry {κ : Type*} (maxcomb : Option ℕ) (d : Dict κ (List (V3 ℤ × V3 ℤ × V3 ℤ))) (box : κ)
    (u : V3 ℤ × V3 ℤ × V3 ℤ) : Dict κ (List (V3 ℤ × V3 ℤ × V3 ℤ)) :=
  match d with
  | [] => [(box, [u])]
  | (k, l) :: d' =>
    if k = box then
      (if maxcomb = none ∨ ∃ m, maxcomb = some m ∧ l.length < m then (k, l ++ [u]) :: d' else (k, l) :: d')
    else (k, l) :: addEntry maxcomb d' box u

open Classical in
/-- `remap.py:324-396` `generate_lattice_vectors`. `coprimes` is the list in which python iterates over the set returned
by `coprime_triples(range(-maxint, maxint + 1))`, an order the code does not control. -/
noncomputable def generateLatticeVectors (coprimes : List (List ℤ)) (maxcomb : Option ℕ) (boxsize : V3 ℝ)
    (cuboidranges : List Range) (sort : Bool) : Dict (List ℝ) (List (V3 ℤ × V3 ℤ × V3 ℤ)) :=
  let ranges := fillRanges cuboidranges
  let triplets := coprimes.flatMap permutations3
  let itervector1 := triplets.filter fun e => decide (∀ r ∈ ranges, r.1.has (V3.emul (toReal e) boxsize).norm)
  let us := itervector1.flatMap fun a => triplets.flatMap fun b => triplets.map fun c => (a, b, c)
  us.foldl (fun d u =>
    if det3 u.1 u.2.1 u.2.2 = 1 then
      let s := sizesOf boxsize u
      if ∀ r ∈ ranges, r.2.1.has s.y ∧ r.2.2.has s.z then addEntry maxcomb d (keyOf sort s) u else d
    else d) []

end Verif.Model.Remap
