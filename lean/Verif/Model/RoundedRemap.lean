import Verif.Basic.Rounding
import Verif.Model.Remap

/-!
# Model of cuboid remapping with rounding errors

`/repo/mockfactory/remap.py:25-396`: each operation on floats is rounded (`Verif/Basic/Rounding.lean`), in the order of the code.
`Verif/Model/Remap.lean` has the same functions on exact real numbers. Lattice vectors are tuples of python integers, whose determinant
is exact. Overflow is left out, as are divisions by zero (`orthogonalize` divides by squared norms, positive for unimodular vectors).
-/

namespace Verif.Model.RoundedRemap

open Verif Verif.Model Verif.Model.Remap

variable (F : Fmt)

/-- `remap.py:25-27` `dot`: `sum` adds the three products in order to the integer 0. -/
noncomputable def dotF (u v : V3 ℝ) : ℝ := F.rnd (F.rnd (F.rnd (u.x * v.x) + F.rnd (u.y * v.y)) + F.rnd (u.z * v.z))

/-- `remap.py:35-37` `norm`. -/
noncomputable def normF (v : V3 ℝ) : ℝ := F.rnd (Real.sqrt (dotF F v v))

/-- Sum of two arrays. (`remap.py:56, 197-204, 218-223`). -/
noncomputable def addF (u v : V3 ℝ) : V3 ℝ := ⟨F.rnd (u.x + v.x), F.rnd (u.y + v.y), F.rnd (u.z + v.z)⟩

/-- Product of a number and an array. (`remap.py:56`). -/
noncomputable def smulF (a : ℝ) (v : V3 ℝ) : V3 ℝ := ⟨F.rnd (a * v.x), F.rnd (a * v.y), F.rnd (a * v.z)⟩

/-- Product of two arrays. (`remap.py:190, 286`). -/
noncomputable def emulF (u v : V3 ℝ) : V3 ℝ := ⟨F.rnd (u.x * v.x), F.rnd (u.y * v.y), F.rnd (u.z * v.z)⟩

/-- Ratio of two arrays. (`remap.py:278`). -/
noncomputable def edivF (u v : V3 ℝ) : V3 ℝ := ⟨F.rnd (u.x / v.x), F.rnd (u.y / v.y), F.rnd (u.z / v.z)⟩

/-- `e / norm(e)`. (`remap.py:186-189`). -/
noncomputable def unitF (e : V3 ℝ) : V3 ℝ := ⟨F.rnd (e.x / normF F e), F.rnd (e.y / normF F e), F.rnd (e.z / normF F e)⟩

/-- `remap.py:52` `alpha`. -/
noncomputable def alphaF (u1 u2 : V3 ℝ) : ℝ := F.rnd (-dotF F u1 u2 / dotF F u1 u1)

/-- `remap.py:53` `gamma`. -/
noncomputable def gammaF (u1 u2 u3 : V3 ℝ) : ℝ :=
  F.rnd (-F.rnd (F.rnd (alphaF F u1 u2 * dotF F u1 u3) + dotF F u2 u3) /
    F.rnd (F.rnd (alphaF F u1 u2 * dotF F u1 u2) + dotF F u2 u2))

/-- `remap.py:54` `beta`. -/
noncomputable def betaF (u1 u2 u3 : V3 ℝ) : ℝ :=
  F.rnd (-F.rnd (dotF F u1 u3 + F.rnd (gammaF F u1 u2 u3 * dotF F u1 u2)) / dotF F u1 u1)

/-- `remap.py:45-56` `orthogonalize`. -/
noncomputable def orthogonalizeF (u1 u2 u3 : V3 ℝ) : V3 ℝ × V3 ℝ × V3 ℝ :=
  (u1, addF F u2 (smulF F (alphaF F u1 u2) u1),
    addF F (addF F u3 (smulF F (betaF F u1 u2 u3) u1)) (smulF F (gammaF F u1 u2 u3) u2))

/-- `remap.py:63-76` `Plane.__init__`. -/
noncomputable def planeF (p n : V3 ℝ) : Plane := ⟨n, -dotF F p n⟩

/-- `remap.py:83-98` `Plane.test`, one row. -/
noncomputable def testF (pl : Plane) (position : V3 ℝ) : ℝ := F.rnd (dotF F pl.n position + pl.d)

open Classical in
/-- `remap.py:100-113` `Plane.test_unit_cube`. -/
noncomputable def testUnitCubeF (pl : Plane) : ℤ :=
  let s := unitCube.map (testF F pl)
  let above : ℤ := if ∃ t ∈ s, 0 < t then 1 else 0
  let below : ℤ := if ∃ t ∈ s, t < 0 then 1 else 0
  above - below

/-- `remap.py:133-140` `Cell.isin`, one row. -/
def isinF (c : Cell) (position : V3 ℝ) : Prop := ∀ f ∈ c.faces, 0 ≤ testF F f position

open Classical in
/-- `remap.py:225-237`, loop over the faces of a tile. -/
noncomputable def scanFacesF : List Plane → Option (List Plane)
  | [] => some []
  | f :: fs =>
    if testUnitCubeF F f = 1 then scanFacesF fs
    else if testUnitCubeF F f = 0 then (scanFacesF fs).map (f :: ·)
    else none

/-- `remap.py:195-204`: the 8 vertices of the cuboid. -/
noncomputable def verticesF (e1 e2 e3 : V3 ℝ) : List (V3 ℝ) :=
  [0, addF F 0 e3, addF F 0 e2, addF F (addF F 0 e2) e3, addF F 0 e1, addF F (addF F 0 e1) e3, addF F (addF F 0 e1) e2,
    addF F (addF F (addF F 0 e1) e2) e3]

/-- `remap.py:206-215`, one axis: integer coordinates of the tiles. -/
noncomputable def tileRangeF (coord : V3 ℝ → ℝ) (e1 e2 e3 : V3 ℝ) : List ℤ :=
  arange ⌊minOf (coord 0) ((verticesF F e1 e2 e3).map coord)⌋ ⌈maxOf (coord 0) ((verticesF F e1 e2 e3).map coord)⌉

/-- `remap.py:215-216`: `itertools.product(*iranges)`. -/
noncomputable def tilesF (e1 e2 e3 : V3 ℝ) : List (V3 ℤ) :=
  (tileRangeF F V3.x e1 e2 e3).flatMap fun i =>
    (tileRangeF F V3.y e1 e2 e3).flatMap fun j =>
      (tileRangeF F V3.z e1 e2 e3).map fun k => ⟨i, j, k⟩

/-- `remap.py:217-223`: the 6 faces of the cuboid, in the coordinates of the tile. -/
noncomputable def tileFacesF (e1 e2 e3 : V3 ℝ) (ipos : V3 ℤ) : List Plane :=
  let shift := -toReal ipos
  [planeF F (addF F 0 shift) (unitF F e1),
   planeF F (addF F (addF F 0 e1) shift) (-unitF F e1),
   planeF F (addF F 0 shift) (unitF F e2),
   planeF F (addF F (addF F 0 e2) shift) (-unitF F e2),
   planeF F (addF F 0 shift) (unitF F e3),
   planeF F (addF F (addF F 0 e3) shift) (-unitF F e3)]

/-- `remap.py:216-241`: the cells added by the loop over tiles. -/
noncomputable def keptCellsF (e1 e2 e3 : V3 ℝ) : List Cell :=
  (tilesF F e1 e2 e3).filterMap fun ipos =>
    match scanFacesF F (tileFacesF F e1 e2 e3 ipos) with
    | none => none
    | some [] => none
    | some (f :: fs) => some ⟨ipos, f :: fs⟩

/-- `remap.py:243-245`: if no cell was added, use the default one. -/
noncomputable def makeCellsF (e1 e2 e3 : V3 ℝ) : List Cell :=
  match keptCellsF F e1 e2 e3 with
  | [] => [⟨0, []⟩]
  | c :: cs => c :: cs

/-- `remap.py:155-250` `Cuboid.__init__`. -/
noncomputable def initF (u1 u2 u3 : V3 ℤ) (boxsize : V3 ℝ) : Except Err Cuboid :=
  if det3 u1 u2 u3 ≠ 1 then .error .valueError
  else
    let (e1, e2, e3) := orthogonalizeF F (toReal u1) (toReal u2) (toReal u3)
    let resize : V3 ℝ := ⟨normF F (emulF F boxsize (unitF F e1)), normF F (emulF F boxsize (unitF F e2)),
      normF F (emulF F boxsize (unitF F e3))⟩
    .ok { e1 := e1, e2 := e2, e3 := e3, n1 := unitF F e1, n2 := unitF F e2, n3 := unitF F e3, boxsize := boxsize,
          cuboidresize := resize, cuboidsize := emulF F resize ⟨normF F e1, normF F e2, normF F e3⟩,
          cells := makeCellsF F e1 e2 e3 }

open Classical in
/-- `remap.py:281-283`, one row and one cell. -/
noncomputable def cellStepF (s : V3 ℝ × Bool) (c : Cell) : V3 ℝ × Bool :=
  if isinF F c s.1 then (addF F s.1 (toReal c.ipos), true) else s

/-- `remap.py:279-283`, one row: loop over the cells. -/
noncomputable def applyCellsF (cells : List Cell) (position : V3 ℝ) : V3 ℝ × Bool :=
  cells.foldl (cellStepF F) (position, false)

/-- `remap.py:276, 286`. -/
noncomputable def projectF (c : Cuboid) (v : V3 ℝ) : V3 ℝ := ⟨dotF F v c.n1, dotF F v c.n2, dotF F v c.n3⟩

/-- `remap.py:252-289` `Cuboid.transform`, all rows. -/
noncomputable def transformF (c : Cuboid) (positions : List (V3 ℝ)) (translationalInvariant : Bool) : Except Err (List (V3 ℝ)) :=
  if translationalInvariant then .ok (positions.map (projectF F c))
  else
    let moved := positions.map fun p => applyCellsF F c.cells (edivF F p c.boxsize)
    if moved.all Prod.snd then .ok (moved.map fun s => emulF F (projectF F c s.1) c.cuboidresize)
    else .error .cuboidError

/-- `remap.py:387`: side lengths of the remapped box. -/
noncomputable def sizesOfF (boxsize : V3 ℝ) (u : V3 ℤ × V3 ℤ × V3 ℤ) : V3 ℝ :=
  let e := orthogonalizeF F (toReal u.1) (toReal u.2.1) (toReal u.2.2)
  ⟨normF F (emulF F e.1 boxsize), normF F (emulF F e.2.1 boxsize), normF F (emulF F e.2.2 boxsize)⟩

open Classical in
/-- `remap.py:324-396` `generate_lattice_vectors`; `coprimes` as in `Remap.generateLatticeVectors`. -/
noncomputable def generateLatticeVectorsF (coprimes : List (List ℤ)) (maxcomb : Option ℕ) (boxsize : V3 ℝ)
    (cuboidranges : List Range) (sort : Bool) : Dict (List ℝ) (List (V3 ℤ × V3 ℤ × V3 ℤ)) :=
  let ranges := fillRanges cuboidranges
  let triplets := coprimes.flatMap permutations3
  let itervector1 := triplets.filter fun e => decide (∀ r ∈ ranges, r.1.has (normF F (emulF F (toReal e) boxsize)))
  let us := itervector1.flatMap fun a => triplets.flatMap fun b => triplets.map fun c => (a, b, c)
  us.foldl (fun d u =>
    if det3 u.1 u.2.1 u.2.2 = 1 then
      let s := sizesOfF F boxsize u
      if ∀ r ∈ ranges, r.2.1.has s.y ∧ r.2.2.has s.z then addEntry maxcomb d (keyOf sort s) u else d
    else d) []

/-- `from_box_to_desi_cutsky.py:25-27`: the lattice vectors tried by the script. -/
noncomputable def scriptLatticeF (coprimes : List (List ℤ)) : Dict (List ℝ) (List (V3 ℤ × V3 ℤ × V3 ℤ)) :=
  generateLatticeVectorsF F coprimes (some 1) (V3.const 5500) [⟨8000, some 10000⟩, ⟨4000, some 5000⟩, ⟨2000, some 4000⟩] false

end Verif.Model.RoundedRemap
