import Verif.Model.Sky
import Verif.Model.Box

/-!
# Model of the conversions between boxes and sky ranges

`/repo/mockfactory/make_survey.py:251-383` (`box_to_cutsky`, `cutsky_to_box`) and `:889-982` (`isometry_for_cutsky`).
-/

namespace Verif.Model

open Verif

/-- A range (min, max). (`make_survey.py:251, 339`). -/
abbrev Range := ℝ × ℝ

open Classical in
/-- numpy `arcsin`, `nan` outside [-1, 1]. (`make_survey.py:290-327`). -/
noncomputable def npArcsin (x : ℝ) : Except Err ℝ := if -1 ≤ x ∧ x ≤ 1 then .ok (Real.arcsin x) else .error .nan

open Classical in
/-- numpy `arccos`, `nan` outside [-1, 1]. (`make_survey.py:290-327`). -/
noncomputable def npArccos (x : ℝ) : Except Err ℝ := if -1 ≤ x ∧ x ≤ 1 then .ok (Real.arccos x) else .error .nan

open Classical in
/-- `make_survey.py:290-327`: minimum distance and half-openings (in radian) along y and z, for a box whose y side is not
smaller than its z side. A `nan` anywhere is an error; `dmax = 0` (division by zero) too. -/
noncomputable def halfOpenings (b : V3 ℝ) (dmax dmin : ℝ) : Except Err (ℝ × ℝ × ℝ) := do
  let dx := dmax - b.x
  if dmax = 0 then .error .nan
  else if dx ≤ 0 then
    if b.y / 2 / dmax < 1 then
      .ok (0, ← npArcsin (b.y / 2 / dmax), ← npArcsin (b.z / 2 / dmax))
    else
      let dra ← if |dx| / dmax < 1 then do .ok ((← npArcsin (|dx| / dmax)) + Real.pi / 2) else .ok Real.pi
      let ddec ← if b.z / 2 / dmax < 1 then npArcsin (b.z / 2 / dmax) else .ok (Real.pi / 2)
      .ok (0, dra, ddec)
  else
    let (dmin, dra) ← if Real.sqrt (dx ^ 2 + (b.y / 2) ^ 2) < dmax then do
        let a ← npArcsin (b.y / 2 / dmax)
        .ok (dx / Real.cos a, a)
      else if dmin < dx then .error .valueError
      else do .ok (dmin, ← npArccos (dx / dmin))
    let thetaDmax ← npArcsin (b.z / 2 / dmax)
    let thetaDmin ← npArccos (dx / dmin)
    .ok (dmin, dra, min thetaDmax thetaDmin)

open Classical in
/-- `make_survey.py:251-336` `box_to_cutsky`, result (drange, rarange, decrange). -/
noncomputable def boxToCutsky (boxsize : V3 ℝ) (dmax dmin : ℝ) : Except Err (Range × Range × Range) := do
  let flipYz : Bool := decide (boxsize.y < boxsize.z)
  let b : V3 ℝ := if flipYz then ⟨boxsize.x, boxsize.z, boxsize.y⟩ else boxsize
  let (dmin, a0, a1) ← halfOpenings b dmax dmin
  let (dra, ddec) := if flipYz then (a1, a0) else (a0, a1)
  let dra := rad2deg dra
  let ddec := rad2deg ddec
  .ok ((dmin, dmax), (-dra, dra), (-ddec, ddec))

open Classical in
/-- `make_survey.py:368-370`: RA range wrapped to [0, 360), first bound lowered by 360 if it is above the second. -/
noncomputable def pointedRange (rarange : Range) : Range :=
  let lo := wrapAngle rarange.1
  let hi := wrapAngle rarange.2
  if hi < lo then (lo - 360, hi) else (lo, hi)

/-- `make_survey.py:371-376`: the box size. -/
noncomputable def cutskyBoxsize (drange rarange decrange : Range) : V3 ℝ :=
  let rarange := pointedRange rarange
  let deltara := |rarange.2 - rarange.1| / 2 * Real.pi / 180
  let deltadec := |decrange.2 - decrange.1| / 2 * Real.pi / 180
  ⟨drange.2 - drange.1 * min (Real.cos deltara) (Real.cos deltadec),
    2 * drange.2 * Real.sin deltara, 2 * drange.2 * Real.sin deltadec⟩

/-- `make_survey.py:377-382`: the isometry. -/
noncomputable def cutskyIsometry (drange rarange decrange : Range) : Isom :=
  let boxsize := cutskyBoxsize drange rarange decrange
  let rarange := pointedRange rarange
  let iso := (Isom.init.translation (.scalar (drange.2 - boxsize.x / 2)) (.str "x") .origin).1
  let iso := (iso.rotation (-(decrange.1 + decrange.2) / 2) (.str "y") true .origin).1
  (iso.rotation ((rarange.1 + rarange.2) / 2) (.str "z") true .origin).1

/-- `make_survey.py:339-383` `cutsky_to_box(..., return_isometry=True)`. -/
noncomputable def cutskyToBox (drange rarange decrange : Range) : V3 ℝ × Isom :=
  (cutskyBoxsize drange rarange decrange, cutskyIsometry drange rarange decrange)

/-- python `int(x)`: truncation towards zero. (`make_survey.py:957-966`). -/
noncomputable def trunc (x : ℝ) : ℤ := if 0 ≤ x then ⌊x⌋ else ⌈x⌉

open Classical in
/-- `make_survey.py:951-956`: margins left free (`None`) are set to the other one, or such that all margins are equal. -/
noncomputable def chooseMargins (B b : ℝ) (nboxes : ℤ) (em? im? : Option ℝ) : Except Err (ℝ × ℝ) :=
  match em?, im? with
  | none, none =>
    if (nboxes : ℝ) + 1 = 0 then .error .nan
    else .ok ((B - b * nboxes) / (nboxes + 1), (B - b * nboxes) / (nboxes + 1))
  | none, some i => .ok (i, i)
  | some e, none => .ok (e, e)
  | some e, some i => .ok (e, i)

open Classical in
/-- `make_survey.py:957-966`: negative margins are rejected, positive ones scaled to fill the box. A zero denominator gives
an infinite factor (then `nan` centres), or fails the assertion if the numerator is not positive. -/
noncomputable def rescaleMargins (B b : ℝ) (nboxes : ℤ) (em im : ℝ) : Except Err (ℝ × ℝ) :=
  if em < 0 ∨ im < 0 then .error .valueError
  else if 0 < em ∨ 0 < im then
    let num := B - b * nboxes
    let den := im * (nboxes - 1) + 2 * em
    if den = 0 then (if 0 < num then .error .nan else .error .assertionError)
    else if num / den < 1 then .error .assertionError
    else .ok (num / den * em, num / den * im)
  else .ok (em, im)

open Classical in
/-- `make_survey.py:949-970`, one axis: `B`, `c` the size and centre of the catalog box, `b` the size of a sub-box,
`em`, `im` the external and internal margins (`None`: `none`). Returns the centres of the sub-boxes. `b + im = 0` makes
`int` raise on an infinite or undefined value (`ValueError` or `OverflowError`, both written `valueError`). -/
noncomputable def axisLayout (B b c : ℝ) (em? im? : Option ℝ) : Except Err (List ℝ) :=
  let em := em?.getD 0
  let im := im?.getD 0
  if b + im = 0 then .error .valueError
  else do
    let nboxes := trunc ((B - 2 * em + im) / (b + im))
    let (em, im) ← chooseMargins B b nboxes em? im?
    let (em, im) ← rescaleMargins B b nboxes em im
    .ok ((List.range nboxes.toNat).map fun k : ℕ =>
      let low := em + (b + im) * k
      let high := low + b
      (low + high) / 2 - B / 2 + c)

/-- A margin argument: one value for all axes, or one per axis (`make_survey.py:931-934`). -/
inductive Margin where
  | all (m : Option ℝ)
  | each (x y z : Option ℝ)

/-- `make_survey.py:931-934`. -/
def Margin.toV3 : Margin → V3 (Option ℝ)
  | .all m => ⟨m, m, m⟩
  | .each x y z => ⟨x, y, z⟩

/-- Result of `isometry_for_cutsky` (masks left out, see `Verif/Model/Mask.lean`).
(`make_survey.py:889-982`). -/
inductive Isometries where
  | one (iso : Isom)
  | many (l : List Isom)

/-- `isometry = EuclideanIsometry(); isometry.translation(-center); isometry += origin_isometry`
(`make_survey.py:943-945`, `:977-979`). -/
noncomputable def shiftedIsometry (center : V3 ℝ) (origin : Isom) : Isom :=
  Isom.extend (Isom.init.translation (.vec (-center)) .none .origin).1 origin

/-- `itertools.product(*centers)` (`make_survey.py:975`). -/
def product3 (xs ys zs : List ℝ) : List (V3 ℝ) := xs.flatMap fun x => ys.flatMap fun y => zs.map fun z => ⟨x, y, z⟩

/-- `make_survey.py:889-982` `isometry_for_cutsky`. -/
noncomputable def isometryForCutsky {ρ : Type} (b : Box ρ) (drange rarange decrange : Range)
    (external internal : Margin) (noutput : Option ℤ) : Except Err Isometries := do
  let (size, origin) := cutskyToBox drange rarange decrange
  if noutput = some 1 then .ok (.one (shiftedIsometry b.boxcenter origin))
  else
    let em := external.toV3
    let im := internal.toV3
    let xs ← axisLayout b.boxsize.x size.x b.boxcenter.x em.x im.x
    let ys ← axisLayout b.boxsize.y size.y b.boxcenter.y em.y im.y
    let zs ← axisLayout b.boxsize.z size.z b.boxcenter.z em.z im.z
    let nmax := xs.length * ys.length * zs.length
    match noutput with
    | none => .ok (.many ((product3 xs ys zs).map fun c => shiftedIsometry c origin))
    | some n =>
      if (nmax : ℤ) < n then .error .valueError
      else .ok (.many (((product3 xs ys zs).take n.toNat).map fun c => shiftedIsometry c origin))

end Verif.Model
