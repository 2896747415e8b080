import Verif.Model.Cutsky
import Verif.Model.RoundedSky

/-!
# Model of `box_to_cutsky` with rounding errors

`/repo/mockfactory/make_survey.py:279-336`: each operation on floats is rounded (`Verif/Basic/Rounding.lean`). Numbers are in double precision. Overflow is
left out. `Verif/Model/Cutsky.lean` has the same function in exact real numbers.
-/

namespace Verif.Model.RoundedOpenings

open Verif Verif.Model Verif.Model.Rounded Verif.Model.RoundedSky

/-- `np.degrees`: product by the constant `180 / pi`. (`make_survey.py:334`). -/
noncomputable def npDegreesF (x : ℝ) : ℝ := binary64.rnd (x * binary64.rnd (180 / npPi))

variable (lib : Libm) (acos : ℝ → ℝ)

open Classical in
/-- numpy `arcsin`, of the accuracy of the library, `nan` outside [-1, 1]. (`make_survey.py:290-327`). -/
noncomputable def npArcsinF (x : ℝ) : Except Err ℝ := if -1 ≤ x ∧ x ≤ 1 then .ok (lib.asin x) else .error .nan

open Classical in
/-- numpy `arccos`, of the accuracy of the library, `nan` outside [-1, 1]. (`make_survey.py:290-327`). -/
noncomputable def npArccosF (x : ℝ) : Except Err ℝ := if -1 ≤ x ∧ x ≤ 1 then .ok (acos x) else .error .nan

/-- `make_survey.py:294-295, 304-305, 314-315, 324`: half of a side, over the maximum distance. -/
noncomputable def halfOverF (side dmax : ℝ) : ℝ := binary64.rnd (binary64.rnd (side / 2) / dmax)

open Classical in
/-- `make_survey.py:282, 290-327`: minimum distance and half-openings (in radian) along y and z, for a box whose y side is not smaller than its z side. A
`nan` anywhere is an error; `dmax = 0` (division by zero) too. Squares are taken as rounded exact squares. -/
noncomputable def halfOpeningsF (b : V3 ℝ) (dmax dmin : ℝ) : Except Err (ℝ × ℝ × ℝ) := do
  let dx := binary64.rnd (dmax - b.x)
  if dmax = 0 then .error .nan
  else if dx ≤ 0 then
    if halfOverF b.y dmax < 1 then
      .ok (0, ← npArcsinF lib (halfOverF b.y dmax), ← npArcsinF lib (halfOverF b.z dmax))
    else
      let dra ← if binary64.rnd (|dx| / dmax) < 1 then do
          .ok (binary64.rnd ((← npArcsinF lib (binary64.rnd (|dx| / dmax))) + binary64.rnd (npPi / 2)))
        else .ok npPi
      let ddec ← if halfOverF b.z dmax < 1 then npArcsinF lib (halfOverF b.z dmax) else .ok (binary64.rnd (npPi / 2))
      .ok (0, dra, ddec)
  else
    let (dmin, dra) ← if binary64.rnd (Real.sqrt (binary64.rnd (binary64.rnd (dx ^ 2) + binary64.rnd (binary64.rnd (b.y / 2) ^ 2)))) < dmax then do
        let a ← npArcsinF lib (halfOverF b.y dmax)
        .ok (binary64.rnd (dx / lib.cos a), a)
      else if dmin < dx then .error .valueError
      else do .ok (dmin, ← npArccosF acos (binary64.rnd (dx / dmin)))
    let thetaDmax ← npArcsinF lib (halfOverF b.z dmax)
    let thetaDmin ← npArccosF acos (binary64.rnd (dx / dmin))
    .ok (dmin, dra, min thetaDmax thetaDmin)

open Classical in
/-- `make_survey.py:251-336` `box_to_cutsky`, result (drange, rarange, decrange). -/
noncomputable def boxToCutskyF (boxsize : V3 ℝ) (dmax dmin : ℝ) : Except Err (Range × Range × Range) := do
  let flipYz : Bool := decide (boxsize.y < boxsize.z)
  let b : V3 ℝ := if flipYz then ⟨boxsize.x, boxsize.z, boxsize.y⟩ else boxsize
  let (dmin, a0, a1) ← halfOpeningsF lib acos b dmax dmin
  let (dra, ddec) := if flipYz then (a1, a0) else (a0, a1)
  let dra := npDegreesF dra
  let ddec := npDegreesF ddec
  .ok ((dmin, dmax), (-dra, dra), (-ddec, ddec))

end Verif.Model.RoundedOpenings
