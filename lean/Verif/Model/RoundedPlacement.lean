import Verif.Model.RoundedIsometry
import Verif.Model.RoundedLayout
import Verif.Model.RoundedSky

/-!
# Model of `cutsky_to_box` with rounding errors

`/repo/mockfactory/make_survey.py:368-382`, and the isometries of `isometry_for_cutsky` (`:943-945`, `:977-979`): each operation on floats is rounded
(`Verif/Basic/Rounding.lean`). Numbers are in double precision. Overflow is left out. `Verif/Model/Cutsky.lean` has the same functions in exact real
numbers.
-/

namespace Verif.Model.RoundedPlacement

open Verif Verif.Model Verif.Model.Rounded Verif.Model.RoundedSky Verif.Model.RoundedIsometry Verif.Model.RoundedLayout

open Classical in
/-- `make_survey.py:368-370`: RA range wrapped to [0, 360], first bound lowered by 360 if it is above the second. -/
noncomputable def pointedRangeF (r : Range) : Range :=
  let lo := wrapAngleF binary64 r.1
  let hi := wrapAngleF binary64 r.2
  if hi < lo then (binary64.rnd (lo - 360), hi) else (lo, hi)

/-- `make_survey.py:371-372`: half of the width of a range, in radians: `abs(r[1] - r[0]) / 2. * np.pi / 180.`. -/
noncomputable def halfWidthF (r : Range) : ℝ :=
  binary64.rnd (binary64.rnd (binary64.rnd (|binary64.rnd (r.2 - r.1)| / 2) * npPi) / 180)

variable (lib : Libm)

/-- `make_survey.py:371-376`: the box size. -/
noncomputable def cutskyBoxsizeF (drange rarange decrange : Range) : V3 ℝ :=
  let deltara := halfWidthF (pointedRangeF rarange)
  let deltadec := halfWidthF decrange
  surveySizeF binary64 drange (lib.cos deltara) (lib.cos deltadec) (lib.sin deltara) (lib.sin deltadec)

/-- `make_survey.py:156-158`: matrix of the rotation by `angle`, in degrees. -/
noncomputable def turnF (axis : V3 ℝ) (angle : ℝ) : M3 ℝ :=
  rotationCallF binary64 axis angle true (lib.cos (angleF binary64 angle)) (lib.sin (angleF binary64 angle))

/-- `make_survey.py:378-381`: the calls to the isometry. -/
noncomputable def cutskyOpsF (drange rarange decrange : Range) : List OpF :=
  let boxsize := cutskyBoxsizeF lib drange rarange decrange
  let r := pointedRangeF rarange
  [.translationOrigin ⟨binary64.rnd (drange.2 - binary64.rnd (boxsize.x / 2)), 0, 0⟩,
    .dotOrigin (turnF lib ⟨0, 1, 0⟩ (binary64.rnd (-binary64.rnd (decrange.1 + decrange.2) / 2))),
    .dotOrigin (turnF lib ⟨0, 0, 1⟩ (binary64.rnd (binary64.rnd (r.1 + r.2) / 2)))]

/-- `make_survey.py:943-945`, `:977-979`: the isometry of a box, or sub-box, of centre `center`. -/
def PlacedF (drange rarange decrange : Range) (center : V3 ℝ) (s : Isom) : Prop :=
  ∃ a b, RunF binary64 Isom.init [.translationOrigin (-center)] a ∧ RunF binary64 Isom.init (cutskyOpsF lib drange rarange decrange) b ∧
    ConcatF binary64 a b s

end Verif.Model.RoundedPlacement
