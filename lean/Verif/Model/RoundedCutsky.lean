import Verif.Model.RoundedMask
import Verif.Model.RoundedSky
import Verif.Model.Mask

/-!
# Model of the selection of a cut-sky catalog with rounding errors

`/repo/mockfactory/make_survey.py:1017-1034`, with the masks of `cutsky` (`:936-937`, `:1087-1088`): each operation on floats is rounded
(`Verif/Basic/Rounding.lean`). Overflow is left out. `Verif/Model/CutskyCall.lean` has the same functions in exact real numbers.
-/

namespace Verif.Model.RoundedCutsky

open Verif Verif.Model Verif.Model.Rounded Verif.Model.RoundedMask Verif.Model.RoundedSky

variable (lib : Libm)

/-- `make_survey.py:1021`: distance, RA and Dec of one row, at `y` once moved by the isometry. -/
noncomputable def skyF (y : V3 ℝ) : Sky := cartesianToSkyF binary64 lib.atan2 lib.asin y

open Classical in
/-- `make_survey.py:1026-1033`, one row: is it kept by the masks of `cutsky`, for the draws `u` and `v` of the radial and angular masks (`:1241-1243`:
`prob >= rng.uniform()`)? Comparisons are exact. -/
noncomputable def selectedF (radial angular : Bool) (drange rarange decrange : Range) (u v : ℝ) (y : V3 ℝ) : Bool :=
  (!radial || decide (u ≤ uniformRadialProb 1 (some drange) (skyF lib y).dist)) &&
    (!angular || decide (v ≤ uniformAngularProbF 1 rarange decrange (skyF lib y).ra (skyF lib y).dec))

/-- `make_survey.py:1021-1034`: rows that are kept, with their sky coordinates; `ρ`: the other columns. `draws`: those of the radial and angular masks. -/
noncomputable def cutskyRowsF {ρ : Type} (radial angular : Bool) (drange rarange decrange : Range) (draws : List (ℝ × ℝ)) (rows : List (V3 ℝ × ρ)) :
    List (Sky × V3 ℝ × ρ) :=
  ((rows.zip draws).filter fun p => selectedF lib radial angular drange rarange decrange p.2.1 p.2.2 p.1.1).map fun p => (skyF lib p.1.1, p.1)

end Verif.Model.RoundedCutsky
