import Verif.Model.Rounded
import Verif.Model.Mask

/-!
# Model of angular masks and random draws with rounding errors

`/repo/mockfactory/make_survey.py:1136, 1648-1702, 1734-1740`: each operation on floats is rounded (`Verif/Basic/Rounding.lean`).
`Verif/Model/Mask.lean` and `Verif/Model/Sampling.lean` have the same functions on exact real numbers. Numbers are in double precision.
-/

namespace Verif.Model.RoundedMask

open Verif Verif.Model Verif.Model.Rounded

open Classical in
/-- `make_survey.py:1648-1657`: the RA range kept by an angular mask. -/
noncomputable def angularRarangeF (r : Range) : Range :=
  let direct : Bool := decide (r.1 < r.2)
  let lo := wrapAngleF binary64 r.1
  let hi := wrapAngleF binary64 r.2
  if direct && decide (hi ≤ lo) then (lo, binary64.rnd (hi + 360)) else (lo, hi)

/-- `make_survey.py:1734-1740` `UniformAngularMask.prob`, one direction (comparisons and `np.clip` are exact). -/
noncomputable def uniformAngularProbF (nbar : ℝ) (rarange decrange : Range) (ra : ℝ) (dec : Option ℝ) : ℝ :=
  if maskRanges (angularRarangeF rarange) decrange (wrapAngleF binary64 ra) dec then clip01 nbar else 0

/-- `rng.uniform(low, high)`, from a draw `u` of [0, 1): `low + (high - low) * u`. (`make_survey.py:1136, 1700`). -/
noncomputable def uniformF (F : Fmt) (low high u : ℝ) : ℝ := F.rnd (low + F.rnd (F.rnd (high - low) * u))

/-- `make_survey.py:1698-1700`: a right ascension drawn by `BaseAngularMask.sample` in the range `r` kept by the mask. -/
noncomputable def drawRa (r : Range) (u : ℝ) : ℝ :=
  npMod binary64 (uniformF binary64 (if r.2 < r.1 then binary64.rnd (r.1 - 360) else r.1) r.2 u) 360

/-- `make_survey.py:1136`: `self.boxsize * rng.uniform(-0.5, 0.5) + self.boxcenter`, one coordinate. -/
noncomputable def randomPositionF (F : Fmt) (size center u : ℝ) : ℝ :=
  F.rnd (F.rnd (size * uniformF F (-1 / 2) (1 / 2) u) + center)

end Verif.Model.RoundedMask
