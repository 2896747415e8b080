import Verif.Model.Rounded
import Verif.Model.Blinding

/-!
# Model of blinded positions with rounding errors

`/repo/mockfactory/blinding/catalog.py:321-458`: each operation on floats is rounded (`Verif/Basic/Rounding.lean`), on one process, for Cartesian
positions, or sky coordinates in `shuffle`. Values of cosmological functions are arguments. `Verif/Model/Blinding.lean` has the same functions in
exact real numbers, with types of positions and ranks.
-/

namespace Verif.Model.RoundedBlinding

open Verif Verif.Model Verif.Model.Rounded Verif.Model.Blinding

variable (F : Fmt)

open Classical in
/-- `catalog.py:343, 350`: `positions * blind_dist[..., None] / dist[..., None]`, one row; 0 / 0 at the origin. -/
noncomputable def apRowF (blindDist : ℝ) (p : V3 ℝ) : Except Err (V3 ℝ) :=
  let dist := distanceF F p
  if dist = 0 then .error .nan
  else .ok ⟨F.rnd (F.rnd (p.x * blindDist) / dist), F.rnd (F.rnd (p.y * blindDist) / dist), F.rnd (F.rnd (p.z * blindDist) / dist)⟩

open Classical in
/-- `catalog.py:381-383`, for a fiducial growth rate that is not 0. -/
noncomputable def fractionF (fblind ffid : ℝ) : Except Err ℝ :=
  let frac := F.rnd (F.rnd (fblind / ffid) ^ 2)
  if 1 < frac then .error .valueError else .ok frac

/-- Third coordinate, or distance, of a row (`catalog.py:386-389`). -/
noncomputable def radialF (isrdd : Bool) (p : V3 ℝ) : ℝ := if isrdd then p.z else distanceF F p

open Classical in
/-- `catalog.py:397-400`: a row with another third coordinate, or distance; 0 / 0 at the origin. -/
noncomputable def setRadialF (isrdd : Bool) (p : V3 ℝ) (d : ℝ) : Except Err (V3 ℝ) :=
  if isrdd then .ok ⟨p.x, p.y, d⟩
  else if distanceF F p = 0 then .error .nan
  else
    let ratio := F.rnd (d / distanceF F p)
    .ok ⟨F.rnd (p.x * ratio), F.rnd (p.y * ratio), F.rnd (p.z * ratio)⟩

/-- `catalog.py:384-400`: draws `u`, one per row, and the result `shuf` of `rng.shuffle`. -/
noncomputable def shuffleF (isrdd : Bool) (frac : ℝ) (u : List ℝ) (shuf : List ℝ → List ℝ) (rows : List (V3 ℝ)) : Except Err (List (V3 ℝ)) := do
  let mask := shuffleMask frac u
  let moved ← ((masked mask rows).zip (shuf ((masked mask rows).map (radialF F isrdd)))).mapM fun pd => setRadialF F isrdd pd.1 pd.2
  .ok (assignMasked mask rows moved)

/-- `catalog.py:457`: `data_positions + (f_blind / recon.f - 1.) * shifts`, one coordinate. -/
noncomputable def rsdF (fblind f x shift : ℝ) : ℝ := F.rnd (x + F.rnd (F.rnd (F.rnd (fblind / f) - 1) * shift))

end Verif.Model.RoundedBlinding
