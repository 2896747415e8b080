import Verif.Model.Rounded

/-!
# Model of sky coordinates to Cartesian coordinates with rounding errors

`/repo/mockfactory/utils.py:73-110`, for arrays of floats: each operation is rounded (`Verif/Basic/Rounding.lean`). Overflow is left out.
-/

namespace Verif.Model.RoundedSky

open Verif Verif.Model Verif.Model.Rounded

/-- Functions of the C library, of any accuracy. (`utils.py:66, 68, 105-108`). -/
structure Libm where
  cos : ℝ → ℝ
  sin : ℝ → ℝ
  asin : ℝ → ℝ
  atan2 : ℝ → ℝ → ℝ

variable (F : Fmt) (lib : Libm)

/-- `utils.py:73-110` `sky_to_cartesian`, one row, `dtype=None`, arguments of the same type. -/
noncomputable def skyToCartesianF (dist ra dec : ℝ) (degree : Bool := true) : V3 ℝ :=
  let conv := convF F degree
  let cosDec := lib.cos (F.rnd (dec * conv))
  ⟨F.rnd (dist * F.rnd (cosDec * lib.cos (F.rnd (ra * conv)))),
    F.rnd (dist * F.rnd (cosDec * lib.sin (F.rnd (ra * conv)))),
    F.rnd (dist * lib.sin (F.rnd (dec * conv)))⟩

/-- `cartesian_to_sky` then `sky_to_cartesian` of its three results, one row; `none` if a result is `nan`. (`utils.py:42-110`). -/
noncomputable def thereAndBack (v : V3 ℝ) (degree : Bool := true) : Option (V3 ℝ) :=
  let s := cartesianToSkyF F lib.atan2 lib.asin v degree
  s.dec.map fun dec => skyToCartesianF F lib s.dist s.ra dec degree

end Verif.Model.RoundedSky
