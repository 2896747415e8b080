import Verif.Basic.Rounding
import Verif.Model.Cutsky

/-!
# Model of the sub-boxes of `isometry_for_cutsky` with rounding errors

`/repo/mockfactory/make_survey.py:371-376, 949-976`: each operation on floats is rounded (`Verif/Basic/Rounding.lean`). Overflow is left out.
`Verif/Model/Cutsky.lean` has the same functions in exact real numbers.
-/

namespace Verif.Model.RoundedLayout

open Verif Verif.Model

variable (F : Fmt)

/-- `make_survey.py:374-376`: the box size of a survey, from the sines and cosines of half of its widths as given by the C library. -/
noncomputable def surveySizeF (drange : ℝ × ℝ) (cosRa cosDec sinRa sinDec : ℝ) : V3 ℝ :=
  ⟨F.rnd (drange.2 - F.rnd (drange.1 * min cosRa cosDec)), F.rnd (F.rnd (2 * drange.2) * sinRa), F.rnd (F.rnd (2 * drange.2) * sinDec)⟩

/-- `make_survey.py:953`: number of sub-boxes. -/
noncomputable def numberF (B b em im : ℝ) : ℤ := trunc (F.rnd (F.rnd (F.rnd (B - F.rnd (2 * em)) + im) / F.rnd (b + im)))

open Classical in
/-- `make_survey.py:954-958`: margins left free (`None`) are set to the other one, or such that all margins are equal. -/
noncomputable def chooseMarginsF (B b : ℝ) (nboxes : ℤ) (em? im? : Option ℝ) : Except Err (ℝ × ℝ) :=
  match em?, im? with
  | none, none =>
    if F.rnd ((nboxes : ℝ) + 1) = 0 then .error .nan
    else
      let m := F.rnd (F.rnd (B - F.rnd (b * F.rnd nboxes)) / F.rnd (F.rnd nboxes + 1))
      .ok (m, m)
  | none, some i => .ok (i, i)
  | some e, none => .ok (e, e)
  | some e, some i => .ok (e, i)

open Classical in
/-- `make_survey.py:959-966`: negative margins are rejected, positive ones scaled to fill the box. A zero denominator gives an infinite factor (then
`nan` centres), or fails the assertion if the numerator is not positive. -/
noncomputable def rescaleMarginsF (B b : ℝ) (nboxes : ℤ) (em im : ℝ) : Except Err (ℝ × ℝ) :=
  if em < 0 ∨ im < 0 then .error .valueError
  else if 0 < em ∨ 0 < im then
    let num := F.rnd (B - F.rnd (b * F.rnd nboxes))
    let den := F.rnd (F.rnd (im * F.rnd ((nboxes - 1 : ℤ) : ℝ)) + F.rnd (2 * em))
    if den = 0 then (if 0 < num then .error .nan else .error .assertionError)
    else if F.rnd (num / den) < 1 then .error .assertionError
    else .ok (F.rnd (F.rnd (num / den) * em), F.rnd (F.rnd (num / den) * im))
  else .ok (em, im)

/-- `make_survey.py:967-969`: centre of the sub-box `k` along one axis. -/
noncomputable def centreF (B b c em im : ℝ) (k : ℕ) : ℝ :=
  let low := F.rnd (em + F.rnd (F.rnd (b + im) * F.rnd k))
  let high := F.rnd (low + b)
  F.rnd (F.rnd (F.rnd (F.rnd (low + high) / 2) - F.rnd (B / 2)) + c)

open Classical in
/-- `make_survey.py:949-970`, one axis: `B`, `c` the size and centre of the catalog box, `b` the size of a sub-box, `em?`, `im?` the external and
internal margins (`None`: `none`). Returns the centres of the sub-boxes. As in `Verif.Model.axisLayout`, a zero divisor makes `int` raise. -/
noncomputable def axisLayoutF (B b c : ℝ) (em? im? : Option ℝ) : Except Err (List ℝ) :=
  let em := em?.getD 0
  let im := im?.getD 0
  if F.rnd (b + im) = 0 then .error .valueError
  else do
    let nboxes := numberF F B b em im
    let (em, im) ← chooseMarginsF F B b nboxes em? im?
    let (em, im) ← rescaleMarginsF F B b nboxes em im
    .ok ((List.range nboxes.toNat).map fun k : ℕ => centreF F B b c em im k)

/-- `make_survey.py:948-976`: centres of the sub-boxes in a box of size `B` and centre `c`, for `noutput` different from 1. -/
noncomputable def centresF (B c size : V3 ℝ) (external internal : Margin) (noutput : Option ℤ) : Except Err (List (V3 ℝ)) := do
  let em := external.toV3
  let im := internal.toV3
  let xs ← axisLayoutF F B.x size.x c.x em.x im.x
  let ys ← axisLayoutF F B.y size.y c.y em.y im.y
  let zs ← axisLayoutF F B.z size.z c.z em.z im.z
  match noutput with
  | none => .ok (product3 xs ys zs)
  | some n =>
    if ((xs.length * ys.length * zs.length : ℕ) : ℤ) < n then .error .valueError else .ok ((product3 xs ys zs).take n.toNat)

end Verif.Model.RoundedLayout
