import Verif.Basic.Real
import Mathlib.Analysis.SpecialFunctions.Trigonometric.Arctan

/-!
# Model of the truncated Cauchy distribution

`/repo/mockfactory/utils.py:169-236`. The methods `pdf`, `cdf`, `ppf` and `rvs` are those of scipy's `rv_continuous`: they
standardise the argument, check the arguments and the support, and call `_pdf`, `_cdf`, `_ppf`.
-/

namespace Verif.Model.TruncCauchy

open Verif

/-- `stats.cauchy(loc=0, scale=1).cdf`. (`utils.py:224-226`). -/
noncomputable def cauchyCdf (x : ℝ) : ℝ := 1 / 2 + Real.arctan x / Real.pi
/-- `stats.cauchy(loc=0, scale=1).pdf`. (`utils.py:218-219`). -/
noncomputable def cauchyPdf (x : ℝ) : ℝ := 1 / (Real.pi * (1 + x ^ 2))
/-- `stats.cauchy(loc=0, scale=1).ppf` for 0 < q < 1. (`utils.py:230-233`). -/
noncomputable def cauchyPpf (q : ℝ) : ℝ := Real.tan (Real.pi * q - Real.pi / 2)

/-- Arguments of the frozen distribution `trunccauchy(a, b, loc, scale)`. (`utils.py:169-177`). -/
structure Args where
  a : ℝ
  b : ℝ
  loc : ℝ
  scale : ℝ

/-- `utils.py:169-177` `_rescaling_parser`: limits in units of the standard distribution. -/
noncomputable def Args.std (r : Args) : ℝ × ℝ := ((r.a - r.loc) / r.scale, (r.b - r.loc) / r.scale)

/-- `utils.py:216-219` `_pdf`. -/
noncomputable def pdfStd (x a b : ℝ) : ℝ := cauchyPdf x / (cauchyCdf b - cauchyCdf a)
/-- `utils.py:221-226` `_cdf`. -/
noncomputable def cdfStd (x a b : ℝ) : ℝ := (cauchyCdf x - cauchyCdf a) / (cauchyCdf b - cauchyCdf a)
/-- `utils.py:228-233` `_ppf`. -/
noncomputable def ppfStd (q a b : ℝ) : ℝ := cauchyPpf (q * (cauchyCdf b - cauchyCdf a) + cauchyCdf a)

/-- `_argcheck` (`utils.py:210-211`) and scipy's check of the scale. -/
def Args.ok (r : Args) : Prop := r.std.1 < r.std.2 ∧ 0 < r.scale

open Classical in
/-- scipy `rv_continuous.pdf`; `none` is `nan`. (`utils.py:216-219`). -/
noncomputable def pdf (r : Args) (x : ℝ) : Option ℝ :=
  let s := r.std
  let y := (x - r.loc) / r.scale
  if r.ok then some (if s.1 ≤ y ∧ y ≤ s.2 then pdfStd y s.1 s.2 / r.scale else 0) else none

open Classical in
/-- scipy `rv_continuous.cdf`; `none` is `nan`. (`utils.py:221-226`). -/
noncomputable def cdf (r : Args) (x : ℝ) : Option ℝ :=
  let s := r.std
  let y := (x - r.loc) / r.scale
  if r.ok then some (if s.2 ≤ y then 1 else if s.1 < y then cdfStd y s.1 s.2 else 0) else none

open Classical in
/-- scipy `rv_continuous.ppf`; `none` is `nan`. (`utils.py:228-233`). -/
noncomputable def ppf (r : Args) (q : ℝ) : Option ℝ :=
  let s := r.std
  if r.ok then
    (if q = 0 then some (s.1 * r.scale + r.loc)
    else if q = 1 then some (s.2 * r.scale + r.loc)
    else if 0 < q ∧ q < 1 then some (ppfStd q s.1 s.2 * r.scale + r.loc)
    else none)
  else none

open Classical in
/-- scipy `rv_continuous.rvs`: `_ppf` of uniform draws in [0, 1) (through `rv_continuous._rvs`), then location and scale;
invalid arguments raise `ValueError`. (`utils.py:228-233`). -/
noncomputable def rvs (r : Args) (draws : List ℝ) : Except Err (List ℝ) :=
  if r.ok then .ok (draws.map fun q => ppfStd q r.std.1 r.std.2 * r.scale + r.loc) else .error .valueError

end Verif.Model.TruncCauchy
