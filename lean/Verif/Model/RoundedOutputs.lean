import Verif.Model.RoundedCutsky
import Verif.Model.RoundedPlacement

/-!
# Model of the catalogs of `cutsky` with several outputs, with rounding errors

`/repo/mockfactory/make_survey.py:948-981` and `:1011-1034`. Numbers are in double precision. Overflow is left out.
-/

namespace Verif.Model.RoundedOutputs

open Verif Verif.Model Verif.Model.Rounded Verif.Model.RoundedSky Verif.Model.RoundedIsometry Verif.Model.RoundedLayout Verif.Model.RoundedPlacement
open Verif.Model.RoundedCutsky

variable (lib : Libm)

/-- `make_survey.py:1015-1034`: one output, for the sub-box of centre `center`: all rows of the catalog are moved by the isometry of `:977-979`, and cut by
the two masks. `ρ`: the other columns. -/
def OutputF {ρ : Type} (drange rarange decrange : Range) (rows : List (V3 ℝ × ρ)) (center : V3 ℝ) (draws : List (ℝ × ℝ)) (out : List (Sky × V3 ℝ × ρ)) : Prop :=
  ∃ s moved, PlacedF lib drange rarange decrange center s ∧
    List.Forall₂ (fun r m => TransformF binary64 s r.1 false m.1 ∧ m.2 = r.2) rows moved ∧
    out = cutskyRowsF lib true true drange rarange decrange draws moved

/-- `make_survey.py:1085-1089`, `:1011-1013`: the list of outputs, one for each of the centres of `:948-976`, in a box of size `boxsize` and centre
`boxcenter`; `draws`: those of each output. -/
def OutputsF {ρ : Type} (drange rarange decrange : Range) (boxsize boxcenter : V3 ℝ) (external internal : Margin) (noutput : Option ℤ)
    (rows : List (V3 ℝ × ρ)) (centers : List (V3 ℝ)) (draws : List (List (ℝ × ℝ))) (outs : List (List (Sky × V3 ℝ × ρ))) : Prop :=
  centresF binary64 boxsize boxcenter (cutskyBoxsizeF lib drange rarange decrange) external internal noutput = .ok centers ∧
    draws.length = centers.length ∧
    List.Forall₂ (fun p out => OutputF lib drange rarange decrange rows p.1 p.2 out) (centers.zip draws) outs

end Verif.Model.RoundedOutputs
