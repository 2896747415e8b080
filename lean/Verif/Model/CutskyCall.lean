import Verif.Model.Cutsky
import Verif.Model.Mask

/-!
# `BoxCatalog.cutsky` (`mockfactory/make_survey.py`)
-/

namespace Verif.Model
open Verif

/-- Output of `cutsky`: one catalog, or a list of catalogs (`make_survey.py:1013-1015`, `:1082-1089`). -/
inductive Catalogs (ρ : Type) where
  | one (rows : List (SkyRow ρ))
  | many (l : List (List (SkyRow ρ)))

/-- `UniformRadialMask(zrange=drange)`, dropped if not wanted (`make_survey.py:936`, `:1087`); `nbar` is 1 by default
(`:1360`). `u`: draws of the call. -/
noncomputable def ownRadial (drange : Range) (wanted : Bool) (u : List ℝ) : Option RadialArg :=
  if wanted then some ⟨uniformRadialProb 1 (some drange), u⟩ else none

/-- `UniformAngularMask(rarange=rarange, decrange=decrange)`, dropped if not wanted (`make_survey.py:937`, `:1088`). -/
noncomputable def ownAngular (rarange decrange : Range) (wanted : Bool) (v : List ℝ) : Option AngularArg :=
  if wanted then some ⟨uniformAngularProb 1 (some rarange) (some decrange), v⟩ else none

/-- `make_survey.py:1037-1089` `cutsky`. `draws k`: draws of the radial and angular masks for the output number `k`. -/
noncomputable def cutsky {ρ : Type} (b : Box ρ) (drange rarange decrange : Range) (external internal : Margin)
    (noutput : Option ℤ) (radial angular : Bool) (rdd : Rdd) (draws : ℕ → List ℝ × List ℝ) : Except Err (Catalogs ρ) := do
  match ← isometryForCutsky b drange rarange decrange external internal noutput with
  | .one iso =>
    .ok (.one (cutskyFromIsometry b iso (ownRadial drange radial (draws 0).1) (ownAngular rarange decrange angular (draws 0).2) rdd))
  | .many isos =>
    .ok (.many (cutskyFromIsometries b (isos.mapIdx fun k iso =>
      (iso, ownRadial drange radial (draws k).1, ownAngular rarange decrange angular (draws k).2)) rdd))

end Verif.Model
