import Verif.Model.Mask
import Verif.Model.RadialSpline

/-!
# Model of `/repo/desi/from_box_to_desi_cutsky.py`, radial selection

`apply_radial_mask` and `generate_redshifts`. The table is the content of the file, one row per line after the header; a table
with another number of columns than three raises on unpacking and is left out. Random draws are arbitrary. The splines are
those of `Verif/Model/RadialSpline.lean`: the functions are relations, without result when the search of the maximum does not end.
-/

namespace Verif.Model.Script
open Verif Verif.Model

/-- A row of the n(z) file: lower and upper redshifts, number of objects.
(`from_box_to_desi_cutsky.py:136, 189`). -/
abbrev NzRow := ℝ × ℝ × ℝ

open Classical in
/-- `from_box_to_desi_cutsky.py:135-142`, `:188-195`: the nodes passed to `TabulatedRadialMask`. An empty file gives an empty
array, which cannot be unpacked; one line gives numbers, which cannot be indexed; a null volume gives infinite or undefined
densities, written `nan`. -/
noncomputable def nzNodes (distance : ℝ → ℝ) (table : List NzRow) : Except Err (List (ℝ × ℝ)) :=
  match table with
  | [] => .error .valueError
  | [_] => .error .indexError
  | row :: _ =>
    let zedges := row.1 :: table.map fun r => r.2.1
    let volume := TabMask.shells (zedges.map distance)
    if 0 ∈ volume then .error .nan
    else .ok (List.zipWith (fun r v => ((r.1 + r.2.1) / 2, r.2.2 / v)) table volume)

/-- `from_box_to_desi_cutsky.py:135-142`: the radial mask, with `interp_order=2`. -/
def NzMask (S : Spline) (distance : ℝ → ℝ) (table : List NzRow) (zmin zmax : ℝ) (result : Except Err SplineMask) : Prop :=
  match nzNodes distance table with
  | .error e => result = .error e
  | .ok nodes => SplineMask.Init S 2 nodes (some (zmin, zmax)) none result

/-- `from_box_to_desi_cutsky.py:95-149` `apply_radial_mask`, rows of all ranks in order, first component: column 'Z'. `smear`:
`TracerRedshiftSmearing(...).sample` if smearing is requested. `after`: the catalog of the caller at the end. -/
def ApplyRadialMask {ρ : Type} (S : Spline) (distance : ℝ → ℝ) (table : List NzRow) (zmin zmax : ℝ)
    (smear : Option (List ℝ → Except Err (List ℝ))) (draws : List ℝ) (cutsky : List (ℝ × ρ))
    (result : Except Err (List (ℝ × ρ))) (after : List (ℝ × ρ)) : Prop :=
  ∃ mask, NzMask S distance table zmin zmax mask ∧
    match mask with
    | .error e => result = .error e ∧ after = cutsky
    | .ok t =>
      match smear with
      | none => result = .ok (pick cutsky (maskCall (cutsky.map fun r => t.prob S r.1) draws)) ∧ after = cutsky
      | some f =>
        match f (cutsky.map fun r => r.1) with
        | .error e => result = .error e ∧ after = cutsky
        | .ok dz =>
          let smeared := List.zipWith (fun r d => (r.1 + d, r.2)) cutsky dz
          result = .ok (pick smeared (maskCall (smeared.map fun r => t.prob S r.1) draws)) ∧ after = smeared

open Classical in
/-- `from_box_to_desi_cutsky.py:152-198` `generate_redshifts`, result of each rank: `sizes` are the sizes of the ranks, `u` the
seeded draws in [0, 1), `hidden` the draws of the selection, `n` the number of rounds; `redshift` is the interpolated inverse
of the distance (`make_survey.py:1336`), taken not to raise. -/
def GenerateRedshifts (S : Spline) (distance redshift : ℝ → ℝ) (table : List NzRow) (zmin zmax : ℝ) (sizes : List ℕ)
    (u hidden : ℕ → ℕ → ℝ) (result : Except Err (List (List ℝ))) : Prop :=
  ∃ mask, NzMask S distance table zmin zmax mask ∧
    match mask with
    | .error e => result = .error e
    | .ok t =>
      let cand := fun i j => redshift (radialCandidate (distance t.zrange.1) (distance t.zrange.2) (u i j))
      let acc := fun i j => decide (hidden i j ≤ t.prob S (cand i j))
      ∃ n, StopsAfter cand acc sizes n ∧ result = sampleResult cand acc sizes n

end Verif.Model.Script
