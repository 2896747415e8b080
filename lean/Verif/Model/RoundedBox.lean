import Verif.Basic.Rounding
import Verif.Model.Box

/-!
# Model of `BoxCatalog.subbox` with rounding errors

`/repo/mockfactory/make_survey.py:811-850`: each operation on floats is rounded (`Verif/Basic/Rounding.lean`). `Verif/Model/Box.lean` has
the same function in exact real numbers.
-/

namespace Verif.Model.RoundedBox

open Verif Verif.Model

variable (F : Fmt) {ρ : Type}

/-- `self.boxcenter - self.boxsize / 2.` along one axis (`make_survey.py:837-838`). -/
noncomputable def lowerF (size center : ℝ) : ℝ := F.rnd (center - F.rnd (size / 2))

/-- `self.boxcenter + self.boxsize / 2.` along one axis (`make_survey.py:838`). -/
noncomputable def upperF (size center : ℝ) : ℝ := F.rnd (center + F.rnd (size / 2))

/-- `self.boxsize[ii] * bb + offset[ii]`, or `bb` itself (`make_survey.py:835-842`). -/
noncomputable def edgeF (size center : ℝ) (boxsizeUnit : Bool) (bb : ℝ) : ℝ :=
  if boxsizeUnit then F.rnd (F.rnd (size * bb) + lowerF F size center) else bb

/-- `max(current_box[0][ii], brange[0])` and `min(current_box[1][ii], brange[1])` (`make_survey.py:843-844`). -/
noncomputable def newEdges (size center : ℝ) (boxsizeUnit : Bool) (r : ℝ × ℝ) : ℝ × ℝ :=
  (max (lowerF F size center) (edgeF F size center boxsizeUnit r.1), min (upperF F size center) (edgeF F size center boxsizeUnit r.2))

/-- `new.boxsize` along one axis (`make_survey.py:847`). -/
noncomputable def newSize (box : ℝ × ℝ) : ℝ := F.rnd (box.2 - box.1)

/-- `new.boxcenter` along one axis (`make_survey.py:848`). -/
noncomputable def newCenter (box : ℝ × ℝ) : ℝ := F.rnd (F.rnd (box.2 + box.1) / 2)

open Classical in
/-- `make_survey.py:811-850` `subbox`. -/
noncomputable def subboxF (b : Box ρ) (ranges : Box.Ranges) (boxsizeUnit : Bool) : Except Err (Box ρ) :=
  let ranges := match ranges with
    | .one lo hi => [(lo, hi), (lo, hi), (lo, hi)]
    | .many l => l
  match ranges with
  | [r0, r1, r2] =>
    let x := newEdges F b.boxsize.x b.boxcenter.x boxsizeUnit r0
    let y := newEdges F b.boxsize.y b.boxcenter.y boxsizeUnit r1
    let z := newEdges F b.boxsize.z b.boxcenter.z boxsizeUnit r2
    let keep (size center : ℝ) (r : ℝ × ℝ) (p : ℝ) : Prop :=
      edgeF F size center boxsizeUnit r.1 ≤ p ∧ p < edgeF F size center boxsizeUnit r.2
    .ok { boxsize := ⟨newSize F x, newSize F y, newSize F z⟩
          boxcenter := ⟨newCenter F x, newCenter F y, newCenter F z⟩
          rows := b.rows.filter fun r => decide (keep b.boxsize.x b.boxcenter.x r0 r.pos.x ∧ keep b.boxsize.y b.boxcenter.y r1 r.pos.y ∧
            keep b.boxsize.z b.boxcenter.z r2 r.pos.z) }
  | _ => .error .valueError

end Verif.Model.RoundedBox
