import Verif.Model.RoundedIsometry
import Verif.Model.Box

/-!
# Model of the in-place moves of `BoxCatalog` with rounding errors

`/repo/mockfactory/make_survey.py:706-748`: each operation on floats is rounded (`Verif/Basic/Rounding.lean`), for calls that do not raise.
`Verif/Model/Box.lean` has the same functions in exact real numbers.
-/

namespace Verif.Model.RoundedMoves

open Verif Verif.Model Verif.Model.RoundedIsometry

variable (F : Fmt) {ρ : Type}

/-- Loop over the vector columns, one row (`make_survey.py:722-723, 747-748`). -/
structure RowF (op : Isom) (r r' : Row ρ) : Prop where
  pos : TransformF F op r.pos false r'.pos
  vel : TransformF F op r.vel true r'.vel
  vecs : List.Forall₂ (fun v w => TransformF F op v false w) r.vecs r'.vecs
  tis : List.Forall₂ (fun v w => TransformF F op v true w) r.tis r'.tis
  rest : r'.rest = r.rest

/-- `angle = angle_over_halfpi * np.pi / 2.` (`make_survey.py:742`). -/
noncomputable def quarterF (k : ℤ) : ℝ := F.rnd (F.rnd (F.rnd k * F.rnd Real.pi) / 2)

/-- One call, with the functions `cs` and `sn` of the C library for `np.cos` and `np.sin`. (`make_survey.py:706-748`). -/
inductive MoveF (cs sn : ℝ → ℝ) : Box ρ → Box.Move → Box ρ → Prop
  | translate {b : Box ρ} {s : Isom.Shift} {a : Isom.TAxis} {v c' : V3 ℝ} {op : Isom} {rows' : List (Row ρ)} :
      Isom.shiftVector s a = .ok v → StepF F Isom.init (.translationOrigin v) op → TransformF F op b.boxcenter false c' →
      List.Forall₂ (RowF F op) b.rows rows' → MoveF cs sn b (.translate s a) ⟨b.boxsize, c', rows'⟩
  | recenter {b b' : Box ρ} : MoveF cs sn b (.translate (.vec (-b.boxcenter)) .none) b' → MoveF cs sn b .recenter b'
  | rotate {b : Box ρ} {k : ℤ} {a : Axis} {v c' s' : V3 ℝ} {op : Isom} {rows' : List (Row ρ)} : AxisArray a v →
      StepF F Isom.init (.dotOrigin (rotationCallF F v (quarterF F k) false (cs (angleF F (degreesF F (quarterF F k))))
        (sn (angleF F (degreesF F (quarterF F k)))))) op →
      TransformF F op b.boxcenter false c' → TransformF F op b.boxsize true s' → List.Forall₂ (RowF F op) b.rows rows' →
      MoveF cs sn b (.rotate k a) ⟨s'.map abs, c', rows'⟩

/-- A history of calls, with the catalog after each of them. (`make_survey.py:706-748`). -/
inductive HistF (cs sn : ℝ → ℝ) : Box ρ → List (Box.Move × Box ρ) → Prop
  | nil {b : Box ρ} : HistF cs sn b []
  | cons {b b' : Box ρ} {op : Box.Move} {l : List (Box.Move × Box ρ)} : MoveF F cs sn b op b' → HistF cs sn b' l → HistF cs sn b ((op, b') :: l)

end Verif.Model.RoundedMoves
