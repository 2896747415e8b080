import Verif.Spec.Rigid
import Verif.Model.Isometry
import Mathlib.Analysis.SpecialFunctions.Trigonometric.Basic

/-!
# Specification of axes, shifts and rotations by an angle

Only the argument types of the API (`Axis`, `Shift`, `TAxis`) are taken from the model.
-/

namespace Verif.Spec
open Verif Verif.Model

/-- Unit vector designated by an `axis` argument, as documented: 'x', 'y', 'z', 0, 1, 2 or a (non-zero) 3-vector. -/
inductive AxisMeans : Axis → V3 ℝ → Prop
  | x : AxisMeans (.str "x") ⟨1, 0, 0⟩
  | y : AxisMeans (.str "y") ⟨0, 1, 0⟩
  | z : AxisMeans (.str "z") ⟨0, 0, 1⟩
  | i0 : AxisMeans (.idx 0) ⟨1, 0, 0⟩
  | i1 : AxisMeans (.idx 1) ⟨0, 1, 0⟩
  | i2 : AxisMeans (.idx 2) ⟨0, 0, 1⟩
  | vec (v : V3 ℝ) (l : ℝ) (hl : 0 < l) (n : V3 ℝ) (hn : V3.dot n n = 1) (hv : v = l • n) : AxisMeans (.vec v) n

/-- Vector designated by the `shift` and `axis` arguments of `translation`, as documented. -/
inductive ShiftMeans : Isom.Shift → Isom.TAxis → V3 ℝ → Prop
  | all (a : ℝ) : ShiftMeans (.scalar a) .none ⟨a, a, a⟩
  | vec (v : V3 ℝ) : ShiftMeans (.vec v) .none v
  | x (a : ℝ) : ShiftMeans (.scalar a) (.str "x") ⟨a, 0, 0⟩
  | y (a : ℝ) : ShiftMeans (.scalar a) (.str "y") ⟨0, a, 0⟩
  | z (a : ℝ) : ShiftMeans (.scalar a) (.str "z") ⟨0, 0, a⟩
  | i0 (a : ℝ) : ShiftMeans (.scalar a) (.idx 0) ⟨a, 0, 0⟩
  | i1 (a : ℝ) : ShiftMeans (.scalar a) (.idx 1) ⟨0, a, 0⟩
  | i2 (a : ℝ) : ShiftMeans (.scalar a) (.idx 2) ⟨0, 0, a⟩

/-- Right-handed rotation of `p` by `t` radians about the unit vector `n` (Rodrigues' formula). -/
noncomputable def rodrigues (n : V3 ℝ) (t : ℝ) (p : V3 ℝ) : V3 ℝ :=
  Real.cos t • p + Real.sin t • V3.cross n p + ((1 - Real.cos t) * V3.dot n p) • n

/-- Angle in radians of an (`angle`, `degree`) pair of arguments. -/
noncomputable def radians (angle : ℝ) (degree : Bool) : ℝ := if degree then angle * Real.pi / 180 else angle

end Verif.Spec
