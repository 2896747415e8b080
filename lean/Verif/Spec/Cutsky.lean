import Verif.Basic.Real
import Mathlib.Analysis.SpecialFunctions.Trigonometric.Basic

/-!
# Specification of sky ranges and of the boxes they are compared with, independent of the model
-/

namespace Verif.Spec
open Verif

/-- Radians of an angle in degrees. -/
noncomputable def rad (x : ℝ) : ℝ := x * (Real.pi / 180)

/-- The point at distance `d`, RA `ra`, Dec `dec` (degrees) of the observer at the origin. -/
noncomputable def skyPoint (d ra dec : ℝ) : V3 ℝ :=
  ⟨d * (Real.cos (rad dec) * Real.cos (rad ra)), d * (Real.cos (rad dec) * Real.sin (rad ra)), d * Real.sin (rad dec)⟩

/-- Width of the RA range from `lo` eastwards to `hi`, which may go through RA = 0 = 360, as in (300, 40). -/
noncomputable def raWidth (r : ℝ × ℝ) : ℝ := if r.1 ≤ r.2 then r.2 - r.1 else r.2 + 360 - r.1

/-- `ra` is in the range from `lo` eastwards to `hi`, up to full turns. -/
def InRa (r : ℝ × ℝ) (ra : ℝ) : Prop := ∃ k : ℤ, r.1 ≤ ra + 360 * k ∧ ra + 360 * k ≤ r.1 + raWidth r

/-- `x` is in the range. -/
def InRange (r : ℝ × ℝ) (x : ℝ) : Prop := r.1 ≤ x ∧ x ≤ r.2

/-- The box of size `b` centred on the x axis with its far face at x = `dmax`. -/
def InPlacedBox (b : V3 ℝ) (dmax : ℝ) (p : V3 ℝ) : Prop :=
  (dmax - b.x ≤ p.x ∧ p.x ≤ dmax) ∧ (-(b.y / 2) ≤ p.y ∧ p.y ≤ b.y / 2) ∧ (-(b.z / 2) ≤ p.z ∧ p.z ≤ b.z / 2)

/-- The box of size `b` centred on the origin. -/
def InCentredBox (b p : V3 ℝ) : Prop :=
  (-(b.x / 2) ≤ p.x ∧ p.x ≤ b.x / 2) ∧ (-(b.y / 2) ≤ p.y ∧ p.y ≤ b.y / 2) ∧ (-(b.z / 2) ≤ p.z ∧ p.z ≤ b.z / 2)

/-- `q` seen in the axes of the survey: first component along the line of sight to the centre of the ranges, second
towards the East, third towards the North. -/
noncomputable def surveyAxes (ra0 dec0 : ℝ) (q : V3 ℝ) : V3 ℝ :=
  let u := q.x * Real.cos (rad ra0) + q.y * Real.sin (rad ra0)
  ⟨u * Real.cos (rad dec0) + q.z * Real.sin (rad dec0), q.y * Real.cos (rad ra0) - q.x * Real.sin (rad ra0),
    q.z * Real.cos (rad dec0) - u * Real.sin (rad dec0)⟩

end Verif.Spec
