import Verif.Model.Blinding

/-!
# Blinding: what users pass and expect

Catalogs are lists of rows of three numbers, in the coordinates of the position type: Cartesian ("pos", "xyz"), or RA, Dec and
distance ("rdd") or redshift ("rdz").
-/

namespace Verif.Spec.Blinding

open Verif Verif.Model Verif.Model.Blinding

/-- The documented position types. -/
def Known (ptype : String) : Prop := ptype = "pos" ∨ ptype = "xyz" ∨ ptype = "rdd" ∨ ptype = "rdz"

/-- Rows as users pass them: array of shape (N, 3) for "pos", else a list of three arrays, of floats. -/
def argOf (ptype : String) (rows : List (V3 ℝ)) : Positions :=
  if ptype = "pos" then .array .float 3 (rows.map V3.toList)
  else .list [some (.float, rows.map (·.x)), some (.float, rows.map (·.y)), some (.float, rows.map (·.z))]

/-- Rows as they are returned, same type as the input. -/
def outOf (ptype : String) (rows : List (V3 ℝ)) : Output :=
  if ptype = "pos" then .rows rows else .columns (rows.map (·.x)) (rows.map (·.y)) (rows.map (·.z))

/-- A row in the usual range: RA in [0, 360), Dec in (-90, 90), positive distance or redshift. Cartesian rows are free. -/
def Usual (ptype : String) (r : V3 ℝ) : Prop :=
  ptype = "rdd" ∨ ptype = "rdz" → 0 ≤ r.x ∧ r.x < 360 ∧ -90 < r.y ∧ r.y < 90 ∧ 0 < r.z

/-- Point of given RA, Dec (degrees) and distance. -/
noncomputable def pointOf (ra dec d : ℝ) : V3 ℝ :=
  ⟨d * (Real.cos (dec * (Real.pi / 180)) * Real.cos (ra * (Real.pi / 180))),
    d * (Real.cos (dec * (Real.pi / 180)) * Real.sin (ra * (Real.pi / 180))), d * Real.sin (dec * (Real.pi / 180))⟩

/-- Cartesian position of a row; `dist` is the distance as a function of redshift. -/
noncomputable def cart (ptype : String) (dist : ℝ → ℝ) (r : V3 ℝ) : V3 ℝ :=
  if ptype = "rdd" then pointOf r.x r.y r.z else if ptype = "rdz" then pointOf r.x r.y (dist r.z) else r

/-- Results of ranks when only rank `root` holds something. -/
def onRoot (nranks root : ℕ) (o : Output) : List (Res Output) :=
  (List.range nranks).map fun i => .done (if i = root then o else .none)

end Verif.Spec.Blinding
