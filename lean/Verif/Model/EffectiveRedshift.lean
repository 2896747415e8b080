import Verif.Model.Blinding

/-!
# Effective redshift (`mockfactory/blinding/catalog.py:102-144`)
-/

namespace Verif.Model.Blinding

open Verif Verif.Model

/-- `catalog.py:137-143`, distance or redshift of one row. -/
noncomputable def rowRedshift (ptype : String) (d2z : ℝ → Except Err ℝ) (p : V3 ℝ) : Except Err ℝ :=
  if ptype ≠ "rdz" then d2z (cartesianToSky p).dist else .ok (cartesianToSky p).dist

/-- Local part of mpytools `caverage`: products of values and weights, which have to be of the same size (a single weight is not
represented). (`blinding/catalog.py:144`). -/
def weighted (values : List ℝ) : Option (List ℝ) → Except Err (List ℝ × List ℝ)
  | none => .ok (values, values.map fun _ => 1)
  | some w => if w.length = values.length then .ok (List.zipWith (· * ·) values w, w) else .error .valueError

open Classical in
/-- `catalog.py:102-144` `get_z`, on all ranks; `d2z` is the conversion of distances to redshifts. Weights are those of each rank,
not scattered. -/
noncomputable def getZ (ptype : String) (d2z : ℝ → Except Err ℝ) (root : Option ℕ) (args : List Positions)
    (weights : List (Option (List ℝ))) : List (Res ℝ) :=
  let ptype' := if ptype = "rdz" then "rdd" else ptype
  let ranks := (formatPositions ptype' none id root args).map (Res.locally fun f => do
    (← f.get).mapM (rowRedshift ptype d2z))
  let products := List.zipWith (fun r w => Res.locally (fun v => weighted v w) r) ranks weights
  collective products fun l =>
    let total := (l.map fun x => x.2.sum).sum
    l.map fun _ => if total = 0 then .raised .nan else .done ((l.map fun x => x.1.sum).sum / total)

end Verif.Model.Blinding
