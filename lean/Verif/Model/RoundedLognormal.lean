import Verif.Basic.Rounding

/-!
# Model of lognormal fields and numbers of objects with rounding errors

`/repo/mockfactory/gaussian_mock.py:355-358, 514-540`, for meshes of the default type: each operation on floats is rounded
(`Verif/Basic/Rounding.lean`). Overflow is left out. `Verif/Model/Mesh.lean` has the fields in exact real numbers.
-/

namespace Verif.Model.RoundedLognormal

open Verif

variable (F : Fmt)

/-- `gaussian_mock.py:357`: `s` is a sum of the values `l` of all nodes, over all ranks, as computed by `csum`, with at most `depth` additions
one after the other. numpy adds values in blocks and MPI adds the sums of ranks, in an order which is left open. -/
inductive IsSum : ℕ → List ℝ → ℝ → Prop
  | one (x : ℝ) : IsSum 0 [x] x
  | add {m n : ℕ} {l l' : List ℝ} {a b : ℝ} : IsSum m l a → IsSum n l' b → IsSum (max m n + 1) (l ++ l') (F.rnd (a + b))
  | order {m : ℕ} {l l' : List ℝ} {a : ℝ} : IsSum m l a → l.Perm l' → IsSum m l' a

/-- `gaussian_mock.py:357`: `cmean`, from the sum of the values of `n` nodes. -/
noncomputable def meanF (s : ℝ) (n : ℕ) : ℝ := F.rnd (s / n)

/-- `gaussian_mock.py:356-358`: lognormal transform, one node, of field `x`; `exp` is that of the C library, `m` the mean of exponentials. -/
noncomputable def lognormalF (exp : ℝ → ℝ) (m x : ℝ) : ℝ := F.rnd (F.rnd (exp x / m) - 1)

/-- `gaussian_mock.py:517`: mean number of objects of a cell of volume `dv`, for the contrast `delta` and the density `nbar`. -/
noncomputable def cellMeanF (nbar dv delta : ℝ) : ℝ := F.rnd (F.rnd (F.rnd (1 + delta) * nbar) * dv)

/-- `gaussian_mock.py:523-536`: number of objects of a cell, from the number `k` that is drawn: it is written to a mesh, read at the node, and made an
integer again. -/
noncomputable def countF (k : ℕ) : ℤ := ⌊F.rnd (F.rnd k + F.rnd (1 / 2))⌋

end Verif.Model.RoundedLognormal
