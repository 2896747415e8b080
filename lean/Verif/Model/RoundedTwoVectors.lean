import Verif.Model.RoundedIsometry
import Verif.Model.Rounded

/-!
# Model of `rotation_matrix_from_two_vectors` with rounding errors

`/repo/mockfactory/make_survey.py:17-37`: each operation on floats is rounded (`Verif/Basic/Rounding.lean`).
`Verif/Model/Isometry.lean` has the same function in exact real numbers.
-/

namespace Verif.Model.RoundedIsometry

open Verif Verif.Model

variable (F : Fmt)

/-- `v = np.cross(a, b)` (`make_survey.py:30`): products, then differences. -/
noncomputable def crossF (a b : V3 ℝ) : V3 ℝ :=
  ⟨F.rnd (F.rnd (a.y * b.z) - F.rnd (a.z * b.y)), F.rnd (F.rnd (a.z * b.x) - F.rnd (a.x * b.z)),
   F.rnd (F.rnd (a.x * b.y) - F.rnd (a.y * b.x))⟩

/-- One entry of `eye + k + np.matmul(k, k) * ((1. - c) / (s ** 2))` (`make_survey.py:37`): `e`, `k`, `kk` are the entries of the three
matrices. -/
noncomputable def twoEntryF (e k kk c s : ℝ) : ℝ := F.rnd (F.rnd (e + k) + F.rnd (kk * F.rnd (F.rnd (1 - c) / F.rnd (s ^ 2))))

/-- `make_survey.py:33-37`: the matrix, from the vector product `v`, the scalar product `c`, the length `s` of `v` and the matrix
`kk = np.matmul(k, k)`. -/
noncomputable def twoMatF (v : V3 ℝ) (c s : ℝ) (kk : M3 ℝ) : M3 ℝ :=
  ⟨twoEntryF F 1 0 kk.m00 c s, twoEntryF F 0 (-v.z) kk.m01 c s, twoEntryF F 0 v.y kk.m02 c s,
   twoEntryF F 0 v.z kk.m10 c s, twoEntryF F 1 0 kk.m11 c s, twoEntryF F 0 (-v.x) kk.m12 c s,
   twoEntryF F 0 (-v.y) kk.m20 c s, twoEntryF F 0 v.x kk.m21 c s, twoEntryF F 1 0 kk.m22 c s⟩

/-- `make_survey.py:17-37` `rotation_matrix_from_two_vectors`, for arrays of floats of non-zero length: all the matrices it may return (the
scalar product and the product of matrices are summed in any order, with or without fused multiply-add). Normalisation in place of the
arguments is not modelled. -/
def TwoVectorsF (a b : V3 ℝ) (R : M3 ℝ) : Prop :=
  Rounded.distanceF F a ≠ 0 ∧ Rounded.distanceF F b ≠ 0 ∧
    ((Rounded.distanceF F (crossF F (losF F a) (losF F b)) = 0 ∧ R = 1) ∨
     (Rounded.distanceF F (crossF F (losF F a) (losF F b)) ≠ 0 ∧ ∃ c kk, DotF F (losF F a) (losF F b) c ∧
        MulF F (skew (crossF F (losF F a) (losF F b))) (skew (crossF F (losF F a) (losF F b))) kk ∧
        R = twoMatF F (crossF F (losF F a) (losF F b)) c (Rounded.distanceF F (crossF F (losF F a) (losF F b))) kk))

end Verif.Model.RoundedIsometry
