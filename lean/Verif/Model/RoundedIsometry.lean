import Verif.Basic.Rounding
import Verif.Model.Isometry

/-!
# Model of `EuclideanIsometry` with rounding errors

`/repo/mockfactory/make_survey.py:81-248`: each operation on floats is rounded (`Verif/Basic/Rounding.lean`).
`Verif/Model/Isometry.lean` has the same functions in exact real numbers.
-/

namespace Verif.Model.RoundedIsometry

open Verif Verif.Model

variable (F : Fmt)

/-- Sum of products, the last one first, each product and each sum rounded, or product and sum rounded at once (fused multiply-add).
(`make_survey.py:111, 129-131, 189, 206, 225-226`: products of arrays are left to a library that may do either). -/
inductive SumF : List (ℝ × ℝ) → ℝ → Prop
  | nil : SumF [] 0
  | mul {l : List (ℝ × ℝ)} {r a b : ℝ} : SumF l r → SumF ((a, b) :: l) (F.rnd (r + F.rnd (a * b)))
  | fma {l : List (ℝ × ℝ)} {r a b : ℝ} : SumF l r → SumF ((a, b) :: l) (F.rnd (r + a * b))

/-- Scalar product: terms are summed in any order. (`make_survey.py:111, 129-131, 189, 206, 225-226`). -/
def DotF (a b : V3 ℝ) (r : ℝ) : Prop := ∃ l, l.Perm [(a.x, b.x), (a.y, b.y), (a.z, b.z)] ∧ SumF F l r

/-- Rows of a matrix. (`make_survey.py:111`). -/
def row0 (m : M3 ℝ) : V3 ℝ := ⟨m.m00, m.m01, m.m02⟩
@[inherit_doc row0] def row1 (m : M3 ℝ) : V3 ℝ := ⟨m.m10, m.m11, m.m12⟩
@[inherit_doc row0] def row2 (m : M3 ℝ) : V3 ℝ := ⟨m.m20, m.m21, m.m22⟩

/-- Matrix times vector: `matrix.dot(vector)`, `np.tensordot(vector, matrix, axes=((-1,), (1,)))`.
(`make_survey.py:111, 131, 189, 206, 226`). -/
def MulVecF (m : M3 ℝ) (v w : V3 ℝ) : Prop := DotF F (row0 m) v w.x ∧ DotF F (row1 m) v w.y ∧ DotF F (row2 m) v w.z

/-- Product of matrices: `matrix.dot(self._rotation)`, column by column. (`make_survey.py:129, 225`). -/
def MulF (a b c : M3 ℝ) : Prop :=
  MulVecF F a (row0 b.tr) (row0 c.tr) ∧ MulVecF F a (row1 b.tr) (row1 c.tr) ∧ MulVecF F a (row2 b.tr) (row2 c.tr)

/-- Sum of two arrays of three numbers. (`make_survey.py:112, 192, 226`). -/
noncomputable def addF (u v : V3 ℝ) : V3 ℝ := ⟨F.rnd (u.x + v.x), F.rnd (u.y + v.y), F.rnd (u.z + v.z)⟩

/-- `make_survey.py:93-113` `transform`, on one row. -/
def TransformF (s : Isom) (vector : V3 ℝ) (translationalInvariant : Bool) (result : V3 ℝ) : Prop :=
  ∃ w, MulVecF F s.rot vector w ∧ result = if translationalInvariant then w else addF F w s.trans

/-- Calls that change an isometry, with arguments for which they do not raise (`make_survey.py:115-215`, `:230-233`). `rotation` is `dot`
with the matrix of `rotation_matrix_from_vector_angle` (line 158). -/
inductive OpF where
  | dotOrigin (matrix : M3 ℝ)
  | dotCurrent (matrix : M3 ℝ)
  | translationOrigin (shift : V3 ℝ)
  | translationCurrent (shift : V3 ℝ)
  | resetRotationOrigin
  | resetRotationCurrent
  | resetTranslate

/-- One call. (`make_survey.py:115-134, 161-215`). -/
inductive StepF : Isom → OpF → Isom → Prop
  | dotOrigin {s : Isom} {m r : M3 ℝ} {t : V3 ℝ} : MulF F m s.rot r → MulVecF F m s.trans t → StepF s (.dotOrigin m) ⟨r, t⟩
  | dotCurrent {s : Isom} {m r : M3 ℝ} : MulF F m s.rot r → StepF s (.dotCurrent m) ⟨r, s.trans⟩
  | translationOrigin {s : Isom} {v : V3 ℝ} : StepF s (.translationOrigin v) ⟨s.rot, addF F s.trans v⟩
  | translationCurrent {s : Isom} {v w : V3 ℝ} : MulVecF F s.rot v w → StepF s (.translationCurrent v) ⟨s.rot, addF F s.trans w⟩
  | resetRotationOrigin {s : Isom} {t : V3 ℝ} : MulVecF F s.rot.tr s.trans t → StepF s .resetRotationOrigin ⟨1, t⟩
  | resetRotationCurrent {s : Isom} : StepF s .resetRotationCurrent ⟨1, s.trans⟩
  | resetTranslate {s : Isom} : StepF s .resetTranslate ⟨s.rot, 0⟩

/-- A history of calls. (`make_survey.py:115-215`). -/
inductive RunF : Isom → List OpF → Isom → Prop
  | nil {s : Isom} : RunF s [] s
  | cons {s s' s'' : Isom} {op : OpF} {ops : List OpF} : StepF F s op s' → RunF s' ops s'' → RunF s (op :: ops) s''

/-- `make_survey.py:217-228` `concatenate` of two isometries, also `extend`, `+` and `+=`. With the first one, `new` is multiplied by the
identity and added to zeros, which is exact. -/
def ConcatF (a b c : Isom) : Prop := ∃ t, MulF F b.rot a.rot c.rot ∧ MulVecF F b.rot a.trans t ∧ c.trans = addF F t b.trans

/-- `angle = angle * np.pi / 180.` (`make_survey.py:43`). -/
noncomputable def angleF (angle : ℝ) : ℝ := F.rnd (F.rnd (angle * F.rnd Real.pi) / 180)

/-- One entry of `p + np.cos(angle) * (eye - p) + np.sin(angle) * q` (`make_survey.py:47-49`): `a` and `b` are the components of the axis in
`p`, `e` and `q` the entries of `eye` and of `q`. -/
noncomputable def entryF (c s e q a b : ℝ) : ℝ :=
  F.rnd (F.rnd (F.rnd (a * b) + F.rnd (c * F.rnd (e - F.rnd (a * b)))) + F.rnd (s * q))

/-- `make_survey.py:47-49`: the matrix, for the unit vector `v` and the values `c` and `s` of `np.cos` and `np.sin`. -/
noncomputable def axisMatF (v : V3 ℝ) (c s : ℝ) : M3 ℝ :=
  ⟨entryF F c s 1 0 v.x v.x, entryF F c s 0 (-v.z) v.x v.y, entryF F c s 0 v.y v.x v.z,
   entryF F c s 0 v.z v.y v.x, entryF F c s 1 0 v.y v.y, entryF F c s 0 (-v.x) v.y v.z,
   entryF F c s 0 (-v.y) v.z v.x, entryF F c s 0 v.x v.z v.y, entryF F c s 1 0 v.z v.z⟩

open Classical in
/-- `make_survey.py:40-49` `rotation_matrix_from_vector_angle`, for the unit vector `v` and the values `c` and `s` of `np.cos` and `np.sin` at
the angle in radians. -/
noncomputable def rotationF (v : V3 ℝ) (angle c s : ℝ) : M3 ℝ := if angleF F angle = 0 then 1 else axisMatF F v c s

/-- `make_survey.py:59-69` `_get_los` of a vector: `los /= utils.distance(los)`. -/
noncomputable def losF (v : V3 ℝ) : V3 ℝ :=
  let r := F.rnd (Real.sqrt (F.rnd (F.rnd (F.rnd (v.x ^ 2) + F.rnd (v.y ^ 2)) + F.rnd (v.z ^ 2))))
  ⟨F.rnd (v.x / r), F.rnd (v.y / r), F.rnd (v.z / r)⟩

/-- `angle = angle * 180. / np.pi` (`make_survey.py:156`). -/
noncomputable def degreesF (angle : ℝ) : ℝ := F.rnd (F.rnd (angle * 180) / F.rnd Real.pi)

/-- `make_survey.py:156-158` `rotation`: the matrix given to `dot`, for the array `axis`, which is divided by its length twice (lines 157 and
42). -/
noncomputable def rotationCallF (axis : V3 ℝ) (angle : ℝ) (degree : Bool) (c s : ℝ) : M3 ℝ :=
  rotationF F (losF F (losF F axis)) (if degree then angle else degreesF F angle) c s

/-- `make_survey.py:61-67`: the array that `_get_los` makes from its argument. -/
inductive AxisArray : Axis → V3 ℝ → Prop
  | x : AxisArray (.str "x") ⟨1, 0, 0⟩
  | y : AxisArray (.str "y") ⟨0, 1, 0⟩
  | z : AxisArray (.str "z") ⟨0, 0, 1⟩
  | i0 : AxisArray (.idx 0) ⟨1, 0, 0⟩
  | i1 : AxisArray (.idx 1) ⟨0, 1, 0⟩
  | i2 : AxisArray (.idx 2) ⟨0, 0, 1⟩
  | vec (v : V3 ℝ) : AxisArray (.vec v) v

end Verif.Model.RoundedIsometry
