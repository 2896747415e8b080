import Mathlib.Data.Real.Basic
import Mathlib.Tactic.Ring
import Mathlib.Tactic.LinearCombination

/-!
# 3-vectors and 3 x 3 matrices

Plain records, used for the rows of numpy arrays of shape (N, 3) and for 3 x 3 matrices.
They model numpy arithmetic on such arrays, not a particular function of the repository.
-/

namespace Verif

/-- A row of a numpy array of shape (N, 3). (`make_survey.py:52-56`). -/
@[ext] structure V3 (α : Type*) where
  x : α
  y : α
  z : α
deriving DecidableEq

/-- A 3 x 3 matrix, entry `mij` on row `i`, column `j`. (`make_survey.py:81-84`). -/
@[ext] structure M3 (α : Type*) where
  m00 : α
  m01 : α
  m02 : α
  m10 : α
  m11 : α
  m12 : α
  m20 : α
  m21 : α
  m22 : α
deriving DecidableEq

namespace V3
variable {α : Type*}

instance [Zero α] : Zero (V3 α) := ⟨⟨0, 0, 0⟩⟩
instance [Add α] : Add (V3 α) := ⟨fun u v => ⟨u.x + v.x, u.y + v.y, u.z + v.z⟩⟩
instance [Sub α] : Sub (V3 α) := ⟨fun u v => ⟨u.x - v.x, u.y - v.y, u.z - v.z⟩⟩
instance [Neg α] : Neg (V3 α) := ⟨fun u => ⟨-u.x, -u.y, -u.z⟩⟩
/-- `V3.smul a v` : numpy product of a scalar and a 3-vector. -/
instance [Mul α] : SMul α (V3 α) := ⟨fun a u => ⟨a * u.x, a * u.y, a * u.z⟩⟩

/-- numpy element-wise product of two 3-vectors. (`make_survey.py:1136`). -/
def emul [Mul α] (u v : V3 α) : V3 α := ⟨u.x * v.x, u.y * v.y, u.z * v.z⟩
/-- numpy element-wise quotient of two 3-vectors. (`gaussian_mock.py:376`). -/
def ediv [Div α] (u v : V3 α) : V3 α := ⟨u.x / v.x, u.y / v.y, u.z / v.z⟩
/-- numpy array filled with one value (`_make_array(value, 3)` for a scalar `value`).
(`make_survey.py:52-56`). -/
def const (a : α) : V3 α := ⟨a, a, a⟩
/-- Apply a function to each component. (`make_survey.py:745`). -/
def map {β : Type*} (f : α → β) (u : V3 α) : V3 β := ⟨f u.x, f u.y, f u.z⟩
/-- Scalar product (`remap.py:25-27` `dot`, `np.dot`). -/
def dot [Add α] [Mul α] (u v : V3 α) : α := u.x * v.x + u.y * v.y + u.z * v.z
/-- Square norm (`remap.py:30-32` `square`). -/
def sq [Add α] [Mul α] (u : V3 α) : α := dot u u
/-- Cross product (numpy `cross`). (`make_survey.py:30`). -/
def cross [Sub α] [Mul α] (u v : V3 α) : V3 α :=
  ⟨u.y * v.z - u.z * v.y, u.z * v.x - u.x * v.z, u.x * v.y - u.y * v.x⟩
/-- The components as a list, in order. (`remap.py:47`). -/
def toList (u : V3 α) : List α := [u.x, u.y, u.z]

@[simp] theorem zero_x [Zero α] : (0 : V3 α).x = 0 := rfl
@[simp] theorem zero_y [Zero α] : (0 : V3 α).y = 0 := rfl
@[simp] theorem zero_z [Zero α] : (0 : V3 α).z = 0 := rfl
@[simp] theorem add_x [Add α] (u v : V3 α) : (u + v).x = u.x + v.x := rfl
@[simp] theorem add_y [Add α] (u v : V3 α) : (u + v).y = u.y + v.y := rfl
@[simp] theorem add_z [Add α] (u v : V3 α) : (u + v).z = u.z + v.z := rfl
@[simp] theorem sub_x [Sub α] (u v : V3 α) : (u - v).x = u.x - v.x := rfl
@[simp] theorem sub_y [Sub α] (u v : V3 α) : (u - v).y = u.y - v.y := rfl
@[simp] theorem sub_z [Sub α] (u v : V3 α) : (u - v).z = u.z - v.z := rfl
@[simp] theorem neg_x [Neg α] (u : V3 α) : (-u).x = -u.x := rfl
@[simp] theorem neg_y [Neg α] (u : V3 α) : (-u).y = -u.y := rfl
@[simp] theorem neg_z [Neg α] (u : V3 α) : (-u).z = -u.z := rfl
@[simp] theorem smul_x [Mul α] (a : α) (u : V3 α) : (a • u).x = a * u.x := rfl
@[simp] theorem smul_y [Mul α] (a : α) (u : V3 α) : (a • u).y = a * u.y := rfl
@[simp] theorem smul_z [Mul α] (a : α) (u : V3 α) : (a • u).z = a * u.z := rfl
@[simp] theorem emul_x [Mul α] (u v : V3 α) : (emul u v).x = u.x * v.x := rfl
@[simp] theorem emul_y [Mul α] (u v : V3 α) : (emul u v).y = u.y * v.y := rfl
@[simp] theorem emul_z [Mul α] (u v : V3 α) : (emul u v).z = u.z * v.z := rfl
@[simp] theorem ediv_x [Div α] (u v : V3 α) : (ediv u v).x = u.x / v.x := rfl
@[simp] theorem ediv_y [Div α] (u v : V3 α) : (ediv u v).y = u.y / v.y := rfl
@[simp] theorem ediv_z [Div α] (u v : V3 α) : (ediv u v).z = u.z / v.z := rfl
@[simp] theorem map_x {β : Type*} (f : α → β) (u : V3 α) : (u.map f).x = f u.x := rfl
@[simp] theorem map_y {β : Type*} (f : α → β) (u : V3 α) : (u.map f).y = f u.y := rfl
@[simp] theorem map_z {β : Type*} (f : α → β) (u : V3 α) : (u.map f).z = f u.z := rfl
@[simp] theorem const_x (a : α) : (const a).x = a := rfl
@[simp] theorem const_y (a : α) : (const a).y = a := rfl
@[simp] theorem const_z (a : α) : (const a).z = a := rfl

instance [AddCommGroup α] : AddCommGroup (V3 α) where
  add_assoc a b c := by ext <;> simp [add_assoc]
  zero_add a := by ext <;> simp
  add_zero a := by ext <;> simp
  add_comm a b := by ext <;> simp [add_comm]
  neg_add_cancel a := by ext <;> simp
  sub_eq_add_neg a b := by ext <;> simp [sub_eq_add_neg]
  nsmul := nsmulRec
  zsmul := zsmulRec

end V3

namespace M3
variable {α : Type*}

/-- numpy `eye(3)`. -/
instance [Zero α] [One α] : One (M3 α) := ⟨⟨1, 0, 0, 0, 1, 0, 0, 0, 1⟩⟩
instance [Add α] : Add (M3 α) := ⟨fun a b =>
  ⟨a.m00 + b.m00, a.m01 + b.m01, a.m02 + b.m02, a.m10 + b.m10, a.m11 + b.m11, a.m12 + b.m12,
   a.m20 + b.m20, a.m21 + b.m21, a.m22 + b.m22⟩⟩
instance [Sub α] : Sub (M3 α) := ⟨fun a b =>
  ⟨a.m00 - b.m00, a.m01 - b.m01, a.m02 - b.m02, a.m10 - b.m10, a.m11 - b.m11, a.m12 - b.m12,
   a.m20 - b.m20, a.m21 - b.m21, a.m22 - b.m22⟩⟩
instance [Mul α] : SMul α (M3 α) := ⟨fun c a =>
  ⟨c * a.m00, c * a.m01, c * a.m02, c * a.m10, c * a.m11, c * a.m12, c * a.m20, c * a.m21, c * a.m22⟩⟩
/-- numpy `dot` / `matmul` of two 3 x 3 matrices. -/
instance [Add α] [Mul α] : Mul (M3 α) := ⟨fun a b =>
  ⟨a.m00 * b.m00 + a.m01 * b.m10 + a.m02 * b.m20, a.m00 * b.m01 + a.m01 * b.m11 + a.m02 * b.m21,
   a.m00 * b.m02 + a.m01 * b.m12 + a.m02 * b.m22,
   a.m10 * b.m00 + a.m11 * b.m10 + a.m12 * b.m20, a.m10 * b.m01 + a.m11 * b.m11 + a.m12 * b.m21,
   a.m10 * b.m02 + a.m11 * b.m12 + a.m12 * b.m22,
   a.m20 * b.m00 + a.m21 * b.m10 + a.m22 * b.m20, a.m20 * b.m01 + a.m21 * b.m11 + a.m22 * b.m21,
   a.m20 * b.m02 + a.m21 * b.m12 + a.m22 * b.m22⟩⟩

/-- numpy `matrix.T`. (`make_survey.py:195-210`). -/
def tr (a : M3 α) : M3 α :=
  ⟨a.m00, a.m10, a.m20, a.m01, a.m11, a.m21, a.m02, a.m12, a.m22⟩
/-- numpy `matrix.dot(vector)`, also `tensordot(vector, matrix, axes=((-1,), (1,)))`.
(`make_survey.py:111, 131`). -/
def mulVec [Add α] [Mul α] (a : M3 α) (v : V3 α) : V3 α :=
  ⟨a.m00 * v.x + a.m01 * v.y + a.m02 * v.z, a.m10 * v.x + a.m11 * v.y + a.m12 * v.z,
   a.m20 * v.x + a.m21 * v.y + a.m22 * v.z⟩
/-- Determinant. (`remap.py:40-42`). -/
def det [Add α] [Sub α] [Mul α] (a : M3 α) : α :=
  a.m00 * (a.m11 * a.m22 - a.m12 * a.m21) - a.m01 * (a.m10 * a.m22 - a.m12 * a.m20)
    + a.m02 * (a.m10 * a.m21 - a.m11 * a.m20)

section simps
@[simp] theorem one_00 [Zero α] [One α] : (1 : M3 α).m00 = 1 := rfl
@[simp] theorem one_01 [Zero α] [One α] : (1 : M3 α).m01 = 0 := rfl
@[simp] theorem one_02 [Zero α] [One α] : (1 : M3 α).m02 = 0 := rfl
@[simp] theorem one_10 [Zero α] [One α] : (1 : M3 α).m10 = 0 := rfl
@[simp] theorem one_11 [Zero α] [One α] : (1 : M3 α).m11 = 1 := rfl
@[simp] theorem one_12 [Zero α] [One α] : (1 : M3 α).m12 = 0 := rfl
@[simp] theorem one_20 [Zero α] [One α] : (1 : M3 α).m20 = 0 := rfl
@[simp] theorem one_21 [Zero α] [One α] : (1 : M3 α).m21 = 0 := rfl
@[simp] theorem one_22 [Zero α] [One α] : (1 : M3 α).m22 = 1 := rfl
end simps
section
variable [Add α]
@[simp] theorem add_00 (a b : M3 α) : (a + b).m00 = a.m00 + b.m00 := rfl
@[simp] theorem add_01 (a b : M3 α) : (a + b).m01 = a.m01 + b.m01 := rfl
@[simp] theorem add_02 (a b : M3 α) : (a + b).m02 = a.m02 + b.m02 := rfl
@[simp] theorem add_10 (a b : M3 α) : (a + b).m10 = a.m10 + b.m10 := rfl
@[simp] theorem add_11 (a b : M3 α) : (a + b).m11 = a.m11 + b.m11 := rfl
@[simp] theorem add_12 (a b : M3 α) : (a + b).m12 = a.m12 + b.m12 := rfl
@[simp] theorem add_20 (a b : M3 α) : (a + b).m20 = a.m20 + b.m20 := rfl
@[simp] theorem add_21 (a b : M3 α) : (a + b).m21 = a.m21 + b.m21 := rfl
@[simp] theorem add_22 (a b : M3 α) : (a + b).m22 = a.m22 + b.m22 := rfl
end
section
variable [Sub α]
@[simp] theorem sub_00 (a b : M3 α) : (a - b).m00 = a.m00 - b.m00 := rfl
@[simp] theorem sub_01 (a b : M3 α) : (a - b).m01 = a.m01 - b.m01 := rfl
@[simp] theorem sub_02 (a b : M3 α) : (a - b).m02 = a.m02 - b.m02 := rfl
@[simp] theorem sub_10 (a b : M3 α) : (a - b).m10 = a.m10 - b.m10 := rfl
@[simp] theorem sub_11 (a b : M3 α) : (a - b).m11 = a.m11 - b.m11 := rfl
@[simp] theorem sub_12 (a b : M3 α) : (a - b).m12 = a.m12 - b.m12 := rfl
@[simp] theorem sub_20 (a b : M3 α) : (a - b).m20 = a.m20 - b.m20 := rfl
@[simp] theorem sub_21 (a b : M3 α) : (a - b).m21 = a.m21 - b.m21 := rfl
@[simp] theorem sub_22 (a b : M3 α) : (a - b).m22 = a.m22 - b.m22 := rfl
end
section
variable [Mul α]
@[simp] theorem smul_00 (c : α) (a : M3 α) : (c • a).m00 = c * a.m00 := rfl
@[simp] theorem smul_01 (c : α) (a : M3 α) : (c • a).m01 = c * a.m01 := rfl
@[simp] theorem smul_02 (c : α) (a : M3 α) : (c • a).m02 = c * a.m02 := rfl
@[simp] theorem smul_10 (c : α) (a : M3 α) : (c • a).m10 = c * a.m10 := rfl
@[simp] theorem smul_11 (c : α) (a : M3 α) : (c • a).m11 = c * a.m11 := rfl
@[simp] theorem smul_12 (c : α) (a : M3 α) : (c • a).m12 = c * a.m12 := rfl
@[simp] theorem smul_20 (c : α) (a : M3 α) : (c • a).m20 = c * a.m20 := rfl
@[simp] theorem smul_21 (c : α) (a : M3 α) : (c • a).m21 = c * a.m21 := rfl
@[simp] theorem smul_22 (c : α) (a : M3 α) : (c • a).m22 = c * a.m22 := rfl
end
section
variable [Add α] [Mul α]
@[simp] theorem mul_00 (a b : M3 α) : (a * b).m00 = a.m00 * b.m00 + a.m01 * b.m10 + a.m02 * b.m20 := rfl
@[simp] theorem mul_01 (a b : M3 α) : (a * b).m01 = a.m00 * b.m01 + a.m01 * b.m11 + a.m02 * b.m21 := rfl
@[simp] theorem mul_02 (a b : M3 α) : (a * b).m02 = a.m00 * b.m02 + a.m01 * b.m12 + a.m02 * b.m22 := rfl
@[simp] theorem mul_10 (a b : M3 α) : (a * b).m10 = a.m10 * b.m00 + a.m11 * b.m10 + a.m12 * b.m20 := rfl
@[simp] theorem mul_11 (a b : M3 α) : (a * b).m11 = a.m10 * b.m01 + a.m11 * b.m11 + a.m12 * b.m21 := rfl
@[simp] theorem mul_12 (a b : M3 α) : (a * b).m12 = a.m10 * b.m02 + a.m11 * b.m12 + a.m12 * b.m22 := rfl
@[simp] theorem mul_20 (a b : M3 α) : (a * b).m20 = a.m20 * b.m00 + a.m21 * b.m10 + a.m22 * b.m20 := rfl
@[simp] theorem mul_21 (a b : M3 α) : (a * b).m21 = a.m20 * b.m01 + a.m21 * b.m11 + a.m22 * b.m21 := rfl
@[simp] theorem mul_22 (a b : M3 α) : (a * b).m22 = a.m20 * b.m02 + a.m21 * b.m12 + a.m22 * b.m22 := rfl
end
@[simp] theorem tr_00 (a : M3 α) : a.tr.m00 = a.m00 := rfl
@[simp] theorem tr_01 (a : M3 α) : a.tr.m01 = a.m10 := rfl
@[simp] theorem tr_02 (a : M3 α) : a.tr.m02 = a.m20 := rfl
@[simp] theorem tr_10 (a : M3 α) : a.tr.m10 = a.m01 := rfl
@[simp] theorem tr_11 (a : M3 α) : a.tr.m11 = a.m11 := rfl
@[simp] theorem tr_12 (a : M3 α) : a.tr.m12 = a.m21 := rfl
@[simp] theorem tr_20 (a : M3 α) : a.tr.m20 = a.m02 := rfl
@[simp] theorem tr_21 (a : M3 α) : a.tr.m21 = a.m12 := rfl
@[simp] theorem tr_22 (a : M3 α) : a.tr.m22 = a.m22 := rfl
section
variable [Add α] [Mul α]
@[simp] theorem mulVec_x (a : M3 α) (v : V3 α) : (a.mulVec v).x = a.m00 * v.x + a.m01 * v.y + a.m02 * v.z := rfl
@[simp] theorem mulVec_y (a : M3 α) (v : V3 α) : (a.mulVec v).y = a.m10 * v.x + a.m11 * v.y + a.m12 * v.z := rfl
@[simp] theorem mulVec_z (a : M3 α) (v : V3 α) : (a.mulVec v).z = a.m20 * v.x + a.m21 * v.y + a.m22 * v.z := rfl
end

section ring
variable {R : Type*} [CommRing R]

theorem mul_assoc' (a b c : M3 R) : a * b * c = a * (b * c) := by
  ext <;> simp <;> ring
theorem one_mul' (a : M3 R) : 1 * a = a := by ext <;> simp
theorem mul_one' (a : M3 R) : a * 1 = a := by ext <;> simp
theorem mulVec_mul (a b : M3 R) (v : V3 R) : (a * b).mulVec v = a.mulVec (b.mulVec v) := by
  ext <;> simp <;> ring
theorem one_mulVec (v : V3 R) : (1 : M3 R).mulVec v = v := by ext <;> simp
theorem mulVec_add (a : M3 R) (u v : V3 R) : a.mulVec (u + v) = a.mulVec u + a.mulVec v := by
  ext <;> simp <;> ring
theorem mulVec_sub (a : M3 R) (u v : V3 R) : a.mulVec (u - v) = a.mulVec u - a.mulVec v := by
  ext <;> simp <;> ring
theorem mulVec_neg (a : M3 R) (u : V3 R) : a.mulVec (-u) = -a.mulVec u := by
  ext <;> simp <;> ring
theorem mulVec_zero (a : M3 R) : a.mulVec (0 : V3 R) = 0 := by ext <;> simp
theorem mulVec_smul (a : M3 R) (c : R) (u : V3 R) : a.mulVec (c • u) = c • a.mulVec u := by
  ext <;> simp <;> ring
theorem det_mul (a b : M3 R) : (a * b).det = a.det * b.det := by simp [det]; ring
theorem det_tr (a : M3 R) : a.tr.det = a.det := by simp [det]; ring
theorem det_one : (1 : M3 R).det = 1 := by simp [det]
theorem tr_mul (a b : M3 R) : (a * b).tr = b.tr * a.tr := by ext <;> simp <;> ring
omit [CommRing R] in
theorem tr_tr (a : M3 R) : a.tr.tr = a := rfl
theorem tr_one : (1 : M3 R).tr = 1 := by ext <;> simp
theorem dot_mulVec (a : M3 R) (u v : V3 R) : V3.dot (a.mulVec u) v = V3.dot u (a.tr.mulVec v) := by
  simp [V3.dot]; ring
end ring
end M3

end Verif
