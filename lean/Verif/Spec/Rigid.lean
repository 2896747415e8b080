import Verif.Basic.Real

/-!
# Specification of rigid motions and rotations, independent of the model
-/

namespace Verif.Spec
open Verif

/-- Euclidean distance between two points. -/
noncomputable def dist (p q : V3 ℝ) : ℝ := Real.sqrt ((p.x - q.x) ^ 2 + (p.y - q.y) ^ 2 + (p.z - q.z) ^ 2)

/-- Oriented volume of the parallelepiped spanned by three vectors. -/
def triple (u v w : V3 ℝ) : ℝ :=
  u.x * (v.y * w.z - v.z * w.y) + u.y * (v.z * w.x - v.x * w.z) + u.z * (v.x * w.y - v.y * w.x)

/-- A map of space that preserves distances and handedness (a displacement). -/
def RigidMotion (f : V3 ℝ → V3 ℝ) : Prop :=
  (∀ p q, dist (f p) (f q) = dist p q) ∧
  (∀ o a b c, triple (f a - f o) (f b - f o) (f c - f o) = triple (a - o) (b - o) (c - o))

/-- A linear map of space that preserves lengths, angles and handedness. -/
def LinearRotation (f : V3 ℝ → V3 ℝ) : Prop :=
  (∀ (a : ℝ) p q, f (a • p + q) = a • f p + f q) ∧
  (∀ p q, V3.dot (f p) (f q) = V3.dot p q) ∧
  (∀ a b c, triple (f a) (f b) (f c) = triple a b c)

end Verif.Spec
