import Verif.Lemmas.Isometry
import Mathlib.Tactic.NormNum

/-!
# C01-C07, C62, C63: isometries and rotation matrices
-/

namespace Verif.Props
open Verif Verif.Model Verif.Spec

/-- Isometries that can be obtained through the API: any history of calls (with or without exceptions), where the
matrices given to `dot` are rotations as its documentation requires, and any concatenation of such isometries
(`concatenate`, `+`, `+=`, `extend`). -/
inductive Reachable : Isom → Prop
  | init : Reachable Isom.init
  | step {s : Isom} (h : Reachable s) (op : Isom.Op) (hop : ∀ m f, op = .dot m f → LinearRotation m.mulVec) :
      Reachable (s.step op).1
  | concat (l : List Isom) (h : ∀ o ∈ l, Reachable o) : Reachable (Isom.concatenate l)

theorem Reachable.isRot {s : Isom} (h : Reachable s) : IsRot s.rot := by
  induction h with
  | init => exact IsRot.one
  | step _ op hop ih => exact isRot_step ih op (fun m f e => isRot_of_linearRotation (hop m f e))
  | concat l _ ih => exact isRot_concatenate l ih

/-- A non-trivial reachable isometry: translation by (1, 2, 3), then a rotation by 30 degrees about 'z'. -/
theorem reachable_example : Reachable
    (Isom.run Isom.init [.translation (.vec ⟨1, 2, 3⟩) .none .origin, .rotation 30 (.str "z") true .origin]) :=
  .step (.step .init _ (by simp)) _ (by simp)

/-! ## C01 -/

/-- C01: the concatenation of any list of isometries acts as the successive isometries, on positions
(`b = false`) and on translational-invariant vectors (`b = true`). -/
theorem C01_concatenate (l : List Isom) (x : V3 ℝ) (b : Bool) :
    (Isom.concatenate l).transform x b = l.foldl (fun y s => s.transform y b) x := by
  unfold Isom.concatenate
  rw [concatenate_foldl]
  congr 1
  cases b <;> simp [Isom.init, Isom.transform, M3.one_mulVec]

/-- C01: `a + b` (and `a += b`, `a.extend(b)`) is `a` first, then `b`. -/
theorem C01_add (a b : Isom) (x : V3 ℝ) (ti : Bool) :
    (a.add b).transform x ti = b.transform (a.transform x ti) ti ∧
    (a.extend b).transform x ti = b.transform (a.transform x ti) ti :=
  ⟨C01_concatenate [a, b] x ti, C01_concatenate [a, b] x ti⟩

/-- C01: `sum([first, ...rest])` acts as the successive isometries. -/
theorem C01_sum (first : Isom) (rest : List Isom) (x : V3 ℝ) (ti : Bool) :
    (Isom.pySum first rest).transform x ti = rest.foldl (fun y s => s.transform y ti) (first.transform x ti) := by
  unfold Isom.pySum
  induction rest generalizing first with
  | nil => rfl
  | cons a rest ih => rw [List.foldl_cons, ih, List.foldl_cons, (C01_add first a x ti).1]

/-- C01: associativity, and the empty concatenation is neutral on both sides (equality of the isometries). -/
theorem C01_monoid (a b c : Isom) :
    (a.add b).add c = a.add (b.add c) ∧ (Isom.concatenate []).add a = a ∧ a.add (Isom.concatenate []) = a := by
  refine ⟨?_, ?_, ?_⟩ <;> apply isom_eq_of_transform <;> intro x <;>
    simp [(C01_add _ _ _ _).1, C01_concatenate]

/-- C01: concatenating in one go or in several is the same. -/
theorem C01_append (l₁ l₂ : List Isom) :
    Isom.concatenate (l₁ ++ l₂) = (Isom.concatenate l₁).add (Isom.concatenate l₂) := by
  apply isom_eq_of_transform
  intro x
  rw [C01_concatenate, List.foldl_append, (C01_add _ _ _ _).1, C01_concatenate, C01_concatenate]

/-! ## C02 -/

/-- C02: whatever the history, `transform` is a rigid motion, and it has an inverse. -/
theorem C02_rigid {s : Isom} (h : Reachable s) :
    RigidMotion (fun p => s.transform p false) ∧
    ∃ inv : V3 ℝ → V3 ℝ, (∀ p, inv (s.transform p false) = p) ∧ (∀ q, s.transform (inv q) false = q) := by
  have hr := h.isRot
  have hsub : ∀ p q, s.transform p false - s.transform q false = s.rot.mulVec (p - q) := by
    intro p q; simp [Isom.transform, M3.mulVec_sub]
  refine ⟨⟨?_, ?_⟩, ?_⟩
  · intro p q
    have hd := dot_mulVec_of_orth hr.1 (p - q) (p - q)
    rw [← hsub] at hd
    simp only [V3.dot, V3.sub_x, V3.sub_y, V3.sub_z] at hd
    simp only [Spec.dist]
    congr 1
    linarith
  · intro o a b c
    simp only [hsub]
    rw [triple_mulVec, hr.2, one_mul]
  · refine ⟨fun q => s.rot.tr.mulVec (q - s.trans), ?_, ?_⟩
    · intro p
      simp only [Isom.transform, Bool.not_false, if_true]
      rw [add_sub_cancel_right, ← M3.mulVec_mul, hr.1, M3.one_mulVec]
    · intro q
      simp only [Isom.transform, Bool.not_false, if_true]
      rw [← M3.mulVec_mul, mul_tr_of_orth hr.1, M3.one_mulVec, sub_add_cancel]

/-- C02, in terms of histories of calls on a new isometry. -/
theorem C02_history (ops : List Isom.Op) (hops : ∀ m f, Isom.Op.dot m f ∈ ops → LinearRotation m.mulVec) :
    RigidMotion (fun p => (Isom.init.run ops).transform p false) := by
  have : ∀ (ops : List Isom.Op) (s : Isom), Reachable s → (∀ m f, Isom.Op.dot m f ∈ ops → LinearRotation m.mulVec) →
      Reachable (s.run ops) := by
    intro ops
    induction ops with
    | nil => intro s hs _; exact hs
    | cons op ops ih =>
      intro s hs h
      exact ih _ (.step hs op (fun m f e => h m f (by simp [e]))) (fun m f hm => h m f (List.mem_cons_of_mem _ hm))
  exact (C02_rigid (this ops _ .init hops)).1

example : RigidMotion (fun p => (Isom.run Isom.init
    [.translation (.vec ⟨1, 2, 3⟩) .none .origin, .rotation 30 (.str "z") true .origin]).transform p false) :=
  C02_history _ (by simp)

/-! ## C03 -/

/-- C03: differences of positions transform as translational-invariant vectors. -/
theorem C03_difference (s : Isom) (x y : V3 ℝ) :
    s.transform x false - s.transform y false = s.transform (x - y) true := by
  simp [Isom.transform, M3.mulVec_sub]

/-- C03: norms and scalar products of translational-invariant vectors are preserved. -/
theorem C03_norm {s : Isom} (h : Reachable s) (v w : V3 ℝ) :
    V3.dot (s.transform v true) (s.transform w true) = V3.dot v w ∧
    Spec.dist (s.transform v true) 0 = Spec.dist v 0 := by
  have hd := fun v w => dot_mulVec_of_orth h.isRot.1 v w
  refine ⟨hd v w, ?_⟩
  have := hd v v
  simp only [V3.dot] at this
  simp only [Spec.dist, Isom.transform, Bool.not_true, V3.zero_x, V3.zero_y, V3.zero_z, sub_zero]
  congr 1
  simp only [Bool.false_eq_true, if_false]
  linarith

/-- C03: translations and their reset never change the image of a translational-invariant vector. -/
theorem C03_translation (s : Isom) (t : Isom.Shift) (a : Isom.TAxis) (f : Isom.Frame) (v : V3 ℝ) :
    (s.translation t a f).1.transform v true = s.transform v true ∧
    s.resetTranslate.1.transform v true = s.transform v true := by
  refine ⟨?_, rfl⟩
  unfold Isom.translation
  split
  · rfl
  · cases f <;> rfl

example : Reachable Isom.init ∧ (⟨1, 2, 3⟩ : V3 ℝ) ≠ 0 := ⟨.init, by simp [V3.ext_iff]⟩

/-! ## C04 -/

/-- C04, translations: in the 'origin' frame the shift is added after the current isometry, in the 'current' frame
before it; no exception. -/
theorem C04_translation (s : Isom) {t : Isom.Shift} {a : Isom.TAxis} {v : V3 ℝ} (h : ShiftMeans t a v) (p : V3 ℝ) :
    ((s.translation t a .origin).2 = none ∧
      (s.translation t a .origin).1.transform p false = s.transform p false + v) ∧
    ((s.translation t a .current).2 = none ∧
      (s.translation t a .current).1.transform p false = s.transform (p + v) false) := by
  simp only [Isom.translation, shiftMeans_vector h, Isom.transform, Bool.not_false, if_true, true_and]
  constructor
  · rw [add_assoc]
  · rw [M3.mulVec_add]; abel

/-- C04, rotations in the 'origin' frame: the rotation is applied after the current isometry, about (0, 0, 0). -/
theorem C04_rotation_origin (s : Isom) {a : Axis} {n : V3 ℝ} (h : AxisMeans a n) (angle : ℝ) (degree : Bool) (p : V3 ℝ)
    (ti : Bool) :
    (s.rotation angle a degree .origin).2 = none ∧
    (s.rotation angle a degree .origin).1.transform p ti = rodrigues n (radians angle degree) (s.transform p ti) := by
  rw [rotation_ok (axisMeans_getLos h)]
  refine ⟨rfl, ?_⟩
  rw [← axisMat_mulVec]
  cases ti <;> simp [Isom.dot, Isom.transform, M3.mulVec_mul, M3.mulVec_add]

/-- C04, `dot`: in the 'origin' frame the matrix is applied after the current isometry; in the 'current' frame it is
applied about the image of the origin by the current isometry, which stays where it is. -/
theorem C04_dot (s : Isom) (m : M3 ℝ) (p : V3 ℝ) :
    (s.dot m .origin).1.transform p false = m.mulVec (s.transform p false) ∧
    (s.dot m .current).1.transform p false
      = s.transform 0 false + m.mulVec (s.transform p false - s.transform 0 false) := by
  constructor
  · simp [Isom.dot, Isom.transform, M3.mulVec_mul, M3.mulVec_add]
  · simp [Isom.dot, Isom.transform, M3.mulVec_mul, M3.mulVec_zero, add_comm]

/-- What C04 asks of `rotation(frame='current')`: the image of the origin does not move. -/
def RotationCurrentFixesCenter : Prop :=
  ∀ (s : Isom), Reachable s → ∀ (a : Axis) (n : V3 ℝ), AxisMeans a n → ∀ (angle : ℝ),
    (s.rotation angle a true .current).1.transform 0 false = s.transform 0 false

/-- C04 is violated: `rotation` ignores `frame='current'` (`make_survey.py:158`). Translate by (1, 0, 0), then rotate by
180 degrees about 'z' in the 'current' frame: the image of the origin jumps from (1, 0, 0) to (-1, 0, 0). -/
theorem C04_rotation_current_violated : ¬ RotationCurrentFixesCenter := by
  intro h
  have hr : Reachable ((Isom.init.step (.translation (.vec ⟨1, 0, 0⟩) .none .origin)).1) := .step .init _ (by simp)
  have h1 := h _ hr (.str "z") _ AxisMeans.z 180
  rw [rotation_ok (axisMeans_getLos AxisMeans.z)] at h1
  have h2 := congrArg V3.x h1
  simp [Isom.step, Isom.translation, Isom.shiftVector, Isom.init, Isom.dot, Isom.transform, radians, axisMat, outer, skew]
    at h2
  norm_num at h2

/-- C04_partial: what `rotation` does in the 'current' frame is what it does in the 'origin' frame; the two frames agree
when the current isometry keeps the origin fixed. Missing: isometries that move the origin. -/
theorem C04_rotation_current_partial (s : Isom) (h0 : s.transform 0 false = 0) {a : Axis} {n : V3 ℝ} (h : AxisMeans a n)
    (angle : ℝ) (degree : Bool) (p : V3 ℝ) :
    (s.rotation angle a degree .current).1.transform p false
      = s.transform 0 false + rodrigues n (radians angle degree) (s.transform p false - s.transform 0 false) := by
  rw [h0, sub_zero, zero_add]
  exact (C04_rotation_origin s h angle degree p false).2

example : (Isom.init.rotation 30 (.str "z") true .origin).1.transform 0 false = 0 := by
  rw [(C04_rotation_origin Isom.init AxisMeans.z 30 true 0 false).2]
  ext <;> simp [rodrigues, Isom.init, Isom.transform, V3.cross, V3.dot]
example : AxisMeans (.vec ⟨3, 0, 4⟩) ⟨3 / 5, 0, 4 / 5⟩ :=
  .vec _ 5 (by norm_num) _ (by norm_num [V3.dot]) (by ext <;> norm_num)
example : ShiftMeans (.scalar 2) (.str "y") ⟨0, 2, 0⟩ := .y 2

/-! ## C05 -/

/-- C05: after `reset_rotation('origin')`, rotating back by the old rotation gives the old isometry; the new isometry
has no rotation left. -/
theorem C05_reset_rotation_origin {s : Isom} (h : Reachable s) (p : V3 ℝ) :
    (s.resetRotation .origin).2 = none ∧
    s.transform ((s.resetRotation .origin).1.transform p false) true = s.transform p false ∧
    (s.resetRotation .origin).1.transform p true = p := by
  refine ⟨rfl, ?_, ?_⟩
  · simp [Isom.resetRotation, Isom.transform, M3.one_mulVec, M3.mulVec_add, ← M3.mulVec_mul, mul_tr_of_orth h.isRot.1]
  · simp [Isom.resetRotation, Isom.transform, M3.one_mulVec]

/-- C05: after `reset_rotation('current')` what is left is the translation to the image of the origin. -/
theorem C05_reset_rotation_current (s : Isom) (p : V3 ℝ) :
    (s.resetRotation .current).2 = none ∧
    (s.resetRotation .current).1.transform p false = p + s.transform 0 false := by
  simp [Isom.resetRotation, Isom.transform, M3.one_mulVec, M3.mulVec_zero]

/-- C05: after `reset_translate` what is left is the rotation. -/
theorem C05_reset_translate (s : Isom) (p : V3 ℝ) (ti : Bool) :
    s.resetTranslate.2 = none ∧ s.resetTranslate.1.transform p ti = s.transform p true := by
  cases ti <;> simp [Isom.resetTranslate, Isom.transform]

/-! ## C06 -/

/-- C06: the matrix for a (valid) axis and an angle in degrees is the right-handed rotation about that axis, with no
exception. -/
theorem C06_rodrigues {a : Axis} {n : V3 ℝ} (h : AxisMeans a n) (angle : ℝ) :
    ∃ R, rotationFromVectorAngle a angle = .ok R ∧
      ∀ p, R.mulVec p = rodrigues n (angle * Real.pi / 180) p :=
  ⟨_, rotationFromVectorAngle_eq (axisMeans_getLos h) angle, fun p => axisMat_mulVec _ p⟩

/-- C06: Rodrigues' rotations are linear rotations; they fix the axis and turn orthogonal vectors by the angle; angles
add up; a whole number of turns is the identity. -/
theorem C06_laws {n : V3 ℝ} (hn : V3.dot n n = 1) (s t : ℝ) (p : V3 ℝ) (k : ℤ) :
    LinearRotation (rodrigues n t) ∧ rodrigues n t n = n ∧
    (V3.dot n p = 0 → rodrigues n t p = Real.cos t • p + Real.sin t • V3.cross n p) ∧
    rodrigues n s (rodrigues n t p) = rodrigues n (s + t) p ∧
    rodrigues n (k * (2 * Real.pi)) p = p := by
  have hn' : n.x ^ 2 + n.y ^ 2 + n.z ^ 2 = 1 := by
    simp only [V3.dot] at hn; linarith
  refine ⟨?_, ?_, ?_, ?_, ?_⟩
  · have := linearRotation_of_isRot (axisMat_isRot hn' t)
    have e : (axisMat n t).mulVec = rodrigues n t := funext fun p => axisMat_mulVec t p
    rwa [e] at this
  · obtain ⟨x, y, z⟩ := n
    simp only at hn'
    ext <;> simp [rodrigues, V3.cross, V3.dot]
    · linear_combination (1 - Real.cos t) * x * hn'
    · linear_combination (1 - Real.cos t) * y * hn'
    · linear_combination (1 - Real.cos t) * z * hn'
  · intro h0
    simp only [rodrigues, h0, mul_zero]
    ext <;> simp
  · rw [← axisMat_mulVec, ← axisMat_mulVec, ← axisMat_mulVec, ← M3.mulVec_mul, axisMat_add hn']
  · have hc := Real.cos_int_mul_two_pi k
    have hs : Real.sin (k * (2 * Real.pi)) = 0 := by
      have := Real.sin_add_int_mul_two_pi 0 k
      simpa using this
    simp only [rodrigues, hc, hs]
    ext <;> simp

/-- C06: invalid axes are rejected: other strings raise `ValueError`, integers out of range `IndexError`, the null
vector gives `nan`. -/
theorem C06_invalid (angle : ℝ) :
    rotationFromVectorAngle (.str "w") angle = .error .valueError ∧
    (∀ i : ℤ, (i < -3 ∨ 3 ≤ i) → rotationFromVectorAngle (.idx i) angle = .error .indexError) ∧
    rotationFromVectorAngle (.vec 0) angle = .error .nan := by
  refine ⟨?_, ?_, ?_⟩
  · simp [rotationFromVectorAngle, getLos, xyzIndex, bind, Except.bind]
  · intro i hi
    have : unitAt i (1 : ℝ) = .error .indexError := by
      unfold unitAt
      rw [if_neg (by omega), if_neg (by omega), if_neg (by omega)]
    simp [rotationFromVectorAngle, getLos, this, bind, Except.bind]
  · simp [rotationFromVectorAngle, getLos, Model.normalize, (V3.norm_eq_zero 0).2 rfl, bind, Except.bind]

/-- C06: what is not documented: negative integers count axes from the end, `None` means the diagonal, and a string is looked for in
`'xyz'`, so that a longer string means its first letter and the empty string the first axis; any other string raises `ValueError`. -/
theorem C06_other_axes (angle : ℝ) :
    (∀ i : ℤ, -3 ≤ i → i < 0 → rotationFromVectorAngle (.idx i) angle = rotationFromVectorAngle (.idx (i + 3)) angle) ∧
    rotationFromVectorAngle .none angle = rotationFromVectorAngle (.vec ⟨1, 1, 1⟩) angle ∧
    (∀ s ∈ ["", "xy", "xyz"], rotationFromVectorAngle (.str s) angle = rotationFromVectorAngle (.str "x") angle) ∧
    rotationFromVectorAngle (.str "yz") angle = rotationFromVectorAngle (.str "y") angle ∧
    (∀ s ∉ ["", "x", "xy", "xyz", "y", "yz", "z"], rotationFromVectorAngle (.str s) angle = .error .valueError) := by
  refine ⟨?_, rfl, ?_, ?_, ?_⟩
  · intro i h1 h2
    have : unitAt i (1 : ℝ) = unitAt (i + 3) 1 := by
      have : i = -3 ∨ i = -2 ∨ i = -1 := by omega
      rcases this with rfl | rfl | rfl <;> simp [unitAt]
    simp only [rotationFromVectorAngle, getLos, this]
  · intro s hs
    simp only [List.mem_cons, List.not_mem_nil, or_false] at hs
    rcases hs with rfl | rfl | rfl <;> simp [rotationFromVectorAngle, getLos, xyzIndex]
  · simp [rotationFromVectorAngle, getLos, xyzIndex]
  · intro s hs
    simp only [List.mem_cons, List.not_mem_nil, or_false, not_or] at hs
    simp [rotationFromVectorAngle, getLos, xyzIndex, hs, bind, Except.bind]

/-! ## C07 -/

/-- Two vectors point in opposite directions. -/
def Antiparallel (a b : V3 ℝ) : Prop := ∃ l : ℝ, l < 0 ∧ b = l • a

/-- C07, full statement: for all non-zero `a`, `b`, the matrix is a rotation sending the direction of `a` to that
of `b`. -/
def RotationBetween (a b : V3 ℝ) : Prop :=
  ∃ R, rotationFromTwoVectors a b = .ok R ∧ LinearRotation R.mulVec ∧ ∃ l : ℝ, 0 < l ∧ R.mulVec a = l • b

/-- C07_partial: the full statement, except for antiparallel vectors. -/
theorem C07_partial {a b : V3 ℝ} (ha : a ≠ 0) (hb : b ≠ 0) (hab : ¬ Antiparallel a b) : RotationBetween a b := by
  have hna := V3.norm_pos ha
  have hnb := V3.norm_pos hb
  obtain ⟨u, hu⟩ : ∃ u, Model.normalize a = .ok u := ⟨_, normalize_of_ne ha⟩
  obtain ⟨w, hw⟩ : ∃ w, Model.normalize b = .ok w := ⟨_, normalize_of_ne hb⟩
  obtain ⟨-, hu1, hua⟩ := normalize_ok hu
  obtain ⟨-, hw1, hwb⟩ := normalize_ok hw
  have hau : a = a.norm • u := by
    rw [hua]; ext <;> simp <;> field_simp
  have hbw : b = b.norm • w := by
    rw [hwb]; ext <;> simp <;> field_simp
  generalize a.norm = A at *
  generalize b.norm = B at *
  have hne : u ≠ -w := by
    intro e
    apply hab
    refine ⟨-(B / A), by have := div_pos hnb hna; linarith, ?_⟩
    conv_rhs => rw [hau, e]
    conv_lhs => rw [hbw]
    ext <;> simp <;> field_simp
  obtain ⟨R, hR, hrot, huw⟩ := rotationFromTwoVectors_units hu1 hw1 hne
  refine ⟨R, ?_, linearRotation_of_isRot hrot, A / B, div_pos hna hnb, ?_⟩
  · rw [← hR]
    simp only [rotationFromTwoVectors, hu, hw, normalize_unit hu1, normalize_unit hw1, bind, Except.bind]
  · conv_lhs => rw [hau]
    rw [M3.mulVec_smul, huw, hwb]
    ext <;> simp <;> ring

/-- C07 is violated for antiparallel vectors: the identity is returned (`make_survey.py:34-35`). -/
theorem C07_violated : ¬ ∀ a b : V3 ℝ, a ≠ 0 → b ≠ 0 → RotationBetween a b := by
  intro h
  obtain ⟨R, hR, -, l, hl, hRl⟩ := h ⟨1, 0, 0⟩ ⟨-1, 0, 0⟩ (by simp [V3.ext_iff]) (by simp [V3.ext_iff])
  have n1 : Model.normalize ⟨1, 0, 0⟩ = .ok ⟨1, 0, 0⟩ := normalize_unit (by norm_num)
  have n2 : Model.normalize ⟨-1, 0, 0⟩ = .ok ⟨-1, 0, 0⟩ := normalize_unit (by norm_num)
  have hv : V3.cross (⟨1, 0, 0⟩ : V3 ℝ) ⟨-1, 0, 0⟩ = 0 := by ext <;> simp [V3.cross]
  simp [rotationFromTwoVectors, n1, n2, hv, (V3.norm_eq_zero 0).2 rfl, bind, Except.bind, pure, Except.pure] at hR
  subst hR
  have := congrArg V3.x hRl
  simp [M3.one_mulVec] at this
  linarith

example : (⟨0, 1, 2⟩ : V3 ℝ) ≠ 0 ∧ (⟨0, 2, 1⟩ : V3 ℝ) ≠ 0 ∧ ¬ Antiparallel ⟨0, 1, 2⟩ ⟨0, 2, 1⟩ := by
  refine ⟨by simp [V3.ext_iff], by simp [V3.ext_iff], ?_⟩
  rintro ⟨l, hl, h⟩
  have := congrArg V3.y h
  simp at this
  linarith

/-! ## C62 : `is_identity` -/

/-- C62: `is_identity()` is true exactly when positions are unchanged, `is_identity(translational_invariant=True)`
exactly when translational-invariant vectors are. -/
theorem C62_is_identity (s : Isom) (ti : Bool) :
    s.isIdentity ti = true ↔ ∀ p, s.transform p ti = p := by
  constructor
  · intro h p
    cases ti <;> simp [Isom.isIdentity] at h
    · simp [Isom.transform, h.1, h.2, M3.one_mulVec]
    · simp [Isom.transform, h, M3.one_mulVec]
  · intro h
    cases ti
    · have := isom_eq_of_transform (a := s) (b := Isom.init) (fun x => by
        rw [h x]; simp [Isom.init, Isom.transform, M3.one_mulVec])
      simp [this, Isom.isIdentity, Isom.init]
    · have := isom_eq_of_transform (a := ⟨s.rot, 0⟩) (b := Isom.init) (fun x => by
        have := h x
        simp [Isom.transform] at this
        simp [Isom.init, Isom.transform, M3.one_mulVec, this])
      have h2 := congrArg Isom.rot this
      simp [Isom.init] at h2
      simp [h2, Isom.isIdentity]

/-! ## C63 : rejected calls -/

/-- C63, full statement: a call that raises leaves the isometry as it was. -/
def RejectedUnchanged (op : Isom.Op) : Prop := ∀ s : Isom, (s.step op).2 ≠ none → (s.step op).1 = s

/-- C63_partial: true of every call except `dot`. -/
theorem C63_rejected_partial (op : Isom.Op) (h : ∀ m f, op ≠ .dot m f) : RejectedUnchanged op := by
  intro s
  cases op with
  | dot m f => exact absurd rfl (h m f)
  | rotation angle axis degree f =>
    simp only [Isom.step]
    cases h : getLos axis with
    | error e => intro _; simp [Isom.rotation, h]
    | ok n => rw [rotation_ok h]; simp [Isom.dot]
  | translation t a f =>
    simp only [Isom.step, Isom.translation]
    split
    · intro _; rfl
    · cases f <;> simp
  | resetRotation f => cases f <;> simp [Isom.step, Isom.resetRotation]
  | resetTranslate => simp [Isom.step, Isom.resetTranslate]

/-- C63 is violated by `dot` with an unknown frame: the rotation is registered, then the exception raised
(`make_survey.py:126-130`). -/
theorem C63_rejected_violated : ∃ m, LinearRotation m.mulVec ∧ ¬ RejectedUnchanged (.dot m .other) := by
  refine ⟨⟨-1, 0, 0, 0, -1, 0, 0, 0, 1⟩, ?_, ?_⟩
  · apply linearRotation_of_isRot
    constructor
    · ext <;> simp
    · simp [M3.det]
  · intro h
    have := h Isom.init (by simp [Isom.step, Isom.dot])
    have := congrArg (fun s => s.rot.m00) this
    simp [Isom.step, Isom.dot, Isom.init] at this
    linarith

example : (Isom.init.step (.translation (.vec ⟨1, 0, 0⟩) (.str "x") .origin)).2 ≠ none := by
  simp [Isom.step, Isom.translation, Isom.shiftVector]

end Verif.Props
