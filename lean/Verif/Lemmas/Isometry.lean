import Mathlib.Analysis.SpecialFunctions.Trigonometric.Inverse
import Verif.Model.Isometry
import Verif.Spec.Axis
import Mathlib.Tactic.FieldSimp
import Mathlib.Tactic.Linarith

namespace Verif.Model
open Verif

/-- Matrix form of a rotation. -/
def IsRot (R : M3 ℝ) : Prop := R.tr * R = 1 ∧ R.det = 1

theorem IsRot.one : IsRot 1 := by
  refine ⟨?_, M3.det_one⟩
  rw [M3.tr_one, M3.one_mul']

theorem IsRot.mul {a b : M3 ℝ} (ha : IsRot a) (hb : IsRot b) : IsRot (a * b) := by
  refine ⟨?_, ?_⟩
  · rw [M3.tr_mul, M3.mul_assoc', ← M3.mul_assoc' a.tr a b, ha.1, M3.one_mul', hb.1]
  · rw [M3.det_mul, ha.2, hb.2, one_mul]

theorem IsRot.entries {R : M3 ℝ} (h : R.tr * R = 1) :
    (R.m00 * R.m00 + R.m10 * R.m10 + R.m20 * R.m20 = 1 ∧ R.m01 * R.m01 + R.m11 * R.m11 + R.m21 * R.m21 = 1 ∧
      R.m02 * R.m02 + R.m12 * R.m12 + R.m22 * R.m22 = 1) ∧
    (R.m00 * R.m01 + R.m10 * R.m11 + R.m20 * R.m21 = 0 ∧ R.m00 * R.m02 + R.m10 * R.m12 + R.m20 * R.m22 = 0 ∧
      R.m01 * R.m02 + R.m11 * R.m12 + R.m21 * R.m22 = 0) := by
  have h00 := congrArg M3.m00 h
  have h11 := congrArg M3.m11 h
  have h22 := congrArg M3.m22 h
  have h01 := congrArg M3.m01 h
  have h02 := congrArg M3.m02 h
  have h12 := congrArg M3.m12 h
  simp at h00 h11 h22 h01 h02 h12
  exact ⟨⟨h00, h11, h22⟩, h01, h02, h12⟩

theorem dot_mulVec_of_orth {R : M3 ℝ} (h : R.tr * R = 1) (p q : V3 ℝ) :
    V3.dot (R.mulVec p) (R.mulVec q) = V3.dot p q := by
  rw [M3.dot_mulVec, ← M3.mulVec_mul, h, M3.one_mulVec]

theorem triple_mulVec (R : M3 ℝ) (a b c : V3 ℝ) :
    Spec.triple (R.mulVec a) (R.mulVec b) (R.mulVec c) = R.det * Spec.triple a b c := by
  simp [Spec.triple, M3.det]; ring

/-- The adjugate identity: an orthogonal matrix also satisfies `R * R.tr = 1`. -/
theorem mul_tr_of_orth {R : M3 ℝ} (h : R.tr * R = 1) : R * R.tr = 1 := by
  -- R.tr * R = 1 gives det^2 = 1; the adjugate is then det * R.tr
  have hd : R.det * R.det = 1 := by
    have := congrArg M3.det h
    rwa [M3.det_mul, M3.det_tr, M3.det_one] at this
  let adj : M3 ℝ := ⟨R.m11 * R.m22 - R.m12 * R.m21, R.m02 * R.m21 - R.m01 * R.m22, R.m01 * R.m12 - R.m02 * R.m11,
    R.m12 * R.m20 - R.m10 * R.m22, R.m00 * R.m22 - R.m02 * R.m20, R.m02 * R.m10 - R.m00 * R.m12,
    R.m10 * R.m21 - R.m11 * R.m20, R.m01 * R.m20 - R.m00 * R.m21, R.m00 * R.m11 - R.m01 * R.m10⟩
  have hadj : R * adj = R.det • (1 : M3 ℝ) := by
    ext <;> simp [adj, M3.det] <;> ring
  have h1 : R.tr * (R * adj) = adj := by rw [← M3.mul_assoc', h, M3.one_mul']
  rw [hadj] at h1
  have h2 : adj = R.det • R.tr := by
    rw [← h1]; ext <;> simp <;> ring
  rw [h2] at hadj
  have h3 : R * R.tr = (R.det * R.det) • (R * R.tr) := by rw [hd]; ext <;> simp
  have h4 : (R.det * R.det) • (R * R.tr) = R.det • (R * (R.det • R.tr)) := by ext <;> simp <;> ring
  rw [h3, h4, hadj]
  have : R.det • (R.det • (1 : M3 ℝ)) = (R.det * R.det) • (1 : M3 ℝ) := by ext <;> simp
  rw [this, hd]; ext <;> simp

theorem normalize_ok {v u : V3 ℝ} (h : normalize v = .ok u) :
    v ≠ 0 ∧ u.x ^ 2 + u.y ^ 2 + u.z ^ 2 = 1 ∧ u = (1 / v.norm) • v := by
  unfold normalize at h
  split at h
  · simp at h
  · rename_i hn
    have hv : v ≠ 0 := fun h0 => hn ((V3.norm_eq_zero v).2 h0)
    have hpos := V3.norm_pos hv
    injection h with h
    subst h
    refine ⟨hv, ?_, ?_⟩
    · have := V3.norm_sq v
      field_simp
      linarith
    · ext <;> simp <;> field_simp

theorem normalize_of_ne {v : V3 ℝ} (h : v ≠ 0) : normalize v = .ok ⟨v.x / v.norm, v.y / v.norm, v.z / v.norm⟩ := by
  unfold normalize
  rw [if_neg]
  exact fun h0 => h ((V3.norm_eq_zero v).1 h0)

theorem normalize_unit {v : V3 ℝ} (h : v.x ^ 2 + v.y ^ 2 + v.z ^ 2 = 1) : normalize v = .ok v := by
  have hn := V3.norm_eq_one_of_sq h
  unfold normalize
  rw [hn]; simp

theorem getLos_unit {a : Axis} {v : V3 ℝ} (h : getLos a = .ok v) : v.x ^ 2 + v.y ^ 2 + v.z ^ 2 = 1 := by
  cases a with
  | str s =>
    simp only [getLos, bind, Except.bind] at h
    split at h
    · simp at h
    · split at h
      · simp at h
      · exact (normalize_ok h).2.1
  | idx i =>
    simp only [getLos, bind, Except.bind] at h
    split at h
    · simp at h
    · exact (normalize_ok h).2.1
  | vec w => exact (normalize_ok h).2.1
  | none => exact (normalize_ok h).2.1

/-- The axis-angle matrix, once the axis is normalised and the angle in radians. -/
noncomputable def axisMat (v : V3 ℝ) (t : ℝ) : M3 ℝ :=
  outer v + Real.cos t • (1 - outer v) + Real.sin t • skew v

theorem axisMat_zero (v : V3 ℝ) : axisMat v 0 = 1 := by
  ext <;> simp [axisMat, outer, skew]

theorem rotationFromVectorAngle_eq {a : Axis} {v : V3 ℝ} (h : getLos a = .ok v) (t : ℝ) :
    rotationFromVectorAngle a t = .ok (axisMat v (t * Real.pi / 180)) := by
  unfold rotationFromVectorAngle
  simp only [h, bind, Except.bind, pure, Except.pure]
  split
  · rename_i h0; rw [h0, axisMat_zero]
  · rfl

theorem mul_expand (P Q : M3 ℝ) (c s c' s' : ℝ) :
    (P + c • (1 - P) + s • Q) * (P + c' • (1 - P) + s' • Q) =
      P * P + c' • (P - P * P) + s' • (P * Q) + c • (P - P * P) + (c * c') • (1 - P - P + P * P)
        + (c * s') • (Q - P * Q) + s • (Q * P) + (s * c') • (Q - Q * P) + (s * s') • (Q * Q) := by
  ext <;> simp <;> ring

theorem outer_mul_outer {v : V3 ℝ} (h : v.x ^ 2 + v.y ^ 2 + v.z ^ 2 = 1) : outer v * outer v = outer v := by
  obtain ⟨x, y, z⟩ := v
  simp only at h
  ext <;> simp [outer]
  · linear_combination (x * x) * h
  · linear_combination (x * y) * h
  · linear_combination (x * z) * h
  · linear_combination (y * x) * h
  · linear_combination (y * y) * h
  · linear_combination (y * z) * h
  · linear_combination (z * x) * h
  · linear_combination (z * y) * h
  · linear_combination (z * z) * h

theorem skew_mul_skew {v : V3 ℝ} (h : v.x ^ 2 + v.y ^ 2 + v.z ^ 2 = 1) : skew v * skew v = outer v - 1 := by
  obtain ⟨x, y, z⟩ := v
  simp only at h
  ext <;> simp [outer, skew]
  · linear_combination -h
  · ring
  · ring
  · ring
  · linear_combination -h
  · ring
  · ring
  · ring
  · linear_combination -h

theorem axisMat_add {v : V3 ℝ} (h : v.x ^ 2 + v.y ^ 2 + v.z ^ 2 = 1) (s t : ℝ) :
    axisMat v s * axisMat v t = axisMat v (s + t) := by
  unfold axisMat
  rw [mul_expand, outer_mul_outer h, skew_mul_skew h, Real.cos_add, Real.sin_add]
  ext <;> simp [outer, skew] <;> ring

theorem axisMat_tr (v : V3 ℝ) (t : ℝ) : (axisMat v t).tr = axisMat v (-t) := by
  ext <;> simp [axisMat, outer, skew] <;> ring

theorem axisMat_isRot {v : V3 ℝ} (h : v.x ^ 2 + v.y ^ 2 + v.z ^ 2 = 1) (t : ℝ) : IsRot (axisMat v t) := by
  have horth : ∀ t, (axisMat v t).tr * axisMat v t = 1 := by
    intro t
    rw [axisMat_tr, axisMat_add h, neg_add_cancel, axisMat_zero]
  refine ⟨horth t, ?_⟩
  have hd : ∀ t, (axisMat v t).det * (axisMat v t).det = 1 := by
    intro t
    have := congrArg M3.det (horth t)
    rwa [M3.det_mul, M3.det_tr, M3.det_one] at this
  have h2 : axisMat v t = axisMat v (t / 2) * axisMat v (t / 2) := by
    rw [axisMat_add h, add_halves]
  rw [h2, M3.det_mul, hd]

end Verif.Model

namespace Verif.Model
open Verif Verif.Spec

theorem isRot_of_linearRotation {m : M3 ℝ} (h : LinearRotation m.mulVec) : IsRot m := by
  obtain ⟨-, hd, ht⟩ := h
  have d := fun p q => hd p q
  have h00 := d ⟨1, 0, 0⟩ ⟨1, 0, 0⟩
  have h11 := d ⟨0, 1, 0⟩ ⟨0, 1, 0⟩
  have h22 := d ⟨0, 0, 1⟩ ⟨0, 0, 1⟩
  have h01 := d ⟨1, 0, 0⟩ ⟨0, 1, 0⟩
  have h02 := d ⟨1, 0, 0⟩ ⟨0, 0, 1⟩
  have h12 := d ⟨0, 1, 0⟩ ⟨0, 0, 1⟩
  simp [V3.dot] at h00 h11 h22 h01 h02 h12
  refine ⟨?_, ?_⟩
  · ext <;> simp <;> linarith
  · have := ht ⟨1, 0, 0⟩ ⟨0, 1, 0⟩ ⟨0, 0, 1⟩
    rw [triple_mulVec] at this
    simpa [triple] using this

theorem linearRotation_of_isRot {m : M3 ℝ} (h : IsRot m) : LinearRotation m.mulVec := by
  refine ⟨?_, ?_, ?_⟩
  · intro a p q; rw [M3.mulVec_add, M3.mulVec_smul]
  · exact dot_mulVec_of_orth h.1
  · intro a b c; rw [triple_mulVec, h.2, one_mul]

theorem axisMeans_getLos {a : Axis} {n : V3 ℝ} (h : AxisMeans a n) : getLos a = .ok n := by
  have key : ∀ n : V3 ℝ, n.x ^ 2 + n.y ^ 2 + n.z ^ 2 = 1 → normalize n = .ok n := fun n => normalize_unit
  cases h with
  | vec v l hl n hn hv =>
    have hn' : n.x ^ 2 + n.y ^ 2 + n.z ^ 2 = 1 := by
      simp [V3.dot] at hn; linarith
    have hnorm : v.norm = l := by
      have : v.norm ^ 2 = l ^ 2 := by
        rw [V3.norm_sq, hv]; simp
        linear_combination l ^ 2 * hn'
      exact (pow_left_inj₀ (V3.norm_nonneg v) hl.le (by norm_num)).1 this
    simp only [getLos, normalize, hnorm]
    rw [if_neg hl.ne']
    congr 1
    rw [hv]; ext <;> simp <;> field_simp
  | _ => 
    simp [getLos, xyzIndex, unitAt, bind, Except.bind]
    exact key _ (by norm_num)

theorem axisMeans_unit {a : Axis} {n : V3 ℝ} (h : AxisMeans a n) : n.x ^ 2 + n.y ^ 2 + n.z ^ 2 = 1 :=
  getLos_unit (axisMeans_getLos h)

theorem axisMat_mulVec {n : V3 ℝ} (t : ℝ) (p : V3 ℝ) : (axisMat n t).mulVec p = rodrigues n t p := by
  ext <;> simp [axisMat, rodrigues, outer, skew, V3.cross, V3.dot] <;> ring

theorem shiftMeans_vector {s : Isom.Shift} {a : Isom.TAxis} {v : V3 ℝ} (h : ShiftMeans s a v) :
    Isom.shiftVector s a = .ok v := by
  cases h <;> simp [Isom.shiftVector, xyzIndex, unitAt, V3.const, bind, Except.bind]

theorem rotation_ok {a : Axis} {n : V3 ℝ} (h : getLos a = .ok n) (s : Isom) (angle : ℝ) (degree : Bool) (f : Isom.Frame) :
    s.rotation angle a degree f = s.dot (axisMat n (radians angle degree)) .origin := by
  have hn := getLos_unit h
  have h2 : getLos (.vec n) = .ok n := normalize_unit hn
  simp only [Isom.rotation, h, rotationFromVectorAngle_eq h2]
  congr 2
  unfold radians
  cases degree
  · have := Real.pi_ne_zero
    simp [this]
  · simp

theorem isRot_step {s : Isom} (hs : IsRot s.rot) (op : Isom.Op) (hop : ∀ m f, op = .dot m f → IsRot m) :
    IsRot (s.step op).1.rot := by
  cases op with
  | dot m f =>
    have := (hop m f rfl).mul hs
    cases f <;> exact this
  | rotation angle axis degree f =>
    simp only [Isom.step]
    cases h : getLos axis with
    | error e => simpa [Isom.rotation, h] using hs
    | ok n =>
      rw [rotation_ok h]
      exact (axisMat_isRot (getLos_unit h) _).mul hs
  | translation t a f =>
    simp only [Isom.step, Isom.translation]
    split
    · exact hs
    · cases f <;> exact hs
  | resetRotation f => cases f <;> first | exact IsRot.one | exact hs
  | resetTranslate => exact hs

theorem concatenate_foldl (l : List Isom) (s : Isom) (x : V3 ℝ) (b : Bool) :
    (l.foldl (fun new other => (⟨other.rot * new.rot, other.rot.mulVec new.trans + other.trans⟩ : Isom)) s).transform x b
      = l.foldl (fun y t => t.transform y b) (s.transform x b) := by
  induction l generalizing s with
  | nil => rfl
  | cons a l ih =>
    rw [List.foldl_cons, ih, List.foldl_cons]
    congr 1
    cases b <;> simp [Isom.transform, M3.mulVec_mul, M3.mulVec_add, add_assoc]

theorem isRot_concatenate (l : List Isom) (h : ∀ o ∈ l, IsRot o.rot) : IsRot (Isom.concatenate l).rot := by
  unfold Isom.concatenate
  suffices ∀ s : Isom, IsRot s.rot → IsRot (l.foldl (fun new other =>
      (⟨other.rot * new.rot, other.rot.mulVec new.trans + other.trans⟩ : Isom)) s).rot from
    this _ IsRot.one
  induction l with
  | nil => intro s hs; exact hs
  | cons a l ih =>
    intro s hs
    exact ih (fun o ho => h o (List.mem_cons_of_mem _ ho)) _ ((h a (List.mem_cons_self ..)).mul hs)

theorem isom_eq_of_transform {a b : Isom} (h : ∀ x, a.transform x false = b.transform x false) : a = b := by
  obtain ⟨ra, ta⟩ := a
  obtain ⟨rb, tb⟩ := b
  have h0 := h 0
  simp [Isom.transform, M3.mulVec_zero] at h0
  subst h0
  have hx := h ⟨1, 0, 0⟩
  have hy := h ⟨0, 1, 0⟩
  have hz := h ⟨0, 0, 1⟩
  simp [Isom.transform, V3.ext_iff] at hx hy hz
  obtain ⟨a1, a2, a3⟩ := hx
  obtain ⟨b1, b2, b3⟩ := hy
  obtain ⟨c1, c2, c3⟩ := hz
  congr 1
  ext <;> assumption

theorem eq_zero_of_sum_sq {a b c : ℝ} (h : a ^ 2 + b ^ 2 + c ^ 2 = 0) : a = 0 ∧ b = 0 ∧ c = 0 := by
  have := sq_nonneg a; have := sq_nonneg b; have := sq_nonneg c
  exact ⟨pow_eq_zero_iff (two_ne_zero) |>.1 (by linarith), pow_eq_zero_iff (two_ne_zero) |>.1 (by linarith),
    pow_eq_zero_iff (two_ne_zero) |>.1 (by linarith)⟩

/-- The matrix of `rotation_matrix_from_two_vectors`, for non-parallel unit vectors, is that of the rotation about
`v / |v|` by the angle of cosine `c`. -/
theorem twoVectors_axisMat {v : V3 ℝ} {c : ℝ} (hs : 0 < v.norm) (hs2 : v.norm ^ 2 = 1 - c ^ 2) :
    IsRot (1 + skew v + ((1 - c) / v.norm ^ 2) • (skew v * skew v)) := by
  have hc1 : -1 ≤ c := by nlinarith [sq_nonneg v.norm]
  have hc2 : c ≤ 1 := by nlinarith [sq_nonneg v.norm]
  have hcos : Real.cos (Real.arccos c) = c := Real.cos_arccos hc1 hc2
  have hsin : Real.sin (Real.arccos c) = v.norm := by
    rw [Real.sin_arccos, ← hs2, Real.sqrt_sq hs.le]
  obtain ⟨n, hn⟩ : ∃ n, n = (1 / v.norm) • v := ⟨_, rfl⟩
  have hne := hs.ne'
  have hn1 : n.x ^ 2 + n.y ^ 2 + n.z ^ 2 = 1 := by
    have := V3.norm_sq v
    simp only [hn, V3.smul_x, V3.smul_y, V3.smul_z]
    field_simp
    linarith
  have hvn : v = v.norm • n := by
    rw [hn]; ext <;> simp <;> field_simp
  have hk : skew v = v.norm • skew n := by
    conv_lhs => rw [hvn]
    ext <;> simp [skew]
  have hkk : skew v * skew v = (v.norm ^ 2) • (outer n - 1) := by
    rw [hk, ← skew_mul_skew hn1]
    ext <;> simp <;> ring
  have : 1 + skew v + ((1 - c) / v.norm ^ 2) • (skew v * skew v) = axisMat n (Real.arccos c) := by
    have e : ((1 - c) / v.norm ^ 2) • ((v.norm ^ 2) • (outer n - 1)) = (1 - c) • (outer n - 1) := by
      ext <;> simp <;> field_simp
    rw [hkk, e, axisMat, hcos, hsin, hk]
    ext <;> simp <;> ring
  rw [this]
  exact axisMat_isRot hn1 _

theorem skew_cross_left {u w : V3 ℝ} (hu : u.x ^ 2 + u.y ^ 2 + u.z ^ 2 = 1) :
    (skew (V3.cross u w)).mulVec u = w - (V3.dot u w) • u := by
  obtain ⟨x, y, z⟩ := u
  obtain ⟨x', y', z'⟩ := w
  simp only at hu
  ext <;> simp [skew, V3.cross, V3.dot]
  · linear_combination x' * hu
  · linear_combination y' * hu
  · linear_combination z' * hu

theorem skew_cross_right {u w : V3 ℝ} (hw : w.x ^ 2 + w.y ^ 2 + w.z ^ 2 = 1) :
    (skew (V3.cross u w)).mulVec w = (V3.dot u w) • w - u := by
  obtain ⟨x, y, z⟩ := u
  obtain ⟨x', y', z'⟩ := w
  simp only at hw
  ext <;> simp [skew, V3.cross, V3.dot]
  · linear_combination (-x) * hw
  · linear_combination (-y) * hw
  · linear_combination (-z) * hw

theorem rotationFromTwoVectors_units {u w : V3 ℝ} (hu : u.x ^ 2 + u.y ^ 2 + u.z ^ 2 = 1)
    (hw : w.x ^ 2 + w.y ^ 2 + w.z ^ 2 = 1) (hne : u ≠ -w) :
    ∃ R, rotationFromTwoVectors u w = .ok R ∧ IsRot R ∧ R.mulVec u = w := by
  simp only [rotationFromTwoVectors, normalize_unit hu, normalize_unit hw, bind, Except.bind, pure, Except.pure]
  have hlag : (V3.cross u w).norm ^ 2 = 1 - (V3.dot u w) ^ 2 := by
    have : (V3.cross u w).x ^ 2 + (V3.cross u w).y ^ 2 + (V3.cross u w).z ^ 2 + (V3.dot u w) ^ 2
        = (u.x ^ 2 + u.y ^ 2 + u.z ^ 2) * (w.x ^ 2 + w.y ^ 2 + w.z ^ 2) := by
      simp only [V3.cross, V3.dot]; ring
    rw [hu, hw] at this
    rw [V3.norm_sq]; linarith
  by_cases hs : (V3.cross u w).norm = 0
  · rw [if_pos hs]
    refine ⟨1, rfl, IsRot.one, ?_⟩
    rw [M3.one_mulVec]
    rw [hs] at hlag
    have hc1 : V3.dot u w = 1 ∨ V3.dot u w = -1 := by
      have : (V3.dot u w - 1) * (V3.dot u w + 1) = 0 := by linarith
      rcases mul_eq_zero.1 this with h | h
      · left; linarith
      · right; linarith
    simp only [V3.dot] at hc1
    rcases hc1 with hc1 | hc1
    · have := eq_zero_of_sum_sq (a := u.x - w.x) (b := u.y - w.y) (c := u.z - w.z) (by linarith)
      ext <;> linarith
    · exfalso
      apply hne
      have := eq_zero_of_sum_sq (a := u.x + w.x) (b := u.y + w.y) (c := u.z + w.z) (by linarith)
      ext <;> simp <;> linarith
  · rw [if_neg hs]
    have hspos : 0 < (V3.cross u w).norm := lt_of_le_of_ne (V3.norm_nonneg _) (Ne.symm hs)
    refine ⟨_, rfl, twoVectors_axisMat hspos hlag, ?_⟩
    have hne2 : (V3.cross u w).norm ^ 2 ≠ 0 := by positivity
    rw [hlag] at hne2 ⊢
    have key : ((1 - V3.dot u w) / (1 - V3.dot u w ^ 2)) * (1 - V3.dot u w ^ 2) = 1 - V3.dot u w := by
      field_simp
    have e : ∀ (K : M3 ℝ) (b : ℝ), (1 + K + b • (K * K)).mulVec u = u + K.mulVec u + b • K.mulVec (K.mulVec u) := by
      intro K b
      ext <;> simp <;> ring
    rw [e, skew_cross_left hu, M3.mulVec_sub, M3.mulVec_smul, skew_cross_left hu, skew_cross_right hw]
    generalize (1 - V3.dot u w) / (1 - V3.dot u w ^ 2) = β at key
    generalize V3.dot u w = c at key
    ext <;> simp
    · linear_combination (-u.x) * key
    · linear_combination (-u.y) * key
    · linear_combination (-u.z) * key

end Verif.Model
