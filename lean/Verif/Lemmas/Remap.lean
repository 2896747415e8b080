import Verif.Model.Remap
import Verif.Lemmas.Isometry
import Mathlib.Tactic.Positivity

/-!
# Lemmas on the remapping model
-/

namespace Verif.Model.Remap
open Verif Verif.Model

/-! ## Orthogonalisation -/

/-- What the construction needs to know of the basis `e` and the lattice `u`. -/
structure Basis (u1 u2 u3 e1 e2 e3 : V3 ℝ) : Prop where
  o12 : V3.dot e1 e2 = 0
  o13 : V3.dot e1 e3 = 0
  o23 : V3.dot e2 e3 = 0
  p1 : 0 < V3.dot e1 e1
  p2 : 0 < V3.dot e2 e2
  p3 : 0 < V3.dot e3 e3
  e11 : V3.dot e1 u1 = V3.dot e1 e1
  e21 : V3.dot e2 u1 = 0
  e31 : V3.dot e3 u1 = 0
  e22 : V3.dot e2 u2 = V3.dot e2 e2
  e32 : V3.dot e3 u2 = 0
  e33 : V3.dot e3 u3 = V3.dot e3 e3
  det : det3 e1 e2 e3 = det3 u1 u2 u3

theorem dot_add_right (a b c : V3 ℝ) : V3.dot a (b + c) = V3.dot a b + V3.dot a c := by
  simp [V3.dot]; ring
theorem dot_sub_right (a b c : V3 ℝ) : V3.dot a (b - c) = V3.dot a b - V3.dot a c := by
  simp [V3.dot]; ring
theorem dot_smul_right (a b : V3 ℝ) (r : ℝ) : V3.dot a (r • b) = r * V3.dot a b := by
  simp [V3.dot]; ring
theorem dot_comm' (a b : V3 ℝ) : V3.dot a b = V3.dot b a := by
  simp [V3.dot]; ring

theorem dot_self_pos_of {a : V3 ℝ} (h : a ≠ 0) : 0 < V3.dot a a := by
  have := V3.norm_pos h
  have h2 := V3.norm_sq a
  have : 0 < a.norm ^ 2 := by positivity
  simp only [V3.dot]; linarith

theorem dot_self_eq_norm (a : V3 ℝ) : V3.dot a a = a.norm ^ 2 := by
  rw [V3.norm_sq]; simp only [V3.dot]; ring

theorem basis_of_det {u1 u2 u3 : V3 ℝ} (h : det3 u1 u2 u3 ≠ 0) :
    Basis u1 u2 u3 (orthogonalize u1 u2 u3).1 (orthogonalize u1 u2 u3).2.1 (orthogonalize u1 u2 u3).2.2 := by
  obtain ⟨e1, e2, e3, he⟩ : ∃ e1 e2 e3, orthogonalize u1 u2 u3 = (e1, e2, e3) := ⟨_, _, _, rfl⟩
  rw [he]
  simp only
  simp only [orthogonalize, Prod.mk.injEq] at he
  obtain ⟨rfl, h2, h3⟩ := he
  have p1 : 0 < V3.dot u1 u1 := by
    apply dot_self_pos_of
    rintro rfl
    simp [det3] at h
  generalize ha : -V3.dot u1 u2 / V3.dot u1 u1 = α at h2 h3
  have hα : α * V3.dot u1 u1 = -V3.dot u1 u2 := by rw [← ha]; field_simp
  have hdet2 : det3 u1 e2 u3 ≠ 0 := by
    have : det3 u1 e2 u3 = det3 u1 u2 u3 := by rw [← h2]; simp [det3]; ring
    rwa [this]
  have p2 : 0 < V3.dot e2 e2 := by
    apply dot_self_pos_of
    rintro rfl
    simp [det3] at hdet2
  have o12 : V3.dot u1 e2 = 0 := by
    rw [← h2, dot_add_right, dot_smul_right, hα]; ring
  have e22 : V3.dot e2 u2 = V3.dot e2 e2 := by
    have : u2 = e2 - α • u1 := by rw [← h2]; ext <;> simp
    conv_lhs => rw [this]
    rw [dot_sub_right, dot_smul_right, dot_comm' e2 u1, o12]; ring
  have hden : α * V3.dot u1 u2 + V3.dot u2 u2 = V3.dot e2 e2 := by
    rw [← e22, dot_comm' e2 u2]
    conv_rhs => rw [← h2]
    rw [dot_add_right, dot_smul_right, dot_comm' u2 u1]; ring
  rw [hden] at h3
  generalize hg : -(α * V3.dot u1 u3 + V3.dot u2 u3) / V3.dot e2 e2 = γ at h3
  generalize hb : -(V3.dot u1 u3 + γ * V3.dot u1 u2) / V3.dot u1 u1 = β at h3
  have hγ : γ * V3.dot e2 e2 = -(α * V3.dot u1 u3 + V3.dot u2 u3) := by rw [← hg]; field_simp
  have hβ : β * V3.dot u1 u1 = -(V3.dot u1 u3 + γ * V3.dot u1 u2) := by rw [← hb]; field_simp
  have hdet3 : det3 u1 e2 e3 = det3 u1 u2 u3 := by
    rw [← h3, ← h2]; simp [det3]; ring
  have p3 : 0 < V3.dot e3 e3 := by
    apply dot_self_pos_of
    rintro rfl
    rw [← hdet3] at h
    simp [det3] at h
  have o13 : V3.dot u1 e3 = 0 := by
    rw [← h3, dot_add_right, dot_add_right, dot_smul_right, dot_smul_right, hβ]; ring
  have o23 : V3.dot e2 e3 = 0 := by
    rw [← h3, dot_add_right, dot_add_right, dot_smul_right, dot_smul_right, e22, hγ, dot_comm' e2 u1, o12]
    rw [dot_comm' e2 u3, ← h2, dot_add_right, dot_smul_right, dot_comm' u3 u2, dot_comm' u3 u1]; ring
  have e32 : V3.dot e3 u2 = 0 := by
    have : u2 = e2 - α • u1 := by rw [← h2]; ext <;> simp
    rw [this, dot_sub_right, dot_smul_right, dot_comm' e3 e2, o23, dot_comm' e3 u1, o13]; ring
  have e33 : V3.dot e3 u3 = V3.dot e3 e3 := by
    have : u3 = e3 - β • u1 - γ • u2 := by rw [← h3]; ext <;> simp <;> ring
    rw [this, dot_sub_right, dot_sub_right, dot_smul_right, dot_smul_right, dot_comm' e3 u1, o13, e32]; ring
  exact ⟨o12, o13, o23, p1, p2, p3, rfl, by rw [dot_comm', o12], by rw [dot_comm', o13], e22, e32, e33, hdet3⟩

/-- The matrix whose rows are the unit vectors of the cuboid. -/
noncomputable def rows (a b c : V3 ℝ) : M3 ℝ := ⟨a.x, a.y, a.z, b.x, b.y, b.z, c.x, c.y, c.z⟩

theorem unit_eq (e : V3 ℝ) : unit e = (1 / e.norm) • e := by
  ext <;> simp [unit] <;> ring

theorem dot_unit (e x : V3 ℝ) : V3.dot (unit e) x = V3.dot e x / e.norm := by
  rw [unit_eq]; simp [V3.dot]; ring

theorem norm_pos_of_dot {e : V3 ℝ} (h : 0 < V3.dot e e) : 0 < e.norm := by
  apply V3.norm_pos; rintro rfl; simp [V3.dot] at h

section
variable {u1 u2 u3 e1 e2 e3 : V3 ℝ}

theorem Basis.rows_mul (B : Basis u1 u2 u3 e1 e2 e3) :
    rows (unit e1) (unit e2) (unit e3) * (rows (unit e1) (unit e2) (unit e3)).tr = 1 := by
  have h1 := norm_pos_of_dot B.p1
  have h2 := norm_pos_of_dot B.p2
  have h3 := norm_pos_of_dot B.p3
  have key : ∀ a b : V3 ℝ, V3.dot (unit a) (unit b) = V3.dot a b / (a.norm * b.norm) := by
    intro a b; rw [unit_eq, unit_eq]; simp [V3.dot]; ring
  have k11 : V3.dot (unit e1) (unit e1) = 1 := by rw [key, dot_self_eq_norm]; field_simp
  have k22 : V3.dot (unit e2) (unit e2) = 1 := by rw [key, dot_self_eq_norm]; field_simp
  have k33 : V3.dot (unit e3) (unit e3) = 1 := by rw [key, dot_self_eq_norm]; field_simp
  have k12 : V3.dot (unit e1) (unit e2) = 0 := by rw [key, B.o12, zero_div]
  have k13 : V3.dot (unit e1) (unit e3) = 0 := by rw [key, B.o13, zero_div]
  have k23 : V3.dot (unit e2) (unit e3) = 0 := by rw [key, B.o23, zero_div]
  simp only [V3.dot] at k11 k22 k33 k12 k13 k23
  ext <;> simp [rows] <;> linarith

theorem Basis.tr_rows_mul (B : Basis u1 u2 u3 e1 e2 e3) :
    (rows (unit e1) (unit e2) (unit e3)).tr * rows (unit e1) (unit e2) (unit e3) = 1 := by
  have := mul_tr_of_orth (R := (rows (unit e1) (unit e2) (unit e3)).tr) (by rw [M3.tr_tr]; exact B.rows_mul)
  rwa [M3.tr_tr] at this

theorem prod_norms (B : Basis u1 u2 u3 e1 e2 e3) (hu : det3 u1 u2 u3 = 1) : e1.norm * e2.norm * e3.norm = 1 := by
  have h1 := norm_pos_of_dot B.p1
  have h2 := norm_pos_of_dot B.p2
  have h3 := norm_pos_of_dot B.p3
  have hd : (det3 e1 e2 e3) ^ 2 = V3.dot e1 e1 * V3.dot e2 e2 * V3.dot e3 e3 := by
    have g : (det3 e1 e2 e3) ^ 2 = V3.dot e1 e1 * (V3.dot e2 e2 * V3.dot e3 e3 - V3.dot e2 e3 ^ 2)
        - V3.dot e1 e2 * (V3.dot e1 e2 * V3.dot e3 e3 - V3.dot e2 e3 * V3.dot e1 e3)
        + V3.dot e1 e3 * (V3.dot e1 e2 * V3.dot e2 e3 - V3.dot e2 e2 * V3.dot e1 e3) := by
      simp only [det3, V3.dot]; ring
    rw [g, B.o12, B.o13, B.o23]; ring
  rw [B.det, hu, dot_self_eq_norm, dot_self_eq_norm, dot_self_eq_norm] at hd
  have hp : 0 < e1.norm * e2.norm * e3.norm := by positivity
  have : (e1.norm * e2.norm * e3.norm) ^ 2 = 1 := by rw [mul_pow, mul_pow]; linarith
  nlinarith

/-- Every vector is the combination of its projections on the unit vectors. -/
theorem Basis.expand (B : Basis u1 u2 u3 e1 e2 e3) (p : V3 ℝ) :
    V3.dot p (unit e1) • unit e1 + V3.dot p (unit e2) • unit e2 + V3.dot p (unit e3) • unit e3 = p := by
  have := congrArg (fun M => M3.mulVec M p) B.tr_rows_mul
  simp only [M3.mulVec_mul, M3.one_mulVec] at this
  rw [← this]
  conv_lhs => rw [this]
  ext <;> simp [rows, V3.dot] <;> ring

theorem Basis.project_combine (B : Basis u1 u2 u3 e1 e2 e3) (p : V3 ℝ) :
    let q := p.x • unit e1 + p.y • unit e2 + p.z • unit e3
    (⟨V3.dot q (unit e1), V3.dot q (unit e2), V3.dot q (unit e3)⟩ : V3 ℝ) = p := by
  intro q
  have := congrArg (fun M => M3.mulVec M p) B.rows_mul
  simp only [M3.mulVec_mul, M3.one_mulVec] at this
  refine Eq.trans ?_ this
  ext <;> simp [q, rows, V3.dot] <;> ring

end

/-! ## Planes and the unit cube -/

/-- The closed unit cube. -/
def InCube (x : V3 ℝ) : Prop := (0 ≤ x.x ∧ x.x ≤ 1) ∧ (0 ≤ x.y ∧ x.y ≤ 1) ∧ (0 ≤ x.z ∧ x.z ≤ 1)
/-- The open unit cube. -/
def InOpenCube (x : V3 ℝ) : Prop := (0 < x.x ∧ x.x < 1) ∧ (0 < x.y ∧ x.y < 1) ∧ (0 < x.z ∧ x.z < 1)

theorem InOpenCube.inCube {x : V3 ℝ} (h : InOpenCube x) : InCube x :=
  ⟨⟨h.1.1.le, h.1.2.le⟩, ⟨h.2.1.1.le, h.2.1.2.le⟩, ⟨h.2.2.1.le, h.2.2.2.le⟩⟩

/-- Smallest and largest values of an affine function on the unit cube are at vertices. -/
theorem exists_vertex_ge (pl : Plane) {x : V3 ℝ} (hx : InCube x) : ∃ v ∈ unitCube, pl.test x ≤ pl.test v := by
  obtain ⟨⟨a, a'⟩, ⟨b, b'⟩, c, c'⟩ := hx
  obtain ⟨⟨nx, ny, nz⟩, d⟩ := pl
  obtain ⟨x, y, z⟩ := x
  simp only [Plane.test, V3.dot] at *
  have key : ∀ n t : ℝ, 0 ≤ t → t ≤ 1 → (0 ≤ n ∧ n * t ≤ n * 1) ∨ (n < 0 ∧ n * t ≤ n * 0) := by
    intro n t h0 h1
    rcases le_or_gt 0 n with h | h
    · left; exact ⟨h, by nlinarith⟩
    · right; exact ⟨h, by nlinarith⟩
  rcases key nx x a a' with ⟨-, h1⟩ | ⟨-, h1⟩ <;> rcases key ny y b b' with ⟨-, h2⟩ | ⟨-, h2⟩ <;>
    rcases key nz z c c' with ⟨-, h3⟩ | ⟨-, h3⟩
  · exact ⟨⟨1, 1, 1⟩, by simp [unitCube], by linarith⟩
  · exact ⟨⟨1, 1, 0⟩, by simp [unitCube], by linarith⟩
  · exact ⟨⟨1, 0, 1⟩, by simp [unitCube], by linarith⟩
  · exact ⟨⟨1, 0, 0⟩, by simp [unitCube], by linarith⟩
  · exact ⟨⟨0, 1, 1⟩, by simp [unitCube], by linarith⟩
  · exact ⟨⟨0, 1, 0⟩, by simp [unitCube], by linarith⟩
  · exact ⟨⟨0, 0, 1⟩, by simp [unitCube], by linarith⟩
  · exact ⟨⟨0, 0, 0⟩, by simp [unitCube], by linarith⟩

theorem exists_vertex_le (pl : Plane) {x : V3 ℝ} (hx : InCube x) : ∃ v ∈ unitCube, pl.test v ≤ pl.test x := by
  obtain ⟨v, hv, h⟩ := exists_vertex_ge ⟨-pl.n, -pl.d⟩ hx
  refine ⟨v, hv, ?_⟩
  simp only [Plane.test, V3.dot, V3.neg_x, V3.neg_y, V3.neg_z] at *
  linarith

theorem testUnitCube_cases (pl : Plane) : pl.testUnitCube = 1 ∨ pl.testUnitCube = 0 ∨ pl.testUnitCube = -1 := by
  unfold Plane.testUnitCube
  simp only
  split <;> split <;> simp

theorem testUnitCube_eq_one (pl : Plane) :
    pl.testUnitCube = 1 ↔ (∃ v ∈ unitCube, 0 < pl.test v) ∧ ∀ v ∈ unitCube, 0 ≤ pl.test v := by
  unfold Plane.testUnitCube
  simp only [List.mem_map, exists_exists_and_eq_and]
  constructor
  · intro h
    split at h <;> split at h <;> simp at h
    next h1 h2 =>
      refine ⟨h1, fun v hv => ?_⟩
      by_contra h3
      exact h2 ⟨v, hv, by linarith⟩
  · rintro ⟨h1, h2⟩
    rw [if_pos h1, if_neg]
    · rfl
    · rintro ⟨v, hv, h⟩
      have := h2 v hv
      linarith

theorem testUnitCube_eq_neg_one (pl : Plane) :
    pl.testUnitCube = -1 ↔ (∃ v ∈ unitCube, pl.test v < 0) ∧ ∀ v ∈ unitCube, pl.test v ≤ 0 := by
  unfold Plane.testUnitCube
  simp only [List.mem_map, exists_exists_and_eq_and]
  constructor
  · intro h
    split at h <;> split at h <;> simp at h
    next h1 h2 =>
      refine ⟨h2, fun v hv => ?_⟩
      by_contra h3
      exact h1 ⟨v, hv, by linarith⟩
  · rintro ⟨h1, h2⟩
    rw [if_pos h1, if_neg]
    · rfl
    · rintro ⟨v, hv, h⟩
      have := h2 v hv
      linarith

theorem test_nonneg_of_one {pl : Plane} (h : pl.testUnitCube = 1) {x : V3 ℝ} (hx : InCube x) : 0 ≤ pl.test x := by
  obtain ⟨v, hv, hvx⟩ := exists_vertex_le pl hx
  exact le_trans (((testUnitCube_eq_one pl).1 h).2 v hv) hvx

theorem not_neg_one_of_pos {pl : Plane} {x : V3 ℝ} (hx : InCube x) (h : 0 < pl.test x) : pl.testUnitCube ≠ -1 := by
  intro h'
  obtain ⟨v, hv, hvx⟩ := exists_vertex_ge pl hx
  have := ((testUnitCube_eq_neg_one pl).1 h').2 v hv
  linarith

theorem scanFaces_eq_some {l fs : List Plane} :
    scanFaces l = some fs ↔ (∀ f ∈ l, f.testUnitCube ≠ -1) ∧ fs = l.filter (fun f => f.testUnitCube = 0) := by
  induction l generalizing fs with
  | nil => simp [scanFaces, eq_comm]
  | cons f l ih =>
    unfold scanFaces
    rcases testUnitCube_cases f with h | h | h
    · simp [h, ih]
    · simp only [h, zero_ne_one, if_false, if_true, List.mem_cons, forall_eq_or_imp, List.filter_cons,
        decide_true, Option.map_eq_some_iff, ih]
      constructor
      · rintro ⟨a, ⟨h1, h2⟩, h3⟩
        exact ⟨⟨by norm_num, h1⟩, by rw [← h3, h2]⟩
      · rintro ⟨⟨-, h1⟩, h2⟩
        exact ⟨_, ⟨h1, rfl⟩, h2.symm⟩
    · simp [h]

/-! ## Tiles -/

section
variable {u1 u2 u3 e1 e2 e3 : V3 ℝ}

/-- The closed cuboid spanned by orthogonal vectors. -/
def InC (e1 e2 e3 y : V3 ℝ) : Prop :=
  (0 ≤ V3.dot e1 y ∧ V3.dot e1 y ≤ V3.dot e1 e1) ∧ (0 ≤ V3.dot e2 y ∧ V3.dot e2 y ≤ V3.dot e2 e2) ∧
  (0 ≤ V3.dot e3 y ∧ V3.dot e3 y ≤ V3.dot e3 e3)

theorem test_lower (e : V3 ℝ) (t : V3 ℤ) (x : V3 ℝ) :
    (Plane.init (0 + -toReal t) (unit e)).test x = V3.dot e (x + toReal t) / e.norm := by
  rw [← dot_unit]; simp [Plane.init, Plane.test, V3.dot]; ring

theorem test_upper (e : V3 ℝ) (t : V3 ℤ) (x : V3 ℝ) :
    (Plane.init (0 + e + -toReal t) (-unit e)).test x = (V3.dot e e - V3.dot e (x + toReal t)) / e.norm := by
  rw [sub_div, ← dot_unit, ← dot_unit]; simp [Plane.init, Plane.test, V3.dot]; ring

theorem forall_faces (B : Basis u1 u2 u3 e1 e2 e3) (t : V3 ℤ) (x : V3 ℝ) :
    (∀ f ∈ tileFaces e1 e2 e3 t, 0 ≤ f.test x) ↔ InC e1 e2 e3 (x + toReal t) := by
  have h1 := norm_pos_of_dot B.p1
  have h2 := norm_pos_of_dot B.p2
  have h3 := norm_pos_of_dot B.p3
  simp only [tileFaces, List.mem_cons, List.not_mem_nil, or_false, forall_eq_or_imp, forall_eq, test_lower,
    test_upper, InC, le_div_iff₀ h1, le_div_iff₀ h2,
    le_div_iff₀ h3, zero_mul, sub_nonneg, and_assoc]

/-- Translates of the cuboid by the lattice (integer vectors) cover space. -/
theorem covering {v1 v2 v3 : V3 ℤ} (B : Basis (toReal v1) (toReal v2) (toReal v3) e1 e2 e3) (y : V3 ℝ) :
    ∃ t : V3 ℤ, InC e1 e2 e3 (y + toReal t) := by
  have aux : ∀ (s d : ℝ), 0 < d → ∃ k : ℤ, 0 ≤ s - k * d ∧ s - k * d ≤ d := by
    intro s d hd
    refine ⟨⌊s / d⌋, ?_, ?_⟩
    · have := Int.floor_le (s / d)
      rw [le_div_iff₀ hd] at this
      linarith
    · have := Int.lt_floor_add_one (s / d)
      rw [div_lt_iff₀ hd] at this
      linarith
  obtain ⟨c, hc⟩ := aux (V3.dot e3 y) _ B.p3
  obtain ⟨b, hb⟩ := aux (V3.dot e2 y - c * V3.dot e2 (toReal v3)) _ B.p2
  obtain ⟨a, ha⟩ := aux (V3.dot e1 y - c * V3.dot e1 (toReal v3) - b * V3.dot e1 (toReal v2)) _ B.p1
  refine ⟨⟨-(a * v1.x + b * v2.x + c * v3.x), -(a * v1.y + b * v2.y + c * v3.y), -(a * v1.z + b * v2.z + c * v3.z)⟩, ?_⟩
  have key : ∀ e : V3 ℝ, V3.dot e (y + toReal ⟨-(a * v1.x + b * v2.x + c * v3.x), -(a * v1.y + b * v2.y + c * v3.y),
      -(a * v1.z + b * v2.z + c * v3.z)⟩) = V3.dot e y - c * V3.dot e (toReal v3) - b * V3.dot e (toReal v2)
        - a * V3.dot e (toReal v1) := by
    intro e; simp [V3.dot, toReal]; ring
  refine ⟨?_, ?_, ?_⟩
  · rw [key, B.e11]; exact ha
  · rw [key, B.e21, B.e22]; constructor <;> linarith [hb.1, hb.2]
  · rw [key, B.e31, B.e32, B.e33]; constructor <;> linarith [hc.1, hc.2]

theorem minOf_le {a : ℝ} {l : List ℝ} : minOf a l ≤ a ∧ ∀ b ∈ l, minOf a l ≤ b := by
  unfold minOf
  induction l generalizing a with
  | nil => simp
  | cons c l ih =>
    simp only [List.foldl_cons, List.mem_cons, forall_eq_or_imp]
    have := ih (a := min a c)
    exact ⟨le_trans this.1 (min_le_left _ _), le_trans this.1 (min_le_right _ _), this.2⟩

theorem le_maxOf {a : ℝ} {l : List ℝ} : a ≤ maxOf a l ∧ ∀ b ∈ l, b ≤ maxOf a l := by
  unfold maxOf
  induction l generalizing a with
  | nil => simp
  | cons c l ih =>
    simp only [List.foldl_cons, List.mem_cons, forall_eq_or_imp]
    have := ih (a := max a c)
    exact ⟨le_trans (le_max_left _ _) this.1, le_trans (le_max_right _ _) this.1, this.2⟩

/-- A point of the cuboid is a combination of the edges with coefficients in [0, 1]. -/
theorem Basis.coeffs (B : Basis u1 u2 u3 e1 e2 e3) {y : V3 ℝ} (h : InC e1 e2 e3 y) :
    ∃ a b c : ℝ, (0 ≤ a ∧ a ≤ 1) ∧ (0 ≤ b ∧ b ≤ 1) ∧ (0 ≤ c ∧ c ≤ 1) ∧ y = a • e1 + b • e2 + c • e3 := by
  obtain ⟨h1, h2, h3⟩ := h
  have aux : ∀ {e : V3 ℝ}, 0 < V3.dot e e → 0 ≤ V3.dot e y ∧ V3.dot e y ≤ V3.dot e e →
      0 ≤ V3.dot e y / V3.dot e e ∧ V3.dot e y / V3.dot e e ≤ 1 := by
    intro e hp he
    exact ⟨div_nonneg he.1 hp.le, (div_le_one hp).2 he.2⟩
  have aux2 : ∀ {e : V3 ℝ}, 0 < V3.dot e e → V3.dot y (unit e) • unit e = (V3.dot e y / V3.dot e e) • e := by
    intro e hp
    have := norm_pos_of_dot hp
    rw [dot_comm', dot_unit, unit_eq, dot_self_eq_norm]
    ext <;> simp <;> field_simp
  refine ⟨_, _, _, aux B.p1 h1, aux B.p2 h2, aux B.p3 h3, ?_⟩
  rw [← aux2 B.p1, ← aux2 B.p2, ← aux2 B.p3]
  exact (B.expand y).symm

theorem coord_bounds {a b c x1 x2 x3 : ℝ} (ha : 0 ≤ a ∧ a ≤ 1) (hb : 0 ≤ b ∧ b ≤ 1) (hc : 0 ≤ c ∧ c ≤ 1) (l : List ℝ)
    (hl : l = [0, x3, x2, x2 + x3, x1, x1 + x3, x1 + x2, x1 + x2 + x3]) :
    minOf 0 l ≤ a * x1 + b * x2 + c * x3 ∧ a * x1 + b * x2 + c * x3 ≤ maxOf 0 l := by
  have key : ∀ t n : ℝ, 0 ≤ t ∧ t ≤ 1 → (0 ≤ n ∧ 0 ≤ t * n ∧ t * n ≤ n) ∨ (n ≤ 0 ∧ n ≤ t * n ∧ t * n ≤ 0) := by
    intro t n ht
    rcases le_or_gt 0 n with h | h
    · left; exact ⟨h, by nlinarith, by nlinarith⟩
    · right; exact ⟨h.le, by nlinarith, by nlinarith⟩
  have hm := (minOf_le (a := 0) (l := l)).2
  have hM := (le_maxOf (a := 0) (l := l)).2
  rw [hl] at hm hM ⊢
  simp only [List.mem_cons, List.not_mem_nil, or_false, forall_eq_or_imp, forall_eq] at hm hM
  obtain ⟨m1, m2, m3, m4, m5, m6, m7, m8⟩ := hm
  obtain ⟨M1, M2, M3, M4, M5, M6, M7, M8⟩ := hM
  constructor
  · rcases key a x1 ha with ⟨-, h1, -⟩ | ⟨-, h1, -⟩ <;> rcases key b x2 hb with ⟨-, h2, -⟩ | ⟨-, h2, -⟩ <;>
      rcases key c x3 hc with ⟨-, h3, -⟩ | ⟨-, h3, -⟩ <;> linarith
  · rcases key a x1 ha with ⟨-, -, h1⟩ | ⟨-, -, h1⟩ <;> rcases key b x2 hb with ⟨-, -, h2⟩ | ⟨-, -, h2⟩ <;>
      rcases key c x3 hc with ⟨-, -, h3⟩ | ⟨-, -, h3⟩ <;> linarith

theorem mem_arange {i lo hi : ℤ} : i ∈ arange lo hi ↔ lo ≤ i ∧ i < hi := by
  simp only [arange, List.mem_map, List.mem_range]
  constructor
  · rintro ⟨k, hk, rfl⟩; omega
  · rintro ⟨h1, h2⟩
    exact ⟨(i - lo).toNat, by omega, by omega⟩

theorem mem_tiles {t : V3 ℤ} :
    t ∈ tiles e1 e2 e3 ↔ t.x ∈ tileRange V3.x e1 e2 e3 ∧ t.y ∈ tileRange V3.y e1 e2 e3 ∧ t.z ∈ tileRange V3.z e1 e2 e3 := by
  obtain ⟨i, j, k⟩ := t
  simp only [tiles, List.mem_flatMap, List.mem_map]
  constructor
  · rintro ⟨a, ha, b, hb, c, hc, h⟩
    simp only [V3.mk.injEq] at h
    obtain ⟨rfl, rfl, rfl⟩ := h
    exact ⟨ha, hb, hc⟩
  · rintro ⟨ha, hb, hc⟩
    exact ⟨i, ha, j, hb, k, hc, rfl⟩

theorem tile_of_open (B : Basis u1 u2 u3 e1 e2 e3) {x : V3 ℝ} (hx : InOpenCube x) {t : V3 ℤ}
    (h : InC e1 e2 e3 (x + toReal t)) : t ∈ tiles e1 e2 e3 := by
  obtain ⟨a, b, c, ha, hb, hc, hy⟩ := B.coeffs h
  rw [mem_tiles]
  have aux : ∀ {s m M : ℝ} {i : ℤ}, 0 < s ∧ s < 1 → m ≤ s + i → s + i ≤ M → ⌊m⌋ ≤ i ∧ i < ⌈M⌉ := by
    intro s m M i hs hm hM
    constructor
    · have h1 : (⌊m⌋ : ℝ) < (i : ℝ) + 1 := lt_of_le_of_lt (Int.floor_le m) (by linarith)
      have : (⌊m⌋ : ℝ) < ((i + 1 : ℤ) : ℝ) := by push_cast; exact h1
      have := Int.cast_lt.1 this
      omega
    · have h1 : (i : ℝ) < (⌈M⌉ : ℝ) := lt_of_lt_of_le (by linarith) (Int.le_ceil M)
      exact Int.cast_lt.1 h1
  refine ⟨?_, ?_, ?_⟩
  · have e := congrArg V3.x hy
    simp only [V3.add_x, V3.smul_x, toReal] at e
    have := coord_bounds (x1 := e1.x) (x2 := e2.x) (x3 := e3.x) ha hb hc ((vertices e1 e2 e3).map V3.x) (by simp [vertices])
    rw [tileRange, mem_arange, V3.zero_x]
    exact aux hx.1 (by linarith [this.1]) (by linarith [this.2])
  · have e := congrArg V3.y hy
    simp only [V3.add_y, V3.smul_y, toReal] at e
    have := coord_bounds (x1 := e1.y) (x2 := e2.y) (x3 := e3.y) ha hb hc ((vertices e1 e2 e3).map V3.y) (by simp [vertices])
    rw [tileRange, mem_arange, V3.zero_y]
    exact aux hx.2.1 (by linarith [this.1]) (by linarith [this.2])
  · have e := congrArg V3.z hy
    simp only [V3.add_z, V3.smul_z, toReal] at e
    have := coord_bounds (x1 := e1.z) (x2 := e2.z) (x3 := e3.z) ha hb hc ((vertices e1 e2 e3).map V3.z) (by simp [vertices])
    rw [tileRange, mem_arange, V3.zero_z]
    exact aux hx.2.2 (by linarith [this.1]) (by linarith [this.2])

theorem mem_keptCells {c : Cell} : c ∈ keptCells e1 e2 e3 ↔
    c.ipos ∈ tiles e1 e2 e3 ∧ scanFaces (tileFaces e1 e2 e3 c.ipos) = some c.faces ∧ c.faces ≠ [] := by
  simp only [keptCells, List.mem_filterMap]
  constructor
  · rintro ⟨t, ht, h⟩
    split at h <;> simp at h
    next f fs hfs =>
      subst h
      exact ⟨ht, hfs, by simp⟩
  · rintro ⟨ht, h, hne⟩
    refine ⟨c.ipos, ht, ?_⟩
    rw [h]
    obtain ⟨i, fs⟩ := c
    cases fs with
    | nil => simp at hne
    | cons f fs => rfl

/-- A position of the unit cube found in a kept cell goes into the cuboid. -/
theorem inC_of_isin (B : Basis u1 u2 u3 e1 e2 e3) {c : Cell} (hc : c ∈ keptCells e1 e2 e3) {x : V3 ℝ} (hx : InCube x)
    (h : c.isin x) : InC e1 e2 e3 (x + toReal c.ipos) := by
  rw [← forall_faces B]
  obtain ⟨-, hs, -⟩ := mem_keptCells.1 hc
  obtain ⟨h1, h2⟩ := scanFaces_eq_some.1 hs
  intro f hf
  rcases testUnitCube_cases f with hr | hr | hr
  · exact test_nonneg_of_one hr hx
  · exact h f (by rw [h2]; simp [hf, hr])
  · exact absurd hr (h1 f hf)

/-! ## Every position of the unit cube is in a kept cell, if there is one -/

/-- `P` holds for all small enough positive numbers. -/
def Small (P : ℝ → Prop) : Prop := ∃ d : ℝ, 0 < d ∧ ∀ t, 0 < t → t < d → P t

theorem Small.and {P Q : ℝ → Prop} (hP : Small P) (hQ : Small Q) : Small (fun t => P t ∧ Q t) := by
  obtain ⟨d, hd, h⟩ := hP
  obtain ⟨d', hd', h'⟩ := hQ
  exact ⟨min d d', lt_min hd hd', fun t h0 h1 => ⟨h t h0 (lt_of_lt_of_le h1 (min_le_left _ _)),
    h' t h0 (lt_of_lt_of_le h1 (min_le_right _ _))⟩⟩

theorem Small.list {α : Type*} {P : α → ℝ → Prop} (l : List α) (h : ∀ a ∈ l, Small (P a)) :
    Small (fun t => ∀ a ∈ l, P a t) := by
  induction l with
  | nil => exact ⟨1, one_pos, by simp⟩
  | cons a l ih =>
    have := (h a (by simp)).and (ih (fun b hb => h b (by simp [hb])))
    simpa using this

theorem Small.exists {P : ℝ → Prop} (h : Small P) : ∃ t, 0 < t ∧ P t := by
  obtain ⟨d, hd, h⟩ := h
  exact ⟨d / 2, by linarith, h _ (by linarith) (by linarith)⟩

theorem small_pos {A : ℝ} (B : ℝ) (h : 0 < A) : Small (fun t => 0 < A + t * B) := by
  refine ⟨A / (|B| + 1), by positivity, fun t h0 h1 => ?_⟩
  rw [lt_div_iff₀ (by positivity)] at h1
  have := neg_abs_le B
  nlinarith

theorem small_neg {A : ℝ} (B : ℝ) (h : A < 0) : Small (fun t => A + t * B < 0) := by
  obtain ⟨d, hd, h⟩ := small_pos (A := -A) (-B) (by linarith)
  exact ⟨d, hd, fun t h0 h1 => by have := h t h0 h1; linarith⟩

theorem small_ne (A : ℝ) {B : ℝ} (h : B ≠ 0) : Small (fun t => A + t * B ≠ 0) := by
  rcases lt_trichotomy A 0 with hA | hA | hA
  · obtain ⟨d, hd, h⟩ := small_neg B hA
    exact ⟨d, hd, fun t h0 h1 => (h t h0 h1).ne⟩
  · refine ⟨1, one_pos, fun t h0 _ => ?_⟩
    simp only [hA, zero_add]
    exact mul_ne_zero h0.ne' h
  · obtain ⟨d, hd, h⟩ := small_pos B hA
    exact ⟨d, hd, fun t h0 h1 => (h t h0 h1).ne'⟩

/-- A point of the open cube seen from `x` in a direction parallel to no face of the cuboid. -/
theorem exists_generic (B : Basis u1 u2 u3 e1 e2 e3) (x : V3 ℝ) :
    ∃ q, InOpenCube q ∧ V3.dot e1 (q - x) ≠ 0 ∧ V3.dot e2 (q - x) ≠ 0 ∧ V3.dot e3 (q - x) ≠ 0 := by
  have hh : (0 : ℝ) < 1 / 2 := by norm_num
  have S := (((small_pos (e1 + e2 + e3).x hh).and (small_pos (-(e1 + e2 + e3).x) hh)).and
    ((small_pos (e1 + e2 + e3).y hh).and (small_pos (-(e1 + e2 + e3).y) hh))).and
    ((small_pos (e1 + e2 + e3).z hh).and (small_pos (-(e1 + e2 + e3).z) hh))
  have T := ((small_ne (V3.dot e1 (V3.const (1 / 2) - x)) B.p1.ne').and
    (small_ne (V3.dot e2 (V3.const (1 / 2) - x)) B.p2.ne')).and (small_ne (V3.dot e3 (V3.const (1 / 2) - x)) B.p3.ne')
  obtain ⟨t, -, ⟨⟨⟨a1, a2⟩, b1, b2⟩, c1, c2⟩, ⟨t1, t2⟩, t3⟩ := (S.and T).exists
  have key : ∀ e : V3 ℝ, V3.dot e (V3.const (1 / 2) + t • (e1 + e2 + e3) - x)
      = V3.dot e (V3.const (1 / 2) - x) + t * (V3.dot e e1 + V3.dot e e2 + V3.dot e e3) := by
    intro e; simp [V3.dot]; ring
  refine ⟨V3.const (1 / 2) + t • (e1 + e2 + e3), ?_, ?_, ?_, ?_⟩
  · simp only [InOpenCube, V3.add_x, V3.add_y, V3.add_z, V3.smul_x, V3.smul_y, V3.smul_z, V3.const_x, V3.const_y,
      V3.const_z] at *
    refine ⟨⟨?_, ?_⟩, ⟨?_, ?_⟩, ?_, ?_⟩ <;> linarith
  · rw [key, B.o12, B.o13]; simpa using t1
  · rw [key, dot_comm' e2 e1, B.o12, B.o23]; simpa using t2
  · rw [key, dot_comm' e3 e1, dot_comm' e3 e2, B.o13, B.o23]; simpa using t3

theorem three_ones {a b c : ℝ} (ha : 1 ≤ a) (hb : 1 ≤ b) (hc : 1 ≤ c) (h : a * b * c = 1) : a = 1 ∧ b = 1 ∧ c = 1 := by
  have h1 : 1 ≤ a * b := by nlinarith
  have h2 : 1 ≤ b * c := by nlinarith
  have h3 : 1 ≤ a * c := by nlinarith
  refine ⟨?_, ?_, ?_⟩ <;> nlinarith

/-- Wide enough for the unit cube, in one direction. -/
theorem width_of_cube {e : V3 ℝ} {t : V3 ℝ}
    (h : ∀ x, InCube x → 0 ≤ V3.dot e (x + t) ∧ V3.dot e (x + t) ≤ V3.dot e e) :
    |e.x| + |e.y| + |e.z| ≤ V3.dot e e := by
  have c01 : ∀ a b c : Bool, InCube ⟨if a then 1 else 0, if b then 1 else 0, if c then 1 else 0⟩ := by
    intro a b c
    cases a <;> cases b <;> cases c <;> simp [InCube]
  have hi := (h _ (c01 (0 ≤ e.x) (0 ≤ e.y) (0 ≤ e.z))).2
  have lo := (h _ (c01 (e.x < 0) (e.y < 0) (e.z < 0))).1
  simp only [V3.dot, V3.add_x, V3.add_y, V3.add_z, decide_eq_true_eq] at hi lo ⊢
  have ax : e.x * (if 0 ≤ e.x then 1 else 0) - e.x * (if e.x < 0 then 1 else 0) = |e.x| := by
    rcases le_or_gt 0 e.x with h | h
    · rw [if_pos h, if_neg (by linarith), abs_of_nonneg h]; ring
    · rw [if_neg (by linarith), if_pos h, abs_of_neg h]; ring
  have ay : e.y * (if 0 ≤ e.y then 1 else 0) - e.y * (if e.y < 0 then 1 else 0) = |e.y| := by
    rcases le_or_gt 0 e.y with h | h
    · rw [if_pos h, if_neg (by linarith), abs_of_nonneg h]; ring
    · rw [if_neg (by linarith), if_pos h, abs_of_neg h]; ring
  have az : e.z * (if 0 ≤ e.z then 1 else 0) - e.z * (if e.z < 0 then 1 else 0) = |e.z| := by
    rcases le_or_gt 0 e.z with h | h
    · rw [if_pos h, if_neg (by linarith), abs_of_nonneg h]; ring
    · rw [if_neg (by linarith), if_pos h, abs_of_neg h]; ring
  linarith

theorem norm_le_abs (e : V3 ℝ) : e.norm ≤ |e.x| + |e.y| + |e.z| := by
  have h := V3.norm_sq e
  have := V3.norm_nonneg e
  apply abs_le_of_sq_le_sq' _ (by positivity) |>.2
  rw [h, ← sq_abs e.x, ← sq_abs e.y, ← sq_abs e.z]
  nlinarith [abs_nonneg e.x, abs_nonneg e.y, abs_nonneg e.z, mul_nonneg (abs_nonneg e.x) (abs_nonneg e.y),
    mul_nonneg (abs_nonneg e.x) (abs_nonneg e.z), mul_nonneg (abs_nonneg e.y) (abs_nonneg e.z)]

/-- Components of a unit vector whose absolute values add up to at most 1 are -1, 0 or 1. -/
theorem entries_of_width {e : V3 ℝ} (h1 : e.norm = 1) (h : |e.x| + |e.y| + |e.z| ≤ V3.dot e e) :
    (e.x = -1 ∨ e.x = 0 ∨ e.x = 1) ∧ (e.y = -1 ∨ e.y = 0 ∨ e.y = 1) ∧ (e.z = -1 ∨ e.z = 0 ∨ e.z = 1) := by
  have hs := V3.norm_sq e
  rw [h1] at hs
  rw [dot_self_eq_norm, h1] at h
  rw [← sq_abs e.x, ← sq_abs e.y, ← sq_abs e.z] at hs
  have aux : ∀ {a b c : ℝ}, 0 ≤ a → 0 ≤ b → 0 ≤ c → a + b + c ≤ 1 → 1 = a ^ 2 + b ^ 2 + c ^ 2 → a = 0 ∨ a = 1 := by
    intro a b c ha hb hc h h2
    have h3 : a * (1 - a) ≤ 0 := by nlinarith [mul_nonneg hb (by linarith : 0 ≤ 1 - b), mul_nonneg hc (by linarith : 0 ≤ 1 - c)]
    have h4 : a * (1 - a) = 0 := le_antisymm h3 (mul_nonneg ha (by linarith))
    rcases mul_eq_zero.1 h4 with h | h
    · left; exact h
    · right; linarith
  have conv : ∀ {a : ℝ}, (|a| = 0 ∨ |a| = 1) → a = -1 ∨ a = 0 ∨ a = 1 := by
    intro a ha
    rcases ha with ha | ha
    · right; left; exact abs_eq_zero.1 ha
    · rcases eq_or_eq_neg_of_abs_eq ha with h | h
      · right; right; exact h
      · left; exact h
  have px := abs_nonneg e.x
  have py := abs_nonneg e.y
  have pz := abs_nonneg e.z
  norm_num at h hs
  exact ⟨conv (aux px py pz h (by simpa using hs)), conv (aux py px pz (by linarith) (by rw [sq_abs, sq_abs, sq_abs]; linarith)),
    conv (aux pz px py (by linarith) (by rw [sq_abs, sq_abs, sq_abs]; linarith))⟩

theorem tileRange_unique {x1 x2 x3 : ℝ} (h1 : x1 = -1 ∨ x1 = 0 ∨ x1 = 1) (h2 : x2 = -1 ∨ x2 = 0 ∨ x2 = 1)
    (h3 : x3 = -1 ∨ x3 = 0 ∨ x3 = 1) (hn : x1 ^ 2 + x2 ^ 2 + x3 ^ 2 = 1) (i j : ℤ) (l : List ℝ)
    (hl : l = [0, x3, x2, x2 + x3, x1, x1 + x3, x1 + x2, x1 + x2 + x3])
    (hi : i ∈ arange ⌊minOf 0 l⌋ ⌈maxOf 0 l⌉) (hj : j ∈ arange ⌊minOf 0 l⌋ ⌈maxOf 0 l⌉) : i = j := by
  rw [mem_arange] at hi hj
  subst hl
  rcases h1 with rfl | rfl | rfl <;> rcases h2 with rfl | rfl | rfl <;> rcases h3 with rfl | rfl | rfl <;>
    first
    | (exfalso; norm_num at hn; done)
    | (norm_num [minOf, maxOf] at hi hj; omega)

/-- If a tile lies entirely in the cuboid, the cuboid is that tile: no cell is kept. -/
theorem keptCells_nil (B : Basis u1 u2 u3 e1 e2 e3) (hdet : det3 u1 u2 u3 = 1) {t : V3 ℤ} (ht : t ∈ tiles e1 e2 e3)
    (h : ∀ f ∈ tileFaces e1 e2 e3 t, f.testUnitCube = 1) : keptCells e1 e2 e3 = [] := by
  have hC : ∀ x, InCube x → InC e1 e2 e3 (x + toReal t) := by
    intro x hx
    rw [← forall_faces B]
    exact fun f hf => test_nonneg_of_one (h f hf) hx
  have w1 := width_of_cube (e := e1) (t := toReal t) (fun x hx => (hC x hx).1)
  have w2 := width_of_cube (e := e2) (t := toReal t) (fun x hx => (hC x hx).2.1)
  have w3 := width_of_cube (e := e3) (t := toReal t) (fun x hx => (hC x hx).2.2)
  have one_le : ∀ {e : V3 ℝ}, 0 < V3.dot e e → |e.x| + |e.y| + |e.z| ≤ V3.dot e e → 1 ≤ e.norm := by
    intro e hp hw
    have hn := norm_pos_of_dot hp
    have := norm_le_abs e
    rw [dot_self_eq_norm] at hw
    nlinarith
  obtain ⟨n1, n2, n3⟩ := three_ones (one_le B.p1 w1) (one_le B.p2 w2) (one_le B.p3 w3) (prod_norms B hdet)
  obtain ⟨x1, y1, z1⟩ := entries_of_width n1 w1
  obtain ⟨x2, y2, z2⟩ := entries_of_width n2 w2
  obtain ⟨x3, y3, z3⟩ := entries_of_width n3 w3
  have hu : ∀ {e : V3 ℝ}, e.norm = 1 → unit e = e := by
    intro e he; ext <;> simp [unit, he]
  have hR := B.tr_rows_mul
  rw [hu n1, hu n2, hu n3] at hR
  have hx := congrArg M3.m00 hR
  have hy := congrArg M3.m11 hR
  have hz := congrArg M3.m22 hR
  simp [rows] at hx hy hz
  rw [List.eq_nil_iff_forall_not_mem]
  intro c hc
  obtain ⟨hct, hs, hne⟩ := mem_keptCells.1 hc
  have hEq : c.ipos = t := by
    obtain ⟨a1, a2, a3⟩ := mem_tiles.1 hct
    obtain ⟨b1, b2, b3⟩ := mem_tiles.1 ht
    ext
    · exact tileRange_unique x1 x2 x3 (by linarith) _ _ _ (by simp [vertices]) a1 b1
    · exact tileRange_unique y1 y2 y3 (by linarith) _ _ _ (by simp [vertices]) a2 b2
    · exact tileRange_unique z1 z2 z3 (by linarith) _ _ _ (by simp [vertices]) a3 b3
  rw [hEq] at hs
  obtain ⟨-, h2⟩ := scanFaces_eq_some.1 hs
  apply hne
  rw [h2, List.filter_eq_nil_iff]
  intro f hf
  simp [h f hf]

theorem exists_cell {v1 v2 v3 : V3 ℤ} (B : Basis (toReal v1) (toReal v2) (toReal v3) e1 e2 e3)
    (hdet : det3 (toReal v1) (toReal v2) (toReal v3) = 1) (hk : keptCells e1 e2 e3 ≠ []) {x : V3 ℝ} (hx : InCube x) : ∃ c ∈ keptCells e1 e2 e3, c.isin x := by
  by_contra hno
  push Not at hno
  obtain ⟨q, hq, g1, g2, g3⟩ := exists_generic B x
  have hn1 := norm_pos_of_dot B.p1
  have hn2 := norm_pos_of_dot B.p2
  have hn3 := norm_pos_of_dot B.p3
  have htest : ∀ (f : Plane) (t : ℝ), f.test (x + t • (q - x)) = f.test x + t * V3.dot f.n (q - x) := by
    intro f t; simp [Plane.test, V3.dot]; ring
  have S1 : Small (fun t => ∀ c ∈ keptCells e1 e2 e3, ¬ c.isin (x + t • (q - x))) := by
    apply Small.list
    intro c hc
    have := hno c hc
    simp only [Cell.isin] at this
    push Not at this
    obtain ⟨f, hf, hneg⟩ := this
    obtain ⟨d, hd, h⟩ := small_neg (V3.dot f.n (q - x)) hneg
    refine ⟨d, hd, fun t h0 h1 hin => ?_⟩
    have h2 := hin f hf
    have h3 := h t h0 h1
    rw [htest] at h2
    linarith
  have S2 : Small (fun t => ∀ i ∈ tiles e1 e2 e3, ∀ f ∈ tileFaces e1 e2 e3 i, f.test (x + t • (q - x)) ≠ 0) := by
    apply Small.list
    intro i _
    apply Small.list
    intro f hf
    simp only [htest]
    apply small_ne
    have neg : ∀ e w : V3 ℝ, V3.dot (-e) w = -V3.dot e w := by intro e w; simp [V3.dot]; ring
    simp only [tileFaces, List.mem_cons, List.not_mem_nil, or_false] at hf
    rcases hf with rfl | rfl | rfl | rfl | rfl | rfl <;>
      simp only [Plane.init, neg, dot_unit, ne_eq, neg_eq_zero, div_eq_zero_iff, not_or] <;>
      first
      | exact ⟨g1, hn1.ne'⟩
      | exact ⟨g2, hn2.ne'⟩
      | exact ⟨g3, hn3.ne'⟩
  obtain ⟨t, ht0, ⟨s1, s2⟩, s3⟩ := ((S1.and S2).and ⟨1, one_pos, fun t _ h => h⟩).exists
  have hopen : InOpenCube (x + t • (q - x)) := by
    obtain ⟨⟨a1, a2⟩, ⟨b1, b2⟩, c1, c2⟩ := hx
    obtain ⟨⟨a3, a4⟩, ⟨b3, b4⟩, c3, c4⟩ := hq
    simp only [InOpenCube, V3.add_x, V3.add_y, V3.add_z, V3.smul_x, V3.smul_y, V3.smul_z, V3.sub_x, V3.sub_y, V3.sub_z]
    have aux : ∀ {a b : ℝ}, 0 ≤ a → a ≤ 1 → 0 < b → b < 1 → 0 < a + t * (b - a) ∧ a + t * (b - a) < 1 := by
      intro a b h0 h1 h2 h3
      constructor <;> nlinarith
    exact ⟨aux a1 a2 a3 a4, aux b1 b2 b3 b4, aux c1 c2 c3 c4⟩
  obtain ⟨i, hi⟩ := covering B (x + t • (q - x))
  have hit := tile_of_open B hopen hi
  have hpos : ∀ f ∈ tileFaces e1 e2 e3 i, 0 < f.test (x + t • (q - x)) := by
    intro f hf
    exact lt_of_le_of_ne ((forall_faces B i _).2 hi f hf) (Ne.symm (s2 i hit f hf))
  have hscan : scanFaces (tileFaces e1 e2 e3 i) = some ((tileFaces e1 e2 e3 i).filter (fun f => f.testUnitCube = 0)) :=
    scanFaces_eq_some.2 ⟨fun f hf => not_neg_one_of_pos hopen.inCube (hpos f hf), rfl⟩
  by_cases hnil : (tileFaces e1 e2 e3 i).filter (fun f => f.testUnitCube = 0) = []
  · apply hk
    apply keptCells_nil B hdet hit
    intro f hf
    rw [List.filter_eq_nil_iff] at hnil
    have h0 := hnil f hf
    have hm := not_neg_one_of_pos hopen.inCube (hpos f hf)
    rcases testUnitCube_cases f with h | h | h
    · exact h
    · simp [h] at h0
    · exact absurd h hm
  · refine s1 ⟨i, (tileFaces e1 e2 e3 i).filter (fun f => f.testUnitCube = 0)⟩
      (mem_keptCells.2 ⟨hit, hscan, hnil⟩) ?_
    intro f hf
    exact (hpos f ((List.mem_filter.1 hf).1)).le

/-! ## The loop over cells -/

theorem toReal_add (a b : V3 ℤ) : toReal (a + b) = toReal a + toReal b := by
  ext <;> simp [toReal]

theorem foldl_applyCells (cells : List Cell) (s : V3 ℝ × Bool) :
    cells.foldl cellStep s = ((applyCells cells s.1).1, s.2 || (applyCells cells s.1).2) := by
  unfold applyCells
  induction cells generalizing s with
  | nil => simp
  | cons c cells ih =>
    simp only [List.foldl_cons]
    rw [ih, ih (cellStep (s.1, false) c)]
    by_cases h : c.isin s.1
    · simp [cellStep, h]
    · simp [cellStep, h]

theorem applyCells_cons (c : Cell) (cells : List Cell) (x : V3 ℝ) :
    (c.isin x → applyCells (c :: cells) x = ((applyCells cells (x + toReal c.ipos)).1, true)) ∧
    (¬ c.isin x → applyCells (c :: cells) x = applyCells cells x) := by
  constructor
  · intro h
    have : applyCells (c :: cells) x = cells.foldl cellStep (x + toReal c.ipos, true) := by
      simp [applyCells, cellStep, h]
    rw [this, foldl_applyCells, Bool.true_or]
  · intro h
    simp [applyCells, cellStep, h]

/-- The shift applied is always an integer vector. -/
theorem applyCells_shift (cells : List Cell) (x : V3 ℝ) : ∃ k : V3 ℤ, (applyCells cells x).1 = x + toReal k := by
  induction cells generalizing x with
  | nil => exact ⟨0, by ext <;> simp [applyCells, toReal]⟩
  | cons c cells ih =>
    by_cases h : c.isin x
    · rw [(applyCells_cons c cells x).1 h]
      obtain ⟨k, hk⟩ := ih (x + toReal c.ipos)
      exact ⟨c.ipos + k, by rw [toReal_add, hk, add_assoc]⟩
    · rw [(applyCells_cons c cells x).2 h]
      exact ih x

theorem applyCells_found {cells : List Cell} {x : V3 ℝ} : (applyCells cells x).2 = true ↔ ∃ c ∈ cells, c.isin x := by
  induction cells with
  | nil => simp [applyCells]
  | cons c cells ih =>
    by_cases h : c.isin x
    · rw [(applyCells_cons c cells x).1 h]; simp [h]
    · rw [(applyCells_cons c cells x).2 h, ih]; simp [h]

theorem applyCells_zero {cells : List Cell} {x : V3 ℝ} (h : ∀ c ∈ cells, c.isin x → c.ipos = 0) :
    (applyCells cells x).1 = x := by
  induction cells with
  | nil => simp [applyCells]
  | cons c cells ih =>
    by_cases hc : c.isin x
    · rw [(applyCells_cons c cells x).1 hc]
      have h0 := h c (by simp) hc
      have : x + toReal c.ipos = x := by rw [h0]; ext <;> simp [toReal]
      simp only [this]
      exact ih (fun b hb => h b (by simp [hb]))
    · rw [(applyCells_cons c cells x).2 hc]
      exact ih (fun b hb => h b (by simp [hb]))

theorem applyCells_single {pre post : List Cell} {c : Cell} {x : V3 ℝ} (h1 : ∀ b ∈ pre, b.isin x → b.ipos = 0)
    (h2 : c.isin x) (h3 : ∀ b ∈ post, b.isin (x + toReal c.ipos) → b.ipos = 0) :
    (applyCells (pre ++ c :: post) x).1 = x + toReal c.ipos := by
  induction pre with
  | nil =>
    rw [List.nil_append, (applyCells_cons c post x).1 h2]
    exact applyCells_zero h3
  | cons b pre ih =>
    rw [List.cons_append]
    have ih := ih (fun b hb => h1 b (by simp [hb]))
    by_cases hb : b.isin x
    · rw [(applyCells_cons b _ x).1 hb]
      have : x + toReal b.ipos = x := by rw [h1 b (by simp) hb]; ext <;> simp [toReal]
      simp only [this, ih]
    · rw [(applyCells_cons b _ x).2 hb, ih]

theorem exists_madeCell {v1 v2 v3 : V3 ℤ} (B : Basis (toReal v1) (toReal v2) (toReal v3) e1 e2 e3)
    (hdet : det3 (toReal v1) (toReal v2) (toReal v3) = 1) {x : V3 ℝ} (hx : InCube x) :
    ∃ c ∈ makeCells e1 e2 e3, c.isin x := by
  by_cases hk : keptCells e1 e2 e3 = []
  · exact ⟨⟨0, []⟩, by simp [makeCells, hk], by simp [Cell.isin]⟩
  · have : makeCells e1 e2 e3 = keptCells e1 e2 e3 := by
      unfold makeCells
      split
      · next h => exact absurd h hk
      · next h => exact h.symm
    rw [this]
    exact exists_cell B hdet hk hx

/-! ## Evaluation on concrete lattices -/

open Classical in
theorem r_lower {e : V3 ℝ} (he : 0 < V3.dot e e) (t : V3 ℤ) :
    (Plane.init (0 + -toReal t) (unit e)).testUnitCube =
      (if ∃ v ∈ unitCube, 0 < V3.dot e (v + toReal t) then 1 else 0)
        - (if ∃ v ∈ unitCube, V3.dot e (v + toReal t) < 0 then 1 else 0) := by
  have hn := norm_pos_of_dot he
  simp only [Plane.testUnitCube, List.mem_map, exists_exists_and_eq_and, test_lower, lt_div_iff₀ hn, div_lt_iff₀ hn,
    zero_mul]

open Classical in
theorem r_upper {e : V3 ℝ} (he : 0 < V3.dot e e) (t : V3 ℤ) :
    (Plane.init (0 + e + -toReal t) (-unit e)).testUnitCube =
      (if ∃ v ∈ unitCube, V3.dot e (v + toReal t) < V3.dot e e then 1 else 0)
        - (if ∃ v ∈ unitCube, V3.dot e e < V3.dot e (v + toReal t) then 1 else 0) := by
  have hn := norm_pos_of_dot he
  simp only [Plane.testUnitCube, List.mem_map, exists_exists_and_eq_and, test_upper, lt_div_iff₀ hn, div_lt_iff₀ hn,
    zero_mul, sub_pos, sub_neg]

end

end Verif.Model.Remap
