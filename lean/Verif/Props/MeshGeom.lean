import Verif.Lemmas.Mesh

/-!
# C38: geometry of the mesh of Gaussian mocks; C66: nodes of the mesh
-/

namespace Verif.Props

open Verif Verif.Model Verif.Lemmas.Mesh

/-! ### Rounding -/

theorem rint_near (x : ℝ) : |x - rint x| ≤ 1 / 2 := by
  have h1 := Int.floor_le x
  have h2 := Int.lt_floor_add_one x
  unfold rint
  rw [abs_le]
  split_ifs <;> push_cast <;> constructor <;> linarith

theorem rint_of_near (x : ℝ) (m : ℤ) (h : |x - m| < 1 / 2) : rint x = m := by
  have h1 := rint_near x
  rw [abs_le] at h1
  rw [abs_lt] at h
  have h2 : ((rint x - m : ℤ) : ℝ) < 1 := by push_cast; linarith
  have h3 : (-1 : ℝ) < ((rint x - m : ℤ) : ℝ) := by push_cast; linarith
  have h2' : rint x - m < 1 := by exact_mod_cast h2
  have h3' : -1 < rint x - m := by exact_mod_cast h3
  omega

theorem rint_tie (m : ℤ) : Even (rint (m + 1 / 2)) := by
  have hf : ⌊(m + 1 / 2 : ℝ)⌋ = m := by
    rw [Int.floor_eq_iff]
    constructor <;> linarith
  unfold rint
  rw [hf]
  rw [if_neg (by linarith), if_neg (by linarith)]
  split
  · assumption
  · rename_i h
    rw [Int.not_even_iff_odd] at h
    exact h.add_one

/-! ### Statement -/

/-- An argument given as a number or as a numpy array, not as a python list. -/
def MeshSize.Plain : MeshSize → Prop
  | .list _ => False
  | _ => True

/-- The three sizes given by an argument: a number is repeated on the three axes, an array or a list holds one size per axis. -/
inductive SizeOf : MeshSize → V3 ℝ → Prop
  | number (x : Num) : SizeOf (.number x) ⟨x.val, x.val, x.val⟩
  | array (x y z : ℝ) : SizeOf (.array ⟨x, y, z⟩) ⟨x, y, z⟩
  | list (x y z : ℝ) : SizeOf (.list ⟨x, y, z⟩) ⟨x, y, z⟩

/-- **C38.** Each argument is read as its three sizes, axis by axis. -/
theorem C38_reading (a : MeshSize) (v : V3 ℝ) : SizeOf a v ↔ a.toVec = v := by
  constructor
  · rintro (x | ⟨x, y, z⟩ | ⟨x, y, z⟩) <;> rfl
  · rintro rfl
    cases a with
    | number x => exact .number x
    | array v => exact .array v.x v.y v.z
    | list v => exact .list v.x v.y v.z

/-- The mesh size `m`, as three integers. -/
def IsSize (a : MeshSize) (m : V3 ℤ) : Prop := a.toVec = ⟨m.x, m.y, m.z⟩

theorem truncVec_int (m : V3 ℤ) : truncVec ⟨m.x, m.y, m.z⟩ = m := by
  unfold truncVec
  ext <;> simp

theorem mul_plain {a b : MeshSize} (ha : MeshSize.Plain a) (hb : MeshSize.Plain b) :
    ∃ c, a.mul b = .ok c ∧ c.toVec = V3.emul a.toVec b.toVec := by
  cases a with
  | list v => exact absurd ha id
  | number x => cases b with
    | list v => exact absurd hb id
    | number y =>
      refine ⟨_, rfl, ?_⟩
      cases x <;> cases y <;> simp [MeshSize.toVec, Num.val, V3.emul, V3.const]
    | array v => exact ⟨_, rfl, rfl⟩
  | array u => cases b with
    | list v => exact absurd hb id
    | number y => exact ⟨_, rfl, rfl⟩
    | array v => exact ⟨_, rfl, rfl⟩

theorem div_plain {a b : MeshSize} (ha : MeshSize.Plain a) (hb : MeshSize.Plain b)
    (h : b.toVec.x ≠ 0 ∧ b.toVec.y ≠ 0 ∧ b.toVec.z ≠ 0) : a.div b = .ok (V3.ediv a.toVec b.toVec) := by
  have h' : ¬ (b.toVec.x = 0 ∨ b.toVec.y = 0 ∨ b.toVec.z = 0) := by tauto
  cases a <;> cases b <;> first | exact absurd ha id | exact absurd hb id | (unfold MeshSize.div; simp only [if_neg h'])

/-- With `nmesh` and `cellsize`, the box size is their product: the cells have exactly the size asked for. -/
theorem C38_from_cell (n c : MeshSize) (m : V3 ℤ) (hn : MeshSize.Plain n) (hc : MeshSize.Plain c) (hm : IsSize n m) :
    resolveMesh (some n) none (some c) =
      .ok (⟨m.x * c.toVec.x, m.y * c.toVec.y, m.z * c.toVec.z⟩, m) := by
  obtain ⟨b, h1, h2⟩ := mul_plain hn hc
  unfold resolveMesh resolveBoxsize resolveNmesh
  simp only [h1, bind, Except.bind, h2]
  rw [hm, truncVec_int]
  rfl

/-- With `boxsize` and `cellsize`, the box size is kept and the mesh size is the nearest integer: the cells times the mesh size are
the box up to half a cell, and any closer integer is the one chosen; ties go to the even integer. -/
theorem C38_rounded (b c : MeshSize) (hb : MeshSize.Plain b) (hc : MeshSize.Plain c)
    (h : 0 < c.toVec.x ∧ 0 < c.toVec.y ∧ 0 < c.toVec.z) :
    ∃ m : V3 ℤ, resolveMesh none (some b) (some c) = .ok (b.toVec, m) ∧
      |b.toVec.x - m.x * c.toVec.x| ≤ c.toVec.x / 2 ∧ |b.toVec.y - m.y * c.toVec.y| ≤ c.toVec.y / 2 ∧
      |b.toVec.z - m.z * c.toVec.z| ≤ c.toVec.z / 2 ∧
      (∀ m' : ℤ, |b.toVec.x - m' * c.toVec.x| < c.toVec.x / 2 → m.x = m') ∧
      (∀ m' : ℤ, |b.toVec.y - m' * c.toVec.y| < c.toVec.y / 2 → m.y = m') ∧
      (∀ m' : ℤ, |b.toVec.z - m' * c.toVec.z| < c.toVec.z / 2 → m.z = m') ∧
      (∀ m' : ℤ, b.toVec.x = (m' + 1 / 2) * c.toVec.x → Even m.x) ∧
      (∀ m' : ℤ, b.toVec.y = (m' + 1 / 2) * c.toVec.y → Even m.y) ∧
      (∀ m' : ℤ, b.toVec.z = (m' + 1 / 2) * c.toVec.z → Even m.z) := by
  have key : ∀ x y : ℝ, 0 < y → |x - rint (x / y) * y| ≤ y / 2 := by
    intro x y hy
    have := rint_near (x / y)
    have e : x - rint (x / y) * y = (x / y - rint (x / y)) * y := by field_simp
    rw [e, abs_mul, abs_of_pos hy]
    nlinarith
  have key2 : ∀ (x y : ℝ) (m : ℤ), 0 < y → |x - m * y| < y / 2 → rint (x / y) = m := by
    intro x y m hy hm
    refine rint_of_near _ _ ?_
    have e : x - m * y = (x / y - m) * y := by field_simp
    rw [e, abs_mul, abs_of_pos hy] at hm
    nlinarith
  have key3 : ∀ (x y : ℝ) (m : ℤ), 0 < y → x = (m + 1 / 2) * y → Even (rint (x / y)) := by
    intro x y m hy hm
    have e : x / y = m + 1 / 2 := by rw [hm]; field_simp
    rw [e]
    exact rint_tie m
  refine ⟨(V3.ediv b.toVec c.toVec).map rint, ?_, key _ _ h.1, key _ _ h.2.1, key _ _ h.2.2,
    fun m' => key2 _ _ m' h.1, fun m' => key2 _ _ m' h.2.1, fun m' => key2 _ _ m' h.2.2,
    fun m' => key3 _ _ m' h.1, fun m' => key3 _ _ m' h.2.1, fun m' => key3 _ _ m' h.2.2⟩
  unfold resolveMesh resolveBoxsize resolveNmesh
  simp only [bind, Except.bind]
  rw [div_plain hb hc ⟨h.1.ne', h.2.1.ne', h.2.2.ne'⟩]

/-- With `boxsize` and `nmesh`, both are kept, whether they are numbers, arrays or lists. -/
theorem C38_given (b n : MeshSize) (m : V3 ℤ) (hm : IsSize n m) :
    resolveMesh (some n) (some b) none = .ok (b.toVec, m) := by
  unfold resolveMesh resolveBoxsize resolveNmesh
  simp only [bind, Except.bind]
  rw [hm, truncVec_int]

/-- Missing information is rejected: without `boxsize` both `nmesh` and `cellsize` are needed, without `nmesh` both `boxsize` and
`cellsize`. -/
theorem C38_missing (n b c : Option MeshSize) (h : (b = none ∧ (n = none ∨ c = none)) ∨ (n = none ∧ c = none)) :
    resolveMesh n b c = .error .valueError := by
  rcases h with ⟨rfl, rfl | rfl⟩ | ⟨rfl, rfl⟩
  · rfl
  · cases n <;> rfl
  · cases b <;> rfl

/-- Numbers and arrays are otherwise accepted. -/
theorem C38_accepted (n b c : Option MeshSize) (hn : ∀ a ∈ n, MeshSize.Plain a) (hb : ∀ a ∈ b, MeshSize.Plain a)
    (hc : ∀ a ∈ c, MeshSize.Plain a ∧ a.toVec.x ≠ 0 ∧ a.toVec.y ≠ 0 ∧ a.toVec.z ≠ 0) :
    (∃ r, resolveMesh n b c = .ok r) ↔ ¬ ((b = none ∧ (n = none ∨ c = none)) ∨ (n = none ∧ c = none)) := by
  constructor
  · rintro ⟨r, hr⟩ h
    rw [C38_missing n b c h] at hr
    cases hr
  · intro h
    cases b with
    | none =>
      cases n with
      | none => exact absurd (Or.inl ⟨rfl, Or.inl rfl⟩) h
      | some n => cases c with
        | none => exact absurd (Or.inl ⟨rfl, Or.inr rfl⟩) h
        | some c =>
          obtain ⟨x, h1, _⟩ := mul_plain (hn n rfl) (hc c rfl).1
          unfold resolveMesh resolveBoxsize resolveNmesh
          simp [h1, bind, Except.bind]
    | some b =>
      cases n with
      | some n => exact ⟨_, rfl⟩
      | none => cases c with
        | none => exact absurd (Or.inr ⟨rfl, rfl⟩) h
        | some c =>
          unfold resolveMesh resolveBoxsize resolveNmesh
          simp [bind, Except.bind, div_plain (hb b rfl) (hc c rfl).1 (hc c rfl).2]

/-- The documentation says that `cellsize`, if given with `nmesh`, sets `boxsize`: it is ignored if `boxsize` is given, so that the
cells of the mock do not have the size asked for. Here 10 cells of size 3 asked for, in a box of size 100. -/
theorem C38_ignored_violated :
    resolveMesh (some (.number (.int 10))) (some (.number (.float 100))) (some (.number (.float 3))) =
      .ok (⟨100, 100, 100⟩, ⟨10, 10, 10⟩) ∧ (100 : ℝ) / 10 ≠ 3 := by
  constructor
  · have : truncVec (V3.const (Num.val (.int 10))) = ⟨10, 10, 10⟩ := truncVec_int ⟨10, 10, 10⟩
    unfold resolveMesh resolveBoxsize resolveNmesh
    simp only [bind, Except.bind, MeshSize.toVec]
    rw [this]
    rfl
  · norm_num

/-- 3-vectors given as python lists are not handled like arrays: with a list `nmesh` and a float `cellsize`, or a list `boxsize` and a
float `cellsize`, `TypeError` is raised. -/
theorem C38_lists_violated (v : V3 ℝ) (c : ℝ) :
    resolveMesh (some (.list v)) none (some (.number (.float c))) = .error .typeError ∧
      resolveMesh none (some (.list v)) (some (.number (.float c))) = .error .typeError := ⟨rfl, rfl⟩

/-- A box of size 1000 with cells of size 3: 333 cells. -/
example : ∃ r, resolveMesh none (some (.number (.int 1000))) (some (.number (.float 3))) = .ok r ∧ r.2.x = 333 := by
  obtain ⟨m, h, _, _, _, hx, _⟩ := C38_rounded (.number (.int 1000)) (.number (.float 3)) trivial trivial
    (by simp [MeshSize.toVec, Num.val, V3.const])
  refine ⟨_, h, hx 333 ?_⟩
  simp [MeshSize.toVec, Num.val, V3.const]
  norm_num

/-! ### Nodes of the mesh -/

/-- Coordinate of a node, counted from the lower corner of the box. -/
noncomputable def nodeAt (M : Mesh) (i : M.Idx) (d : Fin 3) : ℝ :=
  M.boxcenter d - M.boxsize d / 2 + (i d).val * (M.boxsize d / M.n d)

/-- Callables (bias, growth rate, selection function) are evaluated at the nodes of the mesh, which start at the lower corner of the
box and are separated by one cell: whatever the sign that pmesh gives to the coordinate of the second half of the nodes. -/
theorem C66_nodes (M : Mesh) (hL : ∀ d, 0 < M.boxsize d) (i : M.Idx) (d : Fin 3) :
    M.rgrid M.offset i d = nodeAt M i d := by
  unfold Mesh.rgrid nodeAt
  rw [transformRslab_eq M hL]
  unfold Mesh.offset Mesh.cell
  ring

/-- These nodes are inside the box, upper boundary excluded. -/
theorem C66_inside (M : Mesh) (hL : ∀ d, 0 < M.boxsize d) (i : M.Idx) (d : Fin 3) :
    M.boxcenter d - M.boxsize d / 2 ≤ nodeAt M i d ∧ nodeAt M i d < M.boxcenter d + M.boxsize d / 2 := by
  have hn := n_pos' M d
  have hc : 0 < M.boxsize d / M.n d := div_pos (hL d) hn
  have h1 : ((i d).val : ℝ) < M.n d := by exact_mod_cast ZMod.val_lt (i d)
  unfold nodeAt
  constructor
  · have : 0 ≤ ((i d).val : ℝ) * (M.boxsize d / M.n d) := by positivity
    linarith
  · have e : (M.n d : ℝ) * (M.boxsize d / M.n d) = M.boxsize d := by field_simp
    have : ((i d).val : ℝ) * (M.boxsize d / M.n d) < M.n d * (M.boxsize d / M.n d) := by nlinarith
    linarith

/-- The distances given to callables are those of the nodes to the origin. -/
theorem C66_distance (M : Mesh) (hL : ∀ d, 0 < M.boxsize d) (i : M.Idx) :
    M.rnorm i = Real.sqrt (nodeAt M i 0 ^ 2 + nodeAt M i 1 ^ 2 + nodeAt M i 2 ^ 2) := by
  unfold Mesh.rnorm
  rw [Fin.sum_univ_three, C66_nodes M hL, C66_nodes M hL, C66_nodes M hL]

/-- Distinct nodes have distinct coordinates. -/
theorem C66_distinct (M : Mesh) (hL : ∀ d, 0 < M.boxsize d) (i j : M.Idx) (h : ∀ d, nodeAt M i d = nodeAt M j d) : i = j := by
  funext d
  have hn := n_pos' M d
  have hc : 0 < M.boxsize d / M.n d := div_pos (hL d) hn
  have h := h d
  unfold nodeAt at h
  have : ((i d).val : ℝ) = (j d).val := by
    have : ((i d).val : ℝ) * (M.boxsize d / M.n d) = (j d).val * (M.boxsize d / M.n d) := by linarith
    exact mul_right_cancel₀ hc.ne' this
  exact ZMod.val_injective _ (by exact_mod_cast this)

/-- A mesh of 4 cells a side in a box of size 8 around the origin, with the convention of negative Nyquist frequencies. -/
noncomputable def mesh4 : Mesh where
  n := fun _ => 4
  n_pos := fun _ => by norm_num
  boxsize := fun _ => 8
  boxcenter := fun _ => 0
  freq := fun _ i => if i.val < 2 then i.val else i.val - 4
  freq_cast := fun _ i => by revert i; decide
  freq_le := fun _ i => by revert i; decide

/-- A mesh of 3 cells a side in a box of size 6 around the origin. -/
noncomputable def mesh3 : Mesh where
  n := fun _ => 3
  n_pos := fun _ => by norm_num
  boxsize := fun _ => 6
  boxcenter := fun _ => 0
  freq := fun _ i => if i.val < 2 then i.val else i.val - 3
  freq_cast := fun _ i => by revert i; decide
  freq_le := fun _ i => by revert i; decide

/-- The last node of `mesh4` is at 2 along each axis, one cell before the upper boundary. -/
example : ∃ i : mesh4.Idx, ∀ d, mesh4.rgrid mesh4.offset i d = 2 := by
  refine ⟨fun _ => (3 : ZMod 4), fun d => ?_⟩
  refine (C66_nodes mesh4 (fun _ => by simp [mesh4]) _ d).trans ?_
  have h : ((3 : ZMod 4).val : ℝ) = 3 := by
    have : (3 : ZMod 4).val = 3 := rfl
    rw [this]; norm_num
  unfold nodeAt
  simp only [mesh4]
  rw [h]
  norm_num

end Verif.Props
