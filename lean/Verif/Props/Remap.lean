import Verif.Lemmas.Remap
import Verif.Spec.Rigid
import Mathlib.Tactic.NormNum

/-!
# C10-C13, C64: cuboid remapping
-/

namespace Verif.Props
open Verif Verif.Model Verif.Model.Remap

/-- All components positive. -/
def PosBox (L : V3 ℝ) : Prop := 0 < L.x ∧ 0 < L.y ∧ 0 < L.z
/-- Position in the closed box [0, L]. -/
def InBox (L p : V3 ℝ) : Prop := (0 ≤ p.x ∧ p.x ≤ L.x) ∧ (0 ≤ p.y ∧ p.y ≤ L.y) ∧ (0 ≤ p.z ∧ p.z ≤ L.z)
/-- Position in the half-open box [0, L). -/
def InHalfOpenBox (L p : V3 ℝ) : Prop := (0 ≤ p.x ∧ p.x < L.x) ∧ (0 ≤ p.y ∧ p.y < L.y) ∧ (0 ≤ p.z ∧ p.z < L.z)

/-- A cuboid made from integer lattice vectors and a box with positive sides. -/
def Made (v1 v2 v3 : V3 ℤ) (L : V3 ℝ) (c : Cuboid) : Prop :=
  Cuboid.init (toReal v1) (toReal v2) (toReal v3) L = .ok c ∧ PosBox L

theorem det3_cast (v1 v2 v3 : V3 ℤ) : det3 (toReal v1) (toReal v2) (toReal v3) = (det3 v1 v2 v3 : ℤ) := by
  simp [det3, toReal]

/-- What `Made` gives: the fields of the cuboid. -/
theorem Made.elim {v1 v2 v3 : V3 ℤ} {L : V3 ℝ} {c : Cuboid} (h : Made v1 v2 v3 L c) :
    det3 (toReal v1) (toReal v2) (toReal v3) = 1 ∧ Basis (toReal v1) (toReal v2) (toReal v3) c.e1 c.e2 c.e3 ∧
    c.n1 = unit c.e1 ∧ c.n2 = unit c.e2 ∧ c.n3 = unit c.e3 ∧ c.boxsize = L ∧
    c.cuboidresize = ⟨(V3.emul L (unit c.e1)).norm, (V3.emul L (unit c.e2)).norm, (V3.emul L (unit c.e3)).norm⟩ ∧
    c.cuboidsize = V3.emul c.cuboidresize ⟨c.e1.norm, c.e2.norm, c.e3.norm⟩ ∧ c.cells = makeCells c.e1 c.e2 c.e3 ∧
    (c.e1, c.e2, c.e3) = orthogonalize (toReal v1) (toReal v2) (toReal v3) := by
  obtain ⟨h, -⟩ := h
  unfold Cuboid.init at h
  split at h
  · simp at h
  · next hd =>
    have hd : det3 (toReal v1) (toReal v2) (toReal v3) = 1 := by simpa using hd
    have B := basis_of_det (by rw [hd]; exact one_ne_zero)
    simp only [Except.ok.injEq] at h
    subst h
    exact ⟨hd, B, rfl, rfl, rfl, rfl, rfl, rfl, rfl, rfl⟩

theorem Made.resize_pos {v1 v2 v3 : V3 ℤ} {L : V3 ℝ} {c : Cuboid} (h : Made v1 v2 v3 L c) : PosBox c.cuboidresize := by
  obtain ⟨-, B, -, -, -, -, hr, -⟩ := h.elim
  obtain ⟨-, hx, hy, hz⟩ := h
  have aux : ∀ {e : V3 ℝ}, 0 < V3.dot e e → 0 < (V3.emul L (unit e)).norm := by
    intro e he
    have hn := norm_pos_of_dot he
    apply V3.norm_pos
    intro h0
    have h1 := congrArg V3.x h0
    have h2 := congrArg V3.y h0
    have h3 := congrArg V3.z h0
    simp [unit, hx.ne', hy.ne', hz.ne', hn.ne'] at h1 h2 h3
    simp [V3.dot, h1, h2, h3] at he
  rw [hr]
  exact ⟨aux B.p1, aux B.p2, aux B.p3⟩

theorem inCube_ediv {L p : V3 ℝ} (hL : PosBox L) (hp : InBox L p) : InCube (V3.ediv p L) := by
  obtain ⟨hx, hy, hz⟩ := hL
  obtain ⟨⟨a, a'⟩, ⟨b, b'⟩, c, c'⟩ := hp
  refine ⟨⟨?_, ?_⟩, ⟨?_, ?_⟩, ?_, ?_⟩ <;> simp only [V3.ediv_x, V3.ediv_y, V3.ediv_z]
  · exact div_nonneg a hx.le
  · exact (div_le_one hx).2 a'
  · exact div_nonneg b hy.le
  · exact (div_le_one hy).2 b'
  · exact div_nonneg c hz.le
  · exact (div_le_one hz).2 c'

/-! ## C10 -/

/-- C10: a cuboid is made exactly from unimodular lattice vectors; anything else raises `ValueError`. -/
theorem C10_init (v1 v2 v3 : V3 ℤ) (L : V3 ℝ) :
    (det3 v1 v2 v3 = 1 → ∃ c, Cuboid.init (toReal v1) (toReal v2) (toReal v3) L = .ok c) ∧
    (det3 v1 v2 v3 ≠ 1 → Cuboid.init (toReal v1) (toReal v2) (toReal v3) L = .error .valueError) := by
  unfold Cuboid.init
  rw [det3_cast]
  constructor
  · intro h
    rw [if_neg (by simp [h])]
    exact ⟨_, rfl⟩
  · intro h
    rw [if_pos]
    intro h'
    exact h (by exact_mod_cast h')

/-- C10: `transform` succeeds on any list of positions in [0, boxsize], one output per input. -/
theorem C10_total {v1 v2 v3 : V3 ℤ} {L : V3 ℝ} {c : Cuboid} (h : Made v1 v2 v3 L c) (ps : List (V3 ℝ))
    (hps : ∀ p ∈ ps, InBox L p) : ∃ qs, c.transform ps false = .ok qs ∧ qs.length = ps.length := by
  obtain ⟨hd, B, -, -, -, hL, -, -, hc, -⟩ := h.elim
  have hall : (ps.map fun p => applyCells c.cells (V3.ediv p c.boxsize)).all Prod.snd = true := by
    simp only [List.all_map, List.all_eq_true, Function.comp]
    intro p hp
    rw [applyCells_found, hc, hL]
    exact exists_madeCell B hd (inCube_ediv h.2 (hps p hp))
  simp only [Cuboid.transform, Bool.false_eq_true, if_false, hall, if_true]
  exact ⟨_, rfl, by simp⟩

/-- C10: `inverse_transform` undoes `transform`, whatever cells the positions went through: exactly for positions in
[0, boxsize), and up to the periodicity of the box in general. -/
theorem C10_inverse {v1 v2 v3 : V3 ℤ} {L : V3 ℝ} {c : Cuboid} (h : Made v1 v2 v3 L c) (ps qs : List (V3 ℝ))
    (ht : c.transform ps false = .ok qs) :
    qs.map (fun q => c.inverseTransform q false)
      = ps.map (fun p => ⟨Int.fract (p.x / L.x) * L.x, Int.fract (p.y / L.y) * L.y, Int.fract (p.z / L.z) * L.z⟩) ∧
    ((∀ p ∈ ps, InHalfOpenBox L p) → qs.map (fun q => c.inverseTransform q false) = ps) := by
  obtain ⟨hd, B, h1, h2, h3, hL, -, -, hc, -⟩ := h.elim
  obtain ⟨r1, r2, r3⟩ := h.resize_pos
  have hx := h.2.1
  have hy := h.2.2.1
  have hz := h.2.2.2
  have first : qs.map (fun q => c.inverseTransform q false)
      = ps.map (fun p => ⟨Int.fract (p.x / L.x) * L.x, Int.fract (p.y / L.y) * L.y, Int.fract (p.z / L.z) * L.z⟩) := by
    simp only [Cuboid.transform, Bool.false_eq_true, if_false] at ht
    split at ht
    · simp only [Except.ok.injEq] at ht
      rw [← ht, List.map_map, List.map_map]
      apply List.map_congr_left
      intro p _
      simp only [Function.comp, Cuboid.inverseTransform, Bool.false_eq_true, if_false]
      obtain ⟨k, hk⟩ := applyCells_shift c.cells (V3.ediv p c.boxsize)
      rw [hk]
      have e : V3.ediv (V3.emul (c.project (V3.ediv p c.boxsize + toReal k)) c.cuboidresize) c.cuboidresize
          = c.project (V3.ediv p c.boxsize + toReal k) := by
        ext <;> simp <;> field_simp
      rw [e]
      have e2 : ∀ y, c.combine (c.project y) = y := by
        intro y
        simp only [Cuboid.combine, Cuboid.project, h1, h2, h3]
        exact B.expand y
      rw [e2, hL]
      ext <;> simp [toReal]
    · simp at ht
  refine ⟨first, fun hps => ?_⟩
  rw [first]
  conv_rhs => rw [← List.map_id ps]
  apply List.map_congr_left
  intro p hp
  obtain ⟨⟨a, a'⟩, ⟨b, b'⟩, d, d'⟩ := hps p hp
  have fr : ∀ {s l : ℝ}, 0 < l → 0 ≤ s → s < l → Int.fract (s / l) * l = s := by
    intro s l hl h0 h1
    rw [Int.fract_eq_self.2 ⟨div_nonneg h0 hl.le, (div_lt_one hl).2 h1⟩]
    field_simp
  ext
  · exact fr hx a a'
  · exact fr hy b b'
  · exact fr hz d d'

/-- C10, velocities: `transform` and `inverse_transform` of translational-invariant vectors are inverse of each other. -/
theorem C10_inverse_vectors {v1 v2 v3 : V3 ℤ} {L : V3 ℝ} {c : Cuboid} (h : Made v1 v2 v3 L c) (ps : List (V3 ℝ)) :
    ∃ qs, c.transform ps true = .ok qs ∧ qs.map (fun q => c.inverseTransform q true) = ps ∧
      c.transform (ps.map (fun q => c.inverseTransform q true)) true = .ok ps := by
  obtain ⟨hd, B, h1, h2, h3, -⟩ := h.elim
  refine ⟨_, rfl, ?_, ?_⟩
  · rw [List.map_map]
    conv_rhs => rw [← List.map_id ps]
    apply List.map_congr_left
    intro p _
    simp only [Function.comp, Cuboid.inverseTransform, if_true, Cuboid.combine, Cuboid.project, h1, h2, h3, id]
    exact B.expand p
  · simp only [Cuboid.transform, if_true, List.map_map]
    congr 1
    conv_rhs => rw [← List.map_id ps]
    apply List.map_congr_left
    intro p _
    simp only [Function.comp, Cuboid.inverseTransform, if_true, Cuboid.combine, Cuboid.project, h1, h2, h3, id]
    exact B.project_combine p

/-- A non-trivial cuboid. -/
example : ∃ c, Made ⟨1, 1, 0⟩ ⟨0, 1, 0⟩ ⟨0, 0, 1⟩ ⟨2, 2, 2⟩ c ∧ InHalfOpenBox ⟨2, 2, 2⟩ ⟨0, 1, 1 / 2⟩ := by
  obtain ⟨c, hc⟩ := (C10_init ⟨1, 1, 0⟩ ⟨0, 1, 0⟩ ⟨0, 0, 1⟩ ⟨2, 2, 2⟩).1 (by decide)
  exact ⟨c, ⟨hc, by norm_num [PosBox]⟩, by norm_num [InHalfOpenBox]⟩

/-! ## C11 -/

/-- C11, full statement: remapped positions are in [0, cuboidsize]. -/
def RemapInCuboid : Prop :=
  ∀ (v1 v2 v3 : V3 ℤ) (L : V3 ℝ) (c : Cuboid), Made v1 v2 v3 L c → ∀ p q : V3 ℝ, InBox L p →
    c.transform [p] false = .ok [q] → InBox c.cuboidsize q

/-- A position (in units of the box) goes through at most one non-zero shift in the loop over cells. -/
def AtMostOneShift (cells : List Cell) (x : V3 ℝ) : Prop :=
  ∃ pre c post, cells = pre ++ c :: post ∧ (∀ b ∈ pre, b.isin x → b.ipos = 0) ∧ c.isin x ∧
    ∀ b ∈ post, b.isin (x + toReal c.ipos) → b.ipos = 0

/-- C11_partial: a position of the box that is shifted at most once ends in [0, cuboidsize], provided that the cuboid is
not an axis-aligned unit cube (for which the code has no proper cell). Missing: positions found in several cells. -/
theorem C11_single_partial {v1 v2 v3 : V3 ℤ} {L : V3 ℝ} {c : Cuboid} (h : Made v1 v2 v3 L c)
    (hface : ∀ b ∈ c.cells, b.faces ≠ []) {p q : V3 ℝ} (hp : InBox L p)
    (hone : AtMostOneShift c.cells (V3.ediv p L)) (ht : c.transform [p] false = .ok [q]) : InBox c.cuboidsize q := by
  obtain ⟨hd, B, h1, h2, h3, hL, -, hs, hc, -⟩ := h.elim
  obtain ⟨r1, r2, r3⟩ := h.resize_pos
  obtain ⟨pre, b, post, heq, ha, hb, hpost⟩ := hone
  have hkept : c.cells = keptCells c.e1 c.e2 c.e3 := by
    rw [hc]
    unfold makeCells
    split
    · next hk =>
      rw [hc] at hface
      have := hface ⟨0, []⟩ (by simp [makeCells, hk])
      simp at this
    · next hk => exact hk.symm
  have hbk : b ∈ keptCells c.e1 c.e2 c.e3 := by rw [← hkept, heq]; simp
  have hC := inC_of_isin B hbk (inCube_ediv h.2 hp) hb
  have happ := applyCells_single ha hb hpost
  rw [← heq] at happ
  simp only [Cuboid.transform, Bool.false_eq_true, if_false, List.map_cons, List.map_nil, hL, happ] at ht
  split at ht
  · simp only [Except.ok.injEq, List.cons.injEq, and_true] at ht
    rw [← ht, hs]
    obtain ⟨⟨a1, a2⟩, ⟨b1, b2⟩, c1, c2⟩ := hC
    have aux : ∀ {e y : V3 ℝ} {r : ℝ}, 0 < r → 0 < V3.dot e e → 0 ≤ V3.dot e y → V3.dot e y ≤ V3.dot e e →
        0 ≤ V3.dot y (unit e) * r ∧ V3.dot y (unit e) * r ≤ r * e.norm := by
      intro e y r hr he h0 h1
      have hn := norm_pos_of_dot he
      rw [dot_comm', dot_unit]
      constructor
      · positivity
      · rw [dot_self_eq_norm] at h1
        have : V3.dot e y / e.norm ≤ e.norm := by rw [div_le_iff₀ hn]; linarith
        nlinarith
    simp only [InBox, Cuboid.project, V3.emul_x, V3.emul_y, V3.emul_z, h1, h2, h3]
    exact ⟨aux r1 B.p1 a1 a2, aux r2 B.p2 b1 b2, aux r3 B.p3 c1 c2⟩
  · simp at ht

/-- C11_partial: for the identity lattice, positions are unchanged and the cuboid is the box. -/
theorem C11_identity_partial {L : V3 ℝ} {c : Cuboid} (h : Made ⟨1, 0, 0⟩ ⟨0, 1, 0⟩ ⟨0, 0, 1⟩ L c) :
    c.cuboidsize = L ∧ ∀ ps : List (V3 ℝ), (∀ p ∈ ps, InBox L p) → c.transform ps false = .ok ps := by
  obtain ⟨hd, B, h1, h2, h3, hL, hr, hs, hc, he⟩ := h.elim
  obtain ⟨hx, hy, hz⟩ := h.2
  simp only [orthogonalize, toReal, V3.dot, Prod.mk.injEq] at he
  obtain ⟨e1, e2, e3⟩ := he
  have e1 : c.e1 = ⟨1, 0, 0⟩ := by rw [e1]; simp
  have e2 : c.e2 = ⟨0, 1, 0⟩ := by rw [e2]; ext <;> simp
  have e3 : c.e3 = ⟨0, 0, 1⟩ := by rw [e3]; ext <;> simp
  have m1 : (⟨1, 0, 0⟩ : V3 ℝ).norm = 1 := V3.norm_eq_one_of_sq (by norm_num)
  have m2 : (⟨0, 1, 0⟩ : V3 ℝ).norm = 1 := V3.norm_eq_one_of_sq (by norm_num)
  have m3 : (⟨0, 0, 1⟩ : V3 ℝ).norm = 1 := V3.norm_eq_one_of_sq (by norm_num)
  have u1 : unit c.e1 = ⟨1, 0, 0⟩ := by rw [e1]; simp [unit, m1]
  have u2 : unit c.e2 = ⟨0, 1, 0⟩ := by rw [e2]; simp [unit, m2]
  have u3 : unit c.e3 = ⟨0, 0, 1⟩ := by rw [e3]; simp [unit, m3]
  have hres : c.cuboidresize = L := by
    rw [hr, u1, u2, u3]
    ext <;> simp [V3.norm, Real.sqrt_sq hx.le, Real.sqrt_sq hy.le, Real.sqrt_sq hz.le]
  refine ⟨?_, fun ps hps => ?_⟩
  · rw [hs, hres, e1, e2, e3, m1, m2, m3]
    ext <;> simp
  · obtain ⟨qs, hqs, -⟩ := C10_total h ps hps
    -- every cell has a zero shift
    have hzero : ∀ b ∈ c.cells, b.ipos = 0 := by
      intro b hb
      rw [hc] at hb
      by_cases hk : keptCells c.e1 c.e2 c.e3 = []
      · simp [makeCells, hk] at hb; rw [hb]
      · have hm : makeCells c.e1 c.e2 c.e3 = keptCells c.e1 c.e2 c.e3 := by
          unfold makeCells
          split
          · next h => exact absurd h hk
          · next h => exact h.symm
        rw [hm] at hb
        obtain ⟨ht, -⟩ := mem_keptCells.1 hb
        obtain ⟨t1, t2, t3⟩ := mem_tiles.1 ht
        rw [e1, e2, e3] at t1 t2 t3
        simp only [tileRange, vertices, List.map_cons, List.map_nil, mem_arange] at t1 t2 t3
        norm_num [minOf, maxOf] at t1 t2 t3
        ext <;> simp <;> omega
    rw [hqs]
    simp only [Cuboid.transform, Bool.false_eq_true, if_false] at hqs
    split at hqs
    · simp only [Except.ok.injEq] at hqs
      rw [← hqs, List.map_map]
      congr 1
      conv_rhs => rw [← List.map_id ps]
      apply List.map_congr_left
      intro p _
      simp only [Function.comp, applyCells_zero (fun b hb _ => hzero b hb), Cuboid.project, h1, h2, h3, u1, u2, u3, hL,
        hres, id]
      ext <;> simp [V3.dot] <;> field_simp
    · simp at hqs

/-- Sign-flipped axes: the only tile has no face, it is skipped as trivial, and the default cell (no shift) is used. -/
theorem C11_flipped_violated : ¬ RemapInCuboid := by
  intro hall
  obtain ⟨c, hc⟩ := (C10_init ⟨-1, 0, 0⟩ ⟨0, -1, 0⟩ ⟨0, 0, 1⟩ ⟨1, 1, 1⟩).1 (by decide)
  have h : Made ⟨-1, 0, 0⟩ ⟨0, -1, 0⟩ ⟨0, 0, 1⟩ ⟨1, 1, 1⟩ c := ⟨hc, by norm_num [PosBox]⟩
  obtain ⟨hd, B, h1, h2, h3, hL, hr, hs, hcells, he⟩ := h.elim
  simp only [orthogonalize, toReal, V3.dot, Prod.mk.injEq] at he
  obtain ⟨e1, e2, e3⟩ := he
  have e1 : c.e1 = ⟨-1, 0, 0⟩ := by rw [e1]; simp
  have e2 : c.e2 = ⟨0, -1, 0⟩ := by rw [e2]; ext <;> simp
  have e3 : c.e3 = ⟨0, 0, 1⟩ := by rw [e3]; ext <;> simp
  have hk : keptCells c.e1 c.e2 c.e3 = [] := by
    apply keptCells_nil B hd (t := ⟨-1, -1, 0⟩)
    · rw [mem_tiles, e1, e2, e3]
      simp only [tileRange, vertices, List.map_cons, List.map_nil, mem_arange]
      norm_num [minOf, maxOf]
    · intro f hf
      simp only [tileFaces, List.mem_cons, List.not_mem_nil, or_false] at hf
      rcases hf with rfl | rfl | rfl | rfl | rfl | rfl
      · rw [r_lower B.p1, e1]; norm_num [unitCube, V3.dot, toReal]
      · rw [r_upper B.p1, e1]; norm_num [unitCube, V3.dot, toReal]
      · rw [r_lower B.p2, e2]; norm_num [unitCube, V3.dot, toReal]
      · rw [r_upper B.p2, e2]; norm_num [unitCube, V3.dot, toReal]
      · rw [r_lower B.p3, e3]; norm_num [unitCube, V3.dot, toReal]
      · rw [r_upper B.p3, e3]; norm_num [unitCube, V3.dot, toReal]
  have hcell : c.cells = [⟨0, []⟩] := by rw [hcells]; simp [makeCells, hk]
  have hp : InBox (⟨1, 1, 1⟩ : V3 ℝ) ⟨1 / 2, 1 / 4, 1 / 8⟩ := by norm_num [InBox]
  obtain ⟨qs, hq, hlen⟩ := C10_total h [⟨1 / 2, 1 / 4, 1 / 8⟩] (by simpa using hp)
  obtain ⟨q, rfl⟩ : ∃ q, qs = [q] := List.length_eq_one_iff.1 hlen
  have hin := (hall _ _ _ _ c h _ q hp hq).1.1
  simp [Cuboid.transform, hcell, applyCells, cellStep, Cell.isin] at hq
  have hx := congrArg V3.x hq
  have m1 : (⟨-1, 0, 0⟩ : V3 ℝ).norm = 1 := V3.norm_eq_one_of_sq (by norm_num)
  have hrx := h.resize_pos.1
  simp [Cuboid.project, h1, unit, m1, hL, V3.dot, toReal, e1] at hx
  nlinarith

/-- The cells of the lattice (-1, -1, 0), (-1, -1, -1), (0, -1, 0), computed. -/
theorem example_cells : ∃ c, Made ⟨-1, -1, 0⟩ ⟨-1, -1, -1⟩ ⟨0, -1, 0⟩ ⟨1, 1, 1⟩ c ∧
    c.e1 = ⟨-1, -1, 0⟩ ∧ c.e2 = ⟨0, 0, -1⟩ ∧ c.e3 = ⟨1 / 2, -1 / 2, 0⟩ ∧
    c.cells = [⟨⟨-1, -2, -1⟩, [Plane.init (0 + c.e1 + -toReal ⟨-1, -2, -1⟩) (-unit c.e1), Plane.init (0 + c.e3 + -toReal ⟨-1, -2, -1⟩) (-unit c.e3)]⟩, ⟨⟨-1, -1, -1⟩, [Plane.init (0 + -toReal ⟨-1, -1, -1⟩) (unit c.e3)]⟩, ⟨⟨0, -1, -1⟩, [Plane.init (0 + -toReal ⟨0, -1, -1⟩) (unit c.e1), Plane.init (0 + c.e3 + -toReal ⟨0, -1, -1⟩) (-unit c.e3)]⟩] := by
  obtain ⟨c, hc⟩ := (C10_init ⟨-1, -1, 0⟩ ⟨-1, -1, -1⟩ ⟨0, -1, 0⟩ ⟨1, 1, 1⟩).1 (by decide)
  have h : Made ⟨-1, -1, 0⟩ ⟨-1, -1, -1⟩ ⟨0, -1, 0⟩ ⟨1, 1, 1⟩ c := ⟨hc, by norm_num [PosBox]⟩
  obtain ⟨hd, B, h1, h2, h3, hL, hr, hs, hcells, he⟩ := h.elim
  simp only [orthogonalize, toReal, V3.dot, Prod.mk.injEq] at he
  obtain ⟨e1, e2, e3⟩ := he
  have e1 : c.e1 = ⟨-1, -1, 0⟩ := by rw [e1]; simp
  have e2 : c.e2 = ⟨0, 0, -1⟩ := by rw [e2]; ext <;> norm_num
  have e3 : c.e3 = ⟨1 / 2, -1 / 2, 0⟩ := by rw [e3]; ext <;> norm_num
  obtain ⟨p1, p2, p3⟩ : 0 < V3.dot c.e1 c.e1 ∧ 0 < V3.dot c.e2 c.e2 ∧ 0 < V3.dot c.e3 c.e3 := ⟨B.p1, B.p2, B.p3⟩
  have htiles : tiles c.e1 c.e2 c.e3 = [⟨-1, -2, -1⟩, ⟨-1, -1, -1⟩, ⟨0, -2, -1⟩, ⟨0, -1, -1⟩] := by
    rw [e1, e2, e3]
    have f1 : ⌊(-(3 / 2) : ℝ)⌋ = -2 := by rw [Int.floor_eq_iff]; norm_num
    have f2 : ⌈((1 / 2) : ℝ)⌉ = 1 := by rw [Int.ceil_eq_iff]; norm_num
    have rx : tileRange V3.x ⟨-1, -1, 0⟩ ⟨0, 0, -1⟩ ⟨1 / 2, -1 / 2, 0⟩ = [-1, 0] := by
      simp only [tileRange, vertices, List.map_cons, List.map_nil]
      norm_num [minOf, maxOf, arange]
      rfl
    have ry : tileRange V3.y ⟨-1, -1, 0⟩ ⟨0, 0, -1⟩ ⟨1 / 2, -1 / 2, 0⟩ = [-2, -1] := by
      simp only [tileRange, vertices, List.map_cons, List.map_nil]
      norm_num [minOf, maxOf, arange]
      rfl
    have rz : tileRange V3.z ⟨-1, -1, 0⟩ ⟨0, 0, -1⟩ ⟨1 / 2, -1 / 2, 0⟩ = [-1] := by
      simp only [tileRange, vertices, List.map_cons, List.map_nil]
      norm_num [minOf, maxOf, arange]
    simp only [tiles, rx, ry, rz]
    simp
  have s0 : scanFaces (tileFaces c.e1 c.e2 c.e3 ⟨-1, -2, -1⟩) = some [Plane.init (0 + c.e1 + -toReal ⟨-1, -2, -1⟩) (-unit c.e1), Plane.init (0 + c.e3 + -toReal ⟨-1, -2, -1⟩) (-unit c.e3)] := by
    have r0 : (Plane.init (0 + -toReal ⟨-1, -2, -1⟩) (unit c.e1)).testUnitCube = 1 := by
      rw [r_lower p1, e1]; norm_num [unitCube, V3.dot, toReal]
    have r1 : (Plane.init (0 + c.e1 + -toReal ⟨-1, -2, -1⟩) (-unit c.e1)).testUnitCube = 0 := by
      rw [r_upper p1, e1]; norm_num [unitCube, V3.dot, toReal]
    have r2 : (Plane.init (0 + -toReal ⟨-1, -2, -1⟩) (unit c.e2)).testUnitCube = 1 := by
      rw [r_lower p2, e2]; norm_num [unitCube, V3.dot, toReal]
    have r3 : (Plane.init (0 + c.e2 + -toReal ⟨-1, -2, -1⟩) (-unit c.e2)).testUnitCube = 1 := by
      rw [r_upper p2, e2]; norm_num [unitCube, V3.dot, toReal]
    have r4 : (Plane.init (0 + -toReal ⟨-1, -2, -1⟩) (unit c.e3)).testUnitCube = 1 := by
      rw [r_lower p3, e3]; norm_num [unitCube, V3.dot, toReal]
    have r5 : (Plane.init (0 + c.e3 + -toReal ⟨-1, -2, -1⟩) (-unit c.e3)).testUnitCube = 0 := by
      rw [r_upper p3, e3]; norm_num [unitCube, V3.dot, toReal]
    simp [tileFaces, scanFaces, -zero_add, -neg_add_rev, r0, r1, r2, r3, r4, r5]
  have s1 : scanFaces (tileFaces c.e1 c.e2 c.e3 ⟨-1, -1, -1⟩) = some [Plane.init (0 + -toReal ⟨-1, -1, -1⟩) (unit c.e3)] := by
    have r0 : (Plane.init (0 + -toReal ⟨-1, -1, -1⟩) (unit c.e1)).testUnitCube = 1 := by
      rw [r_lower p1, e1]; norm_num [unitCube, V3.dot, toReal]
    have r1 : (Plane.init (0 + c.e1 + -toReal ⟨-1, -1, -1⟩) (-unit c.e1)).testUnitCube = 1 := by
      rw [r_upper p1, e1]; norm_num [unitCube, V3.dot, toReal]
    have r2 : (Plane.init (0 + -toReal ⟨-1, -1, -1⟩) (unit c.e2)).testUnitCube = 1 := by
      rw [r_lower p2, e2]; norm_num [unitCube, V3.dot, toReal]
    have r3 : (Plane.init (0 + c.e2 + -toReal ⟨-1, -1, -1⟩) (-unit c.e2)).testUnitCube = 1 := by
      rw [r_upper p2, e2]; norm_num [unitCube, V3.dot, toReal]
    have r4 : (Plane.init (0 + -toReal ⟨-1, -1, -1⟩) (unit c.e3)).testUnitCube = 0 := by
      rw [r_lower p3, e3]; norm_num [unitCube, V3.dot, toReal]
    have r5 : (Plane.init (0 + c.e3 + -toReal ⟨-1, -1, -1⟩) (-unit c.e3)).testUnitCube = 1 := by
      rw [r_upper p3, e3]; norm_num [unitCube, V3.dot, toReal]
    simp [tileFaces, scanFaces, -zero_add, -neg_add_rev, r0, r1, r2, r3, r4, r5]
  have s2 : scanFaces (tileFaces c.e1 c.e2 c.e3 ⟨0, -2, -1⟩) = none := by
    have r0 : (Plane.init (0 + -toReal ⟨0, -2, -1⟩) (unit c.e1)).testUnitCube = 1 := by
      rw [r_lower p1, e1]; norm_num [unitCube, V3.dot, toReal]
    have r1 : (Plane.init (0 + c.e1 + -toReal ⟨0, -2, -1⟩) (-unit c.e1)).testUnitCube = 1 := by
      rw [r_upper p1, e1]; norm_num [unitCube, V3.dot, toReal]
    have r2 : (Plane.init (0 + -toReal ⟨0, -2, -1⟩) (unit c.e2)).testUnitCube = 1 := by
      rw [r_lower p2, e2]; norm_num [unitCube, V3.dot, toReal]
    have r3 : (Plane.init (0 + c.e2 + -toReal ⟨0, -2, -1⟩) (-unit c.e2)).testUnitCube = 1 := by
      rw [r_upper p2, e2]; norm_num [unitCube, V3.dot, toReal]
    have r4 : (Plane.init (0 + -toReal ⟨0, -2, -1⟩) (unit c.e3)).testUnitCube = 1 := by
      rw [r_lower p3, e3]; norm_num [unitCube, V3.dot, toReal]
    have r5 : (Plane.init (0 + c.e3 + -toReal ⟨0, -2, -1⟩) (-unit c.e3)).testUnitCube = -1 := by
      rw [r_upper p3, e3]; norm_num [unitCube, V3.dot, toReal]
    simp [tileFaces, scanFaces, -zero_add, -neg_add_rev, r0, r1, r2, r3, r4, r5]
  have s3 : scanFaces (tileFaces c.e1 c.e2 c.e3 ⟨0, -1, -1⟩) = some [Plane.init (0 + -toReal ⟨0, -1, -1⟩) (unit c.e1), Plane.init (0 + c.e3 + -toReal ⟨0, -1, -1⟩) (-unit c.e3)] := by
    have r0 : (Plane.init (0 + -toReal ⟨0, -1, -1⟩) (unit c.e1)).testUnitCube = 0 := by
      rw [r_lower p1, e1]; norm_num [unitCube, V3.dot, toReal]
    have r1 : (Plane.init (0 + c.e1 + -toReal ⟨0, -1, -1⟩) (-unit c.e1)).testUnitCube = 1 := by
      rw [r_upper p1, e1]; norm_num [unitCube, V3.dot, toReal]
    have r2 : (Plane.init (0 + -toReal ⟨0, -1, -1⟩) (unit c.e2)).testUnitCube = 1 := by
      rw [r_lower p2, e2]; norm_num [unitCube, V3.dot, toReal]
    have r3 : (Plane.init (0 + c.e2 + -toReal ⟨0, -1, -1⟩) (-unit c.e2)).testUnitCube = 1 := by
      rw [r_upper p2, e2]; norm_num [unitCube, V3.dot, toReal]
    have r4 : (Plane.init (0 + -toReal ⟨0, -1, -1⟩) (unit c.e3)).testUnitCube = 1 := by
      rw [r_lower p3, e3]; norm_num [unitCube, V3.dot, toReal]
    have r5 : (Plane.init (0 + c.e3 + -toReal ⟨0, -1, -1⟩) (-unit c.e3)).testUnitCube = 0 := by
      rw [r_upper p3, e3]; norm_num [unitCube, V3.dot, toReal]
    simp [tileFaces, scanFaces, -zero_add, -neg_add_rev, r0, r1, r2, r3, r4, r5]
  have hcell : c.cells = [⟨⟨-1, -2, -1⟩, [Plane.init (0 + c.e1 + -toReal ⟨-1, -2, -1⟩) (-unit c.e1), Plane.init (0 + c.e3 + -toReal ⟨-1, -2, -1⟩) (-unit c.e3)]⟩, ⟨⟨-1, -1, -1⟩, [Plane.init (0 + -toReal ⟨-1, -1, -1⟩) (unit c.e3)]⟩, ⟨⟨0, -1, -1⟩, [Plane.init (0 + -toReal ⟨0, -1, -1⟩) (unit c.e1), Plane.init (0 + c.e3 + -toReal ⟨0, -1, -1⟩) (-unit c.e3)]⟩] := by
    rw [hcells]
    simp only [makeCells, keptCells, htiles, List.filterMap_cons, s0, s1, s2, s3, List.filterMap_nil]
  exact ⟨c, h, e1, e2, e3, hcell⟩

/-- Double shift: `transform` shifts positions in place while it loops over the cells, so that a position already moved
into the cuboid can be found in a later cell and moved out. -/
theorem C11_double_shift_violated : ¬ RemapInCuboid := by
  intro hall
  obtain ⟨c, h, e1, e2, e3, hcell⟩ := example_cells
  obtain ⟨hd, B, h1, h2, h3, hL, hr, hs, hcells, he⟩ := h.elim
  obtain ⟨p1, p2, p3⟩ : 0 < V3.dot c.e1 c.e1 ∧ 0 < V3.dot c.e2 c.e2 ∧ 0 < V3.dot c.e3 c.e3 := ⟨B.p1, B.p2, B.p3⟩
  have hn1 := norm_pos_of_dot p1
  have hn3 := norm_pos_of_dot p3
  have happ : (applyCells c.cells ⟨1 / 4, 1 / 4, 1 / 4⟩).1 = ⟨-3 / 4, -7 / 4, -7 / 4⟩ := by
    rw [hcell, (applyCells_cons _ _ _).2, (applyCells_cons _ _ _).1, (applyCells_cons _ _ _).1]
    · ext <;> simp [applyCells, toReal] <;> norm_num
    · simp only [Cell.isin, List.mem_cons, List.not_mem_nil, or_false, forall_eq_or_imp, forall_eq, test_lower, test_upper,
        le_div_iff₀ hn1, le_div_iff₀ hn3]
      rw [e1, e3]
      norm_num [V3.dot, toReal]
    · simp only [Cell.isin, List.mem_cons, List.not_mem_nil, or_false, forall_eq, test_lower, le_div_iff₀ hn3]
      rw [e3]
      norm_num [V3.dot, toReal]
    · simp only [Cell.isin, List.mem_cons, List.not_mem_nil, or_false, forall_eq_or_imp, forall_eq, test_upper,
        le_div_iff₀ hn1, le_div_iff₀ hn3]
      rw [e1, e3]
      norm_num [V3.dot, toReal]
  have hp : InBox (⟨1, 1, 1⟩ : V3 ℝ) ⟨1 / 4, 1 / 4, 1 / 4⟩ := by norm_num [InBox]
  obtain ⟨qs, hq, hlen⟩ := C10_total h [⟨1 / 4, 1 / 4, 1 / 4⟩] (by simpa using hp)
  obtain ⟨q, rfl⟩ : ∃ q, qs = [q] := List.length_eq_one_iff.1 hlen
  have hin := (hall _ _ _ _ c h _ q hp hq).1.2
  have hdiv : V3.ediv (⟨1 / 4, 1 / 4, 1 / 4⟩ : V3 ℝ) ⟨1, 1, 1⟩ = ⟨1 / 4, 1 / 4, 1 / 4⟩ := by ext <;> simp
  simp only [Cuboid.transform, Bool.false_eq_true, if_false, List.map_cons, List.map_nil, hL, hdiv, happ] at hq
  split at hq
  · simp only [Except.ok.injEq, List.cons.injEq, and_true] at hq
    have hx := congrArg V3.x hq
    have hrx := h.resize_pos.1
    have hsx := congrArg V3.x hs
    simp only [V3.emul_x, Cuboid.project, h1] at hx hsx
    rw [dot_comm', dot_unit] at hx
    have hee := dot_self_eq_norm c.e1
    have e11 : V3.dot c.e1 c.e1 = 2 := by rw [e1]; norm_num [V3.dot]
    have e1y : V3.dot c.e1 ⟨-3 / 4, -7 / 4, -7 / 4⟩ = 5 / 2 := by rw [e1]; norm_num [V3.dot]
    rw [e1y] at hx
    rw [e11] at hee
    rw [← hx, hsx] at hin
    have : 5 / 2 / c.e1.norm ≤ c.e1.norm := by
      by_contra hlt
      push Not at hlt
      nlinarith
    rw [div_le_iff₀ hn1] at this
    nlinarith
  · simp at hq

/-- Hypotheses of `C11_single_partial` on a lattice and a position for which there is a shift. -/
example : ∃ c, Made ⟨-1, -1, 0⟩ ⟨-1, -1, -1⟩ ⟨0, -1, 0⟩ ⟨1, 1, 1⟩ c ∧ (∀ b ∈ c.cells, b.faces ≠ []) ∧
    AtMostOneShift c.cells (V3.ediv ⟨3 / 4, 1 / 4, 1 / 2⟩ ⟨1, 1, 1⟩) := by
  obtain ⟨c, h, e1, e2, e3, hcell⟩ := example_cells
  obtain ⟨hd, B, -⟩ := h.elim
  have hn1 := norm_pos_of_dot B.p1
  have hn3 := norm_pos_of_dot B.p3
  refine ⟨c, h, by simp [hcell], ?_⟩
  have hdiv : V3.ediv (⟨3 / 4, 1 / 4, 1 / 2⟩ : V3 ℝ) ⟨1, 1, 1⟩ = ⟨3 / 4, 1 / 4, 1 / 2⟩ := by ext <;> simp
  rw [hdiv]
  refine ⟨[_], _, [_], hcell, ?_, ?_, ?_⟩
  · simp only [Cell.isin, List.mem_cons, List.not_mem_nil, or_false, forall_eq_or_imp, forall_eq, test_upper,
      le_div_iff₀ hn1, le_div_iff₀ hn3]
    rw [e1, e3]
    norm_num [V3.dot, toReal]
  · simp only [Cell.isin, List.mem_cons, List.not_mem_nil, or_false, forall_eq, test_lower, le_div_iff₀ hn3]
    rw [e3]
    norm_num [V3.dot, toReal]
  · simp only [Cell.isin, List.mem_cons, List.not_mem_nil, or_false, forall_eq_or_imp, forall_eq, test_lower, test_upper,
      le_div_iff₀ hn1, le_div_iff₀ hn3]
    rw [e1, e3]
    norm_num [V3.dot, toReal]

/-! ## C12 -/

/-- C12: side lengths of the remapped box: the lengths of the sides of the orthogonal basis, stretched by the box. -/
theorem C12_sizes {v1 v2 v3 : V3 ℤ} {L : V3 ℝ} {c : Cuboid} (h : Made v1 v2 v3 L c) :
    c.cuboidsize = ⟨(V3.emul L c.e1).norm, (V3.emul L c.e2).norm, (V3.emul L c.e3).norm⟩ := by
  obtain ⟨hd, B, h1, h2, h3, hL, hr, hs, -⟩ := h.elim
  have aux : ∀ {e : V3 ℝ}, 0 < V3.dot e e → (V3.emul L (unit e)).norm * e.norm = (V3.emul L e).norm := by
    intro e he
    have hn := norm_pos_of_dot he
    have : (V3.emul L (unit e)).norm ^ 2 * e.norm ^ 2 = (V3.emul L e).norm ^ 2 := by
      rw [V3.norm_sq (V3.emul L (unit e)), V3.norm_sq (V3.emul L e)]
      simp only [unit, V3.emul_x, V3.emul_y, V3.emul_z]
      field_simp
    rw [← mul_pow] at this
    have h0 := mul_nonneg (V3.norm_nonneg (V3.emul L (unit e))) hn.le
    have h1 := V3.norm_nonneg (V3.emul L e)
    exact (sq_eq_sq₀ h0 h1).1 this
  rw [hs, hr]
  ext
  · exact aux B.p1
  · exact aux B.p2
  · exact aux B.p3

/-- C12: for cubic boxes, the remapped box has the volume of the original one. -/
theorem C12_volume_partial {v1 v2 v3 : V3 ℤ} {L : ℝ} {c : Cuboid} (h : Made v1 v2 v3 (V3.const L) c) :
    c.cuboidsize.x * c.cuboidsize.y * c.cuboidsize.z = L * L * L := by
  obtain ⟨hd, B, -⟩ := h.elim
  have hL : 0 < L := h.2.1
  have hp := prod_norms B hd
  have aux : ∀ e : V3 ℝ, (V3.emul (V3.const L) e).norm = L * e.norm := by
    intro e
    have : (V3.emul (V3.const L) e).norm ^ 2 = (L * e.norm) ^ 2 := by
      rw [V3.norm_sq, mul_pow, V3.norm_sq]; simp; ring
    exact (sq_eq_sq₀ (V3.norm_nonneg _) (mul_nonneg hL.le (V3.norm_nonneg _))).1 this
  rw [C12_sizes h]
  simp only [aux]
  linear_combination L * L * L * hp

/-- C12: for cubic boxes, the distance between two remapped positions is that between one position and a periodic image
of the other. -/
theorem C12_separation_partial {v1 v2 v3 : V3 ℤ} {L : ℝ} {c : Cuboid} (h : Made v1 v2 v3 (V3.const L) c)
    {p q p' q' : V3 ℝ} (ht : c.transform [p, q] false = .ok [p', q']) :
    ∃ k : V3 ℤ, Spec.dist p' q' = Spec.dist p (q + L • toReal k) := by
  obtain ⟨hd, B, h1, h2, h3, hL, hr, -⟩ := h.elim
  have hL0 : 0 < L := h.2.1
  simp only [Cuboid.transform, Bool.false_eq_true, if_false, List.map_cons, List.map_nil] at ht
  split at ht
  · simp only [Except.ok.injEq, List.cons.injEq, and_true] at ht
    obtain ⟨k1, hk1⟩ := applyCells_shift c.cells (V3.ediv p c.boxsize)
    obtain ⟨k2, hk2⟩ := applyCells_shift c.cells (V3.ediv q c.boxsize)
    rw [hk1, hk2, hL] at ht
    refine ⟨k2 - k1, ?_⟩
    have unitn : ∀ {e : V3 ℝ}, 0 < V3.dot e e → (V3.emul (V3.const L) (unit e)).norm = L := by
      intro e he
      have hn := norm_pos_of_dot he
      have : (V3.emul (V3.const L) (unit e)).norm ^ 2 = L ^ 2 := by
        rw [V3.norm_sq]
        simp only [unit, V3.emul_x, V3.emul_y, V3.emul_z, V3.const_x, V3.const_y, V3.const_z]
        have := V3.norm_sq e
        field_simp
        linarith
      exact (sq_eq_sq₀ (V3.norm_nonneg _) hL0.le).1 this
    have hres : c.cuboidresize = V3.const L := by
      rw [hr]
      ext
      · exact unitn B.p1
      · exact unitn B.p2
      · exact unitn B.p3
    have hd := dot_mulVec_of_orth B.tr_rows_mul (p - (q + L • toReal (k2 - k1))) (p - (q + L • toReal (k2 - k1)))
    have hdiff : p' - q' = (rows (unit c.e1) (unit c.e2) (unit c.e3)).mulVec (p - (q + L • toReal (k2 - k1))) := by
      rw [← ht.1, ← ht.2, hres]
      ext <;> simp [Cuboid.project, h1, h2, h3, rows, V3.dot, toReal] <;> field_simp <;> ring
    rw [← hdiff] at hd
    simp only [V3.dot, V3.sub_x, V3.sub_y, V3.sub_z] at hd
    simp only [Spec.dist]
    congr 1
    linarith
  · simp at ht

/-- C12 is violated for boxes with different sides: the volume of the remapped box is not that of the original one. -/
theorem C12_volume_violated : ¬ ∀ (v1 v2 v3 : V3 ℤ) (L : V3 ℝ) (c : Cuboid), Made v1 v2 v3 L c →
    c.cuboidsize.x * c.cuboidsize.y * c.cuboidsize.z = L.x * L.y * L.z := by
  intro hall
  obtain ⟨c, hc⟩ := (C10_init ⟨0, 1, 1⟩ ⟨1, 0, 1⟩ ⟨0, 1, 0⟩ ⟨1, 2, 3⟩).1 (by decide)
  have h : Made ⟨0, 1, 1⟩ ⟨1, 0, 1⟩ ⟨0, 1, 0⟩ ⟨1, 2, 3⟩ c := ⟨hc, by norm_num [PosBox]⟩
  obtain ⟨hd, B, h1, h2, h3, hL, hr, hs, hcells, he⟩ := h.elim
  simp only [orthogonalize, toReal, V3.dot, Prod.mk.injEq] at he
  obtain ⟨e1, e2, e3⟩ := he
  have e1 : c.e1 = ⟨0, 1, 1⟩ := by rw [e1]; simp
  have e2 : c.e2 = ⟨1, -1 / 2, 1 / 2⟩ := by rw [e2]; ext <;> norm_num
  have e3 : c.e3 = ⟨1 / 3, 1 / 3, -1 / 3⟩ := by rw [e3]; ext <;> norm_num
  have hv := hall _ _ _ _ c h
  rw [C12_sizes h, e1, e2, e3] at hv
  simp only at hv
  have hv2 := congrArg (· ^ 2) hv
  simp only [mul_pow] at hv2
  rw [V3.norm_sq, V3.norm_sq, V3.norm_sq] at hv2
  norm_num at hv2

/-! ## C64 : velocities and displacements -/

/-- C64: for cubic boxes, a small displacement (one that keeps the particle in the same cells) is remapped as the
velocity vector of the same components; lengths of velocities are unchanged for any box. -/
theorem C64_velocity_norm {v1 v2 v3 : V3 ℤ} {L : V3 ℝ} {c : Cuboid} (h : Made v1 v2 v3 L c) (v : V3 ℝ) :
    ∃ w, c.transform [v] true = .ok [w] ∧ w.norm = v.norm := by
  obtain ⟨hd, B, h1, h2, h3, -⟩ := h.elim
  refine ⟨_, rfl, ?_⟩
  have hdot := dot_mulVec_of_orth B.tr_rows_mul v v
  have : c.project v = (rows (unit c.e1) (unit c.e2) (unit c.e3)).mulVec v := by
    ext <;> simp [Cuboid.project, h1, h2, h3, rows, V3.dot] <;> ring
  rw [dot_self_eq_norm, dot_self_eq_norm, ← this] at hdot
  exact (sq_eq_sq₀ (V3.norm_nonneg _) (V3.norm_nonneg _)).1 hdot

/-- The full statement of C64: the displacement between two remapped positions is the remapped displacement vector, up
to periodic images: the remapped vector between the first position and some periodic image of the second. -/
def DisplacementsAsVectors (L : V3 ℝ) (c : Cuboid) : Prop :=
  ∀ p q p' q' : V3 ℝ, InBox L p → InBox L q →
    c.transform [p] false = .ok [p'] → c.transform [q] false = .ok [q'] →
    ∃ k : V3 ℤ, c.transform [q + V3.emul L (toReal k) - p] true = .ok [q' - p']

theorem C64_displacement_partial {v1 v2 v3 : V3 ℤ} {L : ℝ} {c : Cuboid} (h : Made v1 v2 v3 (V3.const L) c) :
    DisplacementsAsVectors (V3.const L) c := by
  intro p q p' q' _ _ hp hq
  obtain ⟨hd, B, h1, h2, h3, hL, hr, -⟩ := h.elim
  have hL0 : 0 < L := h.2.1
  obtain ⟨k1, hk1⟩ := applyCells_shift c.cells (V3.ediv p c.boxsize)
  obtain ⟨k2, hk2⟩ := applyCells_shift c.cells (V3.ediv q c.boxsize)
  refine ⟨k2 - k1, ?_⟩
  have unitn : ∀ {e : V3 ℝ}, 0 < V3.dot e e → (V3.emul (V3.const L) (unit e)).norm = L := by
    intro e he
    have hn := norm_pos_of_dot he
    have : (V3.emul (V3.const L) (unit e)).norm ^ 2 = L ^ 2 := by
      rw [V3.norm_sq]
      simp only [unit, V3.emul_x, V3.emul_y, V3.emul_z, V3.const_x, V3.const_y, V3.const_z]
      have := V3.norm_sq e
      field_simp
      linarith
    exact (sq_eq_sq₀ (V3.norm_nonneg _) hL0.le).1 this
  have hres : c.cuboidresize = V3.const L := by
    rw [hr]
    ext
    · exact unitn B.p1
    · exact unitn B.p2
    · exact unitn B.p3
  simp only [Cuboid.transform, Bool.false_eq_true, if_false, if_true, List.map_cons, List.map_nil, hk1, hk2]
    at hp hq ⊢
  split at hp <;> split at hq <;> simp at hp hq
  rw [← hp, ← hq, hL, hres]
  congr 2
  ext <;> simp [Cuboid.project, V3.dot, toReal] <;> field_simp <;> ring

/-- C64 is violated for boxes with different sides: positions are stretched by `cuboidresize` after the projection,
velocities are only projected. -/
theorem C64_displacement_violated : ∃ v1 v2 v3 L c, Made v1 v2 v3 L c ∧ ¬ DisplacementsAsVectors L c := by
  obtain ⟨c, hc⟩ := (C10_init ⟨1, 1, 0⟩ ⟨0, 1, 0⟩ ⟨0, 0, 1⟩ ⟨1, 3, 1⟩).1 (by decide)
  have h : Made ⟨1, 1, 0⟩ ⟨0, 1, 0⟩ ⟨0, 0, 1⟩ ⟨1, 3, 1⟩ c := ⟨hc, by norm_num [PosBox]⟩
  refine ⟨_, _, _, _, c, h, fun hall => ?_⟩
  obtain ⟨hd, B, h1, h2, h3, hL, hr, hs, hcells, he⟩ := h.elim
  have e1 : c.e1 = ⟨1, 1, 0⟩ := by
    simp only [orthogonalize, toReal, Prod.mk.injEq] at he
    rw [he.1]; simp
  have hp : InBox (⟨1, 3, 1⟩ : V3 ℝ) 0 := by norm_num [InBox]
  have hq : InBox (⟨1, 3, 1⟩ : V3 ℝ) ⟨1 / 4, 0, 0⟩ := by norm_num [InBox]
  obtain ⟨ps, hps, hl⟩ := C10_total h [0] (by simpa using hp)
  obtain ⟨p', rfl⟩ : ∃ q, ps = [q] := List.length_eq_one_iff.1 hl
  obtain ⟨qs, hqs, hl⟩ := C10_total h [⟨1 / 4, 0, 0⟩] (by simpa using hq)
  obtain ⟨q', rfl⟩ : ∃ q, qs = [q] := List.length_eq_one_iff.1 hl
  obtain ⟨k, hk⟩ := hall _ _ _ _ hp hq hps hqs
  obtain ⟨k1, hk1⟩ := applyCells_shift c.cells (V3.ediv 0 c.boxsize)
  obtain ⟨k2, hk2⟩ := applyCells_shift c.cells (V3.ediv ⟨1 / 4, 0, 0⟩ c.boxsize)
  simp only [Cuboid.transform, Bool.false_eq_true, if_false, if_true, List.map_cons, List.map_nil, hk1, hk2]
    at hps hqs hk
  split at hps <;> split at hqs <;> simp only [reduceCtorEq, Except.ok.injEq, List.cons.injEq, and_true] at hps hqs hk
  rw [← hps, ← hqs] at hk
  have hx := congrArg V3.x hk
  have hn : 0 < (⟨1, 1, 0⟩ : V3 ℝ).norm := by rw [← e1]; exact norm_pos_of_dot B.p1
  have hr5 : c.cuboidresize.x ^ 2 = 5 := by
    rw [hr]
    simp only [V3.norm_sq, unit, V3.emul_x, V3.emul_y, V3.emul_z, e1, div_pow, mul_pow]
    norm_num
  simp only [Cuboid.project, V3.dot, h1, unit, e1, V3.sub_x, V3.add_x, V3.add_y, V3.sub_y, V3.add_z, V3.sub_z,
    V3.emul_x, V3.emul_y, V3.emul_z, V3.ediv_x, V3.ediv_y, V3.ediv_z, hL, toReal, V3.zero_x, V3.zero_y, V3.zero_z] at hx
  have hx' : 1 / 4 + (k.x : ℝ) + 3 * k.y = c.cuboidresize.x * (1 / 4 + (k2.x - k1.x + k2.y - k1.y : ℤ)) := by
    push_cast
    field_simp at hx ⊢
    linarith
  have h2 : (1 + 4 * ((k.x + 3 * k.y : ℤ) : ℝ)) ^ 2 = 5 * (1 + 4 * ((k2.x - k1.x + k2.y - k1.y : ℤ) : ℝ)) ^ 2 := by
    have := congrArg (fun t => 16 * t ^ 2) hx'
    simp only [mul_pow, hr5] at this
    push_cast at this ⊢
    linarith
  generalize k.x + 3 * k.y = m at h2
  generalize k2.x - k1.x + k2.y - k1.y = n at h2
  have h3 : (1 + 4 * m) ^ 2 = 5 * (1 + 4 * n) ^ 2 := by exact_mod_cast h2
  ring_nf at h3
  generalize m ^ 2 = a at h3
  generalize n ^ 2 = b at h3
  omega

/-! ## C13 -/

/-- C13: `orthogonalize` of linearly independent vectors gives pairwise orthogonal vectors with the same oriented
volume, obtained by adding to each vector multiples of the previous ones. -/
theorem C13_orthogonalize {u1 u2 u3 : V3 ℝ} (h : Spec.triple u1 u2 u3 ≠ 0) :
    ∃ e1 e2 e3, orthogonalize u1 u2 u3 = (e1, e2, e3) ∧
      V3.dot e1 e2 = 0 ∧ V3.dot e1 e3 = 0 ∧ V3.dot e2 e3 = 0 ∧
      Spec.triple e1 e2 e3 = Spec.triple u1 u2 u3 ∧
      e1 = u1 ∧ (∃ a : ℝ, e2 = u2 + a • u1) ∧ ∃ b g : ℝ, e3 = u3 + b • u1 + g • u2 := by
  have B := basis_of_det (u1 := u1) (u2 := u2) (u3 := u3) h
  exact ⟨_, _, _, rfl, B.o12, B.o13, B.o23, B.det, rfl, ⟨_, rfl⟩, ⟨_, _, rfl⟩⟩

/-- C13: these conditions determine the result: any three vectors with them are those returned. -/
theorem C13_unique {u1 u2 u3 e2 e3 : V3 ℝ} (h : Spec.triple u1 u2 u3 ≠ 0) (h12 : V3.dot u1 e2 = 0)
    (h13 : V3.dot u1 e3 = 0) (h23 : V3.dot e2 e3 = 0) (h2 : ∃ a : ℝ, e2 = u2 + a • u1)
    (h3 : ∃ b g : ℝ, e3 = u3 + b • u1 + g • u2) : orthogonalize u1 u2 u3 = (u1, e2, e3) := by
  have B := basis_of_det (u1 := u1) (u2 := u2) (u3 := u3) h
  obtain ⟨f1, f2, f3, hf, o12, o13, o23, -, rfl, ⟨a', h2'⟩, b', g', h3'⟩ := C13_orthogonalize h
  rw [hf] at B
  rw [hf]
  obtain ⟨a, h2⟩ := h2
  obtain ⟨b, g, h3⟩ := h3
  have p1 := B.p1
  have p2 := B.p2
  simp only at p1 p2
  have ea : f2 = e2 := by
    have d : f2 = e2 + (a' - a) • f1 := by rw [h2', h2]; ext <;> simp <;> ring
    have : (a' - a) * V3.dot f1 f1 = 0 := by
      have := o12
      rw [d, dot_add_right, dot_smul_right, h12] at this
      linarith
    have : a' - a = 0 := (mul_eq_zero.1 this).resolve_right p1.ne'
    rw [d, this]; ext <;> simp
  subst ea
  have d : f3 = e3 + (b' - b - (g' - g) * a') • f1 + (g' - g) • f2 := by
    rw [h3', h3, h2']; ext <;> simp <;> ring
  have hg : (g' - g) * V3.dot f2 f2 = 0 := by
    have := o23
    rw [d, dot_add_right, dot_add_right, dot_smul_right, dot_smul_right, h23, dot_comm' f2 f1, h12] at this
    linarith
  have hg : g' - g = 0 := (mul_eq_zero.1 hg).resolve_right p2.ne'
  have hb : (b' - b - (g' - g) * a') * V3.dot f1 f1 = 0 := by
    have := o13
    rw [d, dot_add_right, dot_add_right, dot_smul_right, dot_smul_right, h13, h12] at this
    linarith
  have hb := (mul_eq_zero.1 hb).resolve_right p1.ne'
  have : f3 = e3 := by rw [d, hb, hg]; ext <;> simp
  rw [this]

example : Spec.triple (⟨1, 2, 0⟩ : V3 ℝ) ⟨0, 1, 3⟩ ⟨1, 0, 1⟩ ≠ 0 := by norm_num [Spec.triple]

end Verif.Props
