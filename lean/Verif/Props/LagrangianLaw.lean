import Verif.Props.Homogeneity
import Verif.Props.MockObject

/-!
# C120: catalogs of Lagrangian mocks are Poisson processes, homogeneous on average

Particles of Lagrangian mocks are drawn at Lagrangian positions, then moved. Given the field, the catalog is a Poisson process; averaging
over realisations of the field, all cells of the box have the same number of particles, in real and in redshift space.
-/

namespace Verif.Props.LagrangianLaw

open Verif Verif.Model Verif.Spec Verif.Props Verif.Lemmas.Mesh Verif.Props.PoissonLaw Verif.Props.Homogeneity MeasureTheory ProbabilityTheory

variable {Ω : Type*} [MeasurableSpace Ω] {μ : Measure Ω} {M : Mesh}

/-! ### Specification -/

/-- The calls that make a Lagrangian mock: in real space, or in redshift space with a growth rate and a line of sight. -/
def calls (M : Mesh) (b : Mesh.Bias) (lognormal : Bool) (nbar : ℝ) (ranks : List (List M.Idx)) (counts : M.Idx → ℕ) (u : ℕ → Fin 3 → ℝ)
    (rsd : Option (ℝ × Axis)) : List (Mock.Call M) :=
  [.setReal b lognormal, .setConstant nbar, .sample ranks counts u] ++ rsd.toList.map fun x => .setRsd (.const x.1) x.2

/-- Growth rate and (unit) line of sight; no growth rate in real space. -/
inductive Growth : Option (ℝ × Axis) → ℝ → V3 ℝ → Prop
  | real (n : V3 ℝ) : Growth none 0 n
  | redshift {los : Axis} {n : V3 ℝ} (f : ℝ) (h : AxisMeans los n) : Growth (some (f, los)) f n

/-- The mock runs without any exception, and its catalog has these positions. -/
def Catalog (read : (M.Idx → ℝ) → (Fin 3 → ℝ) → ℝ) (deltaK : M.Idx → ℂ) (cs : List (Mock.Call M)) (P : List (V3 ℝ)) : Prop :=
  ∃ (s : Mock M) (D : List (V3 ℝ)), (Mock.init deltaK).run .lagrangian read cs = some (s, cs.map fun _ => none) ∧
    s.toCatalog .lagrangian = .ok ⟨⟨M.boxsize 0, M.boxsize 1, M.boxsize 2⟩, ⟨M.boxcenter 0, M.boxcenter 1, M.boxcenter 2⟩, P, some D⟩

def coords (p : V3 ℝ) : Fin 3 → ℝ := ![p.x, p.y, p.z]

/-- Displacement at a position: that of the field, read by the mesh library. -/
noncomputable def moved (M : Mesh) (read : (M.Idx → ℝ) → (Fin 3 → ℝ) → ℝ) (deltaK : M.Idx → ℂ) (x : Fin 3 → ℝ) (a : Fin 3) : ℝ :=
  read (fun i => (M.dispC deltaK a i).re) (fromCorner M x)

/-- Where particles that end in a region come from: displaced, put back in the box by whole sides of the box, then moved along the line of
sight by the growth rate times the displacement along it, they are in the region. -/
def origins (M : Mesh) (v : (Fin 3 → ℝ) → Fin 3 → ℝ) (f : ℝ) (n : V3 ℝ) (A : Set (Fin 3 → ℝ)) : Set (Fin 3 → ℝ) :=
  {x | ∃ q, InMeshBox M q ∧ SamePeriodic M (fun d => x d + v x d) q ∧
    (fun d => q d + f * (v x 0 * n.x + v x 1 * n.y + v x 2 * n.z) * coords n d) ∈ A}

/-- Contract of the readout of pmesh: a periodic function of positions, that depends on positions relative to nodes only. -/
structure ReadOk (M : Mesh) (read : (M.Idx → ℝ) → (Fin 3 → ℝ) → ℝ) : Prop where
  measurable : Measurable fun x : (M.Idx → ℝ) × (Fin 3 → ℝ) => read x.1 x.2
  translated : ∀ (g : M.Idx → ℝ) (m : Fin 3 → ℤ) (y : Fin 3 → ℝ),
    read (fun i => g fun d => i d + (m d : ZMod (M.n d))) y = read g fun d => y d + m d * (M.boxsize d / M.n d)

/-- The region repeats from box to box. -/
def Repeats (M : Mesh) (A : Set (Fin 3 → ℝ)) : Prop := ∀ p q, SamePeriodic M p q → p ∈ A → q ∈ A

/-- The positions that, up to whole numbers of boxes, are in the cell of a node. -/
def imagesOfCell (M : Mesh) (i : M.Idx) : Set (Fin 3 → ℝ) := {x | ∃ y, InCell M i y ∧ SamePeriodic M y x}

/-! ### Maps of particles -/

/-- Final position of a particle. -/
noncomputable def land (M : Mesh) (f : ℝ) (n : V3 ℝ) (x v : Fin 3 → ℝ) (d : Fin 3) : ℝ :=
  M.lagrangianWrap x v d + f * (v 0 * n.x + v 1 * n.y + v 2 * n.z) * coords n d

theorem wrap_spec (hL : ∀ d, 0 < M.boxsize d) (x v : Fin 3 → ℝ) :
    InMeshBox M (M.lagrangianWrap x v) ∧ SamePeriodic M (fun d => x d + v d) (M.lagrangianWrap x v) ∧
      ∀ q, InMeshBox M q → SamePeriodic M (fun d => x d + v d) q → q = M.lagrangianWrap x v := by
  obtain ⟨_, h⟩ := C41_sample M hL (fun a _ => v a) [x]
  obtain ⟨q, h1, h2, h3, h4⟩ := h 0 x rfl
  have : q = M.lagrangianWrap x v := by
    simp only [Mesh.lagrangianSample, List.map_cons, List.map_nil, List.getElem?_cons_zero, Option.some.injEq, Prod.mk.injEq] at h1
    exact h1.1.symm
  rw [← this]
  exact ⟨h2, h3, h4⟩

theorem origins_eq (hL : ∀ d, 0 < M.boxsize d) (v : (Fin 3 → ℝ) → Fin 3 → ℝ) (f : ℝ) (n : V3 ℝ) (A : Set (Fin 3 → ℝ)) :
    origins M v f n A = (fun x => land M f n x (v x)) ⁻¹' A := by
  ext x
  obtain ⟨h1, h2, h3⟩ := wrap_spec hL x (v x)
  constructor
  · rintro ⟨q, q1, q2, q3⟩
    rw [h3 q q1 q2] at q3
    exact q3
  · intro h
    exact ⟨_, h1, h2, h⟩

theorem measurable_land {α : Type*} [MeasurableSpace α] {x v : α → Fin 3 → ℝ} (hx : Measurable x) (hv : Measurable v) (f : ℝ) (n : V3 ℝ) :
    Measurable fun y => land M f n (x y) (v y) := by
  have h1 : ∀ d, Measurable fun y => x y d := fun d => (measurable_pi_apply d).comp hx
  have h2 : ∀ d, Measurable fun y => v y d := fun d => (measurable_pi_apply d).comp hv
  refine measurable_pi_lambda _ fun d => ?_
  unfold land Mesh.lagrangianWrap pmod
  have hf : Measurable fun y => (⌊(x y d + v y d - M.offset d) / M.boxsize d⌋ : ℝ) :=
    measurable_from_top.comp (Int.measurable_floor.comp ((((h1 d).add (h2 d)).sub_const _).div_const _))
  have := h1 d
  have := h2 d
  have := h2 0
  have := h2 1
  have := h2 2
  fun_prop

theorem measurable_moved {read : (M.Idx → ℝ) → (Fin 3 → ℝ) → ℝ} (hread : ∀ g, Measurable (read g)) (deltaK : M.Idx → ℂ) (f : ℝ) (n : V3 ℝ) :
    Measurable fun x => land M f n x (moved M read deltaK x) := by
  refine measurable_land measurable_id ?_ f n
  refine measurable_pi_lambda _ fun a => (hread _).comp ?_
  unfold fromCorner
  fun_prop

theorem measurableSet_cell (i : M.Idx) : MeasurableSet {p : Fin 3 → ℝ | InCell M i p} := by
  have : {p : Fin 3 → ℝ | InCell M i p} = Set.univ.pi fun d => Set.Ico (nodeAt M i d) (nodeAt M i d + M.boxsize d / M.n d) := by
    ext p
    simp [InCell]
  rw [this]
  exact MeasurableSet.univ_pi fun d => measurableSet_Ico

theorem number_map (φ : (Fin 3 → ℝ) → Fin 3 → ℝ) (A : Set (Fin 3 → ℝ)) (ps : List (Fin 3 → ℝ)) :
    number A (ps.map φ) = number (φ ⁻¹' A) ps := by
  unfold number
  rw [List.countP_map]
  rfl

/-- The calls, one by one. -/
theorem run_eq {read : (M.Idx → ℝ) → (Fin 3 → ℝ) → ℝ} {deltaK : M.Idx → ℂ} {b : Mesh.Bias} {lognormal : Bool} {nbar : ℝ}
    {ranks : List (List M.Idx)} {counts : M.Idx → ℕ} {u : ℕ → Fin 3 → ℝ} {rsd : Option (ℝ × Axis)} {f : ℝ} {n : V3 ℝ}
    (hg : Growth rsd f n) {ps : List (Fin 3 → ℝ)}
    (h1 : M.poissonSample ⟨M.realDelta b lognormal deltaK, .inl nbar, fun a i => (M.dispC deltaK a i).re⟩ ranks counts u = .ok ps) :
    Catalog read deltaK (calls M b lognormal nbar ranks counts u rsd) (ps.map fun x => rowOf (land M f n x (moved M read deltaK x))) := by
  have hv : ∀ x a, (read (fun i => (M.dispC deltaK a i).re) fun d => x d - M.boxcenter d + M.boxsize d / 2) = moved M read deltaK x a := by
    intro x a
    unfold moved fromCorner
    congr 1
    funext d
    ring
  set rows := M.lagrangianSample (fun a p => read (fun i => (M.dispC deltaK a i).re) fun d => p d - M.boxcenter d + M.boxsize d / 2) ps
    with hrows
  have hr1 : (rows.map fun r => rowOf r.1) = ps.map fun x => rowOf (M.lagrangianWrap x (moved M read deltaK x)) := by
    rw [hrows]
    unfold Mesh.lagrangianSample
    rw [List.map_map]
    refine List.map_congr_left fun x _ => ?_
    simp only [Function.comp_apply, hv]
  have hr2 : (rows.map fun r => rowOf r.2) = ps.map fun x => rowOf (moved M read deltaK x) := by
    rw [hrows]
    unfold Mesh.lagrangianSample
    rw [List.map_map]
    refine List.map_congr_left fun x _ => ?_
    simp only [Function.comp_apply, hv]
  cases hg with
  | real =>
    refine ⟨⟨deltaK, some (M.realDelta b lognormal deltaK), some fun a i => (M.dispC deltaK a i).re, some (.inl nbar),
      some (M.norm ⟨fun _ => 0, .inl nbar, fun _ _ => 0⟩), some (rows.map fun r => rowOf r.1), some (rows.map fun r => rowOf r.2)⟩,
      rows.map fun r => rowOf r.2, ?_, ?_⟩
    · simp only [calls, Option.toList_none, List.map_nil, List.append_nil, Mock.run, Mock.step, Mock.setReal, Mock.setConstant, Mock.sample,
        Mock.init, Mock.fields, Option.getD_some, h1, Option.map_some, ← hrows, List.map_cons]
    · have : (ps.map fun x => rowOf (land M 0 n x (moved M read deltaK x))) = rows.map fun r => rowOf r.1 := by
        rw [hr1]
        refine List.map_congr_left fun x _ => ?_
        simp [rowOf, land]
      rw [this]
      rfl
  | @redshift los n f h =>
    have hlos : los ≠ .none := by rintro rfl; cases h
    have hg := axisMeans_getLos h
    have hrsd := C41_rsd_fixed hlos hg f (rows.map fun r => rowOf r.1) (rows.map fun r => rowOf r.2)
    have hread : Mock.readLos los = .ok () := by
      cases los with
      | none => exact absurd rfl hlos
      | _ => simp only [Mock.readLos, hg]; rfl
    set P := List.zipWith (fun p v => p + (f * V3.dot v n) • n) (rows.map fun r => rowOf r.1) (rows.map fun r => rowOf r.2) with hP
    refine ⟨⟨deltaK, some (M.realDelta b lognormal deltaK), some fun a i => (M.dispC deltaK a i).re, some (.inl nbar),
      some (M.norm ⟨fun _ => 0, .inl nbar, fun _ _ => 0⟩), some P, some (rows.map fun r => rowOf r.2)⟩,
      rows.map fun r => rowOf r.2, ?_, ?_⟩
    · simp only [calls, Option.toList_some, List.map_cons, List.map_nil, List.cons_append, List.nil_append, Mock.run, Mock.step, Mock.setReal,
        Mock.setConstant, Mock.sample, Mock.init, Mock.fields, Option.getD_some, h1, Option.map_some, Mock.lagrangianSetRsd, hread, ← hrows,
        hrsd]
    · have : (ps.map fun x => rowOf (land M f n x (moved M read deltaK x))) = P := by
        rw [hP, hr1, hr2, List.zipWith_map, List.zipWith_self]
        refine List.map_congr_left fun x _ => ?_
        simp [rowOf, land, coords, V3.dot, V3.ext_iff]
      rw [this]
      rfl

theorem coords_rowOf (p : Fin 3 → ℝ) : coords (rowOf p) = p := by
  funext d
  fin_cases d <;> rfl

section
variable {N : M.Idx → Ω → ℕ} {U : ℕ × Fin 3 → Ω → ℝ} [IsProbabilityMeasure μ]

/-- C120. If counts are independent Poisson draws of mean (1 + delta) nbar dv, and positions within cells independent uniform draws,
independent of counts, the catalog of a Lagrangian mock, on any number of ranks, in real space and in redshift space, is a Poisson process:
in any disjoint regions, the numbers of particles are independent, and each follows the Poisson law the mean of which is the integral of
(1 + delta) nbar over the positions that particles of the region come from. -/
theorem C120_process (hL : ∀ d, 0 < M.boxsize d) {read : (M.Idx → ℝ) → (Fin 3 → ℝ) → ℝ} (hread : ∀ g, Measurable (read g))
    {deltaK : M.Idx → ℂ} {b : Mesh.Bias} {lognormal : Bool} {nbar : ℝ} (hn : 0 ≤ nbar) (hd : ∀ i, -1 ≤ M.realDelta b lognormal deltaK i)
    {ranks : List (List M.Idx)} (hr : Decomposition M ranks) {rsd : Option (ℝ × Axis)} {f : ℝ} {n : V3 ℝ} (hg : Growth rsd f n)
    (hN : ArePoisson μ N fun i => (1 + M.realDelta b lognormal deltaK i) * nbar *
      (M.boxsize 0 / M.n 0 * (M.boxsize 1 / M.n 1) * (M.boxsize 2 / M.n 2)))
    (hU : AreUniform μ U) (hNU : IndepFun (fun ω i => N i ω) (fun ω q => U q ω) μ) :
    ∃ P : Ω → List (V3 ℝ),
      (∀ ω, Catalog read deltaK (calls M b lognormal nbar ranks (fun i => N i ω) (fun j d => U (j, d) ω) rsd) (P ω)) ∧
      ∀ (ι : Type) [Fintype ι] (A : ι → Set (Fin 3 → ℝ)), (∀ a, MeasurableSet (A a)) → (Pairwise fun a b => Disjoint (A a) (A b)) →
        ArePoisson μ (fun a ω => number (A a) ((P ω).map coords)) fun a => ∑ i, (1 + M.realDelta b lognormal deltaK i) * nbar *
          cellVolume M (origins M (moved M read deltaK) f n (A a)) i := by
  have hs : ∀ i, 0 ≤ M.cellMean ⟨M.realDelta b lognormal deltaK, .inl nbar, fun a i => (M.dispC deltaK a i).re⟩ i := fun i =>
    mul_nonneg (mul_nonneg (by linarith [hd i]) hn) (dv_pos M hL).le
  obtain ⟨ps, h1, h2⟩ := C105_process (s := ⟨M.realDelta b lognormal deltaK, .inl nbar, fun a i => (M.dispC deltaK a i).re⟩) hL hs hr hN hU hNU
  refine ⟨fun ω => (ps ω).map fun x => rowOf (land M f n x (moved M read deltaK x)), fun ω => run_eq hg (h1 ω), fun ι _ A hA hdj => ?_⟩
  have hm := measurable_moved hread deltaK f n
  have h3 := h2 ι (fun a => origins M (moved M read deltaK) f n (A a)) (fun a => by rw [origins_eq hL]; exact hm (hA a))
    (fun a c hac => by
      dsimp only
      rw [origins_eq hL, origins_eq hL]
      exact (hdj hac).preimage _)
  have e : (fun a ω => number (A a) (((ps ω).map fun x => rowOf (land M f n x (moved M read deltaK x))).map coords)) =
      fun a ω => number (origins M (moved M read deltaK) f n (A a)) (ps ω) := by
    funext a ω
    rw [List.map_map, origins_eq hL, ← number_map]
    congr 2
    funext x
    exact coords_rowOf _
  rw [e]
  exact h3

end

/-! ### Translations -/

theorem land_repeats (x v : Fin 3 → ℝ) (hL : ∀ d, 0 < M.boxsize d) (k : Fin 3 → ℤ) (f : ℝ) (n : V3 ℝ) :
    land M f n (fun d => x d + k d * M.boxsize d) v = land M f n x v := by
  obtain ⟨h1, h2, _⟩ := wrap_spec hL x v
  obtain ⟨_, _, h3⟩ := wrap_spec hL (fun d => x d + k d * M.boxsize d) v
  have : M.lagrangianWrap x v = M.lagrangianWrap (fun d => x d + k d * M.boxsize d) v := by
    refine h3 _ h1 fun d => ?_
    obtain ⟨m, hm⟩ := h2 d
    exact ⟨m - k d, by rw [hm]; push_cast; ring⟩
  unfold land
  rw [this]

theorem land_shifted (x v t : Fin 3 → ℝ) (hL : ∀ d, 0 < M.boxsize d) (f : ℝ) (n : V3 ℝ) :
    SamePeriodic M (fun d => land M f n x v d + t d) (land M f n (fun d => x d + t d) v) := by
  obtain ⟨_, h2, _⟩ := wrap_spec hL x v
  obtain ⟨_, h3, _⟩ := wrap_spec hL (fun d => x d + t d) v
  intro d
  obtain ⟨m, hm⟩ := h2 d
  obtain ⟨m', hm'⟩ := h3 d
  refine ⟨m' - m, ?_⟩
  unfold land
  dsimp only at hm hm' ⊢
  rw [hm, hm']
  push_cast
  ring

theorem samePeriodic_symm {p q : Fin 3 → ℝ} (h : SamePeriodic M p q) : SamePeriodic M q p := fun d => by
  obtain ⟨m, hm⟩ := h d
  exact ⟨-m, by rw [hm]; push_cast; ring⟩

/-- Index of a node translated by cells. -/
def castIdx (M : Mesh) (m : Fin 3 → ℤ) : M.Idx := fun d => (m d : ZMod (M.n d))

/-- The node of a translated cell is the translated node, up to a whole number of boxes. -/
theorem node_translated (i : M.Idx) (m : Fin 3 → ℤ) :
    ∃ k : Fin 3 → ℤ, ∀ d, nodeAt M (i + castIdx M m) d = nodeAt M i d + (m d * (M.boxsize d / M.n d) + k d * M.boxsize d) := by
  have h : ∀ d, ∃ k : ℤ, (((i + castIdx M m) d).val : ℤ) = (i d).val + m d + k * M.n d := by
    intro d
    have h1 : ((((i + castIdx M m) d).val : ℤ) : ZMod (M.n d)) = (((i d).val + m d : ℤ) : ZMod (M.n d)) := by
      push_cast
      rw [ZMod.natCast_zmod_val, ZMod.natCast_zmod_val]
      rfl
    obtain ⟨k, hk⟩ := (ZMod.intCast_eq_intCast_iff_dvd_sub _ _ _).1 h1
    exact ⟨-k, by linear_combination -hk⟩
  choose k hk using h
  refine ⟨k, fun d => ?_⟩
  have h2 : (((i + castIdx M m) d).val : ℝ) = (i d).val + m d + k d * M.n d := by exact_mod_cast hk d
  have h3 : (M.n d : ℝ) ≠ 0 := by exact_mod_cast (M.n_pos d).ne'
  unfold nodeAt
  rw [h2]
  field_simp
  ring

/-- Displacements at all positions, given the displacements at nodes. -/
noncomputable def movedBy (M : Mesh) (read : (M.Idx → ℝ) → (Fin 3 → ℝ) → ℝ) (g : Fin 3 → M.Idx → ℝ) (x : Fin 3 → ℝ) (a : Fin 3) : ℝ :=
  read (g a) (fromCorner M x)

theorem moved_translated {read : (M.Idx → ℝ) → (Fin 3 → ℝ) → ℝ} (hread : ReadOk M read) (g : Fin 3 → M.Idx → ℝ) (m : Fin 3 → ℤ)
    (x : Fin 3 → ℝ) : movedBy M read (fun a i => g a (i + castIdx M m)) x = movedBy M read g fun d => x d + m d * (M.boxsize d / M.n d) := by
  funext a
  have := hread.translated (g a) m (fromCorner M x)
  unfold movedBy
  refine this.trans ?_
  congr 1
  funext d
  unfold fromCorner
  ring

theorem moved_repeats {read : (M.Idx → ℝ) → (Fin 3 → ℝ) → ℝ} (hread : ReadOk M read) (g : Fin 3 → M.Idx → ℝ) (k : Fin 3 → ℤ)
    (x : Fin 3 → ℝ) : movedBy M read g (fun d => x d + k d * M.boxsize d) = movedBy M read g x := by
  have h := moved_translated hread g (fun d => k d * M.n d) x
  have e1 : (fun a i => g a (i + castIdx M fun d => k d * M.n d)) = g := by
    funext a i
    congr 1
    funext d
    simp [castIdx]
  have e2 : (fun d => x d + ((k d * M.n d : ℤ) : ℝ) * (M.boxsize d / M.n d)) = fun d => x d + k d * M.boxsize d := by
    funext d
    have h3 : (M.n d : ℝ) ≠ 0 := by exact_mod_cast (M.n_pos d).ne'
    push_cast
    field_simp
  rw [e1, e2] at h
  exact h.symm

/-- Particles of a cell that end in a region, after a translation of the field. -/
theorem cellVolume_translated (hL : ∀ d, 0 < M.boxsize d) {read : (M.Idx → ℝ) → (Fin 3 → ℝ) → ℝ} (hread : ReadOk M read)
    (g : Fin 3 → M.Idx → ℝ) (f : ℝ) (n : V3 ℝ) {A : Set (Fin 3 → ℝ)} (hA : Repeats M A) (m : Fin 3 → ℤ) (i : M.Idx) :
    cellVolume M (origins M (movedBy M read fun a i => g a (i + castIdx M m)) f n A) i =
      cellVolume M (origins M (movedBy M read g) f n {x | (fun d => x d - m d * (M.boxsize d / M.n d)) ∈ A}) (i + castIdx M m) := by
  obtain ⟨k, hk⟩ := node_translated i m
  set t : Fin 3 → ℝ := fun d => m d * (M.boxsize d / M.n d) + k d * M.boxsize d with ht
  unfold cellVolume
  congr 1
  rw [origins_eq hL, origins_eq hL]
  refine Eq.trans ?_ (measure_preimage_add_right MeasureTheory.volume t _)
  congr 1
  ext x
  simp only [Set.mem_inter_iff, Set.mem_preimage, Set.mem_ofPred_eq]
  have hx : x + t = fun d => (x d + m d * (M.boxsize d / M.n d)) + k d * M.boxsize d := by
    funext d
    simp only [Pi.add_apply, ht]
    ring
  have h1 : InCell M i x ↔ InCell M (i + castIdx M m) (x + t) := by
    refine forall_congr' fun d => ?_
    rw [hk d, Pi.add_apply]
    constructor <;> rintro ⟨h1, h2⟩ <;> constructor <;> linarith
  have h2 : land M f n x (movedBy M read (fun a i => g a (i + castIdx M m)) x) ∈ A ↔
      (fun d => land M f n (x + t) (movedBy M read g (x + t)) d - m d * (M.boxsize d / M.n d)) ∈ A := by
    rw [moved_translated hread, hx, moved_repeats hread, land_repeats _ _ hL]
    have h := land_shifted x (movedBy M read g fun d => x d + m d * (M.boxsize d / M.n d)) (fun d => m d * (M.boxsize d / M.n d)) hL f n
    have h' : SamePeriodic M (land M f n x (movedBy M read g fun d => x d + m d * (M.boxsize d / M.n d))) fun d =>
        land M f n (fun d => x d + m d * (M.boxsize d / M.n d)) (movedBy M read g fun d => x d + m d * (M.boxsize d / M.n d)) d -
          m d * (M.boxsize d / M.n d) := fun d => by
      obtain ⟨c, hc⟩ := h d
      dsimp only at hc ⊢
      exact ⟨c, by rw [hc]; ring⟩
    exact ⟨hA _ _ h', hA _ _ (samePeriodic_symm h')⟩
  exact and_congr h2 h1

/-- Mean number of particles in a region, given the noise. -/
noncomputable def meanIn (M : Mesh) (read : (M.Idx → ℝ) → (Fin 3 → ℝ) → ℝ) (b : Mesh.Bias) (nbar f : ℝ) (n : V3 ℝ) (A : Set (Fin 3 → ℝ))
    (deltaK : M.Idx → ℂ) : ℝ :=
  ∑ i, (1 + M.realDelta b true deltaK i) * nbar * cellVolume M (origins M (moved M read deltaK) f n A) i

theorem dispC_translated (deltaK : M.Idx → ℂ) (m i : M.Idx) (a : Fin 3) :
    M.dispC (fun k => deltaK k * M.char m k) a i = M.dispC deltaK a (i + m) := by
  unfold Mesh.dispC
  rw [← c2r_translated]
  congr 1
  funext k
  ring

theorem meanIn_translated (hL : ∀ d, 0 < M.boxsize d) {read : (M.Idx → ℝ) → (Fin 3 → ℝ) → ℝ} (hread : ReadOk M read) {b : Mesh.Bias}
    (hb : SameBias b) (nbar f : ℝ) (n : V3 ℝ) {A : Set (Fin 3 → ℝ)} (hA : Repeats M A) (m : Fin 3 → ℤ) (deltaK : M.Idx → ℂ) :
    meanIn M read b nbar f n A (fun k => deltaK k * M.char (castIdx M m) k) =
      meanIn M read b nbar f n {x | (fun d => x d - m d * (M.boxsize d / M.n d)) ∈ A} deltaK := by
  unfold meanIn
  rw [← Equiv.sum_comp (Equiv.addRight (castIdx M m)) fun i => (1 + M.realDelta b true deltaK i) * nbar *
    cellVolume M (origins M (moved M read deltaK) f n {x | (fun d => x d - m d * (M.boxsize d / M.n d)) ∈ A}) i]
  refine Finset.sum_congr rfl fun i _ => ?_
  rw [realDelta_translated hb]
  have h := cellVolume_translated hL hread (fun a i => (M.dispC deltaK a i).re) f n hA m i
  have e : moved M read (fun k => deltaK k * M.char (castIdx M m) k) = movedBy M read fun a i => (M.dispC deltaK a (i + castIdx M m)).re := by
    funext x a
    unfold moved movedBy
    simp only [dispC_translated]
  rw [e, h]
  rfl

theorem measurable_meanIn (hL : ∀ d, 0 < M.boxsize d) {read : (M.Idx → ℝ) → (Fin 3 → ℝ) → ℝ} (hread : ReadOk M read) {b : Mesh.Bias}
    (hb : SameBias b) (nbar f : ℝ) (n : V3 ℝ) {A : Set (Fin 3 → ℝ)} (hA : MeasurableSet A) : Measurable (meanIn M read b nbar f n A) := by
  have hv : Measurable fun y : (M.Idx → ℂ) × (Fin 3 → ℝ) => moved M read y.1 y.2 := by
    refine measurable_pi_lambda _ fun a => ?_
    have h1 : Measurable fun y : (M.Idx → ℂ) × (Fin 3 → ℝ) => ((fun i => (M.dispC y.1 a i).re, fromCorner M y.2) : (M.Idx → ℝ) × (Fin 3 → ℝ)) := by
      refine Measurable.prodMk ?_ ?_
      · unfold Mesh.dispC Mesh.c2r
        fun_prop
      · unfold fromCorner
        fun_prop
    exact hread.measurable.comp h1
  have hl : Measurable fun y : (M.Idx → ℂ) × (Fin 3 → ℝ) => land M f n y.2 (moved M read y.1 y.2) := measurable_land measurable_snd hv f n
  unfold meanIn
  refine Finset.measurable_fun_sum _ fun i _ => ?_
  have h2 : Measurable fun deltaK => M.realDelta b true deltaK i := (measurable_pi_apply i).comp (measurable_realDelta hb true)
  refine ((h2.const_add 1).mul_const _).mul ?_
  unfold cellVolume
  refine Measurable.ennreal_toReal ?_
  have hS : MeasurableSet {y : (M.Idx → ℂ) × (Fin 3 → ℝ) | land M f n y.2 (moved M read y.1 y.2) ∈ A ∧ InCell M i y.2} :=
    (hl hA).inter (measurable_snd (measurableSet_cell i))
  have := measurable_measure_prodMk_left (ν := (MeasureTheory.volume : Measure (Fin 3 → ℝ))) hS
  have e : (fun deltaK => MeasureTheory.volume (origins M (moved M read deltaK) f n A ∩ {p | InCell M i p})) = fun deltaK =>
      MeasureTheory.volume (Prod.mk deltaK ⁻¹' {y : (M.Idx → ℂ) × (Fin 3 → ℝ) | land M f n y.2 (moved M read y.1 y.2) ∈ A ∧ InCell M i y.2}) := by
    funext deltaK
    rw [origins_eq hL]
    rfl
  rw [e]
  exact this

/-! ### Cells -/

theorem samePeriodic_trans {p q r : Fin 3 → ℝ} (h : SamePeriodic M p q) (h' : SamePeriodic M q r) : SamePeriodic M p r := fun d => by
  obtain ⟨m, hm⟩ := h d
  obtain ⟨m', hm'⟩ := h' d
  exact ⟨m + m', by rw [hm', hm]; push_cast; ring⟩

theorem images_repeat (i : M.Idx) : Repeats M (imagesOfCell M i) := fun _ _ h ⟨y, h1, h2⟩ => ⟨y, h1, samePeriodic_trans h2 h⟩

/-- The images of a cell: what the wrapping sends to the cell. -/
theorem images_eq (hL : ∀ d, 0 < M.boxsize d) (i : M.Idx) : imagesOfCell M i = (fun x => M.lagrangianWrap x 0) ⁻¹' {p | InCell M i p} := by
  ext x
  obtain ⟨h1, h2, h3⟩ := wrap_spec hL x 0
  have e : (fun d => x d + (0 : Fin 3 → ℝ) d) = x := funext fun d => by simp
  rw [e] at h2 h3
  constructor
  · rintro ⟨y, y1, y2⟩
    have := h3 y (C40_inside M hL i y y1) (samePeriodic_symm y2)
    change InCell M i (M.lagrangianWrap x 0)
    rw [← this]
    exact y1
  · intro h
    exact ⟨_, h, samePeriodic_symm h2⟩

theorem images_unique (hL : ∀ d, 0 < M.boxsize d) (x : Fin 3 → ℝ) : ∃! i, x ∈ imagesOfCell M i := by
  obtain ⟨h1, _, _⟩ := wrap_spec hL x 0
  have := C40_cells M hL (M.lagrangianWrap x 0) h1
  simp only [images_eq hL]
  exact this

theorem measurableSet_images (hL : ∀ d, 0 < M.boxsize d) (i : M.Idx) : MeasurableSet (imagesOfCell M i) := by
  rw [images_eq hL]
  have h := measurable_land (M := M) (x := fun x : Fin 3 → ℝ => x) (v := fun _ => 0) measurable_id measurable_const 0 ⟨0, 0, 0⟩
  have e : (fun y => land M 0 ⟨0, 0, 0⟩ y 0) = fun x => M.lagrangianWrap x 0 := by
    funext y d
    simp [land]
  rw [e] at h
  exact h (measurableSet_cell i)

theorem images_translated (m : Fin 3 → ℤ) (i : M.Idx) :
    {y | (fun d => y d - m d * (M.boxsize d / M.n d)) ∈ imagesOfCell M i} = imagesOfCell M (i + castIdx M m) := by
  obtain ⟨k, hk⟩ := node_translated i m
  ext y
  constructor
  · rintro ⟨z, z1, z2⟩
    refine ⟨fun d => z d + (m d * (M.boxsize d / M.n d) + k d * M.boxsize d), fun d => ?_, fun d => ?_⟩
    · obtain ⟨h1, h2⟩ := z1 d
      rw [hk d]
      constructor <;> linarith
    · obtain ⟨c, hc⟩ := z2 d
      refine ⟨c - k d, ?_⟩
      dsimp only at hc ⊢
      push_cast
      linarith
  · rintro ⟨z, z1, z2⟩
    refine ⟨fun d => z d - (m d * (M.boxsize d / M.n d) + k d * M.boxsize d), fun d => ?_, fun d => ?_⟩
    · obtain ⟨h1, h2⟩ := z1 d
      rw [hk d] at h1 h2
      constructor <;> linarith
    · obtain ⟨c, hc⟩ := z2 d
      refine ⟨c + k d, ?_⟩
      dsimp only
      push_cast
      linarith

theorem cellVolume_univ (hL : ∀ d, 0 < M.boxsize d) (i : M.Idx) : cellVolume M Set.univ i = M.dv := by
  have := chance_cell M hL i MeasurableSet.univ
  rw [Set.preimage_univ, measure_univ] at this
  have h3 := congrArg ENNReal.toReal this
  rw [ENNReal.toReal_mul, ENNReal.toReal_ofReal (inv_nonneg.2 (dv_pos M hL).le), ENNReal.toReal_one] at h3
  have := (dv_pos M hL).ne'
  unfold cellVolume
  field_simp at h3
  exact h3.symm

theorem cell_finite (hL : ∀ d, 0 < M.boxsize d) (A : Set (Fin 3 → ℝ)) (i : M.Idx) : MeasureTheory.volume (A ∩ {p | InCell M i p}) ≠ ⊤ := by
  have h := chance_cell M hL i MeasurableSet.univ
  refine ne_top_of_le_ne_top (b := MeasureTheory.volume (Set.univ ∩ {p | InCell M i p})) (fun ht => ?_)
    (measure_mono (Set.inter_subset_inter_left _ (Set.subset_univ _)))
  rw [ht, ENNReal.mul_top (by simpa using dv_pos M hL)] at h
  exact absurd h (measure_ne_top _ _)

/-- Each particle ends in one cell. -/
theorem cellVolume_sum (hL : ∀ d, 0 < M.boxsize d) {φ : (Fin 3 → ℝ) → Fin 3 → ℝ} (hφ : Measurable φ) (j : M.Idx) :
    ∑ i, cellVolume M (φ ⁻¹' imagesOfCell M i) j = M.dv := by
  rw [← cellVolume_univ hL j]
  unfold cellVolume
  rw [← ENNReal.toReal_sum fun i _ => cell_finite hL _ j, ← measure_biUnion_finset]
  · congr 2
    ext x
    simp only [Set.mem_iUnion, Finset.mem_univ, exists_prop, true_and, Set.mem_inter_iff, Set.mem_preimage, Set.mem_univ]
    constructor
    · rintro ⟨_, _, h⟩
      exact h
    · intro h
      obtain ⟨i, hi, _⟩ := images_unique hL (φ x)
      exact ⟨i, hi, h⟩
  · intro i _ k _ hik
    exact Set.disjoint_left.2 fun x h1 h2 => hik ((images_unique hL (φ x)).unique h1.1 h2.1)
  · exact fun i _ => (hφ (measurableSet_images hL i)).inter (measurableSet_cell j)

theorem meanIn_sum (hL : ∀ d, 0 < M.boxsize d) {read : (M.Idx → ℝ) → (Fin 3 → ℝ) → ℝ} (hread : ∀ g, Measurable (read g)) (b : Mesh.Bias)
    (nbar f : ℝ) (n : V3 ℝ) (deltaK : M.Idx → ℂ) :
    ∑ i, meanIn M read b nbar f n (imagesOfCell M i) deltaK = Fintype.card M.Idx * (nbar * M.dv) := by
  unfold meanIn
  rw [Finset.sum_comm]
  have h : ∀ j, ∑ i, (1 + M.realDelta b true deltaK j) * nbar * cellVolume M (origins M (moved M read deltaK) f n (imagesOfCell M i)) j =
      nbar * M.dv + M.realDelta b true deltaK j * (nbar * M.dv) := by
    intro j
    rw [← Finset.mul_sum]
    simp only [origins_eq hL]
    rw [cellVolume_sum hL (measurable_moved hread deltaK f n)]
    ring
  rw [Finset.sum_congr rfl fun j _ => h j, Finset.sum_add_distrib, ← Finset.sum_mul (f := M.realDelta b true deltaK)]
  have h0 : ∑ j, M.realDelta b true deltaK j = 0 := lognormal_sum (M.biased b (M.c2rReal deltaK))
  rw [h0, Finset.sum_const, Finset.card_univ, nsmul_eq_mul]
  ring

section
variable {p : Mesh.Power} {inverted : Bool} {W F : M.Idx → Ω → ℂ} {b : Mesh.Bias}
variable {Ω' : Type*} [MeasurableSpace Ω'] {κ : Ω → Measure Ω'} [∀ ω, IsProbabilityMeasure (κ ω)] {N : M.Idx → Ω' → ℕ} {U : ℕ × Fin 3 → Ω' → ℝ}

/-- C120. Lognormal Lagrangian mocks are homogeneous on average, from cell to cell: if the law of the noise does not change under
translations by cells, then, averaging over the draws (`κ` is their law for each realisation of the field) and over realisations of the
field, in real and in redshift space with a fixed line of sight and a constant growth rate:
- the mean number of particles in a region that repeats from box to box does not change when the region is translated by cells;
- the mean number of particles the periodic images of which are in any given cell is the density times the volume of the cell. -/
theorem C120_homogeneous [IsProbabilityMeasure μ] (hL : ∀ d, 0 < M.boxsize d) (hW : HomogeneousNoise M μ W)
    (hF : ∀ ω k, M.complexDelta p inverted (fun k => W k ω) k = some (F k ω)) (hb : SameBias b)
    {read : (M.Idx → ℝ) → (Fin 3 → ℝ) → ℝ} (hread : ReadOk M read) {nbar : ℝ} (hn : 0 ≤ nbar)
    {ranks : List (List M.Idx)} (hr : Decomposition M ranks) {rsd : Option (ℝ × Axis)} {f : ℝ} {n : V3 ℝ} (hg : Growth rsd f n)
    (hN : ∀ ω, ArePoisson (κ ω) N fun i => (1 + M.realDelta b true (fun k => F k ω) i) * nbar *
      (M.boxsize 0 / M.n 0 * (M.boxsize 1 / M.n 1) * (M.boxsize 2 / M.n 2)))
    (hU : ∀ ω, AreUniform (κ ω) U) (hNU : ∀ ω, IndepFun (fun x i => N i x) (fun x q => U q x) (κ ω)) :
    ∃ P : Ω → Ω' → List (V3 ℝ),
      (∀ ω x, Catalog read (fun k => F k ω) (calls M b true nbar ranks (fun i => N i x) (fun j d => U (j, d) x) rsd) (P ω x)) ∧
      (∀ A, MeasurableSet A → Repeats M A → ∀ m : Fin 3 → ℤ,
        ∫ ω, ∫ x, (number {y | (fun d => y d - m d * (M.boxsize d / M.n d)) ∈ A} ((P ω x).map coords) : ℝ) ∂κ ω ∂μ =
          ∫ ω, ∫ x, (number A ((P ω x).map coords) : ℝ) ∂κ ω ∂μ) ∧
      ∀ i, ∫ ω, ∫ x, (number (imagesOfCell M i) ((P ω x).map coords) : ℝ) ∂κ ω ∂μ =
        nbar * (M.boxsize 0 / M.n 0 * (M.boxsize 1 / M.n 1) * (M.boxsize 2 / M.n 2)) := by
  have hd : ∀ ω i, -1 ≤ M.realDelta b true (fun k => F k ω) i := fun ω i =>
    (lognormal_bounds (M.biased b (M.c2rReal fun k => F k ω)) i).1.le
  have hread' : ∀ g, Measurable (read g) := fun g => hread.measurable.comp (measurable_const.prodMk measurable_id)
  choose P h1 h2 using fun ω => C120_process hL hread' hn (hd ω) hr hg (hN ω) (hU ω) (hNU ω)
  have hpos : ∀ ω A, 0 ≤ meanIn M read b nbar f n A fun k => F k ω := fun ω A =>
    Finset.sum_nonneg fun i _ => mul_nonneg (mul_nonneg (by linarith [hd ω i]) hn) ENNReal.toReal_nonneg
  have hmean : ∀ A, MeasurableSet A → ∀ ω, ∫ x, (number A ((P ω x).map coords) : ℝ) ∂κ ω = meanIn M read b nbar f n A fun k => F k ω :=
    fun A hA ω => ((h2 ω Unit (fun _ => A) (fun _ => hA) fun x y h => absurd (Subsingleton.elim x y) h).mean_eq (fun _ => hpos ω A) ()).2
  obtain ⟨a, ha⟩ := modes_mul hF
  have mW : Measurable fun ω k => W k ω := measurable_pi_lambda _ hW.measurable
  have hFa : ∀ ω, (fun k => F k ω) = fun k => W k ω * a k := fun ω => funext fun k => ha ω k
  have hshift : ∀ A, MeasurableSet A → Repeats M A → ∀ m : Fin 3 → ℤ,
      ∫ ω, meanIn M read b nbar f n {y | (fun d => y d - m d * (M.boxsize d / M.n d)) ∈ A} (fun k => F k ω) ∂μ =
        ∫ ω, meanIn M read b nbar f n A (fun k => F k ω) ∂μ := by
    intro A hA hAr m
    have mW' : Measurable fun ω k => W k ω * M.char (castIdx M m) k := measurable_pi_lambda _ fun k => (hW.measurable k).mul_const _
    have mH : Measurable fun w : M.Idx → ℂ => meanIn M read b nbar f n A fun k => w k * a k :=
      (measurable_meanIn hL hread hb nbar f n hA).comp (by fun_prop)
    have e1 : ∀ ω, meanIn M read b nbar f n {y | (fun d => y d - m d * (M.boxsize d / M.n d)) ∈ A} (fun k => F k ω) =
        meanIn M read b nbar f n A fun k => W k ω * M.char (castIdx M m) k * a k := by
      intro ω
      rw [← meanIn_translated hL hread hb nbar f n hAr m]
      congr 1
      funext k
      rw [ha]
      ring
    rw [integral_congr_ae (Filter.Eventually.of_forall e1)]
    simp only [hFa]
    have i1 := integral_map (μ := μ) mW'.aemeasurable (f := fun w : M.Idx → ℂ => meanIn M read b nbar f n A fun k => w k * a k)
      mH.aestronglyMeasurable
    have i2 := integral_map (μ := μ) mW.aemeasurable (f := fun w : M.Idx → ℂ => meanIn M read b nbar f n A fun k => w k * a k)
      mH.aestronglyMeasurable
    rw [hW.phases (castIdx M m)] at i1
    exact i1.symm.trans i2
  refine ⟨P, h1, fun A hA hAr m => ?_, fun i => ?_⟩
  · have hA' : MeasurableSet {y : Fin 3 → ℝ | (fun d => y d - m d * (M.boxsize d / M.n d)) ∈ A} := by
      have : Measurable fun (y : Fin 3 → ℝ) d => y d - m d * (M.boxsize d / M.n d) := by fun_prop
      exact this hA
    simp only [hmean _ hA', hmean _ hA]
    exact hshift A hA hAr m
  · simp only [hmean _ (measurableSet_images hL i)]
    have hint : ∀ j, Integrable (fun ω => meanIn M read b nbar f n (imagesOfCell M j) fun k => F k ω) μ := by
      intro j
      refine Integrable.of_bound (C := Fintype.card M.Idx * (nbar * M.dv)) ?_ (Filter.Eventually.of_forall fun ω => ?_)
      · simp only [hFa]
        refine Measurable.aestronglyMeasurable ?_
        have mH : Measurable fun w : M.Idx → ℂ => meanIn M read b nbar f n (imagesOfCell M j) fun k => w k * a k :=
          (measurable_meanIn hL hread hb nbar f n (measurableSet_images hL j)).comp (by fun_prop)
        exact mH.comp mW
      · rw [Real.norm_eq_abs, abs_of_nonneg (hpos ω _), ← meanIn_sum hL hread' b nbar f n]
        exact Finset.single_le_sum (f := fun j => meanIn M read b nbar f n (imagesOfCell M j) fun k => F k ω) (fun j _ => hpos ω _)
          (Finset.mem_univ j)
    have hsame : ∀ j, ∫ ω, meanIn M read b nbar f n (imagesOfCell M j) (fun k => F k ω) ∂μ =
        ∫ ω, meanIn M read b nbar f n (imagesOfCell M i) (fun k => F k ω) ∂μ := by
      intro j
      have hm : i + castIdx M (fun d => ((j d - i d).val : ℤ)) = j := by
        funext d
        simp [castIdx]
      have := hshift _ (measurableSet_images hL i) (images_repeat i) fun d => ((j d - i d).val : ℤ)
      rw [images_translated, hm] at this
      exact this
    have htot : ∑ j, ∫ ω, meanIn M read b nbar f n (imagesOfCell M j) (fun k => F k ω) ∂μ = Fintype.card M.Idx * (nbar * M.dv) := by
      rw [← integral_finsetSum _ fun j _ => hint j]
      simp only [meanIn_sum hL hread']
      simp
    rw [Finset.sum_congr rfl fun j _ => hsame j, Finset.sum_const, Finset.card_univ, nsmul_eq_mul] at htot
    have hc : (Fintype.card M.Idx : ℝ) ≠ 0 := by exact_mod_cast Fintype.card_ne_zero
    have := mul_left_cancel₀ hc htot
    rw [this]
    unfold Mesh.dv Mesh.cell
    rw [Fin.prod_univ_three]

end

/-! ### Non-vacuity -/

/-- The readout of the node below the position meets the contract. -/
theorem readOk_below (hL : ∀ d, 0 < M.boxsize d) :
    ReadOk M fun g y => g fun d => ((⌊y d / (M.boxsize d / M.n d)⌋ : ℤ) : ZMod (M.n d)) := by
  refine ⟨?_, fun g m y => ?_⟩
  · have h1 : Measurable fun x : (M.Idx → ℝ) × (Fin 3 → ℝ) => ((x.1, fun d => ⌊x.2 d / (M.boxsize d / M.n d)⌋) : (M.Idx → ℝ) × (Fin 3 → ℤ)) := by
      refine measurable_fst.prodMk (measurable_pi_lambda _ fun d => Int.measurable_floor.comp ?_)
      fun_prop
    have h2 : Measurable fun x : (M.Idx → ℝ) × (Fin 3 → ℤ) => x.1 fun d => ((x.2 d : ℤ) : ZMod (M.n d)) :=
      measurable_from_prod_countable_left fun z => measurable_pi_apply (fun d => ((z d : ℤ) : ZMod (M.n d)))
    exact h2.comp h1
  · refine congrArg g (funext fun d => ?_)
    have hc : M.boxsize d / M.n d ≠ 0 := (div_pos (hL d) (n_pos' M d)).ne'
    rw [add_div, mul_div_cancel_right₀ _ hc, Int.floor_add_intCast]
    push_cast
    rfl

/-- On a mesh of 4³ cells of side 2, with density 3, there is a random catalog, in redshift space along z, with 24 particles on average in
each cell. -/
example : ∃ (Ω : Type) (_ : MeasurableSpace Ω) (μ : Measure Ω) (Ω' : Type) (_ : MeasurableSpace Ω') (κ : Ω → Measure Ω')
    (P : Ω → Ω' → List (V3 ℝ)), ∀ i, ∫ ω, ∫ x, (number (imagesOfCell mesh4 i) ((P ω x).map coords) : ℝ) ∂κ ω ∂μ = 24 := by
  obtain ⟨Ω, mΩ, μ, hμ, W, F, Ω', mΩ', κ, hκ, N, U, ranks, hW, hL, hr, hF, hb, hN, hU, hNU⟩ := witness
  obtain ⟨P, _, _, h⟩ := C120_homogeneous hL hW hF hb (readOk_below hL) (nbar := 3) (by norm_num) hr (.redshift (0.7) .z) hN hU hNU
  refine ⟨Ω, mΩ, μ, Ω', mΩ', κ, P, fun i => ?_⟩
  rw [h i]
  norm_num [mesh4]

end Verif.Props.LagrangianLaw
