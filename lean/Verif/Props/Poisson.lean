import Verif.Props.MeshGeom

/-!
# C40: Poisson sampling
-/

namespace Verif.Props

open Verif Verif.Model Verif.Lemmas.Mesh

variable (M : Mesh)

/-- A position is in the cell of a node: from its coordinates, included, to one cell further, excluded. -/
def InCell (i : M.Idx) (p : Fin 3 → ℝ) : Prop :=
  ∀ d, nodeAt M i d ≤ p d ∧ p d < nodeAt M i d + M.boxsize d / M.n d

/-- Each node is held by exactly one rank. -/
def Decomposition (ranks : List (List M.Idx)) : Prop := ranks.flatten.Perm (Finset.univ : Finset M.Idx).toList

theorem countP_mapIdx {α β : Type} (P : β → Bool) (Q : α → Bool) (l : List α) (f : ℕ → α → β)
    (h : ∀ j, ∀ a ∈ l, P (f j a) = Q a) : (l.mapIdx f).countP P = l.countP Q := by
  induction l generalizing f with
  | nil => rfl
  | cons a l ih =>
    rw [List.mapIdx_cons, List.countP_cons, List.countP_cons, ih _ (fun j b hb => h (j + 1) b (List.mem_cons_of_mem _ hb)),
      h 0 a List.mem_cons_self]

theorem mem_mapIdx' {α β : Type} (l : List α) (f : ℕ → α → β) (b : β) (h : b ∈ l.mapIdx f) : ∃ j, ∃ a ∈ l, f j a = b := by
  rw [List.mem_mapIdx] at h
  obtain ⟨j, hj, hb⟩ := h
  exact ⟨j, l[j], List.getElem_mem hj, hb⟩

theorem mem_sorted {ranks : List (List M.Idx)} {counts : M.Idx → ℕ} {p : Fin 3 → ℝ}
    (h : p ∈ Mesh.mpsort (ranks.flatMap (M.repeated counts))) : ∃ i, p = M.cellCorner i := by
  unfold Mesh.mpsort at h
  rw [List.mem_map] at h
  obtain ⟨r, hr, rfl⟩ := h
  rw [List.mem_mergeSort, List.mem_flatMap] at hr
  obtain ⟨l, _, hr⟩ := hr
  unfold Mesh.repeated at hr
  rw [List.mem_flatMap] at hr
  obtain ⟨i, _, hr⟩ := hr
  rw [List.eq_of_mem_replicate hr]
  exact ⟨i, rfl⟩

/-- Position of a particle made in the cell of a node. -/
theorem inCell_iff (hL : ∀ d, 0 < M.boxsize d) (i j : M.Idx) (v : Fin 3 → ℝ) (hv : ∀ d, 0 ≤ v d ∧ v d < 1) :
    InCell M i (fun d => M.cellCorner j d + (0 + (M.cell d - 0) * v d) + (M.boxcenter d - M.boxsize d / 2)) ↔ j = i := by
  constructor
  · intro h
    funext d
    obtain ⟨h1, h2⟩ := h d
    have hc : 0 < M.boxsize d / M.n d := div_pos (hL d) (n_pos' M d)
    unfold nodeAt Mesh.cellCorner Mesh.cell at h1 h2
    have h3 : ((i d).val : ℝ) < (j d).val + 1 := by
      have : ((i d).val : ℝ) * (M.boxsize d / M.n d) < ((j d).val + 1) * (M.boxsize d / M.n d) := by
        nlinarith [(hv d).2]
      exact lt_of_mul_lt_mul_right this hc.le
    have h4 : ((j d).val : ℝ) < (i d).val + 1 := by
      have : ((j d).val : ℝ) * (M.boxsize d / M.n d) < ((i d).val + 1) * (M.boxsize d / M.n d) := by
        nlinarith [(hv d).1]
      exact lt_of_mul_lt_mul_right this hc.le
    have h3' : (i d).val < (j d).val + 1 := by exact_mod_cast h3
    have h4' : (j d).val < (i d).val + 1 := by exact_mod_cast h4
    exact ZMod.val_injective _ (by omega)
  · rintro rfl d
    have hc : 0 < M.boxsize d / M.n d := div_pos (hL d) (n_pos' M d)
    unfold nodeAt Mesh.cellCorner Mesh.cell
    constructor <;> nlinarith [(hv d).1, (hv d).2]

theorem repeated_flatMap (ranks : List (List M.Idx)) (counts : M.Idx → ℕ) :
    ranks.flatMap (M.repeated counts) =
      ranks.flatten.flatMap fun i => List.replicate (counts i) (M.cellId i, M.cellCorner i) := by
  induction ranks with
  | nil => rfl
  | cons l ranks ih =>
    rw [List.flatMap_cons, ih, List.flatten_cons, List.flatMap_append]
    rfl

open Classical in
/-- `poisson_sample` makes exactly the drawn number of particles in each cell, and no others. -/
theorem C40_counts (hL : ∀ d, 0 < M.boxsize d) (s : M.Fields) (hs : ∀ i, 0 ≤ M.cellMean s i) (ranks : List (List M.Idx))
    (hr : Decomposition M ranks) (counts : M.Idx → ℕ) (u : ℕ → Fin 3 → ℝ) (hu : ∀ j d, 0 ≤ u j d ∧ u j d < 1) :
    ∃ ps, M.poissonSample s ranks counts u = .ok ps ∧ (∀ i, ps.countP (fun p => decide (InCell M i p)) = counts i) ∧
      (∀ p ∈ ps, ∃ i, InCell M i p) ∧ ps.length = ∑ i, counts i := by
  have hn : ¬ ∃ i, M.cellMean s i < 0 := by
    push Not
    exact hs
  unfold Mesh.poissonSample
  rw [if_neg hn]
  refine ⟨_, rfl, ?_, ?_, ?_⟩
  · intro i
    rw [countP_mapIdx (Q := fun p => decide (p = M.cellCorner i))]
    · unfold Mesh.mpsort
      rw [List.countP_map, (List.mergeSort_perm _ _).countP_eq, repeated_flatMap, List.countP_flatMap]
      rw [(hr.map _).sum_eq, Finset.sum_map_toList]
      have : ∀ j : M.Idx, (List.countP ((fun p => decide (p = M.cellCorner i)) ∘ fun x => x.2)
          ∘ fun i => List.replicate (counts i) (M.cellId i, M.cellCorner i)) j = if j = i then counts i else 0 := by
        intro j
        simp only [Function.comp_apply, List.countP_replicate]
        have e : (M.cellCorner j = M.cellCorner i) ↔ j = i := by
          constructor
          · intro h
            refine C66_distinct M hL j i fun d => ?_
            have := congrFun h d
            unfold Mesh.cellCorner Mesh.cell at this
            unfold nodeAt
            linarith
          · rintro rfl
            rfl
        by_cases hji : j = i
        · subst hji
          simp
        · simp [e, hji]
      rw [Finset.sum_congr rfl fun j _ => this j]
      simp
    · intro j p hp
      obtain ⟨i', rfl⟩ := mem_sorted M hp
      rw [decide_eq_decide, inCell_iff M hL i i' (u j) (hu j)]
      constructor
      · rintro rfl
        rfl
      · intro h
        refine C66_distinct M hL i' i fun d => ?_
        have := congrFun h d
        unfold Mesh.cellCorner Mesh.cell at this
        unfold nodeAt
        linarith
  · intro p hp
    obtain ⟨j, a, ha, rfl⟩ := mem_mapIdx' _ _ _ hp
    obtain ⟨i, rfl⟩ := mem_sorted M ha
    exact ⟨i, (inCell_iff M hL i i (u j) (hu j)).mpr rfl⟩
  · rw [List.length_mapIdx]
    unfold Mesh.mpsort
    rw [List.length_map, List.length_mergeSort, repeated_flatMap, List.length_flatMap]
    rw [(hr.map _).sum_eq, Finset.sum_map_toList]
    simp

/-- A position in a cell is in the box, upper boundary excluded. -/
theorem C40_inside (hL : ∀ d, 0 < M.boxsize d) (i : M.Idx) (p : Fin 3 → ℝ) (h : InCell M i p) (d : Fin 3) :
    M.boxcenter d - M.boxsize d / 2 ≤ p d ∧ p d < M.boxcenter d + M.boxsize d / 2 := by
  have hn := n_pos' M d
  have hc : 0 < M.boxsize d / M.n d := div_pos (hL d) hn
  obtain ⟨h1, h2⟩ := h d
  refine ⟨(C66_inside M hL i d).1.trans h1, h2.trans_le ?_⟩
  have hv : ((i d).val : ℝ) + 1 ≤ M.n d := by exact_mod_cast ZMod.val_lt (i d)
  have e : (M.n d : ℝ) * (M.boxsize d / M.n d) = M.boxsize d := by field_simp
  unfold nodeAt
  have : (((i d).val : ℝ) + 1) * (M.boxsize d / M.n d) ≤ M.n d * (M.boxsize d / M.n d) := by nlinarith
  nlinarith

/-- The cells do not overlap and fill the box. -/
theorem C40_cells (hL : ∀ d, 0 < M.boxsize d) (p : Fin 3 → ℝ)
    (h : ∀ d, M.boxcenter d - M.boxsize d / 2 ≤ p d ∧ p d < M.boxcenter d + M.boxsize d / 2) : ∃! i, InCell M i p := by
  have hcell : ∀ d, ∃ m : ℕ, m < M.n d ∧ M.boxcenter d - M.boxsize d / 2 + m * (M.boxsize d / M.n d) ≤ p d ∧
      p d < M.boxcenter d - M.boxsize d / 2 + (m + 1) * (M.boxsize d / M.n d) := by
    intro d
    have hn := n_pos' M d
    have hc : 0 < M.boxsize d / M.n d := div_pos (hL d) hn
    obtain ⟨h1, h2⟩ := h d
    set x := (p d - (M.boxcenter d - M.boxsize d / 2)) / (M.boxsize d / M.n d) with hx
    have hx0 : 0 ≤ x := div_nonneg (by linarith) hc.le
    have hxp : p d = M.boxcenter d - M.boxsize d / 2 + x * (M.boxsize d / M.n d) := by
      rw [hx, div_mul_cancel₀ _ hc.ne']
      ring
    have e : (M.n d : ℝ) * (M.boxsize d / M.n d) = M.boxsize d := by field_simp
    refine ⟨⌊x⌋₊, ?_, ?_, ?_⟩
    · rw [Nat.floor_lt hx0]
      by_contra hh
      push Not at hh
      nlinarith
    · have := Nat.floor_le hx0
      rw [hxp]
      nlinarith
    · have := Nat.lt_floor_add_one x
      rw [hxp]
      nlinarith
  choose m hm h1 h2 using hcell
  have hv : ∀ d, ((m d : ZMod (M.n d))).val = m d := fun d => ZMod.val_cast_of_lt (hm d)
  refine ⟨fun d => (m d : ZMod (M.n d)), ?_, ?_⟩
  · intro d
    unfold nodeAt
    rw [hv d]
    refine ⟨h1 d, ?_⟩
    have := h2 d
    linarith
  · intro j hj
    funext d
    have hc : 0 < M.boxsize d / M.n d := div_pos (hL d) (n_pos' M d)
    obtain ⟨g1, g2⟩ := hj d
    have := h1 d
    have := h2 d
    unfold nodeAt at g1 g2
    have h3 : ((j d).val : ℝ) < m d + 1 := by
      have : ((j d).val : ℝ) * (M.boxsize d / M.n d) < (m d + 1) * (M.boxsize d / M.n d) := by linarith
      exact lt_of_mul_lt_mul_right this hc.le
    have h4 : (m d : ℝ) < (j d).val + 1 := by
      have : (m d : ℝ) * (M.boxsize d / M.n d) < ((j d).val + 1) * (M.boxsize d / M.n d) := by linarith
      exact lt_of_mul_lt_mul_right this hc.le
    have h3' : (j d).val < m d + 1 := by exact_mod_cast h3
    have h4' : m d < (j d).val + 1 := by exact_mod_cast h4
    exact ZMod.val_injective _ (by rw [hv d]; omega)

theorem cellId_injective : Function.Injective M.cellId := by
  intro i j h
  unfold Mesh.cellId at h
  have l1 := ZMod.val_lt (i 1)
  have l2 := ZMod.val_lt (i 2)
  have m1 := ZMod.val_lt (j 1)
  have m2 := ZMod.val_lt (j 2)
  have hmod := congrArg (· % M.n 2) h
  simp only [Nat.mul_add_mod_self_right, Nat.mod_eq_of_lt l2, Nat.mod_eq_of_lt m2] at hmod
  have hdiv : (i 0).val * M.n 1 + (i 1).val = (j 0).val * M.n 1 + (j 1).val := by
    rw [hmod] at h
    exact Nat.eq_of_mul_eq_mul_right (M.n_pos 2) (Nat.add_right_cancel h)
  have hmod1 := congrArg (· % M.n 1) hdiv
  simp only [Nat.mul_add_mod_self_right, Nat.mod_eq_of_lt l1, Nat.mod_eq_of_lt m1] at hmod1
  have hdiv1 : (i 0).val = (j 0).val := by
    rw [hmod1] at hdiv
    exact Nat.eq_of_mul_eq_mul_right (M.n_pos 1) (Nat.add_right_cancel hdiv)
  funext d
  apply ZMod.val_injective
  fin_cases d
  · exact hdiv1
  · exact hmod1
  · exact hmod

/-- The positions do not depend on the distribution of the mesh over ranks. -/
theorem C40_ranks (s : M.Fields) (ranks ranks' : List (List M.Idx)) (h : Decomposition M ranks) (h' : Decomposition M ranks')
    (counts : M.Idx → ℕ) (u : ℕ → Fin 3 → ℝ) : M.poissonSample s ranks counts u = M.poissonSample s ranks' counts u := by
  unfold Mesh.poissonSample
  have hp : (ranks.flatMap (M.repeated counts)).Perm (ranks'.flatMap (M.repeated counts)) := by
    rw [repeated_flatMap, repeated_flatMap]
    exact List.Perm.flatMap_right _ (h.trans h'.symm)
  have hmem : ∀ r ∈ ranks.flatMap (M.repeated counts), ∃ i, r = (M.cellId i, M.cellCorner i) := by
    intro r hr
    rw [repeated_flatMap, List.mem_flatMap] at hr
    obtain ⟨i, _, hr⟩ := hr
    exact ⟨i, List.eq_of_mem_replicate hr⟩
  have e : (ranks.flatMap (M.repeated counts)).mergeSort (fun a b => decide (a.1 ≤ b.1)) =
      (ranks'.flatMap (M.repeated counts)).mergeSort (fun a b => decide (a.1 ≤ b.1)) := by
    refine List.Perm.eq_of_pairwise (le := fun a b : ℕ × (Fin 3 → ℝ) => decide (a.1 ≤ b.1)) ?_ ?_ ?_ ?_
    · intro a b ha hb hab hba
      rw [List.mem_mergeSort] at ha hb
      obtain ⟨i, rfl⟩ := hmem a ha
      obtain ⟨j, rfl⟩ := hmem b (hp.mem_iff.mpr hb)
      simp only [decide_eq_true_eq] at hab hba
      have := cellId_injective M (le_antisymm hab hba)
      rw [this]
    · exact List.pairwise_mergeSort (fun a b c hab hbc => by simp only [decide_eq_true_eq] at *; omega)
        (fun a b => by simp only [Bool.or_eq_true, decide_eq_true_eq]; omega) _
    · exact List.pairwise_mergeSort (fun a b c hab hbc => by simp only [decide_eq_true_eq] at *; omega)
        (fun a b => by simp only [Bool.or_eq_true, decide_eq_true_eq]; omega) _
    · exact ((List.mergeSort_perm _ _).trans hp).trans (List.mergeSort_perm _ _).symm
  unfold Mesh.mpsort
  rw [e]

/-- A density contrast below -1 at any node where objects are expected, which happens for Gaussian fields without lognormal
transform, makes `poisson_sample` raise. -/
theorem C40_rejects (hL : ∀ d, 0 < M.boxsize d) (s : M.Fields) (i : M.Idx) (hd : s.delta i < -1) (hn : 0 < s.nbarAt i)
    (ranks : List (List M.Idx)) (counts : M.Idx → ℕ) (u : ℕ → Fin 3 → ℝ) :
    M.poissonSample s ranks counts u = .error .valueError := by
  unfold Mesh.poissonSample
  rw [if_pos]
  refine ⟨i, ?_⟩
  have hdv : 0 < M.dv := by
    unfold Mesh.dv
    exact Finset.prod_pos fun d _ => div_pos (hL d) (n_pos' M d)
  unfold Mesh.cellMean
  exact mul_neg_of_neg_of_pos (mul_neg_of_neg_of_pos (by linarith) hn) hdv

/-- The mean number of objects drawn in each cell is the mean density times the density contrast plus one, times the volume of a
cell; summed over cells for a constant mean density and a contrast of mean zero, this is the density times the volume of the box. -/
theorem C40_mean (s : M.Fields) (x : ℝ) (hx : s.nbar = .inl x) (h0 : ∑ i, s.delta i = 0) :
    ∑ i, M.cellMean s i = x * (M.boxsize 0 * M.boxsize 1 * M.boxsize 2) := by
  have hcard : (Fintype.card M.Idx : ℝ) = M.n 0 * M.n 1 * M.n 2 := by
    rw [Fintype.card_pi, Fin.prod_univ_three]
    simp [ZMod.card]
  have hn : ∀ i, s.nbarAt i = x := fun i => by unfold Mesh.Fields.nbarAt; rw [hx]
  unfold Mesh.cellMean
  simp only [hn]
  rw [← Finset.sum_mul, ← Finset.sum_mul, Finset.sum_add_distrib, h0]
  simp only [Finset.sum_const, Finset.card_univ, nsmul_eq_mul, mul_one, add_zero]
  rw [hcard]
  unfold Mesh.dv Mesh.cell
  rw [Fin.prod_univ_three]
  have := n_pos' M 0
  have := n_pos' M 1
  have := n_pos' M 2
  field_simp

/-- A sample of `mesh4` with two particles in each cell. -/
example : ∃ ps, mesh4.poissonSample ⟨fun _ => 0, .inl 1, fun _ _ => 0⟩ [(Finset.univ : Finset mesh4.Idx).toList] (fun _ => 2)
    (fun _ _ => 1 / 2) = .ok ps ∧ ps.length = ∑ _i : mesh4.Idx, 2 := by
  obtain ⟨ps, h, _, _, hl⟩ := C40_counts mesh4 (fun _ => by simp [mesh4]) ⟨fun _ => 0, .inl 1, fun _ _ => 0⟩
    (fun i => by
      unfold Mesh.cellMean Mesh.dv Mesh.cell Mesh.Fields.nbarAt
      simp [mesh4]
      norm_num) [(Finset.univ : Finset mesh4.Idx).toList] (by unfold Decomposition; simp) (fun _ => 2) (fun _ _ => 1 / 2)
    (fun _ _ => by norm_num)
  exact ⟨ps, h, hl⟩

end Verif.Props
