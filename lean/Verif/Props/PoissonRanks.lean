import Verif.Model.PoissonRanks
import Verif.Props.Poisson
import Verif.Lemmas.Blinding

/-!
# C123: seeded results do not depend on the number of processes
-/

namespace Verif.Props.PoissonRanks

open Verif Verif.Model Verif.Lemmas.Mesh
open Verif.Model.Blinding (splitSizes)

/-! ### Specification -/

section spec
variable (M : Mesh)

/-- Number of nodes. -/
def total : ℕ := M.n 0 * M.n 1 * M.n 2

/-- Node number `j`, the last axis running fastest. -/
def node (j : ℕ) : M.Idx
  | 0 => (j / (M.n 1 * M.n 2) : ℕ)
  | 1 => (j / M.n 2 % M.n 1 : ℕ)
  | 2 => (j % M.n 2 : ℕ)

/-- Means of all cells, in order of nodes. -/
noncomputable def means (s : M.Fields) : List ℝ := (List.range (total M)).map fun j => M.cellMean s (node M j)

/-- Cells of the particles: each cell as many times as was drawn, in order of nodes. -/
def cells (count : ℕ → ℕ) : List M.Idx := (List.range (total M)).flatMap fun j => List.replicate (count j) (node M j)

/-- The catalog of the two seeds: particle `k` is in its cell, at the fractions of draw `k`. -/
noncomputable def catalog (s : M.Fields) (pois : List ℝ → ℕ → ℕ) (u : ℕ → ℕ → Fin 3 → ℝ) : List (Fin 3 → ℝ) :=
  let c := cells M (pois (means M s))
  c.mapIdx fun k i d => nodeAt M i d + u c.length k d * (M.boxsize d / M.n d)

end spec

/-! ### Draws and sort over ranks -/

theorem mapIdx_offset {α β : Type*} (f : ℕ → α → β) (parts : List (List α)) (k : ℕ) :
    (parts.mapIdx fun r part => part.mapIdx fun l a => f (k + (((parts.take r).map List.length).sum + l)) a).flatten =
      parts.flatten.mapIdx fun j a => f (k + j) a := by
  induction parts generalizing k with
  | nil => rfl
  | cons p ps ih =>
    rw [List.mapIdx_cons, List.flatten_cons, List.flatten_cons, List.mapIdx_append]
    simp only [List.take_zero, List.map_nil, List.sum_nil, Nat.zero_add, List.take_succ_cons, List.map_cons, List.sum_cons]
    congr 1
    have := ih (k + p.length)
    simp only [Nat.add_assoc] at this ⊢
    rw [this]
    congr 1
    funext j a
    congr 1
    omega

theorem range_map_eq {α β : Type*} (l : List α) (f : ℕ → β) : (List.range l.length).map f = l.mapIdx fun j _ => f j := by
  apply List.ext_getElem <;> simp

theorem mpiDraw_flatten {α β : Type*} (draw : List α → ℕ → β) (parts : List (List α)) :
    (mpiDraw draw parts).flatten = (List.range parts.flatten.length).map (draw parts.flatten) := by
  unfold mpiDraw
  simp only [range_map_eq]
  have := mapIdx_offset (fun j (_ : α) => draw parts.flatten j) parts 0
  simpa using this

theorem mpiDraw_lengths {α β : Type*} (draw : List α → ℕ → β) (parts : List (List α)) :
    (mpiDraw draw parts).map List.length = parts.map List.length := by
  unfold mpiDraw
  apply List.ext_getElem <;> simp

theorem zipWith_flatten {α β γ : Type*} (f : α → β → γ) (a : List (List α)) (b : List (List β))
    (h : a.map List.length = b.map List.length) :
    (List.zipWith (List.zipWith f) a b).flatten = List.zipWith f a.flatten b.flatten := by
  induction a generalizing b with
  | nil => cases b <;> simp
  | cons x a ih =>
    cases b with
    | nil => simp at h
    | cons y b =>
      simp only [List.map_cons, List.cons.injEq] at h
      rw [List.zipWith_cons_cons, List.flatten_cons, List.flatten_cons, List.flatten_cons, ih b h.2, List.zipWith_append h.1]

theorem zipWith_lengths {α β γ : Type*} (f : α → β → γ) (a : List (List α)) (b : List (List β))
    (h : a.map List.length = b.map List.length) : (List.zipWith (List.zipWith f) a b).map List.length = a.map List.length := by
  induction a generalizing b with
  | nil => cases b <;> simp
  | cons x a ih =>
    cases b with
    | nil => simp at h
    | cons y b =>
      simp only [List.map_cons, List.cons.injEq] at h
      simp only [List.zipWith_cons_cons, List.map_cons, List.length_zipWith, h.1, Nat.min_self]
      rw [ih b h.2]

theorem zipWith_draws {α β γ : Type*} (f : α → β → γ) (l : List α) (g : ℕ → β) :
    List.zipWith f l ((List.range l.length).map g) = l.mapIdx fun j a => f a (g j) := by
  apply List.ext_getElem <;> simp

theorem mpiSort_flatten {β : Type*} (parts : List (List (ℕ × β))) :
    (mpiSort parts).flatten = (parts.flatten.mergeSort fun a b => decide (a.1 ≤ b.1)).map (·.2) := by
  unfold mpiSort
  rw [Lemmas.Blinding.flatten_splitSizes]
  simp [List.length_flatten]

theorem mpiSort_lengths {β : Type*} (parts : List (List (ℕ × β))) : (mpiSort parts).map List.length = parts.map List.length := by
  unfold mpiSort
  rw [Lemmas.Blinding.lengths_splitSizes]
  simp [List.length_flatten]

theorem sort_eq {β : Type*} {l l' : List (ℕ × β)} (hp : l.Perm l') (hs : l'.Pairwise fun a b => a.1 ≤ b.1)
    (hi : ∀ a ∈ l', ∀ b ∈ l', a.1 = b.1 → a = b) : l.mergeSort (fun a b => decide (a.1 ≤ b.1)) = l' := by
  refine List.Perm.eq_of_pairwise (le := fun a b => a.1 ≤ b.1) (fun a b ha hb h1 h2 => ?_) ?_ hs ((List.mergeSort_perm _ _).trans hp)
  · exact hi a (hp.mem_iff.1 (List.mem_mergeSort.1 ha)) b hb (le_antisymm h1 h2)
  · have := List.pairwise_mergeSort (le := fun (a b : ℕ × β) => decide (a.1 ≤ b.1)) (fun a b c h1 h2 => by
      simp only [decide_eq_true_eq] at h1 h2 ⊢
      omega) (fun a b => by
      simp only [Bool.or_eq_true, decide_eq_true_eq]
      omega) l
    exact this.imp fun h => by simpa using h

/-! ### Order of nodes -/

section nodes
variable (M : Mesh)

theorem cellId_lt (i : M.Idx) : M.cellId i < total M := by
  unfold Mesh.cellId total
  have h0 := ZMod.val_lt (i 0)
  have h1 := ZMod.val_lt (i 1)
  have h2 := ZMod.val_lt (i 2)
  have a : (i 0).val * M.n 1 + (i 1).val + 1 ≤ M.n 0 * M.n 1 := by nlinarith
  nlinarith

theorem node_cellId (i : M.Idx) : node M (M.cellId i) = i := by
  have h1 := ZMod.val_lt (i 1)
  have h2 := ZMod.val_lt (i 2)
  have p2 := M.n_pos 2
  have p1 := M.n_pos 1
  have e2 : M.cellId i % M.n 2 = (i 2).val := by
    unfold Mesh.cellId
    rw [Nat.mul_comm, Nat.mul_add_mod, Nat.mod_eq_of_lt h2]
  have e1 : M.cellId i / M.n 2 = (i 0).val * M.n 1 + (i 1).val := by
    unfold Mesh.cellId
    rw [Nat.mul_comm, Nat.mul_add_div p2, Nat.div_eq_of_lt h2, Nat.add_zero]
  funext d
  fin_cases d
  · show ((M.cellId i / (M.n 1 * M.n 2) : ℕ) : ZMod (M.n 0)) = i 0
    rw [Nat.mul_comm, ← Nat.div_div_eq_div_mul, e1, Nat.mul_comm, Nat.mul_add_div p1, Nat.div_eq_of_lt h1, Nat.add_zero]
    simp
  · show ((M.cellId i / M.n 2 % M.n 1 : ℕ) : ZMod (M.n 1)) = i 1
    rw [e1, Nat.mul_comm, Nat.mul_add_mod, Nat.mod_eq_of_lt h1]
    simp
  · show ((M.cellId i % M.n 2 : ℕ) : ZMod (M.n 2)) = i 2
    rw [e2]
    simp

theorem cellId_node {j : ℕ} (h : j < total M) : M.cellId (node M j) = j := by
  have p2 := M.n_pos 2
  have p1 := M.n_pos 1
  unfold Mesh.cellId
  have e0 : (node M j 0).val = j / (M.n 1 * M.n 2) := by
    show ((j / (M.n 1 * M.n 2) : ℕ) : ZMod (M.n 0)).val = _
    rw [ZMod.val_natCast, Nat.mod_eq_of_lt]
    rw [Nat.div_lt_iff_lt_mul (by positivity)]
    unfold total at h
    rw [← Nat.mul_assoc]
    exact h
  have e1 : (node M j 1).val = j / M.n 2 % M.n 1 := by
    show ((j / M.n 2 % M.n 1 : ℕ) : ZMod (M.n 1)).val = _
    rw [ZMod.val_natCast, Nat.mod_mod]
  have e2 : (node M j 2).val = j % M.n 2 := by
    show ((j % M.n 2 : ℕ) : ZMod (M.n 2)).val = _
    rw [ZMod.val_natCast, Nat.mod_mod]
  rw [e0, e1, e2, Nat.mul_comm (M.n 1), ← Nat.div_div_eq_div_mul, Nat.mul_comm _ (M.n 1), Nat.div_add_mod, Nat.mul_comm, Nat.div_add_mod]

theorem nodes_perm {ranks : List (List M.Idx)} (hr : Decomposition M ranks) :
    ranks.flatten.Perm ((List.range (total M)).map (node M)) := by
  refine hr.trans ((List.perm_ext_iff_of_nodup (Finset.nodup_toList _) ?_).2 fun i => ?_)
  · refine List.Nodup.map_on ?_ List.nodup_range
    intro a ha b hb h
    rw [← cellId_node M (List.mem_range.1 ha), ← cellId_node M (List.mem_range.1 hb), h]
  · simp only [Finset.mem_toList, Finset.mem_univ, List.mem_map, List.mem_range, true_iff]
    exact ⟨M.cellId i, cellId_lt M i, node_cellId M i⟩

theorem ravel_flatten {α : Type} {ranks : List (List M.Idx)} (hr : Decomposition M ranks) (f : M.Idx → α) :
    (M.ravel ranks f).flatten = (List.range (total M)).map fun j => f (node M j) := by
  unfold Mesh.ravel
  rw [mpiSort_flatten, sort_eq (l' := (List.range (total M)).map fun j => (j, f (node M j)))]
  · rw [List.map_map]
    rfl
  · rw [← List.map_flatten]
    refine ((nodes_perm M hr).map _).trans (List.Perm.of_eq ?_)
    rw [List.map_map]
    refine List.map_congr_left fun j hj => ?_
    simp [cellId_node M (List.mem_range.1 hj)]
  · rw [List.pairwise_map]
    exact List.pairwise_lt_range.imp fun h => h.le
  · simp only [List.mem_map]
    rintro _ ⟨a, _, rfl⟩ _ ⟨b, _, rfl⟩ h
    simp only at h
    rw [h]

theorem repeated_flatten {ranks : List (List M.Idx)} (hr : Decomposition M ranks) (count : M.Idx → ℕ) :
    (mpiSort (ranks.map (M.repeated count))).flatten =
      (cells M fun j => count (node M j)).map M.cellCorner := by
  have e : (cells M fun j => count (node M j)).map M.cellCorner =
      ((List.range (total M)).flatMap fun j => List.replicate (count (node M j)) (j, M.cellCorner (node M j))).map (·.2) := by
    unfold cells
    simp [List.map_flatMap]
  rw [e, mpiSort_flatten]
  congr 1
  apply sort_eq
  · rw [← List.flatMap_def, repeated_flatMap]
    refine ((nodes_perm M hr).flatMap_right _).trans (List.Perm.of_eq ?_)
    rw [List.flatMap_map]
    refine List.flatMap_congr fun j hj => ?_
    rw [cellId_node M (List.mem_range.1 hj)]
  · rw [List.pairwise_flatMap]
    refine ⟨fun j _ => ?_, ?_⟩
    · exact List.pairwise_replicate.2 (.inr le_rfl)
    · refine List.pairwise_lt_range.imp fun h x hx y hy => ?_
      rw [List.eq_of_mem_replicate hx, List.eq_of_mem_replicate hy]
      exact h.le
  · intro a ha b hb h
    rw [List.mem_flatMap] at ha hb
    obtain ⟨j, -, ha⟩ := ha
    obtain ⟨k, -, hb⟩ := hb
    rw [List.eq_of_mem_replicate ha, List.eq_of_mem_replicate hb] at h ⊢
    simp only at h
    rw [h]

end nodes

/-! ### C123 -/

section main
variable (M : Mesh)

/-- C123. The catalog of a mock, all ranks one after the other, is that of the two seeds: it is the same, in the same order, on any
number of processes, whatever nodes each of them holds. Each process has as many particles as were drawn in its cells. -/
theorem C123_catalog (s : M.Fields) (hs : ∀ i, 0 ≤ M.cellMean s i) (ranks : List (List M.Idx)) (hr : Decomposition M ranks)
    (pois : List ℝ → ℕ → ℕ) (u : ℕ → ℕ → Fin 3 → ℝ) :
    ∃ out, M.poissonRanks s ranks pois u = .ok out ∧ out.flatten = catalog M s pois u ∧
      out.map List.length = ranks.map fun nodes => (nodes.map fun i => pois (means M s) (M.cellId i)).sum := by
  have hlam : (M.ravel ranks (M.cellMean s)).flatten = means M s := ravel_flatten M hr _
  have hn : ¬ ∃ x ∈ (M.ravel ranks (M.cellMean s)).flatten, x < 0 := by
    rw [hlam]
    unfold means
    rintro ⟨x, hx, h⟩
    rw [List.mem_map] at hx
    obtain ⟨j, -, rfl⟩ := hx
    exact absurd h (not_lt.2 (hs _))
  have hc : M.unravel (mpiDraw pois (M.ravel ranks (M.cellMean s))) = fun i => pois (means M s) (M.cellId i) := by
    funext i
    unfold Mesh.unravel
    rw [mpiDraw_flatten, hlam]
    have : (means M s).length = total M := by simp [means]
    rw [this]
    simp [cellId_lt M i]
  unfold Mesh.poissonRanks
  simp only [if_neg hn, hc]
  have hcells : cells M (fun j => pois (means M s) (M.cellId (node M j))) = cells M (pois (means M s)) := by
    unfold cells
    refine List.flatMap_congr fun j hj => ?_
    simp only [cellId_node M (List.mem_range.1 hj)]
  refine ⟨_, rfl, ?_, ?_⟩
  · rw [zipWith_flatten _ _ _ (mpiDraw_lengths _ _).symm, mpiDraw_flatten, zipWith_draws, repeated_flatten M hr, hcells]
    unfold catalog
    simp only [List.length_map]
    apply List.ext_getElem
    · simp
    · intro k h1 h2
      simp only [List.getElem_mapIdx, List.getElem_map]
      funext d
      unfold nodeAt Mesh.cellCorner Mesh.cell
      ring
  · rw [zipWith_lengths _ _ _ (mpiDraw_lengths _ _).symm, mpiSort_lengths, List.map_map]
    refine List.map_congr_left fun nodes _ => ?_
    simp only [Function.comp_apply, Mesh.repeated, List.length_flatMap, List.length_replicate]

/-- C123. A negative mean in any cell is a `ValueError`. -/
theorem C123_negative (s : M.Fields) (i : M.Idx) (hi : M.cellMean s i < 0) (ranks : List (List M.Idx)) (hr : Decomposition M ranks)
    (pois : List ℝ → ℕ → ℕ) (u : ℕ → ℕ → Fin 3 → ℝ) : M.poissonRanks s ranks pois u = .error .valueError := by
  unfold Mesh.poissonRanks
  refine if_pos ⟨M.cellMean s i, ?_, hi⟩
  rw [ravel_flatten M hr, List.mem_map]
  exact ⟨M.cellId i, List.mem_range.2 (cellId_lt M i), by rw [node_cellId]⟩

/-- C123. Selection by a mask with a seed: rows of all processes, one after the other, are kept or not as they would be in one process. -/
theorem C123_mask {α : Type} (prob : α → ℝ) (u : ℕ → ℕ → ℝ) (rows : List (List α)) :
    ∃ keep : List Bool, (maskRanks prob u rows).flatten = keep ∧ (maskRanks prob u [rows.flatten]).flatten = keep ∧
      (maskRanks prob u rows).map List.length = rows.map List.length ∧
      ∀ j (h : j < rows.flatten.length), keep[j]? = some true ↔ u rows.flatten.length j ≤ prob rows.flatten[j] := by
  have key : ∀ rows : List (List α), (maskRanks prob u rows).flatten =
      open Classical in rows.flatten.mapIdx fun j a => decide (u rows.flatten.length j ≤ prob a) := by
    intro rows
    unfold maskRanks
    rw [zipWith_flatten _ _ _ (mpiDraw_lengths _ _).symm, mpiDraw_flatten, zipWith_draws]
  refine ⟨_, key rows, ?_, ?_, fun j h => ?_⟩
  · rw [key]
    simp
  · unfold maskRanks
    rw [zipWith_lengths _ _ _ (mpiDraw_lengths _ _).symm]
  · rw [List.getElem?_mapIdx, List.getElem?_eq_getElem h]
    simp

/-- C123. Redshift errors drawn with a seed: same statement. -/
theorem C123_smear {β : Type} (ppf : ℝ → ℝ → β) (u : ℕ → ℕ → ℝ) (z : List (List ℝ)) :
    (smearRanks ppf u z).flatten = z.flatten.mapIdx (fun j x => ppf (u z.flatten.length j) x) ∧
      (smearRanks ppf u [z.flatten]).flatten = (smearRanks ppf u z).flatten ∧
      (smearRanks ppf u z).map List.length = z.map List.length := by
  have key : ∀ z : List (List ℝ), (smearRanks ppf u z).flatten = z.flatten.mapIdx (fun j x => ppf (u z.flatten.length j) x) := by
    intro z
    unfold smearRanks
    rw [zipWith_flatten _ _ _ (mpiDraw_lengths _ _).symm, mpiDraw_flatten, zipWith_draws]
  refine ⟨key z, by rw [key, key]; simp, ?_⟩
  unfold smearRanks
  rw [zipWith_lengths _ _ _ (mpiDraw_lengths _ _).symm]

/-- The positions of all ranks are those of `poissonSample` with the counts drawn, so that C40 and C105 hold for them. -/
theorem C123_sample (s : M.Fields) (hs : ∀ i, 0 ≤ M.cellMean s i) (ranks : List (List M.Idx)) (hr : Decomposition M ranks)
    (pois : List ℝ → ℕ → ℕ) (u : ℕ → ℕ → Fin 3 → ℝ) :
    ∃ out, M.poissonRanks s ranks pois u = .ok out ∧
      M.poissonSample s ranks (fun i => pois (means M s) (M.cellId i)) (u out.flatten.length) = .ok out.flatten := by
  obtain ⟨out, h, hf, -⟩ := C123_catalog M s hs ranks hr pois u
  refine ⟨out, h, ?_⟩
  have hl : out.flatten.length = (cells M (pois (means M s))).length := by
    rw [hf]
    simp [catalog]
  unfold Mesh.poissonSample
  rw [if_neg (by push Not; exact hs), hl, hf]
  congr 1
  have e := repeated_flatten M hr fun i => pois (means M s) (M.cellId i)
  have hcells : cells M (fun j => pois (means M s) (M.cellId (node M j))) = cells M (pois (means M s)) := by
    unfold cells
    refine List.flatMap_congr fun j hj => ?_
    simp only [cellId_node M (List.mem_range.1 hj)]
  rw [mpiSort_flatten, hcells, ← List.flatMap_def] at e
  unfold Mesh.mpsort
  rw [e]
  unfold catalog
  apply List.ext_getElem
  · simp
  · intro k h1 h2
    simp only [List.getElem_mapIdx, List.getElem_map]
    funext d
    unfold nodeAt Mesh.cellCorner Mesh.cell
    ring

/-- Two ranks that share the nodes of `mesh4` in any way, and one rank that holds them all: same catalog of two particles in every other
cell. -/
example (u : ℕ → ℕ → Fin 3 → ℝ) (a b : List mesh4.Idx) (h : (a ++ b).Perm (Finset.univ : Finset mesh4.Idx).toList) :
    ∃ out one, mesh4.poissonRanks ⟨fun _ => 0, .inl 1, fun _ _ => 0⟩ [a, b] (fun _ j => 2 * (j % 2)) u = .ok out ∧
      mesh4.poissonRanks ⟨fun _ => 0, .inl 1, fun _ _ => 0⟩ [(Finset.univ : Finset mesh4.Idx).toList] (fun _ j => 2 * (j % 2)) u =
        .ok one ∧ out.flatten = one.flatten ∧ out.length = 2 := by
  have hs : ∀ i, 0 ≤ mesh4.cellMean ⟨fun _ => 0, .inl 1, fun _ _ => 0⟩ i := fun i => by
    unfold Mesh.cellMean Mesh.dv Mesh.cell Mesh.Fields.nbarAt
    simp [mesh4]
    norm_num
  obtain ⟨out, h1, f1, l1⟩ := C123_catalog mesh4 _ hs [a, b] (by unfold Decomposition; simpa using h) (fun _ j => 2 * (j % 2)) u
  obtain ⟨one, h2, f2, -⟩ := C123_catalog mesh4 _ hs [(Finset.univ : Finset mesh4.Idx).toList] (by unfold Decomposition; simp)
    (fun _ j => 2 * (j % 2)) u
  exact ⟨out, one, h1, h2, f1.trans f2.symm, by simpa using congrArg List.length l1⟩

/-- Three rows on two ranks: the third one has the third draw. -/
example : (maskRanks (fun x : ℝ => x) (fun _ j => j) [[1, 1], [1]]).flatten = [true, true, false] := by
  obtain ⟨keep, h1, -, -, h4⟩ := C123_mask (fun x : ℝ => x) (fun _ j => j) [[1, 1], [1]]
  have hl : keep.length = 3 := by
    rw [← h1]
    simp [maskRanks, mpiDraw]
  match keep, hl, h1, h4 with
  | [a, b, c], _, h1, h4 =>
    have e0 := h4 0 (by simp)
    have e1 := h4 1 (by simp)
    have e2 := h4 2 (by simp)
    simp at e0 e1 e2
    rw [h1, e0, e1]
    cases c
    · rfl
    · simp at e2

end main

end Verif.Props.PoissonRanks
