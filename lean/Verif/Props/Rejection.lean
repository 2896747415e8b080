import Verif.Spec.Draws
import Verif.Props.Sampling
import Verif.Props.Chance
import Mathlib.Probability.BorelCantelli
import Mathlib.Data.List.ProdSigma

/-!
# C101: the law of points sampled from masks

Candidates are drawn, and those that the mask keeps are returned, round after round. With independent candidates and decisions, this
ends with probability one, and the points returned are independent, each following the law of a candidate that is kept.
-/

namespace Verif.Props.Rejection

open Verif Verif.Model Verif.Spec Verif.Props MeasureTheory ProbabilityTheory
open scoped ENNReal

/-- Rounds and numbers of the candidates, in the order in which all ranks hold them. -/
def grid (sizes : List ℕ) (n : ℕ) : List (ℕ × ℕ) :=
  (List.range sizes.length).flatMap fun r => (List.range n).flatMap fun t =>
    (List.range (sizes.getD r 0)).map fun i => (t, (sizes.take r).sum + i)

theorem pool_eq {α : Type} (cand : ℕ → ℕ → α) (acc : ℕ → ℕ → Bool) (sizes : List ℕ) (n : ℕ) :
    pool cand acc sizes n = ((grid sizes n).filter fun s => acc s.1 s.2).map fun s => cand s.1 s.2 := by
  unfold pool grid held accepted
  simp only [List.filter_flatMap, List.map_flatMap, List.filter_map, List.map_map, Function.comp_def]

theorem grid_perm (sizes : List ℕ) (n : ℕ) : (grid sizes n).Perm (List.range n ×ˢ List.range sizes.sum) := by
  have h := pool_perm (fun t i => (t, i)) (fun _ _ => true) sizes n
  rw [pool_eq] at h
  simpa [SProd.sprod, List.product] using h

theorem grid_nodup (sizes : List ℕ) (n : ℕ) : (grid sizes n).Nodup :=
  (grid_perm sizes n).nodup_iff.2 (List.nodup_range.product List.nodup_range)

theorem mem_grid {sizes : List ℕ} {n : ℕ} {s : ℕ × ℕ} : s ∈ grid sizes n ↔ s.1 < n ∧ s.2 < sizes.sum := by
  rw [(grid_perm sizes n).mem_iff]
  obtain ⟨t, i⟩ := s
  simp

theorem heldTotal_grid {α : Type} (cand : ℕ → ℕ → α) (acc : ℕ → ℕ → Bool) (sizes : List ℕ) (n : ℕ) :
    heldTotal cand acc sizes n = ((grid sizes n).filter fun s => acc s.1 s.2).length := by
  rw [← length_pool, pool_eq, List.length_map]

/-- The loop ends after `n` rounds, when the decisions are `b`. -/
def Stops (b : ℕ × ℕ → Bool) (sizes : List ℕ) (n : ℕ) : Prop :=
  sizes.sum ≤ ((grid sizes n).filter b).length ∧ ∀ m < n, ((grid sizes m).filter b).length < sizes.sum

theorem stopsAfter_iff {α : Type} (cand : ℕ → ℕ → α) (acc : ℕ → ℕ → Bool) (sizes : List ℕ) (n : ℕ) :
    StopsAfter cand acc sizes n ↔ Stops (fun s => acc s.1 s.2) sizes n := by
  simp only [StopsAfter, Stops, heldTotal_grid]

theorem stops_congr {b b' : ℕ × ℕ → Bool} {sizes : List ℕ} {n : ℕ} (h : ∀ s ∈ grid sizes n, b s = b' s) :
    Stops b sizes n ↔ Stops b' sizes n := by
  have hm : ∀ m ≤ n, (grid sizes m).filter b = (grid sizes m).filter b' := by
    intro m hmn
    apply List.filter_congr
    intro s hs
    rw [mem_grid] at hs
    exact h s (mem_grid.2 ⟨by omega, hs.2⟩)
  unfold Stops
  rw [hm n le_rfl]
  exact and_congr_right fun _ => forall₂_congr fun m hmn => by rw [hm m (Nat.le_of_lt hmn)]

/-- Rounds and numbers of the points returned, when the candidates that are kept are those in `B`. -/
def outSlots (sizes : List ℕ) (n : ℕ) (B : Finset (ℕ × ℕ)) : List (ℕ × ℕ) :=
  ((grid sizes n).filter fun s => decide (s ∈ B)).take sizes.sum

variable {Ω : Type*} [MeasurableSpace Ω] {μ : Measure Ω} {α : Type} [MeasurableSpace α]

/-- What the `k`-th points being in `A k` requires of candidate `s`, when the candidates that are kept are those in `B`. -/
def required (A : ℕ → Set α) (sizes : List ℕ) (n : ℕ) (B : Finset (ℕ × ℕ)) (s : ℕ × ℕ) : Set (α × Bool) :=
  (if s ∈ outSlots sizes n B then A ((outSlots sizes n B).idxOf s) else Set.univ) ×ˢ {decide (s ∈ B)}

/-- The points returned are in the given sets. -/
def AllIn {α : Type} (cand : ℕ → ℕ → α) (acc : ℕ → ℕ → Bool) (sizes : List ℕ) (A : ℕ → Set α) (n : ℕ) : Prop :=
  StopsAfter cand acc sizes n ∧ ∃ out, sampleResult cand acc sizes n = .ok out ∧
    ∀ k < sizes.sum, ∃ x, out.flatten[k]? = some x ∧ x ∈ A k

omit [MeasurableSpace α] in
theorem pool_take {cand : ℕ → ℕ → α} {acc : ℕ → ℕ → Bool} {sizes : List ℕ} {n : ℕ} {B : Finset (ℕ × ℕ)}
    (hB : ∀ s ∈ grid sizes n, acc s.1 s.2 = decide (s ∈ B)) :
    (pool cand acc sizes n).take sizes.sum = (outSlots sizes n B).map fun s => cand s.1 s.2 := by
  rw [pool_eq, outSlots, ← List.map_take, List.filter_congr hB]

omit [MeasurableSpace α] in
theorem allIn_iff {cand : ℕ → ℕ → α} {acc : ℕ → ℕ → Bool} {sizes : List ℕ} (hs : 0 < sizes.sum) (A : ℕ → Set α) {n : ℕ}
    {B : Finset (ℕ × ℕ)} (hBG : B ⊆ (grid sizes n).toFinset) :
    (Stops (fun s => decide (s ∈ B)) sizes n ∧ ∀ s ∈ grid sizes n, (cand s.1 s.2, acc s.1 s.2) ∈ required A sizes n B s) ↔
      AllIn cand acc sizes A n ∧ B = (grid sizes n).toFinset.filter fun s => acc s.1 s.2 = true := by
  have hnd : (outSlots sizes n B).Nodup := ((grid_nodup sizes n).filter _).sublist (List.take_sublist _ _)
  have hsub : ∀ s ∈ outSlots sizes n B, s ∈ grid sizes n := fun s h => List.mem_of_mem_filter (List.mem_of_mem_take h)
  constructor
  · rintro ⟨h1, h2⟩
    have hB : ∀ s ∈ grid sizes n, acc s.1 s.2 = decide (s ∈ B) := fun s hs => (h2 s hs).2
    have hst : StopsAfter cand acc sizes n := (stopsAfter_iff _ _ _ _).2 ((stops_congr hB).2 h1)
    refine ⟨⟨hst, ?_⟩, ?_⟩
    · obtain ⟨out, ho, -⟩ := C30_size_partial cand acc sizes n hs hst
      refine ⟨out, ho, fun k hk => ?_⟩
      rw [sampleResult_flatten cand acc ho, pool_take hB]
      have hlen : k < (outSlots sizes n B).length := by
        rw [outSlots, List.length_take]
        exact lt_min hk (lt_of_lt_of_le hk h1.1)
      refine ⟨cand (outSlots sizes n B)[k].1 (outSlots sizes n B)[k].2, by simp [hlen], ?_⟩
      have hm : (outSlots sizes n B)[k] ∈ outSlots sizes n B := List.getElem_mem hlen
      have := (h2 _ (hsub _ hm)).1
      rw [if_pos hm, hnd.idxOf_getElem] at this
      exact this
    · ext s
      rw [Finset.mem_filter, List.mem_toFinset]
      constructor
      · intro h
        have := List.mem_toFinset.1 (hBG h)
        exact ⟨this, by simp [hB s this, h]⟩
      · rintro ⟨h, h'⟩
        rw [hB s h] at h'
        exact of_decide_eq_true h'
  · rintro ⟨⟨hst, out, ho, hA⟩, hBe⟩
    have hB : ∀ s ∈ grid sizes n, acc s.1 s.2 = decide (s ∈ B) := by
      intro s hs
      rw [hBe, Bool.eq_iff_iff]
      simp [hs]
    refine ⟨(stops_congr hB).1 ((stopsAfter_iff _ _ _ _).1 hst), fun s hs => ⟨?_, hB s hs⟩⟩
    change cand s.1 s.2 ∈ if s ∈ outSlots sizes n B then A ((outSlots sizes n B).idxOf s) else Set.univ
    split
    · rename_i hm
      have hk : (outSlots sizes n B).idxOf s < (outSlots sizes n B).length := List.idxOf_lt_length_iff.2 hm
      have hk' : (outSlots sizes n B).idxOf s < sizes.sum := lt_of_lt_of_le hk (by rw [outSlots]; exact List.length_take_le _ _)
      obtain ⟨x, hx, hxA⟩ := hA _ hk'
      rw [sampleResult_flatten cand acc ho, pool_take hB, List.getElem?_map, List.getElem?_eq_getElem hk,
        List.getElem_idxOf hk] at hx
      simp only [Option.map_some, Option.some.injEq] at hx
      rw [hx]
      exact hxA
    · trivial

/-- The law of a candidate that is kept. -/
noncomputable def keptLaw (law : Measure (α × Bool)) (S : Set α) : ℝ≥0∞ := law (S ×ˢ {true}) / law (Set.univ ×ˢ {true})

theorem prod_required {law : Measure (α × Bool)} [IsFiniteMeasure law] (hpos : law (Set.univ ×ˢ {true}) ≠ 0) (A : ℕ → Set α)
    {sizes : List ℕ} {n : ℕ} {B : Finset (ℕ × ℕ)} (hst : Stops (fun s => decide (s ∈ B)) sizes n) :
    ∏ s ∈ (grid sizes n).toFinset, law (required A sizes n B s) =
      (∏ s ∈ (grid sizes n).toFinset, law (Set.univ ×ˢ {decide (s ∈ B)})) * ∏ k ∈ Finset.range sizes.sum, keptLaw law (A k) := by
  have hnd : (outSlots sizes n B).Nodup := ((grid_nodup sizes n).filter _).sublist (List.take_sublist _ _)
  have hlen : (outSlots sizes n B).length = sizes.sum := by
    rw [outSlots, List.length_take]
    exact min_eq_left hst.1
  have hone : ∀ s, law (required A sizes n B s) = law (Set.univ ×ˢ {decide (s ∈ B)}) *
      if s ∈ outSlots sizes n B then keptLaw law (A ((outSlots sizes n B).idxOf s)) else 1 := by
    intro s
    unfold required
    split
    · rename_i h
      have hB : s ∈ B := of_decide_eq_true (List.mem_filter.1 (List.mem_of_mem_take h)).2
      simp only [hB, decide_true]
      rw [keptLaw, ENNReal.mul_div_cancel hpos (measure_ne_top _ _)]
    · rw [mul_one]
  simp only [hone]
  rw [Finset.prod_mul_distrib]
  congr 1
  rw [Finset.prod_ite, Finset.prod_const_one, mul_one]
  have hf : (grid sizes n).toFinset.filter (fun s => s ∈ outSlots sizes n B) = (outSlots sizes n B).toFinset := by
    ext s
    rw [Finset.mem_filter, List.mem_toFinset, List.mem_toFinset]
    exact ⟨fun h => h.2, fun h => ⟨List.mem_of_mem_filter (List.mem_of_mem_take h), h⟩⟩
  rw [hf, List.prod_toFinset _ hnd, ← hlen, Finset.prod_range fun k => keptLaw law (A k), ← List.prod_ofFn]
  congr 1
  apply List.ext_getElem
  · simp
  · intro k h1 h2
    simp [hnd.idxOf_getElem]

variable {cand : ℕ → ℕ → Ω → α} {acc : ℕ → ℕ → Ω → Bool} {law : Measure (α × Bool)}

open Classical in
theorem round [IsFiniteMeasure law] (h : AreDraws μ (fun (s : ℕ × ℕ) ω => (cand s.1 s.2 ω, acc s.1 s.2 ω)) law)
    (hpos : law (Set.univ ×ˢ {true}) ≠ 0) {sizes : List ℕ} (hs : 0 < sizes.sum) {A : ℕ → Set α} (hA : ∀ k, MeasurableSet (A k)) (n : ℕ) :
    MeasurableSet {ω | AllIn (fun t i => cand t i ω) (fun t i => acc t i ω) sizes A n} ∧
    μ {ω | AllIn (fun t i => cand t i ω) (fun t i => acc t i ω) sizes A n} =
      (∑ B ∈ (grid sizes n).toFinset.powerset.filter fun B => Stops (fun s => decide (s ∈ B)) sizes n,
        ∏ s ∈ (grid sizes n).toFinset, law (Set.univ ×ˢ {decide (s ∈ B)})) * ∏ k ∈ Finset.range sizes.sum, keptLaw law (A k) := by
  have hreq : ∀ B s, MeasurableSet (required A sizes n B s) := by
    intro B s
    unfold required
    refine MeasurableSet.prod ?_ (measurableSet_singleton _)
    split
    · exact hA _
    · exact MeasurableSet.univ
  set X : ℕ × ℕ → Ω → α × Bool := fun s ω => (cand s.1 s.2 ω, acc s.1 s.2 ω) with hX
  set E : Finset (ℕ × ℕ) → Set Ω := fun B => ⋂ s ∈ (grid sizes n).toFinset, X s ⁻¹' required A sizes n B s with hE
  have hmemE : ∀ B ω, ω ∈ E B ↔ ∀ s ∈ grid sizes n, (cand s.1 s.2 ω, acc s.1 s.2 ω) ∈ required A sizes n B s := by
    intro B ω
    simp [E, X]
  have hmE : ∀ B, MeasurableSet (E B) := fun B =>
    Finset.measurableSet_biInter _ fun s _ => h.measurable s (hreq B s)
  have hset : {ω | AllIn (fun t i => cand t i ω) (fun t i => acc t i ω) sizes A n} =
      ⋃ B ∈ (grid sizes n).toFinset.powerset.filter fun B => Stops (fun s => decide (s ∈ B)) sizes n, E B := by
    ext ω
    simp only [Set.mem_ofPred_eq, Set.mem_iUnion, exists_prop, Finset.mem_filter, Finset.mem_powerset]
    constructor
    · intro hω
      have hsub : (grid sizes n).toFinset.filter (fun s => acc s.1 s.2 ω = true) ⊆ (grid sizes n).toFinset := Finset.filter_subset _ _
      have := (allIn_iff (cand := fun t i => cand t i ω) (acc := fun t i => acc t i ω) hs A hsub).2 ⟨hω, rfl⟩
      exact ⟨_, ⟨hsub, this.1⟩, (hmemE _ _).2 this.2⟩
    · rintro ⟨B, ⟨hsub, hst⟩, hω⟩
      exact ((allIn_iff (cand := fun t i => cand t i ω) (acc := fun t i => acc t i ω) hs A hsub).1 ⟨hst, (hmemE _ _).1 hω⟩).1
  have hdisj : Set.PairwiseDisjoint (((grid sizes n).toFinset.powerset.filter fun B => Stops (fun s => decide (s ∈ B)) sizes n :
      Finset (Finset (ℕ × ℕ))) : Set (Finset (ℕ × ℕ))) E := by
    intro B hB B' hB' hne
    rw [Function.onFun, Set.disjoint_left]
    intro ω h1 h2
    apply hne
    simp only [Finset.coe_filter, Finset.mem_powerset, Set.mem_ofPred_eq] at hB hB'
    rw [((allIn_iff (cand := fun t i => cand t i ω) (acc := fun t i => acc t i ω) hs A hB.1).1 ⟨hB.2, (hmemE _ _).1 h1⟩).2,
      ((allIn_iff (cand := fun t i => cand t i ω) (acc := fun t i => acc t i ω) hs A hB'.1).1 ⟨hB'.2, (hmemE _ _).1 h2⟩).2]
  refine ⟨?_, ?_⟩
  · rw [hset]
    exact Finset.measurableSet_biUnion _ fun B _ => hmE B
  · rw [hset, measure_biUnion_finset hdisj fun B _ => hmE B, Finset.sum_mul]
    apply Finset.sum_congr rfl
    intro B hB
    rw [Finset.mem_filter] at hB
    rw [← prod_required hpos A hB.2]
    rw [hE]
    simp only
    rw [(iIndepFun_iff_measure_inter_preimage_eq_mul.1 h.independent) (grid sizes n).toFinset fun s _ => hreq B s]
    exact Finset.prod_congr rfl fun s _ => h.chance s _ (hreq B s)

theorem enough {acc : ℕ → ℕ → Bool} {N : ℕ} (hN : 0 < N) (h : ∀ a, ∃ b ≥ a, acc b 0 = true) (K : ℕ) :
    ∃ n, K ≤ ((List.range n).map fun t => ((List.range N).filter fun i => acc t i).length).sum := by
  have hstep : ∀ n, ((List.range (n + 1)).map fun t => ((List.range N).filter fun i => acc t i).length).sum =
      ((List.range n).map fun t => ((List.range N).filter fun i => acc t i).length).sum +
        ((List.range N).filter fun i => acc n i).length := by
    intro n
    simp [List.range_succ]
  have hmono : Monotone fun n => ((List.range n).map fun t => ((List.range N).filter fun i => acc t i).length).sum :=
    monotone_nat_of_le_succ fun n => by rw [hstep]; omega
  induction K with
  | zero => exact ⟨0, by simp⟩
  | succ K ih =>
    obtain ⟨n, hn⟩ := ih
    obtain ⟨b, hb, ha⟩ := h n
    refine ⟨b + 1, ?_⟩
    have h1 : 0 < ((List.range N).filter fun i => acc b i).length :=
      List.length_pos_of_mem (List.mem_filter.2 ⟨List.mem_range.2 hN, ha⟩)
    have h2 := hmono hb
    rw [hstep]
    simp only at h2
    omega

/-- C101. When a candidate is kept with some probability, sampling ends, with probability one, for any number of ranks. -/
theorem C101_ends [IsProbabilityMeasure μ] (h : AreDraws μ (fun (s : ℕ × ℕ) ω => (cand s.1 s.2 ω, acc s.1 s.2 ω)) law)
    (hpos : law (Set.univ ×ˢ {true}) ≠ 0) (sizes : List ℕ) :
    ∀ᵐ ω ∂μ, ∃ n, StopsAfter (fun t i => cand t i ω) (fun t i => acc t i ω) sizes n := by
  rcases Nat.eq_zero_or_pos sizes.sum with h0 | hs
  · filter_upwards with ω
    exact ⟨0, by simp [StopsAfter, h0]⟩
  have hms : ∀ n, MeasurableSet {ω | acc n 0 ω = true} := fun n =>
    (h.measurable (n, 0)) (MeasurableSet.univ.prod (measurableSet_singleton true)) |> fun h => by
      convert h using 1
      ext ω; simp
  have hP : ∀ n, μ {ω | acc n 0 ω = true} = law (Set.univ ×ˢ {true}) := fun n => by
    rw [← h.chance (n, 0) _ (MeasurableSet.univ.prod (measurableSet_singleton true))]
    congr 1
    ext ω; simp
  have hind : iIndepSet (fun n => {ω | acc n 0 ω = true}) μ := by
    have h1 : iIndepFun (fun (n : ℕ) ω => acc n 0 ω) μ := by
      have := h.independent.precomp (g := fun n : ℕ => (n, 0)) (fun a b hab => by simpa using hab)
      exact this.comp (fun _ p => p.2) fun _ => measurable_snd
    rw [iIndepSet_iff_meas_biInter hms]
    intro S
    have := (iIndepFun_iff_measure_inter_preimage_eq_mul.1 h1) S (sets := fun _ => {true}) fun _ _ => measurableSet_singleton _
    simpa [Set.preimage] using this
  have hlim := measure_limsup_eq_one hms hind (by simp only [hP]; exact ENNReal.tsum_const_eq_top_of_ne_zero hpos)
  have hae : ∀ᵐ ω ∂μ, ω ∈ Filter.limsup (fun n => {ω | acc n 0 ω = true}) Filter.atTop := by
    rw [← mem_ae_iff_prob_eq_one] at hlim
    · exact hlim
    · exact MeasurableSet.measurableSet_limsup hms
  filter_upwards [hae] with ω hω
  rw [Filter.mem_limsup_iff_frequently_mem, Filter.frequently_atTop] at hω
  rw [C30_stops_iff]
  exact enough (acc := fun t i => acc t i ω) hs hω sizes.sum

/-- C101. The points returned are independent of each other, and each follows the law of a candidate that is kept: the chance that the
first point, over all ranks in order, lies in `A 0`, the second one in `A 1` and so on is the product of the chances that a candidate
that is kept does. -/
theorem C101_law [IsProbabilityMeasure μ] [IsFiniteMeasure law]
    (h : AreDraws μ (fun (s : ℕ × ℕ) ω => (cand s.1 s.2 ω, acc s.1 s.2 ω)) law) (hpos : law (Set.univ ×ˢ {true}) ≠ 0)
    {sizes : List ℕ} (hs : 0 < sizes.sum) {A : ℕ → Set α} (hA : ∀ k, MeasurableSet (A k)) :
    μ {ω | ∃ n out, StopsAfter (fun t i => cand t i ω) (fun t i => acc t i ω) sizes n ∧
        sampleResult (fun t i => cand t i ω) (fun t i => acc t i ω) sizes n = .ok out ∧
        ∀ k < sizes.sum, ∃ x, out.flatten[k]? = some x ∧ x ∈ A k} =
      ∏ k ∈ Finset.range sizes.sum, law (A k ×ˢ {true}) / law (Set.univ ×ˢ {true}) := by
  classical
  have hset : ∀ A : ℕ → Set α, {ω | ∃ n out, StopsAfter (fun t i => cand t i ω) (fun t i => acc t i ω) sizes n ∧
        sampleResult (fun t i => cand t i ω) (fun t i => acc t i ω) sizes n = .ok out ∧
        ∀ k < sizes.sum, ∃ x, out.flatten[k]? = some x ∧ x ∈ A k} =
      ⋃ n, {ω | AllIn (fun t i => cand t i ω) (fun t i => acc t i ω) sizes A n} := by
    intro A
    ext ω
    simp [AllIn]
  have hsum : ∀ A : ℕ → Set α, (∀ k, MeasurableSet (A k)) →
      μ (⋃ n, {ω | AllIn (fun t i => cand t i ω) (fun t i => acc t i ω) sizes A n}) =
        (∑' n, ∑ B ∈ (grid sizes n).toFinset.powerset.filter fun B => Stops (fun s => decide (s ∈ B)) sizes n,
          ∏ s ∈ (grid sizes n).toFinset, law (Set.univ ×ˢ {decide (s ∈ B)})) * ∏ k ∈ Finset.range sizes.sum, keptLaw law (A k) := by
    intro A hA
    rw [measure_iUnion _ fun n => (round h hpos hs hA n).1]
    · simp only [(round h hpos hs hA _).2]
      rw [ENNReal.tsum_mul_right]
    · intro n m hnm
      rw [Function.onFun, Set.disjoint_left]
      intro ω h1 h2
      exact hnm (C30_stops_unique _ _ h1.1 h2.1)
  have hall := hsum (fun _ => Set.univ) fun _ => MeasurableSet.univ
  have hone : μ (⋃ n, {ω | AllIn (fun t i => cand t i ω) (fun t i => acc t i ω) sizes (fun _ => Set.univ) n}) = 1 := by
    have hm : MeasurableSet (⋃ n, {ω | AllIn (fun t i => cand t i ω) (fun t i => acc t i ω) sizes (fun _ => Set.univ) n}) :=
      MeasurableSet.iUnion fun n => (round h hpos hs (fun _ => MeasurableSet.univ) n).1
    rw [← mem_ae_iff_prob_eq_one hm]
    filter_upwards [C101_ends h hpos sizes] with ω hω
    obtain ⟨n, hn⟩ := hω
    obtain ⟨out, ho, hl⟩ := C30_size_partial _ _ sizes n hs hn
    refine Set.mem_iUnion.2 ⟨n, hn, out, ho, fun k hk => ?_⟩
    have : k < out.flatten.length := by rw [List.length_flatten, hl]; exact hk
    exact ⟨_, List.getElem?_eq_getElem this, trivial⟩
  rw [hone] at hall
  have hk1 : keptLaw law Set.univ = 1 := ENNReal.div_self hpos (measure_ne_top _ _)
  simp only [hk1, Finset.prod_const_one, mul_one] at hall
  rw [hset, hsum A hA, ← hall, one_mul]
  rfl

/-! ## Masks -/

open Classical in
theorem measurable_decide {p : α → ℝ} (hp : Measurable p) : Measurable fun x : α × ℝ => (x.1, decide (x.2 ≤ p x.1)) := by
  refine measurable_fst.prodMk ?_
  refine measurable_to_bool ?_
  have : (fun x : α × ℝ => decide (x.2 ≤ p x.1)) ⁻¹' {true} = {x | x.2 ≤ p x.1} := by ext; simp
  rw [this]
  exact measurableSet_le measurable_snd (hp.comp measurable_fst)

open Classical in
/-- The chance that a candidate of law `κ` lies in `A` and is kept. -/
theorem kept_apply {κ : Measure α} [IsProbabilityMeasure κ] {p : α → ℝ} (hp : Measurable p) {A : Set α} (hA : MeasurableSet A) :
    ((κ.prod unitLaw).map fun x : α × ℝ => (x.1, decide (x.2 ≤ p x.1))) (A ×ˢ {true}) =
      ∫⁻ x in A, ENNReal.ofReal (max 0 (min (p x) 1)) ∂κ := by
  have hm : MeasurableSet ((fun x : α × ℝ => (x.1, decide (x.2 ≤ p x.1))) ⁻¹' (A ×ˢ {true})) :=
    measurable_decide hp (hA.prod (measurableSet_singleton _))
  rw [Measure.map_apply (measurable_decide hp) (hA.prod (measurableSet_singleton _)), Measure.prod_apply hm,
    ← lintegral_indicator hA]
  apply lintegral_congr
  intro x
  by_cases hx : x ∈ A
  · have hset : Prod.mk x ⁻¹' ((fun x : α × ℝ => (x.1, decide (x.2 ≤ p x.1))) ⁻¹' (A ×ˢ {true})) = {u : ℝ | u ≤ p x} := by
      ext u; simp [hx]
    rw [hset, Set.indicator_of_mem hx]
    have hid : IsUniform unitLaw (fun u : ℝ => u) := isUniform_iff.2 ⟨measurable_id, Measure.map_id⟩
    exact Chance.uniform_le hid (p x)
  · have hset : Prod.mk x ⁻¹' ((fun x : α × ℝ => (x.1, decide (x.2 ≤ p x.1))) ⁻¹' (A ×ˢ {true})) = ∅ := by
      ext u; simp [hx]
    rw [hset, Set.indicator_of_notMem hx, measure_empty]

open Classical in
/-- C101, for a mask of probability `p`: candidates of law `κ`, each kept when a uniform draw, independent of it, is not above its
probability. If the mask keeps anything at all, sampling ends with probability one. -/
theorem C101_mask_ends [IsProbabilityMeasure μ] {κ : Measure α} [IsProbabilityMeasure κ] {X : ℕ × ℕ → Ω → α × ℝ}
    (h : AreDraws μ X (κ.prod unitLaw)) {p : α → ℝ} (hp : Measurable p) (hpos : ∫⁻ x, ENNReal.ofReal (max 0 (min (p x) 1)) ∂κ ≠ 0)
    (sizes : List ℕ) :
    ∀ᵐ ω ∂μ, ∃ n, StopsAfter (fun t i => (X (t, i) ω).1) (fun t i => decide ((X (t, i) ω).2 ≤ p (X (t, i) ω).1)) sizes n := by
  refine C101_ends (h.comp (measurable_decide hp)) ?_ sizes
  rwa [kept_apply hp MeasurableSet.univ, setLIntegral_univ]

open Classical in
/-- C101, for a mask of probability `p`: the points returned are independent, and distributed as the candidates weighted with the
probability of the mask. -/
theorem C101_mask_law [IsProbabilityMeasure μ] {κ : Measure α} [IsProbabilityMeasure κ] {X : ℕ × ℕ → Ω → α × ℝ}
    (h : AreDraws μ X (κ.prod unitLaw)) {p : α → ℝ} (hp : Measurable p) (hpos : ∫⁻ x, ENNReal.ofReal (max 0 (min (p x) 1)) ∂κ ≠ 0)
    {sizes : List ℕ} (hs : 0 < sizes.sum) {A : ℕ → Set α} (hA : ∀ k, MeasurableSet (A k)) :
    μ {ω | ∃ n out, StopsAfter (fun t i => (X (t, i) ω).1) (fun t i => decide ((X (t, i) ω).2 ≤ p (X (t, i) ω).1)) sizes n ∧
        sampleResult (fun t i => (X (t, i) ω).1) (fun t i => decide ((X (t, i) ω).2 ≤ p (X (t, i) ω).1)) sizes n = .ok out ∧
        ∀ k < sizes.sum, ∃ x, out.flatten[k]? = some x ∧ x ∈ A k} =
      ∏ k ∈ Finset.range sizes.sum, (∫⁻ x in A k, ENNReal.ofReal (max 0 (min (p x) 1)) ∂κ) /
        ∫⁻ x, ENNReal.ofReal (max 0 (min (p x) 1)) ∂κ := by
  have hd := h.comp (measurable_decide hp)
  have : IsFiniteMeasure ((κ.prod unitLaw).map fun x : α × ℝ => (x.1, decide (x.2 ≤ p x.1))) := inferInstance
  have := C101_law (cand := fun t i ω => (X (t, i) ω).1) (acc := fun t i ω => decide ((X (t, i) ω).2 ≤ p (X (t, i) ω).1)) hd
    (by rwa [kept_apply hp MeasurableSet.univ, setLIntegral_univ]) hs hA
  simp only [kept_apply hp (hA _), kept_apply hp MeasurableSet.univ, setLIntegral_univ] at this
  exact this

open Classical in
/-- C101: the law of one point. -/
theorem C101_point [IsProbabilityMeasure μ] {κ : Measure α} [IsProbabilityMeasure κ] {X : ℕ × ℕ → Ω → α × ℝ}
    (h : AreDraws μ X (κ.prod unitLaw)) {p : α → ℝ} (hp : Measurable p) (hpos : ∫⁻ x, ENNReal.ofReal (max 0 (min (p x) 1)) ∂κ ≠ 0)
    {sizes : List ℕ} {k : ℕ} (hk : k < sizes.sum) {A : Set α} (hA : MeasurableSet A) :
    μ {ω | ∃ n out, StopsAfter (fun t i => (X (t, i) ω).1) (fun t i => decide ((X (t, i) ω).2 ≤ p (X (t, i) ω).1)) sizes n ∧
        sampleResult (fun t i => (X (t, i) ω).1) (fun t i => decide ((X (t, i) ω).2 ≤ p (X (t, i) ω).1)) sizes n = .ok out ∧
        ∃ x, out.flatten[k]? = some x ∧ x ∈ A} =
      (∫⁻ x in A, ENNReal.ofReal (max 0 (min (p x) 1)) ∂κ) / ∫⁻ x, ENNReal.ofReal (max 0 (min (p x) 1)) ∂κ := by
  have hs : 0 < sizes.sum := by omega
  have := C101_mask_law h hp hpos hs (A := fun j => if j = k then A else Set.univ) fun j => by
    split
    · exact hA
    · exact MeasurableSet.univ
  have hfin : ∫⁻ x, ENNReal.ofReal (max 0 (min (p x) 1)) ∂κ ≠ ∞ := by
    refine ne_of_lt (lt_of_le_of_lt (lintegral_mono (g := fun _ => 1) fun x => ?_) (by simp))
    simp
  rw [Finset.prod_eq_single k] at this
  · simp only [if_true] at this
    rw [← this]
    congr 1
    ext ω
    simp only [Set.mem_ofPred_eq]
    constructor
    · rintro ⟨n, out, hst, ho, x, hx, hxA⟩
      refine ⟨n, out, hst, ho, fun j hj => ?_⟩
      by_cases hjk : j = k
      · subst hjk
        exact ⟨x, hx, by simpa using hxA⟩
      · obtain ⟨out', ho', hl⟩ := C30_size_partial _ _ sizes n hs hst
        rw [ho] at ho'
        cases ho'
        have : j < out.flatten.length := by rw [List.length_flatten, hl]; exact hj
        exact ⟨_, List.getElem?_eq_getElem this, by simp [hjk]⟩
    · rintro ⟨n, out, hst, ho, hall⟩
      obtain ⟨x, hx, hxA⟩ := hall k hk
      exact ⟨n, out, hst, ho, x, hx, by simpa using hxA⟩
  · intro j _ hj
    simp only [hj, if_false, setLIntegral_univ]
    exact ENNReal.div_self hpos hfin
  · intro hn
    exact absurd (Finset.mem_range.2 hk) hn

open Classical in
/-- C101, not vacuous: a mask that keeps candidates of a uniform law with probability equal to their value. -/
example : ∃ (Ω : Type) (_ : MeasurableSpace Ω) (μ : Measure Ω) (_ : IsProbabilityMeasure μ) (X : ℕ × ℕ → Ω → ℝ × ℝ),
    AreDraws μ X (unitLaw.prod unitLaw) ∧ ∫⁻ x, ENNReal.ofReal (max 0 (min x 1)) ∂unitLaw ≠ 0 := by
  obtain ⟨Ω, i1, μ, i2, X, hX⟩ := exists_areDraws (ℕ × ℕ) (unitLaw.prod unitLaw)
  refine ⟨Ω, i1, μ, i2, X, hX, ?_⟩
  rw [Ne, lintegral_eq_zero_iff (by fun_prop)]
  intro h
  rw [Filter.EventuallyEq, ae_iff] at h
  have : unitLaw (Set.Ioo 0 1) = 0 := by
    refine measure_mono_null ?_ h
    intro x hx
    simp only [Set.mem_ofPred_eq, Pi.zero_apply, ENNReal.ofReal_eq_zero, not_le]
    exact lt_max_of_lt_right (lt_min hx.1 one_pos)
  rw [unitLaw, Measure.restrict_apply measurableSet_Ioo, Set.inter_eq_left.2 Set.Ioo_subset_Ico_self] at this
  simp at this

end Verif.Props.Rejection
