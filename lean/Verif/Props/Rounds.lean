import Verif.Props.Rejection

/-!
# C136: number of rounds of sampling

Each round of `sample` draws as many candidates as points requested. When a candidate is kept with probability `p`, there are between `1 / p` and
`2 / p` rounds on average.
-/

namespace Verif.Props.Rounds

open Verif Verif.Model Verif.Spec Verif.Props Verif.Props.Rejection MeasureTheory ProbabilityTheory
open scoped ENNReal

/-! ### Sums that stop -/

/-- Terms before `N` is reached. -/
def before (c : ℕ → ℕ) (N k : ℕ) : ℕ := if ∑ t ∈ Finset.range k, c t < N then c k else 0

theorem before_le {c : ℕ → ℕ} {N : ℕ} (hN : 0 < N) (hc : ∀ t, c t ≤ N) (K : ℕ) :
    ∑ k ∈ Finset.range K, before c N k ≤ ∑ t ∈ Finset.range K, c t ∧ ∑ k ∈ Finset.range K, before c N k ≤ 2 * N - 1 := by
  induction K with
  | zero => simp
  | succ K ih =>
    rw [Finset.sum_range_succ, Finset.sum_range_succ]
    unfold before at *
    have := hc K
    split_ifs with h
    · constructor <;> omega
    · constructor <;> omega

theorem le_before {c : ℕ → ℕ} {N : ℕ} (K : ℕ) : min (∑ t ∈ Finset.range K, c t) N ≤ ∑ k ∈ Finset.range K, before c N k := by
  induction K with
  | zero => simp
  | succ K ih =>
    rw [Finset.sum_range_succ, Finset.sum_range_succ]
    unfold before at *
    split_ifs with h
    · rw [min_eq_left h.le] at ih
      exact (min_le_left _ _).trans (by omega)
    · rw [min_eq_right (not_lt.1 h)] at ih
      exact (min_le_right _ _).trans (by omega)

/-! ### Rounds -/

variable {Ω : Type*} [MeasurableSpace Ω] {μ : Measure Ω} {α : Type} [MeasurableSpace α]
variable {cand : ℕ → ℕ → Ω → α} {acc : ℕ → ℕ → Ω → Bool} {law : Measure (α × Bool)}

/-- Number of candidates kept in a round. -/
def kept (b : ℕ × ℕ → Bool) (N t : ℕ) : ℕ := ∑ i ∈ Finset.range N, if b (t, i) then 1 else 0

theorem kept_le (b : ℕ × ℕ → Bool) (N t : ℕ) : kept b N t ≤ N := by
  unfold kept
  refine (Finset.sum_le_card_nsmul _ _ 1 fun i _ => ?_).trans (by simp)
  split <;> omega

theorem heldTotal_kept {α : Type} (cand : ℕ → ℕ → α) (acc : ℕ → ℕ → Bool) (sizes : List ℕ) (n : ℕ) :
    heldTotal cand acc sizes n = ∑ t ∈ Finset.range n, kept (fun s => acc s.1 s.2) sizes.sum t := by
  have h : ∀ t, ((List.range sizes.sum).filter fun i => acc t i).length = kept (fun s => acc s.1 s.2) sizes.sum t := by
    intro t
    unfold kept
    generalize sizes.sum = N
    induction N with
    | zero => simp
    | succ N ih =>
      rw [List.range_succ, List.filter_append, List.length_append, ih, Finset.sum_range_succ]
      rcases hb : acc t N <;> simp [List.filter, hb]
  rw [← length_pool, (pool_perm cand acc sizes n).length_eq, List.length_flatMap]
  simp only [List.length_map, h]
  induction n with
  | zero => simp
  | succ n ih => rw [List.range_succ, List.map_append, List.sum_append, ih, Finset.sum_range_succ]; simp

theorem stopsAfter_lt {α : Type} {cand : ℕ → ℕ → α} {acc : ℕ → ℕ → Bool} {sizes : List ℕ} {n : ℕ} (h : StopsAfter cand acc sizes n) (k : ℕ) :
    k < n ↔ ∑ t ∈ Finset.range k, kept (fun s => acc s.1 s.2) sizes.sum t < sizes.sum := by
  rw [← heldTotal_kept cand]
  constructor
  · exact h.2 k
  · intro hk
    by_contra hn
    have h1 := h.1
    rw [heldTotal_kept] at h1 hk
    have := Finset.sum_le_sum_of_subset (f := kept (fun s => acc s.1 s.2) sizes.sum) (Finset.range_mono (not_lt.1 hn))
    omega

theorem acc_draws (h : AreDraws μ (fun (s : ℕ × ℕ) ω => (cand s.1 s.2 ω, acc s.1 s.2 ω)) law) :
    (∀ s : ℕ × ℕ, Measurable fun ω => acc s.1 s.2 ω) ∧ (∀ s : ℕ × ℕ, μ {ω | acc s.1 s.2 ω = true} = law (Set.univ ×ˢ {true})) ∧
      iIndepFun (fun (s : ℕ × ℕ) ω => acc s.1 s.2 ω) μ := by
  refine ⟨fun s => measurable_snd.comp (h.measurable s), fun s => ?_, h.independent.comp (fun _ p => p.2) fun _ => measurable_snd⟩
  rw [← h.chance s _ (MeasurableSet.univ.prod (measurableSet_singleton true))]
  congr 1
  ext ω
  simp

/-- Whether sampling goes on does not depend on the candidates of the next round. -/
theorem next_round {Y : ℕ × ℕ → Ω → Bool} (hm : ∀ s, Measurable (Y s)) (hi : iIndepFun Y μ) {p : ℝ≥0∞} (hp : ∀ s, μ {ω | Y s ω = true} = p) (N k i : ℕ) :
    MeasurableSet {ω | ∑ t ∈ Finset.range k, kept (fun s => Y s ω) N t < N} ∧
    μ ({ω | ∑ t ∈ Finset.range k, kept (fun s => Y s ω) N t < N} ∩ {ω | Y (k, i) ω = true}) =
      μ {ω | ∑ t ∈ Finset.range k, kept (fun s => Y s ω) N t < N} * p := by
  classical
  set S : Finset (ℕ × ℕ) := Finset.range k ×ˢ Finset.range N with hS
  have hd : Disjoint S {(k, i)} := by
    rw [Finset.disjoint_singleton_right, hS, Finset.mem_product, Finset.mem_range]
    intro h
    exact lt_irrefl _ h.1
  have hind := hi.indepFun_finset S {(k, i)} hd hm
  set A : Set (S → Bool) := {u | ∑ t ∈ Finset.range k, kept (fun s => if h : s ∈ S then u ⟨s, h⟩ else false) N t < N} with hA
  have e1 : {ω | ∑ t ∈ Finset.range k, kept (fun s => Y s ω) N t < N} = (fun ω (s : S) => Y s ω) ⁻¹' A := by
    ext ω
    have : ∀ t ∈ Finset.range k, kept (fun s => Y s ω) N t = kept (fun s => if h : s ∈ S then Y s ω else false) N t := by
      intro t ht
      unfold kept
      refine Finset.sum_congr rfl fun j hj => ?_
      have hmem : (t, j) ∈ S := by rw [hS]; exact Finset.mem_product.2 ⟨ht, hj⟩
      simp only [dif_pos hmem]
    simp only [Set.mem_ofPred_eq, Set.mem_preimage, hA]
    rw [Finset.sum_congr rfl this]
  have e2 : {ω | Y (k, i) ω = true} = (fun ω (s : ({(k, i)} : Finset (ℕ × ℕ))) => Y s ω) ⁻¹' {u | u ⟨(k, i), Finset.mem_singleton_self _⟩ = true} := rfl
  have mA : MeasurableSet A := (Set.toFinite A).measurableSet
  have mB : MeasurableSet {u : ({(k, i)} : Finset (ℕ × ℕ)) → Bool | u ⟨(k, i), Finset.mem_singleton_self _⟩ = true} := (Set.toFinite _).measurableSet
  refine ⟨?_, ?_⟩
  · rw [e1]
    have hU : Measurable fun ω (s : S) => Y s ω := measurable_pi_lambda _ fun s => hm s
    exact hU mA
  · rw [← hp (k, i), e1, e2]
    exact hind.measure_inter_preimage_eq_mul _ _ mA mB

theorem lintegral_before {Y : ℕ × ℕ → Ω → Bool} (hm : ∀ s, Measurable (Y s)) (hi : iIndepFun Y μ) {p : ℝ≥0∞} (hp : ∀ s, μ {ω | Y s ω = true} = p) (N k : ℕ) :
    Measurable (fun ω => (before (kept (fun s => Y s ω) N) N k : ℝ≥0∞)) ∧
    ∫⁻ ω, (before (kept (fun s => Y s ω) N) N k : ℝ≥0∞) ∂μ = N * (p * μ {ω | ∑ t ∈ Finset.range k, kept (fun s => Y s ω) N t < N}) := by
  classical
  have e : (fun ω => (before (kept (fun s => Y s ω) N) N k : ℝ≥0∞)) = fun ω => ∑ i ∈ Finset.range N,
      ({ω | ∑ t ∈ Finset.range k, kept (fun s => Y s ω) N t < N} ∩ {ω | Y (k, i) ω = true}).indicator (fun _ => (1 : ℝ≥0∞)) ω := by
    ext ω
    unfold before
    split_ifs with h
    · have hk : kept (fun s => Y s ω) N k = ∑ i ∈ Finset.range N, if Y (k, i) ω then 1 else 0 := rfl
      rw [hk, Nat.cast_sum]
      refine Finset.sum_congr rfl fun i _ => ?_
      by_cases hy : Y (k, i) ω = true
      · have hω : ω ∈ {ω | ∑ t ∈ Finset.range k, kept (fun s => Y s ω) N t < N} ∩ {ω | Y (k, i) ω = true} := ⟨h, hy⟩
        rw [Set.indicator_of_mem hω]
        simp [hy]
      · rw [Set.indicator_of_notMem fun h' => hy h'.2]
        simp [hy]
    · rw [Finset.sum_eq_zero fun i _ => Set.indicator_of_notMem (fun h' => h h'.1) _]
      simp
  have hmi : ∀ i, MeasurableSet ({ω | ∑ t ∈ Finset.range k, kept (fun s => Y s ω) N t < N} ∩ {ω | Y (k, i) ω = true}) := fun i =>
    (next_round hm hi hp N k i).1.inter (hm (k, i) (measurableSet_singleton true))
  constructor
  · rw [e]
    exact Finset.measurable_sum _ fun i _ => measurable_const.indicator (hmi i)
  · rw [e, lintegral_finsetSum _ fun i _ => measurable_const.indicator (hmi i)]
    simp only [lintegral_indicator_const (hmi _), one_mul, (next_round hm hi hp N k _).2]
    rw [Finset.sum_const, Finset.card_range, nsmul_eq_mul, mul_comm p]

/-- C136: when a candidate is kept with probability `p`, sampling `N` points takes on average at least `1 / p` rounds, and at most `(2 - 1 / N) / p`,
whatever the number of ranks. `T` is the number of rounds. -/
theorem C136_bound [IsProbabilityMeasure μ] (h : AreDraws μ (fun (s : ℕ × ℕ) ω => (cand s.1 s.2 ω, acc s.1 s.2 ω)) law)
    (hpos : law (Set.univ ×ˢ {true}) ≠ 0) {sizes : List ℕ} (hs : 0 < sizes.sum) {T : Ω → ℕ}
    (hT : ∀ᵐ ω ∂μ, StopsAfter (fun t i => cand t i ω) (fun t i => acc t i ω) sizes (T ω)) :
    1 / law (Set.univ ×ˢ {true}) ≤ ∫⁻ ω, (T ω : ℝ≥0∞) ∂μ ∧
      sizes.sum * (law (Set.univ ×ˢ {true}) * ∫⁻ ω, (T ω : ℝ≥0∞) ∂μ) ≤ ((2 * sizes.sum - 1 : ℕ) : ℝ≥0∞) := by
  obtain ⟨hm, hp, hi⟩ := acc_draws h
  set p := law (Set.univ ×ˢ {true}) with hpdef
  set N := sizes.sum with hN
  have hp1 : p ≤ 1 := by
    rw [← hp (0, 0)]
    exact prob_le_one
  have hptop : p ≠ ∞ := ne_top_of_le_ne_top ENNReal.one_ne_top hp1
  set Y : ℕ × ℕ → Ω → Bool := fun s ω => acc s.1 s.2 ω with hY
  set E : ℕ → Set Ω := fun k => {ω | ∑ t ∈ Finset.range k, kept (fun s => Y s ω) N t < N} with hE
  have hmE : ∀ k, MeasurableSet (E k) := fun k => (next_round hm hi hp N k 0).1
  have hTk : ∀ᵐ ω ∂μ, ∀ k, k < T ω ↔ ω ∈ E k := by
    filter_upwards [hT] with ω hω k
    exact stopsAfter_lt hω k
  have hint : ∫⁻ ω, (T ω : ℝ≥0∞) ∂μ = ∑' k, μ (E k) := by
    have : ∫⁻ ω, (T ω : ℝ≥0∞) ∂μ = ∫⁻ ω, ∑' k, (E k).indicator (fun _ => (1 : ℝ≥0∞)) ω ∂μ := by
      refine lintegral_congr_ae ?_
      filter_upwards [hTk] with ω hω
      rw [tsum_eq_sum (s := Finset.range (T ω)) fun k hk => Set.indicator_of_notMem (fun h' => hk (Finset.mem_range.2 ((hω k).2 h'))) _]
      rw [Finset.sum_congr rfl fun k hk => Set.indicator_of_mem ((hω k).1 (Finset.mem_range.1 hk)) _]
      simp
    rw [this, lintegral_tsum fun k => (measurable_const.indicator (hmE k)).aemeasurable]
    simp only [lintegral_indicator_const (hmE _), one_mul]
  have hsum : (N : ℝ≥0∞) * (p * ∑' k, μ (E k)) = ∫⁻ ω, ∑' k, (before (kept (fun s => Y s ω) N) N k : ℝ≥0∞) ∂μ := by
    rw [lintegral_tsum fun k => (lintegral_before hm hi hp N k).1.aemeasurable, ← ENNReal.tsum_mul_left, ← ENNReal.tsum_mul_left]
    exact tsum_congr fun k => ((lintegral_before hm hi hp N k).2).symm
  have hN0 : (N : ℝ≥0∞) ≠ 0 := by exact_mod_cast hs.ne'
  have hNtop : (N : ℝ≥0∞) ≠ ∞ := ENNReal.natCast_ne_top N
  rw [hint]
  constructor
  · have hge : (N : ℝ≥0∞) ≤ (N : ℝ≥0∞) * (p * ∑' k, μ (E k)) := by
      rw [hsum]
      have : (N : ℝ≥0∞) = ∫⁻ _, (N : ℝ≥0∞) ∂μ := by simp
      conv_lhs => rw [this]
      refine lintegral_mono_ae ?_
      filter_upwards [hT] with ω hω
      have h1 := hω.1
      rw [heldTotal_kept] at h1
      have h2 := le_before (c := kept (fun s => Y s ω) N) (N := N) (T ω)
      rw [min_eq_right h1] at h2
      calc (N : ℝ≥0∞) ≤ ((∑ k ∈ Finset.range (T ω), before (kept (fun s => Y s ω) N) N k : ℕ) : ℝ≥0∞) := by exact_mod_cast h2
        _ = ∑ k ∈ Finset.range (T ω), (before (kept (fun s => Y s ω) N) N k : ℝ≥0∞) := by push_cast; rfl
        _ ≤ _ := ENNReal.sum_le_tsum _
    have h1 : 1 ≤ p * ∑' k, μ (E k) := by
      have : (N : ℝ≥0∞) * 1 ≤ N * (p * ∑' k, μ (E k)) := by rwa [mul_one]
      exact (ENNReal.mul_le_mul_iff_right hN0 hNtop).1 this
    exact ENNReal.div_le_of_le_mul' h1
  · rw [hsum]
    have : ∀ ω, ∑' k, (before (kept (fun s => Y s ω) N) N k : ℝ≥0∞) ≤ ((2 * N - 1 : ℕ) : ℝ≥0∞) := by
      intro ω
      refine ENNReal.tsum_le_of_sum_range_le fun K => ?_
      have := (before_le hs (kept_le (fun s => Y s ω) N) K).2
      rw [← Nat.cast_sum]
      exact_mod_cast this
    calc _ ≤ ∫⁻ _, ((2 * N - 1 : ℕ) : ℝ≥0∞) ∂μ := lintegral_mono this
      _ = _ := by simp

theorem keep_le [IsProbabilityMeasure μ] (h : AreDraws μ (fun (s : ℕ × ℕ) ω => (cand s.1 s.2 ω, acc s.1 s.2 ω)) law) : law (Set.univ ×ˢ {true}) ≤ 1 := by
  rw [← (acc_draws h).2.1 (0, 0)]
  exact prob_le_one

/-- C136: less than `2 / p` rounds on average. -/
theorem C136_rounds [IsProbabilityMeasure μ] (h : AreDraws μ (fun (s : ℕ × ℕ) ω => (cand s.1 s.2 ω, acc s.1 s.2 ω)) law)
    (hpos : law (Set.univ ×ˢ {true}) ≠ 0) {sizes : List ℕ} (hs : 0 < sizes.sum) {T : Ω → ℕ}
    (hT : ∀ᵐ ω ∂μ, StopsAfter (fun t i => cand t i ω) (fun t i => acc t i ω) sizes (T ω)) :
    1 / law (Set.univ ×ˢ {true}) ≤ ∫⁻ ω, (T ω : ℝ≥0∞) ∂μ ∧ ∫⁻ ω, (T ω : ℝ≥0∞) ∂μ < 2 / law (Set.univ ×ˢ {true}) := by
  obtain ⟨h1, hle⟩ := C136_bound h hpos hs hT
  refine ⟨h1, ?_⟩
  rw [ENNReal.lt_div_iff_mul_lt (.inl hpos) (.inl (ne_top_of_le_ne_top ENNReal.one_ne_top (keep_le h))), mul_comm]
  have h2 : (sizes.sum : ℝ≥0∞) * (law (Set.univ ×ˢ {true}) * ∫⁻ ω, (T ω : ℝ≥0∞) ∂μ) < sizes.sum * 2 := by
    refine hle.trans_lt ?_
    have : 2 * sizes.sum - 1 < sizes.sum * 2 := by omega
    exact_mod_cast this
  exact lt_of_mul_lt_mul_left' h2

/-- C136: a single point takes `1 / p` rounds on average. -/
theorem C136_single [IsProbabilityMeasure μ] (h : AreDraws μ (fun (s : ℕ × ℕ) ω => (cand s.1 s.2 ω, acc s.1 s.2 ω)) law)
    (hpos : law (Set.univ ×ˢ {true}) ≠ 0) {sizes : List ℕ} (hs : sizes.sum = 1) {T : Ω → ℕ}
    (hT : ∀ᵐ ω ∂μ, StopsAfter (fun t i => cand t i ω) (fun t i => acc t i ω) sizes (T ω)) :
    ∫⁻ ω, (T ω : ℝ≥0∞) ∂μ = 1 / law (Set.univ ×ˢ {true}) := by
  obtain ⟨h1, hle⟩ := C136_bound h hpos (by omega) hT
  refine le_antisymm ?_ h1
  rw [hs] at hle
  rw [ENNReal.le_div_iff_mul_le (.inl hpos) (.inl (ne_top_of_le_ne_top ENNReal.one_ne_top (keep_le h))), mul_comm]
  simpa using hle

/-- C136: the chance of more than `k` rounds is less than `2 / (p (k + 1))`. -/
theorem C136_more [IsProbabilityMeasure μ] (h : AreDraws μ (fun (s : ℕ × ℕ) ω => (cand s.1 s.2 ω, acc s.1 s.2 ω)) law)
    (hpos : law (Set.univ ×ˢ {true}) ≠ 0) {sizes : List ℕ} (hs : 0 < sizes.sum) {T : Ω → ℕ}
    (hT : ∀ᵐ ω ∂μ, StopsAfter (fun t i => cand t i ω) (fun t i => acc t i ω) sizes (T ω)) (k : ℕ) :
    ((k + 1 : ℕ) : ℝ≥0∞) * μ {ω | k < T ω} < 2 / law (Set.univ ×ˢ {true}) := by
  refine lt_of_le_of_lt ?_ (C136_rounds h hpos hs hT).2
  obtain ⟨hm, hp, hi⟩ := acc_draws h
  set E : Set Ω := {ω | ∑ t ∈ Finset.range k, kept (fun s => acc s.1 s.2 ω) sizes.sum t < sizes.sum} with hE
  have hmE : MeasurableSet E := (next_round hm hi hp sizes.sum k 0).1
  have hTE : {ω | k < T ω} =ᵐ[μ] E := by
    filter_upwards [hT] with ω hω
    exact propext (stopsAfter_lt hω k)
  rw [measure_congr hTE, ← lintegral_indicator_const hmE]
  refine lintegral_mono_ae ?_
  filter_upwards [hT] with ω hω
  by_cases hω' : ω ∈ E
  · rw [Set.indicator_of_mem hω']
    have := (stopsAfter_lt hω k).2 hω'
    exact_mod_cast this
  · rw [Set.indicator_of_notMem hω']
    exact zero_le

open Classical in
/-- C136, for a mask of probability `p` and candidates of law `κ`. -/
theorem C136_mask [IsProbabilityMeasure μ] {κ : Measure α} [IsProbabilityMeasure κ] {X : ℕ × ℕ → Ω → α × ℝ}
    (h : AreDraws μ X (κ.prod unitLaw)) {p : α → ℝ} (hp : Measurable p) (hpos : ∫⁻ x, ENNReal.ofReal (max 0 (min (p x) 1)) ∂κ ≠ 0)
    {sizes : List ℕ} (hs : 0 < sizes.sum) {T : Ω → ℕ}
    (hT : ∀ᵐ ω ∂μ, StopsAfter (fun t i => (X (t, i) ω).1) (fun t i => decide ((X (t, i) ω).2 ≤ p (X (t, i) ω).1)) sizes (T ω)) :
    1 / ∫⁻ x, ENNReal.ofReal (max 0 (min (p x) 1)) ∂κ ≤ ∫⁻ ω, (T ω : ℝ≥0∞) ∂μ ∧
      ∫⁻ ω, (T ω : ℝ≥0∞) ∂μ < 2 / ∫⁻ x, ENNReal.ofReal (max 0 (min (p x) 1)) ∂κ := by
  have := C136_rounds (cand := fun t i ω => (X (t, i) ω).1) (acc := fun t i ω => decide ((X (t, i) ω).2 ≤ p (X (t, i) ω).1))
    (h.comp (measurable_decide hp)) (by rwa [kept_apply hp MeasurableSet.univ, setLIntegral_univ]) hs hT
  rwa [kept_apply hp MeasurableSet.univ, setLIntegral_univ] at this

open Classical in
/-- C136, not vacuous: a mask that keeps half of the candidates takes two rounds on average for one point. -/
example : ∃ (Ω : Type) (_ : MeasurableSpace Ω) (μ : Measure Ω) (_ : IsProbabilityMeasure μ) (X : ℕ × ℕ → Ω → ℝ × ℝ) (T : Ω → ℕ),
    AreDraws μ X (unitLaw.prod unitLaw) ∧
    (∀ᵐ ω ∂μ, StopsAfter (fun t i => (X (t, i) ω).1) (fun t i => decide ((X (t, i) ω).2 ≤ (1 / 2 : ℝ))) [0, 1] (T ω)) ∧
    ∫⁻ ω, (T ω : ℝ≥0∞) ∂μ = 2 := by
  obtain ⟨Ω, i1, μ, i2, X, hX⟩ := exists_areDraws (ℕ × ℕ) (unitLaw.prod unitLaw)
  have hhalf : ∫⁻ _ : ℝ, ENNReal.ofReal (max 0 (min (1 / 2 : ℝ) 1)) ∂unitLaw = 1 / 2 := by
    rw [lintegral_const, measure_univ, mul_one, min_eq_left (by norm_num), max_eq_right (by norm_num), ENNReal.ofReal_div_of_pos (by norm_num)]
    simp
  have hp : Measurable fun _ : ℝ => (1 / 2 : ℝ) := measurable_const
  have hne : ∫⁻ _ : ℝ, ENNReal.ofReal (max 0 (min (1 / 2 : ℝ) 1)) ∂unitLaw ≠ 0 := by rw [hhalf]; simp
  have hends := C101_mask_ends hX hp hne [0, 1]
  refine ⟨Ω, i1, μ, i2, X, fun ω => if h : ∃ n, StopsAfter (fun t i => (X (t, i) ω).1) (fun t i => decide ((X (t, i) ω).2 ≤ (1 / 2 : ℝ))) [0, 1] n
    then h.choose else 0, hX, ?_, ?_⟩
  · filter_upwards [hends] with ω hω
    rw [dif_pos hω]
    exact hω.choose_spec
  · have := C136_single (cand := fun t i ω => (X (t, i) ω).1) (acc := fun t i ω => decide ((X (t, i) ω).2 ≤ (1 / 2 : ℝ)))
      (hX.comp (measurable_decide hp)) (by rw [kept_apply hp MeasurableSet.univ, setLIntegral_univ]; exact hne) (sizes := [0, 1]) (by simp)
      (T := fun ω => if h : ∃ n, StopsAfter (fun t i => (X (t, i) ω).1) (fun t i => decide ((X (t, i) ω).2 ≤ (1 / 2 : ℝ))) [0, 1] n
        then h.choose else 0) (by
        filter_upwards [hends] with ω hω
        rw [dif_pos hω]
        exact hω.choose_spec)
    rw [this, kept_apply hp MeasurableSet.univ, setLIntegral_univ, hhalf]
    simp

end Verif.Props.Rounds
