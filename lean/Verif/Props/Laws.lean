import Verif.Spec.Draws
import Verif.Props.Chance
import Verif.Props.UniformRandoms
import Verif.Props.TruncCauchy
import Verif.Props.BlindCosmo
import Verif.Props.BlindShuffle
import Verif.Props.SmearSample
import Verif.Props.Sv3

/-!
# C103: laws of drawn quantities

With independent uniform draws: samples of the truncated Cauchy distribution follow it, blinded parameters are uniform within one sigma
of their fiducial values, errors of redshift smearings have the tabulated percent points, and downsampled mocks have the number
of objects of the data on average.
-/

namespace Verif.Props.Laws

open Verif Verif.Model Verif.Spec Verif.Props Verif.Model.Blinding Verif.Spec.Blinding Verif.Props.Chance Verif.Props.UniformRandoms MeasureTheory ProbabilityTheory

variable {Ω : Type*} [MeasurableSpace Ω] {μ : Measure Ω}

/-- The chance that several independent uniform draws lie each below a probability. -/
theorem uniform_below {ι : Type} [Fintype ι] [IsProbabilityMeasure μ] {X : ι → Ω → ℝ} (h : AreUniform μ X) (p : ι → ℝ) :
    μ {ω | ∀ i, X i ω ≤ p i} = ∏ i, ENNReal.ofReal (max 0 (min (p i) 1)) := by
  have hset : {ω | ∀ i, X i ω ≤ p i} = ⋂ i ∈ (Finset.univ : Finset ι), X i ⁻¹' Set.Iic (p i) := by
    ext ω; simp
  rw [hset, (iIndepFun_iff_measure_inter_preimage_eq_mul.1 h.2) Finset.univ fun i _ => measurableSet_Iic]
  exact Finset.prod_congr rfl fun i _ => uniform_le (h.1 i) (p i)

/-- Uniform draws are all in (0, 1), almost surely. -/
theorem uniform_ae {ι : Type} [Countable ι] [IsProbabilityMeasure μ] {X : ι → Ω → ℝ} (h : AreUniform μ X) :
    ∀ᵐ ω ∂μ, ∀ i, 0 < X i ω ∧ X i ω < 1 := ae_all_iff.2 fun i => uniform_inside (h.1 i)

/-! ## Truncated Cauchy distribution -/

section
open Verif.Model.TruncCauchy

/-- C103. Samples of the truncated Cauchy distribution are independent, each with the distribution function `cdf`. -/
theorem C103_cauchy [IsProbabilityMeasure μ] {a b loc scale : ℝ} (hab : a < b) (hs : 0 < scale) {n : ℕ} {U : Fin n → Ω → ℝ}
    (hU : AreUniform μ U) (t F : Fin n → ℝ) (hF : ∀ i, cdf ⟨a, b, loc, scale⟩ (t i) = some (F i)) :
    μ {ω | ∃ xs, rvs ⟨a, b, loc, scale⟩ (List.ofFn fun i => U i ω) = .ok xs ∧ xs.length = n ∧
        ∀ i : Fin n, ∃ x, xs[(i : ℕ)]? = some x ∧ x ≤ t i} = ∏ i, ENNReal.ofReal (F i) := by
  have hF01 : ∀ i, 0 ≤ F i ∧ F i ≤ 1 := by
    intro i
    rcases le_or_gt (t i) a with h | h
    · have := (hF i).symm.trans ((C57_cdf_ends (loc := loc) hab hs (t i)).1 h)
      rw [Option.some.inj this]; norm_num
    · rcases le_or_gt b (t i) with h' | h'
      · have := (hF i).symm.trans ((C57_cdf_ends (loc := loc) hab hs (t i)).2 h')
        rw [Option.some.inj this]; norm_num
      · obtain ⟨p, q, h1, h2, h3, h4, h5⟩ := C57_cdf_increasing (loc := loc) hab hs le_rfl h h'.le
        have := (hF i).symm.trans h2
        rw [Option.some.inj this]
        exact ⟨by linarith, h5⟩
  have key : ∀ i q, 0 < q → q < 1 →
      (ppfStd q ((a - loc) / scale) ((b - loc) / scale) * scale + loc ≤ t i ↔ q ≤ F i) := by
    intro i q h0 h1
    obtain ⟨x, hx, hxa, hxb, hxq⟩ := C57_cdf_ppf (loc := loc) hab hs h0.le h1.le
    rw [ppf_in hab hs h0.le h1.le] at hx
    rw [Option.some.inj hx]
    have hmono : ∀ {x y p q : ℝ}, a ≤ x → x < y → y ≤ b → cdf ⟨a, b, loc, scale⟩ x = some p → cdf ⟨a, b, loc, scale⟩ y = some q → p < q := by
      intro x y p q h1 h2 h3 hp hq
      obtain ⟨p', q', hp', hq', -, h, -⟩ := C57_cdf_increasing (loc := loc) hab hs h1 h2 h3
      rw [hp] at hp'; rw [hq] at hq'
      cases hp'; cases hq'
      exact h
    constructor
    · intro h
      rcases le_or_gt b (t i) with h' | h'
      · have := (hF i).symm.trans ((C57_cdf_ends (loc := loc) hab hs (t i)).2 h')
        rw [Option.some.inj this]
        exact h1.le
      · rcases h.lt_or_eq with h | h
        · exact (hmono hxa h h'.le hxq (hF i)).le
        · rw [h, hF i] at hxq
          exact (Option.some.inj hxq).ge
    · intro h
      by_contra hlt
      rw [not_le] at hlt
      rcases le_or_gt (t i) a with h' | h'
      · have := (hF i).symm.trans ((C57_cdf_ends (loc := loc) hab hs (t i)).1 h')
        rw [Option.some.inj this] at h
        linarith
      · have := hmono h'.le hlt hxb (hF i) hxq
        linarith
  have hset : {ω | ∃ xs, rvs ⟨a, b, loc, scale⟩ (List.ofFn fun i => U i ω) = .ok xs ∧ xs.length = n ∧
        ∀ i : Fin n, ∃ x, xs[(i : ℕ)]? = some x ∧ x ≤ t i} =ᵐ[μ] {ω | ∀ i, U i ω ≤ F i} := by
    rw [Filter.eventuallyEq_set]
    filter_upwards [uniform_ae hU] with ω hω
    unfold rvs
    simp only [args_ok hab hs, if_true, Except.ok.injEq, exists_eq_left', List.length_map, List.length_ofFn, true_and, Args.std]
    refine forall_congr' fun i => ?_
    simp only [List.getElem?_map, List.getElem?_ofFn, i.2, dif_pos, Option.map_some, Option.some.injEq, exists_eq_left']
    exact key i _ (hω i).1 (hω i).2
  rw [measure_congr hset, uniform_below hU]
  apply Finset.prod_congr rfl
  intro i _
  rw [min_eq_left (hF01 i).2, max_eq_right (hF01 i).1]

/-- Not vacuous: between -1 and 1, the chance of a sample at most 0 is 1/2, that of two of them 1/4. -/
example : ∃ (Ω : Type) (_ : MeasurableSpace Ω) (μ : Measure Ω) (_ : IsProbabilityMeasure μ) (U : Fin 2 → Ω → ℝ), AreUniform μ U ∧
    μ {ω | ∃ xs, rvs ⟨-1, 1, 0, 1⟩ (List.ofFn fun i => U i ω) = .ok xs ∧ xs.length = 2 ∧
        ∀ i : Fin 2, ∃ x, xs[(i : ℕ)]? = some x ∧ x ≤ 0} = ENNReal.ofReal (1 / 2) * ENNReal.ofReal (1 / 2) := by
  obtain ⟨Ω, _, μ, _, U, hU⟩ := exists_areUniform (Fin 2)
  refine ⟨Ω, _, μ, ‹_›, U, hU, ?_⟩
  rw [C103_cauchy (F := fun _ => 1 / 2) (by norm_num) (by norm_num) hU]
  · simp [pow_two]
  · intro i
    rw [cdf_in (by norm_num) (by norm_num) (by norm_num) (by norm_num)]
    have h := cauchyCdf_strictMono (show (-1 : ℝ) < 1 by norm_num)
    simp only [sub_zero, div_one, cdfStd, Option.some.injEq]
    unfold cauchyCdf at h ⊢
    rw [Real.arctan_neg, Real.arctan_zero] at *
    have hpi := Real.pi_pos
    have h1 : Real.arctan 1 / Real.pi = 1 / 4 := by rw [Real.arctan_one]; field_simp
    rw [neg_div, h1]
    norm_num

end

/-! ## Blinded parameters -/

/-- C103. Blinded parameters are independent, each uniform within one sigma of the fiducial value. Missing for the full claim: density
parameters when a redshift is given, see `C45_density_violated`. -/
theorem C103_blinded_partial [IsProbabilityMeasure μ] (c : Cosmo) (z : Option ℝ) {n : ℕ} (name : Fin n → String) (sigma v : Fin n → ℝ)
    (hn : Function.Injective name) (hf : ∀ k, IsFiducial c z (name k) (v k)) (hd : ∀ k, z = none ∨ ¬ IsDensity (name k))
    (hs : ∀ k, 0 < sigma k) {U : ℕ → Ω → ℝ} (hU : AreUniform μ U) (lo hi : Fin n → ℝ) (hlo : ∀ k, v k - sigma k ≤ lo k)
    (hhi : ∀ k, hi k ≤ v k + sigma k) :
    μ {ω | ∃ b, getCosmoBlind c (fun k => U k ω) (some (List.ofFn fun k => (name k, sigma k))) z = .ok b ∧
        ∀ k, ∃ w, (Blinded.storing b (name k)).lookup (name k) = some w ∧ lo k ≤ w ∧ w < hi k} =
      ∏ k, ENNReal.ofReal ((hi k - lo k) / (2 * sigma k)) := by
  have hU' : AreUniform μ fun k : Fin n => U k := ⟨fun k => hU.1 k, hU.2.precomp Fin.val_injective⟩
  have := uniform_all hU' (L := fun k => 2 * sigma k) (x := fun k => lo k - v k + sigma k) (y := fun k => hi k - v k + sigma k)
    (fun k => by linarith [hs k]) (fun k => by linarith [hlo k]) (fun k => by linarith [hhi k])
  rw [show (∏ k, ENNReal.ofReal ((hi k - lo k) / (2 * sigma k))) =
      ∏ k, ENNReal.ofReal ((hi k - v k + sigma k - (lo k - v k + sigma k)) / (2 * sigma k)) from
    Finset.prod_congr rfl fun k _ => by congr 2; ring, ← this]
  congr 1
  ext ω
  simp only [Set.mem_ofPred_eq]
  obtain ⟨b, h1, -, -, h2⟩ := C45_within_partial c z (fun k => U k ω) (List.ofFn fun k => (name k, sigma k))
    (by
      rw [List.map_ofFn]
      exact List.nodup_ofFn.2 hn)
    (by
      intro p hp
      obtain ⟨k, rfl⟩ := List.mem_ofFn.1 hp
      exact ⟨⟨v k, hf k⟩, hd k⟩)
  simp only [h1, Except.ok.injEq, exists_eq_left']
  refine forall_congr' fun k => ?_
  obtain ⟨w, hw, he, -⟩ := h2 k (name k) (sigma k) (v k) (by simp) (hf k)
  rw [hw]
  simp only [Option.some.injEq, exists_eq_left', he]
  constructor
  · intro h; constructor <;> nlinarith [h.1, h.2]
  · intro h; constructor <;> nlinarith [h.1, h.2]

/-- Not vacuous: the growth rate and fnl, at redshift 1. -/
example : Function.Injective ![("f" : String), "fnl"] ∧ ∃ v : Fin 2 → ℝ, ∀ k, IsFiducial flatCosmo (some 1) (![("f" : String), "fnl"] k) (v k) ∧
    ¬ IsDensity (![("f" : String), "fnl"] k) := by
  constructor
  · intro i j h
    fin_cases i <;> fin_cases j <;> simp at h ⊢
  · have h1 : ∃ x, IsFiducial flatCosmo (some 1) "f" x :=
      ⟨_, .growth _ _ rfl rfl (.computed 1 rfl rfl) (.computed 1 rfl rfl) (by norm_num [flatCosmo])⟩
    have h2 : ∃ x, IsFiducial flatCosmo (some 1) "fnl" x := ⟨_, .fnl rfl rfl⟩
    obtain ⟨x, hx⟩ := h1
    obtain ⟨y, hy⟩ := h2
    refine ⟨![x, y], fun k => ?_⟩
    fin_cases k
    · exact ⟨hx, by unfold IsDensity; decide⟩
    · exact ⟨hy, by unfold IsDensity; decide⟩

/-! ## Redshift errors -/

open Verif.Props.SmearSample in
/-- C103. If percent points increase with the probability, sampled errors are independent, and the chance that the error of an object
is at most the percent point of its redshift at `p` is `p`. Objects are those of all ranks, in order. -/
theorem C103_errors [IsProbabilityMeasure μ] {nz : ℕ} (s : Smear nz) (cubic : List ℝ → ℝ → ℝ) (ranks : List (List ℝ))
    (hinc : ∀ z ∈ ranks.flatten, StrictMonoOn (fun u => s.error cubic u z) (Set.Icc 0 1)) {U : ℕ → Ω → ℝ} (hU : AreUniform μ U)
    (p : ℕ → ℝ) (hp : ∀ i, 0 ≤ p i ∧ p i ≤ 1) :
    μ {ω | (s.sample cubic (fun i => U i ω) ranks).flatten.length = ranks.flatten.length ∧ ∀ (i : ℕ) z e, ranks.flatten[i]? = some z →
        (s.sample cubic (fun i => U i ω) ranks).flatten[i]? = some e → e ≤ s.error cubic (p i) z} =
      ∏ i ∈ Finset.range ranks.flatten.length, ENNReal.ofReal (p i) := by
  have hU' : AreUniform μ fun k : Fin ranks.flatten.length => U k := ⟨fun k => hU.1 k, hU.2.precomp Fin.val_injective⟩
  have := uniform_below hU' fun i => p i
  rw [Finset.prod_range, show (∏ i : Fin ranks.flatten.length, ENNReal.ofReal (p i)) =
      ∏ i : Fin ranks.flatten.length, ENNReal.ofReal (max 0 (min (p i) 1)) from
    Finset.prod_congr rfl fun i _ => by rw [min_eq_left (hp i).2, max_eq_right (hp i).1], ← this]
  apply measure_congr
  rw [Filter.eventuallyEq_set]
  filter_upwards [uniform_ae hU] with ω hω
  simp only [(C96_sample cubic s (fun i => U i ω) ranks).2, List.length_mapIdx, true_and, List.getElem?_mapIdx]
  have hiff : ∀ (i : ℕ) z, z ∈ ranks.flatten → (s.error cubic (U i ω) z ≤ s.error cubic (p i) z ↔ U i ω ≤ p i) := fun i z hz =>
    (hinc z hz).le_iff_le ⟨(hω i).1.le, (hω i).2.le⟩ ⟨(hp i).1, (hp i).2⟩
  constructor
  · intro h i
    have hz := List.getElem?_eq_getElem i.2
    exact (hiff i _ (List.getElem_mem i.2)).1 (h i _ _ hz (by rw [hz]; rfl))
  · intro h i z e hz he
    rw [hz] at he
    simp only [Option.map_some, Option.some.injEq] at he
    rw [← he]
    exact (hiff i z (List.mem_of_getElem? hz)).2 (h ⟨i, (List.getElem?_eq_some_iff.1 hz).1⟩)

open Verif.Props.SmearSample in
/-- C103. For objects at redshifts of the table, the chance that an error is at most the `k`-th of the `n` tabulated percent points is
k / (n - 1). -/
theorem C103_errors_table [IsProbabilityMeasure μ] {nz : ℕ} {spline : List (ℝ × ℝ) → ℝ → ℝ} {s : Smear nz} (h : Made spline s)
    {cubic : List ℝ → ℝ → ℝ} (hc : Through cubic) (ranks : List (List ℝ)) (j : ℕ → Fin nz)
    (hz : ∀ (i : ℕ) z, ranks.flatten[i]? = some z → z = s.z (j i))
    (hinc : ∀ z ∈ ranks.flatten, StrictMonoOn (fun u => s.error cubic u z) (Set.Icc 0 1)) {U : ℕ → Ω → ℝ} (hU : AreUniform μ U)
    (k : ℕ → ℕ) (x : ℕ → ℝ) (hx : ∀ i, (s.ppf (j i))[k i]? = some (x i)) :
    μ {ω | (s.sample cubic (fun i => U i ω) ranks).flatten.length = ranks.flatten.length ∧ ∀ (i : ℕ) e,
        (s.sample cubic (fun i => U i ω) ranks).flatten[i]? = some e → e ≤ s.dztransform (s.z (j i)) (s.support (x i))} =
      ∏ i ∈ Finset.range ranks.flatten.length, ENNReal.ofReal (k i / ((s.table.length : ℝ) - 1)) := by
  obtain ⟨-, -, -, hl, h4⟩ := made_facts h
  have h1 : (0 : ℝ) < (s.table.length : ℝ) - 1 := by
    have : (4 : ℝ) ≤ s.table.length := by exact_mod_cast h4
    linarith
  rw [← C103_errors s cubic ranks hinc hU (fun i => k i / ((s.table.length : ℝ) - 1)) fun i => by
    refine ⟨div_nonneg (Nat.cast_nonneg _) h1.le, (div_le_one h1).2 ?_⟩
    have := (List.getElem?_eq_some_iff.1 (hx i)).1
    rw [hl] at this
    have : ((k i + 1 : ℕ) : ℝ) ≤ s.table.length := by exact_mod_cast this
    push_cast at this
    linarith]
  congr 1
  ext ω
  simp only [Set.mem_ofPred_eq, (C96_sample cubic s (fun i => U i ω) ranks).2, List.length_mapIdx, true_and, List.getElem?_mapIdx]
  have he : ∀ i, s.error cubic (k i / ((s.table.length : ℝ) - 1)) (s.z (j i)) = s.dztransform (s.z (j i)) (s.support (x i)) := fun i =>
    (C96_error h hc).2 (j i) (k i) (x i) (hx i)
  constructor
  · intro h i z e hi hie
    rw [hz i z hi, he]
    exact h i e hie
  · intro h i e hie
    cases hi : ranks.flatten[i]? with
    | none => rw [hi] at hie; simp at hie
    | some z =>
      have := h i z e hi hie
      rwa [hz i z hi, he] at this

open Verif.Props.SmearSample in
open Classical in
/-- Not vacuous: there are a smearing, and interpolation functions that go through all values, such that percent points increase at a
redshift of the table. -/
example {spline : List (ℝ × ℝ) → ℝ → ℝ} (hs : Interpolates spline) : ∃ (s : Smear 3) (cubic : List ℝ → ℝ → ℝ), Made spline s ∧ Through cubic ∧
    s.z 1 = 1 ∧ StrictMonoOn (fun u => s.error cubic u 1) (Set.Icc 0 1) ∧ (s.ppf 1)[2]? = some (2 / 5) := by
  obtain ⟨s, h⟩ := exists_made spline fun _ x => x
  have hm : Made spline s := Or.inr (Or.inl ⟨_, _, _, _, _, _, _, h⟩)
  set cubic : List ℝ → ℝ → ℝ := fun l u => if ∀ (k : ℕ) (x : ℝ), l[k]? = some x → x = k / ((l.length : ℝ) - 1) then u
    else if h : ∃ (x : ℝ) (k : ℕ), l[k]? = some x ∧ u = k / ((l.length : ℝ) - 1) then h.choose else 0 with hcubic
  have hc : Through cubic := by
    intro l hl k x hk
    simp only [hcubic]
    split
    · rename_i h
      exact (h k x hk).symm
    · have hex : ∃ (y : ℝ) (k' : ℕ), l[k']? = some y ∧ (k : ℝ) / ((l.length : ℝ) - 1) = k' / ((l.length : ℝ) - 1) := ⟨x, k, hk, rfl⟩
      rw [dif_pos hex]
      obtain ⟨k', h1, h2⟩ := hex.choose_spec
      have h4 : (4 : ℝ) ≤ l.length := by exact_mod_cast hl
      have : k = k' := by
        have := (div_left_inj' (by linarith : (l.length : ℝ) - 1 ≠ 0)).1 h2
        exact_mod_cast this
      subst this
      rw [h1] at hk
      exact Option.some.inj hk
  obtain ⟨hf, hz, hl6⟩ : s.dztransform = (fun _ x => x) ∧ (s.z = fun j : Fin 3 => (j : ℝ)) ∧ s.table.length = 6 := by
    unfold Smear.rvs at h
    obtain ⟨p, hp, h⟩ := bind_ok' h
    cases h
    refine ⟨rfl, rfl, ?_⟩
    simp [Smear.rvsGrid, linspace]
  have hsup : ∀ x : ℝ, s.support x = x := by
    unfold Smear.rvs at h
    obtain ⟨p, hp, h⟩ := bind_ok' h
    cases h
    intro x
    rfl
  have hz1 : s.z 1 = 1 := by rw [hz]; simp
  have herr : ∀ u, s.error cubic u 1 = ((cubic (s.ppf 1) u : ℝ) : EReal) := by
    intro u
    unfold Smear.error
    rw [hf, hsup, ← hz1, C96_redshift hm]
  obtain ⟨-, -, -, hlen, -⟩ := made_facts hm
  have hnode : ∀ (k : ℕ) (x : ℝ), (s.ppf 1)[k]? = some x → x = k / (((s.ppf 1).length : ℝ) - 1) := by
    intro k x hk
    have hk6 : k < 6 := by have := (List.getElem?_eq_some_iff.1 hk).1; rwa [hlen, hl6] at this
    have h1 := C96_ppf_scale hs hc (by simp) (by norm_num) h (j := 1) (fun x _ _ => EReal.toReal_coe x) hk6
    have h2 := hc (s.ppf 1) (by rw [hlen, hl6]; norm_num) k x hk
    rw [hlen, hl6] at h2 ⊢
    simp only [Fin.val_one, Nat.cast_one] at h1
    rw [herr, h2] at h1
    exact EReal.coe_injective h1
  refine ⟨s, cubic, hm, hc, hz1, ?_, ?_⟩
  · intro u _ v _ huv
    simp only [herr]
    rw [EReal.coe_lt_coe_iff]
    simp only [hcubic]
    rw [if_pos hnode, if_pos hnode]
    exact huv
  · have hlt : 2 < (s.ppf 1).length := by rw [hlen, hl6]; norm_num
    have := hnode 2 _ (List.getElem?_eq_getElem hlt)
    rw [List.getElem?_eq_getElem hlt, this, hlen, hl6]
    norm_num

/-! ## Downsampling -/

theorem integral_list_sum [IsProbabilityMeasure μ] {α : Type*} (l : List α) (F : α → Ω → ℝ) (h : ∀ a ∈ l, Integrable (F a) μ) :
    Integrable (fun ω => (l.map fun a => F a ω).sum) μ ∧ ∫ ω, (l.map fun a => F a ω).sum ∂μ = (l.map fun a => ∫ ω, F a ω ∂μ).sum := by
  induction l with
  | nil => simp
  | cons a l ih =>
    obtain ⟨h1, h2⟩ := ih fun b hb => h b (List.mem_cons_of_mem _ hb)
    have ha := h a List.mem_cons_self
    simp only [List.map_cons, List.sum_cons]
    exact ⟨ha.add h1, by rw [integral_add ha h1, h2]⟩

theorem zipWith_mapIdx {α β γ : Type*} (f : α → β → γ) (g : ℕ → α → β) (l : List α) :
    List.zipWith f l (l.mapIdx g) = l.zipIdx.map fun q => f q.1 (g q.2 q.1) := by
  apply List.ext_getElem?
  intro k
  rw [List.getElem?_zipWith, List.getElem?_mapIdx, List.getElem?_map, List.getElem?_zipIdx]
  cases l[k]? <;> simp

theorem uniform_lt [IsProbabilityMeasure μ] {X : Ω → ℝ} (h : IsUniform μ X) (p : ℝ) :
    Integrable (fun ω => if X ω < p then (1 : ℝ) else 0) μ ∧ ∫ ω, (if X ω < p then (1 : ℝ) else 0) ∂μ = max 0 (min p 1) := by
  have hne : ∀ᵐ ω ∂μ, X ω ≠ p := by
    have := h.2 {p} (measurableSet_singleton p)
    rw [measure_mono_null Set.inter_subset_left (by simp)] at this
    exact ae_iff.2 (by simpa using this)
  have : (fun ω => if X ω < p then (1 : ℝ) else 0) =ᵐ[μ] fun ω => if X ω ≤ p then (1 : ℝ) else 0 := by
    filter_upwards [hne] with ω hω
    by_cases h : X ω < p
    · simp [h, h.le]
    · rw [if_neg h, if_neg fun h' : X ω ≤ p => h (lt_of_le_of_ne h' hω)]
  exact ⟨(integrable_indicator_le h p 1).congr this.symm, by rw [integral_congr_ae this, integral_indicator_le h p]⟩

theorem keep_length {ρ : Type*} (frac : ℝ) (rows : List ρ) (g : ℕ → ℝ) :
    ((Sv3.keep frac rows (rows.mapIdx fun k _ => g k)).length : ℝ) = (rows.zipIdx.map fun q => if g q.2 < frac then (1 : ℝ) else 0).sum := by
  have : ∀ (l : List (ρ × ℕ)), (((l.map fun q => (q.1, g q.2)).filter fun p => decide (p.2 < frac)).length : ℝ) =
      (l.map fun q => if g q.2 < frac then (1 : ℝ) else 0).sum := by
    intro l
    induction l with
    | nil => simp
    | cons q l ih =>
      rw [List.map_cons, List.filter_cons, List.map_cons, List.sum_cons, ← ih]
      by_cases h : g q.2 < frac <;> simp [h, add_comm]
  unfold Sv3.keep
  rw [List.length_map, ← this]
  congr 3
  rw [List.zip, zipWith_mapIdx]

/-- Numbers of objects in all catalogs. -/
def count {ρ : Type*} (mocks : List (List (List ρ))) : ℕ := (mocks.map fun m => (m.map List.length).sum).sum

/-- C103. The mocks of a region have, on average, as many objects as the data, if there are as many before downsampling, and each
object, of all groups and ranks, has a draw of its own. -/
theorem C103_downsample [IsProbabilityMeasure μ] {ρ : Type} (ndata : ℕ) (mocks : List (List (List ρ))) (h0 : 0 < count mocks)
    (hle : ndata ≤ count mocks) {U : ℕ × ℕ × ℕ → Ω → ℝ} (hU : ∀ i, IsUniform μ (U i)) :
    ∫ ω, (count (Sv3.downsample ndata mocks (mocks.mapIdx fun g m => m.mapIdx fun r rows => rows.mapIdx fun k _ => U (g, r, k) ω)) : ℝ) ∂μ =
      ndata := by
  have hN : (0 : ℝ) < count mocks := by exact_mod_cast h0
  set frac : ℝ := (ndata : ℝ) / count mocks with hfrac
  have hf0 : 0 ≤ frac := by positivity
  have hf1 : frac ≤ 1 := (div_le_one hN).2 (by exact_mod_cast hle)
  have hmm : max 0 (min frac 1) = frac := by rw [min_eq_left hf1, max_eq_right hf0]
  have hcount : ∀ ω, (count (Sv3.downsample ndata mocks (mocks.mapIdx fun g m => m.mapIdx fun r rows => rows.mapIdx fun k _ => U (g, r, k) ω)) : ℝ) =
      (mocks.zipIdx.map fun a => (a.1.zipIdx.map fun b => (b.1.zipIdx.map fun q =>
        if U (a.2, b.2, q.2) ω < frac then (1 : ℝ) else 0).sum).sum).sum := by
    intro ω
    unfold Sv3.downsample count
    simp only
    rw [show Sv3.fraction ndata (mocks.map fun m => (m.map List.length).sum).sum = frac from rfl, zipWith_mapIdx, List.map_map]
    push_cast [List.map_map]
    congr 1
    apply List.map_congr_left
    intro a _
    simp only [Function.comp_apply]
    rw [zipWith_mapIdx, List.map_map]
    push_cast [List.map_map]
    congr 1
    apply List.map_congr_left
    intro b _
    simp only [Function.comp_apply]
    exact keep_length frac b.1 fun k => U (a.2, b.2, k) ω
  simp only [hcount]
  have h1 : ∀ (a : List (List ρ) × ℕ) (b : List ρ × ℕ), Integrable (fun ω => (b.1.zipIdx.map fun q =>
      if U (a.2, b.2, q.2) ω < frac then (1 : ℝ) else 0).sum) μ ∧ ∫ ω, (b.1.zipIdx.map fun q =>
      if U (a.2, b.2, q.2) ω < frac then (1 : ℝ) else 0).sum ∂μ = b.1.length * frac := by
    intro a b
    obtain ⟨i1, i2⟩ := integral_list_sum (μ := μ) b.1.zipIdx (fun q ω => if U (a.2, b.2, q.2) ω < frac then (1 : ℝ) else 0)
      fun q _ => (uniform_lt (hU _) frac).1
    refine ⟨i1, ?_⟩
    rw [i2]
    simp only [(uniform_lt (hU _) frac).2, hmm]
    simp
  have h2 : ∀ (a : List (List ρ) × ℕ), Integrable (fun ω => (a.1.zipIdx.map fun b => (b.1.zipIdx.map fun q =>
        if U (a.2, b.2, q.2) ω < frac then (1 : ℝ) else 0).sum).sum) μ ∧ ∫ ω, (a.1.zipIdx.map fun b => (b.1.zipIdx.map fun q =>
        if U (a.2, b.2, q.2) ω < frac then (1 : ℝ) else 0).sum).sum ∂μ = (a.1.map List.length).sum * frac := by
    intro a
    obtain ⟨i1, i2⟩ := integral_list_sum (μ := μ) a.1.zipIdx _ fun b _ => (h1 a b).1
    refine ⟨i1, ?_⟩
    rw [i2]
    simp only [(h1 a _).2]
    have : (a.1.zipIdx.map fun b => (b.1.length : ℝ) * frac) = a.1.map fun b => (b.length : ℝ) * frac := by
      conv_rhs => rw [← List.zipIdx_map_fst 0 a.1, List.map_map]
      rfl
    rw [this, List.sum_map_mul_right]
    push_cast [List.map_map]
    rfl
  rw [(integral_list_sum (μ := μ) mocks.zipIdx _ fun a _ => (h2 a).1).2]
  simp only [(h2 _).2]
  have : (mocks.zipIdx.map fun a => (((a.1.map List.length).sum : ℕ) : ℝ) * frac) = mocks.map fun a => (((a.map List.length).sum : ℕ) : ℝ) * frac := by
    conv_rhs => rw [← List.zipIdx_map_fst 0 mocks, List.map_map]
    rfl
  rw [this, List.sum_map_mul_right, hfrac]
  have e : (mocks.map fun a => (((a.map List.length).sum : ℕ) : ℝ)).sum = count mocks := by
    unfold count
    rw [Nat.cast_list_sum, List.map_map]
    rfl
  rw [e]
  field_simp

/-- Not vacuous: four objects in two groups, on two ranks. -/
example : count [[[1, 2], [3]], [[], [4]]] = 4 := by decide

/-! ## Blinded catalogs -/

/-- C103. Whatever the permutation, the chance that none of the objects of a set is moved by `shuffle` is at least
(1 - (f_blind / f_fid)²) to the power of their number. -/
theorem C103_shuffle [IsProbabilityMeasure μ] {ptype : String} (h : Known ptype) (blind fid : Cosmo) (z : Option ℝ) (fb ff : ℝ)
    (hb : blind.derived.lookup "f" = some fb) (hf : IsFiducial fid z "f" ff) (h0 : ff ≠ 0) (hle : (fb / ff) ^ 2 ≤ 1)
    {U : ℕ × ℕ → Ω → ℝ} (hU : AreUniform μ U) (shuf : Ω → List ℝ → List ℝ) (hshuf : ∀ ω l, (shuf ω l).Perm l) (ranks : List (List (V3 ℝ)))
    (hr0 : ptype = "pos" ∨ ptype = "xyz" → ∀ rows ∈ ranks, ∀ r ∈ rows, r ≠ 0) (objects : Finset (ℕ × ℕ)) :
    ENNReal.ofReal (1 - (fb / ff) ^ 2) ^ objects.card ≤
      μ {ω | ∃ new : List (List (V3 ℝ)), shuffle ptype none blind fid z (fun sizes => sizes.mapIdx fun i n => (List.range n).map fun j => U (i, j) ω) (shuf ω) none
          (ranks.map (argOf ptype)) = new.map (fun rows => .done (outOf ptype rows)) ∧
        ∀ o ∈ objects, ∀ rows rows', ranks[o.1]? = some rows → new[o.1]? = some rows' → rows'[o.2]? = rows[o.2]?} := by
  set frac := (fb / ff) ^ 2 with hfrac
  have hf0 : 0 ≤ frac := by positivity
  have key : μ (⋂ o ∈ objects, U o ⁻¹' Set.Ioi frac) = ENNReal.ofReal (1 - frac) ^ objects.card := by
    rw [(iIndepFun_iff_measure_inter_preimage_eq_mul.1 hU.2) objects fun i _ => measurableSet_Ioi, ← Finset.prod_const]
    apply Finset.prod_congr rfl
    intro o _
    have := uniform_gt (hU.1 o) frac
    rw [min_eq_left hle, max_eq_right hf0] at this
    exact this
  rw [← key]
  apply measure_mono
  intro ω hω
  simp only [Set.mem_iInter, Set.mem_preimage, Set.mem_Ioi] at hω
  obtain ⟨new, h1, h2⟩ := C48_shuffle_partial h blind fid z fb ff hb hf h0 hle
    (fun sizes => sizes.mapIdx fun i n => (List.range n).map fun j => U (i, j) ω) (fun sizes => by
      apply List.ext_getElem?
      intro k
      rw [List.getElem?_map, List.getElem?_mapIdx]
      cases sizes[k]? <;> simp) (shuf ω) (hshuf ω) ranks hr0
  refine ⟨new, h1, ?_⟩
  rintro ⟨i, j⟩ ho rows rows' hrows hrows'
  rcases lt_or_ge j rows.length with hj | hj
  · obtain ⟨rows₂, h3, h4⟩ := h2.unselected i j ((List.range rows.length).map fun j => U (i, j) ω) (U (i, j) ω) rows'
      (by simp [List.getElem?_mapIdx, hrows]) (by simp [hj]) (hω _ ho).le hrows'
    rw [hrows] at h3
    cases h3
    exact h4
  · rw [List.getElem?_eq_none hj]
    have := h2.rows i
    rw [hrows, hrows'] at this
    simp only [Option.map_some, Option.some.injEq] at this
    exact List.getElem?_eq_none (by omega)

end Verif.Props.Laws
