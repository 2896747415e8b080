import Verif.Model.Seeds
import Verif.Props.Sampling
import Mathlib.MeasureTheory.Constructions.BorelSpace.Real
import Mathlib.MeasureTheory.Measure.Lebesgue.Basic
import Mathlib.MeasureTheory.Measure.Prod

/-!
# C127: different seeds give different draws, and what equal seeds give
-/

namespace Verif.Props.Seeds

open Verif Verif.Model Verif.Model.Seeds Verif.Props MeasureTheory

variable {α : Type} {point : ℕ → ℕ → ℕ → α}

theorem roundSeed_eq (seed t : ℕ) : roundSeed seed t = seed + 1 + t := by
  induction t with
  | zero => rfl
  | succ t ih => rw [roundSeed, ih]; omega

/-! ### Samplings -/

/-- C127: if points drawn with different seeds are different, samples with seeds further apart than the number of rounds of the first have
no point in common, whatever the masks, their selection probabilities and the ranks. -/
theorem C127_apart_partial (hp : ∀ s s' n n' i i', s ≠ s' → point s n i ≠ point s' n' i') {acc acc' : ℕ → ℕ → Bool} {sizes sizes' : List ℕ}
    {seed seed' n n' : ℕ} {out out' : List (List α)} (h : SampleAny point acc sizes seed n (.ok out))
    (h' : SampleAny point acc' sizes' seed' n' (.ok out')) (hs : seed + n ≤ seed') : ∀ x ∈ out.flatten, x ∉ out'.flatten := by
  intro x hx hx'
  obtain ⟨o, ho, hxo⟩ := List.mem_flatten.1 hx
  obtain ⟨o', ho', hxo'⟩ := List.mem_flatten.1 hx'
  obtain ⟨t, ht, i, -, -, e⟩ := C30_accepted _ _ h.2.symm o ho x hxo
  obtain ⟨t', ht', i', -, -, e'⟩ := C30_accepted _ _ h'.2.symm o' ho' x hxo'
  refine hp (roundSeed seed t) (roundSeed seed' t') _ _ i i' ?_ (e.symm.trans e')
  rw [roundSeed_eq, roundSeed_eq]
  omega

/-- C127: samples of masks that keep all the points drawn have no point in common as soon as the seeds are different. -/
theorem C127_uniform (hp : ∀ s s' n n' i i', s ≠ s' → point s n i ≠ point s' n' i') {acc acc' : ℕ → ℕ → Bool} {sizes sizes' : List ℕ}
    {seed seed' n n' : ℕ} {out out' : List (List α)} (h : SampleAny point acc sizes seed n (.ok out))
    (h' : SampleAny point acc' sizes' seed' n' (.ok out')) (ha : ∀ i < sizes.sum, acc 0 i = true) (ha' : ∀ i < sizes'.sum, acc' 0 i = true)
    (hs : seed ≠ seed') : ∀ x ∈ out.flatten, x ∉ out'.flatten := by
  have one : ∀ {sizes : List ℕ} {acc : ℕ → ℕ → Bool} {seed n : ℕ}, (∀ i < sizes.sum, acc 0 i = true) →
      StopsAfter (seededCandidates point seed sizes) acc sizes n → n ≤ 1 := by
    intro sizes acc seed n ha h
    by_cases hz : 0 < sizes.sum
    · exact (C30_stops_unique _ _ h (C31_all_accepted_partial _ _ hz ha).1).le
    · by_contra hn
      have := h.2 0 (by omega)
      omega
  have h1 := one ha h.1
  have h2 := one ha' h'.1
  rcases lt_or_gt_of_ne hs with hlt | hlt
  · exact C127_apart_partial hp h h' (by omega)
  · intro x hx hx'
    exact C127_apart_partial hp h' h (by omega) x hx' hx

/-- Points that the mask keeps among those drawn in the first `k` rounds, one rank. -/
def firstRounds (point : ℕ → ℕ → ℕ → α) (keep : α → Bool) (N seed k : ℕ) : List α :=
  (List.range k).flatMap fun t => ((List.range N).map (point (seed + 1 + t) N)).filter keep

theorem rounds_eq (keep : α → Bool) (N seed n : ℕ) :
    ((List.range n).flatMap fun t => ((List.range N).filter fun i => keep (seededCandidates point seed [N] t i)).map
      fun i => seededCandidates point seed [N] t i) = firstRounds point keep N seed n := by
  unfold firstRounds
  refine List.flatMap_congr fun t _ => ?_
  rw [List.filter_map]
  simp only [seededCandidates, roundSeed_eq, List.sum_cons, List.sum_nil, add_zero]
  rfl

theorem firstRounds_add (keep : α → Bool) (N seed k m : ℕ) :
    firstRounds point keep N seed (k + m) = firstRounds point keep N seed k ++ firstRounds point keep N (seed + k) m := by
  unfold firstRounds
  rw [List.range_add, List.flatMap_append, List.flatMap_map]
  congr 1
  refine List.flatMap_congr fun t _ => ?_
  rw [show seed + 1 + (k + t) = seed + k + 1 + t by omega]

theorem sample_one {keep : α → Bool} {N seed n : ℕ} {out : List (List α)} (h : SampleSeed point keep [N] seed n (.ok out)) :
    out = [(firstRounds point keep N seed n).take N] ∧ N ≤ (firstRounds point keep N seed n).length := by
  refine ⟨?_, ?_⟩
  · rw [C30_sequence _ _ h.2.symm, rounds_eq]
  · have := h.1.1
    rw [heldTotal_eq] at this
    rw [← rounds_eq, List.length_flatMap]
    simpa using this

/-- C127 fails for masks that keep only some of the points drawn: on one process, the sample with one seed is made of the points kept in
its first `k` rounds and then of the points of the sample with that seed plus `k`, in the same order. -/
theorem C127_shared_violated {keep : α → Bool} {N seed k n m : ℕ} {a b : List α} (h : SampleSeed point keep [N] seed n (.ok [a]))
    (h' : SampleSeed point keep [N] (seed + k) m (.ok [b])) : a = (firstRounds point keep N seed k ++ b).take N := by
  obtain ⟨e, hl⟩ := sample_one h
  obtain ⟨e', hl'⟩ := sample_one h'
  rw [List.cons.injEq] at e e'
  rw [e.1, e'.1]
  set A := firstRounds point keep N seed k
  set B := firstRounds point keep N (seed + k) m
  have hB : (A ++ B.take N).take N = (A ++ B).take N := by
    rw [List.take_append, List.take_append, List.take_take]
    congr 2
    omega
  rw [hB, ← firstRounds_add]
  rcases le_total n (k + m) with hn | hn
  · obtain ⟨d, hd⟩ := Nat.exists_eq_add_of_le hn
    rw [hd, firstRounds_add, List.take_append_of_le_length hl]
  · obtain ⟨d, hd⟩ := Nat.exists_eq_add_of_le hn
    have : N ≤ (firstRounds point keep N seed (k + m)).length := by
      rw [firstRounds_add, List.length_append]
      exact hl'.trans (Nat.le_add_left _ _)
    rw [hd, firstRounds_add (k := k + m), List.take_append_of_le_length this]

/-- C127 fails: samples with consecutive seeds have all their points in common but those kept in the first round. -/
theorem C127_next_violated {keep : α → Bool} {N seed n m : ℕ} {a b : List α} (h : SampleSeed point keep [N] seed n (.ok [a]))
    (h' : SampleSeed point keep [N] (seed + 1) m (.ok [b])) :
    a.drop (((List.range N).map (point (seed + 1) N)).filter keep).length =
      b.take (N - (((List.range N).map (point (seed + 1) N)).filter keep).length) := by
  rw [C127_shared_violated h h']
  have e : firstRounds point keep N seed 1 = ((List.range N).map (point (seed + 1) N)).filter keep := by
    simp [firstRounds, List.range_succ]
  rw [e, List.drop_take, List.drop_left]

/-- Four points a round, those with an even number are kept: `(s, i)` is point `i` drawn with seed `s`. -/
example : SampleSeed (fun s _ i => (s, i)) (fun p => p.2 % 2 == 0) [4] 41 2 (.ok [[(42, 0), (42, 2), (43, 0), (43, 2)]]) ∧
    SampleSeed (fun s _ i => (s, i)) (fun p => p.2 % 2 == 0) [4] 42 2 (.ok [[(43, 0), (43, 2), (44, 0), (44, 2)]]) := by
  refine ⟨⟨⟨by decide, by decide⟩, rfl⟩, ⟨⟨by decide, by decide⟩, rfl⟩⟩

/-- The same on two processes. -/
example : SampleSeed (fun s _ i => (s, i)) (fun p => p.2 % 2 == 0) [2, 2] 41 2 (.ok [[(42, 0), (43, 0)], [(42, 2), (43, 2)]]) ∧
    SampleSeed (fun s _ i => (s, i)) (fun p => p.2 % 2 == 0) [2, 2] 42 2 (.ok [[(43, 0), (44, 0)], [(43, 2), (44, 2)]]) := by
  refine ⟨⟨⟨by decide, by decide⟩, rfl⟩, ⟨⟨by decide, by decide⟩, rfl⟩⟩

/-- Samples of all the points drawn, with consecutive seeds. -/
example : SampleAny (fun s _ i => (s, i)) (fun _ _ => true) [2] 41 1 (.ok [[(42, 0), (42, 1)]]) ∧
    SampleAny (fun s _ i => (s, i)) (fun _ _ => true) [2] 42 1 (.ok [[(43, 0), (43, 1)]]) := by
  refine ⟨⟨⟨by decide, by decide⟩, rfl⟩, ⟨⟨by decide, by decide⟩, rfl⟩⟩

/-! ### Selections -/

theorem maskSeed_get (u : ℕ → ℕ → ℝ) (seed : ℕ) (prob : List ℝ) {i : ℕ} (hi : i < prob.length) :
    (maskSeed u seed prob)[i]? = some (decide (u seed i ≤ prob[i])) := by
  unfold maskSeed maskCall
  rw [List.getElem?_zipWith, List.getElem?_eq_getElem hi, List.getElem?_map, List.getElem?_range hi]
  rfl

/-- C127: two masks with different seeds, the draws of which are independent and uniform, both keep a row with the product of the selection
probabilities. -/
theorem C127_independent {p q : ℝ} (hp : p ∈ Set.Icc 0 1) (hq : q ∈ Set.Icc 0 1) :
    ((volume.restrict (Set.Ico (0 : ℝ) 1)).prod (volume.restrict (Set.Ico (0 : ℝ) 1))) {v | v.1 ≤ p ∧ v.2 ≤ q} = ENNReal.ofReal (p * q) := by
  have one : ∀ {p : ℝ}, p ∈ Set.Icc (0 : ℝ) 1 → (volume.restrict (Set.Ico (0 : ℝ) 1)) (Set.Iic p) = ENNReal.ofReal p := by
    intro p hp
    rw [Measure.restrict_congr_set Ico_ae_eq_Icc, Measure.restrict_apply measurableSet_Iic]
    have : Set.Iic p ∩ Set.Icc (0 : ℝ) 1 = Set.Icc 0 p := by
      ext x
      simp only [Set.mem_inter_iff, Set.mem_Iic, Set.mem_Icc]
      constructor
      · rintro ⟨a, b, c⟩; exact ⟨b, a⟩
      · rintro ⟨a, b⟩; exact ⟨b, a, b.trans hp.2⟩
    rw [this, Real.volume_Icc, sub_zero]
  have e : {v : ℝ × ℝ | v.1 ≤ p ∧ v.2 ≤ q} = Set.Iic p ×ˢ Set.Iic q := by
    ext v; exact Iff.rfl
  rw [e, Measure.prod_prod, one hp, one hq, ENNReal.ofReal_mul hp.1]

/-- C127 fails for masks called with the same seed: both keep a row exactly if the one of smaller probability does. -/
theorem C127_same_seed_violated (u : ℕ → ℕ → ℝ) (seed : ℕ) {prob prob' : List ℝ} {i : ℕ} (hi : i < prob.length) (hi' : i < prob'.length) :
    (maskSeed u seed prob)[i]? = some true ∧ (maskSeed u seed prob')[i]? = some true ↔ u seed i ≤ min prob[i] prob'[i] := by
  rw [maskSeed_get _ _ _ hi, maskSeed_get _ _ _ hi', le_min_iff]
  simp

/-- C127 fails for masks called with the same seed: the probability that both keep a row is the smaller of the probabilities, above their
product as soon as none of them is 0 or 1. -/
theorem C127_same_seed_probability_violated {p q : ℝ} (hp : p ∈ Set.Ioo (0 : ℝ) 1) (hq : q ∈ Set.Ioo (0 : ℝ) 1) :
    (volume.restrict (Set.Ico (0 : ℝ) 1)) {v | v ≤ p ∧ v ≤ q} = ENNReal.ofReal (min p q) ∧ p * q < min p q := by
  constructor
  · rw [Measure.restrict_congr_set Ico_ae_eq_Icc]
    have e : {v : ℝ | v ≤ p ∧ v ≤ q} = Set.Iic (min p q) := by ext v; simp
    rw [e, Measure.restrict_apply measurableSet_Iic]
    have : Set.Iic (min p q) ∩ Set.Icc (0 : ℝ) 1 = Set.Icc 0 (min p q) := by
      ext x
      simp only [Set.mem_inter_iff, Set.mem_Iic, Set.mem_Icc]
      constructor
      · rintro ⟨a, b, c⟩; exact ⟨b, a⟩
      · rintro ⟨a, b⟩; exact ⟨b, a, b.trans ((min_le_left _ _).trans hp.2.le)⟩
    rw [this, Real.volume_Icc, sub_zero]
  · rw [lt_min_iff]
    exact ⟨by nlinarith [hp.1, hq.2], by nlinarith [hq.1, hp.2]⟩

/-- C127: a mask called again with the same seed on the same rows decides the same. -/
theorem C127_repeat (u : ℕ → ℕ → ℝ) (seed : ℕ) (prob : List ℝ) :
    List.zipWith (· && ·) (maskSeed u seed prob) (maskSeed u seed prob) = maskSeed u seed prob := by
  apply List.ext_getElem
  · simp
  · intro i _ _
    simp

example : (1 / 2 : ℝ) ∈ Set.Ioo (0 : ℝ) 1 := by norm_num

/-! ### The seeds of the script -/

/-- C127: all the seeds of the script, for its three regions, are different. -/
theorem C127_script_seeds : ((List.range 3).flatMap scriptSeeds).Nodup := by decide

/-- C127: the redshifts of the randoms of two regions of the script have no draw in common if the first takes at most 276 rounds. -/
theorem C127_script_redshifts_partial (hp : ∀ s s' n n' i i', s ≠ s' → point s n i ≠ point s' n' i') {acc acc' : ℕ → ℕ → Bool}
    {sizes sizes' : List ℕ} {i j n n' : ℕ} {out out' : List (List α)} (hij : i < j)
    (h : SampleAny point acc sizes ((792 + i) * 276) n (.ok out)) (h' : SampleAny point acc' sizes' ((792 + j) * 276) n' (.ok out'))
    (hn : n ≤ 276) : ∀ x ∈ out.flatten, x ∉ out'.flatten :=
  C127_apart_partial hp h h' (by nlinarith)

end Verif.Props.Seeds
