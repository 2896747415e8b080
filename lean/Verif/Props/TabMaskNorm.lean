import Verif.Props.TabMask
import Mathlib.Topology.Order.IntermediateValue

/-!
# C32, C33: conversion of a tabulated radial mask to another cosmology; normalisation to a target fraction
-/

namespace Verif.Props
open Verif Verif.Model

/-! ### Conversion -/

theorem shells_get {e : List ℝ} {d : ℝ → ℝ} {i : ℕ} {v : ℝ} : (TabMask.shells (e.map d))[i]? = some v ↔
    ∃ a b, e[i]? = some a ∧ e[i + 1]? = some b ∧ v = d b ^ 3 - d a ^ 3 := by
  unfold TabMask.shells
  rw [← List.map_tail, List.zip_map, List.map_map, List.getElem?_map, Option.map_eq_some_iff]
  constructor
  · rintro ⟨p, hp, rfl⟩
    rw [List.getElem?_zip_eq_some] at hp
    exact ⟨p.1, p.2, hp.1, by simpa using hp.2, rfl⟩
  · rintro ⟨a, b, ha, hb, rfl⟩
    exact ⟨(a, b), by rw [List.getElem?_zip_eq_some]; exact ⟨ha, by simpa using hb⟩, rfl⟩

/-- The edges used: given, or in the middle of the tabulated redshifts. -/
noncomputable def usedEdges (t : TabMask) (zedges : Option (List ℝ)) : List ℝ :=
  zedges.getD (TabMask.defaultEdges (t.nodes.map (·.1)))

theorem defaultEdges_length {zs : List ℝ} (h : zs ≠ []) : (TabMask.defaultEdges zs).length = zs.length + 1 := by
  cases zs with
  | nil => simp at h
  | cons a l =>
    unfold TabMask.defaultEdges
    rw [List.getLast?_eq_getLast_of_ne_nil (by simp)]
    simp

theorem prepare_ok {nodes : List (ℝ × ℝ)} {zrange : Range} {t : TabMask} (h : TabMask.prepare nodes zrange none = .ok t) :
    t.nodes = nodes ∧ t.zrange = zrange ∧ TabMask.defaultNorm nodes zrange = .ok t.norm ∧ 2 ≤ nodes.length ∧ Inc nodes := by
  unfold TabMask.prepare at h
  cases hs : splineArgs nodes with
  | error e => rw [hs] at h; simp [bind, Except.bind] at h
  | ok u =>
    rw [hs] at h
    simp only [bind, Except.bind] at h
    cases hd : TabMask.defaultNorm nodes zrange with
    | error e => rw [hd] at h; simp at h
    | ok c =>
      rw [hd] at h
      simp only [Except.ok.injEq] at h
      subst h
      exact ⟨rfl, rfl, rfl, splineArgs_ok hs⟩

theorem convert_ok {t t' : TabMask} {dself dtarget : ℝ → ℝ} {zedges : Option (List ℝ)}
    (h : t.convertToCosmo dself dtarget zedges = .ok t') :
    (usedEdges t zedges).length - 1 = t.nodes.length ∧
    (∀ v ∈ TabMask.shells ((usedEdges t zedges).map dtarget), v ≠ 0) ∧
    TabMask.prepare (List.zipWith (fun p v => (p.1, p.2 * v.1 / v.2)) t.nodes
      (List.zip (TabMask.shells ((usedEdges t zedges).map dself)) (TabMask.shells ((usedEdges t zedges).map dtarget))))
      t.zrange none = .ok t' := by
  unfold TabMask.convertToCosmo at h
  simp only at h
  split at h
  · simp at h
  · rename_i hlen
    split at h
    · simp at h
    · rename_i hv
      push Not at hlen hv
      refine ⟨?_, hv, h⟩
      rw [← hlen]
      simp [TabMask.shells, usedEdges]

/-- C32. In every shell the expected number (density times volume) is unchanged; redshifts and range are unchanged. -/
theorem C32_counts {t t' : TabMask} {dself dtarget : ℝ → ℝ} {zedges : Option (List ℝ)}
    (h : t.convertToCosmo dself dtarget zedges = .ok t') :
    t'.zrange = t.zrange ∧ t'.nodes.length = t.nodes.length ∧ (usedEdges t zedges).length = t.nodes.length + 1 ∧
    ∀ (i : ℕ) z n, t.nodes[i]? = some (z, n) → ∃ n' a b, t'.nodes[i]? = some (z, n') ∧
      (usedEdges t zedges)[i]? = some a ∧ (usedEdges t zedges)[i + 1]? = some b ∧
      n' * (dtarget b ^ 3 - dtarget a ^ 3) = n * (dself b ^ 3 - dself a ^ 3) := by
  obtain ⟨hlen, hv, hp⟩ := convert_ok h
  obtain ⟨hn, hz, -, h2, -⟩ := prepare_ok hp
  have hpos : 0 < t.nodes.length := by
    by_contra hc
    have : t.nodes = [] := List.length_eq_zero_iff.1 (by omega)
    rw [this] at h2; simp at h2
  have hs : ∀ d : ℝ → ℝ, (TabMask.shells ((usedEdges t zedges).map d)).length = t.nodes.length := by
    intro d
    simp only [TabMask.shells, List.length_map, List.length_zip, List.length_tail]
    omega
  refine ⟨hz, by rw [hn]; simp [hs], by omega, ?_⟩
  intro i z n hi
  have hlt : i < t.nodes.length := (List.getElem?_eq_some_iff.1 hi).1
  obtain ⟨a, ha⟩ : ∃ a, (usedEdges t zedges)[i]? = some a := ⟨_, List.getElem?_eq_getElem (by omega)⟩
  obtain ⟨b, hb⟩ : ∃ b, (usedEdges t zedges)[i + 1]? = some b := ⟨_, List.getElem?_eq_getElem (by omega)⟩
  have h1 := shells_get.2 ⟨a, b, ha, hb, (rfl : dself b ^ 3 - dself a ^ 3 = _)⟩
  have h3 := shells_get.2 ⟨a, b, ha, hb, (rfl : dtarget b ^ 3 - dtarget a ^ 3 = _)⟩
  refine ⟨n * (dself b ^ 3 - dself a ^ 3) / (dtarget b ^ 3 - dtarget a ^ 3), a, b, ?_, ha, hb, ?_⟩
  · rw [hn, List.getElem?_zipWith, hi]
    have : (List.zip (TabMask.shells ((usedEdges t zedges).map dself)) (TabMask.shells ((usedEdges t zedges).map dtarget)))[i]? =
        some (dself b ^ 3 - dself a ^ 3, dtarget b ^ 3 - dtarget a ^ 3) := List.getElem?_zip_eq_some.2 ⟨h1, h3⟩
    rw [this]
  · exact div_mul_cancel₀ _ (hv _ (List.mem_of_getElem? h3))

/-- C32. The default edges: the limits of the table, and the middles of consecutive redshifts. -/
theorem C32_default_edges {t : TabMask} {a b : ℝ × ℝ} (ha : t.nodes.head? = some a) (hb : t.nodes.getLast? = some b) :
    (usedEdges t none).head? = some a.1 ∧ (usedEdges t none).getLast? = some b.1 ∧
    ∀ (i : ℕ) p q, t.nodes[i]? = some p → t.nodes[i + 1]? = some q → (usedEdges t none)[i + 1]? = some ((p.1 + q.1) / 2) := by
  have hne : t.nodes ≠ [] := by rintro h; rw [h] at ha; simp at ha
  have e : usedEdges t none = a.1 :: (List.zip (t.nodes.map (·.1)) (t.nodes.map (·.1)).tail).map
      (fun e => (e.1 + e.2) / 2) ++ [b.1] := by
    unfold usedEdges TabMask.defaultEdges
    rw [Option.getD_none, List.head?_map, List.getLast?_map, ha, hb]
    rfl
  rw [e]
  refine ⟨rfl, List.getLast?_concat .., ?_⟩
  intro i p q hp hq
  have : (List.zip (t.nodes.map (·.1)) (t.nodes.map (·.1)).tail)[i]? = some (p.1, q.1) := by
    rw [List.getElem?_zip_eq_some]
    simp [hp, hq]
  rw [List.cons_append, List.getElem?_cons_succ, List.getElem?_append_left, List.getElem?_map, this]
  · rfl
  · rw [List.length_map]
    exact (List.getElem?_eq_some_iff.1 this).1

/-- C32. Converting to another cosmology and back restores the table (with default normalisation, the whole mask), as soon as
no shell is empty in the original cosmology. -/
theorem C32_back {t t' : TabMask} {dself dtarget : ℝ → ℝ} {zedges : Option (List ℝ)}
    (h : t.convertToCosmo dself dtarget zedges = .ok t') (hnorm : TabMask.defaultNorm t.nodes t.zrange = .ok t.norm)
    (hv : ∀ (i : ℕ) a b, (usedEdges t zedges)[i]? = some a → (usedEdges t zedges)[i + 1]? = some b → dself a ^ 3 ≠ dself b ^ 3) :
    t'.convertToCosmo dtarget dself zedges = .ok t := by
  obtain ⟨hz, hlen, hel, hc⟩ := C32_counts h
  obtain ⟨-, hvt, hp⟩ := convert_ok h
  obtain ⟨hn, -, -, h2, hinc⟩ := prepare_ok hp
  have hzs : t'.nodes.map (·.1) = t.nodes.map (·.1) := by
    apply List.ext_getElem? 
    intro i
    rw [List.getElem?_map, List.getElem?_map]
    cases hi : t.nodes[i]? with
    | none => rw [List.getElem?_eq_none_iff.2 (by rw [hlen]; exact List.getElem?_eq_none_iff.1 hi)]
    | some p =>
      obtain ⟨n', a, b, h1, -⟩ := hc i p.1 p.2 hi
      rw [h1]; rfl
  have hedges : usedEdges t' zedges = usedEdges t zedges := by unfold usedEdges; rw [hzs]
  have hs : ∀ d : ℝ → ℝ, (TabMask.shells ((usedEdges t zedges).map d)).length = t.nodes.length := by
    intro d
    simp only [TabMask.shells, List.length_map, List.length_zip, List.length_tail]
    omega
  have hvs : ∀ v ∈ TabMask.shells ((usedEdges t zedges).map dself), v ≠ 0 := by
    intro v hvm
    obtain ⟨i, hi⟩ := List.mem_iff_getElem?.1 hvm
    obtain ⟨a, b, ha, hb, rfl⟩ := shells_get.1 hi
    have := hv i a b ha hb
    intro h0
    exact this (by linarith)
  have hnodes : List.zipWith (fun p v => (p.1, p.2 * v.1 / v.2)) t'.nodes
      (List.zip (TabMask.shells ((usedEdges t zedges).map dtarget)) (TabMask.shells ((usedEdges t zedges).map dself))) =
      t.nodes := by
    apply List.ext_getElem?
    intro i
    cases hi : t.nodes[i]? with
    | none =>
      rw [List.getElem?_eq_none_iff] at hi ⊢
      simp only [List.length_zipWith]
      omega
    | some p =>
      obtain ⟨n', a, b, h1, ha, hb, he⟩ := hc i p.1 p.2 hi
      have s1 := shells_get.2 ⟨a, b, ha, hb, (rfl : dself b ^ 3 - dself a ^ 3 = _)⟩
      have s2 := shells_get.2 ⟨a, b, ha, hb, (rfl : dtarget b ^ 3 - dtarget a ^ 3 = _)⟩
      have hz : (List.zip (TabMask.shells ((usedEdges t zedges).map dtarget)) (TabMask.shells ((usedEdges t zedges).map dself)))[i]?
        = some (dtarget b ^ 3 - dtarget a ^ 3, dself b ^ 3 - dself a ^ 3) := List.getElem?_zip_eq_some.2 ⟨s2, s1⟩
      rw [List.getElem?_zipWith, h1, hz]
      simp only [Option.some.injEq]
      have hne := hvs _ (List.mem_of_getElem? s1)
      rw [he, mul_div_assoc, div_self hne, mul_one]
  have hinct : Inc t.nodes := by
    unfold Inc at hinc ⊢
    rw [← hn, hzs] at hinc
    exact hinc
  have h2t : 2 ≤ t.nodes.length := by rw [← hlen, hn]; exact h2
  unfold TabMask.convertToCosmo
  simp only
  change (if (TabMask.shells ((usedEdges t' zedges).map dtarget)).length ≠ t'.nodes.length then _ else
    if ∃ v ∈ TabMask.shells ((usedEdges t' zedges).map dself), v = 0 then _ else
    TabMask.prepare (List.zipWith (fun p v => (p.1, p.2 * v.1 / v.2)) t'.nodes
      (List.zip (TabMask.shells ((usedEdges t' zedges).map dtarget)) (TabMask.shells ((usedEdges t' zedges).map dself))))
      t'.zrange none) = _
  rw [hedges, if_neg (by rw [hs, hlen]; simp), if_neg (by push Not; exact hvs), hnodes, hz]
  unfold TabMask.prepare splineArgs
  rw [if_pos ⟨h2t, hinct⟩]
  simp only [bind, Except.bind, hnorm]

/-- C32. A number of edges that does not match the table is rejected. -/
theorem C32_mismatch {t : TabMask} {e : List ℝ} (h : e.length ≠ t.nodes.length + 1) (h0 : t.nodes ≠ []) (dself dtarget : ℝ → ℝ) :
    t.convertToCosmo dself dtarget (some e) = .error .valueError := by
  unfold TabMask.convertToCosmo
  simp only [Option.getD_some]
  rw [if_pos]
  have : 0 < t.nodes.length := List.length_pos_of_ne_nil h0
  simp only [TabMask.shells, List.length_map, List.length_zip, List.length_tail]
  omega

/-- A table converted to a cosmology with distances twice as large: the density is divided by eight. -/
example : ∃ t', (⟨[(0, 8), (1, 8), (2, 16)], (0, 2), 1 / 16⟩ : TabMask).convertToCosmo (fun z => z) (fun z => 2 * z) none = .ok t' ∧
    t'.nodes = [(0, 1), (1, 1), (2, 2)] := by
  have hs : ∀ d : ℝ → ℝ, TabMask.shells ((TabMask.defaultEdges [(0 : ℝ), 1, 2]).map d) =
      [d (1 / 2) ^ 3 - d 0 ^ 3, d (3 / 2) ^ 3 - d (1 / 2) ^ 3, d 2 ^ 3 - d (3 / 2) ^ 3] := by
    intro d
    norm_num [TabMask.shells, TabMask.defaultEdges]
  have ht : Table [((0 : ℝ), (1 : ℝ)), (1, 1), (2, 2)] :=
    ⟨by unfold Inc; norm_num, by simp, by intro p hp; simp at hp; rcases hp with rfl | rfl | rfl <;> norm_num⟩
  obtain ⟨t, h, hr, hn⟩ := C29_defined ht (zrange := (0, 2)) ⟨(0, 1), (2, 2), rfl, rfl, by norm_num, by norm_num⟩ (p := (1, 1))
    (by simp) (by norm_num) (by norm_num) (by norm_num)
  refine ⟨t, ?_, hn⟩
  have hd := (init_ok h).2.2.2.2.2.1 rfl
  rw [hr] at hd
  unfold TabMask.convertToCosmo
  simp only [Option.getD_none, List.map_cons, List.map_nil]
  rw [hs, hs, if_neg (by simp), if_neg (by norm_num)]
  norm_num
  unfold TabMask.prepare splineArgs
  rw [if_pos ⟨ht.two, ht.inc⟩]
  simp only [bind, Except.bind, hd]
  rw [← hn, ← hr]

/-! ### Normalisation -/

/-- Probability as a function of the normalisation. -/
noncomputable def probAt (t : TabMask) (c z : ℝ) : ℝ := ({ t with norm := c } : TabMask).prob z

/-- Redshifts are selected through a formula on the segment of the table. -/
theorem probAt_cases {t : TabMask} (ht : Table t.nodes) (z : ℝ) : (∀ c, probAt t c z = 0) ∨
    ∃ w y0 y1, 0 ≤ w ∧ w ≤ 1 ∧ 0 ≤ y0 ∧ 0 ≤ y1 ∧ ∀ c, probAt t c z = (1 - w) * min (c * y0) 1 + w * min (c * y1) 1 := by
  by_cases hz : t.zrange.1 ≤ z ∧ z ≤ t.zrange.2
  · cases hl : linInterp t.nodes z with
    | none =>
      left
      intro c
      unfold probAt TabMask.prob
      rw [if_pos hz]
      cases hl' : linInterp (TabMask.probNodes c t.nodes) z with
      | none => rfl
      | some y =>
        obtain ⟨l, p, q, r, e, h1, h2, -⟩ := linInterp_onSegment hl'
        exfalso
        unfold TabMask.probNodes at e
        rw [List.map_eq_append_iff] at e
        obtain ⟨l', r', e1, -, e2⟩ := e
        rw [List.map_eq_cons_iff] at e2
        obtain ⟨p', r'', e3, e4, e5⟩ := e2
        rw [List.map_eq_cons_iff] at e5
        obtain ⟨q', r''', e6, e7, -⟩ := e5
        have : OnSegment t.nodes z _ := ⟨l', p', q', r''', by rw [e1, e3, e6], by rw [← e4] at h1; exact h1,
          by rw [← e7] at h2; exact h2, rfl⟩
        rw [onSegment_linInterp ht.inc this] at hl
        simp at hl
    | some y =>
      right
      obtain ⟨l, p, q, r, e, h1, h2, -⟩ := linInterp_onSegment hl
      have hpq : p.1 < q.1 := by have := ht.inc; rw [e] at this; exact this.seg
      obtain ⟨w0, w1⟩ := seg_weight h1 h2 hpq
      refine ⟨(z - p.1) / (q.1 - p.1), p.2, q.2, w0, w1, ht.nonneg p (by rw [e]; simp), ht.nonneg q (by rw [e]; simp), ?_⟩
      intro c
      unfold probAt TabMask.prob
      rw [if_pos hz, probNodes_onSegment ht.inc c e h1 h2, Option.getD_some]
      ring
  · left
    intro c
    unfold probAt TabMask.prob
    rw [if_neg hz]

theorem probAt_monotone {t : TabMask} (ht : Table t.nodes) (z : ℝ) : Monotone fun c => probAt t c z := by
  rcases probAt_cases ht z with h | ⟨w, y0, y1, w0, w1, h0, h1, h⟩
  · intro a b _
    simp [h]
  · intro a b hab
    simp only [h]
    have e0 : min (a * y0) 1 ≤ min (b * y0) 1 := min_le_min_right _ (mul_le_mul_of_nonneg_right hab h0)
    have e1 : min (a * y1) 1 ≤ min (b * y1) 1 := min_le_min_right _ (mul_le_mul_of_nonneg_right hab h1)
    have := mul_le_mul_of_nonneg_left e0 (sub_nonneg.2 w1)
    have := mul_le_mul_of_nonneg_left e1 w0
    linarith

theorem probAt_continuous {t : TabMask} (ht : Table t.nodes) (z : ℝ) : Continuous fun c => probAt t c z := by
  rcases probAt_cases ht z with h | ⟨w, y0, y1, -, -, -, -, h⟩
  · simp only [h]; exact continuous_const
  · simp only [h]; fun_prop

theorem probAt_zero {t : TabMask} (ht : Table t.nodes) (z : ℝ) : probAt t 0 z = 0 := by
  rcases probAt_cases ht z with h | ⟨w, y0, y1, -, -, -, -, h⟩
  · exact h 0
  · rw [h]; simp

/-- Weighted mean of the selection probability: the expected fraction of the weight of the sample that is selected. -/
noncomputable def fraction (t : TabMask) (c : ℝ) (sample : List (ℝ × ℝ)) : ℝ :=
  (sample.map fun s => probAt t c s.1 * s.2).sum / (sample.map (·.2)).sum

theorem zipWith_sample (f : ℝ → ℝ → ℝ) (sample : List (ℝ × ℝ)) :
    List.zipWith f (sample.map (·.1)) (sample.map (·.2)) = sample.map fun s => f s.1 s.2 := by
  induction sample with
  | nil => rfl
  | cons a l ih => simp [ih]

/-- `integral` is the selected fraction. -/
theorem C33_integral (t : TabMask) (sample : List (ℝ × ℝ)) (hs : (sample.map (·.2)).sum ≠ 0) :
    t.integral (sample.map (·.1)) (some (sample.map (·.2))) true = .ok (fraction t t.norm sample) := by
  unfold TabMask.integral
  simp only [if_true]
  rw [if_neg hs, zipWith_sample]
  unfold fraction
  have : (fun s : ℝ × ℝ => t.prob s.1 * (s.2 / (sample.map (·.2)).sum)) =
      fun s : ℝ × ℝ => (probAt t t.norm s.1 * s.2) * ((sample.map (·.2)).sum)⁻¹ := by
    funext s
    rw [div_eq_mul_inv, ← mul_assoc]
    rfl
  rw [this, List.sum_map_mul_right, div_eq_mul_inv]

/-- C33. The selected fraction never decreases with the normalisation (non-negative weights), from 0. -/
theorem C33_monotone {t : TabMask} (ht : Table t.nodes) {sample : List (ℝ × ℝ)} (hw : ∀ s ∈ sample, 0 ≤ s.2) :
    Monotone (fun c => fraction t c sample) ∧ fraction t 0 sample = 0 := by
  constructor
  · intro a b hab
    unfold fraction
    apply div_le_div_of_nonneg_right _ (List.sum_nonneg (by simpa using fun x y h => hw (y, x) h))
    apply List.sum_le_sum
    intro s hs
    exact mul_le_mul_of_nonneg_right (probAt_monotone ht s.1 hab) (hw s hs)
  · unfold fraction
    have : (fun s : ℝ × ℝ => probAt t 0 s.1 * s.2) = fun _ => 0 := by funext s; rw [probAt_zero ht, zero_mul]
    rw [this]
    simp

/-- C33. The selected fraction is a continuous function of the normalisation. -/
theorem C33_continuous {t : TabMask} (ht : Table t.nodes) (sample : List (ℝ × ℝ)) : Continuous fun c => fraction t c sample := by
  unfold fraction
  apply Continuous.div_const
  induction sample with
  | nil => simpa using continuous_const
  | cons a l ih =>
    simp only [List.map_cons, List.sum_cons]
    exact ((probAt_continuous ht a.1).mul continuous_const).add ih

theorem selected_weighted (t : TabMask) (sample : List (ℝ × ℝ)) (c : ℝ) :
    t.selected (sample.map (·.1)) (some ((sample.map (·.2)).map (· / (sample.map (·.2)).sum))) c = .ok (fraction t c sample) := by
  unfold TabMask.selected TabMask.integral
  simp only [Bool.false_eq_true, if_false]
  rw [List.zipWith_map_right, zipWith_sample]
  have : (fun s : ℝ × ℝ => ({ t with norm := c } : TabMask).prob s.1 * (s.2 / (sample.map (·.2)).sum)) =
      fun s : ℝ × ℝ => (probAt t c s.1 * s.2) * ((sample.map (·.2)).sum)⁻¹ := by
    funext s
    rw [div_eq_mul_inv, ← mul_assoc]
    rfl
  rw [this, List.sum_map_mul_right]
  unfold fraction
  rw [div_eq_mul_inv]

/-- The lowest positive density. -/
theorem minPositive_pos {nodes : List (ℝ × ℝ)} {m : ℝ} (h : TabMask.minPositive nodes = some m) :
    0 < m ∧ m ∈ nodes.map (·.2) ∧ ∀ p ∈ nodes, 0 < p.2 → m ≤ p.2 := by
  unfold TabMask.minPositive at h
  split at h
  · simp at h
  · rename_i y l he
    simp only [Option.some.injEq] at h
    obtain ⟨h1, h2⟩ := foldl_min_spec y l
    rw [h, ← he] at h1
    simp only [List.mem_filter, decide_eq_true_eq] at h1
    refine ⟨h1.2, h1.1, ?_⟩
    intro p hp hpos
    rw [← h]
    apply h2
    rw [← he]
    simp only [List.mem_filter, decide_eq_true_eq]
    exact ⟨List.mem_map_of_mem hp, hpos⟩

/-- C33. Weights given: a target between 0 and the fraction selected with the highest normalisation considered (that for which
every tabulated positive density is selected with probability 1) is met. -/
theorem C33_met {t : TabMask} (ht : Table t.nodes) {sample : List (ℝ × ℝ)} (hs : (sample.map (·.2)).sum ≠ 0) {target m : ℝ} (h0 : 0 < target) (h1 : target ≤ 1)
    (hm : TabMask.minPositive t.nodes = some m) (htar : target ≤ fraction t (1 / m) sample) :
    (∃ result, t.normalize target (sample.map (·.1)) (some (sample.map (·.2))) result) ∧
    ∀ result, t.normalize target (sample.map (·.1)) (some (sample.map (·.2))) result → ∃ t', result = .ok t' ∧
      t'.nodes = t.nodes ∧ t'.zrange = t.zrange ∧ 0 ≤ t'.norm ∧
      t'.integral (sample.map (·.1)) (some (sample.map (·.2))) true = .ok target := by
  have hmp := (minPositive_pos hm).1
  have hf0 : fraction t 0 sample = 0 := by
    unfold fraction
    have : (fun s : ℝ × ℝ => probAt t 0 s.1 * s.2) = fun _ => 0 := by funext s; rw [probAt_zero ht, zero_mul]
    rw [this]
    simp
  have hunf : ∀ result, t.normalize target (sample.map (·.1)) (some (sample.map (·.2))) result ↔
      ∃ c, 0 ≤ c ∧ c ≤ 1 / m ∧ fraction t c sample = target ∧ result = .ok { t with norm := c } := by
    intro result
    unfold TabMask.normalize TabMask.normalizeWeights
    rw [if_neg (by push Not; exact ⟨h0.le, h1⟩), if_neg h0.ne']
    simp only
    rw [if_neg hs]
    simp only [hm, selected_weighted, Except.ok.injEq]
    have hsign : ¬ 0 < (fraction t 0 sample / target - 1) * (fraction t (1 / m) sample / target - 1) := by
      rw [hf0, not_lt]
      have : 1 ≤ fraction t (1 / m) sample / target := by rw [le_div_iff₀ h0]; linarith
      rw [zero_div]
      linarith
    constructor
    · rintro ⟨f0, f1, e0, e1, h⟩
      rw [if_neg (by rw [← e0, ← e1]; exact hsign)] at h
      exact h
    · intro h
      exact ⟨_, _, rfl, rfl, by rw [if_neg hsign]; exact h⟩
  constructor
  · obtain ⟨c, ⟨hc0, hc1⟩, hc⟩ := intermediate_value_Icc (one_div_pos.2 hmp).le (C33_continuous ht sample).continuousOn
      (show target ∈ Set.Icc (fraction t 0 sample) (fraction t (1 / m) sample) from ⟨by rw [hf0]; exact h0.le, htar⟩)
    exact ⟨_, (hunf _).2 ⟨c, hc0, hc1, hc, rfl⟩⟩
  · intro result h
    obtain ⟨c, hc0, hc1, hc, rfl⟩ := (hunf result).1 h
    refine ⟨_, rfl, rfl, rfl, hc0, ?_⟩
    rw [C33_integral _ _ hs]
    congr 1

/-- C33. Targets beyond the fraction selected with the highest normalisation are rejected. -/
theorem C33_too_high {t : TabMask} (ht : Table t.nodes) {sample : List (ℝ × ℝ)} (hs : (sample.map (·.2)).sum ≠ 0)
    {target m : ℝ} (h0 : 0 < target) (h1 : target ≤ 1)
    (hm : TabMask.minPositive t.nodes = some m) (htar : fraction t (1 / m) sample < target) (result : Except Err TabMask) :
    t.normalize target (sample.map (·.1)) (some (sample.map (·.2))) result ↔ result = .error .valueError := by
  have hf0 : fraction t 0 sample = 0 := by
    unfold fraction
    have : (fun s : ℝ × ℝ => probAt t 0 s.1 * s.2) = fun _ => 0 := by funext s; rw [probAt_zero ht, zero_mul]
    rw [this]
    simp
  unfold TabMask.normalize TabMask.normalizeWeights
  rw [if_neg (by push Not; exact ⟨h0.le, h1⟩), if_neg h0.ne']
  simp only
  rw [if_neg hs]
  simp only [hm, selected_weighted, Except.ok.injEq]
  have hsign : 0 < (fraction t 0 sample / target - 1) * (fraction t (1 / m) sample / target - 1) := by
    rw [hf0]
    have : fraction t (1 / m) sample / target < 1 := by rw [div_lt_one h0]; exact htar
    rw [zero_div]
    linarith
  constructor
  · rintro ⟨f0, f1, e0, e1, h⟩
    rw [if_pos (by rw [← e0, ← e1]; exact hsign)] at h
    exact h
  · intro h
    exact ⟨_, _, rfl, rfl, by rw [if_pos hsign]; exact h⟩

/-- C33. Targets outside [0, 1] are rejected. -/
theorem C33_rejects (t : TabMask) {target : ℝ} (h : target < 0 ∨ 1 < target) (z : List ℝ) (w : Option (List ℝ))
    (result : Except Err TabMask) : t.normalize target z w result ↔ result = .error .valueError := by
  unfold TabMask.normalize
  rw [if_pos]
  rintro ⟨h1, h2⟩
  rcases h with h | h <;> linarith

/-- C33. Weights only matter up to a constant. -/
theorem C33_weights (t : TabMask) (target : ℝ) (z w : List ℝ) {k : ℝ} (hk : k ≠ 0) (result : Except Err TabMask) :
    (t.normalize target z (some (w.map (k * ·))) result ↔ t.normalize target z (some w) result) ∧
    t.integral z (some (w.map (k * ·))) true = t.integral z (some w) true := by
  have hsum : (w.map (k * ·)).sum = k * w.sum := by
    rw [List.sum_map_mul_left (f := fun x => x)]
    simp
  constructor
  · have : TabMask.normalizeWeights (some (w.map (k * ·))) = TabMask.normalizeWeights (some w) := by
      unfold TabMask.normalizeWeights
      simp only [hsum]
      by_cases h : w.sum = 0
      · rw [if_pos (by rw [h, mul_zero]), if_pos h]
      · rw [if_neg (mul_ne_zero hk h), if_neg h, List.map_map]
        congr 3
        funext x
        simp only [Function.comp]
        rw [mul_div_mul_left _ _ hk]
    unfold TabMask.normalize
    rw [this]
  · unfold TabMask.integral
    simp only [hsum, if_true]
    by_cases h : w.sum = 0
    · rw [if_pos (by rw [h, mul_zero]), if_pos h]
    · rw [if_neg (mul_ne_zero hk h), if_neg h, List.zipWith_map_right]
      congr 3
      funext x y
      rw [mul_div_mul_left _ _ hk]

/-- C33 (partial). Without weights, it is the expected number of selected objects, not the fraction, that is set to the
target: the fraction comes out lower by the size of the sample. -/
theorem C33_unweighted_partial {t t' : TabMask} {z : List ℝ} {target : ℝ} (hz : z ≠ [])
    (h : t.normalize target z none (.ok t')) :
    t'.integral z none false = .ok target ∧ t'.integral z none true = .ok (target / z.length) := by
  unfold TabMask.normalize TabMask.normalizeWeights at h
  split at h
  · simp at h
  · split at h
    · simp at h
    · simp only at h
      split at h
      · simp at h
      · obtain ⟨f0, f1, -, -, h⟩ := h
        split at h
        · simp at h
        · obtain ⟨c, -, -, hc, ht'⟩ := h
          simp only [Except.ok.injEq] at ht'
          rw [ht']
          unfold TabMask.selected at hc
          refine ⟨hc, ?_⟩
          unfold TabMask.integral at hc ⊢
          simp only [Bool.false_eq_true, if_false, Except.ok.injEq, if_true] at hc ⊢
          rw [if_neg (by simpa using hz), ← hc]
          congr 1
          rw [List.sum_map_mul_right, List.sum_map_mul_right]
          ring

theorem flatTable : Table [((0 : ℝ), (1 : ℝ)), (1, 1)] :=
  ⟨by unfold Inc; norm_num, by simp, by intro p hp; simp at hp; rcases hp with rfl | rfl <;> norm_num⟩

/-- C33, violated. Two objects without weights, all selectable: the target fraction 1/2 is a possible one, but only a quarter
of the objects is selected. -/
theorem C33_unweighted_violated : ∃ t, TabMask.init [(0, 1), (1, 1)] none none = .ok t ∧
    (∃ result, t.normalize (1 / 2) [1 / 2, 1 / 2] none result) ∧
    ∀ result, t.normalize (1 / 2) [1 / 2, 1 / 2] none result → ∃ t', result = .ok t' ∧
      t'.integral [1 / 2, 1 / 2] none true = .ok (1 / 4) := by
  obtain ⟨t, h, hr, hn⟩ := C29_defined flatTable (zrange := (0, 1)) ⟨(0, 1), (1, 1), rfl, rfl, by norm_num, by norm_num⟩
    (p := (0, 1)) (by simp) (by norm_num) (by norm_num) (by norm_num)
  have h' : TabMask.init [(0, 1), (1, 1)] none none = .ok t := by
    rw [← h]
    simp [TabMask.init]
  have hp : ∀ c, ({ t with norm := c } : TabMask).prob (1 / 2) = min c 1 := by
    intro c
    unfold TabMask.prob
    simp only [hr, hn]
    rw [if_pos (by norm_num), probNodes_onSegment flatTable.inc c (l := []) (p := (0, 1)) (q := (1, 1)) (r := []) rfl (by norm_num)
      (by norm_num)]
    simp
  have hsel : ∀ c, t.selected [1 / 2, 1 / 2] none c = .ok (min c 1 + min c 1) := by
    intro c
    simp only [TabMask.selected, TabMask.integral, Bool.false_eq_true, if_false, List.map_cons, List.map_nil, hp, List.sum_cons,
      List.sum_nil, mul_one, add_zero]
  have hmin : TabMask.minPositive t.nodes = some 1 := by
    rw [hn]
    norm_num [TabMask.minPositive]
  have hunf : ∀ result, t.normalize (1 / 2) [1 / 2, 1 / 2] none result ↔ result = .ok { t with norm := 1 / 4 } := by
    intro result
    unfold TabMask.normalize TabMask.normalizeWeights
    rw [if_neg (by norm_num), if_neg (by norm_num)]
    simp only [hmin, hsel, Except.ok.injEq]
    constructor
    · rintro ⟨f0, f1, rfl, rfl, h⟩
      rw [if_neg (by norm_num)] at h
      obtain ⟨c, -, h1, h2, h3⟩ := h
      have : c = 1 / 4 := by
        rw [min_eq_left (by simpa using h1)] at h2
        linarith
      rw [h3, this]
    · intro h
      refine ⟨_, _, rfl, rfl, ?_⟩
      rw [if_neg (by norm_num)]
      exact ⟨1 / 4, by norm_num, by norm_num, by norm_num, h⟩
  refine ⟨t, h', ⟨_, (hunf _).2 rfl⟩, ?_⟩
  intro result hres
  rw [hunf] at hres
  refine ⟨_, hres, ?_⟩
  unfold TabMask.integral
  simp only [if_true, List.length_cons, List.length_nil, List.map_cons, List.map_nil, hp, List.sum_cons, List.sum_nil]
  norm_num

/-- C33, violated. The target 0 is accepted, but gives `nan` (division by zero). -/
theorem C33_zero_violated (t : TabMask) (z : List ℝ) (w : Option (List ℝ)) (result : Except Err TabMask) :
    t.normalize 0 z w result ↔ result = .error .nan := by
  unfold TabMask.normalize
  rw [if_neg (by norm_num), if_pos rfl]

/-- A flat table, and two objects of different weights: half can be selected. -/
example : fraction ⟨[(0, 1), (1, 1)], (0, 1), 1⟩ 1 [(1 / 2, 1), (1 / 4, 3)] = 1 := by
  have hp : ∀ z, 0 ≤ z → z ≤ 1 → probAt ⟨[(0, 1), (1, 1)], (0, 1), 1⟩ 1 z = 1 := by
    intro z h0 h1
    unfold probAt TabMask.prob
    rw [if_pos ⟨h0, h1⟩, probNodes_onSegment flatTable.inc 1 (l := []) (p := (0, 1)) (q := (1, 1)) (r := []) rfl h0 h1]
    simp
  simp only [fraction, List.map_cons, List.map_nil, hp (1 / 2) (by norm_num) (by norm_num),
    hp (1 / 4) (by norm_num) (by norm_num), List.sum_cons, List.sum_nil]
  norm_num

end Verif.Props
