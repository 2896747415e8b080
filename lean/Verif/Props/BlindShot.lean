import Verif.Props.BlindPng

/-!
# C49: shot noise correction of the primordial non-Gaussianity blinding
-/

namespace Verif.Props

open Verif Verif.Model Verif.Model.Blinding Verif.Spec.Blinding Verif.Lemmas.Blinding Verif.Lemmas Mesh

variable {M : Mesh}

/-! ### The factor -/

/-- Greatest root of a quadratic equation. -/
theorem isGreatest_root {X Y E a : ℝ} (hY : 0 < Y) :
    IsGreatest {a | Y * a ^ 2 + 2 * X * a = E} a ↔ 0 ≤ X ^ 2 + Y * E ∧ a = (-X + Real.sqrt (X ^ 2 + Y * E)) / Y := by
  have key : ∀ a, Y * a ^ 2 + 2 * X * a = E ↔ (Y * a + X) ^ 2 = X ^ 2 + Y * E := fun a =>
    ⟨fun h => by rw [← h]; ring, fun h => by
      have : Y * (Y * a ^ 2 + 2 * X * a - E) = 0 := by linear_combination h
      rcases mul_eq_zero.mp this with h | h
      · exact absurd h hY.ne'
      · linarith⟩
  constructor
  · rintro ⟨h1, h2⟩
    have h1' := (key a).mp h1
    have h0 : 0 ≤ X ^ 2 + Y * E := h1' ▸ sq_nonneg _
    refine ⟨h0, ?_⟩
    have hr : (-X + Real.sqrt (X ^ 2 + Y * E)) / Y ∈ {a | Y * a ^ 2 + 2 * X * a = E} := by
      rw [Set.mem_ofPred_eq, key, mul_div_cancel₀ _ hY.ne']
      rw [neg_add_cancel_comm, Real.sq_sqrt h0]
    have hle := h2 hr
    refine le_antisymm ?_ hle
    rw [le_div_iff₀ hY]
    have : Y * a + X ≤ Real.sqrt (X ^ 2 + Y * E) := Real.le_sqrt_of_sq_le h1'.le
    linarith
  · rintro ⟨h0, rfl⟩
    constructor
    · rw [Set.mem_ofPred_eq, key, mul_div_cancel₀ _ hY.ne', neg_add_cancel_comm, Real.sq_sqrt h0]
    · intro b hb
      rw [Set.mem_ofPred_eq, key] at hb
      rw [le_div_iff₀ hY]
      have : Y * b + X ≤ Real.sqrt (X ^ 2 + Y * E) := Real.le_sqrt_of_sq_le hb.le
      linarith

theorem damping_pos (r k : ℝ) : 0 < damping r k := Real.exp_pos _

theorem smoothing_damping (r k : ℝ) : smoothing r k = damping r k := by
  unfold smoothing damping
  congr 1
  ring

theorem pivot_pos (b1 fnl : ℝ) : 0 < pivot b1 fnl := by
  unfold pivot
  split_ifs <;> norm_num

theorem bfnl_nonneg (b1 fnl : ℝ) : 0 ≤ bfnl b1 fnl ↔ 0 ≤ (b1 - 1) * fnl := by
  unfold bfnl
  rw [show 2 * 1.686 * (b1 - 1) * fnl = (2 * 1.686) * ((b1 - 1) * fnl) by ring]
  constructor
  · intro h; by_contra hc; push Not at hc; nlinarith
  · intro h; positivity

/-- Where the inverse noise is positive, the factor computed by the code is the shot noise factor. -/
theorem C49_shotnoise_factor {s : Spectra} {h : ℝ} (hs : PositiveSpectra s h) {b1 fnl f r1 r2 inv : ℝ} (hinv : 0 < inv) (hb : b1 ≠ 1)
    (hf : fnl ≠ 0) (φ : ℝ) :
    shotnoiseFactor (transfer s h) s.lin (bfnl b1 fnl) b1 f r1 r2 (s.sigmaD2 r1) inv = .ok φ ↔
      IsNoiseFactor s h b1 fnl f r1 r2 (1 / inv) φ := by
  have hk := pivot_pos b1 fnl
  obtain ⟨hl, hp⟩ := hs.2 _ hk
  obtain ⟨hT, hT0⟩ := transfer_alpha hs.1 hk hl hp
  have hm : pivotBias s h b1 fnl ≠ 0 := by
    unfold pivotBias
    refine div_ne_zero (mul_ne_zero (mul_ne_zero (by norm_num) (sub_ne_zero.mpr hb)) hf) (hT ▸ hT0.ne')
  have hkp : (if 0 ≤ bfnl b1 fnl then 4e-3 else 8e-3 : ℝ) = pivot b1 fnl := by
    unfold pivot
    by_cases h0 : 0 ≤ (b1 - 1) * fnl
    · rw [if_pos h0, if_pos ((bfnl_nonneg _ _).mpr h0)]
    · rw [if_neg h0, if_neg (fun e => h0 ((bfnl_nonneg _ _).mp e))]
  have hbm : bfnl b1 fnl / transfer s h (pivot b1 fnl) = pivotBias s h b1 fnl := by
    rw [hT]; rfl
  unfold IsNoiseFactor
  generalize hkd : pivot b1 fnl = k at *
  set m := pivotBias s h b1 fnl with hmd
  set S1 := damping r1 k
  set S2 := damping r2 k with hS2
  have hS2p : 0 < S2 := damping_pos _ _
  set P := s.lin k
  set D := Real.exp (-(k * 0.6 * f) ^ 2 * s.sigmaD2 r1 / 2) with hD
  set X := (b1 + f * 0.6 ^ 2) * (b1 + (1 - S1) * f * 0.6 ^ 2) * S2 * P + S2 * (1 / inv) * D with hX
  set Y := (b1 + (1 - S1) * f * 0.6 ^ 2) ^ 2 * S2 ^ 2 * P + S2 ^ 2 * (1 / inv) with hY
  set E := 2 * m * b1 * (b1 + f * 0.6 ^ 2) * P + m ^ 2 * b1 ^ 2 * P with hE
  have hYp : 0 < Y := by positivity
  have hset : {a | weightedPower s b1 f r1 r2 (1 / inv) k a = expectedPower s b1 f (1 / inv) k m} =
      {a | Y * a ^ 2 + 2 * X * a = E} := by
    ext a
    simp only [Set.mem_ofPred_eq]
    unfold weightedPower expectedPower
    constructor
    · intro h; rw [hX, hY, hE]; linear_combination h
    · intro h; rw [hX, hY, hE] at h; linear_combination h
  rw [hset, isGreatest_root hYp]
  have hfac : shotnoiseFactor (transfer s h) s.lin (bfnl b1 fnl) b1 f r1 r2 (s.sigmaD2 r1) inv =
      if inv = 0 ∨ transfer s h k = 0 ∨ m = 0 ∨ Y = 0 ∨ X ^ 2 + Y * E < 0 then .error .nan
      else .ok ((-X + Real.sqrt (X ^ 2 + Y * E)) / Y / m) := by
    unfold shotnoiseFactor
    simp only [hkp, smoothing_damping, hbm]
    have e1 : Real.exp (-0.5 * k ^ 2 * 0.6 ^ 2 * f ^ 2 * s.sigmaD2 r1) = D := by rw [hD]; congr 1; ring
    have e2 : 2 * bfnl b1 fnl / transfer s h k = 2 * m := by rw [mul_div_assoc, hbm]
    rw [e1, e2]
  rw [hfac]
  by_cases hdisc : X ^ 2 + Y * E < 0
  · rw [if_pos (by tauto)]
    simp only [reduceCtorEq, false_iff, not_and]
    intro h; linarith
  · rw [if_neg (by
      rintro (h | h | h | h | h)
      · exact hinv.ne' h
      · exact hT0.ne' h
      · exact hm h
      · exact hYp.ne' h
      · exact hdisc h)]
    rw [Except.ok.injEq]
    push Not at hdisc
    constructor
    · rintro rfl; exact ⟨hdisc, div_mul_cancel₀ _ hm⟩
    · rintro ⟨-, h⟩; rw [← h]; field_simp

/-- A larger bias and a positive `fnl` call for a positive factor, which exists. -/
theorem C49_shotnoise_factor_exists {s : Spectra} {h : ℝ} (hs : PositiveSpectra s h) {b1 fnl f r1 r2 noise : ℝ} (hn : 0 < noise)
    (hb : 1 < b1) (hf : 0 < fnl) (hf0 : 0 ≤ f) :
    (∃! φ, IsNoiseFactor s h b1 fnl f r1 r2 noise φ) ∧ ∀ φ, IsNoiseFactor s h b1 fnl f r1 r2 noise φ → 0 < φ := by
  have hk := pivot_pos b1 fnl
  obtain ⟨hl, hp⟩ := hs.2 _ hk
  obtain ⟨hT, hT0⟩ := transfer_alpha hs.1 hk hl hp
  have hm : 0 < pivotBias s h b1 fnl := by
    unfold pivotBias
    rw [← hT]
    have := sub_pos.mpr hb
    positivity
  unfold IsNoiseFactor
  generalize hkd : pivot b1 fnl = k at *
  set m := pivotBias s h b1 fnl with hmd
  set S1 := damping r1 k with hS1
  set S2 := damping r2 k with hS2
  have hS2p : 0 < S2 := damping_pos _ _
  have hS1p : S1 ≤ 1 := Real.exp_le_one_iff.mpr (by nlinarith [sq_nonneg (k * r1)])
  set P := s.lin k
  set D := Real.exp (-(k * 0.6 * f) ^ 2 * s.sigmaD2 r1 / 2) with hD
  have hDp : 0 < D := Real.exp_pos _
  set X := (b1 + f * 0.6 ^ 2) * (b1 + (1 - S1) * f * 0.6 ^ 2) * S2 * P + S2 * noise * D with hX
  set Y := (b1 + (1 - S1) * f * 0.6 ^ 2) ^ 2 * S2 ^ 2 * P + S2 ^ 2 * noise with hY
  set E := 2 * m * b1 * (b1 + f * 0.6 ^ 2) * P + m ^ 2 * b1 ^ 2 * P with hE
  have hb0 : 0 < b1 := by linarith
  have hS1' : 0 ≤ 1 - S1 := by linarith
  have hYp : 0 < Y := by positivity
  have hXp : 0 < X := by positivity
  have hEp : 0 < E := by positivity
  have hset : {a | weightedPower s b1 f r1 r2 noise k a = expectedPower s b1 f noise k m} =
      {a | Y * a ^ 2 + 2 * X * a = E} := by
    ext a
    simp only [Set.mem_ofPred_eq]
    unfold weightedPower expectedPower
    constructor
    · intro h; rw [hX, hY, hE]; linear_combination h
    · intro h; rw [hX, hY, hE] at h; linear_combination h
  simp only [hset, isGreatest_root hYp]
  have h0 : 0 ≤ X ^ 2 + Y * E := by positivity
  have hroot : 0 < (-X + Real.sqrt (X ^ 2 + Y * E)) / Y := by
    apply div_pos _ hYp
    have : X < Real.sqrt (X ^ 2 + Y * E) := Real.lt_sqrt_of_sq_lt (by nlinarith [mul_pos hYp hEp])
    linarith
  refine ⟨⟨(-X + Real.sqrt (X ^ 2 + Y * E)) / Y / m, ⟨h0, div_mul_cancel₀ _ hm.ne'⟩, ?_⟩, ?_⟩
  · rintro φ ⟨-, h⟩
    rw [← h]; field_simp
  · rintro φ ⟨-, h⟩
    rw [← h] at hroot
    exact (mul_pos_iff_of_pos_right hm).mp hroot

/-- Without noise and without redshift-space distortions, the factor undoes the smoothing of the field. -/
theorem C49_shotnoise_factor_smoothing {s : Spectra} {h : ℝ} (hs : PositiveSpectra s h) {b1 fnl r1 r2 : ℝ} (hb : 1 < b1) (hf : 0 < fnl)
    (φ : ℝ) : IsNoiseFactor s h b1 fnl 0 r1 r2 0 φ ↔ φ * damping r2 (pivot b1 fnl) = 1 := by
  have hk := pivot_pos b1 fnl
  obtain ⟨hl, hp⟩ := hs.2 _ hk
  obtain ⟨hT, hT0⟩ := transfer_alpha hs.1 hk hl hp
  have hm : 0 < pivotBias s h b1 fnl := by
    unfold pivotBias
    rw [← hT]
    have := sub_pos.mpr hb
    positivity
  unfold IsNoiseFactor
  generalize pivot b1 fnl = k at *
  set m := pivotBias s h b1 fnl with hmd
  have hS2p : 0 < damping r2 k := damping_pos _ _
  set S2 := damping r2 k with hS2
  have hb0 : 0 < b1 := by linarith
  have hmem : ∀ a, weightedPower s b1 0 r1 r2 0 k a = expectedPower s b1 0 0 k m ↔ (1 + a * S2) ^ 2 = (1 + m) ^ 2 := by
    intro a
    unfold weightedPower expectedPower
    have hbl : b1 ^ 2 * s.lin k ≠ 0 := by positivity
    constructor
    · intro h
      apply mul_left_cancel₀ hbl
      linear_combination h
    · intro h
      linear_combination (b1 ^ 2 * s.lin k) * h
  have hsol : IsGreatest {a | weightedPower s b1 0 r1 r2 0 k a = expectedPower s b1 0 0 k m} (m / S2) := by
    constructor
    · rw [Set.mem_ofPred_eq, hmem, div_mul_cancel₀ _ hS2p.ne']
    · intro a ha
      rw [Set.mem_ofPred_eq, hmem] at ha
      rw [le_div_iff₀ hS2p]
      have := abs_le_of_sq_le_sq ha.le (by linarith)
      linarith [le_abs_self (1 + a * S2)]
  constructor
  · intro h
    have := h.unique hsol
    rw [eq_div_iff hS2p.ne'] at this
    apply mul_left_cancel₀ hm.ne'
    linear_combination this
  · intro h
    have : φ * m = m / S2 := by rw [eq_div_iff hS2p.ne']; linear_combination m * h
    rw [this]; exact hsol

/-- The contrast being divided by the bias (comment of `catalog.py:541`), the weights are `1 + φ (m / b1) δ'` and the contrast should
become `δ + (m / b1) δ₀`: the factor was made for `m`, not for `m / b1`. The power at the pivot is never the expected one, here
without redshift-space distortions and smoothing, as soon as there is noise. -/
theorem C49_shotnoise_bias_violated {s : Spectra} {h : ℝ} (hs : PositiveSpectra s h) {b1 fnl noise : ℝ} (hn : 0 < noise)
    (hb : 1 < b1) (hf : 0 < fnl) {φ : ℝ} (hφ : IsNoiseFactor s h b1 fnl 0 0 0 noise φ) :
    weightedPower s b1 0 0 0 noise (pivot b1 fnl) (φ * (pivotBias s h b1 fnl / b1)) ≠
      expectedPower s b1 0 noise (pivot b1 fnl) (pivotBias s h b1 fnl / b1) := by
  have hk := pivot_pos b1 fnl
  obtain ⟨hl, hp⟩ := hs.2 _ hk
  obtain ⟨hT, hT0⟩ := transfer_alpha hs.1 hk hl hp
  have hm : 0 < pivotBias s h b1 fnl := by
    unfold pivotBias
    rw [← hT]
    have := sub_pos.mpr hb
    positivity
  have h1 := hφ.1
  rw [Set.mem_ofPred_eq] at h1
  revert h1 hm
  generalize pivotBias s h b1 fnl = m
  generalize pivot b1 fnl = k at *
  intro hm h1 h2
  have hb0 : b1 ≠ 0 := by linarith
  have hd : ∀ k, damping 0 k = 1 := fun k => by simp [damping]
  unfold weightedPower expectedPower at h1 h2
  simp only [hd, mul_zero, zero_mul, add_zero, sub_self, one_mul, mul_one, ne_eq, OfNat.ofNat_ne_zero, not_false_eq_true, zero_pow,
    neg_zero, zero_div, Real.exp_zero] at h1 h2
  set a := φ * m with ha
  have e : φ * (m / b1) = a / b1 := by rw [ha]; ring
  rw [e] at h2
  set q := b1 ^ 2 * s.lin k with hq
  have hqp : 0 < q := by positivity
  have i1 : (q + noise) * (a ^ 2 + 2 * a) = q * (m ^ 2 + 2 * m) := by rw [hq]; linear_combination h1
  have i2 : (q + noise) * (a ^ 2 + 2 * a * b1) = q * (m ^ 2 + 2 * m * b1) := by
    have h2' : (b1 + a / b1 * b1) ^ 2 * s.lin k * b1 ^ 2 + noise * (1 + 2 * (a / b1) + (a / b1) ^ 2) * b1 ^ 2 =
        (b1 + m / b1 * b1) ^ 2 * s.lin k * b1 ^ 2 + noise * b1 ^ 2 := by linear_combination b1 ^ 2 * h2
    have e1 : (b1 + a / b1 * b1) ^ 2 * s.lin k * b1 ^ 2 = (b1 + a) ^ 2 * q := by rw [hq]; field_simp
    have e2 : (b1 + m / b1 * b1) ^ 2 * s.lin k * b1 ^ 2 = (b1 + m) ^ 2 * q := by rw [hq]; field_simp
    have e3 : noise * (1 + 2 * (a / b1) + (a / b1) ^ 2) * b1 ^ 2 = noise * (b1 ^ 2 + 2 * a * b1 + a ^ 2) := by field_simp
    rw [e1, e2, e3] at h2'
    linear_combination h2'
  have i3 : (q + noise) * a = q * m := by
    have : (b1 - 1) * ((q + noise) * a - q * m) = 0 := by linear_combination (1 / 2 : ℝ) * (i2 - i1)
    rcases mul_eq_zero.mp this with h | h
    · linarith
    · linarith
  have i4 : a = m := by
    have : q * m * (a - m) = 0 := by linear_combination i1 - (a + 2) * i3
    rcases mul_eq_zero.mp this with h | h
    · exact absurd h (by positivity)
    · linarith
  rw [i4] at i3
  nlinarith [mul_pos hn hm]

/-! ### The noise -/

theorem sumWeights_total (rows : List (List (V3 ℝ))) (weights : List (Option (List ℝ))) :
    sumWeights rows weights = totalWeight rows weights := by
  unfold sumWeights totalWeight
  congr 2
  funext r w
  cases w <;> simp [weightsOr1]

theorem mapM_id_eq_some {α : Type*} {l : List (Option α)} {r : List α} : l.mapM id = some r ↔ l = r.map some := by
  constructor
  · intro h
    induction l generalizing r with
    | nil =>
      simp at h; subst h; rfl
    | cons a l ih =>
      rw [List.mapM_cons] at h
      cases a with
      | none => simp at h
      | some a =>
        cases hl : l.mapM id with
        | none => rw [hl] at h; simp at h
        | some r' =>
          rw [hl] at h
          simp at h
          subst h
          rw [List.map_cons, ← ih hl]
  · rintro rfl; exact mapM_id_some r

theorem mapM_id_eq_none {α : Type*} {l : List (Option α)} : l.mapM id = none ↔ none ∈ l := by
  induction l with
  | nil => simp
  | cons a l ih =>
    rw [List.mapM_cons]
    cases a with
    | none => simp
    | some a =>
      cases hl : l.mapM id with
      | none => simpa [hl] using ih.mp hl
      | some r =>
        have : none ∉ l := fun h => by rw [ih.mpr h] at hl; simp at hl
        simp [this]

/-- The inverse noise computed by the code is the inverse noise. -/
theorem C49_shotnoise_noise (hL : ∀ d, 0 < M.boxsize d) (R : PngRecon M) (c : Catalogs) (inv : M.Idx → ℝ) :
    invShotnoise R c = .ok inv ↔ IsInverseNoise R c inv := by
  have hV : (∏ d, M.boxsize d) ≠ 0 := (Finset.prod_pos fun d _ => hL d).ne'
  have hC : (∏ d, M.boxsize d / M.n d) ≠ 0 := (Finset.prod_pos fun d _ => div_pos (hL d) (by exact_mod_cast M.n_pos d)).ne'
  have hmean : ∀ nbar, meanDensity R c = .ok nbar ↔ IsMeanDensity R c nbar := by
    intro nbar
    unfold meanDensity IsMeanDensity
    cases hr : c.randoms.mapM id with
    | none =>
      have hn := mapM_id_eq_none.mp hr
      simp only [Except.ok.injEq, sumWeights_total]
      constructor
      · rintro rfl
        exact Or.inr ⟨hn, fun _ => div_mul_cancel₀ _ hV⟩
      · rintro (⟨r, h, -⟩ | ⟨-, h⟩)
        · rw [h] at hn; simp at hn
        · funext i; rw [div_eq_iff hV]; exact (h i).symm
    | some r =>
      have hn := mapM_id_eq_some.mp hr
      simp only [sumWeights_total]
      constructor
      · intro h
        split_ifs at h with h0
        rw [Except.ok.injEq] at h
        subst h
        refine Or.inl ⟨r, hn, h0, fun i => ?_⟩
        field_simp
      · rintro (⟨r', h, h0, hi⟩ | ⟨h, -⟩)
        · have : r = r' := by
            have := hn.symm.trans h
            exact List.map_injective_iff.mpr (Option.some_injective _) this
          subst this
          rw [if_neg h0, Except.ok.injEq]
          funext i
          have := hi i
          field_simp at this ⊢
          linarith
        · rw [hn] at h; simp at h
  have hsq : (fun w : ℝ => w * w) = (· ^ 2) := by funext w; ring
  unfold invShotnoise IsInverseNoise
  simp only [Bind.bind, Except.bind, hsq]
  constructor
  · intro h
    cases hm : meanDensity R c with
    | error e => rw [hm] at h; simp at h
    | ok nbar =>
      rw [hm] at h
      simp only [Except.ok.injEq] at h
      refine ⟨nbar, _, (hmean nbar).mp hm, h.symm, fun i => ⟨fun h0 => ?_, fun h0 => ?_⟩⟩
      · rw [if_neg h0, div_mul_cancel₀ _ h0]
      · rw [if_pos h0, div_one]
  · rintro ⟨nbar, q, hn, rfl, hq⟩
    rw [(hmean nbar).mpr hn]
    simp only [Except.ok.injEq]
    congr 1
    funext i
    split_ifs with h0
    · rw [div_one, (hq i).2 h0]
    · rw [div_eq_iff h0, (hq i).1 h0]

/-- Multiply given weights. -/
def scaleWeights (a : ℝ) (w : List (Option (List ℝ))) : List (Option (List ℝ)) := w.map (Option.map (List.map (a * ·)))

/-- Weights are given on all ranks. -/
def Given (w : List (Option (List ℝ))) : Prop := ∀ x ∈ w, x ≠ none

theorem totalWeight_scale (a : ℝ) (rows : List (List (V3 ℝ))) (w : List (Option (List ℝ))) (hw : Given w) :
    totalWeight rows (scaleWeights a w) = a * totalWeight rows w := by
  unfold totalWeight scaleWeights
  induction rows generalizing w with
  | nil => simp
  | cons r rows ih =>
    cases w with
    | nil => simp
    | cons x w =>
      obtain ⟨l, rfl⟩ := Option.ne_none_iff_exists'.mp (hw x List.mem_cons_self)
      simp only [List.map_cons, List.zipWith_cons_cons, List.sum_cons, mul_add]
      rw [ih w fun y hy => hw y (List.mem_cons_of_mem _ hy)]
      simp only [Option.map_some, weightsOr1, Option.getD_some]
      rw [List.sum_map_mul_left, List.map_id']

/-- The noise does not depend on the normalisation of data and randoms weights, when the mesh is linear in weights and cells with no
squared weights have no weights. -/
theorem C49_shotnoise_scale (hL : ∀ d, 0 < M.boxsize d) (R : PngRecon M) (c : Catalogs) (hd : Given c.dataWeights)
    (hr : Given c.randomsWeights) (hlin : ∀ rows w a, Given w → ∀ i, R.paint rows (scaleWeights a w) i = a * R.paint rows w i)
    (hsup : ∀ i, R.paint c.data (c.dataWeights.map (Option.map (List.map (· ^ 2)))) i = 0 → R.paint c.data c.dataWeights i = 0)
    {a b : ℝ} (ha : a ≠ 0) (hb : b ≠ 0) (inv : M.Idx → ℝ) :
    IsInverseNoise R { c with dataWeights := scaleWeights a c.dataWeights, randomsWeights := scaleWeights b c.randomsWeights } inv ↔
      IsInverseNoise R c inv := by
  have hsq : (scaleWeights a c.dataWeights).map (Option.map (List.map (· ^ 2))) =
      scaleWeights (a ^ 2) (c.dataWeights.map (Option.map (List.map (· ^ 2)))) := by
    unfold scaleWeights
    rw [List.map_map, List.map_map]
    refine List.map_congr_left fun x _ => ?_
    cases x with
    | none => rfl
    | some l =>
      simp only [Function.comp_apply, Option.map_some, List.map_map]
      congr 1
      refine List.map_congr_left fun x _ => ?_
      simp only [Function.comp_apply]
      ring
  have hgsq : Given (c.dataWeights.map (Option.map (List.map (· ^ 2)))) := by
    intro x hx
    obtain ⟨y, hy, rfl⟩ := List.mem_map.mp hx
    obtain ⟨l, rfl⟩ := Option.ne_none_iff_exists'.mp (hd y hy)
    simp
  have hV : (∏ d, M.boxsize d) ≠ 0 := (Finset.prod_pos fun d _ => hL d).ne'
  have hC : (∏ d, M.boxsize d / M.n d) ≠ 0 := (Finset.prod_pos fun d _ => div_pos (hL d) (by exact_mod_cast M.n_pos d)).ne'
  have hmean : ∀ nbar, IsMeanDensity R { c with dataWeights := scaleWeights a c.dataWeights, randomsWeights := scaleWeights b c.randomsWeights }
      (fun i => a * nbar i) ↔ IsMeanDensity R c nbar := by
    intro nbar
    unfold IsMeanDensity
    simp only [totalWeight_scale _ _ _ hd, totalWeight_scale _ _ _ hr, hlin _ _ _ hr]
    refine or_congr (exists_congr fun r => and_congr Iff.rfl (and_congr (by simp [hb]) (forall_congr' fun i => ?_)))
      (and_congr Iff.rfl (forall_congr' fun i => ?_))
    · rw [show a * nbar i * (∏ d, M.boxsize d / M.n d) * (b * totalWeight r c.randomsWeights) =
        (a * b) * (nbar i * (∏ d, M.boxsize d / M.n d) * totalWeight r c.randomsWeights) by ring,
        show a * totalWeight c.data c.dataWeights * (b * R.paint r c.randomsWeights i) =
        (a * b) * (totalWeight c.data c.dataWeights * R.paint r c.randomsWeights i) by ring]
      exact mul_right_inj' (mul_ne_zero ha hb)
    · rw [show a * nbar i * ∏ d, M.boxsize d = a * (nbar i * ∏ d, M.boxsize d) by ring]
      exact mul_right_inj' ha
  have hcell : ∀ nbar q : M.Idx → ℝ, (∀ i, (R.paint c.data (scaleWeights (a ^ 2) (c.dataWeights.map (Option.map (List.map (· ^ 2))))) i ≠ 0 →
        q i * R.paint c.data (scaleWeights (a ^ 2) (c.dataWeights.map (Option.map (List.map (· ^ 2))))) i =
          R.paint c.data (scaleWeights a c.dataWeights) i * (a * nbar i)) ∧
      (R.paint c.data (scaleWeights (a ^ 2) (c.dataWeights.map (Option.map (List.map (· ^ 2))))) i = 0 →
        q i = R.paint c.data (scaleWeights a c.dataWeights) i * (a * nbar i))) ↔
      ∀ i, (R.paint c.data (c.dataWeights.map (Option.map (List.map (· ^ 2)))) i ≠ 0 →
        q i * R.paint c.data (c.dataWeights.map (Option.map (List.map (· ^ 2)))) i = R.paint c.data c.dataWeights i * nbar i) ∧
      (R.paint c.data (c.dataWeights.map (Option.map (List.map (· ^ 2)))) i = 0 → q i = R.paint c.data c.dataWeights i * nbar i) := by
    intro nbar q
    refine forall_congr' fun i => ?_
    rw [hlin _ _ _ hgsq, hlin _ _ _ hd]
    have h2 : a ^ 2 ≠ 0 := pow_ne_zero 2 ha
    refine and_congr (imp_congr (by simp [ha]) ?_) ?_
    · rw [show q i * (a ^ 2 * R.paint c.data (c.dataWeights.map (Option.map (List.map (· ^ 2)))) i) =
        a ^ 2 * (q i * R.paint c.data (c.dataWeights.map (Option.map (List.map (· ^ 2)))) i) by ring,
        show a * R.paint c.data c.dataWeights i * (a * nbar i) = a ^ 2 * (R.paint c.data c.dataWeights i * nbar i) by ring]
      exact mul_right_inj' h2
    · have e : a ^ 2 * R.paint c.data (c.dataWeights.map (Option.map (List.map (· ^ 2)))) i = 0 ↔
          R.paint c.data (c.dataWeights.map (Option.map (List.map (· ^ 2)))) i = 0 := by simp [ha]
      rw [e]
      refine imp_congr_right fun h => ?_
      rw [hsup i h]
      simp
  unfold IsInverseNoise
  simp only [hsq]
  constructor
  · rintro ⟨nbar, q, h1, h2, h3⟩
    have e : (fun i => a * (nbar i / a)) = nbar := by funext i; field_simp
    refine ⟨fun i => nbar i / a, q, (hmean _).mp (by rw [e]; exact h1), h2, (hcell _ _).mp ?_⟩
    have e' : ∀ i, a * (nbar i / a) = nbar i := fun i => by field_simp
    simp only [e']
    exact h3
  · rintro ⟨nbar, q, h1, h2, h3⟩
    exact ⟨fun i => a * nbar i, q, (hmean _).mpr h1, h2, (hcell _ _).mpr h3⟩

/-! ### Weights -/

/-- One rank of weights. -/
theorem weights_rank_factor (R : PngRecon M) (g : M.Idx → ℝ) (sign : ℝ) (factor : V3 ℝ → Except Err ℝ) (φ : V3 ℝ → ℝ)
    (rows : List (V3 ℝ)) (hφ : ∀ p ∈ rows, factor p = .ok (φ p)) (w : Option (List ℝ)) (hw : ∀ l, w = some l → l.length = rows.length) :
    (do let shift ← rows.mapM fun p => do .ok ((← factor p) * R.readout g p)
        multiplyWeights sign w shift) =
      .ok (List.zipWith (fun r w => w * (1 + sign * (φ r * R.readout g r))) rows (weightsOr1 rows.length w)) := by
  have : rows.mapM (fun p => do Except.ok ((← factor p) * R.readout g p)) =
      .ok (rows.map fun p => φ p * R.readout g p) := mapM_ok _ _ _ fun p hp => by rw [hφ p hp]; rfl
  rw [this]
  simp only [Bind.bind, Except.bind]
  clear hφ this
  cases w with
  | none =>
    simp only [multiplyWeights, weightsOr1, Option.getD_none, Except.ok.injEq]
    clear hw
    induction rows with
    | nil => rfl
    | cons a rows ih => simpa [List.replicate_succ] using ih
  | some l =>
    have hl := hw l rfl
    simp only [multiplyWeights, weightsOr1, Option.getD_some, List.length_map, hl, if_true, Except.ok.injEq]
    rw [List.zipWith_map_right]
    exact List.zipWith_comm (f := fun w s => w * (1 + sign * (φ s * R.readout g s))) (as := l) (bs := rows)

theorem pngCore_shotnoise (hL : ∀ d, 0 < M.boxsize d) {method : String} (hm : onWeights method = true) {s : Spectra} {blind fid : Cosmo}
    (hs : PositiveSpectra s fid.h) {fnl : ℝ} (hfnl : IsFnl blind fnl) (sigma f : ℝ) (R : PngRecon M) (c : Catalogs)
    (g : M.Idx → ℝ) (hg : IsPngField M s fid.h R.bias fnl (contrastOf R c sigma) g) (positions : List (List (V3 ℝ)))
    (hp : pngPositions method c = .ok positions)
    (hw : ∀ x ∈ positions.zip (if onData method then c.dataWeights else c.randomsWeights), ∀ l, x.2 = some l → l.length = x.1.length)
    {inv : M.Idx → ℝ} (hinv : IsInverseNoise R c inv) (hb : R.bias ≠ 1) (h0 : fnl ≠ 0) (φ : V3 ℝ → ℝ)
    (hφ : ∀ rows ∈ positions, ∀ p ∈ rows, 0 < R.readout inv p ∧
      IsNoiseFactor s fid.h R.bias fnl f R.radius sigma (1 / R.readout inv p) (φ p)) :
    pngCore method s blind fid sigma true (some f) R c = .ok (.inl (List.zipWith (fun rows w => .ok (List.zipWith
      (fun r w => w * (1 + (if onData method then 1 else -1) * (φ r * R.readout g r))) rows (weightsOr1 rows.length w))) positions
        (if onData method then c.dataWeights else c.randomsWeights))) := by
  unfold pngCore
  simp only [hm, Bool.not_true, Bool.and_true, Bool.false_eq_true, if_false, if_true]
  rw [getFromCosmo_fnl hfnl]
  simp only [Bind.bind, Except.bind]
  rw [pngModes_ok hL hs, show R.contrast { c with data := c.data.map fun rows => rows.map fun p => p - R.shifts p } sigma =
    contrastOf R c sigma from rfl, modes_eq hg]
  simp only [pngFactor, if_true, (C49_shotnoise_noise hL R c inv).mpr hinv, Bind.bind, Except.bind, hp]
  congr 2
  unfold pngWeights
  rw [c2rReal_r2c]
  generalize (if onData method then c.dataWeights else c.randomsWeights) = ws at hw
  clear hp
  induction positions generalizing ws with
  | nil => rfl
  | cons rows positions ih =>
    cases ws with
    | nil => rfl
    | cons w ws =>
      rw [List.zipWith_cons_cons, List.zipWith_cons_cons,
        ih (fun r hr => hφ r (List.mem_cons_of_mem _ hr)) ws
          (fun x hx => hw x (by rw [List.zip_cons_cons]; exact List.mem_cons_of_mem _ hx)),
        ← weights_rank_factor R g _ (fun p => shotnoiseFactor (transfer s fid.h) s.lin (bfnl R.bias fnl) R.bias f R.radius sigma
          (s.sigmaD2 R.radius) (R.readout inv p)) φ rows (fun p hp => by
            obtain ⟨h1, h2⟩ := hφ rows List.mem_cons_self p hp
            exact (C49_shotnoise_factor hs h1 hb h0 _).mpr h2) w
            fun l hl => hw (rows, w) (by rw [List.zip_cons_cons]; exact List.mem_cons_self) l hl]

/-- Weighting data with the shot noise correction: each weight is multiplied by 1 plus the non-Gaussian field at the object times the
shot noise factor for the noise read at the object. Missing for the full claim: `fnl = 0`, see `C49_shotnoise_zero_violated`, and
reconstruction instances, see `C49_shotnoise_instance_violated`. -/
theorem C49_data_weights_shotnoise_partial (hL : ∀ d, 0 < M.boxsize d) {ptype : String} (h : Known ptype) (dist : ℝ → ℝ) {s : Spectra}
    {blind fid : Cosmo} (hs : PositiveSpectra s fid.h) {fnl : ℝ} (hfnl : IsFnl blind fnl) (h0 : fnl ≠ 0) (z bias : Option ℝ)
    (alg : Catalogs → ℝ → Option ℝ → ℝ → PngRecon M) (f : ℝ) (hf : IsFiducial fid z "f" f)
    (sigma : ℝ) (data : List (List (V3 ℝ))) (dw : List (Option (List ℝ))) (randoms : List (Option (List (V3 ℝ))))
    (rw : List (Option (List ℝ))) (h1 : Consistent dw) (h2 : Consistent rw)
    (hw : ∀ x ∈ data.zip dw, ∀ l, x.2 = some l → l.length = x.1.length) (R : PngRecon M)
    (hR : R = alg (catalogsOf ptype dist data dw randoms rw) f bias sigma) (hb : R.bias ≠ 1) (g : M.Idx → ℝ)
    (hg : IsPngField M s fid.h R.bias fnl (contrastOf R (catalogsOf ptype dist data dw randoms rw) sigma) g)
    (inv : M.Idx → ℝ) (hinv : IsInverseNoise R (catalogsOf ptype dist data dw randoms rw) inv) (φ : V3 ℝ → ℝ)
    (hφ : ∀ rows ∈ data, ∀ r ∈ rows, 0 < R.readout inv (cart ptype dist r) ∧
      IsNoiseFactor s fid.h R.bias fnl f R.radius sigma (1 / R.readout inv (cart ptype dist r)) (φ (cart ptype dist r))) :
    png "data_weights" ptype none dist s blind fid z bias none (.name alg) sigma true (data.map (argOf ptype)) dw
        (randoms.map (argOf? ptype)) rw =
      List.zipWith (fun rows w => .done (.weights (some (List.zipWith (fun r w => w * (1 + φ (cart ptype dist r) *
        R.readout g (cart ptype dist r))) rows (weightsOr1 rows.length w))))) data dw := by
  subst hR
  have hz : z = none ∨ ¬ IsDensity "f" := Or.inr (by unfold IsDensity; decide)
  rw [png_scattered (by simp) h dist s blind fid z bias (.name alg) sigma true data dw randoms rw h1 h2]
  simp only [pngRecon, getFromCosmo_fiducial hf hz, Bind.bind, Except.bind]
  have hd : onData "data_weights" = true := by decide
  rw [pngCore_shotnoise hL (by decide) hs hfnl sigma f _ _ g hg (data.map (List.map (cart ptype dist))) (by
      unfold pngPositions; rw [if_pos hd]; rfl) (by
      rw [if_pos hd]
      intro x hx l hl
      rw [show (catalogsOf ptype dist data dw randoms rw).dataWeights = dw from rfl, List.zip_map_left] at hx
      obtain ⟨y, hy, rfl⟩ := List.mem_map.mp hx
      have := hw y hy l hl
      simpa using this) hinv hb h0 φ (by
      intro rows hr p hp
      obtain ⟨rows, hr', rfl⟩ := List.mem_map.mp hr
      obtain ⟨r, hp', rfl⟩ := List.mem_map.mp hp
      exact hφ rows hr' r hp')]
  rw [pngOutput_weights, if_pos hd, show (catalogsOf ptype dist data dw randoms rw).dataWeights = dw from rfl, List.zipWith_map_left]
  simp only [hd, if_true, one_mul, List.length_map, List.zipWith_map_left]

/-- Weighting randoms with the shot noise correction. -/
theorem C49_randoms_weights_shotnoise_partial (hL : ∀ d, 0 < M.boxsize d) {ptype : String} (h : Known ptype) (dist : ℝ → ℝ) {s : Spectra}
    {blind fid : Cosmo} (hs : PositiveSpectra s fid.h) {fnl : ℝ} (hfnl : IsFnl blind fnl) (h0 : fnl ≠ 0) (z bias : Option ℝ)
    (alg : Catalogs → ℝ → Option ℝ → ℝ → PngRecon M) (f : ℝ) (hf : IsFiducial fid z "f" f)
    (sigma : ℝ) (data : List (List (V3 ℝ))) (dw : List (Option (List ℝ))) (randoms : List (List (V3 ℝ)))
    (rw : List (Option (List ℝ))) (h1 : Consistent dw) (h2 : Consistent rw)
    (hw : ∀ x ∈ randoms.zip rw, ∀ l, x.2 = some l → l.length = x.1.length) (R : PngRecon M)
    (hR : R = alg (catalogsOf ptype dist data dw (randoms.map some) rw) f bias sigma) (hb : R.bias ≠ 1) (g : M.Idx → ℝ)
    (hg : IsPngField M s fid.h R.bias fnl (contrastOf R (catalogsOf ptype dist data dw (randoms.map some) rw) sigma) g)
    (inv : M.Idx → ℝ) (hinv : IsInverseNoise R (catalogsOf ptype dist data dw (randoms.map some) rw) inv) (φ : V3 ℝ → ℝ)
    (hφ : ∀ rows ∈ randoms, ∀ r ∈ rows, 0 < R.readout inv (cart ptype dist r) ∧
      IsNoiseFactor s fid.h R.bias fnl f R.radius sigma (1 / R.readout inv (cart ptype dist r)) (φ (cart ptype dist r))) :
    png "randoms_weights" ptype none dist s blind fid z bias none (.name alg) sigma true (data.map (argOf ptype)) dw
        (randoms.map (argOf ptype)) rw =
      List.zipWith (fun rows w => .done (.weights (some (List.zipWith (fun r w => w * (1 - φ (cart ptype dist r) *
        R.readout g (cart ptype dist r))) rows (weightsOr1 rows.length w))))) randoms rw := by
  subst hR
  have hz : z = none ∨ ¬ IsDensity "f" := Or.inr (by unfold IsDensity; decide)
  have := png_scattered (method := "randoms_weights") (by simp) h dist s blind fid z bias (.name alg) sigma true data dw (randoms.map some)
    rw h1 h2
  rw [List.map_map, show argOf? ptype ∘ some = argOf ptype from rfl] at this
  rw [this]
  simp only [pngRecon, getFromCosmo_fiducial hf hz, Bind.bind, Except.bind]
  have hd : onData "randoms_weights" = false := by decide
  have hr : (catalogsOf ptype dist data dw (randoms.map some) rw).randoms = (randoms.map (List.map (cart ptype dist))).map some := by
    simp [catalogsOf]
  rw [pngCore_shotnoise hL (by decide) hs hfnl sigma f _ _ g hg (randoms.map (List.map (cart ptype dist))) (by
      unfold pngPositions; rw [hd, hr, mapM_id_some]; rfl) (by
      rw [hd]
      intro x hx l hl
      simp only [Bool.false_eq_true, if_false] at hx
      rw [show (catalogsOf ptype dist data dw (randoms.map some) rw).randomsWeights = rw from rfl, List.zip_map_left] at hx
      obtain ⟨y, hy, rfl⟩ := List.mem_map.mp hx
      have := hw y hy l hl
      simpa using this) hinv hb h0 φ (by
      intro rows hr p hp
      obtain ⟨rows, hr', rfl⟩ := List.mem_map.mp hr
      obtain ⟨r, hp', rfl⟩ := List.mem_map.mp hp
      exact hφ rows hr' r hp')]
  rw [pngOutput_weights, hd]
  simp only [Bool.false_eq_true, if_false]
  rw [show (catalogsOf ptype dist data dw (randoms.map some) rw).randomsWeights = rw from rfl, List.zipWith_map_left]
  simp only [List.length_map, List.zipWith_map_left, neg_mul, one_mul, ← sub_eq_add_neg]

/-- Non-vacuity: a reconstruction with positive inverse noise everywhere, a factor for each object. -/
example : ∃ (R : PngRecon mesh4) (inv : mesh4.Idx → ℝ) (φ : V3 ℝ → ℝ), R.bias = 2 ∧ (∀ p, 0 < φ p) ∧
    ∀ data dw, totalWeight data dw = 3 → IsInverseNoise R ⟨data, dw, [none], []⟩ inv ∧ ∀ p, 0 < R.readout inv p ∧
      IsNoiseFactor ⟨fun _ => 1, fun _ => 1, fun _ => 0⟩ 0.7 R.bias 20 0.8 R.radius 30 (1 / R.readout inv p) (φ p) := by
  have hs : PositiveSpectra ⟨fun _ => 1, fun _ => 1, fun _ => 0⟩ 0.7 := ⟨by norm_num, fun _ _ => ⟨one_pos, one_pos⟩⟩
  have hV : 0 < ∏ d, mesh4.boxsize d := Finset.prod_pos fun d _ => by simp [mesh4]
  obtain ⟨⟨φ, hφ, -⟩, hpos⟩ := C49_shotnoise_factor_exists hs (b1 := 2) (fnl := 20) (f := 0.8) (r1 := 15) (r2 := 30)
    (noise := 1 / (3 / ∏ d, mesh4.boxsize d)) (by positivity) (by norm_num) (by norm_num) (by norm_num)
  refine ⟨⟨2, 15, fun _ => 0, fun _ _ => peak mesh4, fun f _ => f 0, fun _ _ _ => 1, id⟩, fun _ => 3 / ∏ d, mesh4.boxsize d, fun _ => φ, rfl,
    fun _ => hpos φ hφ, fun data dw ht => ⟨⟨fun _ => 3 / ∏ d, mesh4.boxsize d, fun _ => 3 / ∏ d, mesh4.boxsize d,
      Or.inr ⟨by simp, fun _ => ?_⟩, rfl, fun _ => ⟨fun _ => ?_, fun h => ?_⟩⟩, fun _ => ⟨?_, hφ⟩⟩⟩
  · rw [ht]; exact div_mul_cancel₀ _ hV.ne'
  · simp
  · simp at h
  · exact div_pos (by norm_num) hV

end Verif.Props
