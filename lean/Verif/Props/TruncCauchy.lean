import Verif.Model.TruncCauchy
import Mathlib.Analysis.SpecialFunctions.Trigonometric.ArctanDeriv
import Mathlib.MeasureTheory.Integral.IntervalIntegral.FundThmCalculus
import Mathlib.Tactic.NormNum

/-!
# C57: truncated Cauchy distribution
-/

namespace Verif.Props
open Verif Verif.Model.TruncCauchy

theorem cauchyCdf_strictMono : StrictMono cauchyCdf := by
  intro x y h
  have := Real.arctan_strictMono h
  have hpi := Real.pi_pos
  unfold cauchyCdf
  have := div_lt_div_of_pos_right this hpi
  linarith

theorem cauchyCdf_range (x : ℝ) : 0 < cauchyCdf x ∧ cauchyCdf x < 1 := by
  have hpi := Real.pi_pos
  have h1 := Real.neg_pi_div_two_lt_arctan x
  have h2 := Real.arctan_lt_pi_div_two x
  unfold cauchyCdf
  constructor
  · have : -(1 / 2) < Real.arctan x / Real.pi := by rw [lt_div_iff₀ hpi]; linarith
    linarith
  · have : Real.arctan x / Real.pi < 1 / 2 := by rw [div_lt_iff₀ hpi]; linarith
    linarith

theorem cauchyPpf_cdf (x : ℝ) : cauchyPpf (cauchyCdf x) = x := by
  unfold cauchyPpf cauchyCdf
  rw [show Real.pi * (1 / 2 + Real.arctan x / Real.pi) - Real.pi / 2 = Real.arctan x by
    have := Real.pi_ne_zero; field_simp; ring]
  exact Real.tan_arctan x

theorem cauchyCdf_ppf {q : ℝ} (h0 : 0 < q) (h1 : q < 1) : cauchyCdf (cauchyPpf q) = q := by
  have hpi := Real.pi_pos
  unfold cauchyPpf cauchyCdf
  rw [Real.arctan_tan (by nlinarith) (by nlinarith)]
  field_simp
  ring

theorem hasDerivAt_cauchyCdf (x : ℝ) : HasDerivAt cauchyCdf (cauchyPdf x) x := by
  unfold cauchyCdf cauchyPdf
  have h := ((Real.hasDerivAt_arctan x).div_const Real.pi).const_add (1 / 2)
  have e : 1 / (Real.pi * (1 + x ^ 2)) = 1 / (1 + x ^ 2) / Real.pi := by
    rw [div_div, mul_comm]
  rw [e]
  exact h

section
variable {a b loc scale : ℝ} (hab : a < b) (hs : 0 < scale)
include hab hs

theorem args_ok : (Args.mk a b loc scale).ok := by
  refine ⟨?_, hs⟩
  simp only [Args.std]
  exact div_lt_div_of_pos_right (by linarith) hs

theorem norm_pos' : 0 < cauchyCdf ((b - loc) / scale) - cauchyCdf ((a - loc) / scale) := by
  have := cauchyCdf_strictMono (div_lt_div_of_pos_right (by linarith : a - loc < b - loc) hs)
  linarith

/-- In the closed support, the distribution function is the truncated one. -/
theorem cdf_in {x : ℝ} (h1 : a ≤ x) (h2 : x ≤ b) :
    cdf ⟨a, b, loc, scale⟩ x = some (cdfStd ((x - loc) / scale) ((a - loc) / scale) ((b - loc) / scale)) := by
  have hN := norm_pos' (loc := loc) hab hs
  rw [cdf]
  simp only [args_ok hab hs, if_true, Option.some.injEq, Args.std]
  by_cases h : (b - loc) / scale ≤ (x - loc) / scale
  · simp only [h, if_true]
    have : x = b := by rw [div_le_div_iff_of_pos_right hs] at h; linarith
    rw [this, cdfStd, div_self hN.ne']
  · simp only [h, if_false]
    by_cases h' : (a - loc) / scale < (x - loc) / scale
    · simp only [h', if_true]
    · simp only [h', if_false]
      rw [div_lt_div_iff_of_pos_right hs] at h'
      have : x = a := by linarith
      rw [this, cdfStd, sub_self, zero_div]

/-- C57: the distribution function is 0 up to `a` and 1 from `b`. -/
theorem C57_cdf_ends (x : ℝ) :
    (x ≤ a → cdf ⟨a, b, loc, scale⟩ x = some 0) ∧ (b ≤ x → cdf ⟨a, b, loc, scale⟩ x = some 1) := by
  constructor
  · intro h
    rw [cdf]
    simp only [args_ok hab hs, if_true, Option.some.injEq, Args.std, div_le_div_iff_of_pos_right hs,
      div_lt_div_iff_of_pos_right hs]
    rw [if_neg (by linarith), if_neg (by linarith)]
  · intro h
    rw [cdf]
    simp only [args_ok hab hs, if_true, Option.some.injEq, Args.std, div_le_div_iff_of_pos_right hs]
    rw [if_pos (by linarith)]

/-- C57: strictly increasing on [a, b], with values in [0, 1]. -/
theorem C57_cdf_increasing {x y : ℝ} (h1 : a ≤ x) (h2 : x < y) (h3 : y ≤ b) :
    ∃ p q, cdf ⟨a, b, loc, scale⟩ x = some p ∧ cdf ⟨a, b, loc, scale⟩ y = some q ∧ 0 ≤ p ∧ p < q ∧ q ≤ 1 := by
  have hN := norm_pos' (loc := loc) hab hs
  refine ⟨_, _, cdf_in hab hs h1 (by linarith), cdf_in hab hs (by linarith) h3, ?_, ?_, ?_⟩
  · apply div_nonneg _ hN.le
    have := cauchyCdf_strictMono.monotone (div_le_div_of_nonneg_right (by linarith : a - loc ≤ x - loc) hs.le)
    linarith
  · apply div_lt_div_of_pos_right _ hN
    have := cauchyCdf_strictMono (div_lt_div_of_pos_right (by linarith : x - loc < y - loc) hs)
    linarith
  · rw [cdfStd, div_le_one hN]
    have := cauchyCdf_strictMono.monotone (div_le_div_of_nonneg_right (by linarith : y - loc ≤ b - loc) hs.le)
    linarith

theorem ppf_in {q : ℝ} (h0 : 0 ≤ q) (h1 : q ≤ 1) : ppf ⟨a, b, loc, scale⟩ q =
    some (ppfStd q ((a - loc) / scale) ((b - loc) / scale) * scale + loc) := by
  rw [ppf]
  simp only [args_ok hab hs, if_true, Args.std]
  split
  · next h => rw [h, ppfStd, zero_mul, zero_add, cauchyPpf_cdf]
  · split
    · next h => rw [h, ppfStd, one_mul, sub_add_cancel, cauchyPpf_cdf]
    · next h h' =>
      rw [if_pos ⟨lt_of_le_of_ne h0 (Ne.symm h), lt_of_le_of_ne h1 h'⟩]

theorem q_range {q : ℝ} (h0 : 0 ≤ q) (h1 : q ≤ 1) :
    let u := q * (cauchyCdf ((b - loc) / scale) - cauchyCdf ((a - loc) / scale)) + cauchyCdf ((a - loc) / scale)
    cauchyCdf ((a - loc) / scale) ≤ u ∧ u ≤ cauchyCdf ((b - loc) / scale) := by
  have hN := norm_pos' (loc := loc) hab hs
  constructor <;> nlinarith

/-- The quantile lies in the support, and the standard distribution function inverts it. -/
theorem ppfStd_range {q : ℝ} (h0 : 0 ≤ q) (h1 : q ≤ 1) :
    let y := ppfStd q ((a - loc) / scale) ((b - loc) / scale)
    (a - loc) / scale ≤ y ∧ y ≤ (b - loc) / scale ∧ cdfStd y ((a - loc) / scale) ((b - loc) / scale) = q := by
  have hN := norm_pos' (loc := loc) hab hs
  obtain ⟨u1, u2⟩ := q_range (loc := loc) hab hs h0 h1
  have r1 := (cauchyCdf_range ((a - loc) / scale)).1
  have r2 := (cauchyCdf_range ((b - loc) / scale)).2
  have e := cauchyCdf_ppf (lt_of_lt_of_le r1 u1) (lt_of_le_of_lt u2 r2)
  refine ⟨?_, ?_, ?_⟩
  · rw [← cauchyCdf_strictMono.le_iff_le, ppfStd, e]; exact u1
  · rw [← cauchyCdf_strictMono.le_iff_le, ppfStd, e]; exact u2
  · rw [cdfStd, ppfStd, e]; field_simp; ring

/-- C57: `ppf` takes values in [a, b] and `cdf` inverts it. -/
theorem C57_cdf_ppf {q : ℝ} (h0 : 0 ≤ q) (h1 : q ≤ 1) :
    ∃ x, ppf ⟨a, b, loc, scale⟩ q = some x ∧ a ≤ x ∧ x ≤ b ∧ cdf ⟨a, b, loc, scale⟩ x = some q := by
  obtain ⟨y1, y2, y3⟩ := ppfStd_range (loc := loc) hab hs h0 h1
  refine ⟨_, ppf_in hab hs h0 h1, ?_⟩
  generalize ppfStd q ((a - loc) / scale) ((b - loc) / scale) = y at *
  rw [div_le_iff₀ hs] at y1
  rw [le_div_iff₀ hs] at y2
  have h1 : a ≤ y * scale + loc := by linarith
  have h2 : y * scale + loc ≤ b := by linarith
  refine ⟨h1, h2, ?_⟩
  rw [cdf_in hab hs h1 h2]
  rw [show (y * scale + loc - loc) / scale = y by field_simp; ring, y3]

/-- C57: `ppf` inverts `cdf` on [a, b]. -/
theorem C57_ppf_cdf {x : ℝ} (h1 : a ≤ x) (h2 : x ≤ b) :
    ∃ q, cdf ⟨a, b, loc, scale⟩ x = some q ∧ ppf ⟨a, b, loc, scale⟩ q = some x := by
  have hN := norm_pos' (loc := loc) hab hs
  refine ⟨_, cdf_in hab hs h1 h2, ?_⟩
  have m1 := cauchyCdf_strictMono.monotone (div_le_div_of_nonneg_right (by linarith : a - loc ≤ x - loc) hs.le)
  have m2 := cauchyCdf_strictMono.monotone (div_le_div_of_nonneg_right (by linarith : x - loc ≤ b - loc) hs.le)
  have hq0 : 0 ≤ cdfStd ((x - loc) / scale) ((a - loc) / scale) ((b - loc) / scale) :=
    div_nonneg (by linarith) hN.le
  have hq1 : cdfStd ((x - loc) / scale) ((a - loc) / scale) ((b - loc) / scale) ≤ 1 := by
    rw [cdfStd, div_le_one hN]; linarith
  rw [ppf_in hab hs hq0 hq1]
  rw [ppfStd, cdfStd, div_mul_cancel₀ _ hN.ne', sub_add_cancel, cauchyPpf_cdf, div_mul_cancel₀ _ hs.ne', sub_add_cancel]

/-- C57: the density is the derivative of the distribution function inside the support, and 0 outside. -/
theorem C57_density {x : ℝ} :
    (a < x → x < b → ∃ p, pdf ⟨a, b, loc, scale⟩ x = some p ∧
      HasDerivAt (fun t => (cdf ⟨a, b, loc, scale⟩ t).getD 0) p x) ∧
    (x < a ∨ b < x → pdf ⟨a, b, loc, scale⟩ x = some 0) := by
  have hN := norm_pos' (loc := loc) hab hs
  constructor
  · intro h1 h2
    refine ⟨pdfStd ((x - loc) / scale) ((a - loc) / scale) ((b - loc) / scale) / scale, ?_, ?_⟩
    · rw [pdf]
      simp only [args_ok hab hs, if_true, Args.std, div_le_div_iff_of_pos_right hs]
      rw [if_pos ⟨by linarith, by linarith⟩]
    · have hd : HasDerivAt (fun t => cdfStd ((t - loc) / scale) ((a - loc) / scale) ((b - loc) / scale))
          (pdfStd ((x - loc) / scale) ((a - loc) / scale) ((b - loc) / scale) / scale) x := by
        have h0 : HasDerivAt (fun t : ℝ => (t - loc) / scale) (1 / scale) x :=
          ((hasDerivAt_id x).sub_const loc).div_const scale
        have h3 := (((hasDerivAt_cauchyCdf ((x - loc) / scale)).comp x h0).sub_const
          (cauchyCdf ((a - loc) / scale))).div_const (cauchyCdf ((b - loc) / scale) - cauchyCdf ((a - loc) / scale))
        have e : pdfStd ((x - loc) / scale) ((a - loc) / scale) ((b - loc) / scale) / scale =
            cauchyPdf ((x - loc) / scale) * (1 / scale) /
              (cauchyCdf ((b - loc) / scale) - cauchyCdf ((a - loc) / scale)) := by
          unfold pdfStd; field_simp
        rw [e]
        exact h3
      refine hd.congr_of_eventuallyEq ?_
      filter_upwards [Ioo_mem_nhds h1 h2] with t ht
      rw [cdf_in hab hs ht.1.le ht.2.le]; rfl
  · intro h
    rw [pdf]
    simp only [args_ok hab hs, if_true, Args.std, div_le_div_iff_of_pos_right hs]
    rw [if_neg]
    rintro ⟨h1, h2⟩
    rcases h with h | h <;> linarith

/-- C57: samples lie in [a, b], for all draws in [0, 1]. -/
theorem C57_samples (draws : List ℝ) (hd : ∀ q ∈ draws, 0 ≤ q ∧ q ≤ 1) :
    ∃ xs, rvs ⟨a, b, loc, scale⟩ draws = .ok xs ∧ xs.length = draws.length ∧
      (∀ x ∈ xs, a ≤ x ∧ x ≤ b) ∧ xs.map (fun x => cdf ⟨a, b, loc, scale⟩ x) = draws.map some := by
  have key : ∀ q ∈ draws, ∃ x, x = ppfStd q ((a - loc) / scale) ((b - loc) / scale) * scale + loc ∧ a ≤ x ∧ x ≤ b ∧
      cdf ⟨a, b, loc, scale⟩ x = some q := by
    intro q hq
    obtain ⟨x, hx, h1, h2, h3⟩ := C57_cdf_ppf (loc := loc) hab hs (hd q hq).1 (hd q hq).2
    rw [ppf_in hab hs (hd q hq).1 (hd q hq).2] at hx
    exact ⟨x, (Option.some.inj hx).symm, h1, h2, h3⟩
  refine ⟨_, by rw [rvs, if_pos (args_ok hab hs)], by simp, ?_, ?_⟩
  · intro x hx
    obtain ⟨q, hq, rfl⟩ := List.mem_map.1 hx
    obtain ⟨x, rfl, h1, h2, -⟩ := key q hq
    exact ⟨h1, h2⟩
  · rw [List.map_map]
    apply List.map_congr_left
    intro q hq
    obtain ⟨x, rfl, -, -, h3⟩ := key q hq
    exact h3

end

/-- C57: limits in the wrong order, or a scale which is not positive, give `nan`, and an error when drawing. -/
theorem C57_invalid {a b loc scale : ℝ} (h : b ≤ a ∨ scale ≤ 0) (x : ℝ) (draws : List ℝ) :
    cdf ⟨a, b, loc, scale⟩ x = none ∧ ppf ⟨a, b, loc, scale⟩ x = none ∧ pdf ⟨a, b, loc, scale⟩ x = none ∧
      rvs ⟨a, b, loc, scale⟩ draws = .error .valueError := by
  have hk : ¬ (Args.mk a b loc scale).ok := by
    rintro ⟨h1, h2⟩
    simp only [Args.std] at h1 h2
    rw [div_lt_div_iff_of_pos_right h2] at h1
    rcases h with h | h <;> linarith
  simp [cdf, ppf, pdf, rvs, hk]

/-- C57: `ppf` outside [0, 1] is `nan`. -/
theorem C57_ppf_outside {a b loc scale q : ℝ} (h : q < 0 ∨ 1 < q) : ppf ⟨a, b, loc, scale⟩ q = none := by
  rw [ppf]
  split
  · rw [if_neg (by rintro rfl; norm_num at h), if_neg (by rintro rfl; norm_num at h), if_neg]
    rintro ⟨h1, h2⟩
    rcases h with h | h <;> linarith
  · rfl

example : (-1 : ℝ) < 2 ∧ (0 : ℝ) < 0.1 := by norm_num

end Verif.Props
