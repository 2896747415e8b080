import Verif.Model.RadialIntegral
import Verif.Props.TabMaskNorm
import Verif.Lemmas.Blinding
import Mathlib.MeasureTheory.Integral.DominatedConvergence
import Mathlib.MeasureTheory.Integral.IntervalIntegral.FundThmCalculus
import Mathlib.Analysis.SpecialFunctions.Integrals.Basic

/-!
# C33: integral and normalisation of a tabulated radial mask without sample, and for samples on one rank or on all
-/

namespace Verif.Props
open Verif Verif.Model Verif.Model.TabMask Verif.Lemmas.Blinding MeasureTheory

/-- C29. `zmask` has one entry per tabulated redshift, true for those that can be selected: within the range, limits included; the
probability vanishes at the others. -/
theorem C29_zmask (t : TabMask) : t.zmask.length = t.nodes.length ∧ ∀ (i : ℕ) (p : ℝ × ℝ), t.nodes[i]? = some p →
    (t.zmask[i]? = some true ↔ t.zrange.1 ≤ p.1 ∧ p.1 ≤ t.zrange.2) ∧ (t.zmask[i]? = some false → t.prob p.1 = 0) := by
  refine ⟨by simp [zmask], fun i p h => ?_⟩
  unfold zmask
  rw [List.getElem?_map, h]
  simp only [Option.map_some, Option.some.injEq, decide_eq_true_eq, decide_eq_false_iff_not, true_and]
  intro hn
  unfold TabMask.prob
  rw [if_neg hn]

/-! ### Without sample -/

/-- The interpolated curve is measurable. -/
theorem linInterp_measurable (nodes : List (ℝ × ℝ)) : Measurable fun z => (linInterp nodes z).getD 0 := by
  induction nodes with
  | nil => simp only [linInterp, Option.getD_none]; exact measurable_const
  | cons a l ih =>
    cases l with
    | nil => simp only [linInterp, Option.getD_none]; exact measurable_const
    | cons b l =>
      have : (fun z => (linInterp (a :: b :: l) z).getD 0) = fun z => if z < a.1 then 0 else
          if z ≤ b.1 then a.2 + (z - a.1) / (b.1 - a.1) * (b.2 - a.2) else (linInterp (b :: l) z).getD 0 := by
        funext z
        rw [linInterp]
        split
        · rfl
        · split <;> rfl
      rw [this]
      refine Measurable.ite (measurableSet_lt measurable_id measurable_const) measurable_const ?_
      refine Measurable.ite (measurableSet_le measurable_id measurable_const) ?_ ih
      fun_prop

/-- Selection probability integrated over the redshift range. -/
noncomputable def selectedRange (t : TabMask) (c : ℝ) : ℝ := ∫ z in t.zrange.1..t.zrange.2, probAt t c z

theorem interpIntegral_eq {t : TabMask} (h : t.zrange.1 ≤ t.zrange.2) (c : ℝ) :
    interpIntegral { t with norm := c } = selectedRange t c := by
  unfold interpIntegral selectedRange
  apply intervalIntegral.integral_congr
  intro z hz
  rw [Set.uIcc_of_le h] at hz
  unfold probAt TabMask.prob
  simp only
  rw [if_pos ⟨hz.1, hz.2⟩]

theorem probAt_measurable (t : TabMask) (c : ℝ) : Measurable (probAt t c) := by
  unfold probAt TabMask.prob
  exact Measurable.ite (measurableSet_Icc (a := t.zrange.1) (b := t.zrange.2)) (linInterp_measurable _) measurable_const

theorem probAt_bounds {t : TabMask} (ht : Table t.nodes) {c : ℝ} (hc : 0 ≤ c) (z : ℝ) : 0 ≤ probAt t c z ∧ probAt t c z ≤ 1 := by
  rcases probAt_cases ht z with h | ⟨w, y0, y1, w0, w1, h0, h1, h⟩
  · rw [h]; norm_num
  · rw [h]
    have e0 : 0 ≤ min (c * y0) 1 := le_min (mul_nonneg hc h0) zero_le_one
    have e1 : 0 ≤ min (c * y1) 1 := le_min (mul_nonneg hc h1) zero_le_one
    have f0 : min (c * y0) 1 ≤ 1 := min_le_right _ _
    have f1 : min (c * y1) 1 ≤ 1 := min_le_right _ _
    have w1' : 0 ≤ 1 - w := by linarith
    constructor
    · positivity
    · nlinarith

theorem probAt_integrable {t : TabMask} (ht : Table t.nodes) {c : ℝ} (hc : 0 ≤ c) (a b : ℝ) :
    IntervalIntegrable (probAt t c) volume a b := by
  rw [intervalIntegrable_iff]
  refine Measure.integrableOn_of_bounded (M := 1) (by simp) (probAt_measurable t c).aestronglyMeasurable ?_
  refine Filter.Eventually.of_forall fun z => ?_
  rw [Real.norm_eq_abs, abs_of_nonneg (probAt_bounds ht hc z).1]
  exact (probAt_bounds ht hc z).2

/-- C33. Without sample, `integral` returns the integral of the selection probability over the redshift range. -/
theorem C33_range {t : TabMask} (h : t.zrange.1 ≤ t.zrange.2) (nw : Bool) :
    t.integralAny none none nw = .ok (∫ z in t.zrange.1..t.zrange.2, t.prob z) :=
  congrArg Except.ok (interpIntegral_eq h t.norm)

/-- C33. It grows with the normalisation. -/
theorem C33_range_monotone {t : TabMask} (ht : Table t.nodes) (h : t.zrange.1 ≤ t.zrange.2) {c c' : ℝ} (hc : 0 ≤ c) (hcc : c ≤ c') :
    selectedRange t c ≤ selectedRange t c' :=
  intervalIntegral.integral_mono_on h (probAt_integrable ht hc _ _) (probAt_integrable ht (hc.trans hcc) _ _)
    fun z _ => probAt_monotone ht z hcc

/-- C33. It is continuous in the normalisation. -/
theorem C33_range_continuous {t : TabMask} (ht : Table t.nodes) : ContinuousOn (selectedRange t) (Set.Ici 0) := by
  have : Continuous fun c => ∫ z in t.zrange.1..t.zrange.2, probAt t (max c 0) z := by
    refine intervalIntegral.continuous_of_dominated_interval (bound := fun _ => 1) ?_ ?_ ?_ ?_
    · exact fun c => (probAt_measurable t _).aestronglyMeasurable
    · refine fun c => Filter.Eventually.of_forall fun z _ => ?_
      rw [Real.norm_eq_abs, abs_of_nonneg (probAt_bounds ht (le_max_right _ _) z).1]
      exact (probAt_bounds ht (le_max_right _ _) z).2
    · exact intervalIntegrable_const
    · refine Filter.Eventually.of_forall fun z _ => ?_
      exact (probAt_continuous ht z).comp (continuous_id.max continuous_const)
  refine this.continuousOn.congr fun c hc => ?_
  simp only [selectedRange]
  rw [max_eq_left (show (0 : ℝ) ≤ c from hc)]

theorem selectedRange_zero {t : TabMask} (ht : Table t.nodes) : selectedRange t 0 = 0 := by
  unfold selectedRange
  simp [probAt_zero ht]

/-- Sum of the areas of the trapezoids of a table. -/
noncomputable def trapezoids : List (ℝ × ℝ) → ℝ
  | p :: q :: l => (q.1 - p.1) * (p.2 + q.2) / 2 + trapezoids (q :: l)
  | _ => 0

/-- Integral of a table over its whole range. -/
theorem integral_table (p : ℝ × ℝ) (l : List (ℝ × ℝ)) (hi : Inc (p :: l)) (b : ℝ × ℝ) (hb : (p :: l).getLast? = some b) :
    p.1 ≤ b.1 ∧ IntervalIntegrable (fun z => (linInterp (p :: l) z).getD 0) volume p.1 b.1 ∧
    ∫ z in p.1..b.1, (linInterp (p :: l) z).getD 0 = trapezoids (p :: l) := by
  induction l generalizing p with
  | nil =>
    simp only [List.getLast?_singleton, Option.some.injEq] at hb
    subst hb
    refine ⟨le_rfl, IntervalIntegrable.refl, ?_⟩
    rw [intervalIntegral.integral_same]
    rfl
  | cons q l ih =>
    rw [List.getLast?_cons_cons] at hb
    have hpq : p.1 < q.1 := by
      unfold Inc at hi
      simp only [List.map_cons, List.pairwise_cons] at hi
      exact hi.1 q.1 (by simp)
    have hi' : Inc (q :: l) := by
      unfold Inc at hi ⊢
      simp only [List.map_cons, List.pairwise_cons] at hi ⊢
      exact hi.2
    obtain ⟨hqb, hint, hval⟩ := ih q hi' hb
    set line : ℝ → ℝ := fun z => p.2 + (z - p.1) / (q.1 - p.1) * (q.2 - p.2) with hline
    have e1 : ∀ z ∈ Set.uIoc p.1 q.1, line z = (linInterp (p :: q :: l) z).getD 0 := by
      intro z hz
      rw [Set.uIoc_of_le hpq.le] at hz
      rw [linInterp, if_neg (not_lt.2 hz.1.le), if_pos hz.2]
      rfl
    have e2 : ∀ z ∈ Set.uIoc q.1 b.1, (linInterp (q :: l) z).getD 0 = (linInterp (p :: q :: l) z).getD 0 := by
      intro z hz
      rw [Set.uIoc_of_le hqb] at hz
      conv_rhs => rw [linInterp]
      rw [if_neg (not_lt.2 (hpq.trans hz.1).le), if_neg (not_le.2 hz.1)]
    have hcont : Continuous line := by rw [hline]; fun_prop
    have i1 : IntervalIntegrable (fun z => (linInterp (p :: q :: l) z).getD 0) volume p.1 q.1 :=
      (hcont.intervalIntegrable _ _).congr (fun z hz => e1 z hz)
    have i2 : IntervalIntegrable (fun z => (linInterp (p :: q :: l) z).getD 0) volume q.1 b.1 := hint.congr (fun z hz => e2 z hz)
    refine ⟨hpq.le.trans hqb, i1.trans i2, ?_⟩
    rw [← intervalIntegral.integral_add_adjacent_intervals i1 i2, trapezoids, ← hval]
    congr 1
    · have : ∫ z in p.1..q.1, (linInterp (p :: q :: l) z).getD 0 = ∫ z in p.1..q.1, line z :=
        intervalIntegral.integral_congr_ae (Filter.Eventually.of_forall fun z hz => (e1 z hz).symm)
      rw [this]
      have hk : line = fun z => (p.2 - p.1 * ((q.2 - p.2) / (q.1 - p.1))) + (q.2 - p.2) / (q.1 - p.1) * z := by
        rw [hline]
        funext z
        ring
      rw [hk, intervalIntegral.integral_add (by simp) (Continuous.intervalIntegrable (by fun_prop) _ _),
        intervalIntegral.integral_const, intervalIntegral.integral_const_mul, integral_id, smul_eq_mul]
      have : q.1 - p.1 ≠ 0 := by linarith
      field_simp
      ring
    · exact intervalIntegral.integral_congr_ae (Filter.Eventually.of_forall fun z hz => (e2 z hz).symm)

/-- C33. Over the whole table, the integral without sample is the area of the trapezoids with the selection probabilities as heights. -/
theorem C33_trapezoids {t : TabMask} (ht : Table t.nodes) {a b : ℝ × ℝ} (ha : t.nodes.head? = some a) (hb : t.nodes.getLast? = some b)
    (hr : t.zrange = (a.1, b.1)) (nw : Bool) :
    t.integralAny none none nw = .ok (trapezoids (t.nodes.map fun p => (p.1, min (t.norm * p.2) 1))) := by
  obtain ⟨a', l, e, -⟩ := ht.cons
  rw [e] at ha
  simp only [List.head?_cons, Option.some.injEq] at ha
  subst ha
  have hi := probNodes_inc ht.inc t.norm
  unfold integralAny interpIntegral
  simp only [Except.ok.injEq]
  unfold probNodes at hi ⊢
  rw [e] at hi hb ⊢
  rw [hr]
  exact (integral_table _ _ hi (b.1, min (t.norm * b.2) 1) (by
    change ((a' :: l).map fun p : ℝ × ℝ => (p.1, min (t.norm * p.2) 1)).getLast? = _
    rw [List.getLast?_map, hb]; rfl)).2.2

/-- `normalize(target)` unfolded. -/
theorem normalizeAny_range {t : TabMask} (ht : Table t.nodes) (h : t.zrange.1 ≤ t.zrange.2) {target m : ℝ} (h0 : 0 < target)
    (h1 : target ≤ 1) (hm : TabMask.minPositive t.nodes = some m) (result : Except Err TabMask) :
    t.normalizeAny target none none result ↔
      if selectedRange t (1 / m) < target then result = .error .valueError
      else ∃ c, 0 ≤ c ∧ c ≤ 1 / m ∧ selectedRange t c = target ∧ result = .ok { t with norm := c } := by
  unfold normalizeAny normalizeWeights
  rw [if_neg (by push Not; exact ⟨h0.le, h1⟩)]
  simp only [hm, integralAny, interpIntegral_eq h, selectedRange_zero ht, Except.ok.injEq]
  rw [if_neg h0.ne']
  by_cases hlt : selectedRange t (1 / m) < target
  · rw [if_pos hlt, if_pos]
    have : selectedRange t (1 / m) / target < 1 := by rw [div_lt_one h0]; exact hlt
    rw [zero_div]
    linarith
  · rw [if_neg hlt, if_neg]
    have : 1 ≤ selectedRange t (1 / m) / target := by rw [le_div_iff₀ h0]; linarith [not_lt.1 hlt]
    rw [zero_div, not_lt]
    linarith

/-- C33. Without sample, the integral is set to the target if it can be reached; the target is rejected otherwise. -/
theorem C33_range_met {t : TabMask} (ht : Table t.nodes) (h : t.zrange.1 ≤ t.zrange.2) {target m : ℝ} (h0 : 0 < target)
    (h1 : target ≤ 1) (hm : TabMask.minPositive t.nodes = some m) :
    (target ≤ selectedRange t (1 / m) → (∃ result, t.normalizeAny target none none result) ∧
      ∀ result, t.normalizeAny target none none result → ∃ t', result = .ok t' ∧ t'.nodes = t.nodes ∧ t'.zrange = t.zrange ∧
        0 ≤ t'.norm ∧ t'.norm ≤ 1 / m ∧ t'.integralAny none none true = .ok target) ∧
    (selectedRange t (1 / m) < target → ∀ result, t.normalizeAny target none none result ↔ result = .error .valueError) := by
  have hmp := (minPositive_pos hm).1
  constructor
  · intro htar
    constructor
    · obtain ⟨c, ⟨hc0, hc1⟩, hc⟩ := intermediate_value_Icc (one_div_pos.2 hmp).le
        ((C33_range_continuous ht).mono fun c hc => hc.1)
        (show target ∈ Set.Icc (selectedRange t 0) (selectedRange t (1 / m)) from ⟨by rw [selectedRange_zero ht]; exact h0.le, htar⟩)
      refine ⟨.ok { t with norm := c }, (normalizeAny_range ht h h0 h1 hm _).2 ?_⟩
      rw [if_neg (not_lt.2 htar)]
      exact ⟨c, hc0, hc1, hc, rfl⟩
    · intro result hr
      rw [normalizeAny_range ht h h0 h1 hm, if_neg (not_lt.2 htar)] at hr
      obtain ⟨c, hc0, hc1, hc, rfl⟩ := hr
      refine ⟨_, rfl, rfl, rfl, hc0, hc1, ?_⟩
      rw [← hc, ← interpIntegral_eq h c]
      rfl
  · intro hlt result
    rw [normalizeAny_range ht h h0 h1 hm, if_pos hlt]

/-- C33. Weights without redshifts are rejected, in `integral` and (for weights of non-zero sum) in `normalize`. -/
theorem C33_weights_alone (t : TabMask) (w : List ℝ) (nw : Bool) (target : ℝ) (hs : w.sum ≠ 0) (result : Except Err TabMask) :
    t.integralAny none (some w) nw = .error .valueError ∧
    (t.normalizeAny target none (some w) result ↔ result = .error .valueError) := by
  refine ⟨rfl, ?_⟩
  unfold normalizeAny normalizeWeights
  split
  · rfl
  · simp only
    rw [if_neg hs]
    simp only
    cases minPositive t.nodes <;> simp [integralAny]

/-- Calls with redshifts are those of `C33_met` and the other theorems on samples. -/
theorem C33_sample (t : TabMask) {target : ℝ} (h0 : target ≠ 0) (z : List ℝ) (w : Option (List ℝ)) (nw : Bool)
    (result : Except Err TabMask) :
    t.integralAny (some z) w nw = t.integral z w nw ∧
    (t.normalizeAny target (some z) w result ↔ t.normalize target z w result) := by
  refine ⟨rfl, ?_⟩
  have hex : ∀ w' c, ∃ f, t.selected z w' c = .ok f := by
    intro w' c
    unfold selected TabMask.integral
    cases w' <;> simp
  unfold normalizeAny TabMask.normalize
  simp only [if_neg h0]
  split
  · rfl
  · cases normalizeWeights w with
    | error e => rfl
    | ok w' =>
      cases minPositive t.nodes with
      | none => rfl
      | some m =>
        obtain ⟨f0, e0⟩ := hex w' 0
        obtain ⟨f1, e1⟩ := hex w' (1 / m)
        have e0' : ({ t with norm := 0 } : TabMask).integralAny (some z) w' false = .ok f0 := e0
        have e1' : ({ t with norm := 1 / m } : TabMask).integralAny (some z) w' false = .ok f1 := e1
        simp only [e0', e1', e0, e1, Except.ok.injEq]
        constructor
        · exact fun h => ⟨f0, f1, rfl, rfl, h⟩
        · rintro ⟨_, _, rfl, rfl, h⟩
          exact h

/-- A flat table over (a, b). -/
theorem flat_prob {a b : ℝ} (hab : a < b) {t : TabMask} (hn : t.nodes = [(a, 1), (b, 1)]) (hr : t.zrange = (a, b)) (c : ℝ) {z : ℝ}
    (h1 : a ≤ z) (h2 : z ≤ b) : probAt t c z = min c 1 := by
  unfold probAt TabMask.prob
  simp only [hr, hn]
  rw [if_pos ⟨h1, h2⟩, probNodes_onSegment (nodes := [(a, 1), (b, 1)]) (by unfold Inc; simpa using hab) c (l := []) (p := (a, 1)) (q := (b, 1)) (r := []) rfl h1 h2]
  simp

theorem flat_selected {a b : ℝ} (hab : a < b) {t : TabMask} (hn : t.nodes = [(a, 1), (b, 1)]) (hr : t.zrange = (a, b)) (c : ℝ) :
    selectedRange t c = (b - a) * min c 1 := by
  unfold selectedRange
  have : ∫ z in t.zrange.1..t.zrange.2, probAt t c z = ∫ _ in a..b, min c 1 := by
    rw [hr]
    apply intervalIntegral.integral_congr
    intro z hz
    rw [Set.uIcc_of_le hab.le] at hz
    exact flat_prob hab hn hr c hz.1 hz.2
  rw [this, intervalIntegral.integral_const, smul_eq_mul]

theorem flat_init {a b : ℝ} (hab : a < b) : ∃ t, TabMask.init [(a, 1), (b, 1)] none none = .ok t ∧ t.nodes = [(a, 1), (b, 1)] ∧
    t.zrange = (a, b) ∧ Table t.nodes ∧ TabMask.minPositive t.nodes = some 1 := by
  have ht : Table [((a : ℝ), (1 : ℝ)), (b, 1)] :=
    ⟨by unfold Inc; simpa using hab, by simp, by intro p hp; simp at hp; rcases hp with rfl | rfl <;> norm_num⟩
  obtain ⟨t, h, hr, hn⟩ := C29_defined ht (zrange := (a, b)) ⟨(a, 1), (b, 1), rfl, rfl, le_rfl, le_rfl⟩
    (p := (a, 1)) (by simp) le_rfl hab.le (by norm_num)
  refine ⟨t, ?_, hn, hr, hn ▸ ht, ?_⟩
  · rw [← h]
    simp [TabMask.init]
  · rw [hn]
    norm_num [TabMask.minPositive]

/-- C33, violated. Without sample, the integral is that of the probability over the range, and not the fraction that is selected of
redshifts spread evenly over the range. Constant density over a range of length 2: `normalize(1)`, all objects, leaves a probability
of 1/2 everywhere. Over a range of length 1/2, `normalize(3/4)` is rejected, although all fractions can be selected. -/
theorem C33_range_violated :
    (∃ t, TabMask.init [(0, 1), (2, 1)] none none = .ok t ∧ (∀ z, 0 ≤ z → z ≤ 2 → t.prob z = 1) ∧
      (∃ result, t.normalizeAny 1 none none result) ∧
      ∀ result, t.normalizeAny 1 none none result → ∃ t', result = .ok t' ∧ ∀ z, 0 ≤ z → z ≤ 2 → t'.prob z = 1 / 2) ∧
    (∃ t, TabMask.init [(0, 1), (1 / 2, 1)] none none = .ok t ∧ (∀ z, 0 ≤ z → z ≤ 1 / 2 → t.prob z = 1) ∧
      ∀ result, t.normalizeAny (3 / 4) none none result ↔ result = .error .valueError) := by
  have hone : ∀ {b : ℝ}, 0 < b → ∀ {t : TabMask}, TabMask.init [(0, 1), (b, 1)] none none = .ok t → t.nodes = [(0, 1), (b, 1)] →
      t.zrange = (0, b) → ∀ z, 0 ≤ z → z ≤ b → t.prob z = 1 := by
    intro b hb t h hn hr z h1 h2
    obtain ⟨c, -, hp, ⟨z', hz1, hz2, he⟩, -⟩ := C29_whole_table h
    have hd : ∀ x, 0 ≤ x → x ≤ b → density [((0 : ℝ), (1 : ℝ)), (b, 1)] x = 1 := by
      intro x hx1 hx2
      unfold density
      rw [onSegment_linInterp (nodes := [(0, 1), (b, 1)]) (by unfold Inc; simpa using hb)
        ⟨[], (0, 1), (b, 1), [], rfl, hx1, hx2, rfl⟩]
      simp
    rw [hr] at hp hz1 hz2
    rw [hp z' hz1 hz2, hd z' hz1 hz2] at he
    rw [hp z h1 h2, hd z h1 h2, he]
  constructor
  · obtain ⟨t, h, hn, hr, ht, hm⟩ := flat_init (a := 0) (b := 2) (by norm_num)
    have hs : ∀ c, selectedRange t c = (2 - 0) * min c 1 := flat_selected (by norm_num) hn hr
    have hle : t.zrange.1 ≤ t.zrange.2 := by rw [hr]; norm_num
    refine ⟨t, h, hone (by norm_num) h hn hr, ?_, ?_⟩
    · exact ((C33_range_met ht hle one_pos le_rfl hm).1 (by rw [hs]; norm_num)).1
    · intro result hres
      rw [normalizeAny_range ht hle one_pos le_rfl hm, if_neg (by rw [hs]; norm_num)] at hres
      obtain ⟨c, hc0, hc1, hc, rfl⟩ := hres
      refine ⟨_, rfl, fun z h1 h2 => ?_⟩
      rw [hs] at hc
      have := flat_prob (by norm_num) hn hr c h1 h2
      unfold probAt at this
      rw [this]
      linarith
  · obtain ⟨t, h, hn, hr, ht, hm⟩ := flat_init (a := 0) (b := 1 / 2) (by norm_num)
    have hs : ∀ c, selectedRange t c = (1 / 2 - 0) * min c 1 := flat_selected (by norm_num) hn hr
    have hle : t.zrange.1 ≤ t.zrange.2 := by rw [hr]; norm_num
    refine ⟨t, h, hone (by norm_num) h hn hr, ?_⟩
    exact (C33_range_met ht hle (by norm_num) (by norm_num) hm).2 (by rw [hs]; norm_num)

/-- C33 (partial). Without sample, the mean probability over the range is the target divided by the length of the range: the
documented fraction for ranges of length 1. -/
theorem C33_range_partial {t t' : TabMask} (ht : Table t.nodes) (h : t.zrange.1 < t.zrange.2) {target m : ℝ} (h0 : 0 < target)
    (h1 : target ≤ 1) (hm : TabMask.minPositive t.nodes = some m) (hn : t.normalizeAny target none none (.ok t')) :
    (∫ z in t.zrange.1..t.zrange.2, t'.prob z) / (t.zrange.2 - t.zrange.1) = target / (t.zrange.2 - t.zrange.1) := by
  rw [normalizeAny_range ht h.le h0 h1 hm] at hn
  split at hn
  · simp at hn
  · obtain ⟨c, -, -, hc, e⟩ := hn
    cases e
    rw [← hc]
    rfl

/-! ### Ranks -/

theorem sum_zipWith_flatten (f : ℝ → ℝ → ℝ) (l : List (List ℝ × List ℝ)) (h : ∀ a ∈ l, a.1.length = a.2.length) :
    (l.map fun a => (List.zipWith f a.1 a.2).sum).sum = (List.zipWith f (l.map (·.1)).flatten (l.map (·.2)).flatten).sum := by
  induction l with
  | nil => simp
  | cons a l ih =>
    simp only [List.map_cons, List.sum_cons, List.flatten_cons]
    rw [List.zipWith_append (h a (by simp)), List.sum_append, ih fun b hb => h b (List.mem_cons_of_mem _ hb)]

/-- C33. Redshifts with weights, spread over ranks in any way: every rank gets the integral of the whole sample. -/
theorem C33_ranks_weights (t : TabMask) (l : List (List ℝ × List ℝ)) (h : ∀ a ∈ l, a.1.length = a.2.length) (nw : Bool) :
    t.integralRun none (l.map fun a => some a.1) (l.map fun a => some a.2) nw =
      some (l.map fun _ => t.integral (l.map (·.1)).flatten (some (l.map (·.2)).flatten) nw) := by
  have hzip : List.zip (l.map fun a => some a.1) (l.map fun a => some a.2) = l.map fun a => (some a.1, some a.2) := by
    rw [List.zip_map', ]
  unfold integralRun inputArray
  dsimp only
  rw [hzip]
  simp only [List.map_map, Function.comp_def]
  rw [if_pos]
  · congr 1
    apply List.map_congr_left
    intro a ha
    rw [if_neg (by rintro ⟨w', e, hne⟩; cases e; exact hne (h a ha))]
    have htot : (l.map fun a => a.2.sum).sum = (l.map (·.2)).flatten.sum := by
      rw [List.sum_flatten, List.map_map]; rfl
    unfold TabMask.integral rankWeights
    cases nw
    · simp only [Bool.false_eq_true, false_and, if_false, Option.getD_some]
      rw [sum_zipWith_flatten _ l h]
    · have hc : (l.map fun a : List ℝ × List ℝ => if SumCall.sizes ∈ sumCalls (some a.1) (some a.2) true then ((a.1.length : ℕ) : ℝ)
          else if SumCall.weights ∈ sumCalls (some a.1) (some a.2) true then a.2.sum else 0) = l.map fun a => a.2.sum := by
        refine List.map_congr_left fun a ha => ?_
        simp [sumCalls, h a ha]
      simp only [true_and, if_true, Option.getD_some, List.zipWith_map_right]
      rw [hc, htot]
      congr 1
      rw [sum_zipWith_flatten _ l h]
  · intro c hc c' hc'
    rw [List.mem_map] at hc hc'
    obtain ⟨a, ha, rfl⟩ := hc
    obtain ⟨b, hb, rfl⟩ := hc'
    simp [sumCalls, h a ha, h b hb]

/-- C33. Redshifts without weights, spread over ranks in any way. -/
theorem C33_ranks (t : TabMask) (l : List (List ℝ)) (nw : Bool) :
    t.integralRun none (l.map some) (l.map fun _ => none) nw = some (l.map fun _ => t.integral l.flatten none nw) := by
  have hzip : List.zip (l.map some) (l.map fun _ => (none : Option (List ℝ))) = l.map fun a => (some a, none) := by
    rw [List.zip_map', ]
  unfold integralRun inputArray
  dsimp only
  rw [hzip]
  simp only [List.map_map, Function.comp_def]
  rw [if_pos]
  · congr 1
    apply List.map_congr_left
    intro a ha
    rw [if_neg (by rintro ⟨w', e, hne⟩; cases e)]
    have htot : (l.map fun a => (a.length : ℝ)).sum = (l.flatten.length : ℝ) := by
      rw [List.length_flatten, Nat.cast_list_sum, List.map_map]
      rfl
    simp only [Option.getD_some]
    have hsum : ∀ k : ℝ, (l.map fun a => (List.zipWith (fun x w => t.prob x * w) a (a.map fun _ => k)).sum).sum =
        (l.flatten.map fun x => t.prob x * k).sum := by
      intro k
      have e : ∀ a : List ℝ, List.zipWith (fun x w => t.prob x * w) a (a.map fun _ => k) = a.map fun x => t.prob x * k := by
        intro a
        rw [List.zipWith_map_right, List.zipWith_self]
      simp only [e]
      rw [List.map_flatten, List.sum_flatten, List.map_map]
      rfl
    unfold TabMask.integral rankWeights
    cases nw
    · simp only [Bool.false_eq_true, false_and, if_false, hsum]
    · have hm : ∀ a : List ℝ, SumCall.sizes ∈ sumCalls (some a) none true := fun a => by simp [sumCalls]
      simp only [true_and, if_true, hm, htot, hsum, Nat.cast_eq_zero]
  · intro c hc c' hc'
    rw [List.mem_map] at hc hc'
    obtain ⟨a, ha, rfl⟩ := hc
    obtain ⟨b, hb, rfl⟩ := hc'
    rfl

/-- Arrays of the root are shared between ranks. -/
theorem inputArray_root {size r : ℕ} (hr : r < size) (ranks : List (Option (List ℝ))) (hl : ranks.length = size) {l : List ℝ}
    (h : ranks[r]? = some (some l)) : ∃ parts : List (List ℝ), inputArray (some r) ranks = parts.map some ∧ parts.length = size ∧
      parts.flatten = l ∧ parts.map List.length = Blinding.localSizes l.length size := by
  have hs := sum_localSizes l.length size (by omega)
  refine ⟨Blinding.splitSizes (Blinding.localSizes l.length size) l, ?_, ?_, flatten_splitSizes _ _ hs,
    lengths_splitSizes _ _ hs⟩
  · unfold inputArray
    simp only [List.getD_eq_getElem?_getD, h, Option.getD_some, hl]
  · rw [length_splitSizes, Blinding.localSizes]
    simp

/-- C33. Redshifts and weights on rank `r` only, given as `mpiroot`: every rank gets the integral of the sample of this rank, whatever
the other ranks give. -/
theorem C33_root {size r : ℕ} (hr : r < size) (t : TabMask) (zs ws : List (Option (List ℝ))) (hz : zs.length = size)
    (hw : ws.length = size) {z w : List ℝ} (ez : zs[r]? = some (some z)) (ew : ws[r]? = some (some w)) (h : z.length = w.length)
    (nw : Bool) : t.integralRun (some r) zs ws nw = some (List.replicate size (t.integral z (some w) nw)) := by
  obtain ⟨pz, e1, l1, f1, s1⟩ := inputArray_root hr zs hz ez
  obtain ⟨pw, e2, l2, f2, s2⟩ := inputArray_root hr ws hw ew
  rw [← h, ← s1] at s2
  have hfst : (List.zip pz pw).map (·.1) = pz := List.map_fst_zip (by omega)
  have hsnd : (List.zip pz pw).map (·.2) = pw := List.map_snd_zip (by omega)
  have := C33_ranks_weights t (List.zip pz pw) (by
    intro a ha
    rw [List.mem_iff_getElem] at ha
    obtain ⟨i, hi, rfl⟩ := ha
    simp only [List.getElem_zip]
    have hi1 : i < pz.length := by simp at hi; omega
    have hi2 : i < pw.length := by simp at hi; omega
    have := congrArg (fun l => l[i]?) s2
    simp [hi1, hi2] at this
    omega) nw
  rw [hfst, hsnd, f1, f2] at this
  have g1 : (List.zip pz pw).map (fun a => some a.1) = pz.map some := by
    conv_rhs => rw [← hfst]
    rw [List.map_map]; rfl
  have g2 : (List.zip pz pw).map (fun a => some a.2) = pw.map some := by
    conv_rhs => rw [← hsnd]
    rw [List.map_map]; rfl
  have g3 : (List.zip pz pw).map (fun _ => t.integral z (some w) nw) = List.replicate size (t.integral z (some w) nw) := by
    rw [List.map_const', List.length_zip]
    congr 1
    omega
  rw [g1, g2, g3] at this
  rw [← this]
  unfold integralRun
  rw [e1, e2]
  rfl

/-- C33. Redshifts without weights on rank `r` only. -/
theorem C33_root_unweighted {size r : ℕ} (hr : r < size) (t : TabMask) (zs : List (Option (List ℝ))) (hz : zs.length = size) {z : List ℝ}
    (ez : zs[r]? = some (some z)) (nw : Bool) :
    t.integralRun (some r) zs (List.replicate size none) nw = some (List.replicate size (t.integral z none nw)) := by
  obtain ⟨pz, e1, l1, f1, s1⟩ := inputArray_root hr zs hz ez
  have := C33_ranks t pz nw
  rw [f1, List.map_const', List.map_const', l1] at this
  rw [← this]
  have e2 : inputArray (some r) (List.replicate size none) = List.replicate size none := by
    unfold inputArray
    simp [List.getD_eq_getElem?_getD, hr]
  unfold integralRun
  rw [e1, e2]
  rfl

/-- C33. Nothing given on any rank, with or without `mpiroot`: the integral over the range, on every rank. Weights on the root only:
all ranks raise `ValueError`. -/
theorem C33_root_none {size : ℕ} (t : TabMask) (mpiroot : Option ℕ) (nw : Bool) :
    t.integralRun mpiroot (List.replicate size none) (List.replicate size none) nw =
      some (List.replicate size (t.integralAny none none nw)) ∧
    ∀ r < size, ∀ ws : List (Option (List ℝ)), ws.length = size → ∀ w, ws[r]? = some (some w) →
      t.integralRun (some r) (List.replicate size none) ws nw = some (List.replicate size (.error .valueError)) := by
  have e2 : ∀ mr, inputArray mr (List.replicate size none) = List.replicate size none := by
    intro mr
    unfold inputArray
    cases mr with
    | none => rfl
    | some r =>
      simp only [List.getD_eq_getElem?_getD, List.getElem?_replicate]
      by_cases h : r < size <;> simp [h]
  constructor
  · unfold integralRun
    simp only [e2, List.zip_replicate, List.map_replicate, min_self]
    rw [if_pos]
    · rfl
    · intro c hc c' hc'
      rw [List.eq_of_mem_replicate hc, List.eq_of_mem_replicate hc']
  · intro r hr ws hl w hw
    obtain ⟨pw, e1, l1, f1, s1⟩ := inputArray_root hr ws hl hw
    have hzip : List.zip (List.replicate size (none : Option (List ℝ))) (pw.map some) = pw.map fun a => (none, some a) := by
      rw [← l1, ← List.map_const', List.zip_map']
    unfold integralRun
    simp only [e1, e2, hzip, List.map_map, Function.comp_def]
    rw [if_pos]
    · rw [List.map_const', l1]
    · intro c hc c' hc'
      rw [List.mem_map] at hc hc'
      obtain ⟨a, ha, rfl⟩ := hc
      obtain ⟨b, hb, rfl⟩ := hc'
      rfl

/-- Three redshifts on rank 1 of two ranks. -/
example : (⟨[(0, 1), (1, 1)], (0, 1), 1⟩ : TabMask).integralRun (some 1) [none, some [1 / 4, 1 / 2, 2]] [none, some [1, 1, 2]] true =
    some [.ok (1 / 2), .ok (1 / 2)] := by
  rw [C33_root (size := 2) (by norm_num) _ _ _ rfl rfl (z := [1 / 4, 1 / 2, 2]) (w := [1, 1, 2]) rfl rfl rfl]
  have hp : ∀ z, 0 ≤ z → z ≤ 1 → (⟨[(0, 1), (1, 1)], (0, 1), 1⟩ : TabMask).prob z = 1 := by
    intro z h0 h1
    have := flat_prob (t := ⟨[(0, 1), (1, 1)], (0, 1), 1⟩) one_pos rfl rfl 1 h0 h1
    simpa [probAt] using this
  have hp2 : (⟨[(0, 1), (1, 1)], (0, 1), 1⟩ : TabMask).prob 2 = 0 := by
    unfold TabMask.prob
    rw [if_neg (by norm_num)]
  unfold TabMask.integral
  simp only [if_true]
  rw [if_neg (by norm_num)]
  simp only [List.zipWith_cons_cons, List.zipWith_nil_right, hp (1 / 4) (by norm_num) (by norm_num),
    hp (1 / 2) (by norm_num) (by norm_num), hp2]
  norm_num
  rfl

end Verif.Props
