import Verif.Model.RoundedDensity
import Verif.Props.RedshiftDensity
import Verif.Props.Rounded
import Verif.Props.RoundedBox
import Verif.Props.RoundedRsd

/-!
# C135: redshift histograms with rounding errors
-/

namespace Verif.Props.RoundedDensity

open Verif Verif.Model Verif.Model.RoundedDensity

variable {F : Fmt}

/-! ### Additions -/

theorem float_multiple {n : ℤ} (h : |(n : ℝ) * 2 ^ F.emin| < F.tiny) : F.IsFloat (n * 2 ^ F.emin) := by
  refine ⟨n, F.emin, ?_, le_rfl, rfl⟩
  have hp := Fmt.two_zpow_pos F.emin
  unfold Fmt.tiny at h
  rw [abs_mul, abs_of_pos hp, show F.emin + F.p - 1 = ((F.p : ℤ) - 1) + F.emin by ring, zpow_add₀ (by norm_num), mul_lt_mul_iff_left₀ hp] at h
  have h2 : (2 : ℝ) ^ ((F.p : ℤ) - 1) ≤ 2 ^ F.p := by
    rw [← zpow_natCast]
    exact zpow_le_zpow_right₀ (by norm_num) (by omega)
  exact_mod_cast (h.le.trans h2)

theorem multiple {a : ℝ} (h : F.IsFloat a) : ∃ n : ℤ, a = n * 2 ^ F.emin := by
  obtain ⟨m, e, -, he, rfl⟩ := h
  obtain ⟨k, hk⟩ := Int.eq_ofNat_of_zero_le (sub_nonneg.2 he)
  refine ⟨m * 2 ^ k, ?_⟩
  have : e = F.emin + k := by omega
  rw [this, zpow_add₀ (by norm_num), zpow_natCast]
  push_cast
  ring

theorem add_err {a b : ℝ} (ha : F.IsFloat a) (hb : F.IsFloat b) : |F.rnd (a + b) - (a + b)| ≤ F.u * |a + b| := by
  by_cases h : F.tiny ≤ |a + b|
  · exact Fmt.rnd_err h
  · obtain ⟨m, rfl⟩ := multiple ha
    obtain ⟨n, rfl⟩ := multiple hb
    have e : (m : ℝ) * 2 ^ F.emin + n * 2 ^ F.emin = ((m + n : ℤ) : ℝ) * 2 ^ F.emin := by
      push_cast
      ring
    rw [e] at h ⊢
    rw [Fmt.rnd_exact (float_multiple (not_le.1 h)), sub_self, abs_zero]
    exact mul_nonneg Fmt.u_pos.le (abs_nonneg _)

theorem mul_int_err {a : ℝ} (ha : F.IsFloat a) (n : ℤ) : |F.rnd (a * n) - a * n| ≤ F.u * |a * n| := by
  by_cases h : F.tiny ≤ |a * n|
  · exact Fmt.rnd_err h
  · obtain ⟨m, rfl⟩ := multiple ha
    have e : (m : ℝ) * 2 ^ F.emin * n = ((m * n : ℤ) : ℝ) * 2 ^ F.emin := by
      push_cast
      ring
    rw [e] at h ⊢
    rw [Fmt.rnd_exact (float_multiple (not_le.1 h)), sub_self, abs_zero]
    exact mul_nonneg Fmt.u_pos.le (abs_nonneg _)

/-! ### Edges -/

/-- Objects between the first and the last of sorted edges are in exactly one bin. -/
theorem one_bin {edges : List ℝ} (hs : edges.Pairwise (· ≤ ·)) {a b z : ℝ} (hn : 2 ≤ edges.length) (ha : edges.head? = some a)
    (hb : edges.getLast? = some b) (h1 : a ≤ z) (h2 : z ≤ b) : ∃! i, InBin edges i z := by
  have hex : ∃ i, InBin edges i z := by
    cases edges with
    | nil => simp at hn
    | cons a' l =>
      have : a' = a := by simpa using ha
      subst this
      have hl : l ≠ [] := by
        rintro rfl
        simp at hn
      have hsum := histogram_sum hl hs [(z, 1)]
      have hlast : (a' :: l).getLast (by simp) = b := by
        rw [List.getLast?_eq_getLast_of_ne_nil (by simp)] at hb
        simpa using hb
      rw [hlast, weightOf_true (by simpa using ⟨h1, h2⟩)] at hsum
      by_contra hno
      have hz : ∀ x ∈ histogram (a' :: l) [(z, 1)], x = 0 := by
        intro x hx
        obtain ⟨i, hi, rfl⟩ := List.mem_iff_getElem.1 hx
        have hi' : i + 1 < (a' :: l).length := by
          rw [histogram_length] at hi
          omega
        have := histogram_get (a' :: l) [(z, 1)] i hi'
        rw [List.getElem?_eq_getElem hi, Option.some.injEq] at this
        rw [this, weightOf_cons, if_neg fun h => hno ⟨i, h⟩]
        simp [weightOf]
      rw [List.sum_eq_zero hz] at hsum
      norm_num at hsum
  obtain ⟨i, hi⟩ := hex
  have huniq : ∀ i k, i < k → InBin edges i z → InBin edges k z → False := by
    rintro i k hik ⟨x, y, hx, hy, h1, h2⟩ ⟨x', y', hx', hy', h1', -⟩
    have hk : k + 1 < edges.length := (List.getElem?_eq_some_iff.1 hy').1
    rcases h2 with h2 | ⟨h2, -⟩
    · have : y ≤ x' := by
        rcases Nat.lt_or_ge (i + 1) k with h | h
        · obtain ⟨q1, rfl⟩ := List.getElem?_eq_some_iff.1 hy
          obtain ⟨q2, rfl⟩ := List.getElem?_eq_some_iff.1 hx'
          exact List.pairwise_iff_getElem.1 hs _ _ q1 q2 h
        · have : k = i + 1 := by omega
          subst this
          rw [hy] at hx'
          exact (Option.some.inj hx').le
      linarith
    · omega
  refine ⟨i, hi, fun k hk => ?_⟩
  rcases lt_trichotomy i k with h | h | h
  · exact (huniq i k h hi hk).elim
  · exact h.symm
  · exact (huniq k i h hk hi).elim

theorem no_bin {edges : List ℝ} (hs : edges.Pairwise (· ≤ ·)) {b z : ℝ} (hb : edges.getLast? = some b) (h : b < z) (i : ℕ) : ¬ InBin edges i z := by
  rintro ⟨x, y, -, hy, -, h2⟩
  obtain ⟨q, rfl⟩ := List.getElem?_eq_some_iff.1 hy
  have : edges[i + 1] ≤ b := by
    rw [List.getLast?_eq_getElem?, List.getElem?_eq_some_iff] at hb
    obtain ⟨q2, rfl⟩ := hb
    rcases Nat.lt_or_ge (i + 1) (edges.length - 1) with h | h
    · exact List.pairwise_iff_getElem.1 hs _ _ q q2 h
    · have e : edges.length - 1 = i + 1 := by omega
      simp only [e]
      exact le_rfl
  rcases h2 with h2 | ⟨-, h2⟩ <;> linarith

theorem pairwise_range {f : ℕ → ℝ} {n : ℕ} (h : ∀ i j, i ≤ j → f i ≤ f j) : ((List.range n).map f).Pairwise (· ≤ ·) := by
  rw [List.pairwise_map]
  exact List.pairwise_lt_range.imp fun h' => h _ _ h'.le

/-- Edges of equal bins. -/
theorem linspace_spec {lo hi : ℝ} {n : ℕ} (hlo : F.IsFloat lo) (hhi : F.IsFloat hi) (h : lo ≤ hi) (hn : 1 ≤ n) (hu : 8 * F.u * n ≤ 1)
    (hr : lo = hi ∨ n * F.tiny ≤ hi - lo) :
    (linspaceF F lo hi n).length = n + 1 ∧ (linspaceF F lo hi n).head? = some lo ∧ (linspaceF F lo hi n).getLast? = some hi ∧
      (linspaceF F lo hi n).Pairwise (· ≤ ·) := by
  have hu0 := Fmt.u_pos (F := F)
  have hn0 : n ≠ 0 := by omega
  have hnR : (1 : ℝ) ≤ n := by exact_mod_cast hn
  have ht : 0 < F.tiny := Fmt.two_zpow_pos _
  have hd0 : 0 ≤ F.rnd (hi - lo) := Fmt.rnd_nonneg (by linarith)
  have hs0 : 0 ≤ F.rnd (F.rnd (hi - lo) / n) := Fmt.rnd_nonneg (by positivity)
  set f : ℕ → ℝ := fun k => if F.rnd (F.rnd (hi - lo) / n) = 0 then F.rnd (F.rnd (F.rnd (k / n) * F.rnd (hi - lo)) + lo)
    else F.rnd (F.rnd (k * F.rnd (F.rnd (hi - lo) / n)) + lo) with hf
  have e : linspaceF F lo hi n = (List.range n).map f ++ [hi] := by
    unfold linspaceF
    rw [if_neg hn0]
  have hmono : ∀ i j, i ≤ j → f i ≤ f j := by
    intro i j hij
    have hij : (i : ℝ) ≤ j := by exact_mod_cast hij
    simp only [hf]
    split_ifs
    · exact Fmt.rnd_mono (add_le_add_left (Fmt.rnd_mono (mul_le_mul_of_nonneg_right (Fmt.rnd_mono (by gcongr)) hd0)) _)
    · exact Fmt.rnd_mono (add_le_add_left (Fmt.rnd_mono (by gcongr)) _)
  have hf0 : f 0 = lo := by
    simp only [hf]
    split_ifs <;> simp [Fmt.rnd_zero, Fmt.rnd_exact hlo]
  have hle : ∀ k, k < n → f k ≤ hi := by
    intro k hk
    rcases hr with rfl | hr
    · simp [hf, Fmt.rnd_zero, Fmt.rnd_exact hlo]
    · have hkR : (k : ℝ) + 1 ≤ n := by exact_mod_cast hk
      have hnt : F.IsFloat (n * F.tiny) := by
        refine ⟨n, F.emin + F.p - 1, ?_, by have := F.hp; omega, by unfold Fmt.tiny; norm_cast⟩
        have : (n : ℝ) ≤ 2 ^ F.p := by
          unfold Fmt.u at hu
          rw [mul_one_div, div_mul_eq_mul_div, div_le_one (by positivity)] at hu
          linarith
        rw [abs_of_nonneg (by omega)]
        exact_mod_cast this
      have ed : F.rnd (hi - lo) ≤ (1 + F.u) * (hi - lo) := by
        have := add_err hhi (Fmt.isFloat_neg hlo)
        rw [← sub_eq_add_neg, abs_of_nonneg (by linarith : 0 ≤ hi - lo)] at this
        linarith [(abs_le.1 this).2]
      have hdt : n * F.tiny ≤ F.rnd (hi - lo) := Fmt.le_rnd hnt hr
      have hst : F.tiny ≤ F.rnd (hi - lo) / n := by
        rw [le_div_iff₀ (by linarith)]
        linarith
      have es : F.rnd (F.rnd (hi - lo) / n) ≤ (1 + F.u) * (F.rnd (hi - lo) / n) := by
        have h0 : 0 ≤ F.rnd (hi - lo) / n := by positivity
        have := Fmt.rnd_err (F := F) (x := F.rnd (hi - lo) / n) (by rw [abs_of_nonneg h0]; exact hst)
        rw [abs_of_nonneg h0] at this
        linarith [(abs_le.1 this).2]
      have ft : F.IsFloat F.tiny := ⟨1, F.emin + F.p - 1, by have := F.hp; exact_mod_cast Nat.one_le_two_pow, by have := F.hp; omega,
        by unfold Fmt.tiny; norm_num⟩
      have hpos : 0 < F.rnd (F.rnd (hi - lo) / n) := ht.trans_le (Fmt.le_rnd ft hst)
      simp only [hf, hpos.ne', if_false]
      refine Fmt.rnd_le hhi ?_
      have em := mul_int_err (F := F) (Fmt.rnd_isFloat (F.rnd (hi - lo) / n)) k
      rw [mul_comm, Int.cast_natCast] at em
      generalize F.rnd (F.rnd (hi - lo) / n) = s at *
      generalize F.rnd (hi - lo) = d at *
      rw [abs_of_nonneg (by positivity : (0 : ℝ) ≤ k * s)] at em
      have em := (abs_le.1 em).2
      generalize F.rnd (k * s) = w at *
      generalize F.u = u at *
      have h1 : w ≤ (1 + u) * (k * s) := by linarith
      have h2 : (k : ℝ) * s ≤ k * ((1 + u) * (d / n)) := by gcongr
      have h3 : (k : ℝ) * ((1 + u) * (d / n)) ≤ k * ((1 + u) * ((1 + u) * (hi - lo) / n)) := by gcongr
      have h4 : w ≤ (1 + u) ^ 3 * (k / n) * (hi - lo) := by
        calc w ≤ (1 + u) * (k * ((1 + u) * ((1 + u) * (hi - lo) / n))) :=
              h1.trans (mul_le_mul_of_nonneg_left (h2.trans h3) (by linarith))
          _ = (1 + u) ^ 3 * (k / n) * (hi - lo) := by ring
      have h5 : (1 + u) ^ 3 * (k / n) ≤ 1 := by
        have hkn : (k : ℝ) / n ≤ 1 - 8 * u := by
          rw [div_le_iff₀ (by linarith)]
          linarith
        have hu1 : u ≤ 1 / 8 := by nlinarith
        have : (1 + u) ^ 3 * (1 - 8 * u) ≤ 1 := by nlinarith [mul_nonneg hu0.le hu0.le, mul_nonneg (mul_nonneg hu0.le hu0.le) hu0.le]
        exact (mul_le_mul_of_nonneg_left hkn (by positivity)).trans this
      have := mul_le_mul_of_nonneg_right h5 (by linarith : 0 ≤ hi - lo)
      linarith
  rw [e]
  refine ⟨by simp, ?_, by simp, ?_⟩
  · obtain ⟨m, rfl⟩ : ∃ m, n = m + 1 := ⟨n - 1, by omega⟩
    simp [List.range_succ_eq_map, hf0]
  · rw [List.pairwise_append]
    refine ⟨pairwise_range hmono, by simp, ?_⟩
    intro x hx y hy
    obtain ⟨k, hk, rfl⟩ := List.mem_map.1 hx
    rw [List.mem_singleton.1 hy]
    exact hle k (List.mem_range.1 hk)

/-- Edges of the default rule. -/
theorem scott_spec {lo hi dx : ℝ} (hlo : F.IsFloat lo) (hhi : F.IsFloat hi) (h : lo ≤ hi) (hdx : F.IsFloat dx) (h0 : 0 < dx) :
    ∃ last, 2 ≤ (scottF F lo hi dx).length ∧ (scottF F lo hi dx).head? = some lo ∧ (scottF F lo hi dx).getLast? = some last ∧
      (scottF F lo hi dx).Pairwise (· ≤ ·) ∧ hi - (3 * F.u * (hi - lo) + F.u * max |lo| |hi|) ≤ last := by
  have hu0 := Fmt.u_pos (F := F)
  have hu1 := Fmt.u_le (F := F)
  have hn1 : 1 ≤ scottNumber F lo hi dx := le_max_left _ _
  obtain ⟨n, hn⟩ := Int.eq_ofNat_of_zero_le (by omega : 0 ≤ scottNumber F lo hi dx)
  have hn' : 1 ≤ n := by omega
  set f : ℕ → ℝ := fun k => F.rnd (lo + F.rnd (dx * k)) with hf
  have e : scottF F lo hi dx = (List.range (n + 1)).map f := by
    unfold scottF
    rw [hn]
    rfl
  have hmono : ∀ i j, i ≤ j → f i ≤ f j := by
    intro i j hij
    have hij : (i : ℝ) ≤ j := by exact_mod_cast hij
    simp only [hf]
    exact Fmt.rnd_mono (add_le_add_right (Fmt.rnd_mono (by gcongr)) _)
  have hf0 : f 0 = lo := by simp [hf, Fmt.rnd_zero, Fmt.rnd_exact hlo]
  refine ⟨f n, by rw [e]; simp; omega, by rw [e]; simp [List.range_succ_eq_map, hf0], by rw [e]; simp [List.range_succ], by rw [e]; exact pairwise_range hmono, ?_⟩
  have ed : (1 - F.u) * (hi - lo) ≤ F.rnd (hi - lo) := by
    have := add_err hhi (Fmt.isFloat_neg hlo)
    rw [← sub_eq_add_neg, abs_of_nonneg (by linarith : 0 ≤ hi - lo)] at this
    linarith [(abs_le.1 this).1]
  have hd0 : 0 ≤ F.rnd (hi - lo) := Fmt.rnd_nonneg (by linarith)
  have hnR : (1 : ℝ) ≤ n := by exact_mod_cast hn'
  have hq : F.rnd (F.rnd (hi - lo) / dx) ≤ n := by
    have h1 : F.rnd (F.rnd (hi - lo) / dx) ≤ (⌈F.rnd (F.rnd (hi - lo) / dx)⌉ : ℝ) := Int.le_ceil _
    have h2 : ⌈F.rnd (F.rnd (hi - lo) / dx)⌉ ≤ (n : ℤ) := by
      have := le_max_right 1 ⌈F.rnd (F.rnd (hi - lo) / dx)⌉
      have e : max 1 ⌈F.rnd (F.rnd (hi - lo) / dx)⌉ = (n : ℤ) := hn
      omega
    exact h1.trans (by exact_mod_cast h2)
  have hk : (1 - F.u) * F.rnd (hi - lo) ≤ dx * n := by
    generalize F.rnd (hi - lo) = d at *
    by_cases hc : 1 / 2 ≤ d / dx
    · have h0' : 0 ≤ d / dx := by positivity
      have := Fmt.rnd_err (F := F) (x := d / dx) (by rw [abs_of_nonneg h0']; exact Lemmas.RoundedIsometry.tiny_le.trans hc)
      rw [abs_of_nonneg h0'] at this
      have h1 : (1 - F.u) * (d / dx) ≤ n := by linarith [(abs_le.1 this).1]
      have := mul_le_mul_of_nonneg_left h1 h0.le
      calc (1 - F.u) * d = dx * ((1 - F.u) * (d / dx)) := by field_simp
        _ ≤ dx * n := this
    · have h1 : d < 1 / 2 * dx := by
        rw [← div_lt_iff₀ h0]
        exact not_le.1 hc
      have h2 : dx * 1 ≤ dx * n := mul_le_mul_of_nonneg_left hnR h0.le
      nlinarith
  have em := mul_int_err (F := F) hdx n
  rw [Int.cast_natCast, abs_of_nonneg (by positivity : 0 ≤ dx * n)] at em
  have em := (abs_le.1 em).1
  have hw : F.IsFloat (F.rnd (dx * n)) := Fmt.rnd_isFloat _
  have ea := add_err hlo hw
  have hw0 : 0 ≤ F.rnd (dx * n) := Fmt.rnd_nonneg (by positivity)
  show _ ≤ F.rnd (lo + F.rnd (dx * n))
  have hb : (1 - 3 * F.u) * (hi - lo) ≤ F.rnd (dx * n) := by
    have h1 : (1 - F.u) * (dx * n) ≤ F.rnd (dx * n) := by linarith
    have h2 : (1 - F.u) * ((1 - F.u) * F.rnd (hi - lo)) ≤ (1 - F.u) * (dx * n) := mul_le_mul_of_nonneg_left hk (by linarith)
    have h3 : (1 - F.u) * ((1 - F.u) * ((1 - F.u) * (hi - lo))) ≤ (1 - F.u) * ((1 - F.u) * F.rnd (hi - lo)) :=
      mul_le_mul_of_nonneg_left (mul_le_mul_of_nonneg_left ed (by linarith)) (by linarith)
    have h4 : (1 - 3 * F.u) * (hi - lo) ≤ (1 - F.u) * ((1 - F.u) * ((1 - F.u) * (hi - lo))) := by
      have : 1 - 3 * F.u ≤ (1 - F.u) * ((1 - F.u) * (1 - F.u)) := by nlinarith [mul_nonneg hu0.le hu0.le, mul_nonneg (mul_nonneg hu0.le hu0.le) hu0.le]
      have := mul_le_mul_of_nonneg_right this (by linarith : 0 ≤ hi - lo)
      linarith
    linarith
  generalize F.rnd (dx * n) = w at *
  have hM : 0 ≤ max |lo| |hi| := (abs_nonneg lo).trans (le_max_left _ _)
  by_cases hc : hi ≤ lo + w
  · have := Fmt.le_rnd hhi hc
    have h1 := mul_nonneg hu0.le hM
    have h2 := mul_nonneg hu0.le (by linarith : 0 ≤ hi - lo)
    linarith
  · have hx : |lo + w| ≤ max |lo| |hi| := by
      rw [abs_le]
      constructor
      · have := neg_abs_le lo
        have := le_max_left |lo| |hi|
        linarith
      · have := le_abs_self hi
        have := le_max_right |lo| |hi|
        linarith [not_le.1 hc]
    have h1 := mul_le_mul_of_nonneg_left hx hu0.le
    linarith [(abs_le.1 ea).1]

/-- C135: with a number of bins, in floating point, edges are sorted, the first is the lowest redshift and the last the highest one, so that every
object is in exactly one bin. Redshifts must differ by more than the smallest floats. -/
theorem C135_number {zs : List ℝ} {n : ℕ} (hn : 1 ≤ n) (hu : 8 * F.u * n ≤ 1) (hf : ∀ z ∈ zs, F.IsFloat z) (h0 : zs ≠ [])
    (hr : ∀ a ∈ zs, ∀ b ∈ zs, a < b → (∀ z ∈ zs, a ≤ z ∧ z ≤ b) → n * F.tiny ≤ b - a) :
    ∃ edges, binEdgesF F (.number n) zs = .ok edges ∧ edges.length = n + 1 ∧ edges.Pairwise (· ≤ ·) ∧ ∀ z ∈ zs, ∃! i, InBin edges i z := by
  cases he : extremes zs with
  | error e =>
    cases zs with
    | nil => exact absurd rfl h0
    | cons z l => simp [extremes] at he
  | ok p =>
    obtain ⟨lo, hi⟩ := p
    obtain ⟨hl, hh, hall⟩ := extremes_spec he
    have hle := (hall lo hl).2
    obtain ⟨h1, h2, h3, h4⟩ := linspace_spec (hf _ hl) (hf _ hh) hle hn hu
      (hle.eq_or_lt.imp id fun h => hr lo hl hi hh h hall)
    refine ⟨linspaceF F lo hi n, by simp only [binEdgesF, he]; rfl, h1, h4, fun z hz => ?_⟩
    exact one_bin h4 (by omega) h2 h3 (hall z hz).1 (hall z hz).2

/-- C135: with the default rule, in floating point, edges are sorted and start at the lowest redshift. An object is in exactly one bin if it is not
above the last edge, in none otherwise; objects that are lost are within a few rounding errors of the highest redshift. -/
theorem C135_default_partial {zs : List ℝ} {dx : ℝ} (hdx : F.IsFloat dx) (h0 : 0 < dx) (hf : ∀ z ∈ zs, F.IsFloat z) (hne : zs ≠ []) :
    ∃ edges last, binEdgesF F (.scott dx) zs = .ok edges ∧ edges.Pairwise (· ≤ ·) ∧ edges.getLast? = some last ∧
      (∀ z ∈ zs, z ≤ last → ∃! i, InBin edges i z) ∧ (∀ z ∈ zs, last < z → ∀ i, ¬ InBin edges i z) ∧
      ∀ z ∈ zs, last < z → ∀ a ∈ zs, ∀ b ∈ zs, (∀ z ∈ zs, a ≤ z ∧ z ≤ b) → b - z < 3 * F.u * (b - a) + F.u * max |a| |b| := by
  cases he : extremes zs with
  | error e =>
    cases zs with
    | nil => exact absurd rfl hne
    | cons z l => simp [extremes] at he
  | ok p =>
    obtain ⟨lo, hi⟩ := p
    obtain ⟨hl, hh, hall⟩ := extremes_spec he
    obtain ⟨last, h1, h2, h3, h4, h5⟩ := scott_spec (hf _ hl) (hf _ hh) (hall lo hl).2 hdx h0
    refine ⟨scottF F lo hi dx, last, by simp only [binEdgesF, he]; rfl, h4, h3, fun z hz h => one_bin h4 h1 h2 h3 (hall z hz).1 h,
      fun z hz h => no_bin h4 h3 h, fun z hz h a ha b hb hab => ?_⟩
    have e1 : a = lo := le_antisymm (hab lo hl).1 (hall a ha).1
    have e2 : b = hi := le_antisymm (hall b hb).2 (hab hi hh).2
    rw [e1, e2]
    linarith

/-- C135 is violated with the default rule: for some redshifts and width of bins the object of highest redshift is above the last edge, hence in no
bin. The division by the width rounds down to a whole number of bins. -/
theorem C135_default_violated : ∃ (zs : List ℝ) (dx : ℝ) (edges : List ℝ), (∀ z ∈ zs, binary64.IsFloat z) ∧ binary64.IsFloat dx ∧ 0 < dx ∧
    binEdgesF binary64 (.scott dx) zs = .ok edges ∧ ∃ z ∈ zs, ∀ i, ¬ InBin edges i z := by
  have f0 : binary64.IsFloat 0 := RoundedRsd.float_zero
  have f1 : binary64.IsFloat (125 / 256 + 1 / 2 ^ 53) := ⟨125 * 2 ^ 46 + 2, -54, by norm_num [binary64], by norm_num [binary64], by norm_num⟩
  have f2 : binary64.IsFloat (25 / 256 + 1 / 2 ^ 56) := ⟨25 * 2 ^ 48 + 1, -56, by norm_num [binary64], by norm_num [binary64], by norm_num⟩
  have hq : binary64.rnd ((125 / 256 + 1 / 2 ^ 53) / (25 / 256 + 1 / 2 ^ 56)) = 5 := by
    rw [Rounded.rnd_eq (F := binary64) (k := 2) (n := 5 * 2 ^ 50)]
    · norm_num [binary64]
    · norm_num [abs_of_pos]
    · norm_num [abs_of_pos]
    · norm_num [binary64]
    · norm_num [binary64, abs_of_pos, abs_lt]
  have hm : binary64.rnd ((25 / 256 + 1 / 2 ^ 56) * 5) = 125 / 256 + 1 / 2 ^ 54 := by
    rw [Rounded.rnd_eq (F := binary64) (k := -2) (n := 125 * 2 ^ 46 + 1)]
    · norm_num [binary64]
    · norm_num [abs_of_pos]
    · norm_num [abs_of_pos]
    · norm_num [binary64]
    · norm_num [binary64, abs_of_pos, abs_lt]
  have f3 : binary64.IsFloat (125 / 256 + 1 / 2 ^ 54) := hm ▸ Fmt.rnd_isFloat _
  have hN : scottNumber binary64 0 (125 / 256 + 1 / 2 ^ 53) (25 / 256 + 1 / 2 ^ 56) = 5 := by
    unfold scottNumber
    rw [sub_zero, Fmt.rnd_exact f1, hq]
    norm_num
  have hx : extremes [0, 125 / 256 + 1 / 2 ^ 53] = .ok (0, 125 / 256 + 1 / 2 ^ 53) := by
    simp only [extremes, List.foldl_cons, List.foldl_nil, Except.ok.injEq, Prod.mk.injEq]
    exact ⟨min_eq_left (by norm_num), max_eq_right (by norm_num)⟩
  have hf : ∀ z ∈ [(0 : ℝ), 125 / 256 + 1 / 2 ^ 53], binary64.IsFloat z := by
    intro z hz
    simp only [List.mem_cons, List.not_mem_nil, or_false] at hz
    rcases hz with rfl | rfl
    · exact f0
    · exact f1
  refine ⟨[0, 125 / 256 + 1 / 2 ^ 53], 25 / 256 + 1 / 2 ^ 56, _, hf, f2, by norm_num, by simp only [binEdgesF, hx]; rfl, 125 / 256 + 1 / 2 ^ 53,
    by simp, ?_⟩
  obtain ⟨last, -, -, h3, h4, -⟩ := scott_spec f0 f1 (by norm_num) f2 (by norm_num)
  refine no_bin h4 h3 ?_
  have : last = 125 / 256 + 1 / 2 ^ 54 := by
    unfold scottF at h3
    rw [hN] at h3
    have e : (List.range (5 + 1 : ℤ).toNat) = [0, 1, 2, 3, 4, 5] := by decide
    rw [e] at h3
    simp only [List.map_cons, List.map_nil, List.getLast?_cons_cons, List.getLast?_singleton, Option.some.injEq] at h3
    rw [← h3, Nat.cast_ofNat, hm, zero_add, Fmt.rnd_exact f3]
  rw [this]
  norm_num

/-! ### Counts -/

/-- What `np.argsort` does: a permutation in increasing order of redshift, objects with the same redshift in any order. -/
def Sorts (sort : List (ℝ × ℝ) → List (ℝ × ℝ)) : Prop := ∀ l, (sort l).Perm l ∧ (sort l).Pairwise fun a b => a.1 ≤ b.1

/-- Below an edge; for the last edge, or at it. -/
def Below (last : Bool) (e z : ℝ) : Prop := if last then z ≤ e else z < e

theorem below_down {last : Bool} {e z z' : ℝ} (h : Below last e z) (hz : z' ≤ z) : Below last e z' := by
  cases last with
  | true => exact hz.trans h
  | false => exact hz.trans_lt h

theorem index_eq (last : Bool) (zs : List ℝ) (e : ℝ) : index last zs e = (open Classical in zs.filter fun z => decide (Below last e z)).length := by
  unfold index
  congr 1
  refine List.filter_congr fun z _ => ?_
  unfold Below
  exact decide_eq_decide.2 Iff.rfl

open Classical in
/-- Weights before the index of an edge. -/
theorem take_index {l : List (ℝ × ℝ)} (hs : l.Pairwise fun a b => a.1 ≤ b.1) (last : Bool) (e : ℝ) :
    (l.map (·.2)).take (index last (l.map (·.1)) e) = (l.filter fun r => decide (Below last e r.1)).map (·.2) := by
  rw [index_eq]
  induction l with
  | nil => rfl
  | cons a l ih =>
    obtain ⟨h1, h2⟩ := List.pairwise_cons.1 hs
    by_cases ha : Below last e a.1
    · simp [ha, ih h2]
    · have h0 : ∀ b ∈ l, ¬ Below last e b.1 := fun b hb h => ha (below_down h (h1 b hb))
      have e1 : (a :: l).filter (fun r => decide (Below last e r.1)) = [] := by
        rw [List.filter_eq_nil_iff]
        intro r hr
        rcases List.mem_cons.1 hr with rfl | hr
        · simpa using ha
        · simpa using h0 r hr
      have e2 : ((a :: l).map (·.1)).filter (fun z => decide (Below last e z)) = [] := by
        rw [List.filter_eq_nil_iff]
        intro z hz
        obtain ⟨r, hr, rfl⟩ := List.mem_map.1 hz
        rcases List.mem_cons.1 hr with rfl | hr
        · simpa using ha
        · simpa using h0 r hr
      rw [e1, e2]
      rfl

/-- `c` is `s` up to `m` rounding errors. -/
def Near (F : Fmt) (m : ℕ) (c s : ℝ) : Prop := 0 ≤ s ∧ |c - s| ≤ ((1 + F.u) ^ m - 1) * s

theorem one_le_pow (F : Fmt) (m : ℕ) : 1 ≤ (1 + F.u) ^ m := one_le_pow₀ (by linarith [Fmt.u_pos (F := F)])

theorem near_self (m : ℕ) {x : ℝ} (h : 0 ≤ x) : Near F m x x := by
  refine ⟨h, ?_⟩
  rw [sub_self, abs_zero]
  exact mul_nonneg (by linarith [one_le_pow F m]) h

theorem near_mono {m n : ℕ} (hmn : m ≤ n) {c s : ℝ} (h : Near F m c s) : Near F n c s := by
  refine ⟨h.1, h.2.trans (mul_le_mul_of_nonneg_right ?_ h.1)⟩
  have : (1 + F.u) ^ m ≤ (1 + F.u) ^ n := pow_le_pow_right₀ (by linarith [Fmt.u_pos (F := F)]) hmn
  linarith

theorem near_add {m : ℕ} {c s y t : ℝ} (fc : F.IsFloat c) (fy : F.IsFloat y) (h1 : Near F m c s) (h2 : Near F m y t) : Near F (m + 1) (F.rnd (c + y)) (s + t) := by
  refine ⟨add_nonneg h1.1 h2.1, ?_⟩
  have hu := Fmt.u_pos (F := F)
  have e := add_err fc fy
  have t1 := abs_add_le (c - s) (y - t)
  have e1 : c - s + (y - t) = c + y - (s + t) := by ring
  rw [e1] at t1
  have h3 : |c + y - (s + t)| ≤ ((1 + F.u) ^ m - 1) * (s + t) := by linarith [h1.2, h2.2]
  have h4 : |c + y| ≤ (1 + F.u) ^ m * (s + t) := by
    have := abs_add_le (c + y - (s + t)) (s + t)
    rw [sub_add_cancel, abs_of_nonneg (add_nonneg h1.1 h2.1)] at this
    linarith
  have t2 := abs_add_le (F.rnd (c + y) - (c + y)) (c + y - (s + t))
  rw [sub_add_sub_cancel] at t2
  have h5 := mul_le_mul_of_nonneg_left h4 hu.le
  rw [pow_succ]
  linarith

theorem near_foldl {l : List ℝ} (hl : ∀ x ∈ l, F.IsFloat x ∧ 0 ≤ x) {m : ℕ} {c s : ℝ} (fc : F.IsFloat c) (h : Near F m c s) :
    F.IsFloat (l.foldl (fun a x => F.rnd (a + x)) c) ∧ Near F (m + l.length) (l.foldl (fun a x => F.rnd (a + x)) c) (s + l.sum) := by
  induction l generalizing m c s with
  | nil => simpa using ⟨fc, h⟩
  | cons x l ih =>
    have hx := hl x (by simp)
    have := ih (fun y hy => hl y (List.mem_cons_of_mem _ hy)) (Fmt.rnd_isFloat (c + x)) (near_add fc hx.1 h (near_self m hx.2))
    rw [List.foldl_cons, List.sum_cons, List.length_cons, show m + (l.length + 1) = m + 1 + l.length by omega, ← add_assoc s]
    exact this

theorem foldl_ge {l : List ℝ} (hl : ∀ x ∈ l, 0 ≤ x) {c : ℝ} (fc : F.IsFloat c) : c ≤ l.foldl (fun a x => F.rnd (a + x)) c := by
  induction l generalizing c with
  | nil => exact le_rfl
  | cons x l ih =>
    have h1 : c ≤ F.rnd (c + x) := Fmt.le_rnd fc (by linarith [hl x (by simp)])
    exact h1.trans (ih (fun y hy => hl y (List.mem_cons_of_mem _ hy)) (Fmt.rnd_isFloat _))

theorem foldl_float {l : List ℝ} {c : ℝ} (fc : F.IsFloat c) : F.IsFloat (l.foldl (fun a x => F.rnd (a + x)) c) := by
  induction l generalizing c with
  | nil => exact fc
  | cons x l ih => exact ih (Fmt.rnd_isFloat _)

theorem cumsum_mono {l : List ℝ} (hl : ∀ x ∈ l, 0 ≤ x) {i j : ℕ} (h : i ≤ j) : cumsumF F (l.take i) ≤ cumsumF F (l.take j) := by
  unfold cumsumF
  have e : l.take j = l.take i ++ (l.drop i).take (j - i) := by
    rw [← List.take_add]
    congr 1
    omega
  rw [e, List.foldl_append]
  exact foldl_ge (fun x hx => hl x (List.mem_of_mem_drop (List.mem_of_mem_take hx))) (foldl_float RoundedRsd.float_zero)

theorem index_mono {last last' : Bool} {e e' : ℝ} (h : ∀ z, Below last e z → Below last' e' z) (zs : List ℝ) : index last zs e ≤ index last' zs e' := by
  classical
  rw [index_eq, index_eq]
  refine List.Sublist.length_le (List.monotone_filter_right zs fun z hz => ?_)
  simpa using h z (by simpa using hz)

theorem cumF_mono {sorted : List (List (ℝ × ℝ))} (hw : ∀ b ∈ sorted, ∀ r ∈ b, 0 ≤ r.2) {last last' : Bool} {e e' : ℝ}
    (h : ∀ z, Below last e z → Below last' e' z) : cumF F sorted last e ≤ cumF F sorted last' e' := by
  unfold cumF
  have key : ∀ c c' : ℝ, c ≤ c' → sorted.foldl (fun c b => F.rnd (c + cumsumF F ((b.map (·.2)).take (index last (b.map (·.1)) e)))) c ≤
      sorted.foldl (fun c b => F.rnd (c + cumsumF F ((b.map (·.2)).take (index last' (b.map (·.1)) e')))) c' := by
    induction sorted with
    | nil => exact fun _ _ h => h
    | cons b l ih =>
      intro c c' hc
      refine ih (fun b hb => hw b (List.mem_cons_of_mem _ hb)) _ _ (Fmt.rnd_mono (add_le_add hc (cumsum_mono ?_ (index_mono h _))))
      intro x hx
      obtain ⟨r, hr, rfl⟩ := List.mem_map.1 hx
      exact hw b (by simp) r hr
  exact key 0 0 le_rfl

theorem cumF_congr {sorted : List (List (ℝ × ℝ))} {last last' : Bool} {e e' : ℝ} (h : ∀ b ∈ sorted, ∀ r ∈ b, (Below last e r.1 ↔ Below last' e' r.1)) :
    cumF F sorted last e = cumF F sorted last' e' := by
  classical
  unfold cumF
  have key : ∀ c : ℝ, sorted.foldl (fun c b => F.rnd (c + cumsumF F ((b.map (·.2)).take (index last (b.map (·.1)) e)))) c =
      sorted.foldl (fun c b => F.rnd (c + cumsumF F ((b.map (·.2)).take (index last' (b.map (·.1)) e')))) c := by
    induction sorted with
    | nil => exact fun _ => rfl
    | cons b l ih =>
      intro c
      have hi : index last (b.map (·.1)) e = index last' (b.map (·.1)) e' := by
        rw [index_eq, index_eq]
        congr 1
        refine List.filter_congr fun z hz => ?_
        obtain ⟨r, hr, rfl⟩ := List.mem_map.1 hz
        simp [h b (by simp) r hr]
      rw [List.foldl_cons, List.foldl_cons, hi]
      exact ih (fun b hb => h b (List.mem_cons_of_mem _ hb)) _
  exact key 0

/-- Cumulative weights are accurate. -/
theorem cumF_near {sorted : List (List (ℝ × ℝ))} (hw : ∀ b ∈ sorted, ∀ r ∈ b, F.IsFloat r.2 ∧ 0 ≤ r.2)
    (hs : ∀ b ∈ sorted, b.Pairwise fun a b => a.1 ≤ b.1) {B : ℕ} (hB : ∀ b ∈ sorted, b.length ≤ B) (last : Bool) (e : ℝ) :
    F.IsFloat (cumF F sorted last e) ∧ Near F (B + sorted.length) (cumF F sorted last e) (weightOf (Below last e) sorted.flatten) := by
  classical
  unfold cumF
  have key : ∀ (m : ℕ) (c s : ℝ), F.IsFloat c → Near F (B + m) c s →
      F.IsFloat (sorted.foldl (fun c b => F.rnd (c + cumsumF F ((b.map (·.2)).take (index last (b.map (·.1)) e)))) c) ∧
      Near F (B + (m + sorted.length)) (sorted.foldl (fun c b => F.rnd (c + cumsumF F ((b.map (·.2)).take (index last (b.map (·.1)) e)))) c)
        (s + weightOf (Below last e) sorted.flatten) := by
    induction sorted with
    | nil =>
      intro m c s fc h
      simpa [weightOf] using ⟨fc, h⟩
    | cons b l ih =>
      intro m c s fc h
      have hb : ∀ x ∈ (b.filter fun r => decide (Below last e r.1)).map (·.2), F.IsFloat x ∧ 0 ≤ x := by
        intro x hx
        obtain ⟨r, hr, rfl⟩ := List.mem_map.1 hx
        exact hw b (by simp) r (List.mem_filter.1 hr).1
      have hn := near_foldl hb (RoundedRsd.float_zero (F := F)) (near_self 0 le_rfl)
      rw [zero_add, zero_add] at hn
      have hlen : ((b.filter fun r => decide (Below last e r.1)).map (·.2)).length ≤ B + m := by
        rw [List.length_map]
        exact (List.length_filter_le _ _).trans ((hB b (by simp)).trans (by omega))
      have h' := near_add fc hn.1 h (near_mono hlen hn.2)
      have := ih (fun b hb => hw b (List.mem_cons_of_mem _ hb)) (fun b hb => hs b (List.mem_cons_of_mem _ hb))
        (fun b hb => hB b (List.mem_cons_of_mem _ hb)) (m + 1) _ _ (Fmt.rnd_isFloat _) h'
      rw [List.foldl_cons, take_index (hs b (by simp)), List.flatten_cons, weightOf_append, ← add_assoc s, List.length_cons,
        show m + (l.length + 1) = m + 1 + l.length by omega]
      exact this
  simpa using key 0 0 0 RoundedRsd.float_zero (near_self _ le_rfl)

theorem split_bin {edges : List ℝ} {i : ℕ} {a b : ℝ} (ha : edges[i]? = some a) (hb : edges[i + 1]? = some b) (hab : a ≤ b) :
    (∀ z, Below (i + 1 + 1 == edges.length) b z ↔ Below (i + 1 == edges.length) a z ∨ InBin edges i z) ∧
      ∀ z, ¬ (Below (i + 1 == edges.length) a z ∧ InBin edges i z) := by
  have hi : i + 1 < edges.length := (List.getElem?_eq_some_iff.1 hb).1
  have e1 : (i + 1 == edges.length) = false := by simpa using hi.ne
  have e2 : ∀ z, InBin edges i z ↔ a ≤ z ∧ Below (i + 1 + 1 == edges.length) b z := by
    intro z
    unfold InBin Below
    rw [ha, hb]
    constructor
    · rintro ⟨_, _, h1, h2, h3, h4⟩
      obtain rfl := Option.some.inj h1
      obtain rfl := Option.some.inj h2
      refine ⟨h3, ?_⟩
      split_ifs with h
      · exact h4.elim le_of_lt (·.2)
      · exact h4.elim id fun h5 => absurd (by simpa using h5.1) h
    · rintro ⟨h1, h2⟩
      refine ⟨a, b, rfl, rfl, h1, ?_⟩
      split_ifs at h2 with h
      · exact .inr ⟨by simpa using h, h2⟩
      · exact .inl h2
  constructor
  · intro z
    rw [e2, e1]
    constructor
    · intro h
      by_cases hz : z < a
      · exact .inl hz
      · exact .inr ⟨not_lt.1 hz, h⟩
    · rintro (h | h)
      · have h : z < a := h
        unfold Below
        split_ifs
        · exact (h.trans_le hab).le
        · exact h.trans_le hab
      · exact h.2
  · rintro z ⟨h1, h2⟩
    rw [e1] at h1
    have h1 : z < a := h1
    have := ((e2 z).1 h2).1
    linarith

theorem edges_le {edges : List ℝ} (hs : edges.Pairwise (· ≤ ·)) {i : ℕ} {a b : ℝ} (ha : edges[i]? = some a) (hb : edges[i + 1]? = some b) : a ≤ b := by
  obtain ⟨q1, rfl⟩ := List.getElem?_eq_some_iff.1 ha
  obtain ⟨q2, rfl⟩ := List.getElem?_eq_some_iff.1 hb
  exact List.pairwise_iff_getElem.1 hs _ _ q1 q2 (by omega)

theorem weightOf_blocks {sort : List (ℝ × ℝ) → List (ℝ × ℝ)} (hsort : Sorts sort) (P : ℝ → Prop) (blocks : List (List (ℝ × ℝ))) :
    weightOf P (blocks.map sort).flatten = weightOf P blocks.flatten := by
  induction blocks with
  | nil => rfl
  | cons b l ih => rw [List.map_cons, List.flatten_cons, List.flatten_cons, weightOf_append, weightOf_append, ih, weightOf_perm P (hsort b).1]

theorem mem_sorted {sort : List (ℝ × ℝ) → List (ℝ × ℝ)} (hsort : Sorts sort) {blocks : List (List (ℝ × ℝ))} {Q : ℝ × ℝ → Prop}
    (h : ∀ r ∈ blocks.flatten, Q r) : ∀ b ∈ blocks.map sort, ∀ r ∈ b, Q r := by
  intro b hb r hr
  obtain ⟨b', hb', rfl⟩ := List.mem_map.1 hb
  exact h r (List.mem_flatten.2 ⟨b', hb', (hsort b').1.mem_iff.1 hr⟩)

theorem weightOf_le {P : ℝ → Prop} {rows : List (ℝ × ℝ)} (h : ∀ r ∈ rows, 0 ≤ r.2) : weightOf P rows ≤ (rows.map (·.2)).sum := by
  induction rows with
  | nil => simp [weightOf]
  | cons a l ih =>
    rw [weightOf_cons, List.map_cons, List.sum_cons]
    have h1 := ih fun r hr => h r (List.mem_cons_of_mem _ hr)
    have h2 := h a (by simp)
    split_ifs <;> linarith

/-- C135: weights per bin, in floating point, for non-negative weights: they are not negative, they are 0 for bins without objects, and they are the sum
of weights of the objects of the bin up to rounding errors of the total weight. Rows are summed by blocks of at most `B` rows. -/
theorem C135_weights {sort : List (ℝ × ℝ) → List (ℝ × ℝ)} (hsort : Sorts sort) {blocks : List (List (ℝ × ℝ))} {B : ℕ} (hB : ∀ b ∈ blocks, b.length ≤ B)
    (hw : ∀ r ∈ blocks.flatten, F.IsFloat r.2 ∧ 0 ≤ r.2) {edges : List ℝ} (hs : edges.Pairwise (· ≤ ·)) {i : ℕ} (hi : i + 1 < edges.length) :
    ∃ c, (histogramF F sort blocks edges)[i]? = some c ∧ 0 ≤ c ∧ ((∀ r ∈ blocks.flatten, ¬ InBin edges i r.1) → c = 0) ∧
      |c - weightOf (InBin edges i) blocks.flatten| ≤ 2 * ((1 + F.u) ^ (B + blocks.length + 1) - 1) * (blocks.flatten.map (·.2)).sum := by
  have ha : edges[i]? = some edges[i] := List.getElem?_eq_getElem _
  have hb : edges[i + 1]? = some edges[i + 1] := List.getElem?_eq_getElem _
  generalize edges[i] = a at ha
  generalize edges[i + 1] = b at hb
  have hab := edges_le hs ha hb
  obtain ⟨h1, h2⟩ := split_bin ha hb hab
  refine ⟨F.rnd (cumF F (blocks.map sort) (i + 1 + 1 == edges.length) b - cumF F (blocks.map sort) (i + 1 == edges.length) a), ?_, ?_, ?_, ?_⟩
  · simp only [histogramF, List.getElem?_zipWith, List.getElem?_tail, List.getElem?_mapIdx, ha, hb, Option.map_some]
  · refine Fmt.rnd_nonneg (sub_nonneg.2 (cumF_mono (mem_sorted hsort fun r hr => (hw r hr).2) fun z hz => (h1 z).2 (.inl hz)))
  · intro hno
    rw [cumF_congr (last' := (i + 1 == edges.length)) (e' := a), sub_self, Fmt.rnd_zero]
    refine mem_sorted hsort (Q := fun r => (Below (i + 1 + 1 == edges.length) b r.1 ↔ Below (i + 1 == edges.length) a r.1)) fun r hr => ?_
    rw [h1]
    exact or_iff_left (hno r hr)
  · have hsorted : ∀ b ∈ blocks.map sort, b.Pairwise fun a b => a.1 ≤ b.1 := by
      intro b hb
      obtain ⟨b', -, rfl⟩ := List.mem_map.1 hb
      exact (hsort b').2
    have hB' : ∀ b ∈ blocks.map sort, b.length ≤ B := by
      intro b hb
      obtain ⟨b', hb', rfl⟩ := List.mem_map.1 hb
      rw [(hsort b').1.length_eq]
      exact hB b' hb'
    obtain ⟨f1, n1⟩ := cumF_near (F := F) (mem_sorted hsort hw) hsorted hB' (i + 1 == edges.length) a
    obtain ⟨f2, n2⟩ := cumF_near (F := F) (mem_sorted hsort hw) hsorted hB' (i + 1 + 1 == edges.length) b
    rw [List.length_map, weightOf_blocks hsort] at n1 n2
    have hsum := weightOf_split (rows := blocks.flatten) h1 h2
    have l1 := weightOf_le (P := Below (i + 1 == edges.length) a) fun r hr => (hw r hr).2
    have l2 := weightOf_le (P := Below (i + 1 + 1 == edges.length) b) fun r hr => (hw r hr).2
    have ea := add_err f2 (Fmt.isFloat_neg f1)
    rw [← sub_eq_add_neg] at ea
    have hu := Fmt.u_pos (F := F)
    have hp := one_le_pow F (B + blocks.length)
    generalize cumF F (blocks.map sort) (i + 1 == edges.length) a = c1 at *
    generalize cumF F (blocks.map sort) (i + 1 + 1 == edges.length) b = c2 at *
    generalize weightOf (Below (i + 1 == edges.length) a) blocks.flatten = s1 at *
    generalize weightOf (Below (i + 1 + 1 == edges.length) b) blocks.flatten = s2 at *
    generalize (blocks.flatten.map (·.2)).sum = W at *
    generalize weightOf (InBin edges i) blocks.flatten = w at *
    rw [pow_succ]
    obtain ⟨p1, q1⟩ := n1
    obtain ⟨p2, q2⟩ := n2
    generalize (1 + F.u) ^ (B + blocks.length) = g at *
    have r1 : |c1 - s1| ≤ (g - 1) * W := q1.trans (mul_le_mul_of_nonneg_left l1 (by linarith))
    have r2 : |c2 - s2| ≤ (g - 1) * W := q2.trans (mul_le_mul_of_nonneg_left l2 (by linarith))
    have hW : 0 ≤ W := p1.trans l1
    have hw0 : |s2 - s1| ≤ W := abs_le.2 ⟨by linarith, by linarith⟩
    have t1 := abs_add_three (F.rnd (c2 - c1) - (c2 - c1)) (c2 - s2) (s1 - c1)
    have t2 : F.rnd (c2 - c1) - (c2 - c1) + (c2 - s2) + (s1 - c1) = F.rnd (c2 - c1) - w := by linarith
    rw [t2, abs_sub_comm s1 c1] at t1
    have t3 := abs_add_three (c2 - s2) (s2 - s1) (s1 - c1)
    have t4 : c2 - s2 + (s2 - s1) + (s1 - c1) = c2 - c1 := by ring
    rw [t4, abs_sub_comm s1 c1] at t3
    have t5 : |c2 - c1| ≤ (2 * g - 1) * W := by linarith
    have t6 := mul_le_mul_of_nonneg_left t5 hu.le
    have t7 : 0 ≤ F.u * W := mul_nonneg hu.le hW
    linarith

/-- C135: counts of objects without weights are exact. -/
theorem C135_unweighted {sort : List ℝ → List ℝ} (hsort : ∀ l, (sort l).Perm l) (blocks : List (List ℝ)) {edges : List ℝ}
    (hs : edges.Pairwise (· ≤ ·)) : (histogramN sort blocks edges).map (fun n : ℤ => (n : ℝ)) = histogram edges (blocks.flatten.map fun z => (z, 1)) := by
  classical
  have hcum : ∀ last e, ((cumN (blocks.map sort) last e : ℤ) : ℝ) = weightOf (Below last e) (blocks.flatten.map fun z => (z, 1)) := by
    intro last e
    unfold cumN
    induction blocks with
    | nil => simp [weightOf]
    | cons b l ih =>
      rw [List.map_cons, List.map_cons, List.sum_cons, List.flatten_cons, List.map_append, weightOf_append, ← ih]
      push_cast
      congr 1
      rw [index_eq, ((hsort b).filter _).length_eq]
      unfold weightOf
      rw [List.filter_map, List.map_map]
      simp [Function.comp_def]
  refine List.ext_getElem? fun i => ?_
  by_cases hi : i + 1 < edges.length
  · have ha : edges[i]? = some edges[i] := List.getElem?_eq_getElem _
    have hb : edges[i + 1]? = some edges[i + 1] := List.getElem?_eq_getElem _
    rw [histogram_get edges _ i hi]
    generalize edges[i] = a at ha
    generalize edges[i + 1] = b at hb
    obtain ⟨h1, h2⟩ := split_bin ha hb (edges_le hs ha hb)
    have hsum := weightOf_split (rows := blocks.flatten.map fun z => (z, (1 : ℝ))) h1 h2
    simp only [histogramN, List.getElem?_map, List.getElem?_zipWith, List.getElem?_tail, List.getElem?_mapIdx, ha, hb, Option.map_some,
      Option.some.injEq]
    push_cast
    rw [hcum, hcum]
    linarith
  · rw [List.getElem?_eq_none (by simp [histogramN]; omega), List.getElem?_eq_none (by rw [histogram_length]; omega)]

/-- C135: with a number of bins, counts without weights add up to the number of objects. -/
theorem C135_total {sort : List ℝ → List ℝ} (hsort : ∀ l, (sort l).Perm l) (blocks : List (List ℝ)) {n : ℕ} (hn : 1 ≤ n) (hu : 8 * F.u * n ≤ 1)
    (hf : ∀ z ∈ blocks.flatten, F.IsFloat z) {edges : List ℝ} (he : binEdgesF F (.number n) blocks.flatten = .ok edges)
    (hr : ∀ a ∈ blocks.flatten, ∀ b ∈ blocks.flatten, a < b → (∀ z ∈ blocks.flatten, a ≤ z ∧ z ≤ b) → n * F.tiny ≤ b - a) :
    (histogramN sort blocks edges).sum = blocks.flatten.length := by
  cases hx : extremes blocks.flatten with
  | error e =>
    rw [binEdgesF, hx] at he
    cases he
  | ok p =>
    obtain ⟨lo, hi⟩ := p
    rw [binEdgesF, hx] at he
    have he := Except.ok.inj he
    obtain ⟨hl, hh, hall⟩ := extremes_spec hx
    have hle := (hall lo hl).2
    obtain ⟨h1, h2, h3, h4⟩ := linspace_spec (hf _ hl) (hf _ hh) hle hn hu
      (hle.eq_or_lt.imp id fun h => hr lo hl hi hh h hall)
    have he : linspaceF F lo hi n = edges := he
    rw [he] at h1 h2 h3 h4
    have hc := congrArg List.sum (C135_unweighted hsort blocks h4)
    cases edges with
    | nil => simp at h1
    | cons a l =>
      have ha : a = lo := by simpa using h2
      subst ha
      have hlne : l ≠ [] := by
        rintro rfl
        simp at h1
        omega
      rw [histogram_sum hlne h4] at hc
      have hlast : (a :: l).getLast (by simp) = hi := by
        rw [List.getLast?_eq_getLast_of_ne_nil (by simp)] at h3
        simpa using h3
      rw [hlast, weightOf_true] at hc
      · have e1 : ∀ m : List ℤ, (m.map fun n : ℤ => (n : ℝ)).sum = ((m.sum : ℤ) : ℝ) := by
          intro m
          induction m with
          | nil => simp
          | cons x m ih => rw [List.map_cons, List.sum_cons, List.sum_cons, ih, Int.cast_add]
        rw [e1] at hc
        have e2 : ((blocks.flatten.map fun z => (z, (1 : ℝ))).map (·.2)).sum = (blocks.flatten.length : ℝ) := by simp [List.map_map, Function.comp_def]
        rw [e2] at hc
        exact_mod_cast hc
      · intro r hr
        obtain ⟨z, hz, rfl⟩ := List.mem_map.1 hr
        exact hall z hz

/-- C135: the centre of a bin, in floating point, is in the bin, or at its edges. -/
theorem C135_centers {edges : List ℝ} (hf : ∀ e ∈ edges, F.IsFloat e) (hs : edges.Pairwise (· ≤ ·)) {i : ℕ} {a b : ℝ} (ha : edges[i]? = some a)
    (hb : edges[i + 1]? = some b) : ∃ c, (centersF F edges)[i]? = some c ∧ a ≤ c ∧ c ≤ b := by
  have hab := edges_le hs ha hb
  have fa := hf a (List.mem_of_getElem? ha)
  have fb := hf b (List.mem_of_getElem? hb)
  refine ⟨F.rnd (F.rnd (a + b) / 2), by simp [centersF, List.getElem?_zipWith, List.getElem?_tail, ha, hb], Fmt.le_rnd fa ?_, Fmt.rnd_le fb ?_⟩
  · have := Fmt.le_rnd (RoundedBox.float_double fa) (by linarith : 2 * a ≤ a + b)
    linarith
  · have := Fmt.rnd_le (RoundedBox.float_double fb) (by linarith : a + b ≤ 2 * b)
    linarith

/-- C135 is violated with weights: the weight of a bin, the difference of two cumulative sums, may be 0 although an object of the bin has a positive
weight. -/
theorem C135_weights_violated {sort : List (ℝ × ℝ) → List (ℝ × ℝ)} (hsort : Sorts sort) :
    histogramF binary64 sort [[(0, 1), (1, 1 / 2 ^ 60)]] [0, 1 / 2, 1] = [1, 0] ∧ InBin [0, 1 / 2, 1] 1 1 := by
  have hsl : sort [(0, 1), (1, 1 / 2 ^ 60)] = [(0, 1), (1, 1 / 2 ^ 60)] := by
    obtain ⟨h1, h2⟩ := hsort [(0, 1), (1, 1 / 2 ^ 60)]
    generalize sort [(0, 1), (1, 1 / 2 ^ 60)] = l at *
    have := List.mem_permutations.2 h1
    simp [List.permutations, List.permutationsAux, List.permutationsAux.rec, List.permutationsAux2] at this
    rcases this with rfl | rfl
    · norm_num
    · norm_num at h2
  have r1 : binary64.rnd 1 = 1 := Fmt.rnd_exact Rounded.one_float
  have r2 : binary64.rnd (1 + 1 / 2 ^ 60) = 1 := by
    have e : |(1 : ℝ) + 1 / 2 ^ 60| = 1 + 1 / 2 ^ 60 := abs_of_pos (by norm_num)
    rw [Rounded.rnd_eq (F := binary64) (k := 0) (n := 2 ^ 52)]
    · norm_num [binary64]
    · rw [e]
      norm_num
    · rw [e]
      norm_num
    · norm_num [binary64]
    · norm_num [binary64, abs_lt]
  constructor
  · simp only [histogramF, List.map_cons, List.map_nil, hsl, List.mapIdx_cons, List.mapIdx_nil, List.length_cons, List.length_nil, List.tail_cons,
      List.zipWith_cons_cons, cumF, List.foldl_cons, List.foldl_nil, index, cumsumF]
    norm_num [r1, Fmt.rnd_zero, List.filter_cons]
    rw [show (1152921504606846977 / 1152921504606846976 : ℝ) = 1 + 1 / 2 ^ 60 by norm_num, r2]
    norm_num [r1, r2, Fmt.rnd_zero]
  · exact ⟨1 / 2, 1, rfl, rfl, by norm_num, .inr ⟨rfl, le_rfl⟩⟩

/-- Non-vacuity: sorting algorithms exist. -/
theorem exists_sort : ∃ sort, Sorts sort := by
  classical
  refine ⟨fun l => l.mergeSort fun a b => decide (a.1 ≤ b.1), fun l => ⟨List.mergeSort_perm _ _, ?_⟩⟩
  refine (List.pairwise_mergeSort (le := fun a b : ℝ × ℝ => decide (a.1 ≤ b.1)) ?_ ?_ l).imp fun h => by simpa using h
  · intro a b c h1 h2
    simp only [decide_eq_true_eq] at *
    exact h1.trans h2
  · intro a b
    simpa using le_total a.1 b.1

/-- Non-vacuity: three redshifts, two bins. -/
example : ∃ edges, binEdgesF binary64 (.number 2) [1 / 2, 1 / 4, 1] = .ok edges ∧ edges.length = 3 ∧ ∃! i, InBin edges i (1 / 2) := by
  have hf : ∀ z ∈ [(1 / 2 : ℝ), 1 / 4, 1], binary64.IsFloat z := by
    intro z hz
    simp only [List.mem_cons, List.not_mem_nil, or_false] at hz
    rcases hz with rfl | rfl | rfl
    · exact ⟨1, -1, by norm_num [binary64], by norm_num [binary64], by norm_num⟩
    · exact ⟨1, -2, by norm_num [binary64], by norm_num [binary64], by norm_num⟩
    · exact ⟨1, 0, by norm_num [binary64], by norm_num [binary64], by norm_num⟩
  obtain ⟨edges, h1, h2, -, h4⟩ := C135_number (F := binary64) (n := 2) (zs := [1 / 2, 1 / 4, 1]) (by norm_num) (by norm_num [Fmt.u, binary64]) hf (by simp) (by
    intro a ha b hb hab _
    have ht : binary64.tiny ≤ 1 / 10 ^ 2 := by
      unfold Fmt.tiny
      have : (2 : ℝ) ^ (binary64.emin + binary64.p - 1) ≤ 2 ^ (-7 : ℤ) := zpow_le_zpow_right₀ (by norm_num) (by norm_num [binary64])
      exact this.trans (by norm_num)
    simp only [List.mem_cons, List.not_mem_nil, or_false] at ha hb
    push_cast
    rcases ha with rfl | rfl | rfl <;> rcases hb with rfl | rfl | rfl <;> first | (exfalso; linarith) | linarith)
  exact ⟨edges, h1, h2, h4 _ (by simp)⟩

/-- Non-vacuity: weights of two objects in two bins. -/
example : ∃ sort c, Sorts sort ∧ (histogramF binary64 sort [[(1, 2), (0, 1)]] [0, 1 / 2, 1])[1]? = some c ∧ |c - 2| ≤ 1 / 10 ^ 10 := by
  obtain ⟨sort, hsort⟩ := exists_sort
  obtain ⟨c, h1, -, -, h4⟩ := C135_weights (F := binary64) hsort (blocks := [[(1, 2), (0, 1)]]) (B := 2) (by simp) (by
    intro r hr
    simp only [List.flatten_cons, List.flatten_nil, List.append_nil, List.mem_cons, List.not_mem_nil, or_false] at hr
    rcases hr with rfl | rfl
    · exact ⟨⟨2, 0, by norm_num [binary64], by norm_num [binary64], by norm_num⟩, by norm_num⟩
    · exact ⟨⟨1, 0, by norm_num [binary64], by norm_num [binary64], by norm_num⟩, by norm_num⟩) (edges := [0, 1 / 2, 1]) (by norm_num) (i := 1) (by simp)
  refine ⟨sort, c, hsort, h1, ?_⟩
  have hin : InBin [0, 1 / 2, 1] 1 1 := ⟨1 / 2, 1, rfl, rfl, by norm_num, .inr ⟨rfl, le_rfl⟩⟩
  have hout : ¬ InBin [0, 1 / 2, 1] 1 0 := by
    rintro ⟨a, b, ha, -, h, -⟩
    have : 1 / 2 = a := Option.some.inj ha
    rw [← this] at h
    norm_num at h
  have hu : binary64.u = 1 / 2 ^ 53 := by norm_num [Fmt.u, binary64]
  rw [List.flatten_cons, List.flatten_nil, List.append_nil, weightOf_cons, weightOf_cons, if_pos hin, if_neg hout, hu] at h4
  simp only [weightOf, List.filter_nil, List.map_nil, List.sum_nil, List.map_cons, List.sum_cons, List.length_cons, List.length_nil, add_zero, zero_add] at h4
  exact h4.trans (by norm_num)

end Verif.Props.RoundedDensity
