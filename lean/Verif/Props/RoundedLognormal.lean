import Verif.Model.RoundedLognormal
import Verif.Props.RoundedDensity
import Mathlib.Analysis.Complex.ExponentialBounds

/-!
# C137: lognormal mocks with rounding errors
-/

namespace Verif.Props.RoundedLognormal

open Verif Verif.Model Verif.Model.RoundedLognormal Verif.Props.RoundedDensity

variable {F : Fmt}

/-- Exponentials of the C library: floats, not negative. -/
structure Lib (F : Fmt) (exp : ℝ → ℝ) : Prop where
  float : ∀ x, F.IsFloat (exp x)
  nonneg : ∀ x, 0 ≤ exp x

/-- Exponentials are right up to a relative error `κ`, for the field `xs`. -/
def Accurate (exp : ℝ → ℝ) (κ : ℝ) (xs : List ℝ) : Prop := ∀ x ∈ xs, |exp x - Real.exp x| ≤ κ * Real.exp x

/-- Exact mean of the exponentials. -/
noncomputable def meanExp (xs : List ℝ) : ℝ := (xs.map Real.exp).sum / xs.length

theorem one_float : F.IsFloat 1 := Verif.Props.Rounded.one_float

/-- C137: contrasts of lognormal fields are never below -1, and the mean numbers of objects are never negative, so that Poisson sampling is not
refused, whatever the field, the mean, and the exponentials. -/
theorem C137_sampled {exp : ℝ → ℝ} (hl : Lib F exp) {m : ℝ} (hm : 0 ≤ m) (x : ℝ) :
    -1 ≤ lognormalF F exp m x ∧ ∀ {nbar dv : ℝ}, 0 ≤ nbar → 0 ≤ dv → 0 ≤ cellMeanF F nbar dv (lognormalF F exp m x) := by
  have h : -1 ≤ lognormalF F exp m x := by
    refine Fmt.le_rnd (Fmt.isFloat_neg one_float) ?_
    have := Fmt.rnd_nonneg (F := F) (div_nonneg (hl.nonneg x) hm)
    linarith
  refine ⟨h, fun hn hd => ?_⟩
  exact Fmt.rnd_nonneg (mul_nonneg (Fmt.rnd_nonneg (mul_nonneg (Fmt.rnd_nonneg (by linarith)) hn)) hd)

/-- C137: rounding errors do not change the order of densities, nor of numbers of objects. -/
theorem C137_order {exp : ℝ → ℝ} {m : ℝ} (hm : 0 ≤ m) {x y : ℝ} (hxy : exp x ≤ exp y) :
    lognormalF F exp m x ≤ lognormalF F exp m y ∧ ∀ {nbar dv : ℝ}, 0 ≤ nbar → 0 ≤ dv →
      cellMeanF F nbar dv (lognormalF F exp m x) ≤ cellMeanF F nbar dv (lognormalF F exp m y) := by
  have h : lognormalF F exp m x ≤ lognormalF F exp m y :=
    Fmt.rnd_mono (sub_le_sub_right (Fmt.rnd_mono (div_le_div_of_nonneg_right hxy hm)) 1)
  refine ⟨h, fun hn hd => ?_⟩
  exact Fmt.rnd_mono (mul_le_mul_of_nonneg_right (Fmt.rnd_mono (mul_le_mul_of_nonneg_right (Fmt.rnd_mono (by linarith)) hn)) hd)

theorem cell_err {u t D n v a b c : ℝ} (hu : 0 ≤ u) (hu4 : u ≤ 1 / 4) (ht : 0 ≤ t) (hD : 0 ≤ D) (hn : 0 ≤ n) (hv : 0 ≤ v) (h1 : |a - D| ≤ u * D)
    (h2 : |b - a * n| ≤ u * (a * n + t)) (h3 : |c - b * v| ≤ u * (b * v + t)) : |c - D * n * v| ≤ 4 * u * (D * n * v) + u * t * (1 + 2 * v) := by
  have hP : 0 ≤ D * n * v := mul_nonneg (mul_nonneg hD hn) hv
  have k1 : |a * n * v - D * n * v| ≤ u * (D * n * v) := by
    rw [show a * n * v - D * n * v = (a - D) * (n * v) by ring, abs_mul, abs_of_nonneg (mul_nonneg hn hv)]
    have := mul_le_mul_of_nonneg_right h1 (mul_nonneg hn hv)
    linarith
  have k2 : |b * v - a * n * v| ≤ u * (a * n * v + t * v) := by
    rw [← sub_mul, abs_mul, abs_of_nonneg hv]
    have := mul_le_mul_of_nonneg_right h2 hv
    linarith
  have j1 := (abs_le.1 k1).2
  have j2 := (abs_le.1 k2).2
  have m1 : u * (a * n * v) ≤ u * ((1 + u) * (D * n * v)) := mul_le_mul_of_nonneg_left (by linarith) hu
  have huP := mul_nonneg hu hP
  have huu : u * (u * (D * n * v)) ≤ 1 / 4 * (u * (D * n * v)) := mul_le_mul_of_nonneg_right hu4 huP
  have hut := mul_nonneg hu (mul_nonneg ht hv)
  have m2 : u * (b * v) ≤ u * ((1 + u) * ((1 + u) * (D * n * v)) + u * (t * v)) := by
    refine mul_le_mul_of_nonneg_left ?_ hu
    have : u * (a * n * v) ≤ u * ((1 + u) * (D * n * v)) := m1
    linarith
  have huuu : u * (u * (u * (D * n * v))) ≤ 1 / 4 * (u * (u * (D * n * v))) := mul_le_mul_of_nonneg_right hu4 (mul_nonneg hu huP)
  have huut : u * (u * (t * v)) ≤ 1 / 4 * (u * (t * v)) := mul_le_mul_of_nonneg_right hu4 hut
  have h4 := abs_sub_le c (b * v) (D * n * v)
  have h5 := abs_sub_le (b * v) (a * n * v) (D * n * v)
  linarith

/-- C137: the mean number of objects of a cell is the density there, times the mean density and the volume of the cell, up to rounding errors. -/
theorem C137_cell {delta nbar dv : ℝ} (hf : F.IsFloat delta) (hd : -1 ≤ delta) (hn : 0 ≤ nbar) (hv : 0 ≤ dv) :
    |cellMeanF F nbar dv delta - (1 + delta) * nbar * dv| ≤ 4 * F.u * ((1 + delta) * nbar * dv) + F.u * F.tiny * (1 + 2 * dv) := by
  have h1 := add_err one_float hf
  rw [abs_of_nonneg (by linarith : 0 ≤ 1 + delta)] at h1
  have ha : 0 ≤ F.rnd (1 + delta) := Fmt.rnd_nonneg (by linarith)
  have h2 := Verif.Lemmas.RoundedIsometry.rnd_err_tiny (F := F) (F.rnd (1 + delta) * nbar)
  rw [abs_of_nonneg (mul_nonneg ha hn)] at h2
  have hb : 0 ≤ F.rnd (F.rnd (1 + delta) * nbar) := Fmt.rnd_nonneg (mul_nonneg ha hn)
  have h3 := Verif.Lemmas.RoundedIsometry.rnd_err_tiny (F := F) (F.rnd (F.rnd (1 + delta) * nbar) * dv)
  rw [abs_of_nonneg (mul_nonneg hb hv)] at h3
  exact cell_err (Fmt.u_pos (F := F)).le F.u_le (Verif.Lemmas.RoundedIsometry.tiny_pos (F := F)).le (by linarith) hn hv h1 h2 h3

/-- Contrast 1, density 1/2 and volume 4, in double precision. -/
example : |cellMeanF binary64 (1 / 2) 4 1 - 4| ≤ 1 / 100000 := by
  have := C137_cell (F := binary64) (delta := 1) (nbar := 1 / 2) (dv := 4) one_float (by norm_num) (by norm_num) (by norm_num)
  have hu : binary64.u ≤ 1 / 2 ^ 50 := by unfold Fmt.u binary64; norm_num
  have ht := Verif.Lemmas.RoundedIsometry.tiny_le (F := binary64)
  have h0 := Fmt.u_pos (F := binary64)
  have h2 : binary64.u * binary64.tiny ≤ binary64.u * (1 / 2) := mul_le_mul_of_nonneg_left ht h0.le
  norm_num at this hu
  linarith

/-! ### Real numbers -/

theorem compose {a q M α β : ℝ} (hβ : 0 ≤ β) (h1 : |a - M| ≤ α * M) (h2 : |q - a| ≤ β * a) : |q - M| ≤ (α + β + α * β) * M := by
  have k1 := abs_le.1 h1
  have h3 := mul_le_mul_of_nonneg_left (by linarith : a ≤ (1 + α) * M) hβ
  have h4 := abs_add_le (q - a) (a - M)
  rw [sub_add_sub_cancel] at h4
  linarith

theorem three {κ b u : ℝ} (hκ : 0 ≤ κ) (hb : 0 ≤ b) (hu : 0 ≤ u) (h : κ + b + u ≤ 1 / 8) :
    (κ + b + κ * b) + u + (κ + b + κ * b) * u ≤ 9 / 8 * (κ + b + u) := by
  have h1 : κ * b ≤ κ * (1 / 8) := mul_le_mul_of_nonneg_left (by linarith) hκ
  have h2 : (κ + b + κ * b) * u ≤ (κ + b + κ * b) * (1 / 8 - (κ + b)) := mul_le_mul_of_nonneg_left (by linarith) (by positivity)
  have h3 : κ * b ≤ (κ + b) ^ 2 := by nlinarith [sq_nonneg κ, sq_nonneg b, mul_nonneg hκ hb]
  have h4 : 0 ≤ κ * b * (κ + b) := by positivity
  have h5 : κ * b ≤ 1 / 4 * (κ + b) ^ 2 := by nlinarith [sq_nonneg (κ - b)]
  have h6 : (κ + b + κ * b) * (1 / 8 - (κ + b)) + κ * b = 1 / 8 * (κ + b) - (κ + b) ^ 2 + 9 / 8 * (κ * b) - κ * b * (κ + b) := by ring
  nlinarith

theorem final {D q r R u ε : ℝ} (hu : 0 ≤ u) (hu8 : u ≤ 1 / 8) (hR : 0 ≤ R) (h1 : |D - (q - 1)| ≤ u * (q + 1)) (h2 : |q - r| ≤ u * (r + 1 / 2))
    (h3 : |r - R| ≤ ε * R) (hr : r ≤ 3 / 2 * R) : |1 + D - R| ≤ (ε + 4 * u) * R + 3 * u := by
  have k1 := mul_le_mul_of_nonneg_left (by linarith : r + 1 / 2 ≤ 3 / 2 * R + 1 / 2) hu
  have k2 : u * (3 / 2 * R + 1 / 2) ≤ 1 / 8 * (3 / 2 * R + 1 / 2) := mul_le_mul_of_nonneg_right hu8 (by positivity)
  have k3 := (abs_le.1 h2).2
  have k4 := mul_le_mul_of_nonneg_left (by linarith : q + 1 ≤ 27 / 16 * R + 17 / 16) hu
  have e3 : 1 + D - R = (D - (q - 1)) + (q - r) + (r - R) := by ring
  rw [e3]
  have := abs_add_three (D - (q - 1)) (q - r) (r - R)
  have : 0 ≤ u * R := mul_nonneg hu hR
  linarith

/-! ### Accuracy -/

theorem sum_near {d : ℕ} {l : List ℝ} {s : ℝ} (h : IsSum F d l s) (hl : ∀ x ∈ l, F.IsFloat x ∧ 0 ≤ x) : F.IsFloat s ∧ Near F d s l.sum := by
  induction h with
  | one x => simpa using ⟨(hl x (by simp)).1, near_self (F := F) 0 (hl x (by simp)).2⟩
  | @add m n l l' a b _ _ ih1 ih2 =>
    obtain ⟨f1, n1⟩ := ih1 fun x hx => hl x (List.mem_append_left _ hx)
    obtain ⟨f2, n2⟩ := ih2 fun x hx => hl x (List.mem_append_right _ hx)
    refine ⟨Fmt.rnd_isFloat _, ?_⟩
    rw [List.sum_append]
    exact near_add f1 f2 (near_mono (le_max_left m n) n1) (near_mono (le_max_right m n) n2)
  | order _ hp ih =>
    rw [← hp.sum_eq]
    exact ih fun x hx => hl x (hp.mem_iff.1 hx)

theorem pow_le_two {u : ℝ} (hu : 0 ≤ u) (d : ℕ) (h : d * u ≤ 1 / 2) : (1 + u) ^ d ≤ 1 + 2 * (d * u) := by
  induction d with
  | zero => simp
  | succ d ih =>
    push_cast at h ⊢
    have hd : (d : ℝ) * u ≤ 1 / 2 := by linarith
    have := ih hd
    rw [pow_succ]
    have h2 := mul_le_mul_of_nonneg_right this (by linarith : 0 ≤ 1 + u)
    nlinarith

theorem sum_exp_near {exp : ℝ → ℝ} {κ : ℝ} {xs : List ℝ} (h : Accurate exp κ xs) :
    |(xs.map exp).sum - (xs.map Real.exp).sum| ≤ κ * (xs.map Real.exp).sum := by
  induction xs with
  | nil => simp
  | cons x xs ih =>
    have h1 := h x (by simp)
    have h2 := ih fun y hy => h y (List.mem_cons_of_mem _ hy)
    simp only [List.map_cons, List.sum_cons]
    have e : exp x + (xs.map exp).sum - (Real.exp x + (xs.map Real.exp).sum) = (exp x - Real.exp x) + ((xs.map exp).sum - (xs.map Real.exp).sum) := by ring
    rw [e]
    have := abs_add_le (exp x - Real.exp x) ((xs.map exp).sum - (xs.map Real.exp).sum)
    linarith

theorem meanExp_pos {xs : List ℝ} (h : xs ≠ []) : 0 < meanExp xs := by
  have hl : 0 < xs.length := List.length_pos_iff.2 h
  have hs : 0 < (xs.map Real.exp).sum := by
    refine List.sum_pos _ (fun y hy => ?_) (by simpa using h)
    obtain ⟨x, -, rfl⟩ := List.mem_map.1 hy
    exact Real.exp_pos x
  exact div_pos hs (by exact_mod_cast hl)

/-- The mean of exponentials. -/
theorem mean_near {exp : ℝ → ℝ} (hl : Lib F exp) {κ : ℝ} {xs : List ℝ} (ha : Accurate exp κ xs) (hne : xs ≠ []) {d : ℕ} {s : ℝ}
    (hs : IsSum F d (xs.map exp) s) (ht : F.tiny ≤ s / xs.length) (hκ : 0 ≤ κ) (hsmall : κ + (2 * d + 1) * F.u ≤ 1 / 8) :
    |meanF F s xs.length - meanExp xs| ≤ 9 / 8 * (κ + (2 * d + 1) * F.u) * meanExp xs := by
  have hu := Fmt.u_pos (F := F)
  have hd0 : (0 : ℝ) ≤ d := Nat.cast_nonneg d
  have hdu : 0 ≤ (d : ℝ) * F.u := by positivity
  have hM := meanExp_pos hne
  have hlen : (0 : ℝ) < xs.length := by exact_mod_cast List.length_pos_iff.2 hne
  obtain ⟨-, n1, n2⟩ := sum_near hs fun x hx => by
    obtain ⟨y, -, rfl⟩ := List.mem_map.1 hx
    exact ⟨hl.float y, hl.nonneg y⟩
  have hp := pow_le_two hu.le d (by linarith)
  have h1 := sum_exp_near ha
  set S := (xs.map Real.exp).sum with hS
  set A := (xs.map exp).sum with hA
  have eS : S = meanExp xs * xs.length := (div_mul_cancel₀ _ hlen.ne').symm
  set M := meanExp xs
  have h2 : |s - A| ≤ 2 * (d * F.u) * A := n2.trans (mul_le_mul_of_nonneg_right (by linarith) n1)
  have h3 : F.rnd (s / xs.length) = meanF F s xs.length := rfl
  have hspos : 0 < s / xs.length := (Fmt.two_zpow_pos _).trans_le ht
  have h4 := Fmt.rnd_err (F := F) (x := s / xs.length) (by rwa [abs_of_pos hspos])
  rw [h3, abs_of_pos hspos] at h4
  set m := meanF F s xs.length
  set a := A / xs.length with ha'
  set q := s / xs.length with hq
  have ea : A = a * xs.length := (div_mul_cancel₀ _ hlen.ne').symm
  have es : s = q * xs.length := (div_mul_cancel₀ _ hlen.ne').symm
  have ha0 : 0 ≤ a := div_nonneg n1 hlen.le
  have g1 : |a - M| ≤ κ * M := by
    rw [ea, eS, ← sub_mul, abs_mul, abs_of_pos hlen, ← mul_assoc] at h1
    exact le_of_mul_le_mul_right h1 hlen
  have g2 : |q - a| ≤ 2 * (d * F.u) * a := by
    rw [ea, es, ← sub_mul, abs_mul, abs_of_pos hlen, ← mul_assoc] at h2
    exact le_of_mul_le_mul_right h2 hlen
  set b := 2 * (d * F.u) with hb
  have hb0 : 0 ≤ b := by positivity
  have hτ : κ + b + F.u ≤ 1 / 8 := by rw [hb]; linarith
  have hgoal : 9 / 8 * (κ + (2 * d + 1) * F.u) = 9 / 8 * (κ + b + F.u) := by rw [hb]; ring
  rw [hgoal]
  have c1 := compose hb0 g1 g2
  have c2 := compose hu.le c1 h4
  exact c2.trans (mul_le_mul_of_nonneg_right (three hκ hb0 hu.le hτ) hM.le)

/-- C137: the density of each node is the exponential of the field over the mean of exponentials, up to rounding errors: a few for each addition in the
mean, and those of the C library, relative to the density, and three more in units of the mean density. -/
theorem C137_accuracy {exp : ℝ → ℝ} (hl : Lib F exp) {κ : ℝ} {xs : List ℝ} (ha : Accurate exp κ xs) {d : ℕ} {s : ℝ}
    (hs : IsSum F d (xs.map exp) s) (ht : F.tiny ≤ s / xs.length) (hκ : 0 ≤ κ) (hsmall : κ + (2 * d + 1) * F.u ≤ 1 / 8) {x : ℝ} (hx : x ∈ xs) :
    |1 + lognormalF F exp (meanF F s xs.length) x - Real.exp x / meanExp xs| ≤
      (3 * κ + (3 * d + 6) * F.u) * (Real.exp x / meanExp xs) + 3 * F.u := by
  have hu := Fmt.u_pos (F := F)
  have hd0 : (0 : ℝ) ≤ d := Nat.cast_nonneg d
  have hdu : 0 ≤ (d : ℝ) * F.u := by positivity
  have hne : xs ≠ [] := List.ne_nil_of_mem hx
  have hM := meanExp_pos hne
  have hm := mean_near hl ha hne hs ht hκ hsmall
  have hxe := ha x hx
  set m := meanF F s xs.length
  set M := meanExp xs
  set τ := κ + (2 * d + 1) * F.u with hτ
  have hτ0 : 0 ≤ τ := by rw [hτ]; positivity
  set R := Real.exp x / M with hR
  have hR0 : 0 < R := div_pos (Real.exp_pos x) hM
  have eR : Real.exp x = R * M := by rw [hR]; field_simp
  set e := exp x with he
  have he0 : 0 ≤ e := hl.nonneg x
  have hm' := abs_le.1 hm
  have hmlow : 55 / 64 * M ≤ m := by nlinarith
  have hm0 : 0 < m := lt_of_lt_of_le (by positivity) hmlow
  -- the ratio
  have r1 : |e / m - R| ≤ (3 * κ + (3 * d + 2) * F.u) * R := by
    have e1 : e / m - R = ((e - R * M) - R * (m - M)) / m := by field_simp; ring
    rw [e1, abs_div, abs_of_pos hm0, div_le_iff₀ hm0]
    refine (abs_sub _ _).trans ?_
    rw [abs_mul, abs_of_pos hR0]
    rw [eR] at hxe
    have h1 := mul_le_mul_of_nonneg_left hm hR0.le
    have h2 : (3 * κ + (3 * d + 2) * F.u) * R * (55 / 64 * M) ≤ (3 * κ + (3 * d + 2) * F.u) * R * m := mul_le_mul_of_nonneg_left hmlow (by positivity)
    have hRM : 0 ≤ R * M := by positivity
    have h3 : κ + 9 / 8 * τ ≤ (3 * κ + (3 * d + 2) * F.u) * (55 / 64) := by rw [hτ]; nlinarith
    have h4 := mul_le_mul_of_nonneg_right h3 hRM
    nlinarith
  set r := e / m with hr
  have hr0 : 0 ≤ r := div_nonneg he0 hm0.le
  have hr5 : r ≤ 3 / 2 * R := by
    have := (abs_le.1 r1).2
    have h3 : 3 * κ + (3 * d + 2) * F.u ≤ 1 / 2 := by nlinarith
    nlinarith
  have hutiny := Verif.Lemmas.RoundedIsometry.tiny_le (F := F)
  have hu4 : F.u ≤ 1 / 4 := F.u_le
  have r2 := Verif.Lemmas.RoundedIsometry.rnd_err_tiny (F := F) r
  rw [abs_of_nonneg hr0] at r2
  have hq0 : 0 ≤ F.rnd r := Fmt.rnd_nonneg hr0
  have r3 := add_err (F := F) (Fmt.rnd_isFloat r) (Fmt.isFloat_neg one_float)
  rw [← sub_eq_add_neg] at r3
  have e2 : F.rnd (F.rnd r - 1) = lognormalF F exp m x := rfl
  rw [e2] at r3
  set q := F.rnd r
  set D := lognormalF F exp m x
  have r4 : |q - 1| ≤ q + 1 := by rw [abs_le]; constructor <;> linarith
  have hu8 : F.u ≤ 1 / 8 := by
    have : (2 * (d : ℝ) + 1) * F.u = 2 * (d * F.u) + F.u := by ring
    linarith
  have := final hu.le hu8 hR0.le (r3.trans (mul_le_mul_of_nonneg_left r4 hu.le)) (r2.trans (mul_le_mul_of_nonneg_left (by linarith) hu.le)) r1 hr5
  refine this.trans (le_of_eq ?_)
  ring

theorem sum_exp (xs : List ℝ) (h : xs ≠ []) : (xs.map fun x => Real.exp x / meanExp xs).sum = xs.length := by
  have hM := meanExp_pos h
  have hlen : (0 : ℝ) < xs.length := by exact_mod_cast List.length_pos_iff.2 h
  have e : ∀ (c : ℝ) (l : List ℝ), (l.map fun x => Real.exp x / c).sum = (l.map Real.exp).sum / c := by
    intro c l
    induction l with
    | nil => simp
    | cons a l ih => simp only [List.map_cons, List.sum_cons, ih]; ring
  rw [e, div_eq_iff hM.ne']
  unfold meanExp
  field_simp

/-- C137: contrasts have mean zero, up to rounding errors. -/
theorem C137_mean {exp : ℝ → ℝ} (hl : Lib F exp) {κ : ℝ} {xs : List ℝ} (ha : Accurate exp κ xs) (hne : xs ≠ []) {d : ℕ} {s : ℝ}
    (hs : IsSum F d (xs.map exp) s) (ht : F.tiny ≤ s / xs.length) (hκ : 0 ≤ κ) (hsmall : κ + (2 * d + 1) * F.u ≤ 1 / 8) :
    |(xs.map (lognormalF F exp (meanF F s xs.length))).sum / xs.length| ≤ 3 * κ + (3 * d + 9) * F.u := by
  have hlen : (0 : ℝ) < xs.length := by exact_mod_cast List.length_pos_iff.2 hne
  have key : ∀ (m ε η : ℝ) (c : ℝ) (l : List ℝ), (∀ x ∈ l, |1 + lognormalF F exp m x - Real.exp x / c| ≤ ε * (Real.exp x / c) + η) →
      |(l.map (lognormalF F exp m)).sum + l.length - (l.map fun x => Real.exp x / c).sum| ≤ ε * (l.map fun x => Real.exp x / c).sum + η * l.length := by
    intro m ε η c l
    induction l with
    | nil => simp
    | cons x l ih =>
      intro h
      have h1 := h x (by simp)
      have h2 := ih fun y hy => h y (List.mem_cons_of_mem _ hy)
      simp only [List.map_cons, List.sum_cons, List.length_cons]
      push_cast
      have := abs_add_le (1 + lognormalF F exp m x - Real.exp x / c) ((l.map (lognormalF F exp m)).sum + l.length - (l.map fun x => Real.exp x / c).sum)
      refine le_trans (le_of_eq ?_) (this.trans ((add_le_add h1 h2).trans (le_of_eq ?_)))
      · congr 1; ring
      · ring
  have := key _ _ _ _ xs fun x hx => C137_accuracy hl ha hs ht hκ hsmall hx
  rw [sum_exp xs hne, add_sub_cancel_right] at this
  rw [abs_div, abs_of_pos hlen, div_le_iff₀ hlen]
  refine this.trans (le_of_eq ?_)
  ring

/-! ### Empty cells, numbers of objects -/

/-- C137: nodes where the exponential is below a quarter of a rounding error of the mean get the density 0 exactly: no object is ever drawn there. -/
theorem C137_empty {exp : ℝ → ℝ} (hl : Lib F exp) {m x : ℝ} (hm : 0 < m) (hx : exp x ≤ F.u / 4 * m) (ht : F.tiny ≤ 1 / 8) (nbar dv : ℝ) :
    lognormalF F exp m x = -1 ∧ cellMeanF F nbar dv (lognormalF F exp m x) = 0 := by
  have h : lognormalF F exp m x = -1 := by
    have hu := Fmt.u_pos (F := F)
    have hu4 : F.u ≤ 1 / 4 := F.u_le
    have hr0 : 0 ≤ exp x / m := div_nonneg (hl.nonneg x) hm.le
    have hr : exp x / m ≤ F.u / 4 := (div_le_iff₀ hm).2 hx
    have r2 := Verif.Lemmas.RoundedIsometry.rnd_err_tiny (F := F) (exp x / m)
    rw [abs_of_nonneg hr0] at r2
    have hq0 : 0 ≤ F.rnd (exp x / m) := Fmt.rnd_nonneg hr0
    have hq : F.rnd (exp x / m) < F.u / 2 := by
      have := (abs_le.1 r2).2
      have := mul_le_mul_of_nonneg_left (by linarith : exp x / m + F.tiny ≤ 1 / 16 + 1 / 8) hu.le
      linarith
    unfold lognormalF
    set q := F.rnd (exp x / m)
    have e : q - 1 = -(1 - q) := by ring
    rw [e, Fmt.rnd_neg]
    congr 1
    rcases hq0.eq_or_lt with h0 | h0
    · rw [← h0, sub_zero]
      exact Fmt.rnd_exact one_float
    · have ha : |1 - q| = 1 - q := abs_of_pos (by linarith)
      have hz : (2 : ℝ) ^ ((-1 : ℤ) - ((F.p : ℤ) - 1)) = F.u := by
        rw [show (-1 : ℤ) - ((F.p : ℤ) - 1) = -(F.p : ℤ) by ring, zpow_neg, zpow_natCast, Fmt.u, one_div]
      have hpn : (2 : ℝ) ^ F.p * F.u = 1 := by
        unfold Fmt.u
        field_simp
      have hkk : F.emin ≤ -1 - ((F.p : ℤ) - 1) := by have := F.he; omega
      rw [Verif.Props.Rounded.rnd_eq (F := F) (k := -1) (n := 2 ^ F.p) (by rw [ha]; norm_num; linarith) (by rw [ha]; norm_num; linarith) hkk ?_, hz]
      · push_cast
        exact hpn
      · rw [hz]
        push_cast
        have e2 : (1 - q) / F.u - 2 ^ F.p = -(q / F.u) := by
          field_simp
          linarith
        rw [e2, abs_neg, abs_of_pos (div_pos h0 hu), div_lt_iff₀ hu]
        linarith
  refine ⟨h, ?_⟩
  unfold cellMeanF
  rw [h]
  simp [Fmt.rnd_zero]

/-- C137: the number drawn is that of the objects of the cell, up to half of the number of mantissas. -/
theorem C137_count {k : ℕ} (hk : 2 * k + 1 ≤ 2 ^ F.p) : countF F k = k := by
  have he : F.emin ≤ -1 := by have := F.he; have := F.hp; omega
  have h1 : F.IsFloat (k : ℝ) := ⟨k, 0, by rw [abs_of_nonneg (by positivity)]; exact_mod_cast (by omega : k ≤ 2 ^ F.p), by omega, by simp⟩
  have h2 : F.IsFloat (1 / 2 : ℝ) := ⟨1, -1, by rw [abs_one]; exact_mod_cast Nat.one_le_two_pow, he, by norm_num⟩
  have h3 : F.IsFloat ((k : ℝ) + 1 / 2) :=
    ⟨2 * k + 1, -1, by rw [abs_of_nonneg (by positivity)]; exact_mod_cast hk, he, by push_cast; rw [zpow_neg_one]; ring⟩
  unfold countF
  rw [Fmt.rnd_exact h1, Fmt.rnd_exact h2, Fmt.rnd_exact h3, Int.floor_eq_iff]
  constructor
  · push_cast; linarith
  · push_cast; linarith

/-- C137, the limit of C137_count is sharp: in single precision, 2 ^ 23 + 1 objects become 2 ^ 23 + 2. -/
theorem C137_count_limit : countF binary32 (2 ^ 23 + 1) = 2 ^ 23 + 2 := by
  have h1 : binary32.IsFloat (((2 ^ 23 + 1 : ℕ) : ℝ)) := ⟨2 ^ 23 + 1, 0, by norm_num [binary32], by norm_num [binary32], by norm_num⟩
  have h2 : binary32.IsFloat (1 / 2 : ℝ) := ⟨1, -1, by norm_num [binary32], by norm_num [binary32], by norm_num⟩
  unfold countF
  rw [Fmt.rnd_exact h1, Fmt.rnd_exact h2]
  have h3 : binary32.rnd (((2 ^ 23 + 1 : ℕ) : ℝ) + 1 / 2) = 2 ^ 23 + 2 := by
    have hx : (((2 ^ 23 + 1 : ℕ) : ℝ) + 1 / 2) = 16777219 / 2 := by norm_num
    have hp : (0 : ℝ) < |16777219 / 2| := by norm_num
    have hl : Int.log 2 |(16777219 / 2 : ℝ)| = 23 := by
      refine le_antisymm ?_ ?_
      · have : Int.log 2 |(16777219 / 2 : ℝ)| < 24 := (Int.lt_zpow_iff_log_lt (by norm_num) hp).1 (by norm_num [abs_of_pos])
        omega
      · exact (Int.zpow_le_iff_le_log (by norm_num) hp).1 (by norm_num [abs_of_pos])
    have he : binary32.expo (16777219 / 2) = 0 := by
      unfold Fmt.expo
      rw [hl]
      norm_num [binary32]
    have hf : ⌊(16777219 / 2 : ℝ)⌋ = 8388609 := by
      rw [Int.floor_eq_iff]
      constructor <;> norm_num
    have hr : Int.fract (16777219 / 2 : ℝ) = 1 / 2 := by
      unfold Int.fract
      rw [hf]
      norm_num
    rw [hx]
    unfold Fmt.rnd
    rw [he, zpow_zero, div_one, mul_one]
    unfold rne
    rw [hr, hf, if_neg (lt_irrefl _), if_neg (lt_irrefl _), if_neg (by decide)]
    norm_num
  rw [h3, Int.floor_eq_iff]
  constructor <;> norm_num

/-! ### Examples -/

/-- Exponentials rounded to the nearest. -/
theorem lib_rnd : Lib F fun x => F.rnd (Real.exp x) := ⟨fun _ => Fmt.rnd_isFloat _, fun x => Fmt.rnd_nonneg (Real.exp_pos x).le⟩

/-- C137, not vacuous: a mesh with two nodes, of exponentials 1 and 2. -/
example : let E := fun x => binary64.rnd (Real.exp x)
    Accurate E binary64.u [0, Real.log 2] ∧ IsSum binary64 1 ([0, Real.log 2].map E) 3 ∧ binary64.tiny ≤ 3 / ([0, Real.log 2].length : ℝ) ∧
      binary64.u + (2 * (1 : ℕ) + 1) * binary64.u ≤ 1 / 8 := by
  intro E
  have r1 : binary64.rnd 1 = 1 := Fmt.rnd_exact one_float
  have r2 : binary64.rnd 2 = 2 := Fmt.rnd_exact ⟨2, 0, by norm_num [binary64], by norm_num [binary64], by norm_num⟩
  have r3 : binary64.rnd 3 = 3 := Fmt.rnd_exact ⟨3, 0, by norm_num [binary64], by norm_num [binary64], by norm_num⟩
  have e1 : E 0 = 1 := by simp [E, r1]
  have e2 : E (Real.log 2) = 2 := by simp [E, Real.exp_log, r2]
  have hu : binary64.u = 1 / 2 ^ 53 := by norm_num [Fmt.u, binary64]
  refine ⟨?_, ?_, ?_, ?_⟩
  · intro x hx
    simp only [List.mem_cons, List.not_mem_nil, or_false] at hx
    rcases hx with rfl | rfl
    · rw [e1, Real.exp_zero, sub_self, abs_zero, hu]; norm_num
    · rw [e2, Real.exp_log (by norm_num), sub_self, abs_zero, hu]; norm_num
  · have h := IsSum.add (F := binary64) (.one 1) (.one 2)
    norm_num [r3] at h
    simpa [e1, e2] using h
  · have := Verif.Lemmas.RoundedIsometry.tiny_le (F := binary64)
    norm_num
    linarith
  · rw [hu]; norm_num

/-- C137: where the field is -40, with a mean of 1, there is no object in double precision. -/
example (nbar dv : ℝ) : cellMeanF binary64 nbar dv (lognormalF binary64 (fun x => binary64.rnd (Real.exp x)) 1 (-40)) = 0 := by
  refine (C137_empty lib_rnd one_pos ?_ ?_ nbar dv).2
  · have hu : binary64.u / 4 * 1 = 1 / 2 ^ 55 := by norm_num [Fmt.u, binary64]
    rw [hu]
    refine Fmt.rnd_le ⟨1, -55, by norm_num [binary64], by norm_num [binary64], by norm_num⟩ ?_
    rw [Real.exp_neg, ← one_div]
    refine one_div_le_one_div_of_le (by norm_num) ?_
    have : Real.exp 40 = Real.exp 1 ^ 40 := by rw [← Real.exp_nat_mul]; norm_num
    rw [this]
    have h := Real.exp_one_gt_d9
    calc (2 : ℝ) ^ 55 ≤ 2.7 ^ 40 := by norm_num
      _ ≤ _ := pow_le_pow_left₀ (by norm_num) (by linarith) 40
  · have : binary64.tiny = 2 ^ (-1022 : ℤ) := by unfold Fmt.tiny binary64; norm_num
    rw [this]
    calc (2 : ℝ) ^ (-1022 : ℤ) ≤ 2 ^ (-3 : ℤ) := zpow_le_zpow_right₀ (by norm_num) (by norm_num)
      _ = 1 / 8 := by norm_num

end Verif.Props.RoundedLognormal
