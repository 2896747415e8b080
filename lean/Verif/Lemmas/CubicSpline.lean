import Mathlib.Data.Real.Basic
import Mathlib.Algebra.Polynomial.Derivative
import Mathlib.LinearAlgebra.FiniteDimensional.Lemmas
import Mathlib.Tactic.Linarith
import Mathlib.Tactic.LinearCombination
import Mathlib.Tactic.FieldSimp
import Mathlib.Tactic.Positivity
import Mathlib.Tactic.ComputeDegree
import Verif.Spec.CubicSpline

/-!
# Existence and uniqueness of cubic splines without knots at the second and last but one nodes
-/

namespace Verif.Lemmas.CubicSpline

open Polynomial Verif.Spec

/-! ### The system of second derivatives -/

/-- Left-hand sides of the equations of the second derivatives `M` at nodes `x 0, …, x n`. -/
def system (x : ℕ → ℝ) (n : ℕ) (M : ℕ → ℝ) (i : ℕ) : ℝ :=
  if i = 0 then (x 2 - x 1) * (M 1 - M 0) - (x 1 - x 0) * (M 2 - M 1)
  else if i = n then (x n - x (n - 1)) * (M (n - 1) - M (n - 2)) - (x (n - 1) - x (n - 2)) * (M n - M (n - 1))
  else (x i - x (i - 1)) * M (i - 1) + 2 * (x (i + 1) - x (i - 1)) * M i + (x (i + 1) - x i) * M (i + 1)

theorem dominated {d a A B : ℝ} (h : d * A + a * B = 0) (hd : |a| < d) (hB : |B| ≤ |A|) : A = 0 := by
  by_contra hA
  have hA' : 0 < |A| := abs_pos.2 hA
  have hd0 : 0 < d := (abs_nonneg a).trans_lt hd
  have e : d * |A| = |a| * |B| := by
    have : |d * A| = |a * B| := by rw [show d * A = -(a * B) by linarith, abs_neg]
    rwa [abs_mul, abs_mul, abs_of_pos hd0] at this
  have h1 : |a| * |B| ≤ |a| * |A| := mul_le_mul_of_nonneg_left hB (abs_nonneg _)
  have h2 : |a| * |A| < d * |A| := mul_lt_mul_of_pos_right hd hA'
  linarith

theorem corner_dominated {h k : ℝ} (hh : 0 < h) (hk : 0 < k) :
    |k ^ 2 - h ^ 2| < 3 * h * k + 2 * k ^ 2 + h ^ 2 := by
  rw [abs_lt]
  constructor <;> nlinarith [mul_pos hh hk, mul_pos hh hh, mul_pos hk hk]

theorem system_injective {x : ℕ → ℝ} {n : ℕ} (hn : 3 ≤ n) (hx : ∀ i < n, x i < x (i + 1)) {M : ℕ → ℝ}
    (h : ∀ i ≤ n, system x n M i = 0) : ∀ i ≤ n, M i = 0 := by
  obtain ⟨j, hj, hmax⟩ := Finset.exists_max_image (Finset.Ico 1 n) (fun i => |M i|) ⟨1, by simp; omega⟩
  rw [Finset.mem_Ico] at hj
  have hmax : ∀ i, 1 ≤ i → i < n → |M i| ≤ |M j| := fun i h1 h2 => hmax i (Finset.mem_Ico.2 ⟨h1, h2⟩)
  have r0 : (x 2 - x 1) * (M 1 - M 0) - (x 1 - x 0) * (M 2 - M 1) = 0 := by simpa [system] using h 0 (by omega)
  have rn : (x n - x (n - 1)) * (M (n - 1) - M (n - 2)) - (x (n - 1) - x (n - 2)) * (M n - M (n - 1)) = 0 := by
    have := h n le_rfl
    rw [system, if_neg (by omega), if_pos rfl] at this
    exact this
  have rj : (x j - x (j - 1)) * M (j - 1) + 2 * (x (j + 1) - x (j - 1)) * M j + (x (j + 1) - x j) * M (j + 1) = 0 := by
    have := h j (by omega)
    rw [system, if_neg (by omega), if_neg (by omega)] at this
    exact this
  have p0 := hx (j - 1) (by omega)
  rw [Nat.sub_add_cancel hj.1] at p0
  have p1 := hx j hj.2
  have hMj : M j = 0 := by
    by_cases j1 : j = 1
    · subst j1
      simp only [Nat.sub_self, Nat.reduceAdd] at rj p0 p1
      refine dominated (d := 3 * (x 1 - x 0) * (x 2 - x 1) + 2 * (x 2 - x 1) ^ 2 + (x 1 - x 0) ^ 2)
        (a := (x 2 - x 1) ^ 2 - (x 1 - x 0) ^ 2) (B := M 2) ?_ (corner_dominated (by linarith) (by linarith))
        (hmax 2 (by omega) (by omega))
      linear_combination (x 2 - x 1) * rj + (x 1 - x 0) * r0
    · by_cases jn : j = n - 1
      · have e1 : n - 1 + 1 = n := by omega
        have e2 : n - 1 - 1 = n - 2 := by omega
        rw [jn, e1, e2] at rj
        rw [jn, e2] at p0
        rw [jn, e1] at p1
        have := hmax (n - 2) (by omega) (by omega)
        rw [jn] at this ⊢
        refine dominated (d := 3 * (x n - x (n - 1)) * (x (n - 1) - x (n - 2)) + 2 * (x (n - 1) - x (n - 2)) ^ 2 +
          (x n - x (n - 1)) ^ 2) (a := (x (n - 1) - x (n - 2)) ^ 2 - (x n - x (n - 1)) ^ 2) (B := M (n - 2)) ?_
          (corner_dominated (by linarith) (by linarith)) this
        linear_combination (x (n - 1) - x (n - 2)) * rj + (x n - x (n - 1)) * rn
      · by_contra hA
        have hA' : 0 < |M j| := abs_pos.2 hA
        have m1 := hmax (j - 1) (by omega) (by omega)
        have m2 := hmax (j + 1) (by omega) (by omega)
        have e : 2 * (x (j + 1) - x (j - 1)) * |M j| ≤ (x j - x (j - 1)) * |M (j - 1)| + (x (j + 1) - x j) * |M (j + 1)| := by
          have e1 : 2 * (x (j + 1) - x (j - 1)) * |M j| = |(x j - x (j - 1)) * M (j - 1) + (x (j + 1) - x j) * M (j + 1)| := by
            rw [show (x j - x (j - 1)) * M (j - 1) + (x (j + 1) - x j) * M (j + 1) = -(2 * (x (j + 1) - x (j - 1)) * M j) by linarith,
              abs_neg, abs_mul, abs_of_pos (by linarith : 0 < 2 * (x (j + 1) - x (j - 1)))]
          rw [e1]
          refine (abs_add_le _ _).trans (le_of_eq ?_)
          rw [abs_mul, abs_mul, abs_of_pos (by linarith : 0 < x j - x (j - 1)), abs_of_pos (by linarith : 0 < x (j + 1) - x j)]
        have q1 : (x j - x (j - 1)) * |M (j - 1)| ≤ (x j - x (j - 1)) * |M j| := mul_le_mul_of_nonneg_left m1 (by linarith)
        have q2 : (x (j + 1) - x j) * |M (j + 1)| ≤ (x (j + 1) - x j) * |M j| := mul_le_mul_of_nonneg_left m2 (by linarith)
        nlinarith
  have inner : ∀ i, 1 ≤ i → i < n → M i = 0 := by
    intro i h1 h2
    have := hmax i h1 h2
    rw [hMj, abs_zero] at this
    exact abs_nonpos_iff.1 this
  intro i hi
  have h01 := hx 0 (by omega)
  have h12 := hx 1 (by omega)
  rcases Nat.eq_zero_or_pos i with rfl | h1
  · rw [inner 1 (by omega) (by omega), inner 2 (by omega) (by omega)] at r0
    simp only [zero_sub, sub_self, mul_zero, sub_zero, mul_neg, neg_eq_zero, mul_eq_zero] at r0
    rcases r0 with r0 | r0
    · simp at h12; linarith
    · exact r0
  · rcases hi.lt_or_eq with h2 | rfl
    · exact inner i h1 h2
    · rw [inner (i - 1) (by omega) (by omega), inner (i - 2) (by omega) (by omega)] at rn
      have hl := hx (i - 2) (by omega)
      rw [show i - 2 + 1 = i - 1 by omega] at hl
      simp only [sub_self, mul_zero, sub_zero, zero_sub, neg_eq_zero, mul_eq_zero] at rn
      rcases rn with rn | rn
      · linarith
      · exact rn

theorem system_surjective {x : ℕ → ℝ} {n : ℕ} (hn : 3 ≤ n) (hx : ∀ i < n, x i < x (i + 1)) (r : ℕ → ℝ) :
    ∃ M : ℕ → ℝ, ∀ i ≤ n, system x n M i = r i := by
  let ext : (Fin (n + 1) → ℝ) → ℕ → ℝ := fun M i => if h : i < n + 1 then M ⟨i, h⟩ else 0
  let T : (Fin (n + 1) → ℝ) →ₗ[ℝ] (Fin (n + 1) → ℝ) :=
    { toFun := fun M i => system x n (ext M) i
      map_add' := by
        intro M N
        have e : ∀ i, ext (M + N) i = ext M i + ext N i := by
          intro i
          simp only [ext]
          split <;> simp
        funext i
        simp only [Pi.add_apply, system, e]
        split_ifs <;> ring
      map_smul' := by
        intro c M
        have e : ∀ i, ext (c • M) i = c * ext M i := by
          intro i
          simp only [ext]
          split <;> simp
        funext i
        simp only [Pi.smul_apply, smul_eq_mul, RingHom.id_apply, system, e]
        split_ifs <;> ring }
  have hinj : Function.Injective T := by
    rw [injective_iff_map_eq_zero]
    intro M hM
    have := system_injective hn hx (M := ext M) fun i hi => by
      have := congrFun hM ⟨i, by omega⟩
      exact this
    funext i
    have h := this i (by omega)
    have hi : (i : ℕ) ≤ n := by omega
    simpa [ext, hi] using h
  obtain ⟨M, hM⟩ := LinearMap.injective_iff_surjective.1 hinj fun i => r i
  exact ⟨ext M, fun i hi => congrFun hM ⟨i, by omega⟩⟩

/-! ### Cubic polynomials on an interval -/

theorem cubic_form {p : ℝ[X]} (hp : p.natDegree ≤ 3) : ∃ a b c d : ℝ, p = C a + C b * X + C c * X ^ 2 + C d * X ^ 3 := by
  refine ⟨p.coeff 0, p.coeff 1, p.coeff 2, p.coeff 3, ?_⟩
  conv_lhs => rw [p.as_sum_range' 4 (by omega)]
  simp [Finset.sum_range_succ, ← C_mul_X_pow_eq_monomial]

/-- First derivatives at both ends, from the values and second derivatives. -/
theorem cubic_ends {p : ℝ[X]} (hp : p.natDegree ≤ 3) (a b : ℝ) :
    (b - a) * p.derivative.eval a = p.eval b - p.eval a - (b - a) ^ 2 * (2 * p.derivative.derivative.eval a + p.derivative.derivative.eval b) / 6 ∧
    (b - a) * p.derivative.eval b = p.eval b - p.eval a + (b - a) ^ 2 * (p.derivative.derivative.eval a + 2 * p.derivative.derivative.eval b) / 6 := by
  obtain ⟨c0, c1, c2, c3, rfl⟩ := cubic_form hp
  constructor <;> simp <;> ring

/-- A cubic polynomial is determined by its values and second derivatives at both ends. -/
theorem cubic_zero {p : ℝ[X]} (hp : p.natDegree ≤ 3) {a b : ℝ} (hab : a < b) (h1 : p.eval a = 0) (h2 : p.eval b = 0)
    (h3 : p.derivative.derivative.eval a = 0) (h4 : p.derivative.derivative.eval b = 0) : p = 0 := by
  obtain ⟨c0, c1, c2, c3, rfl⟩ := cubic_form hp
  simp at h1 h2 h3 h4
  have hne : b - a ≠ 0 := by linarith
  have e3 : c3 = 0 := by
    have : (b - a) * c3 = 0 := by linear_combination (1 / 6) * h4 - (1 / 6) * h3
    simpa [hne] using this
  subst e3
  have e2 : c2 = 0 := by linear_combination (1 / 2) * h3
  subst e2
  have e1 : c1 = 0 := by
    have : (b - a) * c1 = 0 := by linear_combination h2 - h1
    simpa [hne] using this
  subst e1
  have e0 : c0 = 0 := by linear_combination h1
  subst e0
  simp

/-- Slope of the second derivative. -/
theorem cubic_third {p : ℝ[X]} (hp : p.natDegree ≤ 3) (a b c : ℝ) :
    (c - b) * (p.derivative.derivative.eval b - p.derivative.derivative.eval a) =
      (b - a) * (p.derivative.derivative.eval c - p.derivative.derivative.eval b) := by
  obtain ⟨c0, c1, c2, c3, rfl⟩ := cubic_form hp
  simp
  ring

theorem cubic_sub {p q : ℝ[X]} (hp : p.natDegree ≤ 3) (hq : q.natDegree ≤ 3) : (p - q).natDegree ≤ 3 :=
  (natDegree_sub_le p q).trans (max_le hp hq)

/-! ### Splines -/

/-- Second derivatives at nodes. -/
noncomputable def second (x : ℕ → ℝ) (n : ℕ) (p : ℕ → ℝ[X]) (i : ℕ) : ℝ :=
  if i < n then (p i).derivative.derivative.eval (x i) else (p (n - 1)).derivative.derivative.eval (x n)

theorem second_right {x y : ℕ → ℝ} {n : ℕ} {p : ℕ → ℝ[X]} (h : IsCubicSpline x y n p) {i : ℕ} (hi : i < n) :
    (p i).derivative.derivative.eval (x (i + 1)) = second x n p (i + 1) := by
  unfold second
  by_cases h1 : i + 1 < n
  · rw [if_pos h1]
    exact (h.smooth i h1).2
  · have : i + 1 = n := by omega
    rw [if_neg h1, ← this]
    simp

/-- The equations of the second derivatives. -/
theorem second_equations {x y : ℕ → ℝ} {n : ℕ} (hn : 3 ≤ n) (hx : ∀ i < n, x i < x (i + 1)) {p : ℕ → ℝ[X]}
    (h : IsCubicSpline x y n p) : ∀ i ≤ n, system x n (second x n p) i = if i = 0 ∨ i = n then 0 else
      6 * ((y (i + 1) - y i) / (x (i + 1) - x i) - (y i - y (i - 1)) / (x i - x (i - 1))) := by
  intro i hi
  unfold system
  by_cases h0 : i = 0
  · rw [if_pos h0, if_pos (Or.inl h0)]
    have e := h.first
    have t := cubic_third (h.degree 0 (by omega)) (x 0) (x 1) (x 2)
    have s0 : second x n p 0 = (p 0).derivative.derivative.eval (x 0) := by simp [second, show 0 < n by omega]
    have s1 := second_right h (i := 0) (by omega)
    have s2 := second_right h (i := 1) (by omega)
    rw [← e] at s2
    norm_num at s1 s2
    rw [s0, ← s1, ← s2]
    linear_combination t
  · rw [if_neg h0]
    by_cases hi' : i = n
    · rw [if_pos hi', if_pos (Or.inr hi')]
      have e := h.last
      have t := cubic_third (h.degree (n - 1) (by omega)) (x (n - 2)) (x (n - 1)) (x n)
      have s0 : second x n p (n - 2) = (p (n - 2)).derivative.derivative.eval (x (n - 2)) := by simp [second, show n - 2 < n by omega]
      have s1 : second x n p (n - 1) = (p (n - 1)).derivative.derivative.eval (x (n - 1)) := by simp [second, show n - 1 < n by omega]
      have s2 : second x n p n = (p (n - 1)).derivative.derivative.eval (x n) := by simp [second]
      rw [e] at s0
      rw [s0, s1, s2]
      linear_combination t
    · rw [if_neg hi', if_neg (by omega)]
      have hl : i - 1 < n := by omega
      have hr : i < n := by omega
      have e1 := (cubic_ends (h.degree (i - 1) hl) (x (i - 1)) (x i)).2
      have e2 := (cubic_ends (h.degree i hr) (x i) (x (i + 1))).1
      have sm := (h.smooth (i - 1) (by omega)).1
      have s0 : second x n p (i - 1) = (p (i - 1)).derivative.derivative.eval (x (i - 1)) := by simp [second, hl]
      have s1 := second_right h hl
      have s2 : second x n p i = (p i).derivative.derivative.eval (x i) := by simp [second, hr]
      have s3 := second_right h hr
      have v1 := (h.through (i - 1) hl)
      have v2 := (h.through i hr)
      have q1 := hx (i - 1) hl
      have q2 := hx i hr
      rw [Nat.sub_add_cancel (by omega : 1 ≤ i)] at sm s1 v1 q1
      rw [v1.1, v1.2, ← s0, s1] at e1
      rw [v2.1, v2.2, ← s2, s3] at e2
      rw [← sm] at e2
      have n1 : x i - x (i - 1) ≠ 0 := by linarith
      have n2 : x (i + 1) - x i ≠ 0 := by linarith
      set D := (p (i - 1)).derivative.eval (x i)
      have f1 : D = (y i - y (i - 1)) / (x i - x (i - 1)) + (x i - x (i - 1)) * (second x n p (i - 1) + 2 * second x n p i) / 6 := by
        field_simp
        linear_combination 6 * e1
      have f2 : D = (y (i + 1) - y i) / (x (i + 1) - x i) - (x (i + 1) - x i) * (2 * second x n p i + second x n p (i + 1)) / 6 := by
        field_simp
        linear_combination 6 * e2
      linear_combination 6 * (f2 - f1)

theorem second_system {x y : ℕ → ℝ} {n : ℕ} (hn : 3 ≤ n) (hx : ∀ i < n, x i < x (i + 1)) {p : ℕ → ℝ[X]}
    (h : IsCubicSpline x y n p) (hy : ∀ i ≤ n, y i = 0) : ∀ i ≤ n, system x n (second x n p) i = 0 := by
  intro i hi
  rw [second_equations hn hx h i hi]
  split_ifs with h0
  · rfl
  · rw [hy i hi, hy (i + 1) (by omega), hy (i - 1) (by omega)]
    simp

theorem IsCubicSpline.sub {x y y' : ℕ → ℝ} {n : ℕ} {p q : ℕ → ℝ[X]} (h : IsCubicSpline x y n p) (h' : IsCubicSpline x y' n q) :
    IsCubicSpline x (fun i => y i - y' i) n (fun i => p i - q i) where
  degree i hi := cubic_sub (h.degree i hi) (h'.degree i hi)
  through i hi := by simp [(h.through i hi).1, (h.through i hi).2, (h'.through i hi).1, (h'.through i hi).2]
  smooth i hi := by simp [(h.smooth i hi).1, (h.smooth i hi).2, (h'.smooth i hi).1, (h'.smooth i hi).2]
  first := by rw [h.first, h'.first]
  last := by rw [h.last, h'.last]

/-- At most one cubic spline goes through the nodes. -/
theorem unique {x y : ℕ → ℝ} {n : ℕ} (hn : 3 ≤ n) (hx : ∀ i < n, x i < x (i + 1)) {p q : ℕ → ℝ[X]}
    (h : IsCubicSpline x y n p) (h' : IsCubicSpline x y n q) : ∀ i < n, p i = q i := by
  intro i hi
  have hd := IsCubicSpline.sub h h'
  have hs := system_injective hn hx (second_system hn hx hd (by simp))
  have h0 : ((fun i => p i - q i) i).derivative.derivative.eval (x i) = 0 := by
    have := hs i hi.le
    unfold second at this
    rwa [if_pos hi] at this
  have h1 := second_right hd hi
  rw [hs (i + 1) hi] at h1
  have := cubic_zero (hd.degree i hi) (hx i hi) (by rw [(hd.through i hi).1]; simp) (by rw [(hd.through i hi).2]; simp) h0 h1
  exact sub_eq_zero.1 this

/-- The cubic polynomial with given values and second derivatives at both ends. -/
noncomputable def piece (a b ya yb Ma Mb : ℝ) : ℝ[X] :=
  C ya + C ((yb - ya) / (b - a) - (b - a) * (2 * Ma + Mb) / 6) * (X - C a) + C (Ma / 2) * (X - C a) ^ 2 +
    C ((Mb - Ma) / (6 * (b - a))) * (X - C a) ^ 3

theorem piece_degree (a b ya yb Ma Mb : ℝ) : (piece a b ya yb Ma Mb).natDegree ≤ 3 := by
  unfold piece
  compute_degree

theorem piece_eval {a b ya yb Ma Mb : ℝ} (hab : a < b) : (piece a b ya yb Ma Mb).eval a = ya ∧ (piece a b ya yb Ma Mb).eval b = yb ∧
    (piece a b ya yb Ma Mb).derivative.derivative.eval a = Ma ∧ (piece a b ya yb Ma Mb).derivative.derivative.eval b = Mb ∧
    (piece a b ya yb Ma Mb).derivative.eval a = (yb - ya) / (b - a) - (b - a) * (2 * Ma + Mb) / 6 ∧
    (piece a b ya yb Ma Mb).derivative.eval b = (yb - ya) / (b - a) + (b - a) * (Ma + 2 * Mb) / 6 := by
  have hne : b - a ≠ 0 := by linarith
  unfold piece
  refine ⟨?_, ?_, ?_, ?_, ?_, ?_⟩ <;> simp [derivative_X_sub_C_pow] <;> field_simp <;> ring

/-- There is a cubic spline through the nodes. -/
theorem exists_spline {x : ℕ → ℝ} {n : ℕ} (hn : 3 ≤ n) (hx : ∀ i < n, x i < x (i + 1)) (y : ℕ → ℝ) : ∃ p, IsCubicSpline x y n p := by
  obtain ⟨M, hM⟩ := system_surjective hn hx fun i => if i = 0 ∨ i = n then 0 else
    6 * ((y (i + 1) - y i) / (x (i + 1) - x i) - (y i - y (i - 1)) / (x i - x (i - 1)))
  let p : ℕ → ℝ[X] := fun i => piece (x i) (x (i + 1)) (y i) (y (i + 1)) (M i) (M (i + 1))
  have hv := fun i (hi : i < n) => piece_eval (ya := y i) (yb := y (i + 1)) (Ma := M i) (Mb := M (i + 1)) (hx i hi)
  have smooth : ∀ i, i + 1 < n → (p i).derivative.eval (x (i + 1)) = (p (i + 1)).derivative.eval (x (i + 1)) ∧
      (p i).derivative.derivative.eval (x (i + 1)) = (p (i + 1)).derivative.derivative.eval (x (i + 1)) := by
    intro i hi
    obtain ⟨-, -, -, a4, -, a6⟩ := hv i (by omega)
    obtain ⟨-, -, b3, -, b5, -⟩ := hv (i + 1) hi
    refine ⟨?_, a4.trans b3.symm⟩
    change eval _ (derivative (piece _ _ _ _ _ _)) = eval _ (derivative (piece _ _ _ _ _ _))
    rw [a6, b5]
    have := hM (i + 1) hi.le
    rw [system, if_neg (by omega), if_neg (by omega), if_neg (by omega)] at this
    simp only [Nat.add_sub_cancel] at this
    linear_combination (1 / 6) * this
  have agree : ∀ i, i + 1 < n → (x (i + 2) - x (i + 1)) * (M (i + 1) - M i) = (x (i + 1) - x i) * (M (i + 2) - M (i + 1)) →
      p i = p (i + 1) := by
    intro i hi hm
    have h1 := hx i (by omega)
    have h2 := hx (i + 1) hi
    have d := smooth i hi
    obtain ⟨a1, a2, a3, a4, a5, a6⟩ := hv i (by omega)
    obtain ⟨b1, b2, b3, b4, b5, b6⟩ := hv (i + 1) hi
    have hdeg : (p i - p (i + 1)).natDegree ≤ 3 := cubic_sub (piece_degree _ _ _ _ _ _) (piece_degree _ _ _ _ _ _)
    have t1 := cubic_third (p := p i) (piece_degree _ _ _ _ _ _) (x i) (x (i + 1)) (x (i + 2))
    have c4 : (p i - p (i + 1)).derivative.derivative.eval (x (i + 2)) = 0 := by
      have : (p i).derivative.derivative.eval (x (i + 2)) = M (i + 2) := by
        have e3 : (p i).derivative.derivative.eval (x i) = M i := a3
        have e4 : (p i).derivative.derivative.eval (x (i + 1)) = M (i + 1) := a4
        rw [e3, e4, hm] at t1
        have hne : x (i + 1) - x i ≠ 0 := by linarith
        have := mul_left_cancel₀ hne t1
        linarith
      have e4 : (p (i + 1)).derivative.derivative.eval (x (i + 2)) = M (i + 2) := b4
      simp only [derivative_sub, eval_sub, this, e4, sub_self]
    have c3 : (p i - p (i + 1)).derivative.derivative.eval (x (i + 1)) = 0 := by
      simp only [derivative_sub, eval_sub, d.2, sub_self]
    have c1 : (p i - p (i + 1)).eval (x (i + 1)) = 0 := by
      have e1 : (p i).eval (x (i + 1)) = y (i + 1) := a2
      have e2 : (p (i + 1)).eval (x (i + 1)) = y (i + 1) := b1
      simp only [eval_sub, e1, e2, sub_self]
    have cd : (p i - p (i + 1)).derivative.eval (x (i + 1)) = 0 := by
      simp only [derivative_sub, eval_sub, d.1, sub_self]
    have c2 : (p i - p (i + 1)).eval (x (i + 2)) = 0 := by
      have := (cubic_ends hdeg (x (i + 1)) (x (i + 2))).1
      rw [cd, c1, c3, c4] at this
      linarith
    exact sub_eq_zero.1 (cubic_zero hdeg h2 c1 c2 c3 c4)
  refine ⟨p, fun i _ => piece_degree _ _ _ _ _ _, fun i hi => ⟨(hv i hi).1, (hv i hi).2.1⟩, smooth, ?_, ?_⟩
  · refine agree 0 (by omega) ?_
    have := hM 0 (by omega)
    simp only [system, if_true, true_or] at this
    norm_num
    linarith
  · have e1 : n - 2 + 1 = n - 1 := by omega
    have e2 : n - 2 + 2 = n := by omega
    have := agree (n - 2) (by omega)
    rw [e1, e2] at this
    refine this ?_
    have := hM n le_rfl
    rw [system, if_neg (by omega), if_pos rfl, if_pos (Or.inr rfl)] at this
    linarith

/-- A cubic polynomial is its own spline. -/
theorem polynomial_spline {x y : ℕ → ℝ} {n : ℕ} {q : ℝ[X]} (hq : q.natDegree ≤ 3) (h : ∀ i ≤ n, y i = q.eval (x i)) :
    IsCubicSpline x y n fun _ => q where
  degree _ _ := hq
  through i hi := ⟨(h i hi.le).symm, (h (i + 1) hi).symm⟩
  smooth _ _ := ⟨rfl, rfl⟩
  first := rfl
  last := rfl

/-! ### Distance to the segments -/

/-- Distance to the segment between both ends, from the second derivatives there. -/
theorem cubic_gap {p : ℝ[X]} (hp : p.natDegree ≤ 3) {a b : ℝ} (hab : a < b) (z : ℝ) :
    p.eval z - (p.eval a + (p.eval b - p.eval a) * (z - a) / (b - a)) =
      -((z - a) * (b - z) / 6 * ((1 + (b - z) / (b - a)) * p.derivative.derivative.eval a +
        (1 + (z - a) / (b - a)) * p.derivative.derivative.eval b)) := by
  have hne : b - a ≠ 0 := by linarith
  obtain ⟨c0, c1, c2, c3, rfl⟩ := cubic_form hp
  simp
  field_simp
  ring

theorem cubic_gap_le {p : ℝ[X]} (hp : p.natDegree ≤ 3) {a b B : ℝ} (hab : a < b) (ha : |p.derivative.derivative.eval a| ≤ B)
    (hb : |p.derivative.derivative.eval b| ≤ B) {z : ℝ} (h1 : a ≤ z) (h2 : z ≤ b) :
    |p.eval z - (p.eval a + (p.eval b - p.eval a) * (z - a) / (b - a))| ≤ (b - a) ^ 2 / 8 * B := by
  have hpos : 0 < b - a := by linarith
  rw [cubic_gap hp hab, abs_neg, abs_mul]
  have hw : 0 ≤ (z - a) * (b - z) / 6 := div_nonneg (mul_nonneg (by linarith) (by linarith)) (by norm_num)
  have hB : 0 ≤ B := (abs_nonneg _).trans ha
  have u1 : 0 ≤ (b - z) / (b - a) := div_nonneg (by linarith) hpos.le
  have u2 : 0 ≤ (z - a) / (b - a) := div_nonneg (by linarith) hpos.le
  have u3 : (b - z) / (b - a) + (z - a) / (b - a) = 1 := by field_simp; ring
  have hs : |(1 + (b - z) / (b - a)) * p.derivative.derivative.eval a + (1 + (z - a) / (b - a)) * p.derivative.derivative.eval b| ≤ 3 * B := by
    refine (abs_add_le _ _).trans ?_
    rw [abs_mul, abs_mul, abs_of_nonneg (by linarith : 0 ≤ 1 + (b - z) / (b - a)), abs_of_nonneg (by linarith : 0 ≤ 1 + (z - a) / (b - a))]
    have k1 := mul_le_mul_of_nonneg_left ha (by linarith : 0 ≤ 1 + (b - z) / (b - a))
    have k2 := mul_le_mul_of_nonneg_left hb (by linarith : 0 ≤ 1 + (z - a) / (b - a))
    nlinarith
  rw [abs_of_nonneg hw]
  have hq : (z - a) * (b - z) / 6 ≤ (b - a) ^ 2 / 24 := by nlinarith [sq_nonneg ((z - a) - (b - z))]
  calc _ ≤ (b - a) ^ 2 / 24 * (3 * B) := mul_le_mul hq hs (abs_nonneg _) (by positivity)
    _ = _ := by ring

/-- Nodes at equal distances: second derivatives are bounded by second differences. -/
theorem second_le {x y : ℕ → ℝ} {n : ℕ} (hn : 3 ≤ n) {d : ℝ} (hd : 0 < d) (hx : ∀ i < n, x (i + 1) = x i + d) {p : ℕ → ℝ[X]}
    (h : IsCubicSpline x y n p) {D : ℝ} (hD : ∀ i, i + 1 < n → |y (i + 2) - 2 * y (i + 1) + y i| ≤ D) :
    ∀ i ≤ n, d ^ 2 * |second x n p i| ≤ 5 * D := by
  have hlt : ∀ i < n, x i < x (i + 1) := fun i hi => by rw [hx i hi]; linarith
  have eqs := second_equations hn hlt h
  set M := second x n p
  have hD0 : 0 ≤ D := (abs_nonneg _).trans (hD 0 (by omega))
  -- inner equations
  have inner : ∀ i, 1 ≤ i → i < n → d ^ 2 * (M (i - 1) + 4 * M i + M (i + 1)) = 6 * (y (i + 1) - 2 * y i + y (i - 1)) := by
    intro i h1 h2
    have := eqs i h2.le
    rw [system, if_neg (by omega), if_neg (by omega), if_neg (by omega)] at this
    have a1 := hx (i - 1) (by omega)
    rw [Nat.sub_add_cancel h1] at a1
    have a2 := hx i h2
    rw [show x (i + 1) - x (i - 1) = 2 * d by linarith, show x (i + 1) - x i = d by linarith, show x i - x (i - 1) = d by linarith] at this
    field_simp at this
    linear_combination this
  have r0 : M 0 = 2 * M 1 - M 2 := by
    have := eqs 0 (by omega)
    rw [system, if_pos rfl, if_pos (Or.inl rfl)] at this
    have a1 := hx 0 (by omega)
    have a2 := hx 1 (by omega)
    norm_num at a1 a2
    rw [show x 2 - x 1 = d by linarith, show x 1 - x 0 = d by linarith] at this
    have : d * (M 0 - (2 * M 1 - M 2)) = 0 := by linear_combination -this
    rcases mul_eq_zero.1 this with h | h
    · linarith
    · linarith
  have rn : M n = 2 * M (n - 1) - M (n - 2) := by
    have := eqs n le_rfl
    rw [system, if_neg (by omega), if_pos rfl, if_pos (Or.inr rfl)] at this
    have a1 := hx (n - 2) (by omega)
    have a2 := hx (n - 1) (by omega)
    rw [show n - 2 + 1 = n - 1 by omega] at a1
    rw [show n - 1 + 1 = n by omega] at a2
    rw [show x n - x (n - 1) = d by linarith, show x (n - 1) - x (n - 2) = d by linarith] at this
    have : d * (M n - (2 * M (n - 1) - M (n - 2))) = 0 := by linear_combination -this
    rcases mul_eq_zero.1 this with h | h
    · linarith
    · linarith
  have hdd : 0 < d ^ 2 := by positivity
  have hD' : ∀ i, 1 ≤ i → i < n → |y (i + 1) - 2 * y i + y (i - 1)| ≤ D := by
    intro i h1 h2
    have := hD (i - 1) (by omega)
    rwa [show i - 1 + 2 = i + 1 by omega, show i - 1 + 1 = i by omega] at this
  have m1 : d ^ 2 * |M 1| ≤ D := by
    have e := inner 1 le_rfl (by omega)
    have b := hD' 1 le_rfl (by omega)
    simp only [Nat.sub_self, Nat.reduceAdd] at e b
    rw [r0] at e
    rw [← abs_of_pos hdd, ← abs_mul, show d ^ 2 * M 1 = y 2 - 2 * y 1 + y 0 by linear_combination (1 / 6) * e]
    exact b
  have mn : d ^ 2 * |M (n - 1)| ≤ D := by
    have e := inner (n - 1) (by omega) (by omega)
    have b := hD' (n - 1) (by omega) (by omega)
    rw [show n - 1 + 1 = n by omega, show n - 1 - 1 = n - 2 by omega] at e b
    rw [rn] at e
    rw [← abs_of_pos hdd, ← abs_mul, show d ^ 2 * M (n - 1) = y n - 2 * y (n - 1) + y (n - 2) by linear_combination (1 / 6) * e]
    exact b
  obtain ⟨j, hj, hmax⟩ := Finset.exists_max_image (Finset.Ico 1 n) (fun i => |M i|) ⟨1, by simp; omega⟩
  rw [Finset.mem_Ico] at hj
  have hmax : ∀ i, 1 ≤ i → i < n → |M i| ≤ |M j| := fun i h1 h2 => hmax i (Finset.mem_Ico.2 ⟨h1, h2⟩)
  have hA : d ^ 2 * |M j| ≤ 3 * D := by
    by_cases j1 : j = 1
    · rw [j1]; linarith
    · by_cases jn : j = n - 1
      · rw [jn]; linarith
      · have e := inner j hj.1 hj.2
        have b := hD' j hj.1 hj.2
        have q1 := hmax (j - 1) (by omega) (by omega)
        have q2 := hmax (j + 1) (by omega) (by omega)
        have : d ^ 2 * (4 * |M j|) ≤ 6 * D + d ^ 2 * |M (j - 1)| + d ^ 2 * |M (j + 1)| := by
          have k : 4 * (d ^ 2 * M j) = 6 * (y (j + 1) - 2 * y j + y (j - 1)) - d ^ 2 * M (j - 1) - d ^ 2 * M (j + 1) := by
            linear_combination e
          have k' := congrArg abs k
          rw [abs_mul, abs_mul, abs_of_pos hdd, abs_of_pos (by norm_num : (0 : ℝ) < 4)] at k'
          have t1 := abs_sub (6 * (y (j + 1) - 2 * y j + y (j - 1)) - d ^ 2 * M (j - 1)) (d ^ 2 * M (j + 1))
          have t2 := abs_sub (6 * (y (j + 1) - 2 * y j + y (j - 1))) (d ^ 2 * M (j - 1))
          rw [abs_mul, abs_of_pos hdd] at t1
          rw [abs_mul, abs_mul, abs_of_pos hdd, abs_of_pos (by norm_num : (0 : ℝ) < 6)] at t2
          linarith
        nlinarith
  have all : ∀ i, 1 ≤ i → i < n → d ^ 2 * |M i| ≤ 3 * D := fun i h1 h2 =>
    (mul_le_mul_of_nonneg_left (hmax i h1 h2) hdd.le).trans hA
  intro i hi
  rcases Nat.eq_zero_or_pos i with rfl | h1
  · have t := abs_sub (2 * M 1) (M 2)
    rw [← r0, abs_mul, abs_of_pos (by norm_num : (0 : ℝ) < 2)] at t
    have := all 2 (by omega) (by omega)
    nlinarith
  · rcases hi.lt_or_eq with h2 | rfl
    · have := all i h1 h2; linarith
    · have t := abs_sub (2 * M (i - 1)) (M (i - 2))
      rw [← rn, abs_mul, abs_of_pos (by norm_num : (0 : ℝ) < 2)] at t
      have := all (i - 2) (by omega) (by omega)
      nlinarith

/-- Nodes at equal distances: distance of the spline to the segments. -/
theorem gap_le {x y : ℕ → ℝ} {n : ℕ} (hn : 3 ≤ n) {d : ℝ} (hd : 0 < d) (hx : ∀ i < n, x (i + 1) = x i + d) {p : ℕ → ℝ[X]}
    (h : IsCubicSpline x y n p) {D : ℝ} (hD : ∀ i, i + 1 < n → |y (i + 2) - 2 * y (i + 1) + y i| ≤ D) {i : ℕ} (hi : i < n) {z : ℝ}
    (h1 : x i ≤ z) (h2 : z ≤ x (i + 1)) :
    |(p i).eval z - (y i + (y (i + 1) - y i) * (z - x i) / (x (i + 1) - x i))| ≤ 5 / 8 * D := by
  have hdd : 0 < d ^ 2 := by positivity
  have hM := second_le hn hd hx h hD
  have e0 : (p i).derivative.derivative.eval (x i) = second x n p i := by simp [second, hi]
  have e1 := second_right h hi
  have b0 : |(p i).derivative.derivative.eval (x i)| ≤ 5 * D / d ^ 2 := by
    rw [le_div_iff₀ hdd, e0, mul_comm]; exact hM i hi.le
  have b1 : |(p i).derivative.derivative.eval (x (i + 1))| ≤ 5 * D / d ^ 2 := by
    rw [le_div_iff₀ hdd, e1, mul_comm]; exact hM (i + 1) hi
  have := cubic_gap_le (h.degree i hi) (by rw [hx i hi]; linarith) b0 b1 h1 h2
  rw [(h.through i hi).1, (h.through i hi).2] at this
  refine this.trans (le_of_eq ?_)
  rw [hx i hi, add_sub_cancel_left]
  field_simp

end Verif.Lemmas.CubicSpline
