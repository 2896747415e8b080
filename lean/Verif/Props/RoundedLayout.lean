import Verif.Model.RoundedLayout
import Verif.Props.CutskyLayout
import Verif.Props.RoundedBox
import Verif.Props.RoundedDensity

/-!
# C138: sub-boxes of several cut-sky catalogs with rounding errors
-/

namespace Verif.Props.RoundedLayout

open Verif Verif.Model Verif.Model.RoundedLayout Verif.Props.RoundedDensity
open Verif.Props.Rounded (rnd_eq)

variable {F : Fmt}

/-! ### Errors of operations, as factors -/

theorem factors {x y u : ℝ} (hx : 0 ≤ x) (h : |y - x| ≤ u * |x|) : (1 - u) * x ≤ y ∧ y ≤ (1 + u) * x := by
  rw [abs_of_nonneg hx, abs_le] at h
  constructor <;> linarith [h.1, h.2]

theorem add_factors {a b : ℝ} (ha : F.IsFloat a) (hb : F.IsFloat b) (h : 0 ≤ a + b) :
    (1 - F.u) * (a + b) ≤ F.rnd (a + b) ∧ F.rnd (a + b) ≤ (1 + F.u) * (a + b) := factors h (add_err ha hb)

theorem mul_factors {a : ℝ} (ha : F.IsFloat a) (n : ℤ) (h : 0 ≤ a * n) :
    (1 - F.u) * (a * n) ≤ F.rnd (a * n) ∧ F.rnd (a * n) ≤ (1 + F.u) * (a * n) := factors h (mul_int_err ha n)

theorem rnd_factors {x : ℝ} (h : F.tiny ≤ x) : (1 - F.u) * x ≤ F.rnd x ∧ F.rnd x ≤ (1 + F.u) * x := by
  have h0 : 0 ≤ x := Verif.Lemmas.RoundedIsometry.tiny_pos.le.trans h
  exact factors h0 (Fmt.rnd_err (by rwa [abs_of_nonneg h0]))

theorem int_float {n : ℤ} (h : |n| ≤ 2 ^ F.p) : F.IsFloat (n : ℝ) :=
  ⟨n, 0, h, by have := F.he; have := F.hp; omega, by simp⟩

/-! ### Real numbers -/

theorem ratio {u : ℝ} (hu : 0 ≤ u) (hu' : u ≤ 1 / 64) : (1 + u) * (1 + u) * (1 + u) ≤ (1 - u) * (1 - u) * (1 + 6 * u) := by
  have : 0 ≤ u * (1 / 64 - u) := mul_nonneg hu (by linarith)
  nlinarith [mul_nonneg hu hu, mul_nonneg (mul_nonneg hu hu) hu]

/-- Scaled margins fill what is left. -/
theorem scaled {u R num g : ℝ} (hu : 0 ≤ u) (hu' : u ≤ 1 / 64) (hg : 0 ≤ g) (h3 : num ≤ (1 + u) * g)
    (hrD : (1 - u) * (1 - u) * R ≤ (1 + u) * num) : (1 + u) * R ≤ (1 + 6 * u) * g := by
  have h9 : (1 - u) * (1 - u) * ((1 + u) * R) ≤ (1 + u) * (1 + u) * (1 + u) * g := by
    have a := mul_le_mul_of_nonneg_left hrD (by linarith : 0 ≤ 1 + u)
    have b' := mul_le_mul_of_nonneg_left h3 (mul_nonneg (by linarith) (by linarith) : 0 ≤ (1 + u) * (1 + u))
    linarith
  have h11 := mul_le_mul_of_nonneg_right (ratio hu hu') hg
  have h12 : 0 < (1 - u) * (1 - u) := mul_pos (by linarith) (by linarith)
  refine le_of_mul_le_mul_left ?_ h12
  linarith

/-- Sub-boxes and scaled margins fill the box. -/
theorem fills {u B b n em im bn num d den q r em' im' t : ℝ} (hu : 0 ≤ u) (hu' : u ≤ 1 / 64) (hn : 1 ≤ n) (hb : 0 ≤ b) (he : 0 ≤ em) (hi : 0 ≤ im)
    (h1 : (1 - u) * (b * n) ≤ bn) (h2 : bn ≤ B) (h3 : num ≤ (1 + u) * (B - bn)) (h4 : (1 - u) * (im * (n - 1)) ≤ d)
    (h5 : (1 - u) * (d + 2 * em) ≤ den) (hden : 0 < den) (hq : q * den = num) (h6 : r ≤ (1 + u) * q) (hr : 0 ≤ r)
    (h7 : em' ≤ (1 + u) * (r * em) + u * t) (h8 : im' ≤ (1 + u) * (r * im) + u * t) (htb : t ≤ b) :
    n * b + (n - 1) * im' + 2 * em' ≤ (1 + 11 * u) * B := by
  have hbn : 0 ≤ b * n := mul_nonneg hb (by linarith)
  have hbn0 : 0 ≤ bn := (mul_nonneg (by linarith) hbn).trans h1
  have hi1 : 0 ≤ im * (n - 1) := mul_nonneg hi (by linarith)
  have hden' : (1 - u) * (1 - u) * (im * (n - 1) + 2 * em) ≤ den := by
    refine le_trans ?_ h5
    rw [mul_assoc]
    refine mul_le_mul_of_nonneg_left ?_ (by linarith)
    have : 0 ≤ u * em := mul_nonneg hu he
    linarith
  have hS : (n - 1) * im' + 2 * em' ≤ (1 + u) * (r * (im * (n - 1) + 2 * em)) + u * t * (n + 1) := by
    have a := mul_le_mul_of_nonneg_left h8 (by linarith : (0 : ℝ) ≤ n - 1)
    linarith
  have hrD : (1 - u) * (1 - u) * (r * (im * (n - 1) + 2 * em)) ≤ (1 + u) * num := by
    have a := mul_le_mul_of_nonneg_left hden' hr
    have b' := mul_le_mul_of_nonneg_right h6 hden.le
    have c : (1 + u) * q * den = (1 + u) * num := by rw [mul_assoc, hq]
    linarith
  have hfin := scaled hu hu' (by linarith : 0 ≤ B - bn) h3 hrD
  have hbB : b * n ≤ 64 / 63 * B := by
    have := mul_le_mul_of_nonneg_right hu' hbn
    linarith
  have htn : t * (n + 1) ≤ 128 / 63 * B := by
    have a := mul_le_mul_of_nonneg_right htb (by linarith : (0 : ℝ) ≤ n + 1)
    have c := mul_le_mul_of_nonneg_left hn hb
    linarith
  have x1 : u * (t * (n + 1)) ≤ u * (128 / 63 * B) := mul_le_mul_of_nonneg_left htn hu
  have x2 : u * (b * n) ≤ u * (64 / 63 * B) := mul_le_mul_of_nonneg_left hbB hu
  have x3 : 0 ≤ u * bn := mul_nonneg hu hbn0
  have x4 : 0 ≤ u * B := mul_nonneg hu (by linarith)
  linarith

theorem pow_six {u : ℝ} (hu : 0 ≤ u) (hu' : u ≤ 1 / 64) : (1 + u) ^ 6 ≤ 1 + 7 * u ∧ 1 - 6 * u ≤ (1 - u) ^ 6 := by
  constructor
  · have h2 : (1 + u) ^ 2 ≤ 1 + 17 / 8 * u := by nlinarith
    have h4 : (1 + u) ^ 4 ≤ 1 + 35 / 8 * u := by
      have := mul_le_mul h2 h2 (by positivity) (by linarith)
      nlinarith
    have := mul_le_mul h4 h2 (by positivity) (by linarith)
    nlinarith
  · have := one_add_mul_le_pow (a := -u) (by linarith) 6
    rw [← sub_eq_add_neg] at this
    push_cast at this
    linarith

/-- Middle of a sub-box. -/
theorem middle {u L b low high s m : ℝ} (hu : 0 ≤ u) (hu' : u ≤ 1 / 64) (hL : 0 ≤ L) (hb : 0 ≤ b)
    (hlo : (1 - u) ^ 3 * L ≤ low) (hlo' : low ≤ (1 + u) ^ 3 * L) (h1 : (1 - u) * (low + b) ≤ high)
    (h2 : high ≤ (1 + u) * (low + b)) (h3 : (1 - u) * (low + high) ≤ s) (h4 : s ≤ (1 + u) * (low + high)) (h5 : (1 - u) * (s / 2) ≤ m)
    (h6 : m ≤ (1 + u) * (s / 2)) : |m - (L + b / 2)| ≤ 7 * u * (L + b / 2) := by
  have hm0 : 0 ≤ L + b / 2 := by linarith
  obtain ⟨p1, p2⟩ := pow_six hu hu'
  rw [abs_le]
  constructor
  · have hv : 0 ≤ 1 - u := by linarith
    have hv1 : 1 - u ≤ 1 := by linarith
    have v3 : (1 - u) ^ 3 ≤ 1 := pow_le_one₀ hv hv1
    have a1 : (1 - u) ^ 3 * (L + b) ≤ low + b := by have := mul_le_mul_of_nonneg_right v3 hb; linarith
    have a2 : (1 - u) ^ 4 * (L + b) ≤ high := by
      have := mul_le_mul_of_nonneg_left a1 hv
      calc (1 - u) ^ 4 * (L + b) = (1 - u) * ((1 - u) ^ 3 * (L + b)) := by ring
        _ ≤ _ := this.trans h1
    have a3 : (1 - u) ^ 4 * L ≤ low := by
      refine le_trans ?_ hlo
      refine mul_le_mul_of_nonneg_right ?_ hL
      exact pow_le_pow_of_le_one hv hv1 (by norm_num)
    have a4 : (1 - u) * ((1 - u) ^ 4 * (2 * L + b)) ≤ s := (mul_le_mul_of_nonneg_left (by linarith) hv).trans h3
    have a5 : (1 - u) * ((1 - u) * ((1 - u) ^ 4 * (2 * L + b)) / 2) ≤ m := (mul_le_mul_of_nonneg_left (by linarith) hv).trans h5
    have a6 := mul_le_mul_of_nonneg_right p2 hm0
    have a7 : (1 - u) * ((1 - u) * ((1 - u) ^ 4 * (2 * L + b)) / 2) = (1 - u) ^ 6 * (L + b / 2) := by ring
    have := mul_nonneg hu hm0
    linarith
  · have hv : 0 ≤ 1 + u := by linarith
    have hv1 : 1 ≤ 1 + u := by linarith
    have v3 : 1 ≤ (1 + u) ^ 3 := one_le_pow₀ hv1
    have a1 : low + b ≤ (1 + u) ^ 3 * (L + b) := by have := mul_le_mul_of_nonneg_right v3 hb; linarith
    have a2 : high ≤ (1 + u) ^ 4 * (L + b) := by
      have := mul_le_mul_of_nonneg_left a1 hv
      calc high ≤ (1 + u) * ((1 + u) ^ 3 * (L + b)) := h2.trans this
        _ = _ := by ring
    have a3 : low ≤ (1 + u) ^ 4 * L := by
      refine hlo'.trans ?_
      refine mul_le_mul_of_nonneg_right ?_ hL
      exact pow_le_pow_right₀ hv1 (by norm_num)
    have a4 : s ≤ (1 + u) * ((1 + u) ^ 4 * (2 * L + b)) := h4.trans (mul_le_mul_of_nonneg_left (by linarith) hv)
    have a5 : m ≤ (1 + u) * ((1 + u) * ((1 + u) ^ 4 * (2 * L + b)) / 2) := h6.trans (mul_le_mul_of_nonneg_left (by linarith) hv)
    have a6 := mul_le_mul_of_nonneg_right p1 hm0
    have a7 : (1 + u) * ((1 + u) * ((1 + u) ^ 4 * (2 * L + b)) / 2) = (1 + u) ^ 6 * (L + b / 2) := by ring
    linarith

/-- The centre of a sub-box, from its middle. -/
theorem placed {u B M m h w x c : ℝ} (hu : 0 ≤ u) (hu' : u ≤ 1 / 64) (hM0 : 0 ≤ M) (hMB : M ≤ 6 / 5 * B) (hm : |m - M| ≤ 7 * u * M)
    (h7 : |h - B / 2| ≤ u * (B / 2)) (h9 : |w - (m - h)| ≤ u * |m - h|)
    (h10 : |x - (w + c)| ≤ u * |w + c|) : |x - (c - B / 2 + M)| ≤ u * (12 * B + |c|) := by
  have hB : 0 ≤ B := by linarith
  have huB : 0 ≤ u * B := mul_nonneg hu hB
  have huB' : u * B ≤ B / 64 := by have := mul_le_mul_of_nonneg_right hu' hB; linarith
  have huM : u * M ≤ 6 / 5 * (u * B) := by have := mul_le_mul_of_nonneg_left hMB hu; linarith
  rw [abs_le] at hm h7
  have e1 : |m - h| ≤ 3 / 2 * B := by rw [abs_le]; constructor <;> linarith [hm.1, hm.2, h7.1, h7.2]
  have e2 : |w - (m - h)| ≤ 3 / 2 * (u * B) := h9.trans (by have := mul_le_mul_of_nonneg_left e1 hu; linarith)
  rw [abs_le] at e2
  have e3 : |w + c| ≤ B + |c| := by
    have hc := abs_le.1 (le_refl |c|)
    rw [abs_le]
    constructor <;> linarith [hm.1, hm.2, h7.1, h7.2, e2.1, e2.2, hc.1, hc.2]
  have e4 : |x - (w + c)| ≤ u * B + u * |c| := h10.trans (by have := mul_le_mul_of_nonneg_left e3 hu; linarith)
  rw [abs_le] at e4 ⊢
  constructor <;> linarith [hm.1, hm.2, h7.1, h7.2, e2.1, e2.2, e4.1, e4.2]

/-! ### One axis -/

theorem one_float : F.IsFloat 1 := by simpa using int_float (F := F) (n := 1) (by rw [abs_one]; exact_mod_cast Nat.one_le_two_pow)

theorem half_float : F.IsFloat (1 / 2 : ℝ) :=
  ⟨1, -1, by rw [abs_one]; exact_mod_cast Nat.one_le_two_pow, by have := F.he; have := F.hp; omega, by norm_num⟩

theorem tiny_of_rnd {q : ℝ} (h : 1 ≤ F.rnd q) : F.tiny ≤ q := by
  by_contra hq
  have h2 : F.rnd q ≤ 1 / 2 := Fmt.rnd_le half_float ((not_le.1 hq).le.trans Verif.Lemmas.RoundedIsometry.tiny_le)
  linarith

/-- Error of the centre of a sub-box. -/
theorem centre_err (hu' : F.u ≤ 1 / 64) {B b c e i : ℝ} {k : ℕ} (hb : F.IsFloat b) (hc : F.IsFloat c) (he : F.IsFloat e) (hi : F.IsFloat i)
    (he0 : 0 ≤ e) (hi0 : 0 ≤ i) (hk : k ≤ 2 ^ F.p) (hb8 : 8 * F.tiny ≤ b) (hM : e + (b + i) * k + b / 2 ≤ 6 / 5 * B) :
    |centreF F B b c e i k - (c - B / 2 + (e + (b + i) * k + b / 2))| ≤ F.u * (12 * B + |c|) := by
  have hu := (Fmt.u_pos (F := F)).le
  have ht := Verif.Lemmas.RoundedIsometry.tiny_pos (F := F)
  have hb0 : 0 ≤ b := by linarith
  have hk0 : (0 : ℝ) ≤ k := Nat.cast_nonneg k
  have hkf : F.IsFloat (k : ℝ) := by
    have := int_float (F := F) (n := k) (by rw [abs_of_nonneg (by positivity)]; exact_mod_cast hk)
    exact_mod_cast this
  have hs0 : 0 ≤ b + i := by linarith
  have s := add_factors hb hi hs0
  have hs1 : 0 ≤ F.rnd (b + i) := Fmt.rnd_nonneg hs0
  have t := mul_factors (Fmt.rnd_isFloat (F := F) (b + i)) (k : ℤ) (by push_cast; exact mul_nonneg hs1 hk0)
  push_cast at t
  have hl1 : 0 ≤ F.rnd (F.rnd (b + i) * k) := Fmt.rnd_nonneg (mul_nonneg hs1 hk0)
  have l := add_factors he (Fmt.rnd_isFloat (F := F) (F.rnd (b + i) * k)) (by linarith)
  unfold centreF
  rw [Fmt.rnd_exact hkf]
  set low := F.rnd (e + F.rnd (F.rnd (b + i) * k)) with hlow
  have hlow0 : 0 ≤ low := Fmt.rnd_nonneg (by linarith)
  have g := add_factors (Fmt.rnd_isFloat (F := F) (e + F.rnd (F.rnd (b + i) * k))) hb (by rw [← hlow]; linarith)
  rw [← hlow] at g
  set high := F.rnd (low + b) with hhigh
  have hhigh0 : 0 ≤ high := Fmt.rnd_nonneg (by linarith)
  have w := add_factors (Fmt.rnd_isFloat (F := F) (e + F.rnd (F.rnd (b + i) * k))) (Fmt.rnd_isFloat (F := F) (low + b)) (by rw [← hlow, ← hhigh]; linarith)
  rw [← hlow, ← hhigh] at w
  have hbh : 63 / 64 * b ≤ high := by
    have a : (1 - F.u) * b ≤ (1 - F.u) * (low + b) := mul_le_mul_of_nonneg_left (by linarith) (by linarith)
    have := mul_le_mul_of_nonneg_right hu' hb0
    linarith [g.1]
  have hw0 : 3 / 4 * b ≤ F.rnd (low + high) := by
    have a : (1 - F.u) * high ≤ (1 - F.u) * (low + high) := mul_le_mul_of_nonneg_left (by linarith) (by linarith)
    have := mul_le_mul_of_nonneg_right hu' hhigh0
    linarith [w.1]
  have m := rnd_factors (F := F) (x := F.rnd (low + high) / 2) (by linarith)
  have hL : 0 ≤ (b + i) * k := mul_nonneg hs0 hk0
  have hB8 : F.tiny ≤ B / 2 := by linarith
  have h := rnd_factors hB8
  have hh : |F.rnd (B / 2) - B / 2| ≤ F.u * (B / 2) := by rw [abs_le]; constructor <;> linarith [h.1, h.2]
  refine placed hu hu' (by linarith) hM (middle (L := e + (b + i) * k) hu hu' (by linarith) hb0 ?_ ?_ g.1 g.2 w.1 w.2 m.1 m.2) hh
    (by
      have := add_err (Fmt.rnd_isFloat (F := F) (F.rnd (low + high) / 2)) (Fmt.isFloat_neg (Fmt.rnd_isFloat (F := F) (B / 2)))
      simpa only [← sub_eq_add_neg] using this)
    (add_err (Fmt.rnd_isFloat _) hc)
  · have hv : 0 ≤ 1 - F.u := by linarith
    have hv1 : (1 - F.u) ^ 2 ≤ 1 := pow_le_one₀ hv (by linarith)
    have a1 : (1 - F.u) * ((1 - F.u) * ((b + i) * k)) ≤ F.rnd (F.rnd (b + i) * k) := by
      refine le_trans (mul_le_mul_of_nonneg_left ?_ hv) t.1
      rw [← mul_assoc]
      exact mul_le_mul_of_nonneg_right s.1 hk0
    have a2 := mul_le_mul_of_nonneg_right hv1 he0
    have a3 : (1 - F.u) ^ 3 * (e + (b + i) * k) = (1 - F.u) * ((1 - F.u) ^ 2 * e + (1 - F.u) * ((1 - F.u) * ((b + i) * k))) := by ring
    rw [a3]
    refine le_trans (mul_le_mul_of_nonneg_left ?_ hv) l.1
    linarith
  · have hv : 0 ≤ 1 + F.u := by linarith
    have hv1 : 1 ≤ (1 + F.u) ^ 2 := one_le_pow₀ (by linarith)
    have a1 : F.rnd (F.rnd (b + i) * k) ≤ (1 + F.u) * ((1 + F.u) * ((b + i) * k)) := by
      refine t.2.trans (mul_le_mul_of_nonneg_left ?_ hv)
      rw [← mul_assoc]
      exact mul_le_mul_of_nonneg_right s.2 hk0
    have a2 := mul_le_mul_of_nonneg_right hv1 he0
    have a3 : (1 + F.u) ^ 3 * (e + (b + i) * k) = (1 + F.u) * ((1 + F.u) ^ 2 * e + (1 + F.u) * ((1 + F.u) * ((b + i) * k))) := by ring
    rw [a3]
    refine l.2.trans (mul_le_mul_of_nonneg_left ?_ hv)
    linarith

theorem trunc_le {x : ℝ} (h : 1 ≤ trunc x) : (trunc x : ℝ) ≤ x := by
  unfold trunc at h ⊢
  split_ifs at h ⊢ with h0
  · exact Int.floor_le x
  · have : ⌈x⌉ ≤ 0 := Int.ceil_le.2 (by push_cast; linarith)
    omega

theorem rescale_ok {B b em im : ℝ} {N : ℤ} {r : ℝ × ℝ} (h : rescaleMarginsF F B b N em im = .ok r) : 0 ≤ em ∧ 0 ≤ im ∧
    ((em = 0 ∧ im = 0 ∧ r = (0, 0)) ∨ ∃ num den, num = F.rnd (B - F.rnd (b * F.rnd N)) ∧
      den = F.rnd (F.rnd (im * F.rnd ((N - 1 : ℤ) : ℝ)) + F.rnd (2 * em)) ∧ den ≠ 0 ∧ 1 ≤ F.rnd (num / den) ∧
      r = (F.rnd (F.rnd (num / den) * em), F.rnd (F.rnd (num / den) * im))) := by
  unfold rescaleMarginsF at h
  split_ifs at h with h1 h2
  · simp only at h
    split_ifs at h with h3 h4 h5
    push Not at h1 h5
    exact ⟨h1.1, h1.2, Or.inr ⟨_, _, rfl, rfl, h3, h5, (Except.ok.inj h).symm⟩⟩
  · push Not at h1 h2
    have e1 := le_antisymm h2.1 h1.1
    have e2 := le_antisymm h2.2 h1.2
    refine ⟨h1.1, h1.2, Or.inl ⟨e1, e2, ?_⟩⟩
    rw [← Except.ok.inj h, e1, e2]

/-- Margins that are used, and what they add up to. -/
theorem layout_fills (hu' : F.u ≤ 1 / 64) {B b c : ℝ} {em? im? : Option ℝ} (hB : F.IsFloat B) (hb : F.IsFloat b)
    (hem : ∀ e ∈ em?, F.IsFloat e) (him : ∀ i ∈ im?, F.IsFloat i) (hb8 : 8 * F.tiny ≤ b) {cs : List ℝ}
    (h : axisLayoutF F B b c em? im? = .ok cs) (hlen : cs.length ≤ 2 ^ F.p) (hne : cs ≠ []) :
    ∃ e i, F.IsFloat e ∧ F.IsFloat i ∧ em?.getD (im?.getD 0) ≤ e ∧ im?.getD (em?.getD 0) ≤ i ∧ 0 ≤ e ∧ 0 ≤ i ∧
      cs = (List.range cs.length).map (fun k => centreF F B b c e i k) ∧
      cs.length * b + (cs.length - 1) * i + 2 * e ≤ (1 + 11 * F.u) * B ∧
      (em? = none → im? = none → F.rnd (F.rnd (B - F.rnd (b * F.rnd cs.length)) / F.rnd (F.rnd cs.length + 1)) ≤ min e i) := by
  have hu := (Fmt.u_pos (F := F)).le
  have ht := Verif.Lemmas.RoundedIsometry.tiny_pos (F := F)
  have hb0 : 0 < b := by linarith
  unfold axisLayoutF at h
  simp only at h
  split_ifs at h with hd
  set N := numberF F B b (em?.getD 0) (im?.getD 0) with hN
  have hreq : ∃ em im, chooseMarginsF F B b N em? im? = .ok (em, im) ∧ F.IsFloat em ∧ F.IsFloat im ∧
      (0 ≤ em → em?.getD (im?.getD 0) ≤ em) ∧ (0 ≤ im → im?.getD (em?.getD 0) ≤ im) ∧
      (em = 0 → im = 0 → em?.getD 0 = 0 ∧ im?.getD 0 = 0 ∧ em?.getD (im?.getD 0) = 0 ∧ im?.getD (em?.getD 0) = 0) ∧
      (em? = none → im? = none → em = F.rnd (F.rnd (B - F.rnd (b * F.rnd N)) / F.rnd (F.rnd N + 1)) ∧ im = em) := by
    unfold chooseMarginsF at h ⊢
    cases em? with
    | none =>
      cases im? with
      | none =>
        simp only at h ⊢
        split_ifs at h ⊢ with h1
        · exact (by cases h)
        · exact ⟨_, _, rfl, Fmt.rnd_isFloat _, Fmt.rnd_isFloat _, by simp, by simp, by simp, fun _ _ => ⟨rfl, rfl⟩⟩
      | some i => exact ⟨i, i, rfl, him _ rfl, him _ rfl, by simp, by simp, by simp, by simp⟩
    | some e =>
      cases im? with
      | none => exact ⟨e, e, rfl, hem _ rfl, hem _ rfl, by simp, by simp, by simp, by simp⟩
      | some i => exact ⟨e, i, rfl, hem _ rfl, him _ rfl, by simp, by simp, fun a b => ⟨a, b, a, b⟩, by simp⟩
  obtain ⟨em, im, hch, hfe, hfi, hre, hri, hzero, hdef⟩ := hreq
  rw [hch] at h
  simp only [bind, Except.bind] at h
  cases hr : rescaleMarginsF F B b N em im with
  | error e => rw [hr] at h; cases h
  | ok r =>
  rw [hr] at h
  simp only [Except.ok.injEq] at h
  obtain ⟨he0, hi0, hr⟩ := rescale_ok hr
  have hl : cs.length = N.toNat := by rw [← h]; simp
  have hN1 : 1 ≤ N := by
    have := List.length_pos_iff.2 hne
    omega
  have hNl : (cs.length : ℝ) = N := by
    rw [hl, ← Int.cast_natCast, Int.toNat_of_nonneg (by omega)]
  have hN1' : (1 : ℝ) ≤ N := by exact_mod_cast hN1
  have hNp : N ≤ 2 ^ F.p := by
    have : (N.toNat : ℤ) ≤ 2 ^ F.p := by rw [← hl]; exact_mod_cast hlen
    omega
  have hcs : cs = (List.range cs.length).map (fun k => centreF F B b c r.1 r.2 k) := by rw [hl]; exact h.symm
  rw [hNl]
  rcases hr with ⟨e1, e2, rfl⟩ | ⟨num, den, hnum, hden, hd0, hq1, rfl⟩
  · obtain ⟨r1, r2, r3, r4⟩ := hzero e1 e2
    refine ⟨0, 0, Fmt.isFloat_iff.2 Fmt.rnd_zero, Fmt.isFloat_iff.2 Fmt.rnd_zero, r3.le, r4.le, le_refl _, le_refl _, hcs, ?_, fun g1 g2 => by
      rw [← (hdef g1 g2).1, e1, min_self]⟩
    rw [r1, r2] at hN
    unfold numberF at hN
    rw [mul_zero, Fmt.rnd_zero, sub_zero, add_zero, add_zero, Fmt.rnd_exact hB, Fmt.rnd_exact hB, Fmt.rnd_exact hb] at hN
    have h1 := trunc_le (hN ▸ hN1)
    rw [← hN] at h1
    have h2 := (rnd_factors (tiny_of_rnd (hN1'.trans h1))).2
    have h3 : (N : ℝ) * b ≤ (1 + F.u) * B := by
      have := mul_le_mul_of_nonneg_right (h1.trans h2) hb0.le
      rwa [mul_assoc, div_mul_cancel₀ _ hb0.ne'] at this
    have hB0 : 0 ≤ B := by
      by_contra hB0
      have : (1 + F.u) * B ≤ 0 := mul_nonpos_of_nonneg_of_nonpos (by linarith) (by linarith)
      have : 0 < (N : ℝ) * b := mul_pos (by linarith) hb0
      linarith
    have := mul_nonneg hu hB0
    linarith
  · have hNf : F.IsFloat (N : ℝ) := int_float (by rw [abs_of_nonneg (by omega)]; exact hNp)
    have hNf1 : F.IsFloat ((N - 1 : ℤ) : ℝ) := int_float (by rw [abs_of_nonneg (by omega)]; omega)
    rw [Fmt.rnd_exact hNf] at hnum
    rw [Fmt.rnd_exact hNf1, Fmt.rnd_exact (Verif.Props.RoundedBox.float_double hfe)] at hden
    have hN0 : (0 : ℝ) ≤ ((N - 1 : ℤ) : ℝ) := by exact_mod_cast (by omega : (0 : ℤ) ≤ N - 1)
    have hd1 : 0 ≤ F.rnd (im * ((N - 1 : ℤ) : ℝ)) := Fmt.rnd_nonneg (mul_nonneg hi0 hN0)
    have hdpos : 0 < den := lt_of_le_of_ne (by rw [hden]; exact Fmt.rnd_nonneg (by linarith)) (Ne.symm hd0)
    have hq := tiny_of_rnd hq1
    have hqpos : 0 < num / den := ht.trans_le hq
    have hnpos : 0 < num := by rwa [div_pos_iff_of_pos_right hdpos] at hqpos
    have hgap : 0 ≤ B - F.rnd (b * N) := by
      by_contra hg
      have : num ≤ 0 := by
        rw [hnum, ← Fmt.rnd_zero (F := F)]
        exact Fmt.rnd_mono (by linarith)
      linarith
    have f1 := mul_factors hb N (mul_nonneg hb0.le (by linarith))
    have f2 := add_factors hB (Fmt.isFloat_neg (Fmt.rnd_isFloat (F := F) (b * N))) (by linarith)
    rw [← sub_eq_add_neg, ← hnum] at f2
    have f3 := mul_factors hfi (N - 1) (mul_nonneg hi0 hN0)
    have f4 := add_factors (Fmt.rnd_isFloat (F := F) (im * ((N - 1 : ℤ) : ℝ))) (Verif.Props.RoundedBox.float_double hfe) (by linarith)
    rw [← hden] at f4
    have f5 := rnd_factors hq
    have hr0 : 0 ≤ F.rnd (num / den) := by linarith
    have f6 : ∀ m, 0 ≤ m → F.rnd (F.rnd (num / den) * m) ≤ (1 + F.u) * (F.rnd (num / den) * m) + F.u * F.tiny := by
      intro m hm
      have := Verif.Lemmas.RoundedIsometry.rnd_err_tiny (F := F) (F.rnd (num / den) * m)
      rw [abs_of_nonneg (mul_nonneg hr0 hm), abs_le] at this
      linarith [this.2]
    have f7 : ∀ m, F.IsFloat m → 0 ≤ m → m ≤ F.rnd (F.rnd (num / den) * m) := fun m hf hm =>
      Fmt.le_rnd hf (by have := mul_le_mul_of_nonneg_right hq1 hm; linarith)
    push_cast at f3 f4
    refine ⟨_, _, Fmt.rnd_isFloat _, Fmt.rnd_isFloat _, (hre he0).trans (f7 em hfe he0), (hri hi0).trans (f7 im hfi hi0),
      he0.trans (f7 em hfe he0), hi0.trans (f7 im hfi hi0), hcs, ?_, fun g1 g2 => by
        obtain ⟨d1, d2⟩ := hdef g1 g2
        rw [← d1]
        exact le_min (f7 em hfe he0) (by rw [← d2]; exact f7 im hfi hi0)⟩
    exact fills (t := F.tiny) hu hu' hN1' hb0.le he0 hi0 f1.1 (by linarith) f2.2 f3.1 f4.1 hdpos (div_mul_cancel₀ _ hd0) f5.2 hr0 (f6 em he0) (f6 im hi0)
      (by linarith)

/-- What rounding errors amount to, in a box of size `B` and centre `c`. -/
noncomputable def slack (F : Fmt) (B c : ℝ) : ℝ := F.u * (24 * B + 2 * |c|)

theorem used {B b c e i : ℝ} (hu' : F.u ≤ 1 / 64) (hb : F.IsFloat b) (hc : F.IsFloat c) (hfe : F.IsFloat e) (hfi : F.IsFloat i)
    (he0 : 0 ≤ e) (hi0 : 0 ≤ i) (hb8 : 8 * F.tiny ≤ b) {cs : List ℝ} (hcs : cs = (List.range cs.length).map (fun k => centreF F B b c e i k))
    (hT : cs.length * b + (cs.length - 1) * i + 2 * e ≤ (1 + 11 * F.u) * B) (hlen : cs.length ≤ 2 ^ F.p) (hne : cs ≠ []) :
    0 ≤ B ∧ (∀ x ∈ cs, SegmentIn B c (e - slack F B c) b x) ∧ cs.Pairwise fun x y => x + b / 2 + (i - slack F B c) ≤ y - b / 2 := by
  have hu := (Fmt.u_pos (F := F)).le
  have ht := Verif.Lemmas.RoundedIsometry.tiny_pos (F := F)
  have hb0 : 0 < b := by linarith
  have hn1 : (1 : ℝ) ≤ cs.length := by exact_mod_cast List.length_pos_iff.2 hne
  generalize cs.length = n at hcs hT hlen hn1
  have hB0 : 0 ≤ B := by
    have h1 : 0 < (n : ℝ) * b := mul_pos (by linarith) hb0
    have h2 : 0 ≤ ((n : ℝ) - 1) * i := mul_nonneg (by linarith) hi0
    by_contra hB0
    have : (1 + 11 * F.u) * B ≤ 0 := mul_nonpos_of_nonneg_of_nonpos (by linarith) (by linarith)
    linarith
  have huB : F.u * B ≤ B / 64 := by have := mul_le_mul_of_nonneg_right hu' hB0; linarith
  have huB0 : 0 ≤ F.u * B := mul_nonneg hu hB0
  have huc : 0 ≤ F.u * |c| := mul_nonneg hu (abs_nonneg c)
  have hup : ∀ k : ℕ, k < n → e + (b + i) * k + b ≤ (1 + 11 * F.u) * B - e := by
    intro k hk
    have hk1 : (k : ℝ) ≤ n - 1 := by
      have : (k : ℝ) + 1 ≤ n := by exact_mod_cast hk
      linarith
    have := mul_le_mul_of_nonneg_left hk1 (by linarith : 0 ≤ b + i)
    linarith
  have key : ∀ k : ℕ, k < n → |centreF F B b c e i k - (c - B / 2 + (e + (b + i) * k + b / 2))| ≤ F.u * (12 * B + |c|) := fun k hk =>
    centre_err hu' hb hc hfe hfi he0 hi0 (by omega) hb8 (by have := hup k hk; linarith)
  unfold slack
  refine ⟨hB0, ?_, ?_⟩
  · intro x hx
    rw [hcs, List.mem_map] at hx
    obtain ⟨k, hk, rfl⟩ := hx
    rw [List.mem_range] at hk
    have h1 := abs_le.1 (key k hk)
    have h2 := hup k hk
    have h3 : 0 ≤ (b + i) * (k : ℝ) := mul_nonneg (by linarith) (Nat.cast_nonneg k)
    constructor <;> linarith [h1.1, h1.2]
  · rw [hcs, List.pairwise_map]
    refine List.pairwise_lt_range.imp_of_mem ?_
    intro k l hk hl hkl
    rw [List.mem_range] at hk hl
    have h1 := abs_le.1 (key k hk)
    have h2 := abs_le.1 (key l hl)
    have h3 : (k : ℝ) + 1 ≤ l := by exact_mod_cast hkl
    have := mul_le_mul_of_nonneg_left h3 (by linarith : 0 ≤ b + i)
    linarith [h1.2, h2.1]

/-- C138, one axis: sub-boxes are in the box with the external margin that is asked for, and apart by the internal margin, up to rounding errors of
the size of the box and of its centre. A margin left free is at least the other one. -/
theorem C138_axis (hu' : F.u ≤ 1 / 64) {B b c : ℝ} {em? im? : Option ℝ} (hB : F.IsFloat B) (hb : F.IsFloat b) (hc : F.IsFloat c)
    (hem : ∀ e ∈ em?, F.IsFloat e) (him : ∀ i ∈ im?, F.IsFloat i) (hb8 : 8 * F.tiny ≤ b) {cs : List ℝ}
    (h : axisLayoutF F B b c em? im? = .ok cs) (hlen : cs.length ≤ 2 ^ F.p) :
    (∀ x ∈ cs, SegmentIn B c (em?.getD (im?.getD 0) - slack F B c) b x) ∧
    cs.Pairwise fun x y => x + b / 2 + (im?.getD (em?.getD 0) - slack F B c) ≤ y - b / 2 := by
  rcases eq_or_ne cs [] with rfl | hne
  · exact ⟨by simp, .nil⟩
  obtain ⟨e, i, hfe, hfi, hre, hri, he0, hi0, hcs, hT, -⟩ := layout_fills hu' hB hb hem him hb8 h hlen hne
  obtain ⟨-, h1, h2⟩ := used hu' hb hc hfe hfi he0 hi0 hb8 hcs hT hlen hne
  refine ⟨fun x hx => ?_, h2.imp fun {x y} hxy => by linarith⟩
  obtain ⟨h3, h4⟩ := h1 x hx
  constructor <;> linarith

theorem equal_margin {u n b B g r d q m t : ℝ} (hu : 0 ≤ u) (hu' : u ≤ 1 / 64) (hn : 1 ≤ n) (hb : 0 ≤ b) (hB : 0 ≤ B) (hnb : n * b ≤ (1 + 11 * u) * B)
    (hg : B - (1 + u) * (b * n) ≤ g) (hgB : g ≤ B) (hr : 0 ≤ g → (1 - u) * g ≤ r) (hd : 0 < d) (hd2 : d ≤ (1 + u) * (n + 1)) (hq : q * d = r)
    (hm : 0 ≤ g → (1 - u) * q - u * t ≤ m) (hm0 : 0 ≤ m) (ht : 8 * t ≤ b) (ht0 : 0 ≤ t) : (B - n * b) / (n + 1) - 4 * u * B ≤ m := by
  have hn1 : 0 < n + 1 := by linarith
  have huB := mul_nonneg hu hB
  have hub : u * (n * b) ≤ 2 * (u * B) := by
    have h1 : u * (n * b) ≤ u * ((1 + 11 * u) * B) := mul_le_mul_of_nonneg_left hnb hu
    have h2 : 11 * u * (u * B) ≤ 11 / 64 * (u * B) := mul_le_mul_of_nonneg_right (by linarith) huB
    linarith
  rw [sub_le_iff_le_add, div_le_iff₀ hn1]
  have hmn : 0 ≤ m * n := mul_nonneg hm0 (by linarith)
  have hBn : u * B * 2 ≤ u * B * (n + 1) := mul_le_mul_of_nonneg_left (by linarith) huB
  rcases le_or_gt 0 g with h0 | h0
  · have r1 := hr h0
    have m1 := hm h0
    have hq0 : 0 ≤ q := by
      have : 0 ≤ q * d := by rw [hq]; exact le_trans (mul_nonneg (by linarith) h0) r1
      exact nonneg_of_mul_nonneg_left this hd
    have a1 : (1 - u) * g ≤ q * ((1 + u) * (n + 1)) := r1.trans (by rw [← hq]; exact mul_le_mul_of_nonneg_left hd2 hq0)
    have a2 : (1 - u) * (1 - u) * g ≤ (1 - u) * q * ((1 + u) * (n + 1)) := by
      have := mul_le_mul_of_nonneg_left a1 (by linarith : 0 ≤ 1 - u)
      linarith
    have a3 : (1 - u) * q * ((1 + u) * (n + 1)) ≤ (m + u * t) * ((1 + u) * (n + 1)) :=
      mul_le_mul_of_nonneg_right (by linarith) (mul_nonneg (by linarith) hn1.le)
    -- `(1 - u)^3 g ≤ (1 - u^2) (m + u t) (n + 1) ≤ (m + u t) (n + 1)`
    have hmt : 0 ≤ (m + u * t) * (n + 1) := mul_nonneg (add_nonneg hm0 (mul_nonneg hu ht0)) hn1.le
    have a4 : (1 - u) * ((1 - u) * (1 - u) * g) ≤ (m + u * t) * (n + 1) := by
      have h1 := mul_le_mul_of_nonneg_left (a2.trans a3) (by linarith : 0 ≤ 1 - u)
      have h2 := mul_nonneg (mul_nonneg hu hu) hmt
      linarith
    have hug : u * g ≤ u * B := mul_le_mul_of_nonneg_left hgB hu
    have hug0 : 0 ≤ u * g := mul_nonneg hu h0
    have a5 : g - 3 * (u * g) ≤ (1 - u) * ((1 - u) * (1 - u) * g) := by
      have h1 := mul_nonneg hu hug0
      have h2 : u * (u * (u * g)) ≤ 1 * (u * (u * g)) := mul_le_mul_of_nonneg_right (by linarith) h1
      linarith
    have hut : u * t * (n + 1) ≤ u * B := by
      have h1 : t * (n + 1) ≤ B := by
        have h2 : 8 * t * n ≤ b * n := mul_le_mul_of_nonneg_right ht (by linarith)
        have h3 : 8 * t * 1 ≤ 8 * t * n := mul_le_mul_of_nonneg_left hn (by linarith)
        have h4 : u * B ≤ 1 / 64 * B := mul_le_mul_of_nonneg_right hu' hB
        linarith
      have := mul_le_mul_of_nonneg_left h1 hu
      linarith
    linarith
  · linarith

/-- C138, one axis: default margins, between sub-boxes and on both sides, share what sub-boxes leave of the box equally, up to rounding errors. -/
theorem C138_equal (hu' : F.u ≤ 1 / 64) {B b c : ℝ} (hB : F.IsFloat B) (hb : F.IsFloat b) (hc : F.IsFloat c) (hb8 : 8 * F.tiny ≤ b) {cs : List ℝ}
    (h : axisLayoutF F B b c none none = .ok cs) (hlen : cs.length ≤ 2 ^ F.p) :
    let m := (B - cs.length * b) / (cs.length + 1) - 2 * slack F B c
    (∀ x ∈ cs, SegmentIn B c m b x) ∧ cs.Pairwise fun x y => x + b / 2 + m ≤ y - b / 2 := by
  intro m
  rcases eq_or_ne cs [] with rfl | hne
  · exact ⟨by simp, .nil⟩
  obtain ⟨e, i, hfe, hfi, -, -, he0, hi0, hcs, hT, hdef⟩ := layout_fills hu' hB hb (by simp) (by simp) hb8 h hlen hne
  obtain ⟨hB0, h1, h2⟩ := used hu' hb hc hfe hfi he0 hi0 hb8 hcs hT hlen hne
  have hu := (Fmt.u_pos (F := F)).le
  have ht := Verif.Lemmas.RoundedIsometry.tiny_pos (F := F)
  have hn1 : (1 : ℝ) ≤ cs.length := by exact_mod_cast List.length_pos_iff.2 hne
  have hb0 : 0 < b := by linarith
  have hnf : F.IsFloat (cs.length : ℝ) := by
    have := int_float (F := F) (n := cs.length) (by rw [abs_of_nonneg (by omega)]; exact_mod_cast hlen)
    exact_mod_cast this
  have hd := hdef rfl rfl
  rw [Fmt.rnd_exact hnf] at hd
  have hin : 0 ≤ (cs.length - 1 : ℝ) * i := mul_nonneg (by linarith) hi0
  have key : (B - cs.length * b) / (cs.length + 1) - 4 * F.u * B ≤ F.rnd (F.rnd (B - F.rnd (b * cs.length)) / F.rnd (cs.length + 1)) ∨
      (B - cs.length * b) / (cs.length + 1) - 4 * F.u * B ≤ 0 := by
    rcases le_or_gt 0 (F.rnd (F.rnd (B - F.rnd (b * cs.length)) / F.rnd (cs.length + 1))) with h0 | h0
    · left
      have f1 := mul_factors hb cs.length (by push_cast; exact mul_nonneg hb0.le (by linarith))
      have f2 := add_factors hnf one_float (by linarith)
      push_cast at f1
      have hd0 : 0 < F.rnd (cs.length + 1 : ℝ) := lt_of_lt_of_le (mul_pos (by linarith) (by linarith)) f2.1
      refine equal_margin (t := F.tiny) (g := B - F.rnd (b * cs.length)) (r := F.rnd (B - F.rnd (b * cs.length))) (d := F.rnd (cs.length + 1)) hu hu' hn1 hb0.le hB0 (by linarith) (by linarith [f1.2])
        (by linarith [Fmt.rnd_nonneg (F := F) (mul_nonneg hb0.le (by linarith : (0 : ℝ) ≤ cs.length))]) (fun hg => ?_) hd0 f2.2 (div_mul_cancel₀ _ hd0.ne')
        (fun hg => ?_) h0 hb8 ht.le
      · have := add_factors hB (Fmt.isFloat_neg (Fmt.rnd_isFloat (F := F) (b * cs.length))) (by linarith)
        rw [← sub_eq_add_neg] at this
        exact this.1
      · have := Verif.Lemmas.RoundedIsometry.rnd_err_tiny (F := F) (F.rnd (B - F.rnd (b * cs.length)) / F.rnd (cs.length + 1))
        rw [abs_of_nonneg (div_nonneg (Fmt.rnd_nonneg hg) hd0.le), abs_le] at this
        linarith [this.1]
    · right
      have f1 := mul_factors hb cs.length (by push_cast; exact mul_nonneg hb0.le (by linarith))
      have f2 := add_factors hnf one_float (by linarith)
      push_cast at f1
      have hd0 : 0 < F.rnd (cs.length + 1 : ℝ) := lt_of_lt_of_le (mul_pos (by linarith) (by linarith)) f2.1
      have hg : B - F.rnd (b * cs.length) < 0 := by
        by_contra hg
        exact absurd (Fmt.rnd_nonneg (F := F) (div_nonneg (Fmt.rnd_nonneg (F := F) (not_lt.1 hg)) hd0.le)) (not_le.2 h0)
      have hn2 : (0 : ℝ) < cs.length + 1 := by linarith
      rw [sub_nonpos, div_le_iff₀ hn2]
      have huB := mul_nonneg hu hB0
      have hub : F.u * (b * cs.length) ≤ F.u * ((1 + 11 * F.u) * B) := mul_le_mul_of_nonneg_left (by linarith) hu
      have h5 : 11 * F.u * (F.u * B) ≤ 11 / 64 * (F.u * B) := mul_le_mul_of_nonneg_right (by linarith) huB
      have h6 : F.u * B * 2 ≤ F.u * B * (cs.length + 1) := mul_le_mul_of_nonneg_left (by linarith) huB
      linarith [f1.2]
  have hmin : (B - cs.length * b) / (cs.length + 1) - 4 * F.u * B ≤ min e i := by
    rcases key with h | h
    · exact h.trans hd
    · exact h.trans (le_min he0 hi0)
  have he := hmin.trans (min_le_left _ _)
  have hi := hmin.trans (min_le_right _ _)
  have hs : 4 * F.u * B ≤ slack F B c := by
    unfold slack
    have h1 := mul_nonneg hu hB0
    have h2 := mul_nonneg hu (abs_nonneg c)
    linarith
  refine ⟨fun x hx => ?_, h2.imp fun {x y} hxy => by simp only [m]; linarith⟩
  obtain ⟨h3, h4⟩ := h1 x hx
  simp only [m]
  constructor <;> linarith

/-! ### Size of sub-boxes -/

theorem times_err {d s S a : ℝ} (hd : 0 ≤ d) (ha : |s - S| ≤ a) (hS : |S| ≤ 1) :
    |F.rnd (d * s) - d * S| ≤ d * a + F.u * (d * (1 + a) + F.tiny) := by
  have h1 := Verif.Lemmas.RoundedIsometry.rnd_err_tiny (F := F) (d * s)
  have hs : |s| ≤ 1 + a := by
    have : s = S + (s - S) := by ring
    rw [this]
    exact (abs_add_le _ _).trans (by linarith)
  have h2 : |d * s| ≤ d * (1 + a) := by
    rw [abs_mul, abs_of_nonneg hd]
    exact mul_le_mul_of_nonneg_left hs hd
  have h3 : |d * s - d * S| ≤ d * a := by
    rw [← mul_sub, abs_mul, abs_of_nonneg hd]
    exact mul_le_mul_of_nonneg_left ha hd
  have h4 : F.u * (|d * s| + F.tiny) ≤ F.u * (d * (1 + a) + F.tiny) := mul_le_mul_of_nonneg_left (by linarith) (Fmt.u_pos (F := F)).le
  have h5 := abs_sub_le (F.rnd (d * s)) (d * s) (d * S)
  linarith

/-- C138: the size of sub-boxes is that of the survey of distances `d` to `d'`, half width `ra` in RA and `dec` in Dec, up to the errors `a` of sines and
cosines and to rounding errors. -/
theorem C138_size {d d' ra dec a cosRa cosDec sinRa sinDec : ℝ} (hd : 0 ≤ d) (hdd : d ≤ d') (hf : F.IsFloat d') (ha : a ≤ 1)
    (h1 : |cosRa - Real.cos ra| ≤ a) (h2 : |cosDec - Real.cos dec| ≤ a) (h3 : |sinRa - Real.sin ra| ≤ a) (h4 : |sinDec - Real.sin dec| ≤ a) :
    let s := surveySizeF F (d, d') cosRa cosDec sinRa sinDec
    |s.x - (d' - d * min (Real.cos ra) (Real.cos dec))| ≤ d' * a + F.u * (6 * d' + 2 * F.tiny) ∧
    |s.y - 2 * d' * Real.sin ra| ≤ 2 * d' * a + F.u * (4 * d' + F.tiny) ∧
    |s.z - 2 * d' * Real.sin dec| ≤ 2 * d' * a + F.u * (4 * d' + F.tiny) := by
  intro s
  have hu := (Fmt.u_pos (F := F)).le
  have hu4 : F.u ≤ 1 / 4 := F.u_le
  have ht := Verif.Lemmas.RoundedIsometry.tiny_pos (F := F)
  have ha0 : 0 ≤ a := (abs_nonneg _).trans h1
  have hd' : 0 ≤ d' := hd.trans hdd
  have hS : ∀ x y, |x - y| ≤ a → |y| ≤ 1 → |F.rnd (F.rnd (2 * d') * x) - 2 * d' * y| ≤ 2 * d' * a + F.u * (4 * d' + F.tiny) := by
    intro x y h hy
    rw [Fmt.rnd_exact (Verif.Props.RoundedBox.float_double hf)]
    refine (times_err (by linarith) h hy).trans ?_
    have h5 : 2 * d' * (1 + a) ≤ 2 * d' * 2 := mul_le_mul_of_nonneg_left (by linarith) (by linarith)
    have := mul_le_mul_of_nonneg_left (by linarith : 2 * d' * (1 + a) + F.tiny ≤ 4 * d' + F.tiny) hu
    linarith
  refine ⟨?_, hS _ _ h3 (Real.abs_sin_le_one _), hS _ _ h4 (Real.abs_sin_le_one _)⟩
  have hm : |min cosRa cosDec - min (Real.cos ra) (Real.cos dec)| ≤ a :=
    (abs_min_sub_min_le_max _ _ _ _).trans (max_le h1 h2)
  have hm1 : |min (Real.cos ra) (Real.cos dec)| ≤ 1 := by
    rcases min_choice (Real.cos ra) (Real.cos dec) with h | h <;> rw [h] <;> exact Real.abs_cos_le_one _
  have e1 := times_err (F := F) hd hm hm1
  simp only [s, surveySizeF]
  generalize min cosRa cosDec = m at *
  generalize min (Real.cos ra) (Real.cos dec) = M at *
  have e2 := add_err hf (Fmt.isFloat_neg (Fmt.rnd_isFloat (F := F) (d * m)))
  rw [← sub_eq_add_neg] at e2
  have hda : d * a ≤ d' * a := mul_le_mul_of_nonneg_right hdd ha0
  have hd1 : d * (1 + a) ≤ 2 * d' := by
    have : d * (1 + a) ≤ d * 2 := mul_le_mul_of_nonneg_left (by linarith) hd
    linarith
  have hud : F.u * (d * (1 + a) + F.tiny) ≤ F.u * (2 * d' + F.tiny) := mul_le_mul_of_nonneg_left (by linarith) hu
  have e3 := e1.trans (add_le_add hda hud)
  have hmb : |d * m| ≤ 2 * d' := by
    rw [abs_mul, abs_of_nonneg hd]
    have : |m| ≤ 1 + a := by
      have : m = M + (m - M) := by ring
      rw [this]
      exact (abs_add_le _ _).trans (by linarith)
    exact (mul_le_mul_of_nonneg_left this hd).trans hd1
  have e4 : |d' - F.rnd (d * m)| ≤ 4 * d' + F.tiny := by
    have h5 := Verif.Lemmas.RoundedIsometry.rnd_err_tiny (F := F) (d * m)
    have h6 : F.u * (|d * m| + F.tiny) ≤ 1 / 4 * (2 * d' + F.tiny) :=
      mul_le_mul hu4 (by linarith) (add_nonneg (abs_nonneg _) ht.le) (by norm_num)
    have h7 := abs_sub_le (F.rnd (d * m)) (d * m) 0
    rw [sub_zero, sub_zero] at h7
    have h8 := abs_sub d' (F.rnd (d * m))
    rw [abs_of_nonneg hd'] at h8
    linarith
  have e5 := e2.trans (mul_le_mul_of_nonneg_left e4 hu)
  have h5 := abs_sub_le (F.rnd (d' - F.rnd (d * m))) (d' - F.rnd (d * m)) (d' - d * M)
  have h6 : |d' - F.rnd (d * m) - (d' - d * M)| = |F.rnd (d * m) - d * M| := by
    rw [show d' - F.rnd (d * m) - (d' - d * M) = -(F.rnd (d * m) - d * M) by ring, abs_neg]
  rw [h6] at h5
  linarith

example : |(surveySizeF binary64 (100, 200) (Real.cos 1) (Real.cos 0) (Real.sin 1) (Real.sin 0)).y - 2 * 200 * Real.sin 1| ≤ 1 / 1000000 := by
  have hu : binary64.u ≤ 1 / 2 ^ 50 := by unfold Fmt.u binary64; norm_num
  have ht := Verif.Lemmas.RoundedIsometry.tiny_le (F := binary64)
  have f : binary64.IsFloat (200 : ℝ) := by exact_mod_cast int_float (F := binary64) (n := 200) (by norm_num [binary64])
  have := (C138_size (F := binary64) (d := 100) (d' := 200) (ra := 1) (dec := 0) (a := 0) (cosRa := Real.cos 1) (cosDec := Real.cos 0)
    (sinRa := Real.sin 1) (sinDec := Real.sin 0) (by norm_num) (by norm_num) f (by norm_num) (by simp) (by simp)
    (by simp) (by simp)).2.1
  have h2 : binary64.u * (4 * 200 + binary64.tiny) ≤ 1 / 2 ^ 50 * (4 * 200 + 1 / 2) :=
    mul_le_mul hu (by linarith) (by have := Verif.Lemmas.RoundedIsometry.tiny_pos (F := binary64); linarith) (by norm_num)
  refine this.trans ?_
  rw [mul_zero, zero_add]
  exact h2.trans (by norm_num)

/-! ### Number of sub-boxes -/

theorem le_trunc {x : ℝ} {m : ℕ} (h : (m : ℝ) ≤ x) : (m : ℤ) ≤ trunc x := by
  have h0 : 0 ≤ x := (Nat.cast_nonneg m).trans h
  unfold trunc
  rw [if_pos h0]
  exact Int.le_floor.2 (by exact_mod_cast h)

theorem trunc_lt {x : ℝ} {m : ℕ} (h : x < m + 1) : trunc x ≤ m := by
  unfold trunc
  split_ifs with h0
  · have : ⌊x⌋ < m + 1 := Int.floor_lt.2 (by exact_mod_cast h)
    omega
  · have : ⌈x⌉ ≤ 0 := Int.ceil_le.2 (by push_cast; linarith)
    omega

theorem quotient_factors {B b e i : ℝ} (hB : F.IsFloat B) (hb : F.IsFloat b) (he : F.IsFloat e) (hi : F.IsFloat i)
    (hb0 : 0 < b) (hi0 : 0 ≤ i) (heB : 2 * e ≤ B) :
    (1 - F.u) * ((1 - F.u) * (B - 2 * e) + i) ≤ F.rnd (F.rnd (B - F.rnd (2 * e)) + i) ∧
    F.rnd (F.rnd (B - F.rnd (2 * e)) + i) ≤ (1 + F.u) * ((1 + F.u) * (B - 2 * e) + i) ∧
    (1 - F.u) * (b + i) ≤ F.rnd (b + i) ∧ F.rnd (b + i) ≤ (1 + F.u) * (b + i) := by
  have hu := (Fmt.u_pos (F := F)).le
  have hu4 : F.u ≤ 1 / 4 := F.u_le
  rw [Fmt.rnd_exact (Verif.Props.RoundedBox.float_double he)]
  have f1 := add_factors hB (Fmt.isFloat_neg (Verif.Props.RoundedBox.float_double he)) (by linarith)
  rw [← sub_eq_add_neg] at f1
  have h1 : 0 ≤ F.rnd (B - 2 * e) := Fmt.rnd_nonneg (by linarith)
  have f2 := add_factors (Fmt.rnd_isFloat (F := F) (B - 2 * e)) hi (by linarith)
  have f3 := add_factors hb hi (by linarith)
  refine ⟨le_trans (mul_le_mul_of_nonneg_left (by linarith [f1.1]) (by linarith)) f2.1,
    f2.2.trans (mul_le_mul_of_nonneg_left (by linarith [f1.2]) (by linarith)), f3.1, f3.2⟩

theorem number_ge {B b e i : ℝ} (hB : F.IsFloat B) (hb : F.IsFloat b) (he : F.IsFloat e) (hi : F.IsFloat i) (hb0 : 0 < b) (he0 : 0 ≤ e)
    (hi0 : 0 ≤ i) {m : ℕ} (hm : m ≤ 2 ^ F.p) (h1 : 1 ≤ m) (hfit : m * b + (m - 1) * i + 2 * e + 4 * F.u * (B + i) ≤ B) : (m : ℤ) ≤ numberF F B b e i := by
  have hu := (Fmt.u_pos (F := F)).le
  have hu4 : F.u ≤ 1 / 4 := F.u_le
  have hm1 : (1 : ℝ) ≤ m := by exact_mod_cast h1
  have hm0 : 0 ≤ (m - 1 : ℝ) * i := mul_nonneg (by linarith) hi0
  have hmb : 0 ≤ (m : ℝ) * b := mul_nonneg (by linarith) hb0.le
  have hB0 : 0 ≤ B + i := by
    by_contra hc
    have h4 : (1 - 4 * F.u) * (B + i) ≤ 0 := mul_nonpos_of_nonneg_of_nonpos (by linarith) (by linarith)
    have : 0 < (m : ℝ) * b := mul_pos (by linarith) hb0
    linarith
  have huB := mul_nonneg hu hB0
  obtain ⟨f1, f2, f3, f4⟩ := quotient_factors hB hb he hi hb0 hi0 (by linarith)
  have hY : 0 < F.rnd (b + i) := lt_of_lt_of_le (mul_pos (by linarith) (by linarith)) f3
  have hmf : F.IsFloat (m : ℝ) := by
    have := int_float (F := F) (n := m) (by rw [abs_of_nonneg (by positivity)]; exact_mod_cast hm)
    exact_mod_cast this
  refine le_trunc (Fmt.le_rnd hmf ?_)
  rw [le_div_iff₀ hY]
  have g1 : (m : ℝ) * F.rnd (b + i) ≤ m * ((1 + F.u) * (b + i)) := mul_le_mul_of_nonneg_left f4 (by linarith)
  have g2 : F.u * ((m : ℝ) * (b + i)) ≤ F.u * (B + i) := mul_le_mul_of_nonneg_left (by linarith) hu
  have g3 : F.u * (B - 2 * e) ≤ F.u * (B + i) := mul_le_mul_of_nonneg_left (by linarith) hu
  have g4 : F.u * ((1 - F.u) * (B - 2 * e) + i) ≤ F.u * (B + i) := by
    refine mul_le_mul_of_nonneg_left ?_ hu
    have : 0 ≤ F.u * (B - 2 * e) := mul_nonneg hu (by linarith)
    linarith
  linarith

/-- C138: as many sub-boxes as fit with room for a few rounding errors. -/
theorem C138_number {B b c : ℝ} {em? im? : Option ℝ} (hB : F.IsFloat B) (hb : F.IsFloat b) (hem : ∀ e ∈ em?, F.IsFloat e ∧ 0 ≤ e)
    (him : ∀ i ∈ im?, F.IsFloat i ∧ 0 ≤ i) (hb0 : 0 < b) {cs : List ℝ} (h : axisLayoutF F B b c em? im? = .ok cs) {m : ℕ} (hm : m ≤ 2 ^ F.p)
    (hfit : Fits (B - 4 * F.u * (B + im?.getD 0)) b (em?.getD 0) (im?.getD 0) m) : m ≤ cs.length := by
  have hz : F.IsFloat (0 : ℝ) := Fmt.isFloat_iff.2 Fmt.rnd_zero
  have he : F.IsFloat (em?.getD 0) ∧ 0 ≤ em?.getD 0 := by
    cases em? with
    | none => exact ⟨hz, le_refl _⟩
    | some e => exact hem e rfl
  have hi : F.IsFloat (im?.getD 0) ∧ 0 ≤ im?.getD 0 := by
    cases im? with
    | none => exact ⟨hz, le_refl _⟩
    | some i => exact him i rfl
  have hN := number_ge hB hb he.1 hi.1 hb0 he.2 hi.2 hm hfit.1 (by linarith [hfit.2])
  unfold axisLayoutF at h
  simp only at h
  split_ifs at h with hd
  cases hc : chooseMarginsF F B b (numberF F B b (em?.getD 0) (im?.getD 0)) em? im? with
  | error e => rw [hc] at h; cases h
  | ok r =>
  rw [hc] at h
  simp only [bind, Except.bind] at h
  cases hr : rescaleMarginsF F B b (numberF F B b (em?.getD 0) (im?.getD 0)) r.1 r.2 with
  | error e => rw [hr] at h; cases h
  | ok r =>
  rw [hr] at h
  rw [← Except.ok.inj h]
  simp only [List.length_map, List.length_range]
  omega

theorem number_le {B b e i : ℝ} (hu' : F.u ≤ 1 / 64) (hB : F.IsFloat B) (hb : F.IsFloat b) (he : F.IsFloat e) (hi : F.IsFloat i) (hb0 : 0 < b)
    (he0 : 0 ≤ e) (hi0 : 0 ≤ i) (heB : 2 * e ≤ B) {m : ℕ} (hm1 : 1 ≤ m) (hfit : B + 8 * F.u * (B + i) < (m + 1) * b + m * i + 2 * e) :
    numberF F B b e i ≤ m := by
  have hu := (Fmt.u_pos (F := F)).le
  obtain ⟨f1, f2, f3, f4⟩ := quotient_factors hB hb he hi hb0 hi0 heB
  have hbi : 0 < b + i := by linarith
  have hY : 0 < F.rnd (b + i) := lt_of_lt_of_le (mul_pos (by linarith) hbi) f3
  refine trunc_lt ?_
  by_contra hc
  push Not at hc
  have hm2 : (1 : ℝ) ≤ m := by exact_mod_cast hm1
  have hq := rnd_factors (tiny_of_rnd (by linarith : 1 ≤ F.rnd (F.rnd (F.rnd (B - F.rnd (2 * e)) + i) / F.rnd (b + i))))
  have h1 := hc.trans hq.2
  rw [mul_div_assoc', le_div_iff₀ hY] at h1
  have g1 : (m + 1 : ℝ) * ((1 - F.u) * (b + i)) ≤ (1 + F.u) * ((1 + F.u) * ((1 + F.u) * (B - 2 * e) + i)) :=
    (mul_le_mul_of_nonneg_left f3 (by linarith)).trans (h1.trans (mul_le_mul_of_nonneg_left f2 (by linarith)))
  have hX : 0 ≤ B - 2 * e + i := by linarith
  have g2 : (1 + F.u) * ((1 + F.u) * ((1 + F.u) * (B - 2 * e) + i)) ≤ (1 + F.u) * (1 + F.u) * (1 + F.u) * (B - 2 * e + i) := by
    have h2 : 0 ≤ F.u * i := mul_nonneg hu hi0
    have h3 : (1 + F.u) * (B - 2 * e) + i ≤ (1 + F.u) * (B - 2 * e + i) := by linarith
    calc _ ≤ (1 + F.u) * ((1 + F.u) * ((1 + F.u) * (B - 2 * e + i))) :=
          mul_le_mul_of_nonneg_left (mul_le_mul_of_nonneg_left h3 (by linarith)) (by linarith)
      _ = _ := by ring
  have g3 := mul_le_mul_of_nonneg_right (ratio hu hu') hX
  have g4 : (1 - F.u) * ((m + 1) * (b + i)) ≤ (1 - F.u) * ((1 - F.u) * (1 + 6 * F.u) * (B - 2 * e + i)) := by linarith
  have g5 := le_of_mul_le_mul_left g4 (by linarith : 0 < 1 - F.u)
  have g6 : (1 - F.u) * (1 + 6 * F.u) ≤ 1 + 8 * F.u := by nlinarith
  have g7 := mul_le_mul_of_nonneg_right g6 hX
  have g8 : F.u * (B - 2 * e + i) ≤ F.u * (B + i) := mul_le_mul_of_nonneg_left (by linarith) hu
  linarith

/-- C138: with margins that are asked for, when `m` sub-boxes fit with room for a few rounding errors and `m + 1` would not, even with such room,
`m` sub-boxes are returned. -/
theorem C138_exactly (hu' : F.u ≤ 1 / 64) {B b c e i : ℝ} (hB : F.IsFloat B) (hb : F.IsFloat b) (he : F.IsFloat e) (hi : F.IsFloat i) (hb0 : 0 < b)
    (he0 : 0 ≤ e) (hi0 : 0 ≤ i) {m : ℕ} (hm : m ≤ 2 ^ F.p) (hpos : 0 < e ∨ (0 < i ∧ 2 ≤ m)) (hfit : Fits (B - 8 * F.u * (B + i)) b e i m)
    (hnot : B + 8 * F.u * (B + i) < (m + 1) * b + m * i + 2 * e) : ∃ cs, axisLayoutF F B b c (some e) (some i) = .ok cs ∧ cs.length = m := by
  have hu := (Fmt.u_pos (F := F)).le
  obtain ⟨hm1, hfit⟩ := hfit
  have hm2 : (1 : ℝ) ≤ m := by exact_mod_cast hm1
  have hm0 : 0 ≤ (m - 1 : ℝ) * i := mul_nonneg (by linarith) hi0
  have hmb : 0 < (m : ℝ) * b := mul_pos (by linarith) hb0
  have hB0 : 0 ≤ B + i := by
    by_contra hc
    have h4 : (1 - 8 * F.u) * (B + i) ≤ 0 := mul_nonpos_of_nonneg_of_nonpos (by linarith) (by linarith)
    linarith
  have huB := mul_nonneg hu hB0
  have hN : numberF F B b e i = m := le_antisymm (number_le hu' hB hb he hi hb0 he0 hi0 (by linarith) hm1 hnot)
    (number_ge hB hb he hi hb0 he0 hi0 hm hm1 (by linarith))
  have hY : F.rnd (b + i) ≠ 0 := by
    have := (add_factors hb hi (by linarith)).1
    have h2 : 0 < (1 - F.u) * (b + i) := mul_pos (by linarith) (by linarith)
    linarith
  have hBpos : 0 ≤ B := by linarith
  have huB1 := mul_nonneg hu hBpos
  have huB2 : F.u * B ≤ F.u * (B + i) := mul_le_mul_of_nonneg_left (by linarith) hu
  -- numerator and denominator
  have hNf : F.IsFloat ((m : ℤ) : ℝ) := int_float (by rw [abs_of_nonneg (by omega)]; exact_mod_cast hm)
  have hNf1 : F.IsFloat (((m : ℤ) - 1 : ℤ) : ℝ) := int_float (by
    rw [abs_of_nonneg (by omega)]
    have : (m : ℤ) ≤ 2 ^ F.p := by exact_mod_cast hm
    omega)
  have hN0 : (0 : ℝ) ≤ (((m : ℤ) - 1 : ℤ) : ℝ) := by exact_mod_cast (by omega : (0 : ℤ) ≤ (m : ℤ) - 1)
  have f1 := mul_factors hb (m : ℤ) (by push_cast; linarith)
  have f3 := mul_factors hi ((m : ℤ) - 1) (mul_nonneg hi0 hN0)
  have hd1 : 0 ≤ F.rnd (i * (((m : ℤ) - 1 : ℤ) : ℝ)) := Fmt.rnd_nonneg (mul_nonneg hi0 hN0)
  have f4 := add_factors (Fmt.rnd_isFloat (F := F) (i * (((m : ℤ) - 1 : ℤ) : ℝ))) (Verif.Props.RoundedBox.float_double he) (by linarith)
  have c1 : (((m : ℤ) - 1 : ℤ) : ℝ) = m - 1 := by push_cast; ring
  have c2 : ((m : ℤ) : ℝ) = m := by push_cast; ring
  rw [c1] at f3 f4 hd1 hNf1
  rw [c2] at f1 hNf
  have u1 : F.u * (b * m) ≤ F.u * B := mul_le_mul_of_nonneg_left (by linarith) hu
  have u2 : F.u * (i * (m - 1)) ≤ F.u * B := mul_le_mul_of_nonneg_left (by linarith) hu
  have hgap : 0 ≤ B - F.rnd (b * m) := by linarith [f1.2]
  have f2 := add_factors hB (Fmt.isFloat_neg (Fmt.rnd_isFloat (F := F) (b * m))) (by linarith)
  rw [← sub_eq_add_neg] at f2
  have hden : 0 < F.rnd (F.rnd (i * (m - 1)) + 2 * e) := by
    refine lt_of_lt_of_le (mul_pos (by linarith : 0 < 1 - F.u) ?_) f4.1
    rcases hpos with h | ⟨h, h2⟩
    · linarith
    · have h3 : (1 : ℝ) ≤ m - 1 := by
        have : (2 : ℝ) ≤ m := by exact_mod_cast h2
        linarith
      have : 0 < (1 - F.u) * (i * (m - 1)) := mul_pos (by linarith) (mul_pos h (by linarith))
      linarith [f3.1]
  have u3 : F.u * (B - F.rnd (b * m)) ≤ F.u * B := mul_le_mul_of_nonneg_left (by linarith [Fmt.rnd_nonneg (F := F) (by linarith : 0 ≤ b * m)]) hu
  have u4 : F.u * (F.rnd (i * (m - 1)) + 2 * e) ≤ F.u * (2 * B) := by
    refine mul_le_mul_of_nonneg_left ?_ hu
    have : F.u * B ≤ 1 / 64 * B := mul_le_mul_of_nonneg_right hu' hBpos
    linarith [f3.2]
  have hle : F.rnd (F.rnd (i * (m - 1)) + 2 * e) ≤ F.rnd (B - F.rnd (b * m)) := by linarith [f1.2, f2.1, f3.2, f4.2]
  have hone : ¬ F.rnd (F.rnd (B - F.rnd (b * m)) / F.rnd (F.rnd (i * (m - 1)) + 2 * e)) < 1 :=
    not_lt.2 (Fmt.le_rnd one_float ((one_le_div hden).2 hle))
  refine ⟨(List.range m).map fun k : ℕ => centreF F B b c
      (F.rnd (F.rnd (F.rnd (B - F.rnd (b * m)) / F.rnd (F.rnd (i * (m - 1)) + 2 * e)) * e))
      (F.rnd (F.rnd (F.rnd (B - F.rnd (b * m)) / F.rnd (F.rnd (i * (m - 1)) + 2 * e)) * i)) k, ?_, by simp⟩
  · unfold axisLayoutF
    simp only [Option.getD_some]
    rw [if_neg hY, hN]
    simp only [chooseMarginsF, bind, Except.bind]
    unfold rescaleMarginsF
    rw [if_neg (by push Not; exact ⟨he0, hi0⟩), if_pos (hpos.imp id fun h => h.1), c1, c2, Fmt.rnd_exact hNf, Fmt.rnd_exact hNf1,
      Fmt.rnd_exact (Verif.Props.RoundedBox.float_double he)]
    simp only
    rw [if_neg hden.ne', if_neg hone]
    simp

/-! ### Default margins -/

theorem float_half {x : ℝ} (h : F.IsFloat x) (hx : 2 * F.tiny ≤ |x|) : F.IsFloat (x / 2) := by
  obtain ⟨m, e, hm, he, rfl⟩ := h
  rcases he.lt_or_eq with he | rfl
  · exact ⟨m, e - 1, hm, by omega, by rw [zpow_sub_one₀ (by norm_num)]; ring⟩
  · have h2 : (2 : ℝ) ^ F.p ≤ |(m : ℝ)| := by
      have hz := Fmt.two_zpow_pos F.emin
      rw [abs_mul, abs_of_pos hz] at hx
      unfold Fmt.tiny at hx
      have e1 : 2 * (2 : ℝ) ^ (F.emin + F.p - 1) = 2 ^ F.p * 2 ^ F.emin := by
        rw [zpow_sub_one₀ (by norm_num), zpow_add₀ (by norm_num), zpow_natCast]; ring
      rw [e1] at hx
      exact le_of_mul_le_mul_right hx hz
    have h3 : |m| = 2 ^ F.p := le_antisymm hm (by
      have : ((2 ^ F.p : ℤ) : ℝ) ≤ ((|m| : ℤ) : ℝ) := by push_cast; exact h2
      exact_mod_cast this)
    have h4 : (2 : ℤ) ∣ m := by
      rw [← dvd_abs, h3]
      exact dvd_pow_self 2 (by have := F.hp; omega)
    obtain ⟨k, rfl⟩ := h4
    refine ⟨k, F.emin, ?_, le_refl _, by push_cast; ring⟩
    rw [abs_mul, abs_two] at hm
    have := abs_nonneg k
    omega

/-- C138: with default margins, when there is room for one sub-box and, by a few rounding errors, not for two, it is returned, and no error is raised. -/
theorem C138_single {B b c : ℝ} (hB : F.IsFloat B) (hb : F.IsFloat b) (hb0 : 0 < b) (hgap : B = b ∨ b + 2 * F.tiny ≤ B)
    (htwo : (1 + F.u) * B < 2 * b) : ∃ x, axisLayoutF F B b c none none = .ok [x] := by
  have hu := (Fmt.u_pos (F := F)).le
  have ht := Verif.Lemmas.RoundedIsometry.tiny_pos (F := F)
  have hbB : b ≤ B := by rcases hgap with h | h <;> linarith
  have r1 : F.rnd 1 = 1 := Fmt.rnd_exact one_float
  have hN : numberF F B b 0 0 = 1 := by
    unfold numberF
    rw [mul_zero, Fmt.rnd_zero, sub_zero, add_zero, add_zero, Fmt.rnd_exact hB, Fmt.rnd_exact hB, Fmt.rnd_exact hb]
    have h1 : 1 ≤ F.rnd (B / b) := Fmt.le_rnd one_float ((one_le_div hb0).2 hbB)
    refine le_antisymm ?_ ?_
    · have h2 : F.rnd (B / b) < 2 := by
        refine (rnd_factors (tiny_of_rnd h1)).2.trans_lt ?_
        rw [mul_div_assoc', div_lt_iff₀ hb0]
        exact htwo
      have := trunc_lt (x := F.rnd (B / b)) (m := 1) (by push_cast; linarith)
      exact_mod_cast this
    · have := le_trunc (x := F.rnd (B / b)) (m := 1) (by push_cast; exact h1)
      exact_mod_cast this
  have two : F.rnd 2 = 2 := Fmt.rnd_exact (by simpa using Verif.Props.RoundedBox.float_double (F := F) one_float)
  have hd : F.rnd (b + 0) ≠ 0 := by rw [add_zero, Fmt.rnd_exact hb]; exact hb0.ne'
  have hg : F.rnd (B - b) = 0 ∨ 2 * F.tiny ≤ F.rnd (B - b) := by
    rcases hgap with rfl | h
    · left; rw [sub_self, Fmt.rnd_zero]
    · right
      refine Fmt.le_rnd (Verif.Props.RoundedBox.float_double ?_) (by linarith)
      refine ⟨1, F.emin + F.p - 1, ?_, by have := F.hp; omega, by unfold Fmt.tiny; push_cast; ring⟩
      rw [abs_one]
      exact_mod_cast Nat.one_le_two_pow
  have hhalf : F.rnd (F.rnd (B - b) / 2) = F.rnd (B - b) / 2 := by
    rcases hg with h | h
    · rw [h, zero_div, Fmt.rnd_zero]
    · exact Fmt.rnd_exact (float_half (Fmt.rnd_isFloat _) (h.trans (le_abs_self _)))
  have hres : rescaleMarginsF F B b 1 (F.rnd (B - b) / 2) (F.rnd (B - b) / 2) = .ok (F.rnd (B - b) / 2, F.rnd (B - b) / 2) := by
    unfold rescaleMarginsF
    have h0 : 0 ≤ F.rnd (B - b) := by rcases hg with h | h <;> linarith
    rw [if_neg (by push Not; constructor <;> linarith)]
    rcases hg with h | h
    · rw [h, if_neg (by simp)]
    · have hp : 0 < F.rnd (B - b) := by linarith
      rw [if_pos (Or.inl (by linarith))]
      push_cast
      rw [r1, mul_one, Fmt.rnd_zero, mul_zero, Fmt.rnd_zero, zero_add, mul_div_cancel₀ _ (two_ne_zero' ℝ), Fmt.rnd_exact hb,
        Fmt.rnd_exact (Fmt.rnd_isFloat (F := F) (B - b))]
      rw [Fmt.rnd_exact (Fmt.rnd_isFloat (F := F) (B - b)), if_neg hp.ne', div_self hp.ne', r1, if_neg (lt_irrefl _), one_mul, hhalf]
  refine ⟨centreF F B b c (F.rnd (B - b) / 2) (F.rnd (B - b) / 2) 0, ?_⟩
  unfold axisLayoutF
  simp only [Option.getD_none]
  rw [if_neg hd, hN]
  unfold chooseMarginsF
  push_cast
  rw [r1, mul_one, one_add_one_eq_two, two, if_neg two_ne_zero, Fmt.rnd_exact hb, hhalf]
  simp only [bind, Except.bind]
  rw [hres]
  simp

theorem r64 {x : ℝ} {k n : ℤ} (h1 : (2 : ℝ) ^ k ≤ |x|) (h2 : |x| < 2 ^ (k + 1)) (hk : -1022 ≤ k) (hn : |x / 2 ^ (k - 52) - n| < 1 / 2) :
    binary64.rnd x = n * 2 ^ (k - 52) := by
  have := rnd_eq (F := binary64) (x := x) (k := k) (n := n) h1 h2 (by simp only [binary64]; push_cast; omega) (by
    simp only [binary64]
    push_cast
    norm_num
    norm_num at hn
    exact hn)
  rw [this]
  simp only [binary64]
  push_cast
  norm_num

theorem nat64 {n : ℤ} (h : |n| ≤ 2 ^ 53) : binary64.rnd (n : ℝ) = n := Fmt.rnd_exact (int_float (by simpa [binary64] using h))

/-- C138 fails with default margins, in double precision: eight sub-boxes of size 360 fit in a box of size 3000, and an `AssertionError` is raised. -/
theorem axis_violated (c : ℝ) : axisLayoutF binary64 3000 360 c none none = .error .assertionError := by
  have i0 : binary64.rnd (0 : ℝ) = 0 := Fmt.rnd_zero
  have i360 : binary64.rnd (360 : ℝ) = 360 := by exact_mod_cast nat64 (n := 360) (by norm_num)
  have i3000 : binary64.rnd (3000 : ℝ) = 3000 := by exact_mod_cast nat64 (n := 3000) (by norm_num)
  have i2880 : binary64.rnd (2880 : ℝ) = 2880 := by exact_mod_cast nat64 (n := 2880) (by norm_num)
  have i120 : binary64.rnd (120 : ℝ) = 120 := by exact_mod_cast nat64 (n := 120) (by norm_num)
  have i9 : binary64.rnd (9 : ℝ) = 9 := by exact_mod_cast nat64 (n := 9) (by norm_num)
  have i8 : binary64.rnd (8 : ℝ) = 8 := by exact_mod_cast nat64 (n := 8) (by norm_num)
  have i7 : binary64.rnd (7 : ℝ) = 7 := by exact_mod_cast nat64 (n := 7) (by norm_num)
  have q0 : binary64.rnd (3000 / 360) = 4691249611844267 / 2 ^ 49 := by
    rw [r64 (k := 3) (n := 4691249611844267)] <;> norm_num [abs_lt, abs_of_pos]
  have q1 : binary64.rnd (120 / 9) = 7505999378950827 / 2 ^ 49 := by
    rw [r64 (k := 3) (n := 7505999378950827)] <;> norm_num [abs_lt, abs_of_pos]
  have q2 : binary64.rnd (7505999378950827 / 2 ^ 49 * 7) = 6567749456581974 / 2 ^ 46 := by
    rw [r64 (k := 6) (n := 6567749456581974)] <;> norm_num [abs_lt, abs_of_pos]
  have q3 : binary64.rnd (2 * (7505999378950827 / 2 ^ 49)) = 7505999378950827 / 2 ^ 48 := by
    rw [r64 (k := 4) (n := 7505999378950827)] <;> norm_num [abs_lt, abs_of_pos]
  have q4 : binary64.rnd (6567749456581974 / 2 ^ 46 + 7505999378950827 / 2 ^ 48) = 8444249301319681 / 2 ^ 46 := by
    rw [r64 (k := 6) (n := 8444249301319681)] <;> norm_num [abs_lt, abs_of_pos]
  have q5 : binary64.rnd (120 / (8444249301319681 / 2 ^ 46)) = 9007199254740991 / 2 ^ 53 := by
    rw [r64 (k := -1) (n := 9007199254740991)] <;> norm_num [abs_lt, abs_of_pos]
  have hN : numberF binary64 3000 360 0 0 = 8 := by
    unfold numberF
    rw [mul_zero, i0, sub_zero, add_zero, add_zero, i3000, i3000, i360, q0]
    unfold trunc
    rw [if_pos (by norm_num), Int.floor_eq_iff]
    constructor <;> norm_num
  unfold axisLayoutF
  simp only [Option.getD_none]
  rw [add_zero, i360, if_neg (by norm_num), hN]
  unfold chooseMarginsF
  push_cast
  rw [i8, show (8 : ℝ) + 1 = 9 by norm_num, i9, if_neg (by norm_num), show (360 : ℝ) * 8 = 2880 by norm_num, i2880,
    show (3000 : ℝ) - 2880 = 120 by norm_num, i120, q1]
  simp only [bind, Except.bind]
  unfold rescaleMarginsF
  push_cast
  rw [if_neg (by norm_num), if_pos (by norm_num), i8, i7, q2, q3, q4, show (360 : ℝ) * 8 = 2880 by norm_num, i2880,
    show (3000 : ℝ) - 2880 = 120 by norm_num, i120]
  rw [if_neg (by norm_num), q5, if_pos (by norm_num)]

/-- C138 fails with default margins, in double precision: a box of size 3000 has room for eight surveys of distances from 0 to 360 along the x axis,
yet, whatever the other axes, the centre and the angles, an `AssertionError` is raised. In exact arithmetic there are sub-boxes. -/
theorem C138_default_violated (By Bz cosRa cosDec sinRa sinDec : ℝ) (c : V3 ℝ) (noutput : Option ℤ) :
    centresF binary64 ⟨3000, By, Bz⟩ c (surveySizeF binary64 (0, 360) cosRa cosDec sinRa sinDec) (.all none) (.all none) noutput =
      .error .assertionError ∧
    (surveySizeF binary64 (0, 360) cosRa cosDec sinRa sinDec).x = 360 ∧ Fits 3000 360 0 0 8 ∧
    ∃ cs, axisLayout 3000 360 c.x none none = .ok cs ∧ cs ≠ [] := by
  have hs : (surveySizeF binary64 (0, 360) cosRa cosDec sinRa sinDec).x = 360 := by
    simp only [surveySizeF]
    rw [zero_mul, Fmt.rnd_zero, sub_zero]
    exact_mod_cast nat64 (n := 360) (by norm_num)
  refine ⟨?_, hs, by norm_num [Fits], C19_succeeds_free (by norm_num) (by norm_num)⟩
  unfold centresF
  simp only [Margin.toV3]
  rw [hs, axis_violated]
  rfl

/-! ### Three axes -/

/-- Margins of the x, y and z axes: one for all, or one for each. -/
def asked : Margin → V3 (Option ℝ)
  | .all m => ⟨m, m, m⟩
  | .each x y z => ⟨x, y, z⟩

/-- The margins `m`, those of the other kind `m'` if they are left free, 0 if both are. -/
noncomputable def wanted (m m' : Margin) : V3 ℝ :=
  ⟨(asked m).x.getD ((asked m').x.getD 0), (asked m).y.getD ((asked m').y.getD 0), (asked m).z.getD ((asked m').z.getD 0)⟩

theorem wanted_eq (m m' : Margin) :
    wanted m m' = ⟨m.toV3.x.getD (m'.toV3.x.getD 0), m.toV3.y.getD (m'.toV3.y.getD 0), m.toV3.z.getD (m'.toV3.z.getD 0)⟩ := by
  cases m <;> cases m' <;> rfl

/-- C138: sub-boxes are in the box with the external margins that are asked for, and two of them are apart by the internal margin along some axis,
up to rounding errors. -/
theorem C138_boxes (hu' : F.u ≤ 1 / 64) {B c size : V3 ℝ} {external internal : Margin} {noutput : Option ℤ} {l : List (V3 ℝ)}
    (h : centresF F B c size external internal noutput = .ok l) (hB : F.IsFloat B.x ∧ F.IsFloat B.y ∧ F.IsFloat B.z)
    (hs : F.IsFloat size.x ∧ F.IsFloat size.y ∧ F.IsFloat size.z) (hc : F.IsFloat c.x ∧ F.IsFloat c.y ∧ F.IsFloat c.z)
    (hem : ∀ m, Requested m external → F.IsFloat m) (him : ∀ m, Requested m internal → F.IsFloat m)
    (hs8 : 8 * F.tiny ≤ size.x ∧ 8 * F.tiny ≤ size.y ∧ 8 * F.tiny ≤ size.z)
    (hlen : ∀ cs, (axisLayoutF F B.x size.x c.x external.toV3.x internal.toV3.x = .ok cs ∨ axisLayoutF F B.y size.y c.y external.toV3.y internal.toV3.y = .ok cs ∨
      axisLayoutF F B.z size.z c.z external.toV3.z internal.toV3.z = .ok cs) → cs.length ≤ 2 ^ F.p) :
    (∀ p ∈ l, SegmentIn B.x c.x ((wanted external internal).x - slack F B.x c.x) size.x p.x ∧
      SegmentIn B.y c.y ((wanted external internal).y - slack F B.y c.y) size.y p.y ∧ SegmentIn B.z c.z ((wanted external internal).z - slack F B.z c.z) size.z p.z) ∧
    l.Pairwise (fun p q => SegmentsApart ((wanted internal external).x - slack F B.x c.x) size.x p.x q.x ∨
      SegmentsApart ((wanted internal external).y - slack F B.y c.y) size.y p.y q.y ∨ SegmentsApart ((wanted internal external).z - slack F B.z c.z) size.z p.z q.z) ∧
    ∀ n, noutput = some n → l.length = n.toNat := by
  have he : ∀ m, m ∈ external.toV3.x ∨ m ∈ external.toV3.y ∨ m ∈ external.toV3.z → F.IsFloat m := by
    intro m hm
    refine hem m ?_
    cases external <;> simpa [Margin.toV3, Requested] using hm
  have hi : ∀ m, m ∈ internal.toV3.x ∨ m ∈ internal.toV3.y ∨ m ∈ internal.toV3.z → F.IsFloat m := by
    intro m hm
    refine him m ?_
    cases internal <;> simpa [Margin.toV3, Requested] using hm
  simp only [wanted_eq]
  unfold centresF at h
  simp only at h
  cases ex : axisLayoutF F B.x size.x c.x external.toV3.x internal.toV3.x with
  | error e => rw [ex] at h; cases h
  | ok xs =>
  cases ey : axisLayoutF F B.y size.y c.y external.toV3.y internal.toV3.y with
  | error e => rw [ex, ey] at h; cases h
  | ok ys =>
  cases ez : axisLayoutF F B.z size.z c.z external.toV3.z internal.toV3.z with
  | error e => rw [ex, ey, ez] at h; cases h
  | ok zs =>
  rw [ex, ey, ez] at h
  simp only [bind, Except.bind] at h
  obtain ⟨x1, x2⟩ := C138_axis hu' hB.1 hs.1 hc.1 (fun m hm => he m (Or.inl hm)) (fun m hm => hi m (Or.inl hm)) hs8.1 ex (hlen xs (Or.inl ex))
  obtain ⟨y1, y2⟩ := C138_axis hu' hB.2.1 hs.2.1 hc.2.1 (fun m hm => he m (Or.inr (Or.inl hm))) (fun m hm => hi m (Or.inr (Or.inl hm))) hs8.2.1 ey
    (hlen ys (Or.inr (Or.inl ey)))
  obtain ⟨z1, z2⟩ := C138_axis hu' hB.2.2 hs.2.2 hc.2.2 (fun m hm => he m (Or.inr (Or.inr hm))) (fun m hm => hi m (Or.inr (Or.inr hm))) hs8.2.2 ez
    (hlen zs (Or.inr (Or.inr ez)))
  have hin : ∀ p ∈ product3 xs ys zs, SegmentIn B.x c.x (external.toV3.x.getD (internal.toV3.x.getD 0) - slack F B.x c.x) size.x p.x ∧
      SegmentIn B.y c.y (external.toV3.y.getD (internal.toV3.y.getD 0) - slack F B.y c.y) size.y p.y ∧ SegmentIn B.z c.z (external.toV3.z.getD (internal.toV3.z.getD 0) - slack F B.z c.z) size.z p.z :=
    fun p hp => by
      rw [mem_product3] at hp
      exact ⟨x1 _ hp.1, y1 _ hp.2.1, z1 _ hp.2.2⟩
  have hap := (product3_pairwise x2 y2 z2).imp (S := fun p q => SegmentsApart (internal.toV3.x.getD (external.toV3.x.getD 0) - slack F B.x c.x) size.x p.x q.x ∨
      SegmentsApart (internal.toV3.y.getD (external.toV3.y.getD 0) - slack F B.y c.y) size.y p.y q.y ∨ SegmentsApart (internal.toV3.z.getD (external.toV3.z.getD 0) - slack F B.z c.z) size.z p.z q.z)
    (fun {p q} hpq => by
      rcases hpq with hpq | hpq | hpq
      · exact Or.inl (Or.inl hpq)
      · exact Or.inr (Or.inl (Or.inl hpq))
      · exact Or.inr (Or.inr (Or.inl hpq)))
  cases noutput with
  | none =>
    simp only [Except.ok.injEq] at h
    rw [← h]
    exact ⟨hin, hap, by simp⟩
  | some n =>
    simp only at h
    split at h
    · cases h
    · rename_i hlt
      simp only [Except.ok.injEq] at h
      rw [← h]
      refine ⟨fun p hp => hin p (List.mem_of_mem_take hp), hap.sublist (List.take_sublist _ _), ?_⟩
      intro m hm
      cases hm
      rw [List.length_take, product3_length]
      apply min_eq_left
      omega

/-! ### Examples -/

theorem u64 : binary64.u ≤ 1 / 2 ^ 50 := by
  unfold Fmt.u binary64
  norm_num

theorem float64 (n : ℤ) (h : |n| ≤ 2 ^ 53) : binary64.IsFloat (n : ℝ) := int_float (by simpa [binary64] using h)

theorem tiny64 : binary64.tiny ≤ 1 / 2 := Verif.Lemmas.RoundedIsometry.tiny_le

/-- Three sub-boxes of size 300 with margins 10 and 20 in a box of size 1000, in double precision. -/
theorem example_axis (c : ℝ) : ∃ cs, axisLayoutF binary64 1000 300 c (some 10) (some 20) = .ok cs ∧ cs.length = 3 := by
  have hu := u64
  norm_num at hu
  exact C138_exactly (m := 3) (by linarith) (by exact_mod_cast float64 1000 (by norm_num)) (by exact_mod_cast float64 300 (by norm_num))
    (by exact_mod_cast float64 10 (by norm_num)) (by exact_mod_cast float64 20 (by norm_num)) (by norm_num) (by norm_num) (by norm_num)
    (by norm_num [binary64]) (Or.inl (by norm_num)) ⟨by norm_num, by norm_num; linarith⟩ (by norm_num; linarith)

example : ∃ x, axisLayoutF binary64 1000 600 0 none none = .ok [x] := by
  have hu := u64
  have ht := tiny64
  norm_num at hu
  exact C138_single (by exact_mod_cast float64 1000 (by norm_num)) (by exact_mod_cast float64 600 (by norm_num)) (by norm_num)
    (Or.inr (by linarith)) (by linarith)

/-- The 27 sub-boxes of size 300 are in the box of size 1000, with margins of at least 9.99, and apart by at least 19.99. -/
example : ∃ l : List (V3 ℝ), centresF binary64 ⟨1000, 1000, 1000⟩ ⟨0, 0, 0⟩ ⟨300, 300, 300⟩ (.all (some 10)) (.all (some 20)) (some 27) = .ok l ∧
    l.length = 27 ∧ (∀ p ∈ l, SegmentIn 1000 0 9.99 300 p.x ∧ SegmentIn 1000 0 9.99 300 p.y ∧ SegmentIn 1000 0 9.99 300 p.z) ∧
    l.Pairwise (fun p q => SegmentsApart 19.99 300 p.x q.x ∨ SegmentsApart 19.99 300 p.y q.y ∨ SegmentsApart 19.99 300 p.z q.z) := by
  obtain ⟨cs, hcs, hl⟩ := example_axis 0
  have hc : centresF binary64 ⟨1000, 1000, 1000⟩ ⟨0, 0, 0⟩ ⟨300, 300, 300⟩ (.all (some 10)) (.all (some 20)) (some 27) =
      .ok ((product3 cs cs cs).take 27) := by
    unfold centresF
    simp only [Margin.toV3]
    rw [hcs]
    simp only [bind, Except.bind, hl]
    norm_num
    rfl
  have hu := u64
  have ht := tiny64
  norm_num at hu
  have f0 : binary64.IsFloat (0 : ℝ) := by exact_mod_cast float64 0 (by norm_num)
  have f10 : binary64.IsFloat (10 : ℝ) := by exact_mod_cast float64 10 (by norm_num)
  have f20 : binary64.IsFloat (20 : ℝ) := by exact_mod_cast float64 20 (by norm_num)
  have f300 : binary64.IsFloat (300 : ℝ) := by exact_mod_cast float64 300 (by norm_num)
  have f1000 : binary64.IsFloat (1000 : ℝ) := by exact_mod_cast float64 1000 (by norm_num)
  obtain ⟨h1, h2, h3⟩ := C138_boxes (by linarith) hc ⟨f1000, f1000, f1000⟩ ⟨f300, f300, f300⟩ ⟨f0, f0, f0⟩
    (by intro m hm; simp only [Requested] at hm; simp_all) (by intro m hm; simp only [Requested] at hm; simp_all)
    ⟨by linarith, by linarith, by linarith⟩ (by
      intro cs' h
      simp only [Margin.toV3, or_self, hcs, Except.ok.injEq] at h
      rw [← h, hl]
      norm_num [binary64])
  have hs : slack binary64 1000 0 ≤ 1 / 100 := by
    unfold slack
    rw [abs_zero]
    linarith
  simp only [wanted, asked, Option.getD_some] at h1 h2
  refine ⟨_, hc, h3 27 rfl, fun p hp => ?_, h2.imp fun {p q} h => ?_⟩
  · obtain ⟨⟨a1, a2⟩, ⟨a3, a4⟩, ⟨a5, a6⟩⟩ := h1 p hp
    refine ⟨⟨?_, ?_⟩, ⟨?_, ?_⟩, ⟨?_, ?_⟩⟩ <;> linarith
  · unfold SegmentsApart at h ⊢
    norm_num at h ⊢
    rcases h with (h | h) | (h | h) | (h | h)
    · exact Or.inl (Or.inl (by linarith))
    · exact Or.inl (Or.inr (by linarith))
    · exact Or.inr (Or.inl (Or.inl (by linarith)))
    · exact Or.inr (Or.inl (Or.inr (by linarith)))
    · exact Or.inr (Or.inr (Or.inl (by linarith)))
    · exact Or.inr (Or.inr (Or.inr (by linarith)))

end Verif.Props.RoundedLayout
