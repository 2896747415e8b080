import Verif.Model.RoundedTwoVectors
import Verif.Lemmas.RoundedIsometry
import Verif.Props.RoundedIsometry

/-!
# Rounding errors of `rotation_matrix_from_two_vectors`
-/

namespace Verif.Lemmas.RoundedIsometry

open Verif Verif.Model Verif.Model.RoundedIsometry

variable {F : Fmt}

theorem abs_tri (x y z : ℝ) : |x - z| ≤ |x - y| + |y - z| := by
  have := abs_add_le (x - y) (y - z)
  rwa [sub_add_sub_cancel] at this

theorem abs_le_sub (x y : ℝ) : |x| ≤ |y| + |x - y| := by
  have := abs_add_le y (x - y)
  rwa [add_sub_cancel] at this

/-- Rounding of a number not above `M`. -/
theorem rnd_bound {x M : ℝ} (h : |x| ≤ M) : |F.rnd x - x| ≤ F.u * (M + 1 / 2) := by
  have := rnd_err_tiny (F := F) x
  have := tiny_le (F := F)
  have := F.u_pos
  nlinarith

theorem rnd_one {x : ℝ} (h : |x| ≤ 1) : |F.rnd x| ≤ 1 := by
  have h1 : F.IsFloat 1 := Verif.Props.RoundedIsometry.isFloat_one
  rw [abs_le] at h ⊢
  exact ⟨Fmt.le_rnd (Fmt.isFloat_neg h1) h.1, Fmt.rnd_le h1 h.2⟩

theorem mul_one_le {x y : ℝ} (hx : |x| ≤ 1) (hy : |y| ≤ 1) : |x * y| ≤ 1 := by
  rw [abs_mul]
  nlinarith [abs_nonneg x, abs_nonneg y]

theorem mul_close {x y x' y' d e : ℝ} (hx : |x| ≤ 1) (hy : |y'| ≤ 1) (hd : |x - x'| ≤ d) (he : |y - y'| ≤ e) : |x * y - x' * y'| ≤ d + e := by
  have e1 : x * y - x' * y' = x * (y - y') + (x - x') * y' := by ring
  rw [e1]
  refine (abs_add_le _ _).trans ?_
  rw [abs_mul, abs_mul]
  nlinarith [abs_nonneg x, abs_nonneg y', abs_nonneg (x - x'), abs_nonneg (y - y')]

/-- One coordinate of the vector product. -/
theorem cross_entry {a b c d a' b' c' d' : ℝ} (ha : |a| ≤ 1) (hb : |b| ≤ 1) (hc : |c| ≤ 1) (hd : |d| ≤ 1) (hb' : |b'| ≤ 1) (hd' : |d'| ≤ 1)
    (haa : |a - a'| ≤ 6 * F.u) (hbb : |b - b'| ≤ 6 * F.u) (hcc : |c - c'| ≤ 6 * F.u) (hdd : |d - d'| ≤ 6 * F.u) :
    |F.rnd (F.rnd (a * b) - F.rnd (c * d)) - (a' * b' - c' * d')| ≤ 30 * F.u := by
  have hu := F.u_pos
  have h1 := mul_close ha hb' haa hbb
  have h2 := mul_close hc hd' hcc hdd
  have h3 := rnd_bound (F := F) (mul_one_le ha hb)
  have h4 := rnd_bound (F := F) (mul_one_le hc hd)
  have h5 := rnd_one (F := F) (mul_one_le ha hb)
  have h6 := rnd_one (F := F) (mul_one_le hc hd)
  have h7 : |F.rnd (a * b) - F.rnd (c * d)| ≤ 2 := by
    rw [abs_le] at h5 h6 ⊢
    constructor <;> linarith
  have h8 := rnd_bound (F := F) h7
  rw [abs_le] at h1 h2 h3 h4 h8 ⊢
  constructor <;> linarith

/-- Entries of the square of the matrix of a vector product. -/
inductive Quad : (V3 ℝ → ℝ) → Prop
  | xx : Quad fun v => -(v.y ^ 2 + v.z ^ 2)
  | yy : Quad fun v => -(v.x ^ 2 + v.z ^ 2)
  | zz : Quad fun v => -(v.x ^ 2 + v.y ^ 2)
  | xy : Quad fun v => v.x * v.y
  | yz : Quad fun v => v.y * v.z
  | xz : Quad fun v => v.x * v.z

theorem Quad.le {p : V3 ℝ → ℝ} (h : Quad p) (v : V3 ℝ) : |p v| ≤ v.norm ^ 2 := by
  rw [V3.norm_sq, abs_le]
  cases h <;> constructor <;> nlinarith [sq_nonneg v.x, sq_nonneg v.y, sq_nonneg v.z, sq_nonneg (v.x + v.y), sq_nonneg (v.x - v.y),
    sq_nonneg (v.y + v.z), sq_nonneg (v.y - v.z), sq_nonneg (v.x + v.z), sq_nonneg (v.x - v.z)]

theorem Quad.smul {p : V3 ℝ → ℝ} (h : Quad p) (l : ℝ) (v : V3 ℝ) : p (l • v) = l ^ 2 * p v := by
  cases h <;> simp only [V3.smul_x, V3.smul_y, V3.smul_z] <;> ring

theorem Quad.close {p : V3 ℝ → ℝ} (h : Quad p) {v w : V3 ℝ} (hv : v.norm = 1) (hw : w.norm = 1) : |p v - p w| ≤ 2 * (v - w).norm := by
  obtain ⟨dx, dy, dz⟩ := abs_le_norm (v - w)
  obtain ⟨vx, vy, vz⟩ := abs_le_norm v
  obtain ⟨wx, wy, wz⟩ := abs_le_norm w
  have ev := V3.norm_sq v
  have ew := V3.norm_sq w
  rw [hv] at vx vy vz ev
  rw [hw] at wx wy wz ew
  simp only [V3.sub_x, V3.sub_y, V3.sub_z] at dx dy dz
  have sq : ∀ {a b : ℝ}, |a| ≤ 1 → |b| ≤ 1 → |a - b| ≤ (v - w).norm → |a ^ 2 - b ^ 2| ≤ 2 * (v - w).norm := by
    intro a b ha hb hab
    have := mul_close (x := a) (y := a) (x' := b) (y' := b) ha hb hab hab
    rw [← sq, ← sq] at this
    linarith
  cases h with
  | xx =>
    have e : -(v.y ^ 2 + v.z ^ 2) - -(w.y ^ 2 + w.z ^ 2) = v.x ^ 2 - w.x ^ 2 := by linarith
    rw [e]; exact sq vx wx dx
  | yy =>
    have e : -(v.x ^ 2 + v.z ^ 2) - -(w.x ^ 2 + w.z ^ 2) = v.y ^ 2 - w.y ^ 2 := by linarith
    rw [e]; exact sq vy wy dy
  | zz =>
    have e : -(v.x ^ 2 + v.y ^ 2) - -(w.x ^ 2 + w.y ^ 2) = v.z ^ 2 - w.z ^ 2 := by linarith
    rw [e]; exact sq vz wz dz
  | xy => have := mul_close vx wy dx dy; linarith
  | yz => have := mul_close vy wz dy dz; linarith
  | xz => have := mul_close vx wz dx dz; linarith

/-- Directions of two vectors that are close. -/
theorem direction_close {v w : V3 ℝ} (hv : 0 < v.norm) (hw : 0 < w.norm) {d : ℝ} (h : (v - w).norm ≤ d) :
    ((1 / v.norm) • v - (1 / w.norm) • w).norm ≤ 2 * d / w.norm := by
  have hs : ∀ (l : ℝ) (u : V3 ℝ), 0 ≤ l → (l • u).norm = l * u.norm := by
    intro l u hl
    refine (pow_left_inj₀ (V3.norm_nonneg _) (mul_nonneg hl (V3.norm_nonneg _)) two_ne_zero).1 ?_
    rw [mul_pow, V3.norm_sq, V3.norm_sq]
    simp only [V3.smul_x, V3.smul_y, V3.smul_z]
    ring
  have hs' : ∀ (l : ℝ) (u : V3 ℝ), (l • u).norm = |l| * u.norm := by
    intro l u
    refine (pow_left_inj₀ (V3.norm_nonneg _) (mul_nonneg (abs_nonneg l) (V3.norm_nonneg _)) two_ne_zero).1 ?_
    rw [mul_pow, V3.norm_sq, V3.norm_sq, sq_abs]
    simp only [V3.smul_x, V3.smul_y, V3.smul_z]
    ring
  have e : (1 / v.norm) • v - (1 / w.norm) • w = (1 / v.norm - 1 / w.norm) • v + (1 / w.norm) • (v - w) := by
    ext <;> simp <;> ring
  rw [e]
  refine (norm_add_le _ _).trans ?_
  rw [hs', hs _ _ (by positivity)]
  have h1 : |1 / v.norm - 1 / w.norm| * v.norm = |w.norm - v.norm| / w.norm := by
    have : 1 / v.norm - 1 / w.norm = (w.norm - v.norm) / w.norm / v.norm := by field_simp
    rw [this, abs_div, abs_div, abs_of_pos hv, abs_of_pos hw]
    field_simp
  rw [h1]
  have h2 := norm_sub_le' v w
  have h3 := norm_sub_le' w v
  rw [norm_sub_comm w v] at h3
  have h4 : |w.norm - v.norm| ≤ d := by rw [abs_le]; constructor <;> linarith
  have h5 : |w.norm - v.norm| / w.norm ≤ d / w.norm := by gcongr
  have h6 : 1 / w.norm * (v - w).norm ≤ d / w.norm := by rw [one_div_mul_eq_div]; gcongr
  have e2 : 2 * d / w.norm = d / w.norm + d / w.norm := by ring
  linarith

/-- Ratio of the squared length and of its rounded value. -/
theorem ratio_close {V q u : ℝ} (hu0 : 0 < u) (hu : u ≤ 1 / 1024) (hV : 0 < V) (hs : (1 - u) ^ 7 * V ≤ q) (hs' : q ≤ (1 + u) ^ 7 * V) :
    |V / q - 1| ≤ 8 * u := by
  have hq0 : 0 < q := lt_of_lt_of_le (mul_pos (pow_pos (by linarith) 7) hV) hs
  have b1 : (1 + u) ^ 7 ≤ 1 + 8 * u := by
    have e : (1 + u) ^ 7 = 1 + 7 * u + u * u * (21 + 35 * u + 35 * u ^ 2 + 21 * u ^ 3 + 7 * u ^ 4 + u ^ 5) := by ring
    have : u * (21 + 35 * u + 35 * u ^ 2 + 21 * u ^ 3 + 7 * u ^ 4 + u ^ 5) ≤ 1 := by
      have i2 : u ^ 2 ≤ 1 := pow_le_one₀ hu0.le (by linarith)
      have i3 : u ^ 3 ≤ 1 := pow_le_one₀ hu0.le (by linarith)
      have i4 : u ^ 4 ≤ 1 := pow_le_one₀ hu0.le (by linarith)
      have i5 : u ^ 5 ≤ 1 := pow_le_one₀ hu0.le (by linarith)
      have : 21 + 35 * u + 35 * u ^ 2 + 21 * u ^ 3 + 7 * u ^ 4 + u ^ 5 ≤ 120 := by linarith
      have p : 0 ≤ 21 + 35 * u + 35 * u ^ 2 + 21 * u ^ 3 + 7 * u ^ 4 + u ^ 5 := by positivity
      nlinarith
    rw [e]
    nlinarith
  have b2 : 1 - 7 * u ≤ (1 - u) ^ 7 := by
    have := one_add_mul_le_pow (a := -u) (by linarith) 7
    push_cast at this
    have e : (1 + -u) ^ 7 = (1 - u) ^ 7 := by ring
    rw [e] at this
    linarith
  rw [abs_le]
  constructor
  · have : (1 - 8 * u) * q ≤ V := by
      have : q ≤ (1 + 8 * u) * V := hs'.trans (mul_le_mul_of_nonneg_right b1 hV.le)
      have h3 : (1 - 8 * u) * q ≤ (1 - 8 * u) * ((1 + 8 * u) * V) := mul_le_mul_of_nonneg_left this (by linarith)
      have h4 : V - (1 - 8 * u) * ((1 + 8 * u) * V) = 64 * u ^ 2 * V := by ring
      have h5 : 0 ≤ 64 * u ^ 2 * V := by positivity
      linarith
    have := (le_div_iff₀ hq0).2 this
    linarith
  · have : V ≤ (1 + 8 * u) * q := by
      have : (1 - 7 * u) * V ≤ q := (mul_le_mul_of_nonneg_right b2 hV.le).trans hs
      have h3 : (1 + 8 * u) * ((1 - 7 * u) * V) ≤ (1 + 8 * u) * q := mul_le_mul_of_nonneg_left this (by linarith)
      have h4 : V ≤ (1 + 8 * u) * ((1 - 7 * u) * V) := by
        have : (1 + 8 * u) * ((1 - 7 * u) * V) - V = u * V * (1 - 56 * u) := by ring
        have : 0 ≤ u * V * (1 - 56 * u) := mul_nonneg (mul_nonneg hu0.le hV.le) (by linarith)
        linarith
      linarith
    have := (div_le_iff₀ hq0).2 this
    linarith

/-- One entry of the matrix. -/
theorem two_entry {e k k' kk P V c c' s g t T : ℝ} (hu : F.u ≤ 1 / 1024) (he : 0 ≤ e ∧ e ≤ 1) (hk : |k - k'| ≤ 30 * F.u) (hk' : |k'| ≤ 1)
    (hV : 0 < V) (hV2 : V ≤ 6 / 5) (hkk : |kk - P| ≤ 43 * F.u * V) (hP : |P| ≤ V) (hc : |c - c'| ≤ 64 * F.u) (hc' : |c'| ≤ 1)
    (hs : (1 - F.u) ^ 7 * V ≤ F.rnd (s ^ 2)) (hs' : F.rnd (s ^ 2) ≤ (1 + F.u) ^ 7 * V) (hT : |P / V * (1 - c') - T| ≤ g * F.u * t) :
    |twoEntryF F e k kk c s - (e + k' + T)| ≤ 220 * F.u + g * F.u * t := by
  have hu0 := F.u_pos
  set q := F.rnd (s ^ 2) with hq
  have hq0 : 0 < q := lt_of_lt_of_le (mul_pos (pow_pos (by linarith) 7) hV) hs
  rw [abs_le] at hc'
  have h1c : |1 - c| ≤ 21 / 10 := by rw [abs_le] at hc ⊢; constructor <;> linarith
  set G := F.rnd (1 - c) with hG
  have hg : |G - (1 - c')| ≤ 67 * F.u := by
    have := rnd_bound (F := F) h1c
    rw [abs_le] at this hc ⊢
    constructor <;> linarith
  have hg2 : |G| ≤ 207 / 100 := by rw [abs_le] at hg ⊢; constructor <;> linarith
  -- V / q
  have hr : |V / q - 1| ≤ 8 * F.u := ratio_close hu0 hu hV hs hs'
  set f := F.rnd (G / q) with hf
  have hVq : V / q ≤ 101 / 100 ∧ 0 ≤ V / q := by
    rw [abs_le] at hr
    exact ⟨by linarith, by positivity⟩
  have hfV : |f * V - G * (V / q)| ≤ 27 / 10 * F.u := by
    have h1 := rnd_err_tiny (F := F) (G / q)
    have e1 : f * V - G * (V / q) = (f - G / q) * V := by field_simp
    rw [e1, abs_mul, abs_of_pos hV]
    have h2 : |f - G / q| * V ≤ F.u * (|G / q| + F.tiny) * V := mul_le_mul_of_nonneg_right h1 hV.le
    have e2 : F.u * (|G / q| + F.tiny) * V = F.u * (|G| * (V / q) + F.tiny * V) := by
      rw [abs_div, abs_of_pos hq0]; field_simp
    rw [e2] at h2
    refine h2.trans ?_
    have h3 : |G| * (V / q) ≤ 207 / 100 * (101 / 100) := mul_le_mul hg2 hVq.1 hVq.2 (by norm_num)
    have h4 : F.tiny * V ≤ 1 / 2 * (6 / 5) := mul_le_mul tiny_le hV2 hV.le (by norm_num)
    have h5 : |G| * (V / q) + F.tiny * V ≤ 27 / 10 := by linarith
    have := mul_le_mul_of_nonneg_left h5 hu0.le
    linarith
  have hGV : |G * (V / q) - G| ≤ 17 * F.u := by
    have e1 : G * (V / q) - G = G * (V / q - 1) := by ring
    rw [e1, abs_mul]
    have := mul_le_mul hg2 hr (abs_nonneg _) (by norm_num)
    linarith
  have hphi : |f * V - (1 - c')| ≤ 87 * F.u := by
    rw [abs_le] at hfV hGV hg ⊢
    constructor <;> linarith
  have hphi2 : |f * V| ≤ 21 / 10 := by
    rw [abs_le] at hphi ⊢
    constructor <;> linarith
  have hkf : |kk * f - P / V * (1 - c')| ≤ 178 * F.u := by
    have e1 : kk * f - P / V * (1 - c') = (kk - P) / V * (f * V) + P / V * (f * V - (1 - c')) := by field_simp; ring
    rw [e1]
    refine (abs_add_le _ _).trans ?_
    rw [abs_mul ((kk - P) / V), abs_mul (P / V)]
    have h1 : |(kk - P) / V| ≤ 43 * F.u := by rw [abs_div, abs_of_pos hV]; exact (div_le_iff₀ hV).2 hkk
    have h2 : |P / V| ≤ 1 := by rw [abs_div, abs_of_pos hV]; exact (div_le_one hV).2 hP
    have h3 := mul_le_mul h1 hphi2 (abs_nonneg _) (by linarith)
    have h4 := mul_le_mul h2 hphi (abs_nonneg _) (by norm_num)
    linarith
  have hPV : |P / V * (1 - c')| ≤ 2 := by
    have h2 : |P / V| ≤ 1 := by rw [abs_div, abs_of_pos hV]; exact (div_le_one hV).2 hP
    have h3 : |1 - c'| ≤ 2 := by rw [abs_le]; constructor <;> linarith
    rw [abs_mul]
    have := mul_le_mul h2 h3 (abs_nonneg _) (by norm_num)
    linarith
  have hkf2 : |kk * f| ≤ 22 / 10 := by
    rw [abs_le] at hkf hPV ⊢
    constructor <;> linarith
  have h1 := rnd_bound (F := F) hkf2
  have hk2 : |e + k| ≤ 204 / 100 := by
    rw [abs_le] at hk hk' ⊢
    constructor <;> linarith
  have h2 := rnd_bound (F := F) hk2
  have h3 : |F.rnd (e + k) + F.rnd (kk * f)| ≤ 43 / 10 := by
    rw [abs_le] at h1 h2 hkf2 hk2 ⊢
    constructor <;> linarith
  have h4 := rnd_bound (F := F) h3
  have e0 : twoEntryF F e k kk c s = F.rnd (F.rnd (e + k) + F.rnd (kk * f)) := rfl
  rw [e0]
  rw [abs_le] at h1 h2 h4 hk hkf hT ⊢
  constructor <;> linarith

end Verif.Lemmas.RoundedIsometry
