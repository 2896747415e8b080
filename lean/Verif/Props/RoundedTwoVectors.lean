import Verif.Lemmas.RoundedTwoVectors
import Verif.Lemmas.RoundedGap

/-!
# C129: rotations between two vectors with rounding errors
-/

namespace Verif.Props.RoundedIsometry

open Verif Verif.Spec Verif.Model Verif.Model.RoundedIsometry Verif.Lemmas.RoundedIsometry Verif.Props

variable {F : Fmt}

theorem skew_rows (v : V3 ℝ) : ((row0 (skew v)).norm ≤ v.norm ∧ (row1 (skew v)).norm ≤ v.norm ∧ (row2 (skew v)).norm ≤ v.norm) ∧
    (row0 (skew v).tr).norm ≤ v.norm ∧ (row1 (skew v).tr).norm ≤ v.norm ∧ (row2 (skew v).tr).norm ≤ v.norm := by
  have e := V3.norm_sq v
  refine ⟨⟨?_, ?_, ?_⟩, ?_, ?_, ?_⟩ <;> refine norm_le_of_sq (V3.norm_nonneg v) ?_ <;> rw [e] <;>
    simp only [skew, row0, row1, row2, M3.tr] <;> nlinarith [sq_nonneg v.x, sq_nonneg v.y, sq_nonneg v.z]

/-- The vector product of computed unit vectors, and its length, are near those of the exact ones. -/
theorem cross_close {a b n m : V3 ℝ} (ha : |a.x| ≤ 1 ∧ |a.y| ≤ 1 ∧ |a.z| ≤ 1) (hb : |b.x| ≤ 1 ∧ |b.y| ≤ 1 ∧ |b.z| ≤ 1)
    (hm : |m.x| ≤ 1 ∧ |m.y| ≤ 1 ∧ |m.z| ≤ 1)
    (han : |a.x - n.x| ≤ 6 * F.u ∧ |a.y - n.y| ≤ 6 * F.u ∧ |a.z - n.z| ≤ 6 * F.u)
    (hbm : |b.x - m.x| ≤ 6 * F.u ∧ |b.y - m.y| ≤ 6 * F.u ∧ |b.z - m.z| ≤ 6 * F.u) :
    |(crossF F a b).x - (V3.cross n m).x| ≤ 30 * F.u ∧ |(crossF F a b).y - (V3.cross n m).y| ≤ 30 * F.u ∧
      |(crossF F a b).z - (V3.cross n m).z| ≤ 30 * F.u := by
  obtain ⟨ax, ay, az⟩ := ha
  obtain ⟨bx, by', bz⟩ := hb
  obtain ⟨mx, my, mz⟩ := hm
  obtain ⟨dx, dy, dz⟩ := han
  obtain ⟨ex, ey, ez⟩ := hbm
  exact ⟨cross_entry ay bz az by' mz my dy ez dz ey, cross_entry az bx ax bz mx mz dz ex dx ez, cross_entry ax by' ay bx my mx dx ey dy ex⟩

theorem prodErr_le (hu : F.u ≤ 1 / 1024) : prodErr F ≤ 61 / 10 * F.u := by
  have hu0 := F.u_pos
  have e : prodErr F = 6 * F.u + F.u * F.u * (15 + 20 * F.u + 15 * F.u ^ 2 + 6 * F.u ^ 3 + F.u ^ 4) := by
    unfold prodErr sumErr; ring
  have i2 : F.u ^ 2 ≤ 1 := pow_le_one₀ hu0.le (by linarith)
  have i3 : F.u ^ 3 ≤ 1 := pow_le_one₀ hu0.le (by linarith)
  have i4 : F.u ^ 4 ≤ 1 := pow_le_one₀ hu0.le (by linarith)
  have h5 : 15 + 20 * F.u + 15 * F.u ^ 2 + 6 * F.u ^ 3 + F.u ^ 4 ≤ 57 := by linarith
  have h6 : F.u * (15 + 20 * F.u + 15 * F.u ^ 2 + 6 * F.u ^ 3 + F.u ^ 4) ≤ 1 / 1024 * 57 :=
    mul_le_mul hu h5 (by positivity) (by norm_num)
  rw [e, mul_assoc]
  nlinarith

theorem dot_close {a b n m : V3 ℝ} (hu : F.u ≤ 1 / 1024) (hn : n.norm = 1) (hm : m.norm = 1)
    (han : |a.x - n.x| ≤ 6 * F.u ∧ |a.y - n.y| ≤ 6 * F.u ∧ |a.z - n.z| ≤ 6 * F.u)
    (hbm : |b.x - m.x| ≤ 6 * F.u ∧ |b.y - m.y| ≤ 6 * F.u ∧ |b.z - m.z| ≤ 6 * F.u) {c : ℝ} (h : DotF F a b c) :
    |c - V3.dot n m| ≤ 64 * F.u := by
  have hu0 := F.u_pos
  have ht := tiny_le (F := F)
  have h1 : (a - n).norm ≤ 3 * (6 * F.u) := norm_le_three han.1 han.2.1 han.2.2
  have h2 : (b - m).norm ≤ 3 * (6 * F.u) := norm_le_three hbm.1 hbm.2.1 hbm.2.2
  have h3 := norm_sub_le' a n
  have h4 := norm_sub_le' b m
  have hA : a.norm ≤ 102 / 100 := by linarith
  have hB : b.norm ≤ 102 / 100 := by linarith
  have hp := prodErr_le hu
  have h5 := dot_err h
  have h6 : a.norm * b.norm + 6 * F.tiny ≤ 41 / 10 := by
    have := mul_le_mul hA hB (V3.norm_nonneg b) (by norm_num)
    linarith
  have h7 : |c - V3.dot a b| ≤ 61 / 10 * F.u * (41 / 10) :=
    h5.trans (mul_le_mul hp h6 (add_nonneg (mul_nonneg (V3.norm_nonneg a) (V3.norm_nonneg b)) (by have := tiny_pos (F := F); linarith))
      (by linarith))
  have h8 : V3.dot a b - V3.dot n m = V3.dot (a - n) b + V3.dot n (b - m) := by
    simp only [V3.dot, V3.sub_x, V3.sub_y, V3.sub_z]; ring
  have h9 : |V3.dot (a - n) b| ≤ 3 * (6 * F.u) * (102 / 100) :=
    (dot_le _ _).trans (mul_le_mul h1 hB (V3.norm_nonneg b) (by linarith))
  have h10 : |V3.dot n (b - m)| ≤ 3 * (6 * F.u) := by
    have := dot_le n (b - m)
    rw [hn, one_mul] at this
    exact this.trans h2
  have h11 := abs_add_le (V3.dot (a - n) b) (V3.dot n (b - m))
  rw [← h8] at h11
  have := abs_tri c (V3.dot a b) (V3.dot n m)
  linarith

/-- The matrix from unit vectors, in exact arithmetic. -/
theorem two_exact {a b : V3 ℝ} (ha : a ≠ 0) (hb : b ≠ 0) {n m : V3 ℝ} (hn : n = ⟨a.x / a.norm, a.y / a.norm, a.z / a.norm⟩)
    (hm : m = ⟨b.x / b.norm, b.y / b.norm, b.z / b.norm⟩) {R : M3 ℝ} (h : rotationFromTwoVectors a b = .ok R)
    {v : V3 ℝ} (hv : v = V3.cross n m) :
    R = 1 + skew v + ((1 - V3.dot n m) / v.norm ^ 2) • (skew v * skew v) := by
  have h1 := normalize_of_ne ha
  have h2 := normalize_of_ne hb
  rw [← hn] at h1
  rw [← hm] at h2
  simp only [rotationFromTwoVectors, h1, h2, bind, Except.bind, pure, Except.pure, ← hv] at h
  split_ifs at h with h3
  · have := Except.ok.inj h
    rw [← this, (V3.norm_eq_zero v).1 h3]
    ext <;> simp [skew]
  · exact (Except.ok.inj h).symm

theorem quad_norm {p : V3 ℝ → ℝ} (h : Quad p) {v : V3 ℝ} (hv : 0 < v.norm) :
    ((1 / v.norm) • v).norm = 1 ∧ p ((1 / v.norm) • v) = p v / v.norm ^ 2 := by
  refine ⟨?_, ?_⟩
  · refine V3.norm_eq_one_of_sq ?_
    have := V3.norm_sq v
    simp only [V3.smul_x, V3.smul_y, V3.smul_z]
    field_simp
    linarith
  · rw [h.smul]; field_simp

/-- Part of the rotation by the square of the matrix: exact against the direction of the computed vector product. -/
theorem square_close {p : V3 ℝ → ℝ} (h : Quad p) {v w : V3 ℝ} {c t d : ℝ} (hw : 0 < w.norm) (hd : 0 ≤ d) (ht : 0 ≤ t) (hc : 1 - c = v.norm * t)
    (hvw : (w - v).norm ≤ d) : |p w / w.norm ^ 2 * (1 - c) - (1 - c) / v.norm ^ 2 * p v| ≤ 4 * d * t := by
  rcases (V3.norm_nonneg v).lt_or_eq with hv | hv
  · obtain ⟨w1, w2⟩ := quad_norm h hw
    obtain ⟨v1, v2⟩ := quad_norm h hv
    have h1 := h.close w1 v1
    rw [w2, v2] at h1
    have h2 := direction_close hw hv hvw
    have e : p w / w.norm ^ 2 * (1 - c) - (1 - c) / v.norm ^ 2 * p v = (p w / w.norm ^ 2 - p v / v.norm ^ 2) * (1 - c) := by ring
    rw [e, abs_mul, hc, abs_of_nonneg (mul_nonneg hv.le ht)]
    have h3 : |p w / w.norm ^ 2 - p v / v.norm ^ 2| ≤ 2 * (2 * d / v.norm) := h1.trans (by linarith)
    refine (mul_le_mul_of_nonneg_right h3 (mul_nonneg hv.le ht)).trans (le_of_eq ?_)
    field_simp
    ring
  · rw [← hv, zero_mul] at hc
    rw [hc]
    simp only [mul_zero, zero_div, zero_mul, sub_self, abs_zero]
    positivity

set_option maxHeartbeats 1000000 in
/-- C129: without underflow, the matrix computed from two vectors is that of a rotation of the first one to the direction of the second one
up to 1100 (1 + tan(θ/2)) rounding errors, θ being the angle between them, less than 180 degrees. -/
theorem C129_accuracy (hu : F.u ≤ 1 / 1024) {a b : V3 ℝ} (ha : a ≠ 0) (hb : b ≠ 0)
    (hax : Rounded.Regular F a.x) (hay : Rounded.Regular F a.y) (haz : Rounded.Regular F a.z)
    (hbx : Rounded.Regular F b.x) (hby : Rounded.Regular F b.y) (hbz : Rounded.Regular F b.z)
    {w : V3 ℝ} (hw : w = crossF F (losF F a) (losF F b)) (hwx : Rounded.Regular F w.x) (hwy : Rounded.Regular F w.y)
    (hwz : Rounded.Regular F w.z) {θ : ℝ} (hθ0 : 0 ≤ θ) (hθ : θ < Real.pi) (hcos : V3.dot a b = a.norm * b.norm * Real.cos θ)
    {R : M3 ℝ} (h : TwoVectorsF F a b R) :
    ∃ q : M3 ℝ, LinearRotation q.mulVec ∧ (∃ l : ℝ, 0 < l ∧ q.mulVec a = l • b) ∧ rotationFromTwoVectors a b = .ok q ∧
      frob (R - q) ≤ 1100 * F.u * (1 + Real.tan (θ / 2)) := by
  have hu0 := F.u_pos
  have hna := V3.norm_pos ha
  have hnb := V3.norm_pos hb
  have hC0 : 0 < Real.cos (θ / 2) := Real.cos_pos_of_mem_Ioo ⟨by linarith, by linarith⟩
  have hS0 : 0 ≤ Real.sin (θ / 2) := Real.sin_nonneg_of_nonneg_of_le_pi (by linarith) (by linarith)
  have hcs := Real.sin_sq_add_cos_sq (θ / 2)
  have hcosθ : Real.cos θ = 1 - 2 * Real.sin (θ / 2) ^ 2 := by
    have := Real.cos_two_mul (θ / 2)
    rw [mul_div_cancel₀ θ (two_ne_zero)] at this
    nlinarith
  have hsinθ : Real.sin θ = 2 * Real.sin (θ / 2) * Real.cos (θ / 2) := by
    have := Real.sin_two_mul (θ / 2)
    rwa [mul_div_cancel₀ θ (two_ne_zero)] at this
  have hnot : ¬ Antiparallel a b := by
    rintro ⟨l, hl, rfl⟩
    have e1 : (l • a).norm = -l * a.norm := by
      refine (pow_left_inj₀ (V3.norm_nonneg _) (mul_nonneg (by linarith) hna.le) two_ne_zero).1 ?_
      rw [mul_pow, V3.norm_sq, V3.norm_sq]
      simp only [V3.smul_x, V3.smul_y, V3.smul_z]
      ring
    have e2 : V3.dot a (l • a) = l * a.norm ^ 2 := by
      rw [V3.norm_sq]; simp only [V3.dot, V3.smul_x, V3.smul_y, V3.smul_z]; ring
    rw [e1, e2] at hcos
    have e3 : l * a.norm ^ 2 * (1 + Real.cos θ) = 0 := by linear_combination hcos
    have e4 : l * a.norm ^ 2 ≠ 0 := mul_ne_zero hl.ne (pow_ne_zero 2 hna.ne')
    have e5 := (mul_eq_zero.1 e3).resolve_left e4
    have : 0 < Real.cos (θ / 2) ^ 2 := by positivity
    nlinarith
  obtain ⟨q, hq, hrot, hl⟩ := C07_partial ha hb hnot
  refine ⟨q, hrot, hl, hq, ?_⟩
  obtain ⟨n, hn⟩ : ∃ n : V3 ℝ, n = ⟨a.x / a.norm, a.y / a.norm, a.z / a.norm⟩ := ⟨_, rfl⟩
  obtain ⟨m, hm⟩ : ∃ m : V3 ℝ, m = ⟨b.x / b.norm, b.y / b.norm, b.z / b.norm⟩ := ⟨_, rfl⟩
  obtain ⟨v, hv⟩ : ∃ v, v = V3.cross n m := ⟨_, rfl⟩
  have hqe := two_exact ha hb hn hm hq hv
  have hn2 : n.x ^ 2 + n.y ^ 2 + n.z ^ 2 = 1 := by
    have := V3.norm_sq a
    rw [hn]
    simp only
    field_simp
    linarith
  have hm2 : m.x ^ 2 + m.y ^ 2 + m.z ^ 2 = 1 := by
    have := V3.norm_sq b
    rw [hm]
    simp only
    field_simp
    linarith
  have hn1 := V3.norm_eq_one_of_sq hn2
  have hm1 := V3.norm_eq_one_of_sq hm2
  have hc : V3.dot n m = Real.cos θ := by
    have : V3.dot n m * (a.norm * b.norm) = V3.dot a b := by
      rw [hn, hm]
      simp only [V3.dot]
      field_simp
    rw [hcos, mul_comm] at this
    exact mul_left_cancel₀ (mul_pos hna hnb).ne' this
  set c := V3.dot n m with hcdef
  have hlag : v.norm ^ 2 = 1 - c ^ 2 := by
    have : (V3.cross n m).x ^ 2 + (V3.cross n m).y ^ 2 + (V3.cross n m).z ^ 2 + (V3.dot n m) ^ 2
        = (n.x ^ 2 + n.y ^ 2 + n.z ^ 2) * (m.x ^ 2 + m.y ^ 2 + m.z ^ 2) := by
      simp only [V3.cross, V3.dot]; ring
    rw [hn2, hm2] at this
    rw [V3.norm_sq, hv]; linarith
  have hvn : v.norm = Real.sin θ := by
    refine (pow_left_inj₀ (V3.norm_nonneg _) (Real.sin_nonneg_of_nonneg_of_le_pi hθ0 hθ.le) two_ne_zero).1 ?_
    rw [hlag, hc]
    have := Real.sin_sq_add_cos_sq θ
    linarith
  set t := Real.tan (θ / 2) with ht
  have ht0 : 0 ≤ t := by rw [ht, Real.tan_eq_sin_div_cos]; positivity
  have h1c : 1 - c = v.norm * t := by
    rw [hc, hvn, hcosθ, hsinθ, ht, Real.tan_eq_sin_div_cos]
    field_simp
    ring
  have hc1 : |c| ≤ 1 := by rw [hc]; exact Real.abs_cos_le_one θ
  have hv1 : v.norm ≤ 1 := by rw [hvn]; exact Real.sin_le_one θ
  obtain ⟨A1, A2⟩ := C128_axis ha hax hay haz
  obtain ⟨B1, B2⟩ := C128_axis hb hbx hby hbz
  have A3 : |(losF F a).x - n.x| ≤ 6 * F.u ∧ |(losF F a).y - n.y| ≤ 6 * F.u ∧ |(losF F a).z - n.z| ≤ 6 * F.u := by rw [hn]; exact A2
  have B3 : |(losF F b).x - m.x| ≤ 6 * F.u ∧ |(losF F b).y - m.y| ≤ 6 * F.u ∧ |(losF F b).z - m.z| ≤ 6 * F.u := by rw [hm]; exact B2
  obtain ⟨wx, wy, wz⟩ := cross_close A1 B1 (unit_le hm2) A3 B3
  rw [← hw, ← hv] at wx wy wz
  have hwv : (w - v).norm ≤ 90 * F.u := (norm_le_three (u := w - v) wx wy wz).trans (by linarith)
  obtain ⟨vx, vy, vz⟩ := abs_le_norm v
  obtain ⟨D1, D2, D3, -⟩ := Rounded.C113_coordinates F w hwx hwy hwz
  obtain ⟨-, -, h⟩ := h
  rw [← hw] at h
  set T : (V3 ℝ → ℝ) → ℝ := fun p => (1 - c) / v.norm ^ 2 * p v with hT
  have hq' : q = ⟨1 + 0 + T fun v => -(v.y ^ 2 + v.z ^ 2), 0 + -v.z + T fun v => v.x * v.y, 0 + v.y + T fun v => v.x * v.z,
      0 + v.z + T fun v => v.x * v.y, 1 + 0 + T fun v => -(v.x ^ 2 + v.z ^ 2), 0 + -v.x + T fun v => v.y * v.z,
      0 + -v.y + T fun v => v.x * v.z, 0 + v.x + T fun v => v.y * v.z, 1 + 0 + T fun v => -(v.x ^ 2 + v.y ^ 2)⟩ := by
    rw [hqe, hT]
    generalize (1 - c) / v.norm ^ 2 = x
    ext <;> simp [skew, -mul_eq_mul_left_iff] <;> ring
  have hfin : 3 * (220 * F.u + 360 * F.u * t) ≤ 1100 * F.u * (1 + t) := by
    have := mul_nonneg hu0.le ht0
    linarith
  have h0v : |(0 : ℝ)| ≤ v.norm := by rw [abs_zero]; exact V3.norm_nonneg v
  have nx : |-v.x| ≤ v.norm := by rwa [abs_neg]
  have ny : |-v.y| ≤ v.norm := by rwa [abs_neg]
  have nz : |-v.z| ≤ v.norm := by rwa [abs_neg]
  rcases h with ⟨hs, rfl⟩ | ⟨hs, c', kk, hdot, hmul, rfl⟩
  · rw [hs] at D1 D2 D3
    have hw0 : w = 0 := V3.ext (abs_nonpos_iff.1 D1) (abs_nonpos_iff.1 D2) (abs_nonpos_iff.1 D3)
    have hv9 : v.norm ≤ 90 * F.u := by
      have := norm_sub_comm w v
      rw [this, hw0] at hwv
      have e : v - 0 = v := by ext <;> simp
      rwa [e] at hwv
    have key : ∀ {e k : ℝ} {p : V3 ℝ → ℝ}, Quad p → |k| ≤ v.norm → |e - (e + k + T p)| ≤ 220 * F.u + 360 * F.u * t := by
      intro e k p hp hk
      have h1 : |T p| ≤ 1 - c := by
        rw [hT]
        simp only
        rw [abs_le] at hc1
        rcases (V3.norm_nonneg v).lt_or_eq with h | h
        · rw [div_mul_eq_mul_div, abs_div, abs_mul, abs_of_nonneg (by linarith : 0 ≤ 1 - c), abs_of_nonneg (sq_nonneg v.norm),
            div_le_iff₀ (by positivity)]
          exact mul_le_mul_of_nonneg_left (hp.le v) (by linarith)
        · rw [← h]
          simp
          linarith
      have h2 : 1 - c ≤ 90 * F.u * t := by rw [h1c]; exact mul_le_mul_of_nonneg_right hv9 ht0
      have h3 : e - (e + k + T p) = -(k + T p) := by ring
      have h4 := abs_add_le k (T p)
      have h5 := mul_nonneg hu0.le ht0
      rw [h3, abs_neg]
      linarith
    refine (frob_le_entries (b := 220 * F.u + 360 * F.u * t) ?_ ?_ ?_ ?_ ?_ ?_ ?_ ?_ ?_).trans hfin <;> rw [hq']
    exacts [key .xx h0v, key .xy nz, key .xz vy, key .xy vz, key .yy h0v, key .yz nx, key .xz ny, key .yz vx, key .zz h0v]
  · have hwne : w ≠ 0 := by
      rintro rfl
      exact hs (by simp [Model.Rounded.distanceF, Fmt.rnd_zero])
    have hw0 := V3.norm_pos hwne
    set s := Model.Rounded.distanceF F w with hsdef
    have hsq : F.tiny ≤ s ^ 2 ∧ F.tiny ≤ w.norm ^ 2 := by
      have big : ∀ {x : ℝ}, Rounded.Regular F x → x ≠ 0 → |x| ≤ s → |x| ≤ w.norm → F.tiny ≤ s ^ 2 ∧ F.tiny ≤ w.norm ^ 2 := by
        intro x hx h0 h1 h2
        have h3 := hx.2.resolve_right h0
        rw [← sq_abs] at h3
        exact ⟨h3.trans (pow_le_pow_left₀ (abs_nonneg x) h1 2), h3.trans (pow_le_pow_left₀ (abs_nonneg x) h2 2)⟩
      obtain ⟨n1, n2, n3⟩ := abs_le_norm w
      by_cases e1 : w.x = 0
      · by_cases e2 : w.y = 0
        · exact big hwz (fun e3 => hwne (V3.ext e1 e2 e3)) D3 n3
        · exact big hwy e2 D2 n2
      · exact big hwx e1 D1 n1
    obtain ⟨lo, hi⟩ := Rounded.C113_accuracy F w hwx hwy hwz
    have eN : Real.sqrt (w.x ^ 2 + w.y ^ 2 + w.z ^ 2) = w.norm := rfl
    rw [eN, ← hsdef] at lo hi
    obtain ⟨r1, r2⟩ := Rounded.rel (F := F) (sq_nonneg s) (.inl hsq.1)
    have q1 : (1 - F.u) ^ 7 * w.norm ^ 2 ≤ F.rnd (s ^ 2) := by
      refine le_trans ?_ r1
      have h1 := pow_le_pow_left₀ (mul_nonneg (pow_nonneg (by linarith) 3) hw0.le) lo 2
      have h2 := mul_le_mul_of_nonneg_left h1 (by linarith : 0 ≤ 1 - F.u)
      refine le_trans (le_of_eq ?_) h2
      ring
    have q2 : F.rnd (s ^ 2) ≤ (1 + F.u) ^ 7 * w.norm ^ 2 := by
      refine r2.trans ?_
      have h1 := pow_le_pow_left₀ (le_trans (abs_nonneg _) D1) hi 2
      have h2 := mul_le_mul_of_nonneg_left h1 (by linarith : 0 ≤ 1 + F.u)
      refine h2.trans (le_of_eq ?_)
      ring
    have hV2 : w.norm ^ 2 ≤ 6 / 5 := by
      have h1 := norm_sub_le' w v
      have h2 : w.norm ≤ 109 / 100 := by linarith
      have := pow_le_pow_left₀ hw0.le h2 2
      linarith
    have hdc := dot_close hu hn1 hm1 A3 B3 hdot
    have hkk : ∀ {r l : V3 ℝ} {y P : ℝ}, r.norm ≤ w.norm → l.norm ≤ w.norm → DotF F r l y → V3.dot r l = P →
        |y - P| ≤ 43 * F.u * w.norm ^ 2 := by
      intro r l y P hr hl hy hP
      have h1 := dot_err hy
      rw [hP] at h1
      have h2 : r.norm * l.norm + 6 * F.tiny ≤ 7 * w.norm ^ 2 := by
        have := mul_le_mul hr hl (V3.norm_nonneg l) hw0.le
        have := hsq.2
        linarith
      have h3 := mul_le_mul (prodErr_le hu) h2 (add_nonneg (mul_nonneg (V3.norm_nonneg r) (V3.norm_nonneg l))
        (by have := tiny_pos (F := F); linarith)) (by linarith : 0 ≤ 61 / 10 * F.u)
      refine (h1.trans h3).trans ?_
      have : 0 ≤ F.u * w.norm ^ 2 := by positivity
      linarith
    have key : ∀ {e k k' y : ℝ} {p : V3 ℝ → ℝ} {r l : V3 ℝ}, Quad p → 0 ≤ e ∧ e ≤ 1 → |k - k'| ≤ 30 * F.u → |k'| ≤ v.norm →
        r.norm ≤ w.norm → l.norm ≤ w.norm → DotF F r l y → V3.dot r l = p w →
        |twoEntryF F e k y c' s - (e + k' + T p)| ≤ 220 * F.u + 360 * F.u * t := by
      intro e k k' y p r l hp he hk hk' hr hl hy hP
      refine two_entry hu he hk (hk'.trans hv1) (by positivity) hV2 (hkk hr hl hy hP) (hp.le w) hdc hc1 q1 q2 ?_
      have := square_close hp hw0 (by linarith) ht0 h1c hwv
      refine this.trans (le_of_eq ?_)
      ring
    obtain ⟨⟨R0, R1, R2⟩, C0, C1, C2⟩ := skew_rows w
    obtain ⟨⟨k00, k10, k20⟩, ⟨k01, k11, k21⟩, k02, k12, k22⟩ := hmul
    have z0 : |(0 : ℝ) - 0| ≤ 30 * F.u := by rw [sub_self, abs_zero]; linarith
    have mx : |-w.x - -v.x| ≤ 30 * F.u := by rw [← neg_sub', abs_neg]; exact wx
    have my : |-w.y - -v.y| ≤ 30 * F.u := by rw [← neg_sub', abs_neg]; exact wy
    have mz : |-w.z - -v.z| ≤ 30 * F.u := by rw [← neg_sub', abs_neg]; exact wz
    refine (frob_le_entries (b := 220 * F.u + 360 * F.u * t) ?_ ?_ ?_ ?_ ?_ ?_ ?_ ?_ ?_).trans hfin <;> rw [hq']
    · exact key .xx ⟨zero_le_one, le_rfl⟩ z0 h0v R0 C0 k00 (by simp [V3.dot, row0, skew, M3.tr]; ring)
    · exact key .xy ⟨le_rfl, zero_le_one⟩ mz nz R0 C1 k01 (by simp [V3.dot, row0, row1, skew, M3.tr]; ring)
    · exact key .xz ⟨le_rfl, zero_le_one⟩ wy vy R0 C2 k02 (by simp [V3.dot, row0, row2, skew, M3.tr]; ring)
    · exact key .xy ⟨le_rfl, zero_le_one⟩ wz vz R1 C0 k10 (by simp [V3.dot, row0, row1, skew, M3.tr])
    · exact key .yy ⟨zero_le_one, le_rfl⟩ z0 h0v R1 C1 k11 (by simp [V3.dot, row1, skew, M3.tr]; ring)
    · exact key .yz ⟨le_rfl, zero_le_one⟩ mx nx R1 C2 k12 (by simp [V3.dot, row1, row2, skew, M3.tr]; ring)
    · exact key .xz ⟨le_rfl, zero_le_one⟩ my ny R2 C0 k20 (by simp [V3.dot, row0, row2, skew, M3.tr])
    · exact key .yz ⟨le_rfl, zero_le_one⟩ wx vx R2 C1 k21 (by simp [V3.dot, row1, row2, skew, M3.tr])
    · exact key .zz ⟨zero_le_one, le_rfl⟩ z0 h0v R2 C2 k22 (by simp [V3.dot, row2, skew, M3.tr]; ring)

/-! ### Double precision -/

/-- Rounded numbers not below `2 ^ k` are multiples of a power of two. -/
theorem grid {x : ℝ} {k : ℤ} (h : x = 0 ∨ (2 : ℝ) ^ k ≤ |x|) : ∃ n : ℤ, F.rnd x = n * 2 ^ (k - (F.p - 1)) := by
  rcases h with rfl | h
  · exact ⟨0, by rw [Fmt.rnd_zero]; simp⟩
  · have hx : 0 < |x| := (Fmt.two_zpow_pos k).trans_le h
    have hl : k ≤ Int.log 2 |x| := (Int.zpow_le_iff_le_log (by norm_num) hx).1 (by exact_mod_cast h)
    have he : k - (F.p - 1) ≤ F.expo x := le_trans (by omega) (le_max_left _ _)
    obtain ⟨j, hj⟩ := Int.le.dest he
    refine ⟨rne (x / 2 ^ F.expo x) * 2 ^ j, ?_⟩
    have e : (2 : ℝ) ^ F.expo x = 2 ^ j * 2 ^ (k - (F.p - 1)) := by
      rw [← hj, zpow_add₀ (by norm_num), zpow_natCast, mul_comm]
    push_cast
    rw [mul_assoc, ← e]
    rfl

/-- Differences of rounded numbers not below `2 ^ k` do not underflow, and neither do their squares. -/
theorem regular_sub {x y : ℝ} {k : ℤ} (hk : F.emin + F.p - 1 ≤ 2 * (k - (F.p - 1))) (hk' : F.emin ≤ k - (F.p - 1))
    (hx : x = 0 ∨ (2 : ℝ) ^ k ≤ |x|) (hy : y = 0 ∨ (2 : ℝ) ^ k ≤ |y|) : Rounded.Regular F (F.rnd (F.rnd x - F.rnd y)) := by
  refine ⟨Fmt.rnd_isFloat _, ?_⟩
  obtain ⟨n, hn⟩ := grid (F := F) hx
  obtain ⟨m, hm⟩ := grid (F := F) hy
  set e := k - (F.p - 1) with he
  have e1 : F.rnd x - F.rnd y = (n - m : ℤ) * 2 ^ e := by rw [hn, hm]; push_cast; ring
  rw [e1]
  have hp := Fmt.two_zpow_pos e
  have hf : F.IsFloat (2 ^ e) := ⟨1, e, by rw [abs_one]; exact one_le_pow₀ (by norm_num), hk', by simp⟩
  have ht : F.tiny ≤ ((2 : ℝ) ^ e) ^ 2 := by
    unfold Fmt.tiny
    rw [← zpow_natCast, ← zpow_mul]
    exact zpow_le_zpow_right₀ (by norm_num) (by push_cast; omega)
  rcases lt_trichotomy (n - m) 0 with h | h | h
  · left
    have h1 : ((n - m : ℤ) : ℝ) ≤ -1 := by exact_mod_cast (by omega : n - m ≤ -1)
    have h2 := Fmt.rnd_le (F := F) (x := ((n - m : ℤ) : ℝ) * 2 ^ e) (Fmt.isFloat_neg hf) (by nlinarith)
    refine ht.trans ?_
    rw [← neg_sq (F.rnd _)]
    exact pow_le_pow_left₀ hp.le (by linarith) 2
  · right
    rw [h]
    simp [Fmt.rnd_zero]
  · left
    have h1 : (1 : ℝ) ≤ ((n - m : ℤ) : ℝ) := by exact_mod_cast (by omega : 1 ≤ n - m)
    have h2 := Fmt.le_rnd (F := F) (x := ((n - m : ℤ) : ℝ) * 2 ^ e) hf (by nlinarith)
    exact ht.trans (pow_le_pow_left₀ hp.le h2 2)

/-- A coordinate of double precision that is zero, or between 10⁻²⁰ and 10²⁰ in absolute value. -/
def Ordinary (x : ℝ) : Prop := binary64.IsFloat x ∧ (x = 0 ∨ 1 / 10 ^ 20 ≤ |x| ∧ |x| ≤ 10 ^ 20)

theorem Ordinary.regular {x : ℝ} (h : Ordinary x) : Rounded.Regular binary64 x := by
  refine ⟨h.1, ?_⟩
  rcases h.2 with h | h
  · exact .inr h
  · left
    have := pow_le_pow_left₀ (by norm_num) h.1 2
    rw [sq_abs] at this
    refine le_trans ?_ this
    unfold Fmt.tiny binary64
    have h : (2 : ℝ) ^ (-1074 + ((53 : ℕ) : ℤ) - 1) ≤ 2 ^ (-200 : ℤ) := zpow_le_zpow_right₀ (by norm_num) (by norm_num)
    refine h.trans ?_
    norm_num

theorem ordinary_le {x : ℝ} (h : Ordinary x) : |x| ≤ 10 ^ 20 := by
  rcases h.2 with rfl | h
  · rw [abs_zero]; norm_num
  · exact h.2

/-- Coordinates of the computed unit vector are zero or not below 2⁻¹³⁶. -/
theorem los_large {a : V3 ℝ} (ha : a ≠ 0) (hx : Ordinary a.x) (hy : Ordinary a.y) (hz : Ordinary a.z) :
    ((losF binary64 a).x = 0 ∨ (2 : ℝ) ^ (-136 : ℤ) ≤ |(losF binary64 a).x|) ∧
    ((losF binary64 a).y = 0 ∨ (2 : ℝ) ^ (-136 : ℤ) ≤ |(losF binary64 a).y|) ∧
    ((losF binary64 a).z = 0 ∨ (2 : ℝ) ^ (-136 : ℤ) ≤ |(losF binary64 a).z|) := by
  obtain ⟨lo, hi⟩ := Rounded.C113_accuracy binary64 a hx.regular hy.regular hz.regular
  have eN : Real.sqrt (a.x ^ 2 + a.y ^ 2 + a.z ^ 2) = a.norm := rfl
  rw [eN] at lo hi
  have hN := V3.norm_pos ha
  set D := Model.Rounded.distanceF binary64 a with hD
  have hD0 : 0 < D := lt_of_lt_of_le (mul_pos (pow_pos (by rw [u64]; norm_num) 3) hN) lo
  have hD1 : D ≤ 4 * 10 ^ 20 := by
    have h1 := norm_le_three (ordinary_le hx) (ordinary_le hy) (ordinary_le hz)
    refine hi.trans ?_
    have h2 : (1 + binary64.u) ^ 3 ≤ 4 / 3 := by rw [u64]; norm_num
    have := mul_le_mul h2 h1 hN.le (by norm_num)
    linarith
  have hf : binary64.IsFloat ((2 : ℝ) ^ (-136 : ℤ)) := ⟨1, -136, by norm_num [binary64], by norm_num [binary64], by simp⟩
  have key : ∀ {c : ℝ}, Ordinary c → binary64.rnd (c / D) = 0 ∨ (2 : ℝ) ^ (-136 : ℤ) ≤ |binary64.rnd (c / D)| := by
    intro c hc
    rcases hc.2 with rfl | h
    · left; simp [Fmt.rnd_zero]
    · right
      have h1 : (2 : ℝ) ^ (-136 : ℤ) ≤ |c / D| := by
        rw [abs_div, abs_of_pos hD0, le_div_iff₀ hD0]
        have h2 : (2 : ℝ) ^ (-136 : ℤ) * D ≤ 2 ^ (-136 : ℤ) * (4 * 10 ^ 20) := mul_le_mul_of_nonneg_left hD1 (by positivity)
        refine h2.trans (le_trans ?_ h.1)
        norm_num
      rcases le_total 0 (c / D) with h3 | h3
      · rw [abs_of_nonneg h3] at h1
        exact (Fmt.le_rnd hf h1).trans (le_abs_self _)
      · rw [abs_of_nonpos h3] at h1
        have := Fmt.le_rnd hf h1
        rw [Fmt.rnd_neg] at this
        exact this.trans (neg_le_abs _)
  exact ⟨key hx, key hy, key hz⟩

/-- C129, in double precision: for vectors at most 90 degrees apart, with coordinates that are zero or between 10⁻²⁰ and 10²⁰ in absolute
value, the computed matrix is within 3 10⁻¹³ of a rotation of the first vector to the direction of the second one. -/
theorem C129_double {a b : V3 ℝ} (ha : a ≠ 0) (hb : b ≠ 0) (hax : Ordinary a.x) (hay : Ordinary a.y) (haz : Ordinary a.z)
    (hbx : Ordinary b.x) (hby : Ordinary b.y) (hbz : Ordinary b.z) (hab : 0 ≤ V3.dot a b) {R : M3 ℝ} (h : TwoVectorsF binary64 a b R) :
    ∃ q : M3 ℝ, LinearRotation q.mulVec ∧ (∃ l : ℝ, 0 < l ∧ q.mulVec a = l • b) ∧ frob (R - q) ≤ 3 / 10 ^ 13 := by
  have hu : binary64.u ≤ 1 / 1024 := by rw [u64]; norm_num
  have hna := V3.norm_pos ha
  have hnb := V3.norm_pos hb
  obtain ⟨ax, ay, az⟩ := los_large ha hax hay haz
  obtain ⟨bx, by', bz⟩ := los_large hb hbx hby hbz
  have prod : ∀ {x y : ℝ}, x = 0 ∨ (2 : ℝ) ^ (-136 : ℤ) ≤ |x| → y = 0 ∨ (2 : ℝ) ^ (-136 : ℤ) ≤ |y| →
      x * y = 0 ∨ (2 : ℝ) ^ (-272 : ℤ) ≤ |x * y| := by
    rintro x y (rfl | hx) (rfl | hy)
    · simp
    · simp
    · simp
    · right
      rw [abs_mul]
      have e : (2 : ℝ) ^ (-272 : ℤ) = 2 ^ (-136 : ℤ) * 2 ^ (-136 : ℤ) := by rw [← zpow_add₀ (by norm_num)]; norm_num
      rw [e]
      exact mul_le_mul hx hy (by positivity) (abs_nonneg x)
  have reg : ∀ {x y : ℝ}, x = 0 ∨ (2 : ℝ) ^ (-272 : ℤ) ≤ |x| → y = 0 ∨ (2 : ℝ) ^ (-272 : ℤ) ≤ |y| →
      Rounded.Regular binary64 (binary64.rnd (binary64.rnd x - binary64.rnd y)) :=
    fun hx hy => regular_sub (by norm_num [binary64]) (by norm_num [binary64]) hx hy
  obtain ⟨θ, hθ⟩ : ∃ θ, θ = Real.arccos (V3.dot a b / (a.norm * b.norm)) := ⟨_, rfl⟩
  have hr0 : 0 ≤ V3.dot a b / (a.norm * b.norm) := by positivity
  have hr1 : V3.dot a b / (a.norm * b.norm) ≤ 1 := by
    rw [div_le_one (by positivity)]
    exact (le_abs_self _).trans (dot_le a b)
  have hθ0 : 0 ≤ θ := by rw [hθ]; exact Real.arccos_nonneg _
  have hθ2 : θ ≤ Real.pi / 2 := by rw [hθ]; exact Real.arccos_le_pi_div_two.2 hr0
  have hpi := Real.pi_pos
  have hcos : V3.dot a b = a.norm * b.norm * Real.cos θ := by
    rw [hθ, Real.cos_arccos (by linarith) hr1]
    field_simp
  obtain ⟨q, h1, h2, -, h3⟩ := C129_accuracy hu ha hb hax.regular hay.regular haz.regular hbx.regular hby.regular hbz.regular rfl
    (reg (prod ay bz) (prod az by')) (reg (prod az bx) (prod ax bz)) (reg (prod ax by') (prod ay bx)) hθ0 (by linarith) hcos h
  refine ⟨q, h1, h2, h3.trans ?_⟩
  have ht : Real.tan (θ / 2) ≤ 1 := by
    rw [← Real.tan_pi_div_four]
    rcases (by linarith : θ / 2 ≤ Real.pi / 4).lt_or_eq with h | h
    · exact (Real.tan_lt_tan_of_nonneg_of_lt_pi_div_two (by linarith) (by linarith) h).le
    · rw [h]
  rw [u64]
  have : (1100 : ℝ) * (1 / 2 ^ 53) * (1 + Real.tan (θ / 2)) ≤ 1100 * (1 / 2 ^ 53) * 2 :=
    mul_le_mul_of_nonneg_left (by linarith) (by norm_num)
  refine this.trans ?_
  norm_num

/-! ### Vectors in nearly opposite directions -/

section Opposite

open Verif.Model.RoundedRemap

theorem two_1 : binary64.rnd ((10 : ℝ) ^ 2) = 100 :=
  fl_pos (6) 7036874417766400 (by norm_num) (by norm_num) (by norm_num) (by norm_num) (by norm_num)

theorem two_2 : binary64.rnd ((3 : ℝ) ^ 2) = 9 :=
  fl_pos (3) 5066549580791808 (by norm_num) (by norm_num) (by norm_num) (by norm_num) (by norm_num)

theorem two_3 : binary64.rnd ((1 : ℝ) ^ 2) = 1 :=
  fl_pos (0) 4503599627370496 (by norm_num) (by norm_num) (by norm_num) (by norm_num) (by norm_num)

theorem two_4 : binary64.rnd ((100 : ℝ) + 9) = 109 :=
  fl_pos (6) 7670193115365376 (by norm_num) (by norm_num) (by norm_num) (by norm_num) (by norm_num)

theorem two_5 : binary64.rnd ((109 : ℝ) + 1) = 110 :=
  fl_pos (6) 7740561859543040 (by norm_num) (by norm_num) (by norm_num) (by norm_num) (by norm_num)

theorem two_6 : binary64.rnd ((4503599627370497 / 2 ^ 52 : ℝ) ^ 2) = (2251799813685249 / 2 ^ 51) :=
  fl_pos (0) 4503599627370498 (by norm_num) (by norm_num) (by norm_num) (by norm_num) (by norm_num)

theorem two_7 : binary64.rnd ((109 : ℝ) + (2251799813685249 / 2 ^ 51)) = 110 :=
  fl_pos (6) 7740561859543040 (by norm_num) (by norm_num) (by norm_num) (by norm_num) (by norm_num)

theorem two_8 : binary64.rnd (Real.sqrt 110) = (5904268922252467 / 2 ^ 49) :=
  fl_sqrt (3) 5904268922252467 (by norm_num) (by norm_num) (by norm_num) (by norm_num) (by norm_num) (by norm_num)

theorem two_9 : binary64.rnd ((10 : ℝ) / (5904268922252467 / 2 ^ 49)) = (2147006880819079 / 2 ^ 51) :=
  fl_pos (-1) 8588027523276316 (by norm_num) (by norm_num) (by norm_num) (by norm_num) (by norm_num)

theorem two_10 : binary64.rnd ((3 : ℝ) / (5904268922252467 / 2 ^ 49)) = (5152816513965789 / 2 ^ 54) :=
  fl_pos (-2) 5152816513965789 (by norm_num) (by norm_num) (by norm_num) (by norm_num) (by norm_num)

theorem two_11 : binary64.rnd ((1 : ℝ) / (5904268922252467 / 2 ^ 49)) = (6870422018621053 / 2 ^ 56) :=
  fl_pos (-4) 6870422018621053 (by norm_num) (by norm_num) (by norm_num) (by norm_num) (by norm_num)

theorem two_12 : binary64.rnd ((4503599627370497 / 2 ^ 52 : ℝ) / (5904268922252467 / 2 ^ 49)) = (3435211009310527 / 2 ^ 55) :=
  fl_pos (-4) 6870422018621054 (by norm_num) (by norm_num) (by norm_num) (by norm_num) (by norm_num)

theorem two_13 : binary64.rnd (((5152816513965789 / 2 ^ 54 : ℝ)) * (3435211009310527 / 2 ^ 55)) = (3930414220250615 / 2 ^ 57) :=
  fl_pos (-6) 7860828440501230 (by norm_num) (by norm_num) (by norm_num) (by norm_num) (by norm_num)

theorem two_14 : binary64.rnd (((6870422018621053 / 2 ^ 56 : ℝ)) * (5152816513965789 / 2 ^ 54)) = (7860828440501229 / 2 ^ 58) :=
  fl_pos (-6) 7860828440501229 (by norm_num) (by norm_num) (by norm_num) (by norm_num) (by norm_num)

theorem two_15 : binary64.rnd (((6870422018621053 / 2 ^ 56 : ℝ)) * (2147006880819079 / 2 ^ 51)) = (6550690367084359 / 2 ^ 56) :=
  fl_pos (-4) 6550690367084359 (by norm_num) (by norm_num) (by norm_num) (by norm_num) (by norm_num)

theorem two_16 : binary64.rnd (((2147006880819079 / 2 ^ 51 : ℝ)) * (3435211009310527 / 2 ^ 55)) = (6550690367084359 / 2 ^ 56) :=
  fl_pos (-4) 6550690367084359 (by norm_num) (by norm_num) (by norm_num) (by norm_num) (by norm_num)

end Opposite

theorem exists_dot (a b : V3 ℝ) : ∃ r, DotF F a b r := ⟨_, _, .refl _, .mul (.mul (.mul .nil))⟩

theorem exists_mulVec (m : M3 ℝ) (v : V3 ℝ) : ∃ w, MulVecF F m v w := by
  obtain ⟨a, ha⟩ := exists_dot (F := F) (row0 m) v
  obtain ⟨b, hb⟩ := exists_dot (F := F) (row1 m) v
  obtain ⟨c, hc⟩ := exists_dot (F := F) (row2 m) v
  exact ⟨⟨a, b, c⟩, ha, hb, hc⟩

theorem exists_mul (a b : M3 ℝ) : ∃ c, MulF F a b c := by
  obtain ⟨u, hu⟩ := exists_mulVec (F := F) a (row0 b.tr)
  obtain ⟨v, hv⟩ := exists_mulVec (F := F) a (row1 b.tr)
  obtain ⟨w, hw⟩ := exists_mulVec (F := F) a (row2 b.tr)
  exact ⟨⟨u.x, v.x, w.x, u.y, v.y, w.y, u.z, v.z, w.z⟩, hu, hv, hw⟩

theorem exists_two {a b : V3 ℝ} (ha : Model.Rounded.distanceF F a ≠ 0) (hb : Model.Rounded.distanceF F b ≠ 0) : ∃ R, TwoVectorsF F a b R := by
  by_cases h : Model.Rounded.distanceF F (crossF F (losF F a) (losF F b)) = 0
  · exact ⟨1, ha, hb, .inl ⟨h, rfl⟩⟩
  · obtain ⟨c, hc⟩ := exists_dot (F := F) (losF F a) (losF F b)
    obtain ⟨k, hk⟩ := exists_mul (F := F) (skew (crossF F (losF F a) (losF F b))) (skew (crossF F (losF F a) (losF F b)))
    exact ⟨_, ha, hb, .inr ⟨h, c, k, hc, hk, rfl⟩⟩

/-- Sums of products that are all zero. -/
theorem sum_zero {l : List (ℝ × ℝ)} {r : ℝ} (h : SumF F l r) (h0 : ∀ p ∈ l, p.1 * p.2 = 0) : r = 0 := by
  induction h with
  | nil => rfl
  | mul _ ih =>
    rw [ih fun p hp => h0 p (List.mem_cons_of_mem _ hp), h0 _ List.mem_cons_self]
    simp [Fmt.rnd_zero]
  | fma _ ih =>
    rw [ih fun p hp => h0 p (List.mem_cons_of_mem _ hp), h0 _ List.mem_cons_self]
    simp [Fmt.rnd_zero]

theorem dot_zero {a b : V3 ℝ} {r : ℝ} (h : DotF F a b r) (hx : a.x * b.x = 0) (hy : a.y * b.y = 0) (hz : a.z * b.z = 0) : r = 0 := by
  obtain ⟨l, hl, hs⟩ := h
  refine sum_zero hs fun p hp => ?_
  have := hl.mem_iff.1 hp
  simp only [List.mem_cons, List.not_mem_nil, or_false] at this
  rcases this with rfl | rfl | rfl <;> assumption

/-- When the computed vector product is along the first axis, whatever the angle, the first row of the matrix is that of the identity. -/
theorem first_row {a b : V3 ℝ} {x : ℝ} (hw : crossF F (losF F a) (losF F b) = ⟨x, 0, 0⟩) {R : M3 ℝ} (h : TwoVectorsF F a b R) :
    row0 R = ⟨1, 0, 0⟩ := by
  obtain ⟨-, -, h⟩ := h
  rw [hw] at h
  have h1 : F.rnd 1 = 1 := Fmt.rnd_exact isFloat_one
  rcases h with ⟨-, rfl⟩ | ⟨-, c, kk, -, ⟨⟨k0, -⟩, ⟨k1, -⟩, k2, -⟩, rfl⟩
  · rfl
  · have z0 : kk.m00 = 0 := dot_zero k0 (by simp [row0, skew]) (by simp [row0, skew]) (by simp [row0, skew])
    have z1 : kk.m01 = 0 := dot_zero k1 (by simp [row0, skew]) (by simp [row0, skew]) (by simp [row0, skew])
    have z2 : kk.m02 = 0 := dot_zero k2 (by simp [row0, skew]) (by simp [row0, skew]) (by simp [row0, skew])
    simp [row0, twoMatF, twoEntryF, z0, z1, z2, Fmt.rnd_zero, h1]

/-- C129 is violated by vectors in nearly opposite directions: (10, 3, 1) and (-10, -3, -1 - 2⁻⁵²) are not antiparallel, and the exact rotation
moves the first one to a vector of negative first coordinate, below -9. The matrix computed in double precision, whatever the order of
summation, leaves its first coordinate unchanged, 10. -/
theorem C129_opposite_violated {a b : V3 ℝ} (ha : a = ⟨10, 3, 1⟩) (hb : b = ⟨-10, -3, -(4503599627370497 / 2 ^ 52)⟩) :
    (∃ R, TwoVectorsF binary64 a b R) ∧ (∀ R, TwoVectorsF binary64 a b R → (R.mulVec a).x = 10 ∧ ¬ ∃ l : ℝ, 0 < l ∧ R.mulVec a = l • b) ∧
      ∃ q, rotationFromTwoVectors a b = .ok q ∧ LinearRotation q.mulVec ∧ (q.mulVec a).x < -9 := by
  have dA : Model.Rounded.distanceF binary64 a = 5904268922252467 / 2 ^ 49 := by
    rw [ha]
    simp only [Model.Rounded.distanceF]
    rw [two_1, two_2, two_3, two_4, two_5, two_8]
  have dB : Model.Rounded.distanceF binary64 b = 5904268922252467 / 2 ^ 49 := by
    rw [hb]
    simp only [Model.Rounded.distanceF, neg_sq]
    rw [two_1, two_2, two_6, two_4, two_7, two_8]
  have lA : losF binary64 a = ⟨2147006880819079 / 2 ^ 51, 5152816513965789 / 2 ^ 54, 6870422018621053 / 2 ^ 56⟩ := by
    have e : losF binary64 a = ⟨binary64.rnd (a.x / Model.Rounded.distanceF binary64 a), binary64.rnd (a.y / Model.Rounded.distanceF binary64 a),
      binary64.rnd (a.z / Model.Rounded.distanceF binary64 a)⟩ := rfl
    rw [e, dA, ha]
    simp only
    rw [two_9, two_10, two_11]
  have lB : losF binary64 b = ⟨-(2147006880819079 / 2 ^ 51), -(5152816513965789 / 2 ^ 54), -(3435211009310527 / 2 ^ 55)⟩ := by
    have e : losF binary64 b = ⟨binary64.rnd (b.x / Model.Rounded.distanceF binary64 b), binary64.rnd (b.y / Model.Rounded.distanceF binary64 b),
      binary64.rnd (b.z / Model.Rounded.distanceF binary64 b)⟩ := rfl
    rw [e, dB, hb]
    simp only [neg_div, Fmt.rnd_neg]
    rw [two_9, two_10, two_12]
  have hw : crossF binary64 (losF binary64 a) (losF binary64 b) = ⟨binary64.rnd (-(1 / 2 ^ 58)), 0, 0⟩ := by
    rw [lA, lB]
    simp only [crossF, mul_neg, Fmt.rnd_neg]
    rw [two_13, two_14, two_15, two_16, mul_comm (5152816513965789 / 2 ^ 54 : ℝ) (2147006880819079 / 2 ^ 51)]
    have e : ∀ x : ℝ, binary64.rnd (-x - -x) = 0 := fun x => by rw [sub_self, Fmt.rnd_zero]
    rw [e, e, ← Fmt.rnd_neg]
    congr 2
    norm_num
  have hne : Model.Rounded.distanceF binary64 a ≠ 0 ∧ Model.Rounded.distanceF binary64 b ≠ 0 := by
    rw [dA, dB]; constructor <;> norm_num
  refine ⟨exists_two hne.1 hne.2, fun R hR => ?_, ?_⟩
  · have h := first_row hw hR
    have h0 := congrArg V3.x h
    have h1 := congrArg V3.y h
    have h2 := congrArg V3.z h
    simp only [row0] at h0 h1 h2
    have hx : (R.mulVec a).x = 10 := by simp [M3.mulVec, h0, h1, h2, ha]
    refine ⟨hx, ?_⟩
    rintro ⟨l, hl, h⟩
    have := congrArg V3.x h
    rw [hx, hb] at this
    simp only [V3.smul_x] at this
    linarith
  · have a0 : a ≠ 0 := by rw [ha]; simp [V3.ext_iff]
    have b0 : b ≠ 0 := by rw [hb]; simp [V3.ext_iff]
    obtain ⟨q, h1, h2, l, hl, h3⟩ := C07_partial a0 b0 (by
      rintro ⟨l, hl, h⟩
      rw [ha, hb] at h
      have h1 := congrArg V3.x h
      have h2 := congrArg V3.z h
      simp only [V3.smul_x, V3.smul_z] at h1 h2
      have : l = -1 := by linarith
      rw [this] at h2
      norm_num at h2)
    refine ⟨q, h1, h2, ?_⟩
    have hn : (q.mulVec a).norm = a.norm := norm_rot (isRot_of_linearRotation h2).1 a
    have hn2 : (q.mulVec a).norm ^ 2 = a.norm ^ 2 := by rw [hn]
    rw [h3, V3.norm_sq, V3.norm_sq, ha, hb] at hn2
    simp only [V3.smul_x, V3.smul_y, V3.smul_z] at hn2
    rw [h3, hb]
    simp only [V3.smul_x]
    by_contra hc
    push Not at hc
    have h9 : l ≤ 9 / 10 := by linarith
    have h81 : l ^ 2 ≤ (9 / 10) ^ 2 := pow_le_pow_left₀ hl.le h9 2
    nlinarith

/-- The vectors of the documentation. -/
example : ∃ a b : V3 ℝ, a = ⟨0, 1, 2⟩ ∧ b = ⟨0, 2, 1⟩ ∧ ∃ R, TwoVectorsF binary64 a b R ∧
    ∃ q : M3 ℝ, LinearRotation q.mulVec ∧ (∃ l : ℝ, 0 < l ∧ q.mulVec a = l • b) ∧ frob (R - q) ≤ 3 / 10 ^ 13 := by
  have o0 : Ordinary 0 := ⟨⟨0, 0, by simp, by norm_num [binary64], by simp⟩, .inl rfl⟩
  have o1 : Ordinary 1 := ⟨isFloat_one, .inr (by norm_num)⟩
  have o2 : Ordinary 2 := ⟨⟨2, 0, by norm_num [binary64], by norm_num [binary64], by simp⟩, .inr (by norm_num)⟩
  have pos : ∀ a : V3 ℝ, Ordinary a.x → Ordinary a.y → Ordinary a.z → a ≠ 0 → Model.Rounded.distanceF binary64 a ≠ 0 := by
    intro a hx hy hz h0 h
    obtain ⟨h1, h2, h3, -⟩ := Rounded.C113_coordinates binary64 a hx.regular hy.regular hz.regular
    rw [h] at h1 h2 h3
    exact h0 (V3.ext (abs_nonpos_iff.1 h1) (abs_nonpos_iff.1 h2) (abs_nonpos_iff.1 h3))
  have a0 : (⟨0, 1, 2⟩ : V3 ℝ) ≠ 0 := by simp [V3.ext_iff]
  have b0 : (⟨0, 2, 1⟩ : V3 ℝ) ≠ 0 := by simp [V3.ext_iff]
  obtain ⟨R, hR⟩ := exists_two (F := binary64) (pos ⟨0, 1, 2⟩ o0 o1 o2 a0) (pos ⟨0, 2, 1⟩ o0 o2 o1 b0)
  exact ⟨_, _, rfl, rfl, R, hR, C129_double a0 b0 o0 o1 o2 o0 o2 o1 (by simp [V3.dot]) hR⟩

end Verif.Props.RoundedIsometry
