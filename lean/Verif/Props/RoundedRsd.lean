import Verif.Model.RoundedRsd
import Verif.Props.RoundedTwoVectors

/-!
# C131: redshift-space positions with rounding errors
-/

namespace Verif.Props.RoundedRsd

open Verif Verif.Model Verif.Model.RoundedIsometry Verif.Model.RoundedRsd Verif.Spec Verif.Lemmas.RoundedIsometry Verif.Props.RoundedIsometry

variable {F : Fmt}

/-- A direction divided twice by its length. -/
theorem los_twice (hu' : F.u ≤ 1 / 1024) {v n : V3 ℝ} (h0 : v ≠ 0) (hx : Rounded.Regular F v.x) (hy : Rounded.Regular F v.y)
    (hz : Rounded.Regular F v.z) (hn : n.norm = 1) (en : n = ⟨v.x / v.norm, v.y / v.norm, v.z / v.norm⟩) :
    (|(losF F (losF F v)).x| ≤ 1 ∧ |(losF F (losF F v)).y| ≤ 1 ∧ |(losF F (losF F v)).z| ≤ 1) ∧
      |(losF F (losF F v)).x - n.x| ≤ 60 * F.u ∧ |(losF F (losF F v)).y - n.y| ≤ 60 * F.u ∧ |(losF F (losF F v)).z - n.z| ≤ 60 * F.u := by
  obtain ⟨l1, lx, ly, lz⟩ := C128_axis (F := F) h0 hx hy hz
  have ex : n.x = v.x / v.norm := by rw [en]
  have ey : n.y = v.y / v.norm := by rw [en]
  have ez : n.z = v.z / v.norm := by rw [en]
  rw [← ex] at lx
  rw [← ey] at ly
  rw [← ez] at lz
  exact los_again hu' hn l1 ⟨Fmt.rnd_isFloat _, Fmt.rnd_isFloat _, Fmt.rnd_isFloat _⟩ lx ly lz

/-- One coordinate of the projection. -/
theorem proj_err (hu' : F.u ≤ 1 / 1024) {p q d m V : ℝ} (hV : 0 ≤ V) (hd : |d| ≤ 1) (hdm : |d - m| ≤ 60 * F.u) (hq : |q| ≤ V)
    (hp : |p - q| ≤ 188 * F.u * V + 37 * F.u * F.tiny) : |F.rnd (p * d) - q * m| ≤ F.u * (250 * V + 40 * F.tiny) := by
  have hu := F.u_pos
  have ht := tiny_pos (F := F)
  have h1 := rnd_err_tiny (F := F) (p * d)
  have huV := mul_nonneg hu.le hV
  have hut := mul_nonneg hu.le ht.le
  have huV' := mul_le_mul_of_nonneg_right hu' hV
  have hut' := mul_le_mul_of_nonneg_right hu' ht.le
  have hpa : |p| ≤ 12 / 10 * V + F.tiny := by
    have := abs_le_sub p q
    linarith
  have h2 : |p * d| ≤ 12 / 10 * V + F.tiny := by
    rw [abs_mul]
    have := mul_le_mul hpa hd (abs_nonneg d) (by linarith)
    linarith
  have h3 : |p * d - q * m| ≤ 188 * F.u * V + 37 * F.u * F.tiny + V * (60 * F.u) := by
    have e : p * d - q * m = (p - q) * d + q * (d - m) := by ring
    rw [e]
    refine (abs_add_le _ _).trans ?_
    rw [abs_mul (p - q), abs_mul q]
    have a1 := mul_le_mul hp hd (abs_nonneg d) (by positivity)
    have a2 := mul_le_mul hq hdm (abs_nonneg _) hV
    linarith
  have h4 := mul_le_mul_of_nonneg_left h2 hu.le
  have h5 := abs_tri (F.rnd (p * d)) (p * d) (q * m)
  linarith

/-- One coordinate of the displaced position. -/
theorem shift_err (hu' : F.u ≤ 1 / 1024) {x X r s f V : ℝ} (hV : 0 ≤ V) (hX : |x| ≤ X) (hs : |s| ≤ V) (hr : |r - s| ≤ F.u * (250 * V + 40 * F.tiny)) :
    |F.rnd (x + F.rnd (r * f)) - (x + f * s)| ≤ F.u * (X + |f| * (254 * V + 43 * F.tiny) + 3 * F.tiny) := by
  have hu := F.u_pos
  have ht := tiny_pos (F := F)
  have hf := abs_nonneg f
  have hfV := mul_nonneg hf hV
  have hft := mul_nonneg hf ht.le
  have huV := mul_nonneg hu.le hV
  have hut := mul_nonneg hu.le ht.le
  have huV' := mul_le_mul_of_nonneg_right hu' hV
  have hut' := mul_le_mul_of_nonneg_right hu' ht.le
  have hr1 : |r| ≤ 125 / 100 * V + F.tiny := by
    have := abs_le_sub r s
    linarith
  have h1 := rnd_err_tiny (F := F) (r * f)
  have h2 : |r * f| ≤ |f| * (125 / 100 * V + F.tiny) := by
    rw [abs_mul, mul_comm]
    exact mul_le_mul_of_nonneg_left hr1 hf
  have h3 : |F.rnd (r * f) - f * s| ≤ F.u * (|f| * (252 * V + 41 * F.tiny) + F.tiny) := by
    have e : r * f - f * s = f * (r - s) := by ring
    have a1 : |r * f - f * s| ≤ |f| * (F.u * (250 * V + 40 * F.tiny)) := by
      rw [e, abs_mul]
      exact mul_le_mul_of_nonneg_left hr hf
    have a2 := mul_le_mul_of_nonneg_left h2 hu.le
    have a3 := abs_tri (F.rnd (r * f)) (r * f) (f * s)
    have a4 : 0 ≤ F.u * (|f| * V) := mul_nonneg hu.le hfV
    nlinarith
  have h4 : |F.rnd (r * f)| ≤ |f| * (13 / 10 * V + 11 / 10 * F.tiny) + F.tiny := by
    have a1 := abs_le_sub (F.rnd (r * f)) (r * f)
    have a2 := mul_le_mul_of_nonneg_right hu' (by positivity : 0 ≤ |r * f| + F.tiny)
    nlinarith
  have h5 : |x + F.rnd (r * f)| ≤ X + (|f| * (13 / 10 * V + 11 / 10 * F.tiny) + F.tiny) := (abs_add_le _ _).trans (add_le_add hX h4)
  have h6 := rnd_err_tiny (F := F) (x + F.rnd (r * f))
  have h7 := mul_le_mul_of_nonneg_left h5 hu.le
  have h8 := abs_tri (F.rnd (x + F.rnd (r * f))) (x + F.rnd (r * f)) (x + f * s)
  have e : x + F.rnd (r * f) - (x + f * s) = F.rnd (r * f) - f * s := by ring
  rw [e] at h8
  have a4 : 0 ≤ F.u * (|f| * V) := mul_nonneg hu.le hfV
  have a5 : 0 ≤ F.u * (|f| * F.tiny) := mul_nonneg hu.le hft
  nlinarith

/-- Displacement along a unit vector. -/
theorem rsd_err (hu' : F.u ≤ 1 / 1024) {los n x v out : V3 ℝ} {f : ℝ} (h0 : los ≠ 0) (hx : Rounded.Regular F los.x)
    (hy : Rounded.Regular F los.y) (hz : Rounded.Regular F los.z) (hn : n.norm = 1)
    (en : n = ⟨los.x / los.norm, los.y / los.norm, los.z / los.norm⟩) (h : RsdF F f los x v out) :
    (out - (x + (f * V3.dot v n) • n)).norm ≤ 3 * (F.u * (x.norm + |f| * (254 * v.norm + 43 * F.tiny) + 3 * F.tiny)) := by
  have hu := F.u_pos
  have ht := tiny_pos (F := F)
  obtain ⟨⟨d1, d2, d3⟩, dx, dy, dz⟩ := los_twice hu' h0 hx hy hz hn en
  obtain ⟨rsd, ⟨p, hp, rfl⟩, rfl⟩ := h
  set d := losF F (losF F los)
  have hV := V3.norm_nonneg v
  have hdn : (d - n).norm ≤ 3 * (60 * F.u) := norm_le_three dx dy dz
  have hd : d.norm ≤ 12 / 10 := by
    have := norm_sub_le' d n
    linarith
  have hq : |V3.dot v n| ≤ v.norm := by
    have := dot_le v n
    rwa [hn, mul_one] at this
  have hpq : |p - V3.dot v n| ≤ 188 * F.u * v.norm + 37 * F.u * F.tiny := by
    have a1 := dot_err hp
    have a2 := prodErr_le hu'
    have a3 : v.norm * d.norm + 6 * F.tiny ≤ 12 / 10 * v.norm + 6 * F.tiny := by
      have := mul_le_mul_of_nonneg_left hd hV
      linarith
    have a4 := mul_le_mul a2 a3 (by have := mul_nonneg hV (V3.norm_nonneg d); linarith) (by linarith)
    have e : V3.dot v d - V3.dot v n = V3.dot v (d - n) := by simp only [V3.dot, V3.sub_x, V3.sub_y, V3.sub_z]; ring
    have a5 : |V3.dot v d - V3.dot v n| ≤ v.norm * (3 * (60 * F.u)) := by
      rw [e]
      exact (dot_le _ _).trans (mul_le_mul_of_nonneg_left hdn hV)
    have a6 := abs_tri p (V3.dot v d) (V3.dot v n)
    have := mul_nonneg hu.le hV
    have := mul_nonneg hu.le ht.le
    linarith
  obtain ⟨x1, x2, x3⟩ := abs_le_norm x
  obtain ⟨n1, n2, n3⟩ := abs_le_norm n
  rw [hn] at n1 n2 n3
  have qn : ∀ {c : ℝ}, |c| ≤ 1 → |V3.dot v n * c| ≤ v.norm := by
    intro c hc
    rw [abs_mul]
    have := mul_le_mul hq hc (abs_nonneg c) hV
    linarith
  have key : ∀ {c m y : ℝ}, |c| ≤ 1 → |c - m| ≤ 60 * F.u → |m| ≤ 1 → |y| ≤ x.norm →
      |F.rnd (y + F.rnd (F.rnd (p * c) * f)) - (y + f * V3.dot v n * m)| ≤
        F.u * (x.norm + |f| * (254 * v.norm + 43 * F.tiny) + 3 * F.tiny) := by
    intro c m y hc hcm hm hy
    have := shift_err hu' (f := f) hV hy (qn hm) (proj_err hu' hV hc hcm hq hpq)
    rwa [← mul_assoc] at this
  exact norm_le_three (key d1 dx n1 x1) (key d2 dy n2 x2) (key d3 dz n3 x3)

/-- C131: the displaced position, for a line of sight that is an axis or a vector, is that of exact arithmetic up to rounding errors: 3 of the
distance and 762 of the displacement. Formats of at least 10 bits; squares of the coordinates of the line of sight do not underflow. -/
theorem C131_global (hu' : F.u ≤ 1 / 1024) {a : Axis} {n x v out : V3 ℝ} {f : ℝ} (ha : AxisMeans a n)
    (hr : ∀ w, AxisArray a w → Rounded.Regular F w.x ∧ Rounded.Regular F w.y ∧ Rounded.Regular F w.z) (h : RsdPositionF F f a x v out) :
    (out - (x + (f * V3.dot v n) • n)).norm ≤ 3 * F.u * (x.norm + |f| * (254 * v.norm + 43 * F.tiny) + 3 * F.tiny) := by
  rw [mul_assoc]
  cases h with
  | «local» h => cases ha
  | @global _ w _ _ _ hw h =>
    obtain ⟨h0, hn, en⟩ := axis_array ha hw
    obtain ⟨hx, hy, hz⟩ := hr w hw
    exact rsd_err hu' h0 hx hy hz hn en h

/-- C131: with the local line of sight, objects away from the observer are displaced along the direction to them, by the component of the
velocity in this direction, up to rounding errors: 3 of the distance and 762 of the displacement. -/
theorem C131_local (hu' : F.u ≤ 1 / 1024) {x v out : V3 ℝ} {f : ℝ} (h0 : x ≠ 0) (hx : Rounded.Regular F x.x) (hy : Rounded.Regular F x.y)
    (hz : Rounded.Regular F x.z) (h : RsdPositionF F f .none x v out) :
    (out - (1 + f * V3.dot v x / x.norm ^ 2) • x).norm ≤ 3 * F.u * (x.norm + |f| * (254 * v.norm + 43 * F.tiny) + 3 * F.tiny) := by
  rw [mul_assoc]
  cases h with
  | «local» h =>
    have hN := V3.norm_pos h0
    have hn : (⟨x.x / x.norm, x.y / x.norm, x.z / x.norm⟩ : V3 ℝ).norm = 1 := by
      apply V3.norm_eq_one_of_sq
      have := V3.norm_sq x
      field_simp
      linarith
    have key := rsd_err (n := ⟨x.x / x.norm, x.y / x.norm, x.z / x.norm⟩) hu' h0 hx hy hz hn rfl h
    have e : (1 + f * V3.dot v x / x.norm ^ 2) • x =
        x + (f * V3.dot v ⟨x.x / x.norm, x.y / x.norm, x.z / x.norm⟩) • (⟨x.x / x.norm, x.y / x.norm, x.z / x.norm⟩ : V3 ℝ) := by
      ext <;> simp only [V3.dot, V3.smul_x, V3.smul_y, V3.smul_z, V3.add_x, V3.add_y, V3.add_z] <;> field_simp
    rw [e]
    exact key
  | global hw h => cases hw

/-- Sums of products that are all floats, and so are the sums from any term on. -/
theorem sum_exact {l : List (ℝ × ℝ)} {r : ℝ} (h : SumF F l r) (h0 : ∀ p ∈ l, F.IsFloat (p.1 * p.2))
    (h1 : ∀ t, t <:+ l → F.IsFloat (total t)) : r = total l := by
  induction h with
  | nil => rfl
  | @mul l r a b _ ih =>
    have hr := ih (fun p hp => h0 p (List.mem_cons_of_mem _ hp)) fun t ht => h1 t (ht.trans (List.suffix_cons _ _))
    have e : total ((a, b) :: l) = total l + a * b := by simp [total, add_comm]
    rw [hr, Fmt.rnd_exact (h0 _ List.mem_cons_self), ← e, Fmt.rnd_exact (h1 _ (List.suffix_refl _))]
  | @fma l r a b _ ih =>
    have hr := ih (fun p hp => h0 p (List.mem_cons_of_mem _ hp)) fun t ht => h1 t (ht.trans (List.suffix_cons _ _))
    have e : total ((a, b) :: l) = total l + a * b := by simp [total, add_comm]
    rw [hr, ← e, Fmt.rnd_exact (h1 _ (List.suffix_refl _))]

theorem float_zero : F.IsFloat 0 := ⟨0, 0, by positivity, by have := F.he; omega, by norm_num⟩

/-- Scalar products of which one term only is not zero are exact. -/
theorem dot_single {a b : V3 ℝ} {r c : ℝ} (hc : F.IsFloat c) (h : DotF F a b r)
    (hs : (a.x * b.x = c ∧ a.y * b.y = 0 ∧ a.z * b.z = 0) ∨ (a.x * b.x = 0 ∧ a.y * b.y = c ∧ a.z * b.z = 0) ∨
      (a.x * b.x = 0 ∧ a.y * b.y = 0 ∧ a.z * b.z = c)) : r = c := by
  obtain ⟨l, hl, h⟩ := h
  have hz : F.IsFloat 0 := float_zero
  have hm := List.mem_permutations.2 hl
  have htot : total l = c := by
    rw [total_perm hl]
    rcases hs with ⟨e1, e2, e3⟩ | ⟨e1, e2, e3⟩ | ⟨e1, e2, e3⟩ <;> simp [total, e1, e2, e3]
  rw [← htot]
  refine sum_exact h (fun p hp => ?_) fun t ht => ?_
  · have := hl.mem_iff.1 hp
    simp only [List.mem_cons, List.not_mem_nil, or_false] at this
    rcases hs with ⟨e1, e2, e3⟩ | ⟨e1, e2, e3⟩ | ⟨e1, e2, e3⟩ <;> rcases this with rfl | rfl | rfl <;> simp only [e1, e2, e3] <;> assumption
  · have hlen : l.length = 3 := hl.length_eq
    obtain ⟨p, q, s, rfl⟩ := List.length_eq_three.1 hlen
    have hset : ∀ P : ℝ × ℝ → Prop, P (a.x, b.x) → P (a.y, b.y) → P (a.z, b.z) → P p ∧ P q ∧ P s := by
      intro P h1 h2 h3
      have all : ∀ w ∈ [p, q, s], P w := by
        intro w hw
        have := hl.mem_iff.1 hw
        simp only [List.mem_cons, List.not_mem_nil, or_false] at this
        rcases this with rfl | rfl | rfl <;> assumption
      exact ⟨all p (by simp), all q (by simp), all s (by simp)⟩
    have hval := hset (fun w => w.1 * w.2 = 0 ∨ w.1 * w.2 = c)
      (by rcases hs with ⟨e1, e2, e3⟩ | ⟨e1, e2, e3⟩ | ⟨e1, e2, e3⟩ <;> simp [e1])
      (by rcases hs with ⟨e1, e2, e3⟩ | ⟨e1, e2, e3⟩ | ⟨e1, e2, e3⟩ <;> simp [e2])
      (by rcases hs with ⟨e1, e2, e3⟩ | ⟨e1, e2, e3⟩ | ⟨e1, e2, e3⟩ <;> simp [e3])
    obtain ⟨v1, v2, v3⟩ := hval
    have es : p.1 * p.2 + (q.1 * q.2 + s.1 * s.2) = c := by simpa [total] using htot
    have ht' : t = [p, q, s] ∨ t = [q, s] ∨ t = [s] ∨ t = [] := by
      simpa [List.suffix_cons_iff] using ht
    have tail : F.IsFloat (q.1 * q.2 + s.1 * s.2) := by
      rcases v1 with v1 | v1
      · rw [v1, zero_add] at es
        rwa [es]
      · have : q.1 * q.2 + s.1 * s.2 = 0 := by linarith
        rwa [this]
    rcases ht' with rfl | rfl | rfl | rfl
    · rwa [htot]
    · simpa [total] using tail
    · rcases v3 with v3 | v3 <;> simp [total, v3] <;> assumption
    · simpa [total] using hz

/-- C131: along a coordinate axis the two other coordinates do not change at all, and the displaced one has two rounding errors only. -/
theorem C131_axis {a : Axis} {x v out : V3 ℝ} {f : ℝ} (hx : F.IsFloat x.x ∧ F.IsFloat x.y ∧ F.IsFloat x.z)
    (hv : F.IsFloat v.x ∧ F.IsFloat v.y ∧ F.IsFloat v.z) (h : RsdPositionF F f a x v out) :
    (AxisArray a ⟨1, 0, 0⟩ → out = ⟨F.rnd (x.x + F.rnd (v.x * f)), x.y, x.z⟩) ∧
    (AxisArray a ⟨0, 1, 0⟩ → out = ⟨x.x, F.rnd (x.y + F.rnd (v.y * f)), x.z⟩) ∧
    (AxisArray a ⟨0, 0, 1⟩ → out = ⟨x.x, x.y, F.rnd (x.z + F.rnd (v.z * f))⟩) := by
  have uniq : ∀ {w w' : V3 ℝ}, AxisArray a w → AxisArray a w' → w = w' := by
    intro w w' h1 h2
    have arr : ∀ {w : V3 ℝ}, AxisArray a w → (a = .str "x" → w = ⟨1, 0, 0⟩) ∧ (a = .str "y" → w = ⟨0, 1, 0⟩) ∧ (a = .str "z" → w = ⟨0, 0, 1⟩) ∧
        (a = .idx 0 → w = ⟨1, 0, 0⟩) ∧ (a = .idx 1 → w = ⟨0, 1, 0⟩) ∧ (a = .idx 2 → w = ⟨0, 0, 1⟩) ∧ ∀ u, a = .vec u → w = u := by
      intro w h
      cases h <;> simp
    obtain ⟨a1, a2, a3, a4, a5, a6, a7⟩ := arr h2
    cases h1 with
    | x => exact (a1 rfl).symm
    | y => exact (a2 rfl).symm
    | z => exact (a3 rfl).symm
    | i0 => exact (a4 rfl).symm
    | i1 => exact (a5 rfl).symm
    | i2 => exact (a6 rfl).symm
    | vec => exact (a7 _ rfl).symm
  obtain ⟨c1, c2, c3⟩ := C128_coordinate_axes (F := F)
  refine ⟨fun hw => ?_, fun hw => ?_, fun hw => ?_⟩
  · cases h with
    | «local» h => cases hw
    | global hw' h =>
      obtain rfl := uniq hw hw'
      obtain ⟨rsd, ⟨p, hp, rfl⟩, rfl⟩ := h
      simp only [c1, c2, c3] at hp ⊢
      obtain ⟨x1, x2, x3⟩ := hx
      obtain ⟨v1, v2, v3⟩ := hv
      have e := dot_single v1 hp (.inl ⟨by simp, by simp, by simp⟩)
      subst e
      simp [Fmt.rnd_zero, Fmt.rnd_exact x1, Fmt.rnd_exact x2, Fmt.rnd_exact x3, Fmt.rnd_exact v1]
  · cases h with
    | «local» h => cases hw
    | global hw' h =>
      obtain rfl := uniq hw hw'
      obtain ⟨rsd, ⟨p, hp, rfl⟩, rfl⟩ := h
      simp only [c1, c2, c3] at hp ⊢
      obtain ⟨x1, x2, x3⟩ := hx
      obtain ⟨v1, v2, v3⟩ := hv
      have e := dot_single v2 hp (.inr (.inl ⟨by simp, by simp, by simp⟩))
      subst e
      simp [Fmt.rnd_zero, Fmt.rnd_exact x1, Fmt.rnd_exact x2, Fmt.rnd_exact x3, Fmt.rnd_exact v2]
  · cases h with
    | «local» h => cases hw
    | global hw' h =>
      obtain rfl := uniq hw hw'
      obtain ⟨rsd, ⟨p, hp, rfl⟩, rfl⟩ := h
      simp only [c1, c2, c3] at hp ⊢
      obtain ⟨x1, x2, x3⟩ := hx
      obtain ⟨v1, v2, v3⟩ := hv
      have e := dot_single v3 hp (.inr (.inr ⟨by simp, by simp, by simp⟩))
      subst e
      simp [Fmt.rnd_zero, Fmt.rnd_exact x1, Fmt.rnd_exact x2, Fmt.rnd_exact x3, Fmt.rnd_exact v3]

theorem tiny_small : binary64.tiny ≤ 1 / 10 ^ 200 := by
  have h : binary64.tiny ≤ (2 : ℝ) ^ (-700 : ℤ) := by
    unfold Fmt.tiny
    exact zpow_le_zpow_right₀ (by norm_num) (by norm_num [binary64])
  refine h.trans ?_
  have e : (2 : ℝ) ^ (700 : ℤ) = ((2 : ℝ) ^ 100) ^ 7 := by
    rw [← pow_mul]
    exact_mod_cast rfl
  rw [zpow_neg, e, ← one_div]
  exact one_div_le_one_div_of_le (by positivity) (by norm_num)

/-- C131 in numbers: in double precision, with the local line of sight, objects that are at least 1e-20 away are displaced
along the direction to them up to 1e-13 of the distance and of the displacement, for factors up to 1e100. -/
theorem C131_double {x v out : V3 ℝ} {f : ℝ} (h0 : 1 / 10 ^ 20 ≤ x.norm) (hx : Rounded.Regular binary64 x.x) (hy : Rounded.Regular binary64 x.y)
    (hz : Rounded.Regular binary64 x.z) (hf : |f| ≤ 10 ^ 100) (h : RsdPositionF binary64 f .none x v out) :
    (out - (1 + f * V3.dot v x / x.norm ^ 2) • x).norm ≤ 1 / 10 ^ 13 * (x.norm + |f| * v.norm) := by
  have hne : x ≠ 0 := by
    rintro rfl
    rw [(V3.norm_eq_zero 0).2 rfl] at h0
    norm_num at h0
  have ht0 := tiny_pos (F := binary64)
  have ht := tiny_small
  have hu : binary64.u = 1 / 2 ^ 53 := Verif.Props.RoundedIsometry.u64
  refine (C131_local (by rw [hu]; norm_num) hne hx hy hz h).trans ?_
  have h1 : |f| * binary64.tiny ≤ 1 / 10 ^ 100 := by
    have := mul_le_mul hf ht ht0.le (by positivity)
    refine this.trans (le_of_eq ?_)
    norm_num
  have h2 : |f| * (254 * v.norm + 43 * binary64.tiny) + 3 * binary64.tiny ≤ 254 * (|f| * v.norm) + x.norm := by
    have a : (43 : ℝ) * (1 / 10 ^ 100) + 3 * (1 / 10 ^ 200) ≤ 1 / 10 ^ 20 := by norm_num
    linarith
  have h3 : 0 ≤ |f| * v.norm := mul_nonneg (abs_nonneg f) (V3.norm_nonneg v)
  have h4 := V3.norm_nonneg x
  rw [hu]
  have h5 := mul_le_mul_of_nonneg_left (by linarith : x.norm + |f| * (254 * v.norm + 43 * binary64.tiny) + 3 * binary64.tiny ≤
    254 * (x.norm + |f| * v.norm)) (by norm_num : (0 : ℝ) ≤ 3 * (1 / 2 ^ 53))
  refine h5.trans ?_
  rw [← mul_assoc]
  exact mul_le_mul_of_nonneg_right (by norm_num) (by positivity)

/-- Non-vacuity: an object at (3, 4, 12) with velocity (1, 2, 2). -/
example : ∃ out, RsdPositionF binary64 1 .none ⟨3, 4, 12⟩ ⟨1, 2, 2⟩ out ∧ (out - (1 + 1 * 35 / 13 ^ 2 : ℝ) • ⟨3, 4, 12⟩).norm ≤ 16 / 10 ^ 13 := by
  obtain ⟨p, hp⟩ := exists_dot (F := binary64) ⟨1, 2, 2⟩ (losF binary64 (losF binary64 ⟨3, 4, 12⟩))
  refine ⟨_, .local ⟨_, ⟨p, hp, rfl⟩, rfl⟩, ?_⟩
  have ht : binary64.tiny ≤ 1 := tiny_le.trans (by norm_num)
  have hreg : ∀ n : ℤ, 1 ≤ n → n ≤ 100 → Rounded.Regular binary64 n := by
    intro n h1 h2
    refine ⟨⟨n, 0, ?_, by norm_num [binary64], by norm_num⟩, .inl (ht.trans ?_)⟩
    · have e : (2 : ℤ) ^ binary64.p = 9007199254740992 := by norm_num [binary64]
      rw [e, abs_of_pos (by omega)]
      omega
    · have : (1 : ℝ) ≤ n := by exact_mod_cast h1
      nlinarith
  have hn : (⟨3, 4, 12⟩ : V3 ℝ).norm = 13 := by
    unfold V3.norm
    rw [show (3 : ℝ) ^ 2 + 4 ^ 2 + 12 ^ 2 = 13 ^ 2 by norm_num, Real.sqrt_sq (by norm_num)]
  have hv : (⟨1, 2, 2⟩ : V3 ℝ).norm = 3 := by
    unfold V3.norm
    rw [show (1 : ℝ) ^ 2 + 2 ^ 2 + 2 ^ 2 = 3 ^ 2 by norm_num, Real.sqrt_sq (by norm_num)]
  have key := C131_double (x := ⟨3, 4, 12⟩) (v := ⟨1, 2, 2⟩) (f := 1) (by rw [hn]; norm_num)
    (by exact_mod_cast hreg 3 (by norm_num) (by norm_num)) (by exact_mod_cast hreg 4 (by norm_num) (by norm_num))
    (by exact_mod_cast hreg 12 (by norm_num) (by norm_num)) (by norm_num) (.local ⟨_, ⟨p, hp, rfl⟩, rfl⟩)
  have hd : V3.dot (⟨1, 2, 2⟩ : V3 ℝ) ⟨3, 4, 12⟩ = 35 := by norm_num [V3.dot]
  rw [hn, hv, hd] at key
  exact key.trans (by norm_num)

end Verif.Props.RoundedRsd
