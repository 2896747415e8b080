import Verif.Model.Cutsky
import Verif.Spec.Cutsky
import Verif.Props.Sky

/-!
# C20: the ranges returned by `box_to_cutsky`
-/

namespace Verif.Props
open Verif Verif.Model Verif.Spec

/-- The claim of C20 for one call: every point of the returned ranges is in the box. -/
def Promised (b : V3 ℝ) (dmax dmin : ℝ) : Prop :=
  ∀ dr rr dcr, boxToCutsky b dmax dmin = .ok (dr, rr, dcr) →
    ∀ d ra dec, InRange dr d → InRange rr ra → InRange dcr dec → InPlacedBox b dmax (skyPoint d ra dec)

theorem rad_rad2deg (x : ℝ) : rad (rad2deg x) = x := by
  unfold rad rad2deg
  have := Real.pi_ne_zero
  field_simp

theorem rad2deg_rad (x : ℝ) : rad2deg (rad x) = x := by
  unfold rad rad2deg
  have := Real.pi_ne_zero
  field_simp

theorem rad_mono {x y : ℝ} (h : x ≤ y) : rad x ≤ rad y := by
  unfold rad
  have := Real.pi_pos
  exact mul_le_mul_of_nonneg_right h (by positivity)

theorem rad_neg (x : ℝ) : rad (-x) = -rad x := by unfold rad; ring

theorem inRange_rad {a x : ℝ} (h : InRange (-rad2deg a, rad2deg a) x) : |rad x| ≤ a := by
  rw [abs_le]
  have h1 := rad_mono h.1
  have h2 := rad_mono h.2
  rw [rad_neg, rad_rad2deg] at h1
  rw [rad_rad2deg] at h2
  exact ⟨h1, h2⟩

theorem abs_sin_le {x a : ℝ} (h : |x| ≤ a) (ha : a ≤ Real.pi / 2) : |Real.sin x| ≤ Real.sin a := by
  rw [abs_le] at h ⊢
  have hpi := Real.pi_pos
  refine ⟨?_, Real.sin_le_sin_of_le_of_le_pi_div_two (by linarith) ha h.2⟩
  rw [← Real.sin_neg]
  exact Real.sin_le_sin_of_le_of_le_pi_div_two (by linarith) (by linarith) h.1

theorem cos_le_of_abs {x a : ℝ} (h : |x| ≤ a) (ha : a ≤ Real.pi) : Real.cos a ≤ Real.cos x := by
  rw [← Real.cos_abs x]
  exact Real.cos_le_cos_of_nonneg_of_le_pi (abs_nonneg x) ha h

theorem abs_mul_le_one {x y a : ℝ} (hx : |x| ≤ 1) (hy : |y| ≤ a) : |x * y| ≤ a := by
  rw [abs_mul]
  calc |x| * |y| ≤ 1 * |y| := mul_le_mul_of_nonneg_right hx (abs_nonneg y)
    _ ≤ a := by rw [one_mul]; exact hy

theorem scaled {d dmax s m : ℝ} (h0 : 0 ≤ d) (h1 : d ≤ dmax) (hs : |s| ≤ m) : -(dmax * m) ≤ d * s ∧ d * s ≤ dmax * m := by
  have hm : 0 ≤ m := (abs_nonneg s).trans hs
  have : |d * s| ≤ dmax * m := by
    rw [abs_mul, abs_of_nonneg h0]
    exact mul_le_mul h1 hs (abs_nonneg s) (h0.trans h1)
  exact abs_le.1 this

theorem npArcsin_ok {x a : ℝ} (h : npArcsin x = .ok a) : -1 ≤ x ∧ x ≤ 1 ∧ a = Real.arcsin x := by
  unfold npArcsin at h
  split at h
  · rename_i hx
    cases h
    exact ⟨hx.1, hx.2, rfl⟩
  · cases h

theorem npArccos_ok {x a : ℝ} (h : npArccos x = .ok a) : -1 ≤ x ∧ x ≤ 1 ∧ a = Real.arccos x := by
  unfold npArccos at h
  split at h
  · rename_i hx
    cases h
    exact ⟨hx.1, hx.2, rfl⟩
  · cases h

theorem npArcsin_of {x : ℝ} (h1 : -1 ≤ x) (h2 : x ≤ 1) : npArcsin x = .ok (Real.arcsin x) := if_pos ⟨h1, h2⟩
theorem npArccos_of {x : ℝ} (h1 : -1 ≤ x) (h2 : x ≤ 1) : npArccos x = .ok (Real.arccos x) := if_pos ⟨h1, h2⟩

/-- The ranges in terms of the half-openings. -/
theorem boxToCutsky_eq (b : V3 ℝ) (dmax dmin : ℝ) :
    boxToCutsky b dmax dmin =
      if b.y < b.z then
        (halfOpenings ⟨b.x, b.z, b.y⟩ dmax dmin).map fun h =>
          ((h.1, dmax), (-rad2deg h.2.2, rad2deg h.2.2), (-rad2deg h.2.1, rad2deg h.2.1))
      else (halfOpenings b dmax dmin).map fun h =>
          ((h.1, dmax), (-rad2deg h.2.1, rad2deg h.2.1), (-rad2deg h.2.2, rad2deg h.2.2)) := by
  unfold boxToCutsky
  by_cases h : b.y < b.z
  · simp only [h, decide_true, if_true]
    cases halfOpenings ⟨b.x, b.z, b.y⟩ dmax dmin <;> rfl
  · simp only [h, decide_false, if_false]
    simp only [Bool.false_eq_true, if_false]
    cases halfOpenings b dmax dmin <;> rfl

/-- Observer in the box (`dmax ≤ boxsize[0]`): the half-openings. -/
theorem halfOpenings_inside {b : V3 ℝ} {dmax dmin : ℝ} (hb : 0 ≤ b.z ∧ b.z ≤ b.y) (hd : 0 < dmax) (hx : dmax ≤ b.x) :
    halfOpenings b dmax dmin = .ok (0,
      if b.y / 2 < dmax then Real.arcsin (b.y / 2 / dmax)
      else if b.x - dmax < dmax then Real.arcsin ((b.x - dmax) / dmax) + Real.pi / 2 else Real.pi,
      if b.z / 2 < dmax then Real.arcsin (b.z / 2 / dmax) else Real.pi / 2) := by
  have e1 : ∀ x : ℝ, (x / dmax < 1) ↔ x < dmax := fun x => by rw [div_lt_one hd]
  have hneg : ∀ x : ℝ, 0 ≤ x → -1 ≤ x / dmax := fun x h => by
    have : 0 ≤ x / dmax := by positivity
    linarith
  have hle : ∀ x : ℝ, x < dmax → x / dmax ≤ 1 := fun x h => ((e1 x).2 h).le
  have ha : |dmax - b.x| = b.x - dmax := by rw [abs_of_nonpos (by linarith)]; ring
  unfold halfOpenings
  simp only [hd.ne', if_false, sub_nonpos, hx, if_true, e1, ha]
  by_cases h1 : b.y / 2 < dmax
  · have h2 : b.z / 2 < dmax := by linarith
    simp only [h1, h2, if_true, npArcsin_of (hneg _ (by linarith [hb.1, hb.2] : 0 ≤ b.y / 2)) (hle _ h1),
      npArcsin_of (hneg _ (by linarith [hb.1] : 0 ≤ b.z / 2)) (hle _ h2), bind, Except.bind]
  · simp only [h1, if_false]
    by_cases h3 : b.x - dmax < dmax <;> by_cases h2 : b.z / 2 < dmax
    · simp only [h2, h3, if_true, npArcsin_of (hneg _ (by linarith : 0 ≤ b.x - dmax)) (hle _ h3),
        npArcsin_of (hneg _ (by linarith [hb.1] : 0 ≤ b.z / 2)) (hle _ h2), bind, Except.bind]
    · simp only [h2, h3, if_true, if_false, npArcsin_of (hneg _ (by linarith : 0 ≤ b.x - dmax)) (hle _ h3), bind, Except.bind]
    · simp only [h2, h3, if_true, if_false, npArcsin_of (hneg _ (by linarith [hb.1] : 0 ≤ b.z / 2)) (hle _ h2),
        bind, Except.bind]
    · simp only [h2, h3, if_false, bind, Except.bind]

theorem sin_arcsin_scaled {s dmax : ℝ} (h0 : 0 ≤ s) (hd : 0 < dmax) (h1 : s ≤ dmax) :
    dmax * Real.sin (Real.arcsin (s / dmax)) = s := by
  rw [Real.sin_arcsin]
  · field_simp
  · have : 0 ≤ s / dmax := by positivity
    linarith
  · rw [div_le_one hd]; exact h1

/-- The three inequalities when the observer is in the box; `A` along y and `D` along z can be RA and Dec in either order. -/
theorem inside_bounds {b : V3 ℝ} {dmax d A D : ℝ} (hb : 0 ≤ b.z ∧ b.z ≤ b.y) (hd : 0 < dmax) (hx : dmax ≤ b.x)
    (h0 : 0 ≤ d) (h1 : d ≤ dmax)
    (hA : |A| ≤ if b.y / 2 < dmax then Real.arcsin (b.y / 2 / dmax)
      else if b.x - dmax < dmax then Real.arcsin ((b.x - dmax) / dmax) + Real.pi / 2 else Real.pi)
    (hD : |D| ≤ if b.z / 2 < dmax then Real.arcsin (b.z / 2 / dmax) else Real.pi / 2) :
    dmax - b.x ≤ d * (Real.cos D * Real.cos A) ∧ d * (Real.cos D * Real.cos A) ≤ dmax ∧
      (∀ c, |c| ≤ 1 → -(b.y / 2) ≤ d * (c * Real.sin A) ∧ d * (c * Real.sin A) ≤ b.y / 2) ∧
      (∀ c, |c| ≤ 1 → -(b.z / 2) ≤ d * (c * Real.sin D) ∧ d * (c * Real.sin D) ≤ b.z / 2) := by
  have hpi := Real.pi_pos
  have hD2 : |D| ≤ Real.pi / 2 := by
    refine hD.trans ?_
    split
    · exact Real.arcsin_le_pi_div_two _
    · exact le_refl _
  have hcD : 0 ≤ Real.cos D := Real.cos_nonneg_of_neg_pi_div_two_le_of_le (abs_le.1 hD2).1 (abs_le.1 hD2).2
  have hcD1 : Real.cos D ≤ 1 := Real.cos_le_one D
  refine ⟨?_, ?_, ?_, ?_⟩
  · -- near face
    have hk : (dmax - b.x) / dmax ≤ Real.cos A ∨ (0 : ℝ) ≤ Real.cos A ∨ dmax ≤ b.x - dmax := by
      by_cases hy : b.y / 2 < dmax
      · rw [if_pos hy] at hA
        have : |A| ≤ Real.pi / 2 := hA.trans (Real.arcsin_le_pi_div_two _)
        exact Or.inr (Or.inl (Real.cos_nonneg_of_neg_pi_div_two_le_of_le (abs_le.1 this).1 (abs_le.1 this).2))
      · rw [if_neg hy] at hA
        by_cases hz : b.x - dmax < dmax
        · rw [if_pos hz] at hA
          left
          have := cos_le_of_abs hA (by linarith [Real.arcsin_le_pi_div_two ((b.x - dmax) / dmax)])
          have hq : 0 ≤ (b.x - dmax) / dmax := div_nonneg (by linarith) hd.le
          rw [Real.cos_add_pi_div_two, Real.sin_arcsin (by linarith) (by rw [div_le_one hd]; linarith)] at this
          rw [show (dmax - b.x) / dmax = -((b.x - dmax) / dmax) by ring]
          exact this
        · exact Or.inr (Or.inr (by linarith))
    have hmul : -1 ≤ Real.cos D * Real.cos A := by nlinarith [Real.neg_one_le_cos A]
    rcases hk with hk | hk | hk
    · have hq : (dmax - b.x) / dmax ≤ 0 := div_nonpos_of_nonpos_of_nonneg (by linarith) hd.le
      have h2 : (dmax - b.x) / dmax ≤ Real.cos D * Real.cos A := by nlinarith
      have h3 : dmax * ((dmax - b.x) / dmax) = dmax - b.x := by field_simp
      nlinarith
    · have : 0 ≤ d * (Real.cos D * Real.cos A) := by positivity
      linarith
    · nlinarith
  · have : Real.cos D * Real.cos A ≤ 1 := by nlinarith [Real.cos_le_one A]
    nlinarith
  · intro c hc
    by_cases hy : b.y / 2 < dmax
    · rw [if_pos hy] at hA
      have := scaled h0 h1 (abs_mul_le_one hc (abs_sin_le hA (Real.arcsin_le_pi_div_two _)))
      rwa [sin_arcsin_scaled (by linarith [hb.1, hb.2]) hd hy.le] at this
    · have := scaled h0 h1 (abs_mul_le_one hc (Real.abs_sin_le_one A))
      constructor <;> linarith [this.1, this.2]
  · intro c hc
    by_cases hz : b.z / 2 < dmax
    · rw [if_pos hz] at hD
      have := scaled h0 h1 (abs_mul_le_one hc (abs_sin_le hD (Real.arcsin_le_pi_div_two _)))
      rwa [sin_arcsin_scaled (by linarith [hb.1]) hd hz.le] at this
    · have := scaled h0 h1 (abs_mul_le_one hc (Real.abs_sin_le_one D))
      constructor <;> linarith [this.1, this.2]

/-- C20 when the observer is in the box: `box_to_cutsky` returns ranges, and everything in them is in the box. -/
theorem C20_inside {b : V3 ℝ} {dmax : ℝ} (dmin : ℝ) (hy : 0 ≤ b.y) (hz : 0 ≤ b.z) (hd : 0 < dmax) (hx : dmax ≤ b.x) :
    (∃ dr rr dcr, boxToCutsky b dmax dmin = .ok (dr, rr, dcr)) ∧ Promised b dmax dmin := by
  have hc : ∀ x, |Real.cos x| ≤ 1 := Real.abs_cos_le_one
  unfold Promised
  rw [boxToCutsky_eq]
  by_cases h : b.y < b.z
  · rw [if_pos h, halfOpenings_inside (b := ⟨b.x, b.z, b.y⟩) ⟨hy, h.le⟩ hd hx]
    refine ⟨⟨_, _, _, rfl⟩, ?_⟩
    intro dr rr dcr he d ra dec h1 h2 h3
    simp only [Except.map, Except.ok.injEq, Prod.mk.injEq] at he
    obtain ⟨rfl, rfl, rfl⟩ := he
    obtain ⟨g1, g2, g3, g4⟩ := inside_bounds (b := ⟨b.x, b.z, b.y⟩) ⟨hy, h.le⟩ hd hx h1.1 h1.2
      (inRange_rad h3) (inRange_rad h2)
    refine ⟨⟨?_, ?_⟩, g4 _ (hc _), ?_⟩
    · simpa [skyPoint, mul_comm] using g1
    · simpa [skyPoint, mul_comm] using g2
    · simpa [skyPoint] using g3 1 (by simp)
  · rw [if_neg h, halfOpenings_inside ⟨hz, not_lt.1 h⟩ hd hx]
    refine ⟨⟨_, _, _, rfl⟩, ?_⟩
    intro dr rr dcr he d ra dec h1 h2 h3
    simp only [Except.map, Except.ok.injEq, Prod.mk.injEq] at he
    obtain ⟨rfl, rfl, rfl⟩ := he
    obtain ⟨g1, g2, g3, g4⟩ := inside_bounds ⟨hz, not_lt.1 h⟩ hd hx h1.1 h1.2 (inRange_rad h2) (inRange_rad h3)
    refine ⟨⟨g1, g2⟩, g3 _ (hc _), ?_⟩
    simpa [skyPoint] using g4 1 (by simp)

theorem inside_widest {b : V3 ℝ} {dmax A : ℝ} (hd : 0 < dmax) (hx : dmax ≤ b.x)
    (hA : |A| ≤ Real.pi / 2 ∨ (dmax ≤ b.y / 2 ∧ |A| ≤ Real.pi))
    (h1 : dmax - b.x ≤ dmax * Real.cos A) (h2 : |dmax * Real.sin A| ≤ b.y / 2) :
    |A| ≤ if b.y / 2 < dmax then Real.arcsin (b.y / 2 / dmax)
      else if b.x - dmax < dmax then Real.arcsin ((b.x - dmax) / dmax) + Real.pi / 2 else Real.pi := by
  have hpi := Real.pi_pos
  split
  · rename_i hlt
    rcases hA with hA | hA
    · have hs : Real.sin |A| ≤ b.y / 2 / dmax := by
        rw [le_div_iff₀ hd]
        rw [abs_mul, abs_of_pos hd] at h2
        have : Real.sin |A| = |Real.sin A| := by
          rcases abs_cases A with ⟨e, h⟩ | ⟨e, h⟩
          · rw [abs_of_nonneg (Real.sin_nonneg_of_nonneg_of_le_pi h (by rw [← e]; linarith)), e]
          · rw [e, Real.sin_neg, abs_of_nonpos]
            have := Real.sin_nonneg_of_nonneg_of_le_pi (x := -A) (by linarith) (by rw [← e]; linarith)
            rw [Real.sin_neg] at this; linarith
        rw [this]; linarith
      rw [Real.le_arcsin_iff_sin_le' ⟨by linarith [abs_nonneg A], hA⟩]
      exact hs
    · linarith
  · rename_i hlt
    have hA' : |A| ≤ Real.pi := by rcases hA with h | h <;> linarith
    split
    · rename_i h3
      by_contra hcon
      rw [not_le] at hcon
      have hq : 0 ≤ (b.x - dmax) / dmax := div_nonneg (by linarith) hd.le
      have hq1 : (b.x - dmax) / dmax ≤ 1 := by rw [div_le_one hd]; linarith
      have h0 := Real.arcsin_nonneg.2 hq
      have := Real.cos_lt_cos_of_nonneg_of_le_pi (by linarith) hA' hcon
      rw [Real.cos_add_pi_div_two, Real.sin_arcsin (by linarith) hq1, Real.cos_abs] at this
      have h4 : dmax * Real.cos A < dmax * -((b.x - dmax) / dmax) := mul_lt_mul_of_pos_left this hd
      have h5 : dmax * -((b.x - dmax) / dmax) = dmax - b.x := by field_simp; ring
      linarith
    · exact hA'

theorem inside_widest_z {b : V3 ℝ} {dmax D : ℝ} (hd : 0 < dmax)
    (hD : |D| ≤ Real.pi / 2) (h2 : |dmax * Real.sin D| ≤ b.z / 2) :
    |D| ≤ if b.z / 2 < dmax then Real.arcsin (b.z / 2 / dmax) else Real.pi / 2 := by
  split
  · rename_i h
    have := inside_widest (b := ⟨2 * dmax, b.z, 0⟩) (A := D) hd (by simp; linarith) (Or.inl hD)
      (by simp; nlinarith [Real.neg_one_le_cos D]) h2
    rwa [if_pos h] at this
  · exact hD

theorem abs_rad {x a : ℝ} (h : |rad x| ≤ a) : InRange (-rad2deg a, rad2deg a) x := by
  rw [abs_le] at h
  have hp : (0 : ℝ) ≤ 180 / Real.pi := by have := Real.pi_pos; positivity
  have h1 : rad2deg (-a) ≤ rad2deg (rad x) := mul_le_mul_of_nonneg_right h.1 hp
  have h2 : rad2deg (rad x) ≤ rad2deg a := mul_le_mul_of_nonneg_right h.2 hp
  rw [rad2deg_rad] at h1 h2
  exact ⟨by simp only [rad2deg] at h1 ⊢; linarith, h2⟩

theorem rad_90 : rad 90 = Real.pi / 2 := by unfold rad; ring
theorem rad_zero : rad 0 = 0 := by unfold rad; ring

theorem abs_rad_le {x : ℝ} (h : |x| ≤ 90) : |rad x| ≤ Real.pi / 2 := by
  rw [← rad_90, abs_le, ← rad_neg]
  exact ⟨rad_mono (abs_le.1 h).1, rad_mono (abs_le.1 h).2⟩

/-- C20, observer in the box: the ranges are not needlessly small. Looking forward, whatever the box contains at distance
`dmax` in the horizontal plane and in the vertical plane is in the ranges, and the distance range is the full [0, dmax]. -/
theorem C20_inside_widest {b : V3 ℝ} {dmax dmin : ℝ} (hy : 0 ≤ b.y) (hz : 0 ≤ b.z) (hd : 0 < dmax) (hx : dmax ≤ b.x)
    {dr rr dcr : ℝ × ℝ} (he : boxToCutsky b dmax dmin = .ok (dr, rr, dcr)) :
    dr = (0, dmax) ∧ (∀ ra, |ra| ≤ 90 → InPlacedBox b dmax (skyPoint dmax ra 0) → InRange rr ra) ∧
      (∀ dec, |dec| ≤ 90 → InPlacedBox b dmax (skyPoint dmax 0 dec) → InRange dcr dec) := by
  rw [boxToCutsky_eq] at he
  have key : ∀ {c : V3 ℝ}, 0 ≤ c.y → dmax ≤ c.x → ∀ x, |x| ≤ 90 → -(c.y / 2) ≤ dmax * Real.sin (rad x) →
      dmax * Real.sin (rad x) ≤ c.y / 2 → |rad x| ≤ if c.y / 2 < dmax then Real.arcsin (c.y / 2 / dmax)
      else if c.x - dmax < dmax then Real.arcsin ((c.x - dmax) / dmax) + Real.pi / 2 else Real.pi := by
    intro c hc hcx x hx h1 h2
    have h90 := abs_rad_le hx
    refine inside_widest hd hcx (Or.inl h90) ?_ (abs_le.2 ⟨h1, h2⟩)
    have : 0 ≤ Real.cos (rad x) := Real.cos_nonneg_of_neg_pi_div_two_le_of_le (abs_le.1 h90).1 (abs_le.1 h90).2
    nlinarith
  by_cases h : b.y < b.z
  · rw [if_pos h, halfOpenings_inside (b := ⟨b.x, b.z, b.y⟩) ⟨hy, h.le⟩ hd hx] at he
    simp only [Except.map, Except.ok.injEq, Prod.mk.injEq] at he
    obtain ⟨rfl, rfl, rfl⟩ := he
    refine ⟨rfl, fun ra h90 hp => ?_, fun dec h90 hp => ?_⟩
    · apply abs_rad
      have hp := hp.2.1
      simp only [skyPoint, rad_zero, Real.cos_zero, one_mul] at hp
      exact inside_widest_z (b := ⟨b.x, b.z, b.y⟩) hd (abs_rad_le h90) (abs_le.2 hp)
    · apply abs_rad
      have hp := hp.2.2
      simp only [skyPoint] at hp
      exact key (c := ⟨b.x, b.z, b.y⟩) hz hx dec h90 hp.1 hp.2
  · rw [if_neg h, halfOpenings_inside ⟨hz, not_lt.1 h⟩ hd hx] at he
    simp only [Except.map, Except.ok.injEq, Prod.mk.injEq] at he
    obtain ⟨rfl, rfl, rfl⟩ := he
    refine ⟨rfl, fun ra h90 hp => ?_, fun dec h90 hp => ?_⟩
    · apply abs_rad
      have hp := hp.2.1
      simp only [skyPoint, rad_zero, Real.cos_zero, one_mul] at hp
      exact key hy hx ra h90 hp.1 hp.2
    · apply abs_rad
      have hp := hp.2.2
      simp only [skyPoint] at hp
      exact inside_widest_z hd (abs_rad_le h90) (abs_le.2 hp)

/-- Non-vacuity: a box of size 4 × 2 × 3 seen from its inside. -/
example : (0 : ℝ) ≤ (⟨4, 2, 3⟩ : V3 ℝ).y ∧ (0 : ℝ) ≤ (⟨4, 2, 3⟩ : V3 ℝ).z ∧ (0 : ℝ) < 3 ∧ (3 : ℝ) ≤ (⟨4, 2, 3⟩ : V3 ℝ).x := by
  norm_num

/-! ### Observer outside the box -/

/-- Half-openings when the observer is outside the box. -/
theorem outside_facts {b : V3 ℝ} {dmax dmin m a t : ℝ} (hb : 0 ≤ b.z ∧ b.z ≤ b.y) (hbx : 0 ≤ b.x) (hx : b.x < dmax)
    (he : halfOpenings b dmax dmin = .ok (m, a, t)) :
    dmax - b.x ≤ m ∧ 0 ≤ a ∧ a ≤ Real.pi / 2 ∧ Real.cos a = (dmax - b.x) / m ∧ 0 ≤ t ∧ t ≤ a ∧
      dmax * Real.sin t ≤ b.z / 2 ∧ (m ≤ dmax → dmax * Real.sin a ≤ b.y / 2) ∧
      t = min (Real.arcsin (b.z / 2 / dmax)) a := by
  have hd : 0 < dmax := by linarith
  have hdx : 0 < dmax - b.x := by linarith
  have hzd : 0 ≤ b.z / 2 / dmax := div_nonneg (by linarith [hb.1]) hd.le
  have hyd : 0 ≤ b.y / 2 / dmax := div_nonneg (by linarith [hb.1, hb.2]) hd.le
  -- the second half of the computation
  have fin : ∀ m' a', dmax - b.x ≤ m' → 0 ≤ a' → a' ≤ Real.pi / 2 → Real.cos a' = (dmax - b.x) / m' →
      (m' ≤ dmax → dmax * Real.sin a' ≤ b.y / 2) →
      (do
        let thetaDmax ← npArcsin (b.z / 2 / dmax)
        let thetaDmin ← npArccos ((dmax - b.x) / m')
        (.ok (m', a', min thetaDmax thetaDmin) : Except Err (ℝ × ℝ × ℝ))) = .ok (m, a, t) →
      dmax - b.x ≤ m ∧ 0 ≤ a ∧ a ≤ Real.pi / 2 ∧ Real.cos a = (dmax - b.x) / m ∧ 0 ≤ t ∧ t ≤ a ∧
      dmax * Real.sin t ≤ b.z / 2 ∧ (m ≤ dmax → dmax * Real.sin a ≤ b.y / 2) ∧
      t = min (Real.arcsin (b.z / 2 / dmax)) a := by
    intro m' a' h1 h2 h3 h4 h5 h6
    cases e1 : npArcsin (b.z / 2 / dmax) with
    | error e => rw [e1] at h6; cases h6
    | ok u =>
      cases e2 : npArccos ((dmax - b.x) / m') with
      | error e => rw [e1, e2] at h6; cases h6
      | ok v =>
        rw [e1, e2] at h6
        obtain ⟨g1, g2, rfl⟩ := npArcsin_ok e1
        obtain ⟨g3, g4, rfl⟩ := npArccos_ok e2
        simp only [bind, Except.bind, Except.ok.injEq, Prod.mk.injEq] at h6
        obtain ⟨rfl, rfl, rfl⟩ := h6
        have hv : Real.arccos ((dmax - b.x) / m') = a' := by
          rw [← h4, Real.arccos_cos h2 (by linarith [Real.pi_pos])]
        rw [hv]
        have hu0 : 0 ≤ Real.arcsin (b.z / 2 / dmax) := Real.arcsin_nonneg.2 hzd
        refine ⟨h1, h2, h3, h4, le_min hu0 h2, min_le_right _ _, ?_, h5, rfl⟩
        have hs : Real.sin (min (Real.arcsin (b.z / 2 / dmax)) a') ≤ Real.sin (Real.arcsin (b.z / 2 / dmax)) :=
          Real.sin_le_sin_of_le_of_le_pi_div_two (by linarith [le_min hu0 h2, Real.pi_pos])
            (Real.arcsin_le_pi_div_two _) (min_le_left _ _)
        rw [Real.sin_arcsin g1 g2] at hs
        calc dmax * Real.sin (min (Real.arcsin (b.z / 2 / dmax)) a') ≤ dmax * (b.z / 2 / dmax) :=
              mul_le_mul_of_nonneg_left hs hd.le
          _ = b.z / 2 := by field_simp
  unfold halfOpenings at he
  simp only [hd.ne', if_false, not_le.2 hdx] at he
  by_cases hc : Real.sqrt ((dmax - b.x) ^ 2 + (b.y / 2) ^ 2) < dmax
  · have hsq : (dmax - b.x) ^ 2 + (b.y / 2) ^ 2 < dmax ^ 2 := by
      rw [Real.sqrt_lt' hd] at hc; exact hc
    have hy1 : b.y / 2 < dmax := by nlinarith [sq_nonneg (dmax - b.x)]
    have hy2 : b.y / 2 / dmax < 1 := by rwa [div_lt_one hd]
    rw [if_pos hc, npArcsin_of (by linarith) hy2.le] at he
    have hcos : 0 < Real.cos (Real.arcsin (b.y / 2 / dmax)) := by
      rw [Real.cos_arcsin]
      exact Real.sqrt_pos.2 (by nlinarith)
    refine fin _ _ ?_ (Real.arcsin_nonneg.2 hyd) (Real.arcsin_le_pi_div_two _) ?_ ?_ he
    · rw [le_div_iff₀ hcos]
      nlinarith [Real.cos_le_one (Real.arcsin (b.y / 2 / dmax))]
    · field_simp
    · intro _
      rw [sin_arcsin_scaled (by linarith [hb.1, hb.2]) hd hy1.le]
  · rw [if_neg hc] at he
    by_cases hm : dmin < dmax - b.x
    · rw [if_pos hm] at he; cases he
    · rw [if_neg hm] at he
      have hm0 : 0 < dmin := by linarith
      have hq0 : 0 ≤ (dmax - b.x) / dmin := by positivity
      have hq1 : (dmax - b.x) / dmin ≤ 1 := by rw [div_le_one hm0]; linarith
      rw [npArccos_of (by linarith) hq1] at he
      refine fin _ _ (by linarith) (Real.arccos_nonneg _) (Real.arccos_le_pi_div_two.2 hq0)
        (Real.cos_arccos (by linarith) hq1) ?_ he
      intro hmd
      rw [Real.sin_arccos]
      have h1 : (dmax * Real.sqrt (1 - ((dmax - b.x) / dmin) ^ 2)) ^ 2 ≤ (b.y / 2) ^ 2 := by
        rw [mul_pow, Real.sq_sqrt (by nlinarith)]
        rw [not_lt] at hc
        have h2 : dmax ^ 2 ≤ (dmax - b.x) ^ 2 + (b.y / 2) ^ 2 := by
          rwa [Real.le_sqrt hd.le (by positivity)] at hc
        have h3 : dmax - b.x ≤ dmax * ((dmax - b.x) / dmin) := by
          rw [mul_div_assoc', le_div_iff₀ hm0]; nlinarith
        have h4 : (dmax - b.x) ^ 2 ≤ (dmax * ((dmax - b.x) / dmin)) ^ 2 := pow_le_pow_left₀ hdx.le h3 2
        nlinarith
      exact (abs_le_of_sq_le_sq' h1 (by linarith [hb.1, hb.2])).2

/-- Facts about the ranges returned to an observer outside the box. -/
structure OutsideRanges (b : V3 ℝ) (dmax : ℝ) (dr rr dcr : ℝ × ℝ) (A D : ℝ) : Prop where
  far : dr.2 = dmax
  near : dmax - b.x ≤ dr.1
  ra : rr = (-rad2deg A, rad2deg A)
  dec : dcr = (-rad2deg D, rad2deg D)
  A0 : 0 ≤ A
  D0 : 0 ≤ D
  A1 : A ≤ Real.pi / 2
  D1 : D ≤ Real.pi / 2
  corner : dmax - b.x = dr.1 * min (Real.cos A) (Real.cos D)
  y : dr.1 ≤ dmax → dmax * Real.sin A ≤ b.y / 2
  z : dr.1 ≤ dmax → dmax * Real.sin D ≤ b.z / 2

theorem outsideRanges {b : V3 ℝ} {dmax dmin : ℝ} (hbx : 0 ≤ b.x) (hy : 0 ≤ b.y) (hz : 0 ≤ b.z) (hx : b.x < dmax)
    {dr rr dcr : ℝ × ℝ} (he : boxToCutsky b dmax dmin = .ok (dr, rr, dcr)) : ∃ A D, OutsideRanges b dmax dr rr dcr A D := by
  rw [boxToCutsky_eq] at he
  have hpi := Real.pi_pos
  by_cases h : b.y < b.z
  · rw [if_pos h] at he
    cases e : halfOpenings ⟨b.x, b.z, b.y⟩ dmax dmin with
    | error e' => rw [e] at he; cases he
    | ok v =>
      obtain ⟨m, a, t⟩ := v
      rw [e] at he
      simp only [Except.map, Except.ok.injEq, Prod.mk.injEq] at he
      obtain ⟨rfl, rfl, rfl⟩ := he
      obtain ⟨f1, f2, f3, f4, f5, f6, f7, f8, -⟩ := outside_facts (b := ⟨b.x, b.z, b.y⟩) ⟨hy, h.le⟩ hbx hx e
      have hm : 0 < m := by simp only at f1; linarith
      refine ⟨t, a, ⟨rfl, f1, rfl, rfl, f5, f2, f6.trans f3, f3, ?_, fun _ => f7, f8⟩⟩
      rw [min_eq_right (Real.cos_le_cos_of_nonneg_of_le_pi f5 (by linarith) f6), f4]
      simp only; field_simp
  · rw [if_neg h] at he
    cases e : halfOpenings b dmax dmin with
    | error e' => rw [e] at he; cases he
    | ok v =>
      obtain ⟨m, a, t⟩ := v
      rw [e] at he
      simp only [Except.map, Except.ok.injEq, Prod.mk.injEq] at he
      obtain ⟨rfl, rfl, rfl⟩ := he
      obtain ⟨f1, f2, f3, f4, f5, f6, f7, f8, -⟩ := outside_facts ⟨hz, not_lt.1 h⟩ hbx hx e
      have hm : 0 < m := by linarith
      refine ⟨a, t, ⟨rfl, f1, rfl, rfl, f2, f5, f3, f6.trans f3, ?_, f8, fun _ => f7⟩⟩
      rw [min_eq_left (Real.cos_le_cos_of_nonneg_of_le_pi f5 (by linarith) f6), f4]
      field_simp

/-- C20, observer outside the box, what holds: among the points of the returned ranges, those which are not nearer than
the near face of the box are in the box. -/
theorem C20_outside_partial {b : V3 ℝ} {dmax dmin : ℝ} (hbx : 0 ≤ b.x) (hy : 0 ≤ b.y) (hz : 0 ≤ b.z) (hx : b.x < dmax)
    {dr rr dcr : ℝ × ℝ} (he : boxToCutsky b dmax dmin = .ok (dr, rr, dcr)) {d ra dec : ℝ}
    (h1 : InRange dr d) (h2 : InRange rr ra) (h3 : InRange dcr dec) :
    InPlacedBox b dmax (skyPoint d ra dec) ↔ dmax - b.x ≤ (skyPoint d ra dec).x := by
  obtain ⟨A, D, f⟩ := outsideRanges hbx hy hz hx he
  refine ⟨fun h => h.1.1, fun h => ⟨⟨h, ?_⟩, ?_, ?_⟩⟩
  all_goals
    have hdm : dr.1 ≤ dmax := h1.1.trans (h1.2.trans f.far.le)
    have hd0 : 0 ≤ d := by linarith [h1.1, f.near]
    have hd1 : d ≤ dmax := h1.2.trans f.far.le
    rw [f.ra] at h2
    rw [f.dec] at h3
    have ha := inRange_rad h2
    have hd := inRange_rad h3
  · have := scaled hd0 hd1 (abs_mul_le_one (Real.abs_cos_le_one (rad dec)) (Real.abs_cos_le_one (rad ra)))
    simp only [skyPoint]; linarith [this.2]
  · have := scaled hd0 hd1 (abs_mul_le_one (Real.abs_cos_le_one (rad dec)) (abs_sin_le ha f.A1))
    have hb := f.y hdm
    simp only [skyPoint]; constructor <;> linarith [this.1, this.2]
  · have := scaled hd0 hd1 (abs_sin_le hd f.D1)
    have hb := f.z hdm
    simp only [skyPoint]; constructor <;> linarith [this.1, this.2]

/-- C20, observer outside the box, what holds: the points of the horizontal and vertical planes. -/
theorem C20_outside_planes_partial {b : V3 ℝ} {dmax dmin : ℝ} (hbx : 0 ≤ b.x) (hy : 0 ≤ b.y) (hz : 0 ≤ b.z)
    (hx : b.x < dmax) {dr rr dcr : ℝ × ℝ} (he : boxToCutsky b dmax dmin = .ok (dr, rr, dcr)) {d ra dec : ℝ}
    (h1 : InRange dr d) (h2 : InRange rr ra) (h3 : InRange dcr dec) (h0 : ra = 0 ∨ dec = 0) :
    InPlacedBox b dmax (skyPoint d ra dec) := by
  rw [C20_outside_partial hbx hy hz hx he h1 h2 h3]
  obtain ⟨A, D, f⟩ := outsideRanges hbx hy hz hx he
  have hpi := Real.pi_pos
  rw [f.ra] at h2
  rw [f.dec] at h3
  have ca := cos_le_of_abs (inRange_rad h2) (by linarith [f.A1])
  have cd := cos_le_of_abs (inRange_rad h3) (by linarith [f.D1])
  have hA := Real.cos_nonneg_of_neg_pi_div_two_le_of_le (by linarith [f.A0]) f.A1
  have hD := Real.cos_nonneg_of_neg_pi_div_two_le_of_le (by linarith [f.D0]) f.D1
  have hd : 0 ≤ d := by linarith [h1.1, f.near]
  rw [f.corner]
  simp only [skyPoint]
  have hmin : 0 ≤ min (Real.cos A) (Real.cos D) := le_min hA hD
  rcases h0 with rfl | rfl
  · simp only [rad_zero, Real.cos_zero, mul_one]
    exact mul_le_mul h1.1 ((min_le_right _ _).trans cd) hmin hd
  · simp only [rad_zero, Real.cos_zero, one_mul]
    exact mul_le_mul h1.1 ((min_le_left _ _).trans ca) hmin hd

/-- C20, observer outside the box, what holds: the box contains all the points of the ranges if the minimum distance is
raised by the factor 1 / max(cos ΔRA, cos ΔDec). -/
theorem C20_outside_trimmed_partial {b : V3 ℝ} {dmax dmin : ℝ} (hbx : 0 ≤ b.x) (hy : 0 ≤ b.y) (hz : 0 ≤ b.z)
    (hx : b.x < dmax) {dr rr dcr : ℝ × ℝ} (he : boxToCutsky b dmax dmin = .ok (dr, rr, dcr)) {d ra dec : ℝ}
    (h1 : InRange dr d) (h2 : InRange rr ra) (h3 : InRange dcr dec)
    (ht : dr.1 ≤ d * max (Real.cos (rad rr.2)) (Real.cos (rad dcr.2))) :
    InPlacedBox b dmax (skyPoint d ra dec) := by
  rw [C20_outside_partial hbx hy hz hx he h1 h2 h3]
  obtain ⟨A, D, f⟩ := outsideRanges hbx hy hz hx he
  have hpi := Real.pi_pos
  rw [f.ra] at h2 ht
  rw [f.dec] at h3 ht
  simp only [rad_rad2deg] at ht
  have ca := cos_le_of_abs (inRange_rad h2) (by linarith [f.A1])
  have cd := cos_le_of_abs (inRange_rad h3) (by linarith [f.D1])
  have hA := Real.cos_nonneg_of_neg_pi_div_two_le_of_le (by linarith [f.A0]) f.A1
  have hD := Real.cos_nonneg_of_neg_pi_div_two_le_of_le (by linarith [f.D0]) f.D1
  have hd : 0 ≤ d := by linarith [h1.1, f.near]
  rw [f.corner]
  simp only [skyPoint]
  have hmin : 0 ≤ min (Real.cos A) (Real.cos D) := le_min hA hD
  have h5 : max (Real.cos A) (Real.cos D) * min (Real.cos A) (Real.cos D) = Real.cos A * Real.cos D := by
    rw [mul_comm, min_mul_max]
  calc dr.1 * min (Real.cos A) (Real.cos D)
      ≤ d * max (Real.cos A) (Real.cos D) * min (Real.cos A) (Real.cos D) := mul_le_mul_of_nonneg_right ht hmin
    _ = d * (Real.cos D * Real.cos A) := by rw [mul_assoc, h5, mul_comm (Real.cos A)]
    _ ≤ d * (Real.cos (rad dec) * Real.cos (rad ra)) :=
        mul_le_mul_of_nonneg_left (mul_le_mul cd ca hA (hD.trans cd)) hd

/-- C20: a minimum distance nearer than the near face is rejected when the sphere of radius `dmax` leaves the box through
its far face only. -/
theorem C20_rejected {b : V3 ℝ} {dmax dmin : ℝ} (hbx : 0 ≤ b.x) (hx : b.x < dmax)
    (hc : dmax ^ 2 ≤ (dmax - b.x) ^ 2 + (max b.y b.z / 2) ^ 2) (hm : dmin < dmax - b.x) :
    boxToCutsky b dmax dmin = .error .valueError := by
  have hd : 0 < dmax := by linarith
  have hdx : ¬ (dmax - b.x ≤ 0) := by linarith
  rw [boxToCutsky_eq]
  have key : ∀ s, (s : ℝ) = max b.y b.z → ¬ Real.sqrt ((dmax - b.x) ^ 2 + (s / 2) ^ 2) < dmax := by
    rintro s rfl
    rw [not_lt, Real.le_sqrt hd.le (by positivity)]
    exact hc
  split
  · rename_i h
    simp only [halfOpenings, hd.ne', if_false, hdx, key b.z (max_eq_right h.le).symm, hm, if_true]
    rfl
  · rename_i h
    simp only [halfOpenings, hd.ne', if_false, hdx, key b.y (max_eq_left (not_lt.1 h)).symm, hm, if_true]
    rfl

theorem cos_arcsin_three_fifths : Real.cos (Real.arcsin (3 / 5)) = 4 / 5 := by
  rw [Real.cos_arcsin, show (1 : ℝ) - (3 / 5) ^ 2 = (4 / 5) ^ 2 by norm_num, Real.sqrt_sq (by norm_num)]

theorem arccos_four_fifths : Real.arccos (4 / 5) = Real.arcsin (3 / 5) := by
  have h := cos_arcsin_three_fifths
  rw [← h, Real.arccos_cos]
  · exact Real.arcsin_nonneg.2 (by norm_num)
  · linarith [Real.arcsin_le_pi_div_two (3 / 5), Real.pi_pos]

theorem cube_halfOpenings (dmin : ℝ) :
    halfOpenings ⟨3, 6, 6⟩ 5 dmin = .ok (5 / 2, Real.arcsin (3 / 5), Real.arcsin (3 / 5)) := by
  have h1 : Real.sqrt ((5 - 3) ^ 2 + (6 / 2) ^ 2) < (5 : ℝ) := by
    rw [Real.sqrt_lt' (by norm_num)]; norm_num
  unfold halfOpenings
  simp only [show ¬ ((5 : ℝ) = 0) by norm_num, if_false, show ¬ ((5 : ℝ) - 3 ≤ 0) by norm_num, h1, if_true]
  rw [show (6 : ℝ) / 2 / 5 = 3 / 5 by norm_num, npArcsin_of (by norm_num) (by norm_num)]
  simp only [bind, Except.bind, cos_arcsin_three_fifths]
  rw [show ((5 : ℝ) - 3) / ((5 - 3) / (4 / 5)) = 4 / 5 by norm_num, npArccos_of (by norm_num) (by norm_num),
    arccos_four_fifths]
  norm_num

/-- C20 fails for an observer outside the box: the near corners of the ranges are in front of the box. With a box of size
3 × 6 × 6 and dmax = 5 the point at the minimum distance 5/2 and at the extreme RA and Dec is at x = 1.6, while the box
starts at x = 2. -/
theorem C20_outside_violated : ∃ b : V3 ℝ, ∃ dmax dmin : ℝ, 0 < b.x ∧ 0 < b.y ∧ 0 < b.z ∧ b.x < dmax ∧ ¬ Promised b dmax dmin := by
  refine ⟨⟨3, 6, 6⟩, 5, 0, by norm_num, by norm_num, by norm_num, by norm_num, fun h => ?_⟩
  have he : boxToCutsky ⟨3, 6, 6⟩ 5 0 = .ok ((5 / 2, 5), (-rad2deg (Real.arcsin (3 / 5)), rad2deg (Real.arcsin (3 / 5))),
      (-rad2deg (Real.arcsin (3 / 5)), rad2deg (Real.arcsin (3 / 5)))) := by
    rw [boxToCutsky_eq, if_neg (by norm_num), cube_halfOpenings]; rfl
  have hpos : 0 ≤ rad2deg (Real.arcsin (3 / 5)) :=
    mul_nonneg (Real.arcsin_nonneg.2 (by norm_num)) (by have := Real.pi_pos; positivity)
  have := (h _ _ _ he (5 / 2) (rad2deg (Real.arcsin (3 / 5))) (rad2deg (Real.arcsin (3 / 5)))
    ⟨le_refl _, by norm_num⟩ ⟨by simp only; linarith, le_refl _⟩ ⟨by simp only; linarith, le_refl _⟩).1.1
  simp only [skyPoint, rad_rad2deg, cos_arcsin_three_fifths] at this
  norm_num at this

/-- A box seen from outside whose transverse sides are larger than 2 dmax gets no ranges (arcsin of a number above 1), with
an admissible minimum distance. -/
theorem C20_wide_violated : ∃ b : V3 ℝ, ∃ dmax dmin : ℝ, 0 < b.x ∧ 0 < b.y ∧ 0 < b.z ∧ b.x < dmax ∧ dmax - b.x ≤ dmin ∧
    dmin ≤ dmax ∧ boxToCutsky b dmax dmin = .error .nan := by
  refine ⟨⟨1, 10, 10⟩, 2, 2, by norm_num, by norm_num, by norm_num, by norm_num, by norm_num, le_refl _, ?_⟩
  rw [boxToCutsky_eq, if_neg (by norm_num)]
  have h1 : ¬ Real.sqrt ((2 - 1) ^ 2 + (10 / 2) ^ 2) < (2 : ℝ) := by
    rw [not_lt, Real.le_sqrt (by norm_num) (by norm_num)]; norm_num
  unfold halfOpenings
  simp only [show ¬ ((2 : ℝ) = 0) by norm_num, if_false, show ¬ ((2 : ℝ) - 1 ≤ 0) by norm_num, h1,
    show ¬ ((2 : ℝ) < 2 - 1) by norm_num]
  rw [npArccos_of (by norm_num) (by norm_num)]
  have : npArcsin (10 / 2 / 2) = .error .nan := if_neg (by norm_num)
  simp only [bind, Except.bind, this]
  rfl

/-- Non-vacuity: a box seen from outside for which ranges are returned. -/
example : ∃ dr rr dcr, boxToCutsky ⟨3, 6, 6⟩ 5 0 = .ok (dr, rr, dcr) ∧ InRange dr 3 ∧ InRange rr 0 ∧ InRange dcr 0 := by
  have hpos : 0 ≤ rad2deg (Real.arcsin (3 / 5)) :=
    mul_nonneg (Real.arcsin_nonneg.2 (by norm_num)) (by have := Real.pi_pos; positivity)
  refine ⟨_, _, _, by rw [boxToCutsky_eq, if_neg (by norm_num), cube_halfOpenings]; rfl, ?_, ?_, ?_⟩
  · constructor <;> norm_num
  · exact ⟨by simp only; linarith, hpos⟩
  · exact ⟨by simp only; linarith, hpos⟩

end Verif.Props
