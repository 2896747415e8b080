import Verif.Props.RoundedMoves
import Verif.Props.RoundedBox
import Mathlib.Analysis.Real.Pi.Bounds

/-!
# C133: a quarter turn of a cubic box changes its sides and leaves corners outside
-/

namespace Verif.Props.RoundedMoves

open Verif Verif.Spec Verif.Model Verif.Model.RoundedIsometry Verif.Model.RoundedMoves Verif.Lemmas.RoundedIsometry Verif.Props.RoundedIsometry

/-- `np.pi`. -/
noncomputable def piF : ℝ := 884279719003555 / 2 ^ 48

theorem rnd_pi : binary64.rnd Real.pi = piF := by
  have h1 := Real.pi_gt_d20
  have h2 := Real.pi_lt_d20
  have ha : |Real.pi| = Real.pi := abs_of_pos Real.pi_pos
  rw [Rounded.rnd_eq (F := binary64) (k := 1) (n := 7074237752028440) (by rw [ha]; norm_num; linarith) (by rw [ha]; norm_num; linarith)
    (by norm_num [binary64]) (by
      have e : ((1 : ℤ) - ((binary64.p : ℤ) - 1)) = -51 := by norm_num [binary64]
      rw [e, abs_lt]
      constructor <;> norm_num <;> linarith)]
  norm_num [binary64, piF]

theorem rnd_one : binary64.rnd 1 = 1 := Fmt.rnd_exact ⟨1, 0, by norm_num [binary64], by norm_num [binary64], by norm_num⟩

theorem rnd_half_pi : binary64.rnd (piF / 2) = piF / 2 :=
  Fmt.rnd_exact ⟨884279719003555, -49, by norm_num [binary64], by norm_num [binary64], by norm_num [piF]⟩

theorem rnd_ninety : binary64.rnd (90 * piF) = 4974073419394997 / 2 ^ 44 := by
  rw [Rounded.rnd_eq (F := binary64) (k := 8) (n := 4974073419394997) (by norm_num [piF, abs_of_pos]) (by norm_num [piF, abs_of_pos])
    (by norm_num [binary64]) (by norm_num [binary64, piF, abs_lt])]
  norm_num [binary64]

theorem angle_quarter : angleF binary64 (degreesF binary64 (quarterF binary64 1)) = piF / 2 := by
  have e1 : quarterF binary64 1 = piF / 2 := by
    have hp : binary64.rnd piF = piF := by rw [← rnd_pi]; exact Fmt.rnd_idem _
    rw [quarterF, Int.cast_one, rnd_one, rnd_pi, one_mul, hp, rnd_half_pi]
  have e2 : degreesF binary64 (piF / 2) = 90 := by
    rw [degreesF, rnd_pi, show piF / 2 * 180 = 90 * piF by ring, rnd_ninety]
    rw [Rounded.rnd_eq (F := binary64) (k := 6) (n := 90 * 2 ^ 46) (by norm_num [piF, abs_of_pos]) (by norm_num [piF, abs_of_pos])
      (by norm_num [binary64]) (by norm_num [binary64, piF, abs_lt])]
    norm_num [binary64]
  rw [e1, e2, angleF, rnd_pi, rnd_ninety]
  rw [Rounded.rnd_eq (F := binary64) (k := 0) (n := 7074237752028440) (by norm_num [piF, abs_of_pos]) (by norm_num [piF, abs_of_pos])
      (by norm_num [binary64]) (by norm_num [binary64, piF, abs_lt])]
  norm_num [binary64, piF]

theorem rnd_near {x : ℝ} (hx : 1 / 10 ^ 100 ≤ x) : |binary64.rnd x - x| ≤ x / 10 ^ 15 := by
  have h := rnd_err_tiny (F := binary64) x
  have ht := RoundedRsd.tiny_small
  have h0 : 0 < x := lt_of_lt_of_le (by norm_num) hx
  rw [abs_of_pos h0, u64] at h
  have : (1 : ℝ) / 10 ^ 200 ≤ 1 / 10 ^ 100 := by norm_num
  linarith

/-- Cosine and sine of the computed quarter turn. -/
theorem quarter_values : 612 / 10 ^ 19 ≤ binary64.rnd (Real.cos (piF / 2)) ∧ binary64.rnd (Real.cos (piF / 2)) ≤ 613 / 10 ^ 19 ∧
    binary64.rnd (Real.sin (piF / 2)) = 1 := by
  obtain ⟨x, hx⟩ : ∃ x, x = Real.pi / 2 - piF / 2 := ⟨_, rfl⟩
  have l : 6123 / 10 ^ 20 ≤ x := by
    have := Real.pi_gt_d20
    rw [hx]; norm_num [piF] at *; linarith
  have r : x ≤ 6124 / 10 ^ 20 := by
    have := Real.pi_lt_d20
    rw [hx]; norm_num [piF] at *; linarith
  have h0 : 0 < x := lt_of_lt_of_le (by norm_num) l
  have hp : piF / 2 = Real.pi / 2 - x := by rw [hx]; ring
  rw [hp, Real.cos_pi_div_two_sub, Real.sin_pi_div_two_sub]
  have s1 := Real.sin_lt h0
  have s2 := Real.sin_gt_sub_cube h0
  have s3 : x ^ 3 ≤ (6124 / 10 ^ 20) ^ 3 := pow_le_pow_left₀ h0.le r 3
  have s4 : 61229 / 10 ^ 21 ≤ Real.sin x := by
    have : ((6124 : ℝ) / 10 ^ 20) ^ 3 ≤ 1 / 10 ^ 30 := by norm_num
    norm_num at *
    linarith
  have n := abs_le.1 (rnd_near (x := Real.sin x) (le_trans (by norm_num) s4))
  refine ⟨?_, ?_, ?_⟩
  · norm_num at *; linarith [n.1]
  · norm_num at *; linarith [n.2]
  · have c1 := Real.one_sub_sq_div_two_le_cos (x := x)
    have c2 : Real.cos x < 1 := by
      have := Real.cos_lt_one_div_sqrt_sq_add_one (x := x) (by linarith [Real.pi_pos]) (by linarith [Real.pi_gt_three]) h0.ne'
      refine this.trans_le ?_
      rw [div_le_one (by positivity)]
      exact Real.one_le_sqrt.2 (by nlinarith [sq_nonneg x])
    have c3 : x ^ 2 ≤ (6124 / 10 ^ 20) ^ 2 := pow_le_pow_left₀ h0.le r 2
    have c4 : 1 - 1 / 10 ^ 30 ≤ Real.cos x := by
      have : ((6124 : ℝ) / 10 ^ 20) ^ 2 ≤ 1 / 10 ^ 30 := by norm_num
      linarith
    have ha : |Real.cos x| = Real.cos x := abs_of_pos (lt_of_lt_of_le (by norm_num) c4)
    rw [Rounded.rnd_eq (F := binary64) (k := -1) (n := 2 ^ 53) (by rw [ha]; refine le_trans ?_ c4; norm_num) (by rw [ha]; simpa using c2)
      (by norm_num [binary64]) (by
        have e : ((-1 : ℤ) - ((binary64.p : ℤ) - 1)) = -53 := by norm_num [binary64]
        rw [e, abs_lt]
        constructor <;> norm_num at * <;> linarith)]
    norm_num [binary64]

/-- First coordinate of a vector turned with the matrix of which the first row is `(c, -1, 0)`. -/
theorem dot_quarter {c p q w r y : ℝ} (hq : binary64.rnd q = q) (h1 : binary64.rnd (binary64.rnd (c * p) + -q) = y)
    (h2 : binary64.rnd (c * p + -q) = y) (h : DotF binary64 ⟨c, -1, 0⟩ ⟨p, q, w⟩ r) : r = y := by
  obtain ⟨l, hl, h⟩ := h
  have hn : binary64.rnd (-q) = -q := by rw [Fmt.rnd_neg, hq]
  have h3 : binary64.rnd (-q + binary64.rnd (c * p)) = y := by rw [add_comm]; exact h1
  have h4 : binary64.rnd (-q + c * p) = y := by rw [add_comm]; exact h2
  have hy : binary64.rnd y = y := by rw [← h2]; exact Fmt.rnd_idem _
  have hm := List.mem_permutations.2 hl
  simp [List.permutations, List.permutationsAux, List.permutationsAux.rec, List.permutationsAux2] at hm
  have hi : ∀ x, binary64.rnd (binary64.rnd x) = binary64.rnd x := Fmt.rnd_idem
  have hz : binary64.rnd 0 = 0 := Fmt.rnd_zero
  rcases hm with rfl | rfl | rfl | rfl | rfl | rfl <;> rcases h with _ | h | h <;> rcases h with _ | h | h <;> rcases h with _ | h | h <;>
    cases h <;> simp [hi, hz, hn, hq, h1, h2, h3, h4, hy]

theorem los_z : losF binary64 ⟨0, 0, 1⟩ = ⟨0, 0, 1⟩ := by
  have hz : binary64.rnd 0 = 0 := Fmt.rnd_zero
  simp [losF, hz, rnd_one]

theorem axis_z {v : V3 ℝ} (h : AxisArray (.str "z") v) : v = ⟨0, 0, 1⟩ := by
  generalize ha : Axis.str "z" = a at h
  cases h <;> simp_all

/-- C133: turned by a quarter turn, a cubic box of side 1000 has a side of 999.9999999999999, and a particle on its edge is
out of it (cosine and sine are rounded to nearest). -/
theorem C133_rotate_violated : ∃ b : Box Unit, b.boxsize = ⟨1000, 1000, 1000⟩ ∧ b.rows.length = 1 ∧ (∀ r ∈ b.rows, Inside b.boxsize b.boxcenter r.pos) ∧
    (∃ b', MoveF binary64 (fun t => binary64.rnd (Real.cos t)) (fun t => binary64.rnd (Real.sin t)) b (.rotate 1 (.str "z")) b') ∧
    ∀ b', MoveF binary64 (fun t => binary64.rnd (Real.cos t)) (fun t => binary64.rnd (Real.sin t)) b (.rotate 1 (.str "z")) b' →
      b'.boxsize.x = 1000 - 1 / 2 ^ 43 ∧ ∀ r ∈ b'.rows, ¬ Inside b'.boxsize b'.boxcenter r.pos := by
  refine ⟨⟨⟨1000, 1000, 1000⟩, 0, [⟨⟨-500, 500, 0⟩, 0, [], [], ()⟩]⟩, rfl, rfl, ?_, ?_, ?_⟩
  · intro r hr
    rw [List.mem_singleton] at hr
    subst hr
    norm_num [Inside, abs_le]
  · exact (exists_move (F := binary64) _ _ _).2.2 AxisArray.z 1
  · intro b' h
    obtain ⟨c1, c2, hs⟩ := quarter_values
    obtain ⟨c, hc⟩ : ∃ c, c = binary64.rnd (Real.cos (piF / 2)) := ⟨_, rfl⟩
    rw [← hc] at c1 c2
    have hcc : binary64.rnd c = c := by rw [hc]; exact Fmt.rnd_idem _
    have hz : binary64.rnd 0 = 0 := Fmt.rnd_zero
    have fl : ∀ n : ℤ, |n| ≤ 10000 → binary64.rnd n = n := by
      intro n hn
      exact Fmt.rnd_exact ⟨n, 0, hn.trans (by norm_num [binary64]), by norm_num [binary64], by norm_num⟩
    have f1000 : binary64.rnd 1000 = 1000 := by exact_mod_cast fl 1000 (by norm_num)
    have f500 : binary64.rnd 500 = 500 := by exact_mod_cast fl 500 (by norm_num)
    have f1 : binary64.rnd (-1) = -1 := by rw [Fmt.rnd_neg, rnd_one]
    cases h with
    | @rotate _ _ v c' s' op rows' ha hop hc' hs' hrows =>
      have hv : v = ⟨0, 0, 1⟩ := axis_z ha
      subst hv
      simp only [rotationCallF, los_z, angle_quarter, rotationF, Bool.false_eq_true, if_false, hs, ← hc] at hop
      rw [if_neg (by norm_num [piF])] at hop
      have hm00 : (axisMatF binary64 ⟨0, 0, 1⟩ c 1).m00 = c := by simp [axisMatF, entryF, hz, hcc, rnd_one]
      have hm01 : (axisMatF binary64 ⟨0, 0, 1⟩ c 1).m01 = -1 := by simp [axisMatF, entryF, hz, f1]
      have hm02 : (axisMatF binary64 ⟨0, 0, 1⟩ c 1).m02 = 0 := by simp [axisMatF, entryF, hz]
      obtain ⟨m, hm⟩ : ∃ m, m = axisMatF binary64 ⟨0, 0, 1⟩ c 1 := ⟨_, rfl⟩
      rw [← hm] at hop hm00 hm01 hm02
      cases hop with
      | @dotOrigin _ rot t hr ht =>
        have hrow : row0 rot = ⟨c, -1, 0⟩ := by
          obtain ⟨g0, g1, g2⟩ := hr
          have fc : binary64.IsFloat c := by rw [hc]; exact Fmt.rnd_isFloat _
          have fm : binary64.IsFloat (-1) := by rw [← f1]; exact Fmt.rnd_isFloat _
          have a0 := RoundedRsd.dot_single fc g0.1 (.inl ⟨by simp [row0, Isom.init, M3.tr, hm00], by simp [row0, Isom.init, M3.tr], by simp [row0, Isom.init, M3.tr]⟩)
          have a1 := RoundedRsd.dot_single fm g1.1 (.inr (.inl ⟨by simp [row0, row1, Isom.init, M3.tr], by simp [row0, row1, Isom.init, M3.tr, hm01], by simp [row0, row1, Isom.init, M3.tr]⟩))
          have a2 := RoundedRsd.dot_single RoundedRsd.float_zero g2.1 (.inr (.inr ⟨by simp [row0, row2, Isom.init, M3.tr], by simp [row0, row2, Isom.init, M3.tr], by simp [row0, row2, Isom.init, M3.tr, hm02]⟩))
          ext
          · exact a0
          · exact a1
          · exact a2
        have ht0 : t.x = 0 := RoundedRsd.dot_single RoundedRsd.float_zero ht.1 (.inl ⟨by simp [Isom.init], by simp [Isom.init], by simp [Isom.init]⟩)
        have big : ∀ {x : ℝ}, 61 / 10 ^ 15 ≤ x → x ≤ 614 / 10 ^ 16 → binary64.rnd (x + -1000) = -(1000 - 1 / 2 ^ 43) := by
          intro x h1 h2
          have ha : |x + -1000| = 1000 - x := by rw [abs_of_neg (by linarith [show (614 : ℝ) / 10 ^ 16 < 1 by norm_num])]; ring
          rw [Rounded.rnd_eq (F := binary64) (k := 9) (n := -(1000 * 2 ^ 43 - 1)) (by rw [ha]; norm_num at *; linarith) (by rw [ha]; norm_num at *; linarith)
            (by norm_num [binary64]) (by
              have e : ((9 : ℤ) - ((binary64.p : ℤ) - 1)) = -43 := by norm_num [binary64]
              rw [e, abs_lt]
              constructor <;> norm_num at * <;> linarith)]
          norm_num [binary64]
        have half : ∀ {x : ℝ}, 305 / 10 ^ 16 ≤ x → x ≤ 307 / 10 ^ 16 → binary64.rnd (-x + -500) = -(500 + 1 / 2 ^ 44) := by
          intro x h1 h2
          have ha : |-x + -500| = 500 + x := by rw [abs_of_neg (by linarith [show (0 : ℝ) < 305 / 10 ^ 16 by norm_num])]; ring
          rw [Rounded.rnd_eq (F := binary64) (k := 8) (n := -(500 * 2 ^ 44 + 1)) (by rw [ha]; norm_num at *; linarith) (by rw [ha]; norm_num at *; linarith)
            (by norm_num [binary64]) (by
              have e : ((8 : ℤ) - ((binary64.p : ℤ) - 1)) = -44 := by norm_num [binary64]
              rw [e, abs_lt]
              constructor <;> norm_num at * <;> linarith)]
          norm_num [binary64]
        have n1 := abs_le.1 (rnd_near (x := c * 1000) (by norm_num at *; linarith))
        have n2 := abs_le.1 (rnd_near (x := c * 500) (by norm_num at *; linarith))
        have hsx : s'.x = -(1000 - 1 / 2 ^ 43) := by
          obtain ⟨w, hw, e⟩ := hs'
          have e : s' = w := e
          subst e
          have := hw.1
          rw [hrow] at this
          exact dot_quarter f1000 (big (by norm_num at *; linarith [n1.1]) (by norm_num at *; linarith [n1.2]))
            (big (by norm_num at *; linarith) (by norm_num at *; linarith)) this
        refine ⟨?_, ?_⟩
        · simp only [V3.map, hsx, abs_neg]
          norm_num [abs_of_pos]
        · intro r' hr'
          cases hrows with
          | @cons _ r0 _ l0 hrow' hnil =>
            cases hnil
            rw [List.mem_singleton] at hr'
            subst hr'
            have hcx : c'.x = 0 := by
              obtain ⟨w, hw, rfl⟩ := hc'
              have : w.x = 0 := RoundedRsd.dot_single RoundedRsd.float_zero hw.1 (.inl ⟨by simp, by simp, by simp⟩)
              simp [addF, this, ht0, hz]
            have hpx : r'.pos.x = -(500 + 1 / 2 ^ 44) := by
              obtain ⟨w, hw, e⟩ := hrow'.pos
              have := hw.1
              rw [hrow] at this
              have hw0 := dot_quarter f500 (y := -(500 + 1 / 2 ^ 44)) (by
                rw [mul_neg, Fmt.rnd_neg]
                exact half (by norm_num at *; linarith [n2.1]) (by norm_num at *; linarith [n2.2])) (by
                rw [mul_neg]
                exact half (by norm_num at *; linarith) (by norm_num at *; linarith)) this
              rw [e]
              simp only [addF, if_false, Bool.false_eq_true, ht0, add_zero, hw0]
              exact Fmt.rnd_exact (by rw [← hw0]; exact dot_float hw.1)
            rintro ⟨hin, -, -⟩
            simp only [V3.map, hsx, hpx, hcx, abs_neg, sub_zero] at hin
            norm_num [abs_of_pos] at hin

end Verif.Props.RoundedMoves
