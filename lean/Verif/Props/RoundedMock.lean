import Verif.Model.RoundedMock
import Verif.Props.RoundedMask
import Verif.Lemmas.RoundedGap

/-!
# C125: positions of Poisson samples, with rounding errors

The box of size `L` around `center` is cut in `n` cells; cell `i` is `[center - L / 2 + i * L / n, center - L / 2 + (i + 1) * L / n)`.
-/

namespace Verif.Props.RoundedMock

open Verif Verif.Model Verif.Model.RoundedMask Verif.Model.RoundedMock Verif.Props.RoundedMask Verif.Model.RoundedRemap

variable {F : Fmt}

/-- The offset of an object in its cell. -/
theorem uniform_zero (L : ℝ) (n : ℕ) (u : ℝ) : uniformF F 0 (cellF F L n) u = F.rnd (cellF F L n * u) := by
  unfold uniformF
  rw [sub_zero, zero_add, Fmt.rnd_idem, cellF, Fmt.rnd_idem]

/-- C125, lower face: no object is below the lower face of the box, as computed; below the lower face itself, if it is a float. -/
theorem C125_lower {L center u : ℝ} (n i : ℕ) (hL : 0 ≤ L) (hu : 0 ≤ u) :
    F.rnd (center - F.rnd (L / 2)) ≤ positionF F L center n i u ∧
      (F.IsFloat (L / 2) → F.IsFloat (center - L / 2) → center - L / 2 ≤ positionF F L center n i u) := by
  have hc : 0 ≤ cellF F L n := Fmt.rnd_nonneg (by positivity)
  have hn : 0 ≤ nodeF F L n i := Fmt.rnd_nonneg (by positivity)
  have hs : 0 ≤ uniformF F 0 (cellF F L n) u := by
    rw [uniform_zero]
    exact Fmt.rnd_nonneg (by positivity)
  have hb := Fmt.rnd_nonneg (F := F) (add_nonneg hn hs)
  have h : cornerF F L center ≤ positionF F L center n i u :=
    Fmt.le_rnd (Fmt.rnd_isFloat _) (by linarith)
  refine ⟨h, fun h1 h2 => ?_⟩
  rwa [cornerF, Fmt.rnd_exact h1, Fmt.rnd_exact h2] at h

/-- C125, meshes whose nodes are floats, before and after the shift by the centre: objects are in their cell, or at the upper end of it. -/
theorem C125_nodes_partial {L center u : ℝ} {n i : ℕ} (hL : 0 ≤ L) (hu : 0 ≤ u ∧ u < 1) (hc : F.IsFloat (L / n))
    (h1 : F.IsFloat (i * (L / n))) (h2 : F.IsFloat ((i + 1) * (L / n))) (h3 : F.IsFloat (L / 2)) (h4 : F.IsFloat (center - L / 2))
    (h5 : F.IsFloat (center - L / 2 + i * (L / n))) (h6 : F.IsFloat (center - L / 2 + (i + 1) * (L / n))) :
    center - L / 2 + i * (L / n) ≤ positionF F L center n i u ∧ positionF F L center n i u ≤ center - L / 2 + (i + 1) * (L / n) := by
  have hc0 : 0 ≤ L / n := by positivity
  unfold positionF
  rw [uniform_zero, nodeF, cornerF, cellF, Fmt.rnd_exact hc, Fmt.rnd_exact h1, Fmt.rnd_exact h3, Fmt.rnd_exact h4]
  have hs0 : 0 ≤ F.rnd (L / n * u) := Fmt.rnd_nonneg (mul_nonneg hc0 hu.1)
  have hs1 : F.rnd (L / n * u) ≤ L / n := Fmt.rnd_le hc (by nlinarith [hu.2])
  have hb0 : i * (L / n) ≤ F.rnd (i * (L / n) + F.rnd (L / n * u)) := Fmt.le_rnd h1 (by linarith)
  have hb1 : F.rnd (i * (L / n) + F.rnd (L / n * u)) ≤ (i + 1) * (L / n) := Fmt.rnd_le h2 (by linarith)
  exact ⟨Fmt.le_rnd h5 (by linarith), Fmt.rnd_le h6 (by linarith)⟩

/-- C125, boxes whose nodes are floats: no object is above the upper face. -/
theorem C125_upper_partial {L center u : ℝ} {n i : ℕ} (hL : 0 ≤ L) (hi : i < n) (hu : 0 ≤ u ∧ u < 1) (hc : F.IsFloat (L / n))
    (h1 : F.IsFloat (i * (L / n))) (h2 : F.IsFloat L) (h3 : F.IsFloat (L / 2)) (h4 : F.IsFloat (center - L / 2))
    (h6 : F.IsFloat (center + L / 2)) : positionF F L center n i u ≤ center + L / 2 := by
  have hn : (0 : ℝ) < n := by exact_mod_cast (Nat.zero_le i).trans_lt hi
  have hc0 : 0 ≤ L / n := by positivity
  have hi1 : (i + 1) * (L / n) ≤ L := by
    have : (i : ℝ) + 1 ≤ n := by exact_mod_cast hi
    calc (i + 1) * (L / n) ≤ n * (L / n) := mul_le_mul_of_nonneg_right this hc0
      _ = L := by field_simp
  unfold positionF
  rw [uniform_zero, nodeF, cornerF, cellF, Fmt.rnd_exact hc, Fmt.rnd_exact h1, Fmt.rnd_exact h3, Fmt.rnd_exact h4]
  have hs1 : F.rnd (L / n * u) ≤ L / n := Fmt.rnd_le hc (by nlinarith [hu.2])
  have hb1 : F.rnd (i * (L / n) + F.rnd (L / n * u)) ≤ L := Fmt.rnd_le h2 (by linarith)
  exact Fmt.rnd_le h6 (by linarith)

/-- Rounding errors, where the smallest number with all its digits is at most `T`. -/
theorem rnd_err_le {T : ℝ} (hT : F.tiny ≤ T) (x : ℝ) : |F.rnd x - x| ≤ F.u * (|x| + T) := by
  have h := Fmt.rnd_err_all (F := F) x
  have e : (2 : ℝ) ^ F.emin / 2 = F.u * F.tiny := by
    unfold Fmt.u Fmt.tiny
    rw [show F.emin + (F.p : ℤ) - 1 = F.emin + F.p + (-1) by ring, zpow_add₀ (by norm_num), zpow_add₀ (by norm_num), zpow_natCast]
    have : (2 : ℝ) ^ F.p ≠ 0 := by positivity
    field_simp
  have := mul_le_mul_of_nonneg_left hT (Fmt.u_pos (F := F)).le
  rw [e] at h
  linarith

/-- C125, error of positions: each coordinate is the one of exact arithmetic, to within 16 rounding errors of the size of the box and of its
centre. -/
theorem C125_error {L center u : ℝ} {n i : ℕ} (hi : i < n) (hu : 0 ≤ u ∧ u < 1) (hL : F.tiny ≤ L / n) :
    |positionF F L center n i u - (center - L / 2 + (i + u) * (L / n))| ≤ 16 * F.u * (L + |center|) := by
  have ht : 0 < F.tiny := Fmt.two_zpow_pos _
  have hn1 : 1 ≤ n := (Nat.zero_le i).trans_lt hi
  have hn : (1 : ℝ) ≤ n := by exact_mod_cast hn1
  have hε := Fmt.u_pos (F := F)
  have hε4 := Fmt.u_le (F := F)
  set ε := F.u
  set T := L / n with hT
  have hT0 : 0 < T := ht.trans_le hL
  have hLT : L = n * T := by rw [hT]; field_simp
  have hTL : T ≤ L := by rw [hLT]; nlinarith
  have hin : (i : ℝ) + 1 ≤ n := by exact_mod_cast hi
  have hi0 : (0 : ℝ) ≤ i := by positivity
  -- size of cells
  have e1 : |cellF F L n - T| ≤ ε * T := by
    have := Fmt.rnd_err (F := F) (x := L / n) (by rwa [abs_of_pos hT0])
    rwa [abs_of_pos hT0] at this
  set cell := cellF F L n
  have c0 : 0 ≤ cell := Fmt.rnd_nonneg hT0.le
  have c1 : cell ≤ 5 / 4 * T := by
    have := (abs_le.1 e1).2
    nlinarith
  -- node and offset in the cell
  have hiT : i * T + T ≤ L := by rw [hLT]; nlinarith
  have hiT0 : 0 ≤ i * T := by positivity
  have huT : u * T ≤ T := by nlinarith [hu.2]
  have huT0 : 0 ≤ u * T := mul_nonneg hu.1 hT0.le
  have e2 : |nodeF F L n i - i * cell| ≤ ε * (5 / 4 * (i * T) + T) := by
    refine (rnd_err_le hL _).trans (mul_le_mul_of_nonneg_left ?_ hε.le)
    rw [abs_of_nonneg (by positivity)]
    nlinarith
  have e3 : |uniformF F 0 cell u - cell * u| ≤ ε * (9 / 4 * T) := by
    rw [show uniformF F 0 cell u = F.rnd (cell * u) from uniform_zero L n u]
    refine (rnd_err_le hL _).trans (mul_le_mul_of_nonneg_left ?_ hε.le)
    rw [abs_of_nonneg (mul_nonneg c0 hu.1)]
    nlinarith [hu.2]
  set a := nodeF F L n i
  set s := uniformF F 0 cell u
  have f1 : |(i + u) * (cell - T)| ≤ ε * (i * T + u * T) := by
    rw [abs_mul, abs_of_nonneg (add_nonneg hi0 hu.1)]
    calc (i + u) * |cell - T| ≤ (i + u) * (ε * T) := mul_le_mul_of_nonneg_left e1 (add_nonneg hi0 hu.1)
      _ = _ := by ring
  have g1 : |a + s - (i + u) * T| ≤ 17 / 4 * (ε * L) := by
    have e : a + s - (i + u) * T = (a - i * cell) + (s - cell * u) + (i + u) * (cell - T) := by ring
    rw [e]
    refine (abs_add_three _ _ _).trans ?_
    have : ε * (5 / 4 * (i * T) + T) + ε * (9 / 4 * T) + ε * (i * T + u * T) ≤ ε * (17 / 4 * L) := by
      rw [← mul_add, ← mul_add]
      exact mul_le_mul_of_nonneg_left (by linarith) hε.le
    linarith
  have hL0 : 0 ≤ L := hT0.le.trans hTL
  have hεL : ε * L ≤ 1 / 4 * L := mul_le_mul_of_nonneg_right hε4 hL0
  have hX : |(i + u) * T| ≤ L := by
    rw [abs_of_nonneg (mul_nonneg (add_nonneg hi0 hu.1) hT0.le)]
    linarith
  have near : ∀ {x y d M : ℝ}, |x - y| ≤ d → |y| ≤ M → |x| ≤ M + d := fun {x y d M} h1 h2 => by
    have := abs_add_le (x - y) y
    rw [sub_add_cancel] at this
    linarith
  have g2 : |a + s| ≤ 33 / 16 * L := by
    have := near g1 hX
    linarith
  have e4 : |F.rnd (a + s) - (a + s)| ≤ ε * (49 / 16 * L) :=
    (rnd_err_le hL _).trans (mul_le_mul_of_nonneg_left (by linarith) hε.le)
  set b := F.rnd (a + s)
  have g3 : |b - (i + u) * T| ≤ 117 / 16 * (ε * L) := by
    have := abs_sub_le b (a + s) ((i + u) * T)
    linarith
  have g4 : |b| ≤ 181 / 64 * L := by
    have := near g3 hX
    linarith
  -- shift by the centre
  have hL2 : |L / 2| ≤ L / 2 := (abs_of_nonneg (by linarith)).le
  have e5 : |F.rnd (L / 2) - L / 2| ≤ ε * (3 / 2 * L) :=
    (rnd_err_le hL _).trans (mul_le_mul_of_nonneg_left (by linarith) hε.le)
  have g5 : |F.rnd (L / 2)| ≤ 7 / 8 * L := by
    have := near e5 hL2
    linarith
  have g6 : |center - F.rnd (L / 2)| ≤ |center| + 7 / 8 * L := (abs_sub _ _).trans (by linarith)
  have e6 : |cornerF F L center - (center - F.rnd (L / 2))| ≤ ε * (|center| + 15 / 8 * L) :=
    (rnd_err_le hL _).trans (mul_le_mul_of_nonneg_left (by linarith) hε.le)
  set off := cornerF F L center
  have g7 : |off - (center - L / 2)| ≤ ε * |center| + 27 / 8 * (ε * L) := by
    have := abs_sub_le off (center - F.rnd (L / 2)) (center - L / 2)
    rw [show center - F.rnd (L / 2) - (center - L / 2) = -(F.rnd (L / 2) - L / 2) by ring, abs_neg] at this
    linarith
  have hC0 := abs_nonneg center
  have hεC : ε * |center| ≤ 1 / 4 * |center| := mul_le_mul_of_nonneg_right hε4 hC0
  have g8 : |off| ≤ 5 / 4 * |center| + 43 / 32 * L := by
    have := near g7 ((abs_sub _ _).trans (add_le_add_right hL2 _))
    linarith
  have e7 : |F.rnd (b + off) - (b + off)| ≤ ε * (331 / 64 * L + 5 / 4 * |center|) :=
    (rnd_err_le hL _).trans (mul_le_mul_of_nonneg_left (by linarith [abs_add_le b off]) hε.le)
  have e : positionF F L center n i u - (center - L / 2 + (i + u) * T) =
      (F.rnd (b + off) - (b + off)) + (b - (i + u) * T) + (off - (center - L / 2)) := by
    have : positionF F L center n i u = F.rnd (b + off) := rfl
    rw [this]
    ring
  rw [e]
  refine (abs_add_three _ _ _).trans ?_
  have h1 : 0 ≤ ε * L := by positivity
  have h2 : 0 ≤ ε * |center| := by positivity
  linarith

/-- C125 is violated above the box: in the box of side 1000 around the origin, with 300 cells along each axis, the largest draw in the last
cell gives a position above 500. -/
theorem C125_above_violated : ∃ u, IsDraw u ∧ positionF binary64 1000 0 300 299 u = 500 + 1 / 2 ^ 43 := by
  have hd : IsDraw (1 - 1 / 2 ^ 53) := ⟨2 ^ 53 - 1, by norm_num, by norm_num⟩
  refine ⟨1 - 1 / 2 ^ 53, hd, ?_⟩
  have h1 : cellF binary64 1000 300 = 7505999378950827 / 2 ^ 51 :=
    fl_pos 1 7505999378950827 (by norm_num) (by norm_num) (by norm_num) (by norm_num) (by norm_num)
  have h2 : nodeF binary64 1000 300 299 = 8766772712133974 / 2 ^ 43 := by
    rw [nodeF, h1]
    exact fl_pos 9 8766772712133974 (by norm_num) (by norm_num) (by norm_num) (by norm_num) (by norm_num)
  have h3 : uniformF binary64 0 (cellF binary64 1000 300) (1 - 1 / 2 ^ 53) = 7505999378950826 / 2 ^ 51 := by
    rw [uniform_zero, h1]
    exact fl_pos 1 7505999378950826 (by norm_num) (by norm_num) (by norm_num) (by norm_num) (by norm_num)
  have h4 : cornerF binary64 1000 0 = -500 := by
    have : binary64.rnd (1000 / 2) = 500 :=
      fl_pos 8 8796093022208000 (by norm_num) (by norm_num) (by norm_num) (by norm_num) (by norm_num)
    rw [cornerF, this]
    exact fl_neg 8 8796093022208000 (by norm_num) (by norm_num) (by norm_num) (by norm_num) (by norm_num)
  have h5 : binary64.rnd (8766772712133974 / 2 ^ 43 + 7505999378950826 / 2 ^ 51) = 8796093022208001 / 2 ^ 43 :=
    fl_pos 9 8796093022208001 (by norm_num) (by norm_num) (by norm_num) (by norm_num) (by norm_num)
  rw [positionF, h2, h3, h4, h5]
  exact fl_pos 8 8796093022208002 (by norm_num) (by norm_num) (by norm_num) (by norm_num) (by norm_num)

/-- C125 is violated at ends of cells, also where nodes are floats: in the box of side 1000 around the origin, with 128 cells along each axis,
the largest draw in the last cell gives 500, the upper face of the box. -/
theorem C125_end_violated : ∃ u, IsDraw u ∧ positionF binary64 1000 0 128 127 u = 500 := by
  have hd : IsDraw (1 - 1 / 2 ^ 53) := ⟨2 ^ 53 - 1, by norm_num, by norm_num⟩
  refine ⟨1 - 1 / 2 ^ 53, hd, ?_⟩
  have h1 : cellF binary64 1000 128 = 125 / 16 :=
    fl_pos 2 8796093022208000 (by norm_num) (by norm_num) (by norm_num) (by norm_num) (by norm_num)
  have h2 : nodeF binary64 1000 128 127 = 15875 / 16 := by
    rw [nodeF, h1]
    exact fl_pos 9 8727373545472000 (by norm_num) (by norm_num) (by norm_num) (by norm_num) (by norm_num)
  have h3 : uniformF binary64 0 (cellF binary64 1000 128) (1 - 1 / 2 ^ 53) = 8796093022207999 / 2 ^ 50 := by
    rw [uniform_zero, h1]
    exact fl_pos 2 8796093022207999 (by norm_num) (by norm_num) (by norm_num) (by norm_num) (by norm_num)
  have h4 : cornerF binary64 1000 0 = -500 := by
    have : binary64.rnd (1000 / 2) = 500 :=
      fl_pos 8 8796093022208000 (by norm_num) (by norm_num) (by norm_num) (by norm_num) (by norm_num)
    rw [cornerF, this]
    exact fl_neg 8 8796093022208000 (by norm_num) (by norm_num) (by norm_num) (by norm_num) (by norm_num)
  have h5 : binary64.rnd (15875 / 16 + 8796093022207999 / 2 ^ 50) = 1000 :=
    fl_pos 9 8796093022208000 (by norm_num) (by norm_num) (by norm_num) (by norm_num) (by norm_num)
  rw [positionF, h2, h3, h4, h5]
  exact fl_pos 8 8796093022208000 (by norm_num) (by norm_num) (by norm_num) (by norm_num) (by norm_num)

/-- The box of side 1000 around the origin, with 128 cells along each axis: nodes are floats. -/
example {u : ℝ} (hu : 0 ≤ u ∧ u < 1) : 0 ≤ positionF binary64 1000 0 128 64 u ∧ positionF binary64 1000 0 128 64 u ≤ 125 / 16 := by
  have f : ∀ m : ℤ, |m| ≤ 2 ^ 53 → binary64.IsFloat (m / 2 ^ 4) := fun m hm =>
    ⟨m, -4, by simpa [binary64] using hm, by norm_num [binary64], by
      rw [show (2 : ℝ) ^ (-4 : ℤ) = 1 / 2 ^ 4 by norm_num]; ring⟩
  have h := C125_nodes_partial (F := binary64) (L := 1000) (center := 0) (n := 128) (i := 64) (by norm_num) hu
    (by have := f 125 (by norm_num); norm_num at this ⊢; exact this) (by have := f 8000 (by norm_num); norm_num at this ⊢; exact this)
    (by have := f 8125 (by norm_num); norm_num at this ⊢; exact this) (by have := f 8000 (by norm_num); norm_num at this ⊢; exact this)
    (by have := f (-8000) (by norm_num); norm_num at this ⊢; exact this) (by have := f 0 (by norm_num); norm_num at this ⊢; exact this)
    (by have := f 125 (by norm_num); norm_num at this ⊢; exact this)
  norm_num at h
  exact h

/-- The box of side 1000 around the origin, with 300 cells along each axis: nodes are not floats, objects are less than `10 ^ -11` above. -/
example {u : ℝ} (hu : 0 ≤ u ∧ u < 1) {i : ℕ} (hi : i < 300) : positionF binary64 1000 0 300 i u ≤ 500 + 1 / 10 ^ 11 := by
  have ht : binary64.tiny ≤ 2 ^ (0 : ℤ) := zpow_le_zpow_right₀ (by norm_num) (by norm_num [binary64])
  have h := (abs_le.1 (C125_error (F := binary64) (L := 1000) (center := 0) hi hu (by norm_num at ht ⊢; linarith))).2
  have hi' : (i : ℝ) + 1 ≤ 300 := by exact_mod_cast hi
  have : binary64.u = 1 / 2 ^ 53 := rfl
  rw [this] at h
  norm_num at h ⊢
  linarith [hu.2]

end Verif.Props.RoundedMock
