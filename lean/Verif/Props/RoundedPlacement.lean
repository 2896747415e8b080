import Verif.Model.RoundedPlacement
import Verif.Props.RoundedCutsky
import Verif.Props.RoundedLayout
import Verif.Props.CutskyToBox

/-!
# C140: placement of the box of a cut-sky survey with rounding errors
-/

namespace Verif.Props.RoundedPlacement

open Verif Verif.Model Verif.Model.Rounded Verif.Model.RoundedSky Verif.Model.RoundedIsometry Verif.Model.RoundedLayout Verif.Model.RoundedPlacement
open Verif.Spec
open Verif.Props.RoundedIsometry
open Verif.Props.RoundedSky (npPi_lt Accurate)
open Verif.Props.Rounded (Regular)
open Verif.Props.RoundedCutsky (sq_parts)
open Verif.Lemmas.RoundedIsometry (rnd_err_tiny tiny_pos rho rho_nonneg norm_sub_le' norm_sub_comm)

/-! ### Exact placements with other arguments -/

/-- The placement by a translation along x and rotations about y and z, by angles in degrees. -/
noncomputable def place (s β γ : ℝ) (p : V3 ℝ) : V3 ℝ := rodrigues ⟨0, 0, 1⟩ (radians γ true) (rodrigues ⟨0, 1, 0⟩ (radians β true) (p + ⟨s, 0, 0⟩))

/-- The same, as calls. -/
def placeOps (s β γ : ℝ) : List Isom.Op :=
  [.translation (.scalar s) (.str "x") .origin, .rotation β (.str "y") true .origin, .rotation γ (.str "z") true .origin]

theorem run_place (s β γ : ℝ) (p : V3 ℝ) : (Isom.init.run (placeOps s β γ)).transform p false = place s β γ p := by
  unfold placeOps place Isom.run
  simp only [List.foldl, Isom.step]
  rw [(C04_rotation_origin _ AxisMeans.z _ _ _ _).2, (C04_rotation_origin _ AxisMeans.y _ _ _ _).2]
  congr 2
  simp only [Isom.translation, shiftMeans_vector (ShiftMeans.x s)]
  ext <;> simp [Isom.transform, Isom.init]

theorem cutsky_place (dr rr dcr : Range) (p : V3 ℝ) : (cutskyIsometry dr rr dcr).transform p false =
    place (dr.2 - (cutskyBoxsize dr rr dcr).x / 2) (-(dcr.1 + dcr.2) / 2) (((pointedRange rr).1 + (pointedRange rr).2) / 2) p :=
  run_place _ _ _ p

theorem rot_y (t : ℝ) (p : V3 ℝ) : rodrigues ⟨0, 1, 0⟩ t p = ⟨Real.cos t * p.x + Real.sin t * p.z, p.y, Real.cos t * p.z - Real.sin t * p.x⟩ := by
  ext <;> simp [rodrigues, V3.cross, V3.dot] <;> ring

theorem rot_z (t : ℝ) (p : V3 ℝ) : rodrigues ⟨0, 0, 1⟩ t p = ⟨Real.cos t * p.x - Real.sin t * p.y, Real.cos t * p.y + Real.sin t * p.x, p.z⟩ := by
  ext <;> simp [rodrigues, V3.cross, V3.dot] <;> ring

theorem le_of_sq {v : V3 ℝ} {c : ℝ} (hc : 0 ≤ c) (h : v.x ^ 2 + v.y ^ 2 + v.z ^ 2 ≤ c ^ 2) : v.norm ≤ c := by
  rw [← sq_parts] at h
  exact (sq_le_sq₀ (V3.norm_nonneg _) hc).1 h

theorem chord (t t' : ℝ) : (Real.cos t - Real.cos t') ^ 2 + (Real.sin t - Real.sin t') ^ 2 ≤ (t - t') ^ 2 := by
  have h := Real.one_sub_sq_div_two_le_cos (x := t - t')
  rw [Real.cos_sub] at h
  have h1 := Real.sin_sq_add_cos_sq t
  have h2 := Real.sin_sq_add_cos_sq t'
  nlinarith

theorem rot_y_angle (t t' : ℝ) (p : V3 ℝ) : (rodrigues ⟨0, 1, 0⟩ t p - rodrigues ⟨0, 1, 0⟩ t' p).norm ≤ |t - t'| * p.norm := by
  refine le_of_sq (mul_nonneg (abs_nonneg _) (V3.norm_nonneg _)) ?_
  rw [mul_pow, sq_abs, sq_parts, rot_y, rot_y]
  simp only [V3.sub_x, V3.sub_y, V3.sub_z]
  have h := mul_le_mul_of_nonneg_right (chord t t') (by positivity : 0 ≤ p.x ^ 2 + p.z ^ 2)
  have := mul_nonneg (sq_nonneg (t - t')) (sq_nonneg p.y)
  nlinarith

theorem rot_z_angle (t t' : ℝ) (p : V3 ℝ) : (rodrigues ⟨0, 0, 1⟩ t p - rodrigues ⟨0, 0, 1⟩ t' p).norm ≤ |t - t'| * p.norm := by
  refine le_of_sq (mul_nonneg (abs_nonneg _) (V3.norm_nonneg _)) ?_
  rw [mul_pow, sq_abs, sq_parts, rot_z, rot_z]
  simp only [V3.sub_x, V3.sub_y, V3.sub_z]
  have h := mul_le_mul_of_nonneg_right (chord t t') (by positivity : 0 ≤ p.x ^ 2 + p.y ^ 2)
  have := mul_nonneg (sq_nonneg (t - t')) (sq_nonneg p.z)
  nlinarith

theorem rot_y_sub (t : ℝ) (p q : V3 ℝ) : (rodrigues ⟨0, 1, 0⟩ t p - rodrigues ⟨0, 1, 0⟩ t q).norm = (p - q).norm := by
  refine (sq_eq_sq₀ (V3.norm_nonneg _) (V3.norm_nonneg _)).1 ?_
  rw [sq_parts, sq_parts, rot_y, rot_y]
  simp only [V3.sub_x, V3.sub_y, V3.sub_z]
  have h := Real.sin_sq_add_cos_sq t
  linear_combination ((p.x - q.x) ^ 2 + (p.z - q.z) ^ 2) * h

theorem rot_z_sub (t : ℝ) (p q : V3 ℝ) : (rodrigues ⟨0, 0, 1⟩ t p - rodrigues ⟨0, 0, 1⟩ t q).norm = (p - q).norm := by
  refine (sq_eq_sq₀ (V3.norm_nonneg _) (V3.norm_nonneg _)).1 ?_
  rw [sq_parts, sq_parts, rot_z, rot_z]
  simp only [V3.sub_x, V3.sub_y, V3.sub_z]
  have h := Real.sin_sq_add_cos_sq t
  linear_combination ((p.x - q.x) ^ 2 + (p.y - q.y) ^ 2) * h

theorem rot_y_norm (t : ℝ) (p : V3 ℝ) : (rodrigues ⟨0, 1, 0⟩ t p).norm = p.norm := by
  refine (sq_eq_sq₀ (V3.norm_nonneg _) (V3.norm_nonneg _)).1 ?_
  rw [sq_parts, sq_parts, rot_y]
  have h := Real.sin_sq_add_cos_sq t
  linear_combination (p.x ^ 2 + p.z ^ 2) * h

theorem tri (a b c : V3 ℝ) : (a - c).norm ≤ (a - b).norm + (b - c).norm := by
  have h := norm_sub_le' (a - c) (b - c)
  have e : a - c - (b - c) = a - b := by ext <;> simp
  rw [e] at h
  linarith

/-- Placements with close arguments are close. -/
theorem place_near (s β γ s' β' γ' : ℝ) (p : V3 ℝ) :
    (place s' β' γ' p - place s β γ p).norm ≤ |s' - s| + (|radians β' true - radians β true| + |radians γ' true - radians γ true|) * (p.norm + |s'|) := by
  have hp : (p + ⟨s', 0, 0⟩ : V3 ℝ).norm ≤ p.norm + |s'| := by
    have h := norm_sub_le' (p + ⟨s', 0, 0⟩ : V3 ℝ) p
    have e : (p + ⟨s', 0, 0⟩ - p : V3 ℝ) = ⟨s', 0, 0⟩ := by ext <;> simp
    have e' : (⟨s', 0, 0⟩ : V3 ℝ).norm = |s'| := by simp [V3.norm, Real.sqrt_sq_eq_abs]
    rw [e, e'] at h
    linarith
  have hs : ((p + ⟨s', 0, 0⟩ : V3 ℝ) - (p + ⟨s, 0, 0⟩)).norm = |s' - s| := by
    have e : ((p + ⟨s', 0, 0⟩ : V3 ℝ) - (p + ⟨s, 0, 0⟩)) = ⟨s' - s, 0, 0⟩ := by ext <;> simp
    rw [e]
    simp [V3.norm, Real.sqrt_sq_eq_abs]
  unfold place
  set b := radians β true
  set b' := radians β' true
  set g := radians γ true
  set g' := radians γ' true
  set P := p + (⟨s, 0, 0⟩ : V3 ℝ)
  set P' := p + (⟨s', 0, 0⟩ : V3 ℝ)
  have h1 := tri (rodrigues ⟨0, 0, 1⟩ g' (rodrigues ⟨0, 1, 0⟩ b' P')) (rodrigues ⟨0, 0, 1⟩ g (rodrigues ⟨0, 1, 0⟩ b' P'))
    (rodrigues ⟨0, 0, 1⟩ g (rodrigues ⟨0, 1, 0⟩ b P))
  have h2 := rot_z_angle g' g (rodrigues ⟨0, 1, 0⟩ b' P')
  rw [rot_y_norm] at h2
  rw [rot_z_sub] at h1
  have h3 := tri (rodrigues ⟨0, 1, 0⟩ b' P') (rodrigues ⟨0, 1, 0⟩ b P') (rodrigues ⟨0, 1, 0⟩ b P)
  have h4 := rot_y_angle b' b P'
  rw [rot_y_sub, hs] at h3
  have h5 := mul_le_mul_of_nonneg_left hp (abs_nonneg (b' - b))
  have h6 := mul_le_mul_of_nonneg_left hp (abs_nonneg (g' - g))
  linarith

/-! ### Rounded arguments -/

theorem tiny_le_one : binary64.tiny ≤ 1 := by
  unfold Fmt.tiny
  exact zpow_le_one_of_nonpos₀ (by norm_num) (by norm_num [binary64])

theorem rnd_step {x y e m : ℝ} (h : |x - y| ≤ e) (hm : |x| ≤ m) : |binary64.rnd x - y| ≤ e + binary64.u * (m + 1) := by
  have h1 := rnd_err_tiny (F := binary64) x
  have h2 := abs_sub_le (binary64.rnd x) x y
  have h3 : binary64.u * (|x| + binary64.tiny) ≤ binary64.u * (m + 1) :=
    mul_le_mul_of_nonneg_left (add_le_add hm tiny_le_one) (Fmt.u_pos (F := binary64)).le
  linarith

theorem abs_le_of_near {x y e m : ℝ} (h : |x - y| ≤ e) (hm : |y| ≤ m) : |x| ≤ m + e := by
  have := abs_sub_abs_le_abs_sub x y
  linarith

theorem pi_err : |npPi - Real.pi| ≤ 2 * binary64.u := by
  have h1 := Real.pi_gt_d20
  have h2 := Real.pi_lt_d20
  rw [Verif.Props.Rounded.npPi_eq, u64, abs_le]
  constructor <;> norm_num at h1 h2 ⊢ <;> linarith

/-- Half widths, in radians. -/
theorem halfWidth_err {r : Range} {w : ℝ} (hw : |w| ≤ 360) (h : |(r.2 - r.1) - w| ≤ 4800 * binary64.u) :
    |halfWidthF r - |w| / 2 * Real.pi / 180| ≤ 64 * binary64.u := by
  have hu := Fmt.u_pos (F := binary64)
  have hu' : binary64.u ≤ 1 / 10 ^ 15 := by rw [u64]; norm_num
  obtain ⟨p1, p2, p3⟩ := npPi_lt
  have hpe := pi_err
  unfold halfWidthF
  have h1 := rnd_step h ((abs_le_of_near h hw).trans (by linarith : _ ≤ (361 : ℝ)))
  set a := binary64.rnd (r.2 - r.1)
  have h2 : |(|a| / 2) - |w| / 2| ≤ 2581 * binary64.u := by
    rw [← sub_div, abs_div, abs_two, div_le_iff₀ (by norm_num)]
    have := abs_abs_sub_abs_le a w
    linarith
  have hw2 : |(|w| / 2)| ≤ 180 := by rw [abs_div, abs_abs, abs_two]; linarith
  have h3 := rnd_step h2 ((abs_le_of_near h2 hw2).trans (by linarith : _ ≤ (181 : ℝ)))
  set b := binary64.rnd (|a| / 2)
  have h4 : |b * npPi - |w| / 2 * Real.pi| ≤ 9100 * binary64.u := by
    have e : b * npPi - |w| / 2 * Real.pi = (b - |w| / 2) * npPi + |w| / 2 * (npPi - Real.pi) := by ring
    rw [e]
    refine (abs_add_le _ _).trans ?_
    rw [abs_mul, abs_mul, abs_of_pos (by linarith : (0 : ℝ) < npPi)]
    have q1 := mul_le_mul h3 p3.le (by linarith) (by linarith [hu])
    have q2 := mul_le_mul hw2 hpe (abs_nonneg _) (by norm_num)
    linarith
  have hpi := Real.pi_pos
  have hwp : |(|w| / 2 * Real.pi)| ≤ 180 * 3.15 := by
    rw [abs_mul, abs_of_pos hpi]
    exact mul_le_mul hw2 (by have := Real.pi_lt_d2; linarith) hpi.le (by norm_num)
  have h5 := rnd_step h4 ((abs_le_of_near h4 hwp).trans (by linarith : _ ≤ (568 : ℝ)))
  set c := binary64.rnd (b * npPi)
  have h6 : |c / 180 - |w| / 2 * Real.pi / 180| ≤ 54 * binary64.u := by
    rw [← sub_div, abs_div, abs_of_pos (by norm_num : (0 : ℝ) < 180), div_le_iff₀ (by norm_num)]
    linarith
  have hwp' : |(|w| / 2 * Real.pi / 180)| ≤ 3.15 := by
    rw [abs_div, abs_of_pos (by norm_num : (0 : ℝ) < 180), div_le_iff₀ (by norm_num)]
    linarith
  have h7 := rnd_step h6 ((abs_le_of_near h6 hwp').trans (by linarith : _ ≤ (4 : ℝ)))
  linarith

theorem wrap_exact {r : ℝ} (h0 : 0 ≤ r) (h1 : r < 360) : wrapAngle r = r := by
  obtain ⟨a, b, k, hk⟩ := wrap_deg r
  have k1 : (k : ℝ) < 1 := by linarith
  have k2 : (-1 : ℝ) < k := by linarith
  have : k = 0 := by
    have h1 : k < 1 := by exact_mod_cast k1
    have h2 : -1 < k := by exact_mod_cast k2
    omega
  rw [hk, this]
  simp

/-- RA ranges the placement is proved for: within [0, 360), from the first to the second one, or through RA = 0 by more than rounding errors. -/
structure Sensible (rr : ℝ × ℝ) : Prop where
  float1 : binary64.IsFloat rr.1
  float2 : binary64.IsFloat rr.2
  ge1 : 0 ≤ rr.1
  ge2 : 0 ≤ rr.2
  lt1 : rr.1 < 360
  lt2 : rr.2 < 360
  apart : rr.1 ≤ rr.2 ∨ rr.2 + 1 / 2 ^ 40 ≤ rr.1

theorem pointed_err {rr : Range} (h : Sensible rr) :
    |(pointedRangeF rr).1 - (pointedRange rr).1| ≤ 2410 * binary64.u ∧ |(pointedRangeF rr).2 - (pointedRange rr).2| ≤ 2048 * binary64.u ∧
    |(pointedRange rr).1| ≤ 360 ∧ |(pointedRange rr).2| ≤ 360 ∧ |(pointedRange rr).2 - (pointedRange rr).1| ≤ 360 := by
  obtain ⟨f1, f2, a1, a2, b1, b2, hs⟩ := h
  have hu := Fmt.u_pos (F := binary64)
  have hu' : binary64.u ≤ 1 / 10 ^ 15 := by rw [u64]; norm_num
  have hu2 : (1 : ℝ) / 2 ^ 42 = 2048 * binary64.u := by rw [u64]; norm_num
  have e1 := Verif.Props.RoundedMask.wrap_err f1 a1 b1
  have e2 := Verif.Props.RoundedMask.wrap_err f2 a2 b2
  rw [hu2] at e1 e2
  unfold pointedRangeF pointedRange
  simp only [wrap_exact a1 b1, wrap_exact a2 b2]
  rcases hs with hs | hs
  · rw [if_neg (not_lt.2 (Verif.Props.RoundedMask.wrap_mono f1 f2 a1 hs b2)), if_neg (not_lt.2 hs)]
    refine ⟨by linarith, e2, ?_, ?_, ?_⟩ <;> rw [abs_le] <;> constructor <;> simp only <;> linarith
  · have n1 : (1 : ℝ) / 2 ^ 40 = 8192 * binary64.u := by rw [u64]; norm_num
    have l1 := abs_le.1 e1
    have l2 := abs_le.1 e2
    rw [if_pos (by linarith), if_pos (by linarith)]
    simp only
    have e3 : |wrapAngleF binary64 rr.1 - 360 - (rr.1 - 360)| ≤ 2048 * binary64.u := by rwa [sub_sub_sub_cancel_right]
    have e4 := rnd_step e3 ((abs_le_of_near e3 (abs_le.2 ⟨by linarith, by linarith⟩ : |rr.1 - 360| ≤ 360)).trans (by linarith : _ ≤ (361 : ℝ)))
    refine ⟨by linarith, e2, ?_, ?_, ?_⟩ <;> rw [abs_le] <;> constructor <;> linarith

/-- The angle of the rotation about z. -/
theorem ra_angle {rr : Range} (h : Sensible rr) :
    |binary64.rnd (binary64.rnd ((pointedRangeF rr).1 + (pointedRangeF rr).2) / 2) - ((pointedRange rr).1 + (pointedRange rr).2) / 2| ≤ 4096 * binary64.u ∧
    |((pointedRange rr).1 + (pointedRange rr).2) / 2| ≤ 360 := by
  have hu := Fmt.u_pos (F := binary64)
  have hu' : binary64.u ≤ 1 / 10 ^ 15 := by rw [u64]; norm_num
  obtain ⟨e1, e2, m1, m2, -⟩ := pointed_err h
  set a := (pointedRange rr).1
  set b := (pointedRange rr).2
  have hs : |a + b| ≤ 720 := (abs_add_le _ _).trans (by linarith)
  have e3 : |(pointedRangeF rr).1 + (pointedRangeF rr).2 - (a + b)| ≤ 4458 * binary64.u := by
    rw [add_sub_add_comm]
    exact (abs_add_le _ _).trans (by linarith)
  have e4 := rnd_step e3 ((abs_le_of_near e3 hs).trans (by linarith : _ ≤ (721 : ℝ)))
  have e5 : |binary64.rnd ((pointedRangeF rr).1 + (pointedRangeF rr).2) / 2 - (a + b) / 2| ≤ 2600 * binary64.u := by
    rw [← sub_div, abs_div, abs_two, div_le_iff₀ (by norm_num)]
    linarith
  have e6 : |(a + b) / 2| ≤ 360 := by rw [abs_div, abs_two]; linarith
  have e7 := rnd_step e5 ((abs_le_of_near e5 e6).trans (by linarith : _ ≤ (361 : ℝ)))
  exact ⟨by linarith, e6⟩

/-- The angle of the rotation about y. -/
theorem dec_angle {dcr : Range} (h1 : |dcr.1| ≤ 90) (h2 : |dcr.2| ≤ 90) :
    |binary64.rnd (-binary64.rnd (dcr.1 + dcr.2) / 2) - -(dcr.1 + dcr.2) / 2| ≤ 256 * binary64.u ∧ |-(dcr.1 + dcr.2) / 2| ≤ 90 := by
  have hu := Fmt.u_pos (F := binary64)
  have hu' : binary64.u ≤ 1 / 10 ^ 15 := by rw [u64]; norm_num
  have hs : |dcr.1 + dcr.2| ≤ 180 := (abs_add_le _ _).trans (by linarith)
  have e1 := rnd_step (x := dcr.1 + dcr.2) (y := dcr.1 + dcr.2) (e := 0) (by simp) hs
  have e2 : |-binary64.rnd (dcr.1 + dcr.2) / 2 - -(dcr.1 + dcr.2) / 2| ≤ 91 * binary64.u := by
    rw [← sub_div, abs_div, abs_two, div_le_iff₀ (by norm_num), ← abs_neg]
    have : -(-binary64.rnd (dcr.1 + dcr.2) - -(dcr.1 + dcr.2)) = binary64.rnd (dcr.1 + dcr.2) - (dcr.1 + dcr.2) := by ring
    rw [this]
    linarith
  have e3 : |-(dcr.1 + dcr.2) / 2| ≤ 90 := by rw [abs_div, abs_neg, abs_two]; linarith
  have e4 := rnd_step e2 ((abs_le_of_near e2 e3).trans (by linarith : _ ≤ (91 : ℝ)))
  exact ⟨by linarith, e3⟩

theorem nat_float (n : ℕ) (h : n ≤ 2 ^ 53) : binary64.IsFloat n := (Verif.Props.RoundedCutsky.regular_nat n h).1

theorem rnd_abs_le {x : ℝ} (n : ℕ) (hn : n ≤ 2 ^ 53) (h : |x| ≤ n) : |binary64.rnd x| ≤ n := by
  obtain ⟨h1, h2⟩ := abs_le.1 h
  exact abs_le.2 ⟨Fmt.le_rnd (Fmt.isFloat_neg (nat_float n hn)) h1, Fmt.rnd_le (nat_float n hn) h2⟩

theorem ra_angle_le (rr : Range) : |binary64.rnd (binary64.rnd ((pointedRangeF rr).1 + (pointedRangeF rr).2) / 2)| ≤ 360 := by
  have h1 := (Verif.Props.Rounded.C111_range rr.1).1
  have h2 := (Verif.Props.Rounded.C111_range rr.2).1
  have m : |(pointedRangeF rr).1| ≤ 360 ∧ |(pointedRangeF rr).2| ≤ 360 := by
    unfold pointedRangeF
    simp only
    split_ifs
    · exact ⟨by simpa using rnd_abs_le 360 (by norm_num) (by rw [abs_le]; constructor <;> push_cast <;> linarith [h1.1, h1.2]),
        abs_le.2 ⟨by simp only; linarith [h2.1], by simp only; linarith [h2.2]⟩⟩
    · exact ⟨abs_le.2 ⟨by simp only; linarith [h1.1], by simp only; linarith [h1.2]⟩, abs_le.2 ⟨by simp only; linarith [h2.1], by simp only; linarith [h2.2]⟩⟩
  have h3 : |binary64.rnd ((pointedRangeF rr).1 + (pointedRangeF rr).2)| ≤ 720 := by
    have := rnd_abs_le (x := (pointedRangeF rr).1 + (pointedRangeF rr).2) 720 (by norm_num) ((abs_add_le _ _).trans (by push_cast; linarith [m.1, m.2]))
    simpa using this
  have := rnd_abs_le (x := binary64.rnd ((pointedRangeF rr).1 + (pointedRangeF rr).2) / 2) 360 (by norm_num) (by
    rw [abs_div, abs_two]; push_cast; linarith)
  simpa using this

/-- Libraries whose cosines and sines are within 2 10⁻¹⁶, and within [-1, 1]. -/
structure Fine (lib : Libm) : Prop where
  cos : ∀ t, |lib.cos t - Real.cos t| ≤ 2 / 10 ^ 16
  sin : ∀ t, |lib.sin t - Real.sin t| ≤ 2 / 10 ^ 16
  cos_le : ∀ t, |lib.cos t| ≤ 1
  sin_le : ∀ t, |lib.sin t| ≤ 1

theorem trig_near {t t' e : ℝ} (h : |t - t'| ≤ e) : |Real.cos t - Real.cos t'| ≤ e ∧ |Real.sin t - Real.sin t'| ≤ e := by
  have he : 0 ≤ e := (abs_nonneg _).trans h
  have hc := chord t t'
  have h2 : (t - t') ^ 2 ≤ e ^ 2 := by rw [← sq_abs]; exact pow_le_pow_left₀ (abs_nonneg _) h 2
  exact ⟨abs_le_of_sq_le_sq (by nlinarith [sq_nonneg (Real.sin t - Real.sin t')]) he,
    abs_le_of_sq_le_sq (by nlinarith [sq_nonneg (Real.cos t - Real.cos t')]) he⟩

/-- C140: the box size of a survey, computed from its distance, RA and Dec ranges, is at most 1.5 10⁻¹⁴ of the largest distance away from that of exact
arithmetic, along the line of sight, and twice this in the two other directions. -/
theorem C140_boxsize {lib : Libm} (hl : Fine lib) {dr rr dcr : Range} (h0 : 0 ≤ dr.1) (hd : dr.1 ≤ dr.2) (hf : binary64.IsFloat dr.2) (hr : Sensible rr)
    (h1 : |dcr.1| ≤ 90) (h2 : |dcr.2| ≤ 90) :
    |(cutskyBoxsizeF lib dr rr dcr).x - (cutskyBoxsize dr rr dcr).x| ≤ 15 / 10 ^ 15 * (dr.2 + binary64.tiny) ∧
    |(cutskyBoxsizeF lib dr rr dcr).y - (cutskyBoxsize dr rr dcr).y| ≤ 30 / 10 ^ 15 * (dr.2 + binary64.tiny) ∧
    |(cutskyBoxsizeF lib dr rr dcr).z - (cutskyBoxsize dr rr dcr).z| ≤ 30 / 10 ^ 15 * (dr.2 + binary64.tiny) := by
  have hu := Fmt.u_pos (F := binary64)
  have ht := tiny_pos (F := binary64)
  have hd0 : 0 ≤ dr.2 := h0.trans hd
  obtain ⟨e1, e2, -, -, hw⟩ := pointed_err hr
  have k1 : |halfWidthF (pointedRangeF rr) - |(pointedRange rr).2 - (pointedRange rr).1| / 2 * Real.pi / 180| ≤ 64 * binary64.u := by
    refine halfWidth_err hw ?_
    rw [sub_sub_sub_comm]
    exact (abs_sub _ _).trans (by linarith)
  have k2 : |halfWidthF dcr - |dcr.2 - dcr.1| / 2 * Real.pi / 180| ≤ 64 * binary64.u := by
    refine halfWidth_err ((abs_sub _ _).trans (by linarith)) ?_
    rw [sub_self, abs_zero]
    positivity
  have step : ∀ {x y z : ℝ}, |x - y| ≤ 2 / 10 ^ 16 → |y - z| ≤ 64 * binary64.u → |x - z| ≤ 66 * binary64.u := by
    intro x y z a b
    have := abs_sub_le x y z
    have hn : (2 : ℝ) / 10 ^ 16 ≤ 2 * binary64.u := by rw [u64]; norm_num
    linarith
  obtain ⟨c1, s1⟩ := trig_near k1
  obtain ⟨c2, s2⟩ := trig_near k2
  obtain ⟨q1, q2, q3⟩ := Verif.Props.RoundedLayout.C138_size (F := binary64) h0 hd hf (by rw [u64]; norm_num : 66 * binary64.u ≤ 1)
    (step (hl.cos _) c1) (step (hl.cos _) c2) (step (hl.sin _) s1) (step (hl.sin _) s2)
  have hn : binary64.u ≤ 112 / 10 ^ 18 := by rw [u64]; norm_num
  have hud := mul_le_mul_of_nonneg_right hn hd0
  have hut := mul_le_mul_of_nonneg_right hn ht.le
  have hud' := mul_nonneg hu.le hd0
  have hut' := mul_nonneg hu.le ht.le
  refine ⟨q1.trans ?_, q2.trans ?_, q3.trans ?_⟩ <;> nlinarith

/-- The length of the translation along x. -/
theorem shift_err {lib : Libm} (hl : Fine lib) {dr rr dcr : Range} (h0 : 0 ≤ dr.1) (hd : dr.1 ≤ dr.2) (hf : binary64.IsFloat dr.2) (hr : Sensible rr)
    (h1 : |dcr.1| ≤ 90) (h2 : |dcr.2| ≤ 90) :
    |binary64.rnd (dr.2 - binary64.rnd ((cutskyBoxsizeF lib dr rr dcr).x / 2)) - (dr.2 - (cutskyBoxsize dr rr dcr).x / 2)| ≤
      1 / 10 ^ 14 * (dr.2 + binary64.tiny) ∧ |dr.2 - (cutskyBoxsize dr rr dcr).x / 2| ≤ dr.2 := by
  obtain ⟨hx, -, -⟩ := C140_boxsize hl h0 hd hf hr h1 h2
  have hu := Fmt.u_pos (F := binary64)
  have ht := tiny_pos (F := binary64)
  have hd0 : 0 ≤ dr.2 := h0.trans hd
  set b' := (cutskyBoxsizeF lib dr rr dcr).x
  set b := (cutskyBoxsize dr rr dcr).x with hb
  have hb0 : 0 ≤ b ∧ b ≤ 2 * dr.2 := by
    rw [hb]
    unfold cutskyBoxsize
    simp only
    set m := min (Real.cos (|(pointedRange rr).2 - (pointedRange rr).1| / 2 * Real.pi / 180)) (Real.cos (|dcr.2 - dcr.1| / 2 * Real.pi / 180))
    have m1 : m ≤ 1 := (min_le_left _ _).trans (Real.cos_le_one _)
    have m2 : -1 ≤ m := le_min (Real.neg_one_le_cos _) (Real.neg_one_le_cos _)
    constructor <;> nlinarith
  have hs : |dr.2 - b / 2| ≤ dr.2 := abs_le.2 ⟨by linarith, by linarith⟩
  refine ⟨?_, hs⟩
  set T := dr.2 + binary64.tiny with hT
  have hT0 : 0 ≤ T := by linarith
  have hn : binary64.u ≤ 112 / 10 ^ 18 := by rw [u64]; norm_num
  have r1 := rnd_err_tiny (F := binary64) (b' / 2)
  have a1 : |b' / 2| ≤ 2 * T := by
    rw [abs_div, abs_two]
    have := abs_le_of_near hx (abs_le.2 ⟨by linarith, hb0.2⟩)
    linarith
  have g1 : binary64.u * (|b' / 2| + binary64.tiny) ≤ 112 / 10 ^ 18 * (3 * T) := mul_le_mul hn (by linarith) (by positivity) (by norm_num)
  set h := binary64.rnd (b' / 2)
  have e1 : |h - b / 2| ≤ 8 / 10 ^ 15 * T := by
    have i1 : |b' / 2 - b / 2| ≤ 15 / 10 ^ 15 * T / 2 := by
      rw [← sub_div, abs_div, abs_two]
      linarith
    have := abs_sub_le h (b' / 2) (b / 2)
    linarith
  have e2 : |dr.2 - h - (dr.2 - b / 2)| ≤ 8 / 10 ^ 15 * T := by
    rw [sub_sub_sub_cancel_left, abs_sub_comm]
    exact e1
  have r2 := rnd_err_tiny (F := binary64) (dr.2 - h)
  have a2 : |dr.2 - h| ≤ 2 * T := by
    have := abs_le_of_near e2 hs
    linarith
  have g2 : binary64.u * (|dr.2 - h| + binary64.tiny) ≤ 112 / 10 ^ 18 * (3 * T) := mul_le_mul hn (by linarith) (by positivity) (by norm_num)
  have := abs_sub_le (binary64.rnd (dr.2 - h)) (dr.2 - h) (dr.2 - b / 2)
  linarith

theorem rad_diff {x y e : ℝ} (h : |x - y| ≤ e) : |radians x true - radians y true| ≤ e / 57 := by
  have hp := Real.pi_lt_d2
  have hp0 := Real.pi_pos
  have he : 0 ≤ e := (abs_nonneg _).trans h
  have e1 : radians x true - radians y true = (x - y) * (Real.pi / 180) := by simp only [radians, if_true]; ring
  rw [e1, abs_mul, abs_of_pos (by positivity : 0 < Real.pi / 180), div_eq_mul_one_div e]
  exact mul_le_mul h (by linarith) (by positivity) he

theorem regular_axis : Regular binary64 0 ∧ Regular binary64 1 :=
  ⟨by simpa using Verif.Props.RoundedCutsky.regular_nat 0 (by norm_num), by simpa using Verif.Props.RoundedCutsky.regular_nat 1 (by norm_num)⟩

theorem turn_stands {lib : Libm} (hl : Fine lib) {a : Axis} {v : V3 ℝ} (ha : AxisMeans a v) (hv : AxisArray a v)
    (hr : Regular binary64 v.x ∧ Regular binary64 v.y ∧ Regular binary64 v.z) {angle : ℝ} (h : |angle| ≤ 360) :
    Stands (2 / 10 ^ 13) (.dotOrigin (turnF lib v angle)) (.rotation angle a true .origin) := by
  refine C128_double_rotation ha hv hr.1 hr.2.1 hr.2.2 ?_ (hl.cos_le _) (hl.sin_le _) (hl.cos _) (hl.sin _)
  have hp := Real.pi_pos
  have e : radians angle true = angle * (Real.pi / 180) := by simp only [radians, if_true]; ring
  rw [e, abs_mul, abs_of_pos (by positivity : 0 < Real.pi / 180)]
  have := mul_le_mul_of_nonneg_right h (by positivity : 0 ≤ Real.pi / 180)
  linarith

/-- Calls of `cutsky_to_box` stand for calls of exact arithmetic, with other arguments. -/
theorem ops_stand {lib : Libm} (hl : Fine lib) (dr rr dcr : Range) (h1 : |dcr.1| ≤ 90) (h2 : |dcr.2| ≤ 90) :
    List.Forall₂ (Stands (2 / 10 ^ 13)) (cutskyOpsF lib dr rr dcr) (placeOps (binary64.rnd (dr.2 - binary64.rnd ((cutskyBoxsizeF lib dr rr dcr).x / 2)))
      (binary64.rnd (-binary64.rnd (dcr.1 + dcr.2) / 2)) (binary64.rnd (binary64.rnd ((pointedRangeF rr).1 + (pointedRangeF rr).2) / 2))) := by
  obtain ⟨r0, r1⟩ := regular_axis
  have hdec : |binary64.rnd (-binary64.rnd (dcr.1 + dcr.2) / 2)| ≤ 360 := by
    obtain ⟨q1, q2⟩ := dec_angle h1 h2
    have := abs_le_of_near q1 q2
    have hu' : binary64.u ≤ 1 / 10 ^ 15 := by rw [u64]; norm_num
    linarith
  exact .cons (.translationOrigin (.x _)) (.cons (turn_stands hl .y .y ⟨r0, r1, r0⟩ hdec) (.cons (turn_stands hl .z .z ⟨r0, r0, r1⟩ (ra_angle_le rr)) .nil))

/-- C140: the isometry of `isometry_for_cutsky` for the centre `c` moves each position where exact arithmetic does, up to 4 10⁻¹² of the distances. -/
theorem C140_isometry {lib : Libm} (hl : Fine lib) {dr rr dcr : Range} (h0 : 0 ≤ dr.1) (hd : dr.1 ≤ dr.2) (hf : binary64.IsFloat dr.2) (hr : Sensible rr)
    (h1 : |dcr.1| ≤ 90) (h2 : |dcr.2| ≤ 90) {c x y : V3 ℝ} {s : Isom} (hs : PlacedF lib dr rr dcr c s) (hy : TransformF binary64 s x false y) :
    (y - (cutskyIsometry dr rr dcr).transform (x - c) false).norm ≤ 4 / 10 ^ 12 * (x.norm + c.norm + dr.2 + 50 * binary64.tiny) := by
  obtain ⟨a, b, ha, hb, hab⟩ := hs
  set s' := binary64.rnd (dr.2 - binary64.rnd ((cutskyBoxsizeF lib dr rr dcr).x / 2)) with hs'
  set β' := binary64.rnd (-binary64.rnd (dcr.1 + dcr.2) / 2) with hβ'
  set γ' := binary64.rnd (binary64.rnd ((pointedRangeF rr).1 + (pointedRangeF rr).2) / 2) with hγ'
  have hst := ops_stand hl dr rr dcr h1 h2
  rw [← hs', ← hβ', ← hγ'] at hst
  have hc := C128_concatenate (F := binary64) (d := 2 / 10 ^ 13) (by norm_num) (.cons (.translationOrigin (.vec (-c))) .nil) hst ha hb hab hy
  have e1 : (Isom.init.run [.translation (.vec (-c)) .none .origin]).transform x false = x - c := by
    simp only [Isom.run, List.foldl, Isom.step, Isom.translation, shiftMeans_vector (ShiftMeans.vec (-c))]
    ext <;> simp [Isom.transform, Isom.init] <;> ring
  rw [e1, run_place] at hc
  have e2 : shifts [OpF.translationOrigin (-c)] = c.norm := by
    simp [shifts, Verif.Props.RoundedIsometry.shiftOf, V3.norm]
  have e3 : shifts (cutskyOpsF lib dr rr dcr) = |s'| := by
    have : (⟨s', 0, 0⟩ : V3 ℝ).norm = |s'| := by simp [V3.norm, Real.sqrt_sq_eq_abs]
    simp [shifts, Verif.Props.RoundedIsometry.shiftOf, cutskyOpsF, ← hs', this]
  rw [e2, e3] at hc
  have hlen : (cutskyOpsF lib dr rr dcr).length = 3 := rfl
  rw [hlen] at hc
  obtain ⟨k1, k2⟩ := shift_err hl h0 hd hf hr h1 h2
  rw [← hs'] at k1
  have k3 := rad_diff (dec_angle h1 h2).1
  have k4 := rad_diff (ra_angle hr).1
  rw [← hβ'] at k3
  rw [← hγ'] at k4
  have hn := place_near (dr.2 - (cutskyBoxsize dr rr dcr).x / 2) (-(dcr.1 + dcr.2) / 2) (((pointedRange rr).1 + (pointedRange rr).2) / 2) s' β' γ' (x - c)
  have ht := tri y (place s' β' γ' (x - c)) ((cutskyIsometry dr rr dcr).transform (x - c) false)
  rw [cutsky_place] at ht ⊢
  have hxc : (x - c).norm ≤ x.norm + c.norm := by
    have h := tri x 0 c
    have q1 : x - 0 = x := by ext <;> simp
    have q2 : ((0 : V3 ℝ) - c).norm = c.norm := by simp [V3.norm]
    rw [q1, q2] at h
    exact h
  have hX := V3.norm_nonneg x
  have hC := V3.norm_nonneg c
  have hT := tiny_pos (F := binary64)
  have hD : 0 ≤ dr.2 := h0.trans hd
  have hss : |s'| ≤ dr.2 + 1 / 10 ^ 14 * (dr.2 + binary64.tiny) := abs_le_of_near k1 k2
  have hu : binary64.u ≤ 112 / 10 ^ 18 := by rw [u64]; norm_num
  have hrot : (|radians β' true - radians (-(dcr.1 + dcr.2) / 2) true| +
      |radians γ' true - radians (((pointedRange rr).1 + (pointedRange rr).2) / 2) true|) * ((x - c).norm + |s'|) ≤
      1 / 10 ^ 14 * (x.norm + c.norm + 2 * dr.2 + binary64.tiny) :=
    mul_le_mul (by linarith) (by linarith) (by have := V3.norm_nonneg (x - c); positivity) (by norm_num)
  have hg : ((1 + 2 / 10 ^ 13 : ℝ) * (1 + rho binary64) ^ 2) ^ (2 * (1 + 3) + 3) - 1 ≤ 3 / 10 ^ 12 := by
    have hρ := rho_nonneg (F := binary64)
    have hρ' := rho64
    have : (1 + 2 / 10 ^ 13 : ℝ) * (1 + rho binary64) ^ 2 ≤ 1 + 23 / 10 ^ 14 := by
      have : (1 + rho binary64) ^ 2 ≤ (1 + 1 / 10 ^ 14 : ℝ) ^ 2 := pow_le_pow_left₀ (by linarith) (by linarith) 2
      calc (1 + 2 / 10 ^ 13 : ℝ) * (1 + rho binary64) ^ 2 ≤ (1 + 2 / 10 ^ 13) * (1 + 1 / 10 ^ 14) ^ 2 :=
            mul_le_mul_of_nonneg_left this (by norm_num)
        _ ≤ 1 + 23 / 10 ^ 14 := by norm_num
    have := pow_le_pow_left₀ (by positivity) this (2 * (1 + 3) + 3)
    have h3 : (1 + 23 / 10 ^ 14 : ℝ) ^ (2 * (1 + 3) + 3) - 1 ≤ 3 / 10 ^ 12 := by norm_num
    linarith
  have hc' : (y - place s' β' γ' (x - c)).norm ≤ 3 / 10 ^ 12 * (x.norm + c.norm + (dr.2 + 1 / 10 ^ 14 * (dr.2 + binary64.tiny)) + 42 * binary64.tiny) := by
    refine le_trans hc ?_
    refine mul_le_mul ?_ ?_ ?_ (by norm_num)
    · simpa using hg
    · norm_num
      linarith
    · have := abs_nonneg s'
      positivity
  linarith

/-- C140: the positions that exact arithmetic moves to the covered points of a survey are in the box that is computed, up to 1.5 10⁻¹⁴ of the largest
distance. -/
theorem C140_covered {lib : Libm} (hl : Fine lib) {dr rr dcr : Range} (h0 : 0 ≤ dr.1) (hd : dr.1 ≤ dr.2) (hf : binary64.IsFloat dr.2) (hr : Sensible rr)
    (h1 : |dcr.1| ≤ 90) (h2 : |dcr.2| ≤ 90) {q : V3 ℝ} (hcov : Covered dr rr dcr q) :
    ∃ p : V3 ℝ, (cutskyToBox dr rr dcr).2.transform p false = q ∧
      |p.x| ≤ (cutskyBoxsizeF lib dr rr dcr).x / 2 + 15 / 10 ^ 15 * (dr.2 + binary64.tiny) ∧
      |p.y| ≤ (cutskyBoxsizeF lib dr rr dcr).y / 2 + 15 / 10 ^ 15 * (dr.2 + binary64.tiny) ∧
      |p.z| ≤ (cutskyBoxsizeF lib dr rr dcr).z / 2 + 15 / 10 ^ 15 * (dr.2 + binary64.tiny) := by
  obtain ⟨p, ⟨p1, p2, p3⟩, hq⟩ := hcov
  obtain ⟨b1, b2, b3⟩ := C140_boxsize hl h0 hd hf hr h1 h2
  have hT := tiny_pos (F := binary64)
  have hD : 0 ≤ dr.2 := h0.trans hd
  refine ⟨p, hq, ?_⟩
  simp only [cutskyToBox] at p1 p2 p3
  have c1 := (abs_le.1 b1).1
  have c2 := (abs_le.1 b2).1
  have c3 := (abs_le.1 b3).1
  refine ⟨abs_le.2 ?_, abs_le.2 ?_, abs_le.2 ?_⟩ <;> constructor <;> linarith [p1.1, p1.2, p2.1, p2.2, p3.1, p3.2]

/-- C140: the survey. A row at the position `p` in a box or sub-box of any centre `c`, where exact arithmetic moves `p` to the point at distance `R`, RA `a`
and Dec `b`, is moved close to this point; it is in the cut-sky catalog if the point is inside the ranges that are asked for, and not if it is outside, with
an error of 4 10⁻¹² of the distances. -/
theorem C140_survey {lib : Libm} {κ : ℝ} (hl : Fine lib) (ha : Accurate lib κ) {dr rr dcr : Range} (h0 : 0 ≤ dr.1) (hd : dr.1 ≤ dr.2)
    (hf : binary64.IsFloat dr.2) (hr : Sensible rr) (h1 : |dcr.1| ≤ 90) (h2 : |dcr.2| ≤ 90) {R a b : ℝ} (hR : 0 ≤ R) {c p y : V3 ℝ} {s : Isom}
    {e u v : ℝ} {radial angular : Bool} (hq : (cutskyToBox dr rr dcr).2.transform p false = skyPoint R a b) (hs : PlacedF lib dr rr dcr c s)
    (hy : TransformF binary64 s (c + p) false y) (hx' : Regular binary64 y.x) (hy' : Regular binary64 y.y) (hz' : Regular binary64 y.z)
    (he : e = 4 / 10 ^ 12 * ((c + p).norm + c.norm + dr.2 + 50 * binary64.tiny)) (hc : e < R * Real.cos (rad b))
    (hu : 0 < u ∧ u ≤ 1) (hv : 0 < v ∧ v ≤ 1) :
    (y - skyPoint R a b).norm ≤ e ∧
    (RoundedCutsky.Inside κ radial angular dr rr dcr R a b e → Model.RoundedCutsky.selectedF lib radial angular dr rr dcr u v y = true) ∧
    (RoundedCutsky.Outside κ radial angular dr rr dcr R a b e → Model.RoundedCutsky.selectedF lib radial angular dr rr dcr u v y = false) := by
  have h := C140_isometry hl h0 hd hf hr h1 h2 hs hy
  have e1 : c + p - c = p := by ext <;> simp
  rw [e1, show (cutskyIsometry dr rr dcr).transform p false = skyPoint R a b from hq, ← he] at h
  exact ⟨h, RoundedCutsky.C139_kept ha hx' hy' hz' h hR hc hu.2 hv.2, RoundedCutsky.C139_dropped ha hx' hy' hz' h hR hc hu.1 hv.1⟩

theorem exactLib_fine : Fine Verif.Props.RoundedSky.exactLib := by
  refine ⟨fun t => ?_, fun t => ?_, Real.abs_cos_le_one, Real.abs_sin_le_one⟩ <;> norm_num [Verif.Props.RoundedSky.exactLib]

theorem dot_exact {a b c x y z : ℝ} (r : ℝ) (hr : binary64.IsFloat r)
    (h : (a = 1 ∧ b = 0 ∧ c = 0 ∧ r = x) ∨ (a = 0 ∧ b = 1 ∧ c = 0 ∧ r = y) ∨ (a = 0 ∧ b = 0 ∧ c = 1 ∧ r = z)) : DotF binary64 ⟨a, b, c⟩ ⟨x, y, z⟩ r := by
  refine ⟨_, .refl _, ?_⟩
  have hs : SumF binary64 [(a, x), (b, y), (c, z)] _ := .mul (.mul (.mul .nil))
  convert hs using 1
  rcases h with ⟨rfl, rfl, rfl, rfl⟩ | ⟨rfl, rfl, rfl, rfl⟩ | ⟨rfl, rfl, rfl, rfl⟩ <;> simp [Fmt.rnd_zero, Fmt.rnd_exact hr]

theorem mulVec_one {v : V3 ℝ} (hx : binary64.IsFloat v.x) (hy : binary64.IsFloat v.y) (hz : binary64.IsFloat v.z) : MulVecF binary64 1 v v :=
  ⟨dot_exact _ hx (.inl ⟨rfl, rfl, rfl, rfl⟩), dot_exact _ hy (.inr (.inl ⟨rfl, rfl, rfl, rfl⟩)), dot_exact _ hz (.inr (.inr ⟨rfl, rfl, rfl, rfl⟩))⟩

theorem mul_one_one : MulF binary64 1 1 1 := by
  have h0 : binary64.IsFloat 0 := by simpa using nat_float 0 (by norm_num)
  have h1 : binary64.IsFloat 1 := by simpa using nat_float 1 (by norm_num)
  exact ⟨mulVec_one h1 h0 h0, mulVec_one h0 h1 h0, mulVec_one h0 h0 h1⟩

theorem turn_zero (lib : Libm) (v : V3 ℝ) : turnF lib v 0 = 1 := by
  unfold turnF rotationCallF rotationF
  rw [if_pos rfl, if_pos]
  simp [angleF, Fmt.rnd_zero]

/-- Non-vacuity of C140: a survey of distances up to 2 along RA = 0. The point at distance 3/2 is the image of (1/2, 0, 0) and is in the catalog. -/
example : Sensible (0, 0) ∧ Sensible (300, 40) ∧ Covered (0, 2) (0, 0) (-10, 10) (skyPoint (3 / 2) 0 0) ∧
    ∃ s, PlacedF Verif.Props.RoundedSky.exactLib (0, 2) (0, 0) (-10, 10) 0 s ∧ TransformF binary64 s ⟨1 / 2, 0, 0⟩ false ⟨3 / 2, 0, 0⟩ ∧
      Model.RoundedCutsky.selectedF Verif.Props.RoundedSky.exactLib true false (0, 2) (0, 0) (-10, 10) (1 / 2) (1 / 2) ⟨3 / 2, 0, 0⟩ = true := by
  have f0 : binary64.IsFloat 0 := by simpa using nat_float 0 (by norm_num)
  have f1 : binary64.IsFloat 1 := by simpa using nat_float 1 (by norm_num)
  have f2 : binary64.IsFloat 2 := by simpa using nat_float 2 (by norm_num)
  have fh : binary64.IsFloat (1 / 2) := ⟨1, -1, by norm_num [binary64], by norm_num [binary64], by norm_num⟩
  have f3 : binary64.IsFloat (3 / 2) := ⟨3, -1, by norm_num [binary64], by norm_num [binary64], by norm_num⟩
  have hw : raWidth (0, 0) = 0 := by norm_num [raWidth]
  have hsens : Sensible (0, 0) := ⟨f0, f0, le_rfl, le_rfl, by norm_num, by norm_num, .inl le_rfl⟩
  have hcov : Covered (0, 2) (0, 0) (-10, 10) (skyPoint (3 / 2) 0 0) := by
    refine C21_equator_partial rfl (by rw [hw]) (by rw [hw]; norm_num) (by norm_num) (by norm_num) (by norm_num) _ _ _ ⟨by norm_num, by norm_num⟩ ?_
      ⟨by norm_num, by norm_num⟩
    exact inRa_self (by norm_num) (by norm_num)
  have hz : wrapAngleF binary64 0 = 0 := by
    have h1 := Verif.Props.RoundedMask.wrap_small f0 le_rfl (by norm_num)
    rw [h1]
    simp [Fmt.rnd_zero]
  have hp : pointedRangeF (0, 0) = (0, 0) := by
    unfold pointedRangeF
    simp [hz]
  have hb : (cutskyBoxsizeF Verif.Props.RoundedSky.exactLib (0, 2) (0, 0) (-10, 10)).x = 2 := by
    simp [cutskyBoxsizeF, surveySizeF, Fmt.rnd_zero, Fmt.rnd_exact f2]
  have hops : cutskyOpsF Verif.Props.RoundedSky.exactLib (0, 2) (0, 0) (-10, 10) = [.translationOrigin ⟨1, 0, 0⟩, .dotOrigin 1, .dotOrigin 1] := by
    unfold cutskyOpsF
    simp only [hb, hp]
    have e1 : binary64.rnd (2 - binary64.rnd (2 / 2)) = 1 := by
      rw [show (2 / 2 : ℝ) = 1 by norm_num, Fmt.rnd_exact f1, show (2 - 1 : ℝ) = 1 by norm_num, Fmt.rnd_exact f1]
    have e2 : binary64.rnd (-binary64.rnd (-10 + 10) / 2) = 0 := by
      rw [show (-10 + 10 : ℝ) = 0 by norm_num]
      simp [Fmt.rnd_zero]
    have e3 : binary64.rnd (binary64.rnd (0 + 0) / 2) = 0 := by simp [Fmt.rnd_zero]
    rw [e1, e2, e3, turn_zero, turn_zero]
  have ha : ∀ v : V3 ℝ, binary64.IsFloat v.x → binary64.IsFloat v.y → binary64.IsFloat v.z → addF binary64 0 v = v := by
    intro v hx hy hz
    ext <;> simp [addF, Fmt.rnd_exact, hx, hy, hz]
  have hplaced : PlacedF Verif.Props.RoundedSky.exactLib (0, 2) (0, 0) (-10, 10) 0 ⟨1, ⟨1, 0, 0⟩⟩ := by
    refine ⟨⟨1, 0⟩, ⟨1, ⟨1, 0, 0⟩⟩, ?_, ?_, 0, mul_one_one, mulVec_one f0 f0 f0, ?_⟩
    · have h : StepF binary64 Isom.init (.translationOrigin (-0)) ⟨1, addF binary64 0 (-0)⟩ := .translationOrigin
      have e : addF binary64 0 (-0) = 0 := by
        ext <;> simp [addF, Fmt.rnd_zero]
      rw [e] at h
      exact .cons h .nil
    · rw [hops]
      have h : StepF binary64 Isom.init (.translationOrigin ⟨1, 0, 0⟩) ⟨1, addF binary64 0 ⟨1, 0, 0⟩⟩ := .translationOrigin
      rw [ha _ f1 f0 f0] at h
      exact .cons h (.cons (.dotOrigin mul_one_one (mulVec_one f1 f0 f0)) (.cons (.dotOrigin mul_one_one (mulVec_one f1 f0 f0)) .nil))
    · exact (ha _ f1 f0 f0).symm
  have htr : TransformF binary64 ⟨1, ⟨1, 0, 0⟩⟩ ⟨1 / 2, 0, 0⟩ false ⟨3 / 2, 0, 0⟩ := by
    refine ⟨⟨1 / 2, 0, 0⟩, mulVec_one fh f0 f0, ?_⟩
    have e : (1 / 2 + 1 : ℝ) = 3 / 2 := by norm_num
    ext
    · simp only [addF, Bool.false_eq_true, if_false, e, Fmt.rnd_exact f3]
    · simp [addF, Fmt.rnd_zero]
    · simp [addF, Fmt.rnd_zero]
  refine ⟨hsens, ⟨by simpa using nat_float 300 (by norm_num), by simpa using nat_float 40 (by norm_num), by norm_num, by norm_num, by norm_num, by norm_num,
    .inr (by norm_num)⟩, hcov, _, hplaced, htr, ?_⟩
  have hq : (cutskyToBox (0, 2) (0, 0) (-10, 10)).2.transform ⟨1 / 2, 0, 0⟩ false = skyPoint (3 / 2) 0 0 := by
    refine (cutskyIsometry_iff (by rw [hw]) (by rw [hw]; norm_num) _ _).2 ?_
    rw [surveyAxes_skyPoint, hw]
    ext <;> simp [cutskyBoxsize, rad] <;> norm_num
  have hu : binary64.u ≤ 1 / 10 ^ 15 := by rw [u64]; norm_num
  have hu0 := Fmt.u_pos (F := binary64)
  have ht := tiny_le_one
  have ht0 := tiny_pos (F := binary64)
  have e1 : (0 + ⟨1 / 2, 0, 0⟩ : V3 ℝ) = ⟨1 / 2, 0, 0⟩ := by ext <;> simp
  have e2 : (⟨1 / 2, 0, 0⟩ : V3 ℝ).norm = 1 / 2 := by
    simp [V3.norm, Real.sqrt_sq_eq_abs]
  have e3 : (0 : V3 ℝ).norm = 0 := by simp [V3.norm]
  have e4 : Real.cos (rad 0) = 1 := by simp [rad]
  refine (C140_survey exactLib_fine Verif.Props.RoundedSky.exactLib_accurate (dr := (0, 2)) le_rfl (by norm_num) f2 hsens (by norm_num [abs_of_neg])
    (by norm_num [abs_of_pos]) (by norm_num : (0 : ℝ) ≤ 3 / 2) hq hplaced (by rw [e1]; exact htr) ?_ regular_axis.1 regular_axis.1 rfl ?_ (by norm_num)
    (by norm_num)).2.1 ⟨fun _ => ?_, fun h => absurd h (by simp)⟩
  · exact ⟨f3, .inl (by simp only; linarith)⟩
  · rw [e1, e2, e3, e4]
    simp only
    linarith
  · rw [e1, e2, e3]
    unfold RoundedCutsky.distErr
    simp only
    constructor <;> nlinarith

end Verif.Props.RoundedPlacement
