import Verif.Props.UniformRandoms
import Verif.Props.PoissonLaw
import Mathlib.MeasureTheory.Function.Jacobian
import Mathlib.Analysis.SpecialFunctions.Sqrt
import Mathlib.Analysis.SpecialFunctions.Pow.Deriv
import Mathlib.Analysis.SpecialFunctions.Trigonometric.Deriv

/-!
# C102: random catalogs are uniform in volume, for regions of any shape

The chance that a point of a random box or of a random cutsky lies in a region is the part of the volume of the box, or of the sector of
the sky, in this region.
-/

namespace Verif.Props.UniformRegions

open Verif Verif.Model Verif.Spec Verif.Props Verif.Model.RandomCall Verif.Props.UniformRandoms Verif.Props.PoissonLaw MeasureTheory
  ProbabilityTheory

variable {Ω : Type*} [MeasurableSpace Ω] {μ : Measure Ω}

/-- A point as a vector of three numbers. -/
def toVec (p : V3 ℝ) : Fin 3 → ℝ := ![p.x, p.y, p.z]

/-! ### Sampling map of cutskies -/

/-- Position from three draws: RA from `a0` over the width `W` (radians), sine of Dec from `s0` over the width `S`, cube of distance from
`c0` over the width `C`. -/
noncomputable def place (a0 W s0 S c0 C : ℝ) (u : Fin 3 → ℝ) : Fin 3 → ℝ :=
  ![(c0 + C * u 2) ^ (1 / 3 : ℝ) * (Real.sqrt (1 - (s0 + S * u 1) ^ 2) * Real.cos (a0 + W * u 0)),
    (c0 + C * u 2) ^ (1 / 3 : ℝ) * (Real.sqrt (1 - (s0 + S * u 1) ^ 2) * Real.sin (a0 + W * u 0)),
    (c0 + C * u 2) ^ (1 / 3 : ℝ) * (s0 + S * u 1)]

variable {a0 W s0 S c0 C : ℝ}

theorem measurable_place : Measurable (place a0 W s0 S c0 C) := by
  unfold place
  refine measurable_pi_lambda _ fun i => ?_
  fin_cases i <;> simp <;> fun_prop

/-- The open unit cube. -/
def openCube : Set (Fin 3 → ℝ) := Set.univ.pi fun _ => Set.Ioo 0 1

theorem measurable_openCube : MeasurableSet openCube := MeasurableSet.univ_pi fun _ => measurableSet_Ioo

/-- Matrix of derivatives. -/
noncomputable def jacobian (a0 W s0 S c0 C : ℝ) (u : Fin 3 → ℝ) : Matrix (Fin 3) (Fin 3) ℝ :=
  let d := (c0 + C * u 2) ^ (1 / 3 : ℝ)
  let d' := C * (1 / 3) * (c0 + C * u 2) ^ (1 / 3 - 1 : ℝ)
  let q := Real.sqrt (1 - (s0 + S * u 1) ^ 2)
  let q' := -((s0 + S * u 1) * S) / q
  !![d * (q * (-Real.sin (a0 + W * u 0) * W)), d * (q' * Real.cos (a0 + W * u 0)), d' * (q * Real.cos (a0 + W * u 0));
     d * (q * (Real.cos (a0 + W * u 0) * W)), d * (q' * Real.sin (a0 + W * u 0)), d' * (q * Real.sin (a0 + W * u 0));
     0, d * S, d' * (s0 + S * u 1)]

theorem cube_root {x : ℝ} (hx : 0 < x) : (x ^ (1 / 3 : ℝ)) ^ 3 = x := by
  rw [← Real.rpow_natCast, ← Real.rpow_mul hx.le]
  norm_num

/-- The sampling map multiplies all volumes by the same number. -/
theorem det_jacobian {u : Fin 3 → ℝ} (hc : 0 < c0 + C * u 2) (hs : (s0 + S * u 1) ^ 2 < 1) :
    (jacobian a0 W s0 S c0 C u).det = W * S * (C / 3) := by
  have hq : 0 < Real.sqrt (1 - (s0 + S * u 1) ^ 2) := Real.sqrt_pos.2 (by linarith)
  have hq2 : Real.sqrt (1 - (s0 + S * u 1) ^ 2) ^ 2 = 1 - (s0 + S * u 1) ^ 2 := Real.sq_sqrt (by linarith)
  have hd : ((c0 + C * u 2) ^ (1 / 3 : ℝ)) ^ 2 * (c0 + C * u 2) ^ (1 / 3 - 1 : ℝ) = 1 := by
    rw [← Real.rpow_natCast, ← Real.rpow_mul hc.le, ← Real.rpow_add hc]
    norm_num
  have ht := Real.sin_sq_add_cos_sq (a0 + W * u 0)
  unfold jacobian
  rw [Matrix.det_fin_three]
  simp only [Matrix.of_apply, Matrix.cons_val', Matrix.cons_val_zero, Matrix.cons_val_one, Matrix.cons_val]
  have hr : Real.sqrt (1 - (s0 + S * u 1) ^ 2) * (-((s0 + S * u 1) * S) / Real.sqrt (1 - (s0 + S * u 1) ^ 2)) = -((s0 + S * u 1) * S) :=
    mul_div_cancel₀ _ hq.ne'
  generalize (-((s0 + S * u 1) * S) / Real.sqrt (1 - (s0 + S * u 1) ^ 2)) = r at *
  generalize Real.sqrt (1 - (s0 + S * u 1) ^ 2) = q at *
  generalize (c0 + C * u 2) ^ (1 / 3 - 1 : ℝ) = e at *
  generalize (c0 + C * u 2) ^ (1 / 3 : ℝ) = d at *
  generalize Real.sin (a0 + W * u 0) = si at *
  generalize Real.cos (a0 + W * u 0) = co at *
  generalize s0 + S * u 1 = s at *
  linear_combination d ^ 2 * W * (C * (1 / 3) * e) * (-q * r * s + q ^ 2 * S) * ht - d ^ 2 * W * (C * (1 / 3) * e) * s * hr +
    d ^ 2 * W * (C * (1 / 3) * e) * S * hq2 + W * S * (C / 3) * hd

theorem place_deriv {u : Fin 3 → ℝ} (hc : 0 < c0 + C * u 2) (hs : (s0 + S * u 1) ^ 2 < 1) :
    HasFDerivAt (place a0 W s0 S c0 C) (Matrix.toLin' (jacobian a0 W s0 S c0 C u)).toContinuousLinearMap u := by
  have p0 : HasFDerivAt (fun u : Fin 3 → ℝ => u 0) (ContinuousLinearMap.proj (R := ℝ) (φ := fun _ => ℝ) 0) u := hasFDerivAt_apply 0 u
  have p1 : HasFDerivAt (fun u : Fin 3 → ℝ => u 1) (ContinuousLinearMap.proj (R := ℝ) (φ := fun _ => ℝ) 1) u := hasFDerivAt_apply 1 u
  have p2 : HasFDerivAt (fun u : Fin 3 → ℝ => u 2) (ContinuousLinearMap.proj (R := ℝ) (φ := fun _ => ℝ) 2) u := hasFDerivAt_apply 2 u
  have hd : HasDerivAt (fun w => (c0 + C * w) ^ (1 / 3 : ℝ)) (C * (1 / 3) * (c0 + C * u 2) ^ (1 / 3 - 1 : ℝ)) (u 2) := by
    have h1 : HasDerivAt (fun w => c0 + C * w) C (u 2) := by simpa using ((hasDerivAt_id (u 2)).const_mul C).const_add c0
    exact h1.rpow_const (Or.inl hc.ne')
  have hq : HasDerivAt (fun v => Real.sqrt (1 - (s0 + S * v) ^ 2)) (-((s0 + S * u 1) * S) / Real.sqrt (1 - (s0 + S * u 1) ^ 2)) (u 1) := by
    have h1 : HasDerivAt (fun v => s0 + S * v) S (u 1) := by simpa using ((hasDerivAt_id (u 1)).const_mul S).const_add s0
    have h2 := ((h1.fun_pow 2).const_sub 1).sqrt (by linarith)
    convert h2 using 1
    simp
    ring
  have hs1 : HasDerivAt (fun v => s0 + S * v) S (u 1) := by simpa using ((hasDerivAt_id (u 1)).const_mul S).const_add s0
  have ha : HasDerivAt (fun x => a0 + W * x) W (u 0) := by simpa using ((hasDerivAt_id (u 0)).const_mul W).const_add a0
  have hD := hd.comp_hasFDerivAt u p2
  have hQ := hq.comp_hasFDerivAt u p1
  have hS := hs1.comp_hasFDerivAt u p1
  have hCo := ha.cos.comp_hasFDerivAt u p0
  have hSi := ha.sin.comp_hasFDerivAt u p0
  rw [hasFDerivAt_pi']
  intro i
  fin_cases i
  · refine (hD.mul (hQ.mul hCo)).congr_fderiv ?_
    ext v
    simp [jacobian, dotProduct, Fin.sum_univ_three]
    ring
  · refine (hD.mul (hQ.mul hSi)).congr_fderiv ?_
    ext v
    simp [jacobian, dotProduct, Fin.sum_univ_three]
    ring
  · refine (hD.mul hS).congr_fderiv ?_
    ext v
    simp [jacobian, dotProduct, Fin.sum_univ_three]
    ring

/-- Ranges of the sampling map: a part of a turn, of the sphere and of a ball. -/
structure FairPlace (W s0 S c0 C : ℝ) : Prop where
  turn : 0 < W ∧ W ≤ 2 * Real.pi
  sphere : -1 ≤ s0 ∧ 0 < S ∧ s0 + S ≤ 1
  ball : 0 ≤ c0 ∧ 0 < C

theorem mem_openCube {u : Fin 3 → ℝ} : u ∈ openCube ↔ ∀ i, 0 < u i ∧ u i < 1 := by
  simp [openCube]

theorem FairPlace.inside (h : FairPlace W s0 S c0 C) {u : Fin 3 → ℝ} (hu : u ∈ openCube) :
    0 < c0 + C * u 2 ∧ (s0 + S * u 1) ^ 2 < 1 := by
  rw [mem_openCube] at hu
  have h2 := hu 2
  have h1 := hu 1
  refine ⟨add_pos_of_nonneg_of_pos h.ball.1 (mul_pos h.ball.2 h2.1), ?_⟩
  have a1 : -1 < s0 + S * u 1 := by nlinarith [h.sphere.1, mul_pos h.sphere.2.1 h1.1]
  have a2 : s0 + S * u 1 < 1 := by nlinarith [h.sphere.2.2, mul_lt_mul_of_pos_left h1.2 h.sphere.2.1]
  nlinarith

theorem angle_unique {x y : ℝ} (hc : Real.cos x = Real.cos y) (hs : Real.sin x = Real.sin y) (h1 : x - y < 2 * Real.pi)
    (h2 : -(2 * Real.pi) < x - y) : x = y := by
  have h : Real.cos (x - y) = 1 := by
    rw [Real.cos_sub, hc, hs]
    nlinarith [Real.sin_sq_add_cos_sq y]
  have := (Real.cos_eq_one_iff_of_lt_of_lt h2 h1).1 h
  linarith

theorem place_injective (h : FairPlace W s0 S c0 C) : Set.InjOn (place a0 W s0 S c0 C) openCube := by
  intro u hu v hv huv
  obtain ⟨cu, su⟩ := h.inside hu
  obtain ⟨cv, sv⟩ := h.inside hv
  rw [mem_openCube] at hu hv
  have e0 := congrFun huv 0
  have e1 := congrFun huv 1
  have e2 := congrFun huv 2
  simp only [place, Matrix.cons_val_zero, Matrix.cons_val_one, Matrix.cons_val] at e0 e1 e2
  have qu : 0 < Real.sqrt (1 - (s0 + S * u 1) ^ 2) := Real.sqrt_pos.2 (by linarith)
  have qv : 0 < Real.sqrt (1 - (s0 + S * v 1) ^ 2) := Real.sqrt_pos.2 (by linarith)
  have qu2 : Real.sqrt (1 - (s0 + S * u 1) ^ 2) ^ 2 = 1 - (s0 + S * u 1) ^ 2 := Real.sq_sqrt (by linarith)
  have qv2 : Real.sqrt (1 - (s0 + S * v 1) ^ 2) ^ 2 = 1 - (s0 + S * v 1) ^ 2 := Real.sq_sqrt (by linarith)
  have du : 0 < (c0 + C * u 2) ^ (1 / 3 : ℝ) := Real.rpow_pos_of_pos cu _
  have dv : 0 < (c0 + C * v 2) ^ (1 / 3 : ℝ) := Real.rpow_pos_of_pos cv _
  have tu := Real.sin_sq_add_cos_sq (a0 + W * u 0)
  have tv := Real.sin_sq_add_cos_sq (a0 + W * v 0)
  have hd : (c0 + C * u 2) ^ (1 / 3 : ℝ) = (c0 + C * v 2) ^ (1 / 3 : ℝ) := by
    have hn : ∀ d q co si s : ℝ, si ^ 2 + co ^ 2 = 1 → q ^ 2 = 1 - s ^ 2 → (d * (q * co)) ^ 2 + (d * (q * si)) ^ 2 + (d * s) ^ 2 = d ^ 2 :=
      fun d q co si s h1 h2 => by linear_combination d ^ 2 * q ^ 2 * h1 + d ^ 2 * h2
    have := hn ((c0 + C * u 2) ^ (1 / 3 : ℝ)) _ _ _ _ tu qu2
    rw [e0, e1, e2, hn _ _ _ _ _ tv qv2] at this
    exact ((sq_eq_sq₀ dv.le du.le).1 this).symm
  have h2 : u 2 = v 2 := by
    have := congrArg (fun x : ℝ => x ^ 3) hd
    simp only [cube_root cu, cube_root cv] at this
    have hC := h.ball.2.ne'
    exact mul_left_cancel₀ hC (by linarith)
  rw [hd] at e0 e1 e2
  have hs : s0 + S * u 1 = s0 + S * v 1 := mul_left_cancel₀ dv.ne' e2
  have h1 : u 1 = v 1 := mul_left_cancel₀ h.sphere.2.1.ne' (by linarith)
  rw [hs] at e0 e1
  have hc := mul_left_cancel₀ qv.ne' (mul_left_cancel₀ dv.ne' e0)
  have hsn := mul_left_cancel₀ qv.ne' (mul_left_cancel₀ dv.ne' e1)
  have hW := h.turn
  have u0 := hu 0
  have v0 := hv 0
  have ha : a0 + W * u 0 = a0 + W * v 0 := by
    refine angle_unique hc hsn ?_ ?_ <;> nlinarith [mul_pos hW.1 u0.1, mul_pos hW.1 v0.1, mul_lt_mul_of_pos_left u0.2 hW.1, mul_lt_mul_of_pos_left v0.2 hW.1]
  have h0 : u 0 = v 0 := mul_left_cancel₀ hW.1.ne' (by linarith)
  funext i
  fin_cases i
  · exact h0
  · exact h1
  · exact h2

/-- The chance that a position lies in a region. -/
theorem place_volume (h : FairPlace W s0 S c0 C) {A : Set (Fin 3 → ℝ)} (hA : MeasurableSet A) :
    MeasureTheory.volume (A ∩ place a0 W s0 S c0 C '' openCube) = ENNReal.ofReal (W * S * (C / 3)) * cubeLaw (place a0 W s0 S c0 C ⁻¹' A) := by
  have hm : MeasurableSet (place a0 W s0 S c0 C ⁻¹' A) := measurable_place hA
  have hcube : cubeLaw (place a0 W s0 S c0 C ⁻¹' A) = MeasureTheory.volume (place a0 W s0 S c0 C ⁻¹' A ∩ openCube) := by
    rw [cube_apply _ hm]
    refine measure_congr ?_
    have e1 : (Set.univ.pi fun _ : Fin 3 => Set.Ico (0 : ℝ) 1) =ᵐ[MeasureTheory.volume] openCube :=
      (Measure.univ_pi_Ico_ae_eq_Icc (μ := fun _ : Fin 3 => (MeasureTheory.volume : Measure ℝ)) (f := fun _ => 0) (g := fun _ => 1)).trans
        (Measure.univ_pi_Ioo_ae_eq_Icc (μ := fun _ : Fin 3 => (MeasureTheory.volume : Measure ℝ)) (f := fun _ => 0) (g := fun _ => 1)).symm
    exact (Filter.EventuallyEq.refl _ _).inter e1
  have himg : A ∩ place a0 W s0 S c0 C '' openCube = place a0 W s0 S c0 C '' (place a0 W s0 S c0 C ⁻¹' A ∩ openCube) := by
    rw [Set.inter_comm, Set.inter_comm _ openCube, Set.image_inter_preimage]
  have hpos : 0 ≤ W * S * (C / 3) := by
    have := h.turn.1; have := h.sphere.2.1; have := h.ball.2
    positivity
  rw [himg, hcube, ← lintegral_abs_det_fderiv_eq_addHaar_image MeasureTheory.volume (hm.inter measurable_openCube)
    (f' := fun u => (Matrix.toLin' (jacobian a0 W s0 S c0 C u)).toContinuousLinearMap)
    (fun u hu => (place_deriv (h.inside hu.2).1 (h.inside hu.2).2).hasFDerivWithinAt) ((place_injective h).mono Set.inter_subset_right)]
  rw [setLIntegral_congr_fun (hm.inter measurable_openCube) (g := fun _ => ENNReal.ofReal (W * S * (C / 3)))]
  · rw [setLIntegral_const]
  · intro u hu
    dsimp only
    rw [ContinuousLinearMap.det, LinearMap.coe_toContinuousLinearMap, LinearMap.det_toLin', det_jacobian (h.inside hu.2).1 (h.inside hu.2).2,
      abs_of_nonneg hpos]

/-! ### Cutskies -/

/-- The part of space within ranges of RA, Dec and distance. -/
def sector (r d D : Range) : Set (Fin 3 → ℝ) :=
  {p | ∃ ra dec dist, (r.1 < ra ∧ ra < r.1 + raWidth r) ∧ (d.1 < dec ∧ dec < d.2) ∧ (D.1 < dist ∧ dist < D.2) ∧ p = toVec (skyPoint dist ra dec)}

theorem fair {r d D : Range} (hp : FairRange r) (hW : 0 < raWidth r) (hd : -90 ≤ d.1 ∧ d.1 < d.2 ∧ d.2 ≤ 90) (hD : 0 ≤ D.1 ∧ D.1 < D.2) :
    FairPlace (rad (raWidth r)) (Real.sin (rad d.1)) (Real.sin (rad d.2) - Real.sin (rad d.1)) (D.1 ^ 3) (D.2 ^ 3 - D.1 ^ 3) := by
  have hpi := Real.pi_pos
  have := width_le hp
  refine ⟨⟨?_, ?_⟩, ⟨Real.neg_one_le_sin _, ?_, ?_⟩, pow_nonneg hD.1 3, ?_⟩
  · unfold rad
    positivity
  · unfold rad
    nlinarith
  · exact sub_pos.2 ((sin_lt_iff ⟨hd.1, hd.2.1.le.trans hd.2.2⟩ ⟨hd.1.trans hd.2.1.le, hd.2.2⟩).2 hd.2.1)
  · have := Real.sin_le_one (rad d.2)
    linarith
  · exact sub_pos.2 (pow_lt_pow_left₀ hD.2 hD.1 (by norm_num))

theorem cos_dec {x : ℝ} (hx : -90 ≤ x ∧ x ≤ 90) : Real.cos (rad x) = Real.sqrt (1 - Real.sin (rad x) ^ 2) := by
  have hpi := Real.pi_pos
  rw [← Real.cos_sq', Real.sqrt_sq]
  apply Real.cos_nonneg_of_mem_Icc
  unfold rad
  constructor <;> nlinarith [hx.1, hx.2]

/-- The position of a candidate. -/
theorem candidate_place {r d D : Range} (hp : FairRange r) (hd : -90 ≤ d.1 ∧ d.1 < d.2 ∧ d.2 ≤ 90) (u v w : ℝ) (hv : 0 < v ∧ v < 1) :
    toVec (skyPoint (radialCandidate D.1 D.2 w) (angularCandidate (some r) (some d) u v).1 (angularCandidate (some r) (some d) u v).2) =
      place (rad r.1) (rad (raWidth r)) (Real.sin (rad d.1)) (Real.sin (rad d.2) - Real.sin (rad d.1)) (D.1 ^ 3) (D.2 ^ 3 - D.1 ^ 3) ![u, v, w] := by
  obtain ⟨k, hk⟩ := candidate_ra (some d) hp u v
  obtain ⟨h1, h2⟩ := C35_dec_uniform (some r) ⟨hd.1, hd.2.1.le, hd.2.2⟩ (u := u) ⟨hv.1.le, hv.2.le⟩
  have hc := cos_dec ⟨hd.1.trans h2.1, h2.2.trans hd.2.2⟩
  rw [h1] at hc
  have ha : rad (angularCandidate (some r) (some d) u v).1 = (rad r.1 + rad (raWidth r) * u) + k * (2 * Real.pi) := by
    rw [hk]
    unfold rad
    ring
  unfold toVec skyPoint place radialCandidate
  simp only [h1, hc, ha, Real.cos_add_int_mul_two_pi, Real.sin_add_int_mul_two_pi, Matrix.cons_val_zero, Matrix.cons_val_one, Matrix.cons_val]

theorem sector_eq {r d D : Range} (hp : FairRange r) (hW : 0 < raWidth r) (hd : -90 ≤ d.1 ∧ d.1 < d.2 ∧ d.2 ≤ 90) (hD : 0 ≤ D.1 ∧ D.1 < D.2) :
    sector r d D = place (rad r.1) (rad (raWidth r)) (Real.sin (rad d.1)) (Real.sin (rad d.2) - Real.sin (rad d.1)) (D.1 ^ 3)
      (D.2 ^ 3 - D.1 ^ 3) '' openCube := by
  have hf := fair hp hW hd hD
  have hpi := Real.pi_pos
  ext p
  constructor
  · rintro ⟨ra, dec, dist, ⟨a1, a2⟩, ⟨b1, b2⟩, ⟨c1, c2⟩, rfl⟩
    have hdist : 0 < dist := lt_of_le_of_lt hD.1 c1
    have hsin1 := (sin_lt_iff ⟨hd.1, hd.2.1.le.trans hd.2.2⟩ ⟨hd.1.trans b1.le, b2.le.trans hd.2.2⟩).2 b1
    have hsin2 := (sin_lt_iff ⟨hd.1.trans b1.le, b2.le.trans hd.2.2⟩ ⟨hd.1.trans hd.2.1.le, hd.2.2⟩).2 b2
    have hq1 := pow_lt_pow_left₀ c1 hD.1 (n := 3) (by norm_num)
    have hq2 := pow_lt_pow_left₀ c2 hdist.le (n := 3) (by norm_num)
    refine ⟨![(ra - r.1) / raWidth r, (Real.sin (rad dec) - Real.sin (rad d.1)) / (Real.sin (rad d.2) - Real.sin (rad d.1)),
      (dist ^ 3 - D.1 ^ 3) / (D.2 ^ 3 - D.1 ^ 3)], ?_, ?_⟩
    · rw [mem_openCube]
      intro i
      fin_cases i
      · exact ⟨div_pos (by linarith) hW, (div_lt_one hW).2 (by linarith)⟩
      · exact ⟨div_pos (by linarith) hf.sphere.2.1, (div_lt_one hf.sphere.2.1).2 (by linarith)⟩
      · exact ⟨div_pos (by linarith) hf.ball.2, (div_lt_one hf.ball.2).2 (by linarith)⟩
    · have e0 : rad r.1 + rad (raWidth r) * ((ra - r.1) / raWidth r) = rad ra := by
        unfold rad
        have := hW.ne'
        field_simp
        ring
      have e1 : Real.sin (rad d.1) + (Real.sin (rad d.2) - Real.sin (rad d.1)) *
          ((Real.sin (rad dec) - Real.sin (rad d.1)) / (Real.sin (rad d.2) - Real.sin (rad d.1))) = Real.sin (rad dec) := by
        rw [mul_div_cancel₀ _ hf.sphere.2.1.ne']
        ring
      have e2 : (D.1 ^ 3 + (D.2 ^ 3 - D.1 ^ 3) * ((dist ^ 3 - D.1 ^ 3) / (D.2 ^ 3 - D.1 ^ 3))) ^ (1 / 3 : ℝ) = dist := by
        rw [mul_div_cancel₀ _ hf.ball.2.ne', add_sub_cancel, ← Real.rpow_natCast, ← Real.rpow_mul hdist.le]
        norm_num
      unfold place toVec skyPoint
      simp only [Matrix.cons_val_zero, Matrix.cons_val_one, Matrix.cons_val, e0, e1, e2]
      rw [cos_dec ⟨hd.1.trans b1.le, b2.le.trans hd.2.2⟩]
  · rintro ⟨u, hu, rfl⟩
    rw [mem_openCube] at hu
    have hv := hu 1
    have hw := hu 2
    refine ⟨r.1 + raWidth r * u 0, (angularCandidate (some r) (some d) (u 0) (u 1)).2, radialCandidate D.1 D.2 (u 2), ⟨?_, ?_⟩, ?_, ?_, ?_⟩
    · have := mul_pos hW (hu 0).1
      linarith
    · have := mul_lt_mul_of_pos_left (hu 0).2 hW
      linarith
    · obtain ⟨h1, h2⟩ := C35_dec_uniform (some r) ⟨hd.1, hd.2.1.le, hd.2.2⟩ (u := u 0) ⟨hv.1.le, hv.2.le⟩
      have hb : -90 ≤ (angularCandidate (some r) (some d) (u 0) (u 1)).2 ∧ (angularCandidate (some r) (some d) (u 0) (u 1)).2 ≤ 90 :=
        ⟨hd.1.trans h2.1, h2.2.trans hd.2.2⟩
      constructor
      · rw [← sin_lt_iff ⟨hd.1, hd.2.1.le.trans hd.2.2⟩ hb, h1]
        have := mul_pos hf.sphere.2.1 hv.1
        linarith
      · rw [← sin_lt_iff hb ⟨hd.1.trans hd.2.1.le, hd.2.2⟩, h1]
        have := mul_lt_mul_of_pos_left hv.2 hf.sphere.2.1
        linarith
    · obtain ⟨h1, h2, -⟩ := C35_radial_uniform hD.1 hD.2.le ⟨hw.1.le, hw.2.le⟩
      have h0 := hD.1.trans h2
      constructor
      · rw [← pow_lt_pow_iff_left₀ hD.1 h0 (n := 3) (by norm_num), h1]
        have := mul_pos hf.ball.2 hw.1
        linarith
      · rw [← pow_lt_pow_iff_left₀ h0 (hD.1.trans hD.2.le) (n := 3) (by norm_num), h1]
        have := mul_lt_mul_of_pos_left hw.2 hf.ball.2
        linarith
    · have h := candidate_place (D := D) hp hd (u 0) (u 1) (u 2) hv
      have e : (![u 0, u 1, u 2] : Fin 3 → ℝ) = u := by
        funext i
        fin_cases i <;> rfl
      rw [e] at h
      rw [← h]
      obtain ⟨k, hk⟩ := candidate_ra (some d) hp (u 0) (u 1)
      have ha : rad (angularCandidate (some r) (some d) (u 0) (u 1)).1 = rad (r.1 + raWidth r * u 0) + k * (2 * Real.pi) := by
        rw [hk]
        unfold rad
        ring
      unfold skyPoint
      rw [ha, Real.cos_add_int_mul_two_pi, Real.sin_add_int_mul_two_pi]

/-- Volume of a sector: the solid angle times the difference of cubes of distances over 3. -/
theorem C102_sector_volume {r d D : Range} (hp : FairRange r) (hW : 0 < raWidth r) (hd : -90 ≤ d.1 ∧ d.1 < d.2 ∧ d.2 ≤ 90)
    (hD : 0 ≤ D.1 ∧ D.1 < D.2) :
    MeasureTheory.volume (sector r d D) =
      ENNReal.ofReal (rad (raWidth r) * (Real.sin (rad d.2) - Real.sin (rad d.1)) * ((D.2 ^ 3 - D.1 ^ 3) / 3)) := by
  have h := place_volume (a0 := rad r.1) (fair hp hW hd hD) MeasurableSet.univ
  rw [Set.univ_inter, ← sector_eq hp hW hd hD, Set.preimage_univ, measure_univ, mul_one] at h
  exact h

/-- C102. The points of a random cutsky are independent and uniform in volume: the chance that the first point lies in a region of
space, the second one in another one and so on is the product of the parts of the volume of the sector in these regions. -/
theorem C102_cutsky_regions_partial [IsProbabilityMeasure μ] (position : String) {r d D : Range} {n : ℕ} (hn : 0 < n) (nbar : Option ℝ)
    {nranks : ℕ} (hr : 0 < nranks) (hp : FairRange r) (hW : 0 < raWidth r) (hd : -90 ≤ d.1 ∧ d.1 < d.2 ∧ d.2 ≤ 90) (hD : 0 ≤ D.1 ∧ D.1 < D.2)
    {U : (ℕ × ℕ) × Fin 5 → Ω → ℝ} (hU : AreUniform μ U) (A : ℕ → Set (Fin 3 → ℝ)) (hA : ∀ k, MeasurableSet (A k)) :
    μ {ω | ∃ out, randomCutsky position r d (some D) (some n) none nbar nranks (fun t i => (U ((t, i), 0) ω, U ((t, i), 1) ω))
        (fun t i => U ((t, i), 2) ω) (fun t i => U ((t, i), 3) ω) (fun t i => U ((t, i), 4) ω) 1 1 = .ok out ∧
        out.map List.length = Blinding.localSizes n nranks ∧
        ∀ k < n, ∃ ra dec dist, out.flatten[k]? = some [("RA", .inl ra), ("DEC", .inl dec), ("Distance", .inl dist),
            ("Position", .inr (skyPoint dist ra dec))] ∧ toVec (skyPoint dist ra dec) ∈ A k} =
      ∏ k ∈ Finset.range n, MeasureTheory.volume (A k ∩ sector r d D) / MeasureTheory.volume (sector r d D) := by
  set g := place (rad r.1) (rad (raWidth r)) (Real.sin (rad d.1)) (Real.sin (rad d.2) - Real.sin (rad d.1)) (D.1 ^ 3) (D.2 ^ 3 - D.1 ^ 3) with hg
  have hae : ∀ᵐ ω ∂μ, ∀ s, 0 < U s ω ∧ U s ω < 1 := ae_all_iff.2 fun s => uniform_inside (hU.1 s)
  let e : Fin 3 → Fin 5 := ![0, 1, 2]
  have hV : AreUniform μ fun (q : ℕ × Fin 3) => U ((0, q.1), e q.2) := by
    refine ⟨fun q => hU.1 _, hU.2.precomp (g := fun q : ℕ × Fin 3 => ((0, q.1), e q.2)) fun q q' h => ?_⟩
    simp only [Prod.mk.injEq, true_and] at h
    refine Prod.ext h.1 ?_
    have := h.2
    generalize q.2 = j at this
    generalize q'.2 = j' at this
    revert this
    revert j j'
    decide
  have hT := triples hV
  have hset : {ω | ∃ out, randomCutsky position r d (some D) (some n) none nbar nranks (fun t i => (U ((t, i), 0) ω, U ((t, i), 1) ω))
        (fun t i => U ((t, i), 2) ω) (fun t i => U ((t, i), 3) ω) (fun t i => U ((t, i), 4) ω) 1 1 = .ok out ∧
        out.map List.length = Blinding.localSizes n nranks ∧
        ∀ k < n, ∃ ra dec dist, out.flatten[k]? = some [("RA", .inl ra), ("DEC", .inl dec), ("Distance", .inl dist),
            ("Position", .inr (skyPoint dist ra dec))] ∧ toVec (skyPoint dist ra dec) ∈ A k} =ᵐ[μ]
      ⋂ k ∈ Finset.range n, (fun ω (j : Fin 3) => U ((0, k), e j) ω) ⁻¹' (g ⁻¹' A k) := by
    rw [Filter.eventuallyEq_set]
    filter_upwards [hae] with ω hω
    obtain ⟨-, -, out, ho, hl, hf⟩ := cutsky_rows position (rarange := r) (decrange := d) (drange := D) hn nbar hr
      (uv := fun t i => (U ((t, i), 0) ω, U ((t, i), 1) ω)) (w := fun t i => U ((t, i), 2) ω) (h1 := fun t i => U ((t, i), 3) ω)
      (h2 := fun t i => U ((t, i), 4) ω) hp ⟨hd.1, hd.2.1.le, hd.2.2⟩ ⟨hD.1, hD.2.le⟩ (fun t i => ⟨hω _, hω _⟩) (fun t i => hω _)
      (fun t i => hω _) (fun t i => hω _)
    have hrow : ∀ k < n, ∀ ra dec dist, out.flatten[k]? = some [("RA", .inl ra), ("DEC", .inl dec), ("Distance", .inl dist),
            ("Position", .inr (skyPoint dist ra dec))] ↔
          ra = (angularCandidate (some r) (some d) (U ((0, k), 0) ω) (U ((0, k), 1) ω)).1 ∧
          dec = (angularCandidate (some r) (some d) (U ((0, k), 0) ω) (U ((0, k), 1) ω)).2 ∧
          dist = radialCandidate D.1 D.2 (U ((0, k), 2) ω) := by
      intro k hk ra dec dist
      rw [hf]
      simp only [List.getElem?_map, List.getElem?_range hk, Option.map_some, Option.some.injEq, randomCutskyRow]
      constructor
      · intro h
        simp only [List.cons.injEq, Prod.mk.injEq, Sum.inl.injEq, true_and] at h
        exact ⟨h.1.symm, h.2.1.symm, h.2.2.1.symm⟩
      · rintro ⟨rfl, rfl, rfl⟩
        simp only [List.cons.injEq, Prod.mk.injEq, true_and, and_true, Sum.inr.injEq]
        ext <;> simp [skyToCartesian, Num.val, Num.kind, Kind.join, store, conversion, skyPoint, rad]
    have hpos : ∀ k, toVec (skyPoint (radialCandidate D.1 D.2 (U ((0, k), 2) ω))
        (angularCandidate (some r) (some d) (U ((0, k), 0) ω) (U ((0, k), 1) ω)).1
        (angularCandidate (some r) (some d) (U ((0, k), 0) ω) (U ((0, k), 1) ω)).2) = g fun j => U ((0, k), e j) ω := by
      intro k
      rw [candidate_place hp hd _ _ _ (hω _), ← hg]
      congr 1
      funext j
      fin_cases j <;> rfl
    simp only [ho, Except.ok.injEq, exists_eq_left', hl, true_and, Set.mem_iInter, Finset.mem_range, Set.mem_preimage]
    refine forall_congr' fun k => forall_congr' fun hk => ?_
    simp only [hrow k hk]
    rw [← hpos]
    constructor
    · rintro ⟨ra, dec, dist, ⟨rfl, rfl, rfl⟩, h⟩
      exact h
    · intro h
      exact ⟨_, _, _, ⟨rfl, rfl, rfl⟩, h⟩
  rw [measure_congr hset, (iIndepFun_iff_measure_inter_preimage_eq_mul.1 hT.independent) (Finset.range n)
    (sets := fun k => g ⁻¹' A k) fun k _ => measurable_place (hA k)]
  refine Finset.prod_congr rfl fun k _ => ?_
  have h1 := hT.chance k (g ⁻¹' A k) (measurable_place (hA k))
  have h2 := place_volume (a0 := rad r.1) (fair hp hW hd hD) (hA k)
  rw [← sector_eq hp hW hd hD, ← C102_sector_volume hp hW hd hD] at h2
  have hf := fair hp hW hd hD
  have hv0 : MeasureTheory.volume (sector r d D) ≠ 0 := by
    rw [C102_sector_volume hp hW hd hD]
    have := mul_pos (mul_pos hf.turn.1 hf.sphere.2.1) (div_pos hf.ball.2 (show (0 : ℝ) < 3 by norm_num))
    simpa using this
  have hvt : MeasureTheory.volume (sector r d D) ≠ ⊤ := by
    rw [C102_sector_volume hp hW hd hD]
    exact ENNReal.ofReal_ne_top
  rw [h2, mul_comm, ENNReal.mul_div_cancel_right hv0 hvt]
  exact h1

/-! ### Boxes -/

/-- The box of size `L` and centre `c`. -/
def box (L c : V3 ℝ) : Set (Fin 3 → ℝ) := {p | ∀ d, toVec c d - toVec L d / 2 ≤ p d ∧ p d < toVec c d + toVec L d / 2}

/-- A mesh of one cell that is the whole box. -/
def oneCell (L c : V3 ℝ) : Mesh where
  n := fun _ => 1
  n_pos := fun _ => one_pos
  boxsize := toVec L
  boxcenter := toVec c
  freq := fun _ _ => 0
  freq_cast := fun _ i => Subsingleton.elim _ _
  freq_le := fun _ _ => by norm_num

theorem box_eq (L c : V3 ℝ) : {p | Props.InCell (oneCell L c) 0 p} = box L c := by
  ext p
  simp only [Props.InCell, box, Set.mem_ofPred_eq]
  refine forall_congr' fun d => ?_
  have h1 : nodeAt (oneCell L c) 0 d = toVec c d - toVec L d / 2 := by
    unfold nodeAt
    have : ((0 : (oneCell L c).Idx) d).val = 0 := ZMod.val_zero
    rw [this]
    simp [oneCell]
  have h2 : (oneCell L c).boxsize d / (oneCell L c).n d = toVec L d := by simp [oneCell]
  rw [h1, h2]
  constructor <;> rintro ⟨a, b⟩ <;> exact ⟨a, by linarith⟩

theorem pos_eq (L c : V3 ℝ) (u : Fin 3 → ℝ) :
    pos (oneCell L c) 0 u = toVec ⟨L.x * (u 0 - 1 / 2) + c.x, L.y * (u 1 - 1 / 2) + c.y, L.z * (u 2 - 1 / 2) + c.z⟩ := by
  funext d
  have h0 : (oneCell L c).cellCorner 0 d = 0 := by
    unfold Mesh.cellCorner
    have : ((0 : (oneCell L c).Idx) d).val = 0 := ZMod.val_zero
    rw [this]
    simp
  have h2 : (oneCell L c).cell d = toVec L d := by simp [oneCell, Mesh.cell]
  unfold pos
  rw [h0, h2]
  fin_cases d <;> simp [oneCell, toVec] <;> ring

theorem C102_box_volume (L c : V3 ℝ) (hL : 0 < L.x ∧ 0 < L.y ∧ 0 < L.z) :
    MeasureTheory.volume (box L c) = ENNReal.ofReal (L.x * L.y * L.z) := by
  have : box L c = Set.univ.pi fun d => Set.Ico (toVec c d - toVec L d / 2) (toVec c d + toVec L d / 2) := by
    ext p
    simp [box]
  rw [this, Real.volume_pi_Ico, Fin.prod_univ_three]
  simp only [toVec, Matrix.cons_val_zero, Matrix.cons_val_one, Matrix.cons_val]
  rw [← ENNReal.ofReal_mul (by linarith [hL.1]), ← ENNReal.ofReal_mul (mul_nonneg (by linarith [hL.1]) (by linarith [hL.2.1]))]
  congr 1
  ring

/-- C102. The points of a random box are independent and uniform: the chance that the first one lies in a region, the second one in
another one and so on is the product of the parts of the volume of the box in these regions. -/
theorem C102_box_regions [IsProbabilityMeasure μ] (L c : V3 ℝ) (hL : 0 < L.x ∧ 0 < L.y ∧ 0 < L.z) (n : ℕ) (nbar : Option ℝ) {nranks : ℕ}
    (hr : 0 < nranks) {U : ℕ × Fin 3 → Ω → ℝ} (hU : AreUniform μ U) (A : ℕ → Set (Fin 3 → ℝ)) (hA : ∀ k, MeasurableSet (A k)) :
    μ {ω | ∃ out, randomBox (some L) c (some n) none nbar nranks
        (fun i => ⟨U (i, 0) ω - 1 / 2, U (i, 1) ω - 1 / 2, U (i, 2) ω - 1 / 2⟩) = .ok out ∧ out.flatten.length = n ∧
        ∀ k < n, ∃ p, out.flatten[k]? = some p ∧ toVec p ∈ A k} =
      ∏ k ∈ Finset.range n, MeasureTheory.volume (A k ∩ box L c) / MeasureTheory.volume (box L c) := by
  have hpos : ∀ d, 0 < (oneCell L c).boxsize d := fun d => by
    fin_cases d
    · exact hL.1
    · exact hL.2.1
    · exact hL.2.2
  have hT := triples hU
  have hset : {ω | ∃ out, randomBox (some L) c (some n) none nbar nranks
        (fun i => ⟨U (i, 0) ω - 1 / 2, U (i, 1) ω - 1 / 2, U (i, 2) ω - 1 / 2⟩) = .ok out ∧ out.flatten.length = n ∧
        ∀ k < n, ∃ p, out.flatten[k]? = some p ∧ toVec p ∈ A k} =
      ⋂ k ∈ Finset.range n, (fun ω (j : Fin 3) => U (k, j) ω) ⁻¹' (pos (oneCell L c) 0 ⁻¹' A k) := by
    ext ω
    obtain ⟨out, h1, h2, h3, h4⟩ := C35_box_csize L c n nbar hr
      (fun i => ⟨U (i, 0) ω - 1 / 2, U (i, 1) ω - 1 / 2, U (i, 2) ω - 1 / 2⟩)
    simp only [Set.mem_ofPred_eq, h1, Except.ok.injEq, exists_eq_left', h3, true_and, Set.mem_iInter, Finset.mem_range, Set.mem_preimage, pos_eq]
    refine forall_congr' fun k => forall_congr' fun hk => ?_
    rw [h4]
    simp only [List.getElem?_map, List.getElem?_range hk, Option.map_some, Option.some.injEq, exists_eq_left']
  rw [hset, (iIndepFun_iff_measure_inter_preimage_eq_mul.1 hT.independent) (Finset.range n)
    (sets := fun k => pos (oneCell L c) 0 ⁻¹' A k) fun k _ => measurable_pos _ _ (hA k)]
  refine Finset.prod_congr rfl fun k _ => ?_
  have h1 := hT.chance k (pos (oneCell L c) 0 ⁻¹' A k) (measurable_pos _ _ (hA k))
  rw [chance_cell _ hpos 0 (hA k), box_eq] at h1
  refine h1.trans ?_
  have hdv : (oneCell L c).dv = L.x * L.y * L.z := by
    unfold Mesh.dv Mesh.cell
    rw [Fin.prod_univ_three]
    simp [oneCell, toVec]
  have hv : 0 < L.x * L.y * L.z := mul_pos (mul_pos hL.1 hL.2.1) hL.2.2
  rw [hdv, C102_box_volume L c hL, ENNReal.ofReal_inv_of_pos hv, mul_comm, ENNReal.div_eq_inv_mul, mul_comm]

/-- Hypotheses of the theorems above: the sector of 100 degrees through RA 0, in the northern hemisphere, between distances 1 and 2, of
volume 100 π / 180 * 7 / 3. -/
example : MeasureTheory.volume (sector (300, 40) (0, 90) (1, 2)) = ENNReal.ofReal (100 * (Real.pi / 180) * (7 / 3)) := by
  have h : FairRange (300, 40) := Or.inl ⟨by norm_num, by norm_num, fun h => by norm_num at h⟩
  have hw : raWidth (300, 40) = 100 := by norm_num [raWidth]
  rw [C102_sector_volume h (by rw [hw]; norm_num) (by norm_num) (by norm_num), hw]
  have h1 : rad 90 = Real.pi / 2 := by unfold rad; ring
  have h0 : rad 0 = 0 := by unfold rad; ring
  simp only [h1, h0, Real.sin_pi_div_two, Real.sin_zero]
  unfold rad
  norm_num

end Verif.Props.UniformRegions
