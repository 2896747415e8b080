import Verif.Lemmas.RoundedIsometry
import Verif.Props.Isometry
import Verif.Props.Rounded
import Mathlib.Analysis.SpecialFunctions.Trigonometric.Bounds
import Mathlib.Analysis.Real.Pi.Bounds

/-!
# C128: isometries with rounding errors
-/

namespace Verif.Props.RoundedIsometry

open Verif Verif.Spec Verif.Model Verif.Model.RoundedIsometry Verif.Lemmas.RoundedIsometry Verif.Props

variable {F : Fmt}

/-- What a call stands for: the same call in exact arithmetic. Matrices are within `d` of a rotation, in the Frobenius norm (square root of
the sum of the squares of the entries). -/
inductive Stands (d : ℝ) : OpF → Isom.Op → Prop
  | dotOrigin {m q : M3 ℝ} (hq : LinearRotation q.mulVec) (h : frob (m - q) ≤ d) : Stands d (.dotOrigin m) (.dot q .origin)
  | rotation {m q : M3 ℝ} {a : Axis} {n : V3 ℝ} {angle : ℝ} {degree : Bool} {f : Isom.Frame} (ha : AxisMeans a n)
      (hq : ∀ p, q.mulVec p = rodrigues n (radians angle degree) p) (h : frob (m - q) ≤ d) :
      Stands d (.dotOrigin m) (.rotation angle a degree f)
  | dotCurrent {m q : M3 ℝ} (hq : LinearRotation q.mulVec) (h : frob (m - q) ≤ d) : Stands d (.dotCurrent m) (.dot q .current)
  | translationOrigin {sh : Isom.Shift} {ax : Isom.TAxis} {v : V3 ℝ} (h : ShiftMeans sh ax v) :
      Stands d (.translationOrigin v) (.translation sh ax .origin)
  | translationCurrent {sh : Isom.Shift} {ax : Isom.TAxis} {v : V3 ℝ} (h : ShiftMeans sh ax v) :
      Stands d (.translationCurrent v) (.translation sh ax .current)
  | resetRotationOrigin : Stands d .resetRotationOrigin (.resetRotation .origin)
  | resetRotationCurrent : Stands d .resetRotationCurrent (.resetRotation .current)
  | resetTranslate : Stands d .resetTranslate .resetTranslate

/-- Length of the translation of a call. -/
noncomputable def shiftOf : OpF → ℝ
  | .translationOrigin v => v.norm
  | .translationCurrent v => v.norm
  | _ => 0

/-- Sum of the lengths of the translations of a history. -/
noncomputable def shifts (ops : List OpF) : ℝ := (ops.map shiftOf).sum

theorem shiftOf_nonneg (op : OpF) : 0 ≤ shiftOf op := by
  cases op <;> first | exact V3.norm_nonneg _ | exact le_rfl

/-- Growth of errors by one call. -/
noncomputable def growth (F : Fmt) (d : ℝ) : ℝ := (1 + d) * (1 + rho F) ^ 2

theorem one_le_growth {d : ℝ} (hd : 0 ≤ d) : 1 ≤ growth F d := by
  unfold growth
  have := rho_nonneg (F := F)
  nlinarith [one_le_pow₀ (n := 2) (by linarith : (1 : ℝ) ≤ 1 + rho F)]

/-- State with rounding errors against the state in exact arithmetic: rotation within `A ^ k - 1`, translation within `A ^ E - 1` of
lengths `W`. -/
structure Close (F : Fmt) (A : ℝ) (s s' : Isom) (k E : ℕ) (W : ℝ) : Prop where
  rot : Near s.rot s'.rot (A ^ k - 1)
  trans : (s.trans - s'.trans).norm ≤ (A ^ E - 1) * W
  len : s'.trans.norm + 6 * F.tiny ≤ W

theorem near_one {A : ℝ} (k : ℕ) (hA : 1 ≤ A) : Near 1 1 (A ^ k - 1) := by
  refine ⟨by ext <;> simp [M3.tr], ?_⟩
  have : frob ((1 : M3 ℝ) - 1) = 0 := by simp [frob, row0, row1, row2, V3.norm]
  rw [this]
  linarith [one_le_pow₀ hA (n := k)]

/-- Bounds grow with exponents. -/
theorem pow_bound {A W : ℝ} (hA : 1 ≤ A) (hW : 0 ≤ W) {m n : ℕ} (h : m ≤ n) : (A ^ m - 1) * W ≤ (A ^ n - 1) * W :=
  mul_le_mul_of_nonneg_right (by linarith [pow_le_pow_right₀ hA h]) hW

theorem shift_step {sh : Isom.Shift} {ax : Isom.TAxis} {v : V3 ℝ} (h : ShiftMeans sh ax v) (s : Isom) (f : Isom.Frame) :
    s.step (.translation sh ax f) = s.step (.translation (.vec v) .none f) := by
  cases h <;> rfl

theorem close_step {d : ℝ} (hd : 0 ≤ d) {s s' t : Isom} {op : OpF} {op' : Isom.Op} (hs : Stands d op op') (h : StepF F s op t)
    {k E n : ℕ} {W : ℝ} (hk : k ≤ n) (hE : E + k ≤ 2 * n) (hc : Close F (growth F d) s s' k E W) :
    ∃ k' E', k' ≤ n + 1 ∧ E' + k' ≤ 2 * (n + 1) ∧ Close F (growth F d) t (s'.step op').1 k' E' (W + shiftOf op + 6 * F.tiny) := by
  set A := growth F d with hAdef
  have hA : 1 ≤ A := one_le_growth hd
  have hρ := rho_nonneg (F := F)
  have ht := tiny_pos (F := F)
  have hW : 0 ≤ W := by have := hc.len; have := V3.norm_nonneg s'.trans; linarith
  have hA1 : (1 + d) * (1 + rho F) ≤ A := by
    rw [hAdef, growth]
    exact mul_le_mul_of_nonneg_left (by nlinarith) (by linarith)
  have hA2 : (1 + rho F) ^ 2 ≤ A := by
    rw [hAdef, growth]
    nlinarith [sq_nonneg (1 + rho F)]
  have hA3 : 1 + rho F ≤ A := le_trans (by nlinarith) hA2
  have wide : ∀ {m : ℕ} {W' : ℝ}, W ≤ W' → (A ^ m - 1) * W ≤ (A ^ m - 1) * W' := fun {m _} h =>
    mul_le_mul_of_nonneg_left h (by linarith [one_le_pow₀ hA (n := m)])
  have pk := one_le_pow₀ hA (n := k)
  have pE := one_le_pow₀ hA (n := E)
  have isrot : ∀ {m q : M3 ℝ}, LinearRotation q.mulVec → frob (m - q) ≤ d → Near m q d := fun hq h =>
    ⟨(isRot_of_linearRotation hq).1, h⟩
  have dotCase : ∀ {m q : M3 ℝ}, Near m q d → StepF F s (.dotOrigin m) t → ∃ k' E', k' ≤ n + 1 ∧ E' + k' ≤ 2 * (n + 1) ∧
      Close F A t (s'.step (.dot q .origin)).1 k' E' (W + shiftOf (.dotOrigin m) + 6 * F.tiny) := by
    intro m q hn h
    cases h with
    | dotOrigin h1 h2 =>
      refine ⟨k + 1, E + 1, by omega, by omega, ?_, ?_, ?_⟩
      · refine (mul_err hn hc.rot h1).mono ?_
        rw [pow_succ, add_sub_cancel]
        nlinarith [mul_le_mul_of_nonneg_left hA1 (by linarith : 0 ≤ A ^ k)]
      · have e1 : (s'.step (.dot q .origin)).1.trans = q.mulVec s'.trans := rfl
        rw [e1]
        refine (apply_err hn hc.trans hc.len h2).trans ?_
        refine le_trans (mul_le_mul_of_nonneg_right (c := (A ^ (E + 1) - 1)) ?_ hW) (wide (by simp [shiftOf]; linarith))
        rw [pow_succ, add_sub_cancel]
        nlinarith [mul_le_mul_of_nonneg_left hA1 (by linarith : 0 ≤ A ^ E)]
      · have e1 : (s'.step (.dot q .origin)).1.trans = q.mulVec s'.trans := rfl
        rw [e1, norm_rot hn.orth]
        have := hc.len
        simp only [shiftOf]
        linarith
  cases hs with
  | @dotOrigin m q hq hm => exact dotCase (isrot hq hm) h
  | @rotation m q a v angle degree f ha hq hm =>
    have hv := getLos_unit (axisMeans_getLos ha)
    have e : q = axisMat v (radians angle degree) := by
      have h1 := fun p => (hq p).trans (axisMat_mulVec _ p).symm
      have ex := h1 ⟨1, 0, 0⟩
      have ey := h1 ⟨0, 1, 0⟩
      have ez := h1 ⟨0, 0, 1⟩
      simp only [M3.mulVec, V3.mk.injEq, mul_one, mul_zero, add_zero, zero_add] at ex ey ez
      ext
      exacts [ex.1, ey.1, ez.1, ex.2.1, ey.2.1, ez.2.1, ex.2.2, ey.2.2, ez.2.2]
    have e2 : s'.step (.rotation angle a degree f) = s'.step (.dot q .origin) := by
      rw [e]
      exact rotation_ok (axisMeans_getLos ha) s' angle degree f
    rw [e2]
    exact dotCase ⟨by rw [e]; exact (axisMat_isRot hv _).1, hm⟩ h
  | @dotCurrent m q hq hm =>
    cases h with
    | dotCurrent h1 =>
      have hn := isrot hq hm
      refine ⟨k + 1, E, by omega, by omega, ?_, ?_, ?_⟩
      · refine (mul_err hn hc.rot h1).mono ?_
        rw [pow_succ, add_sub_cancel]
        nlinarith [mul_le_mul_of_nonneg_left hA1 (by linarith : 0 ≤ A ^ k)]
      · exact hc.trans.trans (wide (by simp [shiftOf]; linarith))
      · have := hc.len
        simp only [shiftOf]
        exact this.trans (by linarith)
  | @translationOrigin sh ax v hsh =>
    rw [shift_step hsh]
    cases h with
    | translationOrigin =>
      refine ⟨k, E + 1, by omega, by omega, hc.rot, ?_, ?_⟩
      · have e1 : (s'.step (.translation (.vec v) .none .origin)).1.trans = s'.trans + v := rfl
        rw [e1]
        have hv : (v - v).norm ≤ (A ^ E - 1) * v.norm := by
          have : v - v = 0 := by ext <;> simp
          rw [this, (V3.norm_eq_zero 0).2 rfl]
          exact mul_nonneg (by linarith) (V3.norm_nonneg v)
        have := add_near (F := F) (by linarith) hc.trans hv (by have := hc.len; linarith) le_rfl
        refine this.trans ?_
        have h0 : 0 ≤ W + v.norm := by have := V3.norm_nonneg v; linarith
        refine (mul_le_mul_of_nonneg_right (c := (A ^ (E + 1) - 1)) ?_ h0).trans
          (mul_le_mul_of_nonneg_left (by simp only [shiftOf]; linarith) (by linarith [one_le_pow₀ hA (n := E + 1)]))
        rw [pow_succ, add_sub_cancel]
        nlinarith [mul_le_mul_of_nonneg_left hA3 (by linarith : 0 ≤ A ^ E)]
      · have e1 : (s'.step (.translation (.vec v) .none .origin)).1.trans = s'.trans + v := rfl
        rw [e1]
        have := norm_add_le s'.trans v
        have := hc.len
        simp only [shiftOf]
        linarith
  | @translationCurrent sh ax v hsh =>
    rw [shift_step hsh]
    cases h with
    | @translationCurrent _ w h1 =>
      have e1 : (s'.step (.translation (.vec v) .none .current)).1.trans = s'.trans + s'.rot.mulVec v := rfl
      refine ⟨k, max E k + 1, by omega, by omega, hc.rot, ?_, ?_⟩
      · rw [e1]
        set f := A ^ max E k * (1 + rho F) - 1 with hf
        have pm := one_le_pow₀ hA (n := max E k)
        have hf0 : 0 ≤ f := by rw [hf]; nlinarith
        have hvW : 0 ≤ v.norm + 6 * F.tiny := by have := V3.norm_nonneg v; linarith
        have hv : (v - v).norm ≤ 0 * (v.norm + 6 * F.tiny) := by
          have : v - v = 0 := by ext <;> simp
          rw [this, (V3.norm_eq_zero 0).2 rfl, zero_mul]
        have ha := apply_err hc.rot hv le_rfl h1
        have ha' : (w - s'.rot.mulVec v).norm ≤ f * (v.norm + 6 * F.tiny) := by
          refine ha.trans (mul_le_mul_of_nonneg_right ?_ hvW)
          rw [hf, add_sub_cancel, add_zero, mul_one]
          have := pow_le_pow_right₀ hA (le_max_right E k)
          nlinarith
        have hb : (s.trans - s'.trans).norm ≤ f * W := by
          refine hc.trans.trans (mul_le_mul_of_nonneg_right ?_ hW)
          have := pow_le_pow_right₀ hA (le_max_left E k)
          rw [hf]
          nlinarith
        have := add_near (F := F) hf0 hb ha' (by have := hc.len; linarith) (by rw [norm_rot hc.rot.orth]; linarith)
        refine this.trans ?_
        have e2 : W + (v.norm + 6 * F.tiny) = W + shiftOf (.translationCurrent v) + 6 * F.tiny := by simp only [shiftOf]; ring
        rw [e2]
        refine mul_le_mul_of_nonneg_right ?_ (by rw [← e2]; linarith)
        rw [hf, pow_succ, add_sub_cancel]
        nlinarith [mul_le_mul_of_nonneg_left hA2 (by linarith : 0 ≤ A ^ max E k)]
      · rw [e1]
        have := norm_add_le s'.trans (s'.rot.mulVec v)
        rw [norm_rot hc.rot.orth] at this
        have := hc.len
        simp only [shiftOf]
        linarith
  | resetRotationOrigin =>
    cases h with
    | @resetRotationOrigin t h1 =>
      have e1 : (s'.step (.resetRotation .origin)).1.trans = s'.rot.tr.mulVec s'.trans := rfl
      refine ⟨0, E + k + 1, by omega, by omega, near_one 0 hA, ?_, ?_⟩
      · rw [e1]
        refine (apply_err hc.rot.tr hc.trans hc.len h1).trans ?_
        refine le_trans (mul_le_mul_of_nonneg_right (c := (A ^ (E + k + 1) - 1)) ?_ hW) (wide (by simp [shiftOf]; linarith))
        rw [pow_succ, pow_add, add_sub_cancel, add_sub_cancel]
        nlinarith [mul_le_mul_of_nonneg_left hA3 (by positivity : 0 ≤ A ^ E * A ^ k)]
      · rw [e1, norm_rot hc.rot.tr.orth]
        have := hc.len
        simp only [shiftOf]
        linarith
  | resetRotationCurrent =>
    cases h with
    | resetRotationCurrent =>
      refine ⟨0, E, by omega, by omega, near_one 0 hA, hc.trans.trans (wide (by simp [shiftOf]; linarith)), ?_⟩
      have := hc.len
      simp only [shiftOf]
      exact this.trans (by linarith)
  | resetTranslate =>
    cases h with
    | resetTranslate =>
      refine ⟨k, 0, by omega, by omega, hc.rot, ?_, ?_⟩
      · have e1 : (s'.step .resetTranslate).1.trans = 0 := rfl
        rw [e1]
        simp [V3.norm]
      · have e1 : (s'.step .resetTranslate).1.trans = 0 := rfl
        rw [e1, (V3.norm_eq_zero 0).2 rfl]
        simp only [shiftOf]
        linarith

theorem close_run {d : ℝ} (hd : 0 ≤ d) {ops : List OpF} {ops' : List Isom.Op} (ho : List.Forall₂ (Stands d) ops ops') {s t : Isom}
    (h : RunF F s ops t) : ∀ {s' : Isom} {k E n : ℕ} {W : ℝ}, k ≤ n → E + k ≤ 2 * n → Close F (growth F d) s s' k E W →
    ∃ k' E', k' ≤ n + ops.length ∧ E' + k' ≤ 2 * (n + ops.length) ∧
      Close F (growth F d) t (s'.run ops') k' E' (W + shifts ops + 6 * ops.length * F.tiny) := by
  induction h generalizing ops' with
  | nil =>
    cases ho
    intro s' k E n W hk hE hc
    exact ⟨k, E, hk, hE, by simpa [shifts, Isom.run] using hc⟩
  | @cons s u t op ops h1 _ ih =>
    cases ho with
    | cons ho1 ho2 =>
      intro s' k E n W hk hE hc
      obtain ⟨k1, E1, hk1, hE1, hc1⟩ := close_step hd ho1 h1 hk hE hc
      obtain ⟨k2, E2, hk2, hE2, hc2⟩ := ih ho2 hk1 hE1 hc1
      refine ⟨k2, E2, by simp only [List.length_cons]; omega, by simp only [List.length_cons]; omega, ?_⟩
      have e : W + shiftOf op + 6 * F.tiny + shifts ops + 6 * ops.length * F.tiny =
          W + shifts (op :: ops) + 6 * (op :: ops).length * F.tiny := by
        simp only [shifts, List.map_cons, List.sum_cons, List.length_cons]
        push_cast
        ring
      rw [e] at hc2
      exact hc2

/-- A concatenation counts for one more call. -/
theorem close_concat {d : ℝ} (hd : 0 ≤ d) {a b a' b' c : Isom} {k l D E m n : ℕ} {V W : ℝ} (hk : k ≤ m) (hD : D + k ≤ 2 * m) (hl : l ≤ n)
    (hE : E + l ≤ 2 * n) (ha : Close F (growth F d) a a' k D V) (hb : Close F (growth F d) b b' l E W) (h : ConcatF F a b c) :
    ∃ k' E', k' ≤ m + n + 1 ∧ E' + k' ≤ 2 * (m + n + 1) ∧ Close F (growth F d) c (a'.add b') k' E' (V + W) := by
  set A := growth F d with hAdef
  have hA : 1 ≤ A := one_le_growth hd
  have hρ := rho_nonneg (F := F)
  have ht := tiny_pos (F := F)
  have hV : 0 ≤ V := by have := ha.len; have := V3.norm_nonneg a'.trans; linarith
  have hW : 0 ≤ W := by have := hb.len; have := V3.norm_nonneg b'.trans; linarith
  have hA2 : (1 + rho F) ^ 2 ≤ A := by
    rw [hAdef, growth]
    nlinarith [sq_nonneg (1 + rho F)]
  have hA3 : 1 + rho F ≤ A := le_trans (by nlinarith) hA2
  obtain ⟨t, h1, h2, h3⟩ := h
  have er : (a'.add b').rot = b'.rot * a'.rot := by
    simp only [Isom.add, Isom.concatenate, Isom.init, List.foldl]
    rw [M3.mul_one']
  have et : (a'.add b').trans = b'.rot.mulVec a'.trans + b'.trans := by
    simp only [Isom.add, Isom.concatenate, Isom.init, List.foldl]
    ext <;> simp [M3.mulVec]
  set M := max (l + D) E with hM
  have pM := one_le_pow₀ hA (n := M)
  set f := A ^ M * (1 + rho F) - 1 with hf
  have hf0 : 0 ≤ f := by rw [hf]; nlinarith
  refine ⟨k + l + 1, M + 1, by omega, by omega, ?_, ?_, ?_⟩
  · rw [er]
    refine (mul_err hb.rot ha.rot h1).mono ?_
    have : A ^ (k + l + 1) = A ^ l * A ^ k * A := by rw [pow_succ, pow_add]; ring
    rw [this, add_sub_cancel, add_sub_cancel]
    nlinarith [mul_le_mul_of_nonneg_left hA3 (by positivity : 0 ≤ A ^ l * A ^ k)]
  · rw [et, h3]
    have hv : (t - b'.rot.mulVec a'.trans).norm ≤ f * V := by
      refine (apply_err hb.rot ha.trans ha.len h2).trans (mul_le_mul_of_nonneg_right ?_ hV)
      rw [hf, add_sub_cancel, add_sub_cancel, ← pow_add]
      have := pow_le_pow_right₀ hA (le_max_left (l + D) E)
      nlinarith
    have hw : (b.trans - b'.trans).norm ≤ f * W := by
      refine hb.trans.trans (mul_le_mul_of_nonneg_right ?_ hW)
      have := pow_le_pow_right₀ hA (le_max_right (l + D) E)
      rw [hf]
      nlinarith
    refine (add_near (F := F) hf0 hv hw (by rw [norm_rot hb.rot.orth]; have := ha.len; linarith) (by have := hb.len; linarith)).trans ?_
    refine mul_le_mul_of_nonneg_right ?_ (by linarith)
    rw [hf, pow_succ, add_sub_cancel]
    nlinarith [mul_le_mul_of_nonneg_left hA2 (by linarith : 0 ≤ A ^ M)]
  · rw [et]
    have := norm_add_le (b'.rot.mulVec a'.trans) b'.trans
    rw [norm_rot hb.rot.orth] at this
    have := ha.len
    have := hb.len
    linarith

/-- Positions moved by a state close to that in exact arithmetic. -/
theorem close_transform {d : ℝ} (hd : 0 ≤ d) {s s' : Isom} {k E n : ℕ} {W : ℝ} (hE : E + k ≤ 2 * n)
    (hc : Close F (growth F d) s s' k E W) {x y : V3 ℝ} (hy : TransformF F s x false y) :
    dist y (s'.transform x false) ≤ (((1 + d) * (1 + rho F) ^ 2) ^ (2 * n + 1) - 1) * (x.norm + W + 6 * F.tiny) := by
  have hA : 1 ≤ growth F d := one_le_growth hd
  have ht := tiny_pos (F := F)
  have hρ := rho_nonneg (F := F)
  obtain ⟨w, h1, rfl⟩ := hy
  rw [if_neg (by decide)]
  set A := growth F d with hAdef
  have hA2 : (1 + rho F) ^ 2 ≤ A := by
    rw [hAdef, growth]
    nlinarith [sq_nonneg (1 + rho F)]
  have hW : 0 ≤ W := by have := hc.len; have := V3.norm_nonneg s'.trans; linarith
  set f := A ^ max E k * (1 + rho F) - 1 with hf
  have pm := one_le_pow₀ hA (n := max E k)
  have hf0 : 0 ≤ f := by rw [hf]; nlinarith
  have hvW : 0 ≤ x.norm + 6 * F.tiny := by have := V3.norm_nonneg x; linarith
  have hv : (x - x).norm ≤ 0 * (x.norm + 6 * F.tiny) := by
    have : x - x = 0 := by ext <;> simp
    rw [this, (V3.norm_eq_zero 0).2 rfl, zero_mul]
  have ha := apply_err hc.rot hv le_rfl h1
  have ha' : (w - s'.rot.mulVec x).norm ≤ f * (x.norm + 6 * F.tiny) := by
    refine ha.trans (mul_le_mul_of_nonneg_right ?_ hvW)
    rw [hf, add_sub_cancel, add_zero, mul_one]
    have := pow_le_pow_right₀ hA (le_max_right E k)
    nlinarith
  have hb : (s.trans - s'.trans).norm ≤ f * W := by
    refine hc.trans.trans (mul_le_mul_of_nonneg_right ?_ hW)
    have := pow_le_pow_right₀ hA (le_max_left E k)
    rw [hf]
    nlinarith
  have hlen := hc.len
  have hsum := add_near (F := F) (v := w) (w := s.trans) (W := x.norm + 6 * F.tiny) hf0 ha' hb
    (by rw [norm_rot hc.rot.orth]; linarith) (by linarith)
  have e1 : dist (addF F w s.trans) (s'.transform x false) = (addF F w s.trans - (s'.rot.mulVec x + s'.trans)).norm := rfl
  rw [e1]
  refine hsum.trans ?_
  have e2 : x.norm + 6 * F.tiny + W = x.norm + W + 6 * F.tiny := by ring
  rw [e2]
  refine mul_le_mul_of_nonneg_right ?_ (by rw [← e2]; linarith)
  have hle : max E k + 1 ≤ 2 * n + 1 := by omega
  have h2 := pow_le_pow_right₀ hA hle
  rw [pow_succ] at h2
  rw [hf, add_sub_cancel]
  have : A ^ max E k * (1 + rho F) ^ 2 ≤ A ^ max E k * A := mul_le_mul_of_nonneg_left hA2 (by linarith)
  change _ ≤ A ^ (2 * n + 1) - 1
  nlinarith

theorem close_init {d : ℝ} (hd : 0 ≤ d) : Close F (growth F d) Isom.init Isom.init 0 0 (6 * F.tiny) := by
  refine ⟨near_one 0 (one_le_growth hd), ?_, ?_⟩ <;> simp [Isom.init, V3.norm]

/-- C128: whatever the history of `n` calls, rotations and translations in both frames and resets, a position is moved to where exact
arithmetic moves it, up to an error relative to its distance and to the lengths of the translations that grows with the number of calls. -/
theorem C128_history {d : ℝ} (hd : 0 ≤ d) {ops : List OpF} {ops' : List Isom.Op} (ho : List.Forall₂ (Stands d) ops ops') {s : Isom}
    (h : RunF F Isom.init ops s) {x y : V3 ℝ} (hy : TransformF F s x false y) :
    dist y ((Isom.init.run ops').transform x false) ≤
      (((1 + d) * (1 + rho F) ^ 2) ^ (2 * ops.length + 1) - 1) * (x.norm + shifts ops + 6 * (ops.length + 2) * F.tiny) := by
  obtain ⟨k, E, hk, hE, hc⟩ := close_run hd ho h (n := 0) le_rfl le_rfl (close_init hd)
  rw [zero_add] at hk hE
  have e : x.norm + (6 * F.tiny + shifts ops + 6 * ops.length * F.tiny) + 6 * F.tiny =
      x.norm + shifts ops + 6 * (ops.length + 2) * F.tiny := by ring
  have := close_transform hd hE hc hy
  rwa [e] at this

/-- C128: the same with two isometries of any histories put one after the other, by `concatenate`, `extend` or a sum. -/
theorem C128_concatenate {d : ℝ} (hd : 0 ≤ d) {ops₁ ops₂ : List OpF} {ops₁' ops₂' : List Isom.Op} (h₁ : List.Forall₂ (Stands d) ops₁ ops₁')
    (h₂ : List.Forall₂ (Stands d) ops₂ ops₂') {a b c : Isom} (ha : RunF F Isom.init ops₁ a) (hb : RunF F Isom.init ops₂ b)
    (h : ConcatF F a b c) {x y : V3 ℝ} (hy : TransformF F c x false y) :
    dist y ((Isom.init.run ops₂').transform ((Isom.init.run ops₁').transform x false) false) ≤
      (((1 + d) * (1 + rho F) ^ 2) ^ (2 * (ops₁.length + ops₂.length) + 3) - 1) *
        (x.norm + (shifts ops₁ + shifts ops₂) + 6 * (ops₁.length + ops₂.length + 3) * F.tiny) := by
  obtain ⟨k, D, hk, hD, hca⟩ := close_run hd h₁ ha (n := 0) le_rfl le_rfl (close_init hd)
  obtain ⟨l, E, hl, hE, hcb⟩ := close_run hd h₂ hb (n := 0) le_rfl le_rfl (close_init hd)
  rw [zero_add] at hk hD hl hE
  obtain ⟨k', E', hk', hE', hc⟩ := close_concat hd hk hD hl hE hca hcb h
  have := close_transform hd hE' hc hy
  have e : x.norm + (6 * F.tiny + shifts ops₁ + 6 * ops₁.length * F.tiny + (6 * F.tiny + shifts ops₂ + 6 * ops₂.length * F.tiny)) +
      6 * F.tiny = x.norm + (shifts ops₁ + shifts ops₂) + 6 * (ops₁.length + ops₂.length + 3) * F.tiny := by ring
  rw [e] at this
  have e' : 2 * (ops₁.length + ops₂.length + 1) + 1 = 2 * (ops₁.length + ops₂.length) + 3 := by ring
  rw [e'] at this
  have ex : ((Isom.init.run ops₁').add (Isom.init.run ops₂')).transform x false =
      (Isom.init.run ops₂').transform ((Isom.init.run ops₁').transform x false) false := by
    simp only [Isom.add, Isom.concatenate, Isom.init, List.foldl, Isom.transform]
    ext <;> simp [M3.mulVec] <;> ring
  rwa [ex] at this

/-- C128: separations are kept, up to the same errors. -/
theorem C128_separation {d : ℝ} (hd : 0 ≤ d) {ops : List OpF} {ops' : List Isom.Op} (ho : List.Forall₂ (Stands d) ops ops') {s : Isom}
    (h : RunF F Isom.init ops s) {x x' y y' : V3 ℝ} (hy : TransformF F s x false y) (hy' : TransformF F s x' false y') :
    |dist y y' - dist x x'| ≤ (((1 + d) * (1 + rho F) ^ 2) ^ (2 * ops.length + 1) - 1) *
      (x.norm + x'.norm + 2 * shifts ops + 12 * (ops.length + 2) * F.tiny) := by
  have h1 := C128_history hd ho h hy
  have h2 := C128_history hd ho h hy'
  have hr : ∀ m f, Isom.Op.dot m f ∈ ops' → LinearRotation m.mulVec := by
    clear h h1 h2 hy hy'
    induction ho with
    | nil => simp
    | @cons op op' l l' h _ ih =>
      intro m f hm
      rcases List.mem_cons.1 hm with hm | hm
      · cases h <;> cases hm <;> assumption
      · exact ih m f hm
  have hd' := (C02_history ops' hr).1 x x'
  set p := (Isom.init.run ops').transform x false
  set p' := (Isom.init.run ops').transform x' false
  have e : ∀ a b : V3 ℝ, dist a b = (a - b).norm := fun a b => rfl
  rw [← hd']
  rw [e] at h1 h2 ⊢
  rw [e]
  have t1 := norm_tri y p y'
  have t2 := norm_tri p p' y'
  have t3 := norm_tri p y p'
  have t4 := norm_tri y y' p'
  rw [norm_sub_comm p' y'] at t2
  rw [norm_sub_comm p y] at t3
  rw [abs_le]
  constructor <;> linarith

/-! ### Matrices of rotations -/

theorem angle_err (angle : ℝ) : |angleF F angle - angle * Real.pi / 180| ≤ 5 * F.u * (|angle * Real.pi / 180| + 1) := by
  have hu := F.u_pos
  have hu4 := F.u_le
  have ht := tiny_pos (F := F)
  have ht2 := tiny_le (F := F)
  have hpi := Real.pi_gt_three
  set P := F.rnd Real.pi with hP
  set y := F.rnd (angle * P) with hy
  have h1 : |P - Real.pi| ≤ 6 / 5 * F.u * Real.pi := by
    have := rnd_err_tiny (F := F) Real.pi
    rw [abs_of_pos Real.pi_pos] at this
    refine this.trans ?_
    nlinarith
  have h2 : |angle * P - angle * Real.pi| ≤ 6 / 5 * F.u * |angle * Real.pi| := by
    rw [← mul_sub, abs_mul, abs_mul, abs_of_pos Real.pi_pos]
    nlinarith [mul_le_mul_of_nonneg_left h1 (abs_nonneg angle)]
  have h3 := rnd_err_tiny (F := F) (angle * P)
  have h4 := rnd_err_tiny (F := F) (y / 180)
  have e1 : angleF F angle = F.rnd (y / 180) := rfl
  rw [e1]
  set T := angle * Real.pi with hT
  have h5 : |angle * P| ≤ (1 + 6 / 5 * F.u) * |T| := by
    have := abs_add_le (angle * P - T) T
    rw [sub_add_cancel] at this
    linarith
  have hT0 := abs_nonneg T
  have h6 : |y - T| ≤ 27 / 10 * F.u * |T| + F.u * F.tiny := by
    have t := abs_add_le (y - angle * P) (angle * P - T)
    have e2 : y - angle * P + (angle * P - T) = y - T := by ring
    rw [e2] at t
    have := mul_le_mul_of_nonneg_left h5 hu.le
    nlinarith [mul_nonneg hu.le hT0]
  have h7 : |y| ≤ 7 / 4 * |T| + F.tiny := by
    have := abs_add_le (y - T) T
    rw [sub_add_cancel] at this
    nlinarith [mul_nonneg hu.le hT0, mul_nonneg hu.le ht.le]
  have e3 : |y / 180| = |y| / 180 := by rw [abs_div]; norm_num
  have e4 : |T / 180| = |T| / 180 := by rw [abs_div]; norm_num
  rw [e3] at h4
  rw [e4]
  have t := abs_add_le (F.rnd (y / 180) - y / 180) (y / 180 - T / 180)
  have e5 : F.rnd (y / 180) - y / 180 + (y / 180 - T / 180) = F.rnd (y / 180) - T / 180 := by ring
  have e6 : |y / 180 - T / 180| = |y - T| / 180 := by rw [← sub_div, abs_div]; norm_num
  rw [e5, e6] at t
  have h8 := mul_le_mul_of_nonneg_left h7 hu.le
  nlinarith [mul_nonneg hu.le hT0, mul_nonneg hu.le ht.le]

/-- Entries of the matrix, from an axis, a cosine and a sine that are not exact. -/
theorem entry_close {c s c' s' e q q' a b a' b' η κ : ℝ} (hc : |c| ≤ 1) (hs' : |s'| ≤ 1) (he : 0 ≤ e ∧ e ≤ 1) (hq : |q| ≤ 1)
    (hb : |b| ≤ 1) (ha' : |a'| ≤ 1) (hb' : |b'| ≤ 1) (hcc : |c - c'| ≤ κ) (hss : |s - s'| ≤ κ) (hqq : |q - q'| ≤ η) (haa : |a - a'| ≤ η)
    (hbb : |b - b'| ≤ η) : |a * b + c * (e - a * b) + s * q - (a' * b' + c' * (e - a' * b') + s' * q')| ≤ 5 * η + 3 * κ := by
  have mul1 : ∀ {x y z : ℝ}, |x| ≤ 1 → |y| ≤ z → |x * y| ≤ z := by
    intro x y z hx hy
    rw [abs_mul]
    nlinarith [abs_nonneg x, abs_nonneg y]
  have p1 : |a * b - a' * b'| ≤ 2 * η := by
    have t := abs_add_le (b * (a - a')) (a' * (b - b'))
    have := mul1 hb haa
    have := mul1 ha' hbb
    have e : b * (a - a') + a' * (b - b') = a * b - a' * b' := by ring
    rw [e] at t
    linarith
  have p2 := mul1 hc p1
  have p3 : |(e - a' * b') * (c - c')| ≤ 2 * κ := by
    have h1 : |e - a' * b'| ≤ 2 := by
      have := mul1 ha' hb'
      rw [abs_le] at this ⊢
      constructor <;> linarith
    rw [abs_mul]
    nlinarith [abs_nonneg (c - c'), abs_nonneg (e - a' * b')]
  have p4 := mul1 hq hss
  have p5 := mul1 hs' hqq
  have t1 := abs_add_three (a * b - a' * b') (-(c * (a * b - a' * b'))) ((e - a' * b') * (c - c'))
  have t2 := abs_add_three (a * b - a' * b' + -(c * (a * b - a' * b')) + (e - a' * b') * (c - c')) (q * (s - s')) (s' * (q - q'))
  rw [abs_neg] at t1
  have e1 : a * b - a' * b' + -(c * (a * b - a' * b')) + (e - a' * b') * (c - c') + q * (s - s') + s' * (q - q') =
    a * b + c * (e - a * b) + s * q - (a' * b' + c' * (e - a' * b') + s' * q') := by ring
  rw [e1] at t2
  linarith

theorem unit_le {n : V3 ℝ} (h : n.x ^ 2 + n.y ^ 2 + n.z ^ 2 = 1) : |n.x| ≤ 1 ∧ |n.y| ≤ 1 ∧ |n.z| ≤ 1 := by
  have e := V3.norm_eq_one_of_sq h
  have := abs_le_norm n
  rwa [e] at this

/-- The matrix of a rotation about an axis, from an angle within `τ` of `t`. -/
theorem rotation_close {n v : V3 ℝ} (hn : n.x ^ 2 + n.y ^ 2 + n.z ^ 2 = 1) {η κ τ t angle c s : ℝ} (hη : 0 ≤ η)
    (hv : |v.x| ≤ 1 ∧ |v.y| ≤ 1 ∧ |v.z| ≤ 1) (hvn : |v.x - n.x| ≤ η ∧ |v.y - n.y| ≤ η ∧ |v.z - n.z| ≤ η) (hc : |c| ≤ 1) (hs : |s| ≤ 1)
    (hcos : |c - Real.cos (angleF F angle)| ≤ κ) (hsin : |s - Real.sin (angleF F angle)| ≤ κ) (hA : |angleF F angle - t| ≤ τ) :
    frob (rotationF F v angle c s - axisMat n t) ≤ 3 * (36 * F.u + 5 * η + 3 * (κ + τ)) := by
  obtain ⟨nx, ny, nz⟩ := unit_le hn
  set κ' := κ + τ with hκ'
  have hκ0 : 0 ≤ κ := (abs_nonneg _).trans hcos
  have hτ0 : 0 ≤ τ := (abs_nonneg _).trans hA
  have hu := F.u_pos
  have lipc : |Real.cos (angleF F angle) - Real.cos t| ≤ |angleF F angle - t| := Real.abs_cos_sub_cos_le _ _
  have lips : |Real.sin (angleF F angle) - Real.sin t| ≤ |angleF F angle - t| := Real.abs_sin_sub_sin_le _ _
  have entry : ∀ {c s e q a b q' a' b' : ℝ}, |c| ≤ 1 → |s| ≤ 1 → |c - Real.cos t| ≤ κ' → |s - Real.sin t| ≤ κ' → 0 ≤ e ∧ e ≤ 1 →
      |q| ≤ 1 → |a| ≤ 1 → |b| ≤ 1 → |a'| ≤ 1 → |b'| ≤ 1 → |q - q'| ≤ η → |a - a'| ≤ η → |b - b'| ≤ η →
      |entryF F c s e q a b - (a' * b' + Real.cos t * (e - a' * b') + Real.sin t * q')| ≤ 36 * F.u + 5 * η + 3 * κ' := by
    intro c s e q a b q' a' b' hc hs hcc hss he hq ha hb ha' hb' hqq haa hbb
    have h1 := entry_err (F := F) hc hs he hq ha hb
    have h2 := entry_close hc (Real.abs_sin_le_one t) he hq hb ha' hb' hcc hss hqq haa hbb
    have t1 := abs_add_le (entryF F c s e q a b - (a * b + c * (e - a * b) + s * q))
      (a * b + c * (e - a * b) + s * q - (a' * b' + Real.cos t * (e - a' * b') + Real.sin t * q'))
    rw [sub_add_sub_cancel] at t1
    linarith
  have hb0 : 0 ≤ 36 * F.u + 5 * η + 3 * κ' := by
    have := abs_nonneg t
    have : 0 ≤ κ' := by rw [hκ']; positivity
    linarith
  unfold rotationF
  split_ifs with h0
  · rw [h0, zero_sub, abs_neg] at hA
    rw [h0] at lipc lips
    have k1 : |1 - Real.cos t| ≤ κ' := by
      rw [Real.cos_zero, zero_sub, abs_neg] at lipc
      linarith
    have k2 : |0 - Real.sin t| ≤ κ' := by
      rw [Real.sin_zero, zero_sub t, abs_neg] at lips
      linarith
    have z0 : |(0 : ℝ)| ≤ 1 := by norm_num
    have z1 : |(1 : ℝ)| ≤ 1 := by norm_num
    have zz : ∀ x : ℝ, |x - x| ≤ η := fun x => by rw [sub_self, abs_zero]; exact hη
    have en : ∀ {e q a b : ℝ}, 0 ≤ e ∧ e ≤ 1 → |q| ≤ 1 → |a| ≤ 1 → |b| ≤ 1 →
        |e - (a * b + Real.cos t * (e - a * b) + Real.sin t * q)| ≤ 36 * F.u + 5 * η + 3 * κ' := by
      intro e q a b he hq ha hb
      have := entry_close (e := e) z1 (Real.abs_sin_le_one t) he hq hb ha hb k1 k2 (zz q) (zz a) (zz b)
      have e1 : a * b + 1 * (e - a * b) + 0 * q = e := by ring
      rw [e1] at this
      linarith
    have i0 : (0 : ℝ) ≤ 0 ∧ (0 : ℝ) ≤ 1 := by norm_num
    have i1 : (0 : ℝ) ≤ 1 ∧ (1 : ℝ) ≤ 1 := by norm_num
    have ng : ∀ {x : ℝ}, |x| ≤ 1 → |-x| ≤ 1 := fun h => by rwa [abs_neg]
    exact frob_le_entries (en i1 z0 nx nx) (en i0 (ng nz) nx ny) (en i0 ny nx nz) (en i0 nz ny nx) (en i1 z0 ny ny) (en i0 (ng nx) ny nz)
      (en i0 (ng ny) nz nx) (en i0 nx nz ny) (en i1 z0 nz nz)
  · have k1 : |c - Real.cos t| ≤ κ' := by
      have := abs_add_le (c - Real.cos (angleF F angle)) (Real.cos (angleF F angle) - Real.cos t)
      rw [sub_add_sub_cancel] at this
      linarith
    have k2 : |s - Real.sin t| ≤ κ' := by
      have := abs_add_le (s - Real.sin (angleF F angle)) (Real.sin (angleF F angle) - Real.sin t)
      rw [sub_add_sub_cancel] at this
      linarith
    have z0 : |(0 : ℝ)| ≤ 1 := by norm_num
    have zz : |(0 : ℝ) - 0| ≤ η := by rw [sub_self, abs_zero]; exact hη
    have i0 : (0 : ℝ) ≤ 0 ∧ (0 : ℝ) ≤ 1 := by norm_num
    have i1 : (0 : ℝ) ≤ 1 ∧ (1 : ℝ) ≤ 1 := by norm_num
    have ng : ∀ {x : ℝ}, |x| ≤ 1 → |-x| ≤ 1 := fun h => by rwa [abs_neg]
    have ngd : ∀ {x y : ℝ}, |x - y| ≤ η → |-x - -y| ≤ η := fun h => by rwa [neg_sub_neg, abs_sub_comm]
    obtain ⟨vx, vy, vz⟩ := hv
    obtain ⟨dx, dy, dz⟩ := hvn
    exact frob_le_entries (entry hc hs k1 k2 i1 z0 vx vx nx nx zz dx dx) (entry hc hs k1 k2 i0 (ng vz) vx vy nx ny (ngd dz) dx dy)
      (entry hc hs k1 k2 i0 vy vx vz nx nz dy dx dz) (entry hc hs k1 k2 i0 vz vy vx ny nx dz dy dx)
      (entry hc hs k1 k2 i1 z0 vy vy ny ny zz dy dy) (entry hc hs k1 k2 i0 (ng vx) vy vz ny nz (ngd dx) dy dz)
      (entry hc hs k1 k2 i0 (ng vy) vz vx nz nx (ngd dy) dz dx) (entry hc hs k1 k2 i0 vx vz vy nz ny dx dz dy)
      (entry hc hs k1 k2 i1 z0 vz vz nz nz zz dz dz)

/-! ### Axes -/

theorem isFloat_one : F.IsFloat 1 := by
  refine ⟨1, 0, ?_, ?_, by norm_num⟩
  · rw [abs_one]; exact one_le_pow₀ (by norm_num)
  · have := F.he; omega

/-- C128: the coordinate axes are exact. -/
theorem C128_coordinate_axes : losF F ⟨1, 0, 0⟩ = ⟨1, 0, 0⟩ ∧ losF F ⟨0, 1, 0⟩ = ⟨0, 1, 0⟩ ∧ losF F ⟨0, 0, 1⟩ = ⟨0, 0, 1⟩ := by
  have h1 : F.rnd 1 = 1 := Fmt.rnd_exact isFloat_one
  refine ⟨?_, ?_, ?_⟩ <;> simp [losF, Fmt.rnd_zero, h1]

/-- C128: the unit vector of any axis is at most 6 rounding errors away from exact arithmetic, along each coordinate, without underflow. -/
theorem C128_axis {v : V3 ℝ} (h0 : v ≠ 0) (hx : Rounded.Regular F v.x) (hy : Rounded.Regular F v.y) (hz : Rounded.Regular F v.z) :
    (|(losF F v).x| ≤ 1 ∧ |(losF F v).y| ≤ 1 ∧ |(losF F v).z| ≤ 1) ∧
      |(losF F v).x - v.x / v.norm| ≤ 6 * F.u ∧ |(losF F v).y - v.y / v.norm| ≤ 6 * F.u ∧ |(losF F v).z - v.z / v.norm| ≤ 6 * F.u := by
  obtain ⟨gx, gy, gz, -⟩ := Rounded.C113_coordinates F v hx hy hz
  obtain ⟨lo, hi⟩ := Rounded.C113_accuracy F v hx hy hz
  have hu := F.u_pos
  have hu4 := F.u_le
  have hN := V3.norm_pos h0
  have eN : Real.sqrt (v.x ^ 2 + v.y ^ 2 + v.z ^ 2) = v.norm := rfl
  rw [eN] at lo hi
  set D := Model.Rounded.distanceF F v with hD
  have hD0 : 0 < D := lt_of_lt_of_le (mul_pos (pow_pos (by linarith) 3) hN) lo
  have hrel : |v.norm - D| ≤ 4 * F.u * v.norm := by
    have h3 : (1 + F.u) ^ 3 ≤ 1 + 4 * F.u := by nlinarith [mul_pos hu hu]
    have h4 : 1 - 4 * F.u ≤ (1 - F.u) ^ 3 := by nlinarith [mul_pos hu hu, mul_pos (mul_pos hu hu) hu]
    rw [abs_le]
    constructor <;> nlinarith
  have key : ∀ {a : ℝ}, |a| ≤ D → |F.rnd (a / D)| ≤ 1 ∧ |F.rnd (a / D) - a / v.norm| ≤ 6 * F.u := by
    intro a ha
    have h1 : |a / D| ≤ 1 := by rw [abs_div, abs_of_pos hD0]; exact div_le_one_of_le₀ ha hD0.le
    refine ⟨?_, ?_⟩
    · rw [abs_le] at h1 ⊢
      exact ⟨Fmt.le_rnd (Fmt.isFloat_neg isFloat_one) h1.1, Fmt.rnd_le isFloat_one h1.2⟩
    · have h2 := rnd_err_le (F := F) h1
      have h3 : |a / D - a / v.norm| ≤ 4 * F.u := by
        have e : a / D - a / v.norm = a / D * ((v.norm - D) / v.norm) := by field_simp
        rw [e, abs_mul, abs_div (v.norm - D), abs_of_pos hN]
        have : |v.norm - D| / v.norm ≤ 4 * F.u := by rw [div_le_iff₀ hN]; exact hrel
        have h0 : 0 ≤ |v.norm - D| / v.norm := by positivity
        nlinarith [abs_nonneg (a / D)]
      have t := abs_add_le (F.rnd (a / D) - a / D) (a / D - a / v.norm)
      rw [sub_add_sub_cancel] at t
      linarith
  exact ⟨⟨(key gx).1, (key gy).1, (key gz).1⟩, (key gx).2, (key gy).2, (key gz).2⟩

/-- Sum of three squares with rounding errors, close to one. -/
theorem sum_unit (hu' : F.u ≤ 1 / 1024) {x y z : ℝ} (hS : |x ^ 2 + y ^ 2 + z ^ 2 - 1| ≤ 37 * F.u) :
    |F.rnd (F.rnd (F.rnd (x ^ 2) + F.rnd (y ^ 2)) + F.rnd (z ^ 2)) - 1| ≤ 44 * F.u := by
  have hu := F.u_pos
  have ht2 := tiny_le (F := F)
  have sq1 : ∀ c : ℝ, 0 ≤ c → |F.rnd c - c| ≤ F.u * (c + 1 / 2) := fun c h => by
    have := rnd_err_tiny (F := F) c
    rw [abs_of_nonneg h] at this
    exact this.trans (mul_le_mul_of_nonneg_left (by linarith) hu.le)
  have hx' := abs_le.1 (sq1 _ (sq_nonneg x))
  have hy' := abs_le.1 (sq1 _ (sq_nonneg y))
  have hz' := abs_le.1 (sq1 _ (sq_nonneg z))
  have sx := sq_nonneg x
  have sy := sq_nonneg y
  have sz := sq_nonneg z
  have hS' := abs_le.1 hS
  generalize x ^ 2 = X at *
  generalize y ^ 2 = Y at *
  generalize z ^ 2 = Z at *
  clear hS
  have n1 := Fmt.rnd_nonneg (F := F) sx
  have n2 := Fmt.rnd_nonneg (F := F) sy
  have n3 := Fmt.rnd_nonneg (F := F) sz
  generalize F.rnd X = X' at *
  generalize F.rnd Y = Y' at *
  generalize F.rnd Z = Z' at *
  have hsum : X + Y + Z ≤ 11 / 10 := by linarith [hS'.2]
  have huS := mul_le_mul_of_nonneg_left hsum hu.le
  have tot : X' + Y' + Z' ≤ 11 / 10 + 1 / 100 := by linarith [hx'.2, hy'.2, hz'.2]
  have b2 := abs_le.1 (sq1 (X' + Y') (by linarith))
  have m1 := mul_le_mul_of_nonneg_left (by linarith : X' + Y' ≤ 111 / 100) hu.le
  have n4 := Fmt.rnd_nonneg (F := F) (by linarith : 0 ≤ X' + Y')
  generalize F.rnd (X' + Y') = XY at *
  have tot2 : XY + Z' ≤ 12 / 10 := by linarith [b2.2]
  have b4 := abs_le.1 (sq1 (XY + Z') (by linarith))
  have m2 := mul_le_mul_of_nonneg_left tot2 hu.le
  have lo3 : X + Y + Z - F.u * (X + Y + Z + 3 / 2) ≤ X' + Y' + Z' := by linarith [hx'.1, hy'.1, hz'.1]
  have hi3 : X' + Y' + Z' ≤ X + Y + Z + F.u * (X + Y + Z + 3 / 2) := by linarith [hx'.2, hy'.2, hz'.2]
  rw [abs_le]
  constructor
  · linarith [b4.1, b2.1, hS'.1]
  · linarith [b4.2, b2.2, hS'.2]

/-- Length of a vector with rounding errors, close to one. -/
theorem dist_unit (hu' : F.u ≤ 1 / 1024) {T : ℝ} (hT1 : |T - 1| ≤ 44 * F.u) : |F.rnd (Real.sqrt T) - 1| ≤ 46 * F.u := by
  have hu := F.u_pos
  have hT1' := abs_le.1 hT1
  have hT0 : 0 ≤ T := by linarith
  have h0 := Real.sqrt_nonneg T
  have hs : |Real.sqrt T - 1| ≤ 44 * F.u := by
    have e : Real.sqrt T - 1 = (T - 1) / (Real.sqrt T + 1) := by
      rw [eq_div_iff (by linarith)]
      have := Real.mul_self_sqrt hT0
      linear_combination this
    rw [e, abs_div, abs_of_pos (by linarith : 0 < Real.sqrt T + 1), div_le_iff₀ (by linarith)]
    nlinarith
  have hs' := abs_le.1 hs
  have b5 := abs_le.1 (rnd_err_le (F := F) (b := 11 / 10) (x := Real.sqrt T) (by rw [abs_le]; constructor <;> linarith))
  rw [abs_le]
  constructor <;> linarith [b5.1, b5.2]

/-- A vector close to a unit vector, divided by its length again. -/
theorem los_again (hu' : F.u ≤ 1 / 1024) {w n : V3 ℝ} (hn : n.norm = 1) (h1 : |w.x| ≤ 1 ∧ |w.y| ≤ 1 ∧ |w.z| ≤ 1)
    (hf : F.IsFloat w.x ∧ F.IsFloat w.y ∧ F.IsFloat w.z) (hx : |w.x - n.x| ≤ 6 * F.u) (hy : |w.y - n.y| ≤ 6 * F.u) (hz : |w.z - n.z| ≤ 6 * F.u) :
    (|(losF F w).x| ≤ 1 ∧ |(losF F w).y| ≤ 1 ∧ |(losF F w).z| ≤ 1) ∧
      |(losF F w).x - n.x| ≤ 60 * F.u ∧ |(losF F w).y - n.y| ≤ 60 * F.u ∧ |(losF F w).z - n.z| ≤ 60 * F.u := by
  have hu := F.u_pos
  have ht2 := tiny_le (F := F)
  obtain ⟨g1, g2, g3⟩ := Rounded.sum_ge (F := F) w
  have hN : |w.norm - 1| ≤ 18 * F.u := by
    have hd : (w - n).norm ≤ 3 * (6 * F.u) := norm_le_three (by simpa using hx) (by simpa using hy) (by simpa using hz)
    have a1 := norm_sub_le' w n
    have a2 := norm_sub_le' n w
    rw [norm_sub_comm] at a2
    rw [hn] at a1 a2
    rw [abs_le]
    constructor <;> linarith
  have hS : |w.x ^ 2 + w.y ^ 2 + w.z ^ 2 - 1| ≤ 37 * F.u := by
    rw [← V3.norm_sq]
    have e : w.norm ^ 2 - 1 = (w.norm - 1) * (w.norm - 1 + 2) := by ring
    have hN' := abs_le.1 hN
    rw [e, abs_mul]
    have : |w.norm - 1 + 2| ≤ 2 + 18 * F.u := by rw [abs_le]; constructor <;> linarith
    nlinarith [abs_nonneg (w.norm - 1), abs_nonneg (w.norm - 1 + 2)]
  have hD1 := dist_unit hu' (sum_unit hu' hS)
  set T := F.rnd (F.rnd (F.rnd (w.x ^ 2) + F.rnd (w.y ^ 2)) + F.rnd (w.z ^ 2)) with hT
  set D := F.rnd (Real.sqrt T) with hD
  have hD1' := abs_le.1 hD1
  have hD0 : 95 / 100 ≤ D := by linarith [hD1'.1]
  have el : losF F w = ⟨F.rnd (w.x / D), F.rnd (w.y / D), F.rnd (w.z / D)⟩ := rfl
  have le_D : ∀ {c : ℝ}, F.IsFloat c → F.rnd (c ^ 2) ≤ T → |c| ≤ D := by
    intro c h g
    by_cases hc : F.tiny ≤ c ^ 2 ∨ c = 0
    · exact Rounded.ge_coord ⟨h, hc⟩ g
    · push Not at hc
      have : |c| ≤ 95 / 100 := by
        have h2 : |c| ^ 2 ≤ 1 / 2 := by rw [sq_abs]; linarith [hc.1]
        nlinarith [abs_nonneg c]
      linarith
  have key : ∀ {c m : ℝ}, |c| ≤ 1 → |c| ≤ D → |c - m| ≤ 6 * F.u → |F.rnd (c / D)| ≤ 1 ∧ |F.rnd (c / D) - m| ≤ 60 * F.u := by
    intro c m hc hcD hcm
    have k1 : |c / D| ≤ 1 := by rw [abs_div, abs_of_pos (by linarith : 0 < D)]; exact div_le_one_of_le₀ hcD (by linarith)
    refine ⟨?_, ?_⟩
    · rw [abs_le] at k1 ⊢
      exact ⟨Fmt.le_rnd (Fmt.isFloat_neg isFloat_one) k1.1, Fmt.rnd_le isFloat_one k1.2⟩
    · have k2 := rnd_err_le (F := F) k1
      have k3 : |c / D - c| ≤ 46 * F.u := by
        have e : c / D - c = c / D * (1 - D) := by
          have : D ≠ 0 := by linarith
          field_simp
        rw [e, abs_mul, abs_sub_comm]
        calc |c / D| * |D - 1| ≤ 1 * (46 * F.u) := mul_le_mul k1 hD1 (abs_nonneg _) (by norm_num)
          _ = _ := one_mul _
      have t := abs_add_three (F.rnd (c / D) - c / D) (c / D - c) (c - m)
      have e : F.rnd (c / D) - c / D + (c / D - c) + (c - m) = F.rnd (c / D) - m := by ring
      rw [e] at t
      linarith
  rw [el]
  have kx := key h1.1 (le_D hf.1 g1) hx
  have ky := key h1.2.1 (le_D hf.2.1 g2) hy
  have kz := key h1.2.2 (le_D hf.2.2 g3) hz
  exact ⟨⟨kx.1, ky.1, kz.1⟩, kx.2, ky.2, kz.2⟩

/-- Unit vector of the array of an axis. -/
theorem axis_array {a : Axis} {n v : V3 ℝ} (ha : AxisMeans a n) (hv : AxisArray a v) :
    v ≠ 0 ∧ n.norm = 1 ∧ n = ⟨v.x / v.norm, v.y / v.norm, v.z / v.norm⟩ := by
  have hn := V3.norm_eq_one_of_sq (getLos_unit (axisMeans_getLos ha))
  have unit : ∀ {w : V3 ℝ}, w.norm = 1 → w ≠ 0 ∧ w.norm = 1 ∧ w = ⟨w.x / w.norm, w.y / w.norm, w.z / w.norm⟩ := by
    intro w hw
    refine ⟨?_, hw, by rw [hw]; ext <;> simp⟩
    rintro rfl
    rw [(V3.norm_eq_zero 0).2 rfl] at hw
    norm_num at hw
  have arr : (a = .str "x" → v = ⟨1, 0, 0⟩) ∧ (a = .str "y" → v = ⟨0, 1, 0⟩) ∧ (a = .str "z" → v = ⟨0, 0, 1⟩) ∧
      (a = .idx 0 → v = ⟨1, 0, 0⟩) ∧ (a = .idx 1 → v = ⟨0, 1, 0⟩) ∧ (a = .idx 2 → v = ⟨0, 0, 1⟩) ∧ ∀ w, a = .vec w → v = w := by
    cases hv <;> simp
  obtain ⟨a1, a2, a3, a4, a5, a6, a7⟩ := arr
  cases ha with
  | x => rw [a1 rfl]; exact unit hn
  | y => rw [a2 rfl]; exact unit hn
  | z => rw [a3 rfl]; exact unit hn
  | i0 => rw [a4 rfl]; exact unit hn
  | i1 => rw [a5 rfl]; exact unit hn
  | i2 => rw [a6 rfl]; exact unit hn
  | vec v' l hl n hd hvl =>
    rw [← a7 _ rfl] at hvl
    have e : v.norm = l := by
      refine (pow_left_inj₀ (V3.norm_nonneg _) hl.le two_ne_zero).1 ?_
      have h2 := V3.norm_sq n
      rw [hn] at h2
      rw [V3.norm_sq, hvl]
      simp only [V3.smul_x, V3.smul_y, V3.smul_z]
      linear_combination -l ^ 2 * h2
    refine ⟨?_, hn, ?_⟩
    · intro h0
      rw [h0, (V3.norm_eq_zero 0).2 rfl] at e
      linarith
    · rw [e, hvl]
      ext <;> simp [hl.ne']

/-- An angle in radians, converted to degrees. -/
theorem degrees_err (hu' : F.u ≤ 1 / 1024) (angle : ℝ) : |degreesF F angle * Real.pi / 180 - angle| ≤ 5 * F.u * (|angle| + 1) := by
  have hu := F.u_pos
  have ht2 := tiny_le (F := F)
  have ht := tiny_pos (F := F)
  have hpi := Real.pi_gt_three
  have hpi' := Real.pi_lt_four
  have hP : |F.rnd Real.pi - Real.pi| ≤ 6 / 5 * F.u * Real.pi := by
    have := rnd_err_tiny (F := F) Real.pi
    rw [abs_of_pos Real.pi_pos] at this
    refine this.trans ?_
    nlinarith
  have e0 : degreesF F angle = F.rnd (F.rnd (angle * 180) / F.rnd Real.pi) := rfl
  rw [e0]
  set P := F.rnd Real.pi
  have hP' := abs_le.1 hP
  have hP0 : 2 < P := by nlinarith
  have hPP : Real.pi ≤ 101 / 100 * P := by nlinarith
  have ha := abs_nonneg angle
  have h1 := rnd_err_tiny (F := F) (angle * 180)
  rw [abs_mul, abs_of_pos (by norm_num : (0 : ℝ) < 180)] at h1
  set y := F.rnd (angle * 180)
  have h1' : |y - angle * 180| ≤ 180 * (F.u * (|angle| + 1 / 180)) := by
    refine h1.trans ?_
    have : F.u * F.tiny ≤ F.u * 1 := mul_le_mul_of_nonneg_left (by linarith) hu.le
    linarith
  have hy : |y| ≤ 180 * (101 / 100 * |angle| + 1 / 1000) := by
    have := abs_add_le (y - angle * 180) (angle * 180)
    rw [sub_add_cancel, abs_mul angle, abs_of_pos (by norm_num : (0 : ℝ) < 180)] at this
    nlinarith
  have h2 : |y / P * Real.pi / 180 - y / 180| ≤ 122 / 100 * F.u * (101 / 100 * |angle| + 1 / 1000) := by
    have e : y / P * Real.pi / 180 - y / 180 = y / 180 * ((Real.pi - P) / P) := by field_simp
    rw [e, abs_mul, abs_div y, abs_div (Real.pi - P), abs_of_pos (by linarith : 0 < P), abs_of_pos (by norm_num : (0 : ℝ) < 180), abs_sub_comm]
    have k1 : |P - Real.pi| / P ≤ 122 / 100 * F.u := by
      rw [div_le_iff₀ (by linarith)]
      nlinarith
    have k2 : |y| / 180 ≤ 101 / 100 * |angle| + 1 / 1000 := by linarith
    have := mul_le_mul k2 k1 (by positivity) (by positivity)
    linarith
  have h3 := rnd_err_tiny (F := F) (y / P)
  have h4 : |F.rnd (y / P) * Real.pi / 180 - y / P * Real.pi / 180| ≤ F.u * (103 / 100 * |angle| + 1 / 50) := by
    have e : F.rnd (y / P) * Real.pi / 180 - y / P * Real.pi / 180 = (F.rnd (y / P) - y / P) * (Real.pi / 180) := by ring
    rw [e, abs_mul, abs_of_pos (by positivity : (0 : ℝ) < Real.pi / 180)]
    have k1 : |y / P| * (Real.pi / 180) ≤ 101 / 100 * (101 / 100 * |angle| + 1 / 1000) := by
      rw [abs_div, abs_of_pos (by linarith : 0 < P), div_mul_eq_mul_div, div_le_iff₀ (by linarith)]
      have := mul_le_mul hy hPP Real.pi_pos.le (by positivity)
      linarith
    have k2 : F.tiny * (Real.pi / 180) ≤ 1 / 2 * (4 / 180) := mul_le_mul ht2 (by linarith) (by positivity) (by norm_num)
    calc |F.rnd (y / P) - y / P| * (Real.pi / 180) ≤ F.u * (|y / P| + F.tiny) * (Real.pi / 180) :=
          mul_le_mul_of_nonneg_right h3 (by positivity)
      _ = F.u * (|y / P| * (Real.pi / 180) + F.tiny * (Real.pi / 180)) := by ring
      _ ≤ _ := mul_le_mul_of_nonneg_left (by linarith) hu.le
  have h5 : |y / 180 - angle| ≤ F.u * (|angle| + 1 / 180) := by
    have e : y / 180 - angle = (y - angle * 180) / 180 := by ring
    rw [e, abs_div, abs_of_pos (by norm_num : (0 : ℝ) < 180)]
    linarith
  have t := abs_add_three (F.rnd (y / P) * Real.pi / 180 - y / P * Real.pi / 180) (y / P * Real.pi / 180 - y / 180) (y / 180 - angle)
  have e : F.rnd (y / P) * Real.pi / 180 - y / P * Real.pi / 180 + (y / P * Real.pi / 180 - y / 180) + (y / 180 - angle) =
    F.rnd (y / P) * Real.pi / 180 - angle := by ring
  rw [e] at t
  nlinarith [mul_nonneg hu.le ha]

/-- C128: the matrix of a rotation by an angle about an axis, in degrees or radians, is near that of exact arithmetic, in the Frobenius norm:
336 rounding errors an entry with those of the axis, the errors of `np.cos` and `np.sin`, and those of the conversion of the angle to
radians. Formats of at least 10 bits, axes whose squared coordinates do not underflow. -/
theorem C128_rotation (hu' : F.u ≤ 1 / 1024) {a : Axis} {n v : V3 ℝ} (ha : AxisMeans a n) (hv : AxisArray a v) (hx : Rounded.Regular F v.x)
    (hy : Rounded.Regular F v.y) (hz : Rounded.Regular F v.z) {κ angle c s : ℝ} {degree : Bool} (hc : |c| ≤ 1) (hs : |s| ≤ 1)
    (hcos : |c - Real.cos (angleF F (if degree then angle else degreesF F angle))| ≤ κ)
    (hsin : |s - Real.sin (angleF F (if degree then angle else degreesF F angle))| ≤ κ) :
    ∃ q : M3 ℝ, (∀ p, q.mulVec p = rodrigues n (radians angle degree) p) ∧
      frob (rotationCallF F v angle degree c s - q) ≤ 3 * (336 * F.u + 3 * (κ + 11 * F.u * (|radians angle degree| + 1))) := by
  have hu := F.u_pos
  obtain ⟨h0, hn, en⟩ := axis_array ha hv
  obtain ⟨l1, lx, ly, lz⟩ := C128_axis (F := F) h0 hx hy hz
  have fl : F.IsFloat (losF F v).x ∧ F.IsFloat (losF F v).y ∧ F.IsFloat (losF F v).z :=
    ⟨Fmt.rnd_isFloat _, Fmt.rnd_isFloat _, Fmt.rnd_isFloat _⟩
  have ex : n.x = v.x / v.norm := by rw [en]
  have ey : n.y = v.y / v.norm := by rw [en]
  have ez : n.z = v.z / v.norm := by rw [en]
  rw [← ex] at lx
  rw [← ey] at ly
  rw [← ez] at lz
  obtain ⟨m1, mx, my, mz⟩ := los_again hu' hn l1 fl lx ly lz
  have hA : |angleF F (if degree then angle else degreesF F angle) - radians angle degree| ≤ 11 * F.u * (|radians angle degree| + 1) := by
    cases degree with
    | true =>
      simp only [if_true, radians]
      have := angle_err (F := F) angle
      refine this.trans (mul_le_mul_of_nonneg_right (by linarith) (by positivity))
    | false =>
      simp only [Bool.false_eq_true, if_false, radians]
      have e1 := degrees_err hu' angle
      have e2 := angle_err (F := F) (degreesF F angle)
      have e3 := abs_add_le (angleF F (degreesF F angle) - degreesF F angle * Real.pi / 180) (degreesF F angle * Real.pi / 180 - angle)
      rw [sub_add_sub_cancel] at e3
      have e4 := abs_add_le (degreesF F angle * Real.pi / 180 - angle) angle
      rw [sub_add_cancel] at e4
      have := abs_nonneg angle
      have e5 : |degreesF F angle * Real.pi / 180| + 1 ≤ 101 / 100 * (|angle| + 1) := by nlinarith
      have e6 := mul_le_mul_of_nonneg_left e5 (by positivity : 0 ≤ 5 * F.u)
      nlinarith
  refine ⟨axisMat n (radians angle degree), fun p => axisMat_mulVec _ p, ?_⟩
  refine (rotation_close (by rw [← V3.norm_sq, hn, one_pow]) (by positivity) m1 ⟨mx, my, mz⟩ hc hs hcos hsin hA).trans (le_of_eq ?_)
  ring

/-! ### Double precision -/

theorem u64 : binary64.u = 1 / 2 ^ 53 := rfl

theorem tiny64 : binary64.tiny ≤ 1 / 2 ^ 100 := by
  unfold Fmt.tiny binary64
  have h : (2 : ℝ) ^ (-1074 + ((53 : ℕ) : ℤ) - 1) ≤ 2 ^ (-100 : ℤ) := zpow_le_zpow_right₀ (by norm_num) (by norm_num)
  refine h.trans (le_of_eq ?_)
  rw [zpow_neg]
  norm_num

theorem rho64 : rho binary64 ≤ 1 / 10 ^ 14 := by
  have ht := tiny64
  have ht0 := tiny_pos (F := binary64)
  unfold rho prodErr sumErr
  rw [u64]
  have h1 : ((1 : ℝ) + 1 / 2 ^ 53) ^ (2 * 3) - 1 ≤ 7 / 2 ^ 53 := by norm_num
  have h0 : (0 : ℝ) ≤ (1 + 1 / 2 ^ 53) ^ (2 * 3) - 1 := by norm_num
  have h2 : 1 + 6 * binary64.tiny ≤ 1 + 6 * (1 / 2 ^ 100) := by linarith
  calc 9 * ((1 + 1 / 2 ^ 53 : ℝ) ^ (2 * 3) - 1) * (1 + 6 * binary64.tiny) ≤ 9 * (7 / 2 ^ 53) * (1 + 6 * (1 / 2 ^ 100)) := by
        apply mul_le_mul _ h2 (by linarith) (by norm_num)
        exact mul_le_mul_of_nonneg_left h1 (by norm_num)
    _ ≤ 1 / 10 ^ 14 := by norm_num

theorem pow_sub_one_le {x : ℝ} (hx : 0 ≤ x) (n : ℕ) (h : n * x ≤ 1 / 2) : (1 + x) ^ n - 1 ≤ 2 * n * x := by
  induction n with
  | zero => simp
  | succ n ih =>
    have hn : (n : ℝ) * x ≤ 1 / 2 := by push_cast at h; linarith
    have := ih hn
    rw [pow_succ]
    push_cast at h ⊢
    nlinarith [mul_nonneg (Nat.cast_nonneg (α := ℝ) n) hx]

/-- C128, in double precision: with matrices within 2 10⁻¹³ of rotations, up to a million calls move a position to within
5 10⁻¹³ (2 n + 1) of its distance and of the lengths of the translations. -/
theorem C128_double {ops : List OpF} {ops' : List Isom.Op} (ho : List.Forall₂ (Stands (2 / 10 ^ 13)) ops ops') {s : Isom}
    (h : RunF binary64 Isom.init ops s) {x y : V3 ℝ} (hy : TransformF binary64 s x false y) (hn : ops.length ≤ 10 ^ 6) :
    dist y ((Isom.init.run ops').transform x false) ≤
      5 / 10 ^ 13 * (2 * ops.length + 1) * (x.norm + shifts ops + 6 * (ops.length + 2) * binary64.tiny) := by
  refine (C128_history (by norm_num) ho h hy).trans ?_
  have ht := tiny_pos (F := binary64)
  have hρ := rho_nonneg (F := binary64)
  have hρ' := rho64
  have h0 : 0 ≤ x.norm + shifts ops + 6 * (ops.length + 2) * binary64.tiny := by
    have := V3.norm_nonneg x
    have : 0 ≤ shifts ops := List.sum_nonneg (by simp only [List.mem_map]; rintro _ ⟨p, -, rfl⟩; exact shiftOf_nonneg p)
    positivity
  refine mul_le_mul_of_nonneg_right ?_ h0
  have hg : (1 + 2 / 10 ^ 13 : ℝ) * (1 + rho binary64) ^ 2 ≤ 1 + 23 / 10 ^ 14 := by
    have : (1 + rho binary64) ^ 2 ≤ (1 + 1 / 10 ^ 14 : ℝ) ^ 2 := pow_le_pow_left₀ (by linarith) (by linarith) 2
    calc (1 + 2 / 10 ^ 13 : ℝ) * (1 + rho binary64) ^ 2 ≤ (1 + 2 / 10 ^ 13) * (1 + 1 / 10 ^ 14) ^ 2 :=
          mul_le_mul_of_nonneg_left this (by norm_num)
      _ ≤ 1 + 23 / 10 ^ 14 := by norm_num
  have hp := pow_le_pow_left₀ (by positivity) hg (2 * ops.length + 1)
  have hn' : (ops.length : ℝ) ≤ 10 ^ 6 := by exact_mod_cast hn
  have := pow_sub_one_le (x := 23 / 10 ^ 14) (by norm_num) (2 * ops.length + 1) (by push_cast; linarith)
  push_cast at this
  linarith

/-- C128, in double precision: rotations about any axis by angles within a turn, in degrees or radians, have matrices within 2 10⁻¹³ of those
of exact arithmetic, for cosines and sines within 2 10⁻¹⁶. -/
theorem C128_double_rotation {a : Axis} {n v : V3 ℝ} (ha : AxisMeans a n) (hv : AxisArray a v) (hx : Rounded.Regular binary64 v.x)
    (hy : Rounded.Regular binary64 v.y) (hz : Rounded.Regular binary64 v.z) {angle c s : ℝ} {degree : Bool}
    (hangle : |radians angle degree| ≤ 2 * Real.pi) (hc : |c| ≤ 1) (hs : |s| ≤ 1)
    (hcos : |c - Real.cos (angleF binary64 (if degree then angle else degreesF binary64 angle))| ≤ 2 / 10 ^ 16)
    (hsin : |s - Real.sin (angleF binary64 (if degree then angle else degreesF binary64 angle))| ≤ 2 / 10 ^ 16) {f : Isom.Frame} :
    Stands (2 / 10 ^ 13) (.dotOrigin (rotationCallF binary64 v angle degree c s)) (.rotation angle a degree f) := by
  obtain ⟨q, hq, hf⟩ := C128_rotation (F := binary64) (by rw [u64]; norm_num) ha hv hx hy hz hc hs hcos hsin
  refine .rotation ha hq (hf.trans ?_)
  have hpi := Real.pi_lt_d2
  have h1 : |radians angle degree| ≤ 6.3 := by linarith
  rw [u64]
  have : (11 * (1 / 2 ^ 53) : ℝ) * (|radians angle degree| + 1) ≤ 11 * (1 / 2 ^ 53) * (6.3 + 1) :=
    mul_le_mul_of_nonneg_left (by linarith) (by norm_num)
  calc 3 * (336 * (1 / 2 ^ 53) + 3 * (2 / 10 ^ 16 + 11 * (1 / 2 ^ 53) * (|radians angle degree| + 1)))
      ≤ 3 * (336 * (1 / 2 ^ 53) + 3 * (2 / 10 ^ 16 + 11 * (1 / 2 ^ 53) * (6.3 + 1))) := by linarith
    _ ≤ 2 / 10 ^ 13 := by norm_num

/-- Non-vacuity: a translation, a quarter of a turn about the axis (1, 2, 2), and a position. -/
example : ∃ s y c t, |c| ≤ 1 ∧ |t| ≤ 1 ∧ |c - Real.cos (angleF binary64 90)| ≤ 2 / 10 ^ 16 ∧ |t - Real.sin (angleF binary64 90)| ≤ 2 / 10 ^ 16 ∧
    RunF binary64 Isom.init [.translationOrigin ⟨1, 2, 3⟩, .dotOrigin (rotationCallF binary64 ⟨1, 2, 2⟩ 90 true c t)] s ∧
    TransformF binary64 s ⟨4, 5, 6⟩ false y ∧
    dist y ((Isom.init.run [.translation (.vec ⟨1, 2, 3⟩) .none .origin, .rotation 90 (.vec ⟨1, 2, 2⟩) true .origin]).transform ⟨4, 5, 6⟩ false) ≤
      1 / 10 ^ 10 := by
  have sumF : ∀ a b : V3 ℝ, ∃ r, DotF binary64 a b r := fun a b => ⟨_, _, .refl _, .mul (.mul (.mul .nil))⟩
  have vecF : ∀ (m : M3 ℝ) (v : V3 ℝ), ∃ w, MulVecF binary64 m v w := by
    intro m v
    obtain ⟨a, ha⟩ := sumF (row0 m) v
    obtain ⟨b, hb⟩ := sumF (row1 m) v
    obtain ⟨c, hc⟩ := sumF (row2 m) v
    exact ⟨⟨a, b, c⟩, ha, hb, hc⟩
  have matF : ∀ a b : M3 ℝ, ∃ c, MulF binary64 a b c := by
    intro a b
    obtain ⟨u, hu⟩ := vecF a (row0 b.tr)
    obtain ⟨v, hv⟩ := vecF a (row1 b.tr)
    obtain ⟨w, hw⟩ := vecF a (row2 b.tr)
    exact ⟨⟨u.x, v.x, w.x, u.y, v.y, w.y, u.z, v.z, w.z⟩, hu, hv, hw⟩
  set c := Real.cos (angleF binary64 90)
  set t := Real.sin (angleF binary64 90)
  set M := rotationCallF binary64 ⟨1, 2, 2⟩ 90 true c t with hM
  obtain ⟨r, hr⟩ := matF M Isom.init.rot
  obtain ⟨w, hw⟩ := vecF M (addF binary64 Isom.init.trans ⟨1, 2, 3⟩)
  obtain ⟨y, hy⟩ := vecF r ⟨4, 5, 6⟩
  have hrun : RunF binary64 Isom.init [.translationOrigin ⟨1, 2, 3⟩, .dotOrigin M] ⟨r, w⟩ :=
    .cons .translationOrigin (.cons (.dotOrigin hr hw) .nil)
  have htr : TransformF binary64 ⟨r, w⟩ ⟨4, 5, 6⟩ false (addF binary64 y w) := ⟨y, hy, rfl⟩
  have hc : |c| ≤ 1 := Real.abs_cos_le_one _
  have ht : |t| ≤ 1 := Real.abs_sin_le_one _
  have hcc : |c - c| ≤ 2 / 10 ^ 16 := by rw [sub_self, abs_zero]; norm_num
  have htt : |t - t| ≤ 2 / 10 ^ 16 := by rw [sub_self, abs_zero]; norm_num
  refine ⟨_, _, c, t, hc, ht, hcc, htt, hrun, htr, ?_⟩
  have htiny : binary64.tiny ≤ 1 := tiny_le.trans (by norm_num)
  have hreg : ∀ n : ℤ, 1 ≤ n → n ≤ 100 → Rounded.Regular binary64 n := by
    intro n h1 h2
    refine ⟨⟨n, 0, ?_, by norm_num [binary64], by norm_num⟩, .inl (htiny.trans ?_)⟩
    · have e : (2 : ℤ) ^ binary64.p = 9007199254740992 := by norm_num [binary64]
      rw [e, abs_of_pos (by omega)]
      omega
    · have : (1 : ℝ) ≤ n := by exact_mod_cast h1
      nlinarith
  have hrad : |radians 90 true| ≤ 2 * Real.pi := by
    have := Real.pi_pos
    simp only [radians, if_true]
    rw [abs_of_pos (by positivity)]
    linarith
  have hst := C128_double_rotation (f := .origin) (AxisMeans.vec ⟨1, 2, 2⟩ 3 (by norm_num) ⟨1 / 3, 2 / 3, 2 / 3⟩ (by norm_num [V3.dot])
    (by ext <;> simp <;> norm_num)) (.vec _) (by exact_mod_cast hreg 1 (by norm_num) (by norm_num)) (by exact_mod_cast hreg 2 (by norm_num) (by norm_num))
    (by exact_mod_cast hreg 2 (by norm_num) (by norm_num)) (angle := 90) (degree := true) hrad hc ht hcc htt
  refine (C128_double (.cons (.translationOrigin (.vec _)) (.cons hst .nil)) hrun htr (by norm_num)).trans ?_
  have h1 : (⟨4, 5, 6⟩ : V3 ℝ).norm ≤ 9 := norm_le_of_sq (by norm_num) (by norm_num)
  have h2 : (⟨1, 2, 3⟩ : V3 ℝ).norm ≤ 4 := norm_le_of_sq (by norm_num) (by norm_num)
  have h3 := tiny64
  have e : shifts [.translationOrigin ⟨1, 2, 3⟩, .dotOrigin M] = (⟨1, 2, 3⟩ : V3 ℝ).norm := by simp [shifts, shiftOf]
  rw [e]
  simp only [List.length_cons, List.length_nil]
  push_cast
  have h4 : (1 : ℝ) / 2 ^ 100 ≤ 1 / 100 := by norm_num
  linarith

end Verif.Props.RoundedIsometry
