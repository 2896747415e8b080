import Verif.Props.Hermitian
import Mathlib.Analysis.SpecialFunctions.Trigonometric.Bounds

/-!
# C68: compensation of the resampling window; C69: reading fields at positions; C70: norm and white noise
-/

namespace Verif.Props

open Verif Verif.Model Verif.Lemmas.Mesh

variable (M : Mesh)

/-! ### Window -/

/-- Phase of a mode over half a cell, along one axis: at most a quarter of a turn. -/
theorem half_phase (hL : ∀ d, 0 < M.boxsize d) (k : M.Idx) (d : Fin 3) :
    M.kvec k d * M.cell d / 2 = Real.pi * M.freq d (k d) / M.n d ∧ |M.kvec k d * M.cell d / 2| ≤ Real.pi / 2 := by
  have hn := n_pos' M d
  have hp := Real.pi_pos
  have e : M.kvec k d * M.cell d / 2 = Real.pi * M.freq d (k d) / M.n d := by
    unfold Mesh.kvec Mesh.cell
    have := (hL d).ne'
    field_simp
  refine ⟨e, ?_⟩
  rw [e, abs_div, abs_of_pos hn, abs_mul, abs_of_pos hp, div_le_iff₀ hn]
  have h : (2 : ℝ) * |(M.freq d (k d) : ℝ)| ≤ M.n d := by exact_mod_cast M.freq_le d (k d)
  nlinarith

theorem sincHalf_neg (x : ℝ) : Mesh.sincHalf (-x) = Mesh.sincHalf x := by
  unfold Mesh.sincHalf
  by_cases h : x = 0
  · simp [h]
  · rw [if_neg h, if_neg (neg_ne_zero.mpr h), neg_div, Real.sin_neg, neg_div_neg_eq]

theorem sincHalf_bounds {x : ℝ} (h : |x / 2| ≤ Real.pi / 2) : 2 / Real.pi ≤ Mesh.sincHalf x ∧ Mesh.sincHalf x ≤ 1 ∧
    (x ≠ 0 → Mesh.sincHalf x < 1) := by
  have hp := Real.pi_pos
  have h2 : 2 / Real.pi ≤ 1 := by
    rw [div_le_one hp]
    exact Real.two_le_pi
  have main : ∀ x : ℝ, 0 < x → x / 2 ≤ Real.pi / 2 → 2 / Real.pi ≤ Mesh.sincHalf x ∧ Mesh.sincHalf x < 1 := by
    intro x hx h
    have hx2 : 0 < x / 2 := by linarith
    unfold Mesh.sincHalf
    rw [if_neg hx.ne']
    refine ⟨?_, ?_⟩
    · rw [le_div_iff₀ hx2]
      exact Real.mul_le_sin hx2.le h
    · rw [div_lt_one hx2]
      exact Real.sin_lt hx2
  rcases lt_trichotomy x 0 with hx | hx | hx
  · have := main (-x) (by linarith) (by have := neg_abs_le (x / 2); linarith)
    rw [sincHalf_neg] at this
    exact ⟨this.1, this.2.le, fun _ => this.2⟩
  · subst hx
    refine ⟨?_, ?_, fun h => absurd rfl h⟩ <;> simp [Mesh.sincHalf, h2]
  · have := main x hx ((le_abs_self _).trans h)
    exact ⟨this.1, this.2.le, fun _ => this.2⟩

/-- The window of a resampler of order `p` is, for each mode, the product over axes of `sin(pi j / n) / (pi j / n)` to the power `p`,
with `j` the frequency of the mode and `n` the number of cells. -/
theorem C68_window (hL : ∀ d, 0 < M.boxsize d) (p : ℕ) (k : M.Idx) :
    M.window p k = ∏ d, (if k d = 0 then 1 else
      Real.sin (Real.pi * M.freq d (k d) / M.n d) / (Real.pi * M.freq d (k d) / M.n d)) ^ p := by
  unfold Mesh.window
  refine Finset.prod_congr rfl fun d _ => ?_
  congr 1
  have hc : M.cell d ≠ 0 := (div_pos (hL d) (n_pos' M d)).ne'
  unfold Mesh.sincHalf
  rw [(half_phase M hL k d).1]
  have : M.kvec k d * M.cell d = 0 ↔ k d = 0 := by
    rw [mul_eq_zero, kvec_zero_iff M hL]
    simp [hc]
  by_cases h : k d = 0
  · rw [if_pos h, if_pos (this.mpr h)]
  · rw [if_neg h, if_neg fun h' => h (this.mp h')]

/-- Dividing by the window is well defined: for all modes of the mesh it lies between `(2 / pi)^(3 p)` and 1. -/
theorem C68_bounds (hL : ∀ d, 0 < M.boxsize d) (p : ℕ) (k : M.Idx) :
    (2 / Real.pi) ^ (3 * p) ≤ M.window p k ∧ M.window p k ≤ 1 := by
  have hp := Real.pi_pos
  have h : ∀ d, 2 / Real.pi ≤ Mesh.sincHalf (M.kvec k d * M.cell d) ∧ Mesh.sincHalf (M.kvec k d * M.cell d) ≤ 1 := fun d =>
    let b := sincHalf_bounds (half_phase M hL k d).2
    ⟨b.1, b.2.1⟩
  have h0 : (0 : ℝ) ≤ 2 / Real.pi := by positivity
  unfold Mesh.window
  constructor
  · have e : (2 / Real.pi) ^ (3 * p) = ∏ _d : Fin 3, (2 / Real.pi) ^ p := by
      rw [Finset.prod_const, Finset.card_univ, Fintype.card_fin, ← pow_mul, mul_comm]
    rw [e]
    exact Finset.prod_le_prod (fun d _ => by positivity) fun d _ => pow_le_pow_left₀ h0 (h d).1 p
  · exact Finset.prod_le_one (fun d _ => pow_nonneg (h0.trans (h d).1) p) fun d _ => pow_le_one₀ (h0.trans (h d).1) (h d).2

theorem window_pos (hL : ∀ d, 0 < M.boxsize d) (p : ℕ) (k : M.Idx) : 0 < M.window p k :=
  lt_of_lt_of_le (by have := Real.pi_pos; positivity) (C68_bounds M hL p k).1

/-- The mean of the field is not changed; all other modes are, for resamplers of order 1 or more. -/
theorem C68_one_iff (hL : ∀ d, 0 < M.boxsize d) (p : ℕ) (hp : 1 ≤ p) (k : M.Idx) : M.window p k = 1 ↔ k = 0 := by
  have hpi := Real.pi_pos
  have h0 : (0 : ℝ) < 2 / Real.pi := by positivity
  constructor
  · intro h
    by_contra hk
    obtain ⟨a, ha⟩ : ∃ a, k a ≠ 0 := by
      by_contra hc
      push Not at hc
      exact hk (funext hc)
    have hb : ∀ d, 2 / Real.pi ≤ Mesh.sincHalf (M.kvec k d * M.cell d) ∧ Mesh.sincHalf (M.kvec k d * M.cell d) ≤ 1 := fun d =>
      let b := sincHalf_bounds (half_phase M hL k d).2
      ⟨b.1, b.2.1⟩
    have hlt : M.window p k < ∏ _d : Fin 3, (1 : ℝ) := by
      unfold Mesh.window
      refine Finset.prod_lt_prod (fun d _ => pow_pos (h0.trans_le (hb d).1) p)
        (fun d _ => pow_le_one₀ (h0.le.trans (hb d).1) (hb d).2) ⟨a, Finset.mem_univ _, ?_⟩
      refine pow_lt_one₀ (h0.le.trans (hb a).1) ?_ (by omega)
      refine (sincHalf_bounds (half_phase M hL k a).2).2.2 ?_
      have hc : M.cell a ≠ 0 := (div_pos (hL a) (n_pos' M a)).ne'
      exact mul_ne_zero (fun h => ha ((kvec_zero_iff M hL k a).mp h)) hc
    rw [h] at hlt
    simp at hlt
  · rintro rfl
    rw [C68_window M hL]
    simp

theorem window_neg (p : ℕ) (k : M.Idx) : M.window p (-k) = M.window p k := by
  unfold Mesh.window
  refine Finset.prod_congr rfl fun d _ => ?_
  rcases kvec_neg M k d with h | ⟨h, _⟩
  · rw [h, neg_mul, sincHalf_neg]
  · rw [h]

/-- Compensation divides each mode of the field by the window, and the result is real. -/
theorem C68_modes (p : ℕ) (f : M.Idx → ℝ) (k : M.Idx) :
    M.r2c (fun i => (M.compensate p f i : ℂ)) k = M.r2c (fun i => (f i : ℂ)) k / (M.window p k : ℂ) := by
  have hr : RealField M fun k => M.r2c (fun i => (f i : ℂ)) k / (M.window p k : ℂ) := by
    rw [C43_real_iff]
    intro k
    beta_reduce
    rw [hermitian_r2c, window_neg M]
    simp
  have e : (fun i => (M.compensate p f i : ℂ)) = M.c2r fun k => M.r2c (fun i => (f i : ℂ)) k / (M.window p k : ℂ) := by
    funext i
    exact Complex.ext (by simp [Mesh.compensate, Mesh.c2rReal]) (by simp [hr i])
  rw [e, r2c_c2r]

/-- Hence convolving the compensated field with the window gives back the field. -/
theorem C68_inverse (hL : ∀ d, 0 < M.boxsize d) (p : ℕ) (f : M.Idx → ℝ) (i : M.Idx) :
    M.c2r (fun k => M.r2c (fun i => (M.compensate p f i : ℂ)) k * (M.window p k : ℂ)) i = f i := by
  have e : (fun k => M.r2c (fun i => (M.compensate p f i : ℂ)) k * (M.window p k : ℂ)) = M.r2c fun i => (f i : ℂ) := by
    funext k
    rw [C68_modes M]
    have : (M.window p k : ℂ) ≠ 0 := by exact_mod_cast (window_pos M hL p k).ne'
    field_simp
  rw [e, c2r_r2c]

/-- The sum of the field over the mesh is preserved. -/
theorem C68_sum (hL : ∀ d, 0 < M.boxsize d) (p : ℕ) (f : M.Idx → ℝ) : ∑ i, M.compensate p f i = ∑ i, f i := by
  have hw : M.window p 0 = 1 := by
    rw [C68_window M hL]
    simp
  have h := C68_modes M p f 0
  rw [hw] at h
  unfold Mesh.r2c at h
  simp only [char_comm M _ 0, char_zero_left, mul_one, Complex.ofReal_one, div_one] at h
  rw [div_left_inj' (prod_ne M)] at h
  exact_mod_cast h

/-- Compensation is one to one: no mode is lost. -/
theorem C68_injective (hL : ∀ d, 0 < M.boxsize d) (p : ℕ) (f g : M.Idx → ℝ) (h : M.compensate p f = M.compensate p g) : f = g := by
  funext i
  have h1 := C68_inverse M hL p f i
  rw [h, C68_inverse M hL p g i] at h1
  exact_mod_cast h1.symm

/-! ### Reading fields -/

/-- Fields of a mock by name, as documented. -/
inductive FieldNamed (s : M.Fields) : String → (M.Idx → ℝ) → Prop
  | delta : FieldNamed s "delta" s.delta
  | nbarDelta (nbar : M.Idx → ℝ) (h : s.nbar = .inr nbar) : FieldNamed s "nbar*delta" (fun i => nbar i * s.delta i)
  | nbarDelta' (nbar : ℝ) (h : s.nbar = .inl nbar) : FieldNamed s "nbar*delta" (fun i => nbar * s.delta i)
  | nbarOne (nbar : M.Idx → ℝ) (h : s.nbar = .inr nbar) : FieldNamed s "nbar*(1+delta)" (fun i => nbar i * (1 + s.delta i))
  | nbarOne' (nbar : ℝ) (h : s.nbar = .inl nbar) : FieldNamed s "nbar*(1+delta)" (fun i => nbar * (1 + s.delta i))
  | nbar (nbar : M.Idx → ℝ) (h : s.nbar = .inr nbar) : FieldNamed s "nbar" nbar

variable (resample : String → (M.Idx → ℝ) → (Fin 3 → ℝ) → ℝ)

/-- Position with respect to the lower corner of the box. -/
noncomputable def fromCorner (position : Fin 3 → ℝ) (d : Fin 3) : ℝ := position d - (M.boxcenter d - M.boxsize d / 2)

theorem fieldNamed_mesh {s : M.Fields} {t : String} {f : M.Idx → ℝ} (h : FieldNamed M s t f) : M.fieldMesh s (.name t) = .ok f := by
  cases h with
  | delta => rfl
  | nbarDelta nbar h =>
    unfold Mesh.fieldMesh Mesh.Fields.nbarAt
    rw [h]
    rfl
  | nbarDelta' nbar h =>
    unfold Mesh.fieldMesh Mesh.Fields.nbarAt
    rw [h]
    rfl
  | nbarOne nbar h =>
    unfold Mesh.fieldMesh Mesh.Fields.nbarAt
    rw [h]
    simp [add_comm]
  | nbarOne' nbar h =>
    unfold Mesh.fieldMesh Mesh.Fields.nbarAt
    rw [h]
    simp [add_comm]
  | nbar nbar h =>
    unfold Mesh.fieldMesh
    rw [h]
    rfl

/-- Resamplers are designated in lower or upper case; 'ngp' is another name of 'nnb'. -/
def ResamplerMeans (s t : String) : Prop :=
  (Mesh.lower s = "nnb" ∧ t = "nnb") ∨ (Mesh.lower s = "ngp" ∧ t = "nnb") ∨ (Mesh.lower s = "cic" ∧ t = "cic") ∨
    (Mesh.lower s = "tsc" ∧ t = "tsc") ∨ (Mesh.lower s = "pcs" ∧ t = "pcs")

/-- Number of powers of the cardinal sine in the window of a resampler. -/
def orderOf' (t : String) : ℕ := if t = "nnb" then 1 else if t = "cic" then 2 else if t = "tsc" then 3 else 4

/-- `readout` interpolates the field of the given name, compensated if required, at the position with respect to the lower corner. -/
theorem C69_read {s : M.Fields} {t : String} {f : M.Idx → ℝ} (h : FieldNamed M s t f) {r r' : String} (hr : ResamplerMeans r r')
    (comp : Bool) (position : Fin 3 → ℝ) :
    M.readout resample s position (.name t) r comp =
      .ok (resample r' (if comp then M.compensate (orderOf' r') f else f) (fromCorner M position)) := by
  have hpos : (fun d => position d - M.boxcenter d + M.boxsize d / 2) = fromCorner M position := by
    funext d
    unfold fromCorner
    ring
  unfold Mesh.readout
  simp only [fieldNamed_mesh M h, hpos]
  cases comp <;> rcases hr with ⟨h1, h2⟩ | ⟨h1, h2⟩ | ⟨h1, h2⟩ | ⟨h1, h2⟩ | ⟨h1, h2⟩ <;> subst h2 <;>
    simp [h1, Mesh.resamplerOrder, orderOf', bind, Except.bind, Except.map]

example : ∃ (s : mesh4.Fields) (f : mesh4.Idx → ℝ), FieldNamed mesh4 s "nbar*(1+delta)" f ∧ ResamplerMeans "NGP" "nnb" :=
  ⟨⟨fun _ => 0.1, .inl 3, fun _ _ => 0⟩, _, .nbarOne' 3 rfl, Or.inr (Or.inl ⟨by decide, rfl⟩)⟩

/-- If the resampler 'nnb' gives the value of a node at the node, so does `readout` at the coordinates of the node. -/
theorem C69_nodes
    (hres : ∀ (f : M.Idx → ℝ) (i : M.Idx), resample "nnb" f (fun d => (i d).val * (M.boxsize d / M.n d)) = f i)
    {s : M.Fields} {t : String} {f : M.Idx → ℝ} (h : FieldNamed M s t f) (i : M.Idx) :
    M.readout resample s (nodeAt M i) (.name t) "nnb" false = .ok (f i) := by
  rw [C69_read M resample h (r' := "nnb") (Or.inl ⟨by decide, rfl⟩)]
  have e : fromCorner M (nodeAt M i) = fun d => (i d).val * (M.boxsize d / M.n d) := by
    funext d
    unfold fromCorner nodeAt
    ring
  rw [e, if_neg (by simp), hres]

/-- A mesh given as field is read as it is. -/
theorem C69_mesh (s : M.Fields) (f : M.Idx → ℝ) {r r' : String} (hr : ResamplerMeans r r') (comp : Bool) (position : Fin 3 → ℝ) :
    M.readout resample s position (.mesh f) r comp =
      .ok (resample r' (if comp then M.compensate (orderOf' r') f else f) (fromCorner M position)) := by
  have h : M.readout resample s position (.mesh f) r comp = M.readout resample ⟨f, s.nbar, s.disp⟩ position (.name "delta") r comp := rfl
  rw [h, C69_read M resample (FieldNamed.delta) hr]

/-- Other names raise, in particular '1+delta', which the documentation gives as the default. -/
theorem C69_unknown (s : M.Fields) (t r : String) (comp : Bool) (position : Fin 3 → ℝ)
    (h : t ≠ "delta" ∧ t ≠ "nbar*delta" ∧ t ≠ "nbar*(1+delta)" ∧ t ≠ "nbar") :
    M.readout resample s position (.name t) r comp = .error .valueError := by
  unfold Mesh.readout Mesh.fieldMesh
  simp [h.1, h.2.1, h.2.2.1, h.2.2.2, bind, Except.bind]

/-- With compensation, resamplers of unknown window raise. -/
theorem C69_resampler_error {s : M.Fields} {t : String} {f : M.Idx → ℝ} (h : FieldNamed M s t f) (r : String)
    (hr : ∀ r', ¬ ResamplerMeans r r') (position : Fin 3 → ℝ) :
    M.readout resample s position (.name t) r true = .error .keyError := by
  have h1 : Mesh.lower r ≠ "nnb" := fun h => hr "nnb" (Or.inl ⟨h, rfl⟩)
  have h2 : Mesh.lower r ≠ "ngp" := fun h => hr "nnb" (Or.inr (Or.inl ⟨h, rfl⟩))
  have h3 : Mesh.lower r ≠ "cic" := fun h => hr "cic" (Or.inr (Or.inr (Or.inl ⟨h, rfl⟩)))
  have h4 : Mesh.lower r ≠ "tsc" := fun h => hr "tsc" (Or.inr (Or.inr (Or.inr (Or.inl ⟨h, rfl⟩))))
  have h5 : Mesh.lower r ≠ "pcs" := fun h => hr "pcs" (Or.inr (Or.inr (Or.inr (Or.inr ⟨h, rfl⟩))))
  unfold Mesh.readout
  simp [fieldNamed_mesh M h, Mesh.resamplerOrder, h1, h2, h3, h4, h5, bind, Except.bind, Except.map]

/-- The field 'nbar' cannot be read when the selection function was set to a constant. -/
theorem C69_constant_violated (s : M.Fields) (x : ℝ) (h : s.nbar = .inl x) (r : String) (comp : Bool) (position : Fin 3 → ℝ) :
    M.readout resample s position (.name "nbar") r comp = .error .nameError := by
  unfold Mesh.readout Mesh.fieldMesh
  simp [h, bind, Except.bind]

/-! ### Lagrangian mocks -/

/-- Displacements are read by name. -/
theorem C69_disp (s : M.Fields) {r r' : String} (hr : ResamplerMeans r r') (position : Fin 3 → ℝ) :
    M.lagrangianReadout resample s position (.name "disp_x") r false = .ok (resample r' (s.disp 0) (fromCorner M position)) ∧
    M.lagrangianReadout resample s position (.name "disp_y") r false = .ok (resample r' (s.disp 1) (fromCorner M position)) ∧
    M.lagrangianReadout resample s position (.name "disp_z") r false = .ok (resample r' (s.disp 2) (fromCorner M position)) := by
  have key : ∀ (a : String) (z : ℤ) (d : Fin 3), xyzIndex a = .ok z → (if z = 0 then (0 : Fin 3) else if z = 1 then 1 else 2) = d →
      M.lagrangianReadout resample s position (.name ("disp_" ++ a)) r false = .ok (resample r' (s.disp d) (fromCorner M position)) := by
    intro a z d h1 h2
    have hd : M.dispField s (.name ("disp_" ++ a)) = .ok (.mesh (s.disp d)) := by
      unfold Mesh.dispField
      have e1 : "disp_".toList.isPrefixOf ("disp_" ++ a).toList = true := by simp
      have e2 : String.ofList (("disp_" ++ a).toList.drop "disp_".toList.length) = a := by simp
      simp only [e1, if_true, e2, h1, h2]
    unfold Mesh.lagrangianReadout
    rw [hd]
    exact (C69_mesh M resample s (s.disp d) hr false position).trans (by simp)
  exact ⟨key "x" 0 0 rfl rfl, key "y" 1 1 rfl rfl, key "z" 2 2 rfl rfl⟩

/-- Other names than those of displacements are read as for other mocks, but never compensated. -/
theorem C69_lagrangian_partial (s : M.Fields) (t r : String) (comp : Bool) (position : Fin 3 → ℝ)
    (h : ∀ a, t ≠ "disp_" ++ a) :
    M.lagrangianReadout resample s position (.name t) r comp = M.readout resample s position (.name t) r false := by
  have hd : M.dispField s (.name t) = .ok (.name t) := by
    unfold Mesh.dispField
    have : ¬ "disp_".toList.isPrefixOf t.toList = true := by
      intro hp
      rw [List.isPrefixOf_iff_prefix] at hp
      obtain ⟨l, hl⟩ := hp
      refine h (String.ofList l) (String.toList_injective ?_)
      rw [← hl]
      simp
    simp only [this]
    simp
  unfold Mesh.lagrangianReadout
  rw [hd]
  rfl

/-- `LagrangianLinearMock.readout` ignores `compensate`: there are fields, nodes and resamplers for which the parent class compensates
and it does not. -/
theorem C69_compensate_violated : ∃ (resample : String → (mesh4.Idx → ℝ) → (Fin 3 → ℝ) → ℝ) (s : mesh4.Fields) (p : Fin 3 → ℝ),
    mesh4.lagrangianReadout resample s p (.name "delta") "cic" true = mesh4.readout resample s p (.name "delta") "cic" false ∧
    mesh4.lagrangianReadout resample s p (.name "delta") "cic" true ≠ mesh4.readout resample s p (.name "delta") "cic" true := by
  have hL : ∀ d, 0 < mesh4.boxsize d := fun _ => by simp [mesh4]
  have hne : mesh4.compensate 2 (peak mesh4) ≠ peak mesh4 := by
    intro h
    have h1 := C68_modes mesh4 2 (peak mesh4) nyquistMode
    rw [h, r2c_peak] at h1
    have hn : (1 / ∏ d, (mesh4.n d : ℂ)) ≠ 0 := div_ne_zero one_ne_zero (prod_ne mesh4)
    have hw : (mesh4.window 2 nyquistMode : ℂ) ≠ 0 := by exact_mod_cast (window_pos mesh4 hL 2 nyquistMode).ne'
    rw [eq_div_iff hw] at h1
    have h2 : (mesh4.window 2 nyquistMode : ℂ) = 1 := mul_left_cancel₀ hn (h1.trans (mul_one _).symm)
    have h3 : mesh4.window 2 nyquistMode = 1 := by exact_mod_cast h2
    rw [C68_one_iff mesh4 hL 2 (by norm_num)] at h3
    exact absurd (congrFun h3 0) (by decide)
  obtain ⟨i, hi⟩ : ∃ i, mesh4.compensate 2 (peak mesh4) i ≠ peak mesh4 i := by
    by_contra hc
    push Not at hc
    exact hne (funext hc)
  have hr : ResamplerMeans "cic" "cic" := Or.inr (Or.inr (Or.inl ⟨by decide, rfl⟩))
  refine ⟨fun _ f _ => f i, ⟨peak mesh4, .inl 1, fun _ _ => 0⟩, 0, ?_⟩
  have h1 := C69_lagrangian_partial mesh4 (fun _ f _ => f i) ⟨peak mesh4, .inl 1, fun _ _ => 0⟩ "delta" "cic" true 0 (by
    intro a h
    have := congrArg String.toList h
    simp at this)
  refine ⟨h1, ?_⟩
  rw [h1, C69_read mesh4 _ FieldNamed.delta hr, C69_read mesh4 _ FieldNamed.delta hr]
  simp only [Bool.false_eq_true, if_false, if_true, ne_eq, Except.ok.injEq, orderOf']
  exact fun h => hi h.symm

/-! ### Norm and white noise -/

theorem dv_pos (hL : ∀ d, 0 < M.boxsize d) : 0 < M.dv := Finset.prod_pos fun d _ => div_pos (hL d) (n_pos' M d)

theorem card_dv : (∏ d, (M.n d : ℝ)) * M.dv = volume M := by
  unfold Mesh.dv volume
  rw [← Finset.prod_mul_distrib, Fin.prod_univ_three]
  unfold Mesh.cell
  have h0 := (n_pos' M 0).ne'
  have h1 := (n_pos' M 1).ne'
  have h2 := (n_pos' M 2).ne'
  field_simp

/-- The attribute 'norm' is the sum over the cells of the squared density times the volume of a cell, whether the density is given as
a constant or not; for a constant it is the squared density times the volume of the box. -/
theorem C70_norm (s : M.Fields) : M.norm s = ∑ i, s.nbarAt i ^ 2 * (volume M / ∏ d, (M.n d : ℝ)) ∧
    ∀ x, s.nbar = .inl x → M.norm s = x ^ 2 * volume M := by
  have hp : (∏ d, (M.n d : ℝ)) ≠ 0 := Finset.prod_ne_zero_iff.mpr fun d _ => (n_pos' M d).ne'
  have hd : volume M / ∏ d, (M.n d : ℝ) = M.dv := by
    rw [← card_dv]
    field_simp
  have hx : ∀ x, s.nbar = .inl x → M.norm s = x ^ 2 * volume M := by
    intro x h
    unfold Mesh.norm
    rw [h, ← card_dv]
    ring
  refine ⟨?_, hx⟩
  rw [hd, ← Finset.sum_mul]
  unfold Mesh.norm Mesh.Fields.nbarAt
  cases s.nbar with
  | inr f => rfl
  | inl x =>
    simp only [Finset.sum_const, Finset.card_univ, Fintype.card_pi, ZMod.card, nsmul_eq_mul]
    push_cast
    ring

/-- White noise is added with amplitude one over the square root of the mean number of objects in a cell. -/
theorem C70_noise (hL : ∀ d, 0 < M.boxsize d) (s : M.Fields) (noise : M.Idx → ℝ) (i : M.Idx) (h : 0 < s.nbarAt i) :
    ∃ y, M.whiteNoise s noise i = some y ∧
      y = s.delta i + noise i / Real.sqrt (s.nbarAt i * (volume M / ∏ d, (M.n d : ℝ))) := by
  have hp : (∏ d, (M.n d : ℝ)) ≠ 0 := Finset.prod_ne_zero_iff.mpr fun d _ => (n_pos' M d).ne'
  have hd : volume M / ∏ d, (M.n d : ℝ) = M.dv := by
    rw [← card_dv]
    field_simp
  refine ⟨_, if_neg (not_le.mpr (mul_pos h (dv_pos M hL))), ?_⟩
  rw [hd]

/-- Where the selection function vanishes, as outside of the survey, the density contrast is not a finite number after white noise is
added. -/
theorem C70_empty_violated (s : M.Fields) (noise : M.Idx → ℝ) (i : M.Idx) (h : s.nbarAt i = 0) : M.whiteNoise s noise i = none := by
  unfold Mesh.whiteNoise
  rw [h, zero_mul, if_pos le_rfl]

end Verif.Props
