import Verif.Props.MeshGeom
import Verif.Props.Sky

/-!
# C44: interlacing of analytic selection functions
-/

namespace Verif.Props

open Verif Verif.Model Verif.Lemmas.Mesh

variable (M : Mesh)

/-! ### Shifts -/

/-- Grids of the interlacing are shifted in real space by half a cell more each. -/
theorem C44_offset (j : ℕ) (d : Fin 3) : M.shiftedOffset j d = M.boxcenter d - M.boxsize d / 2 - j / 2 * (M.boxsize d / M.n d) := by
  induction j with
  | zero => simp [Mesh.shiftedOffset, Mesh.offset]
  | succ j ih =>
    rw [Mesh.shiftedOffset, ih]
    unfold Mesh.cell
    push_cast
    ring

/-- With interlacing of order 2, what one sets as `interlacing = 1` or `2`, the phase is that of the shift in real space. -/
theorem C44_agree_partial (interlacing : ℕ) (h : interlacing = 1 ∨ interlacing = 2) :
    Mesh.interlacingOrder interlacing = some 2 ∧ ∀ j ∈ Finset.Ico 1 2, Mesh.phaseShift 2 j = (j : ℝ) / 2 := by
  refine ⟨by rcases h with rfl | rfl <;> rfl, fun j _ => ?_⟩
  unfold Mesh.phaseShift
  push_cast
  ring

/-- With higher orders, the phases of all shifted grids differ from the shifts in real space. -/
theorem C44_agree_violated (interlacing : ℕ) (h : 3 ≤ interlacing) :
    Mesh.interlacingOrder interlacing = some interlacing ∧ ∀ j ∈ Finset.Ico 1 interlacing, Mesh.phaseShift interlacing j < (j : ℝ) / 2 := by
  refine ⟨by unfold Mesh.interlacingOrder; rw [if_neg (by omega), if_neg (by omega)], fun j hj => ?_⟩
  have hj : (0 : ℝ) < j := by
    have := (Finset.mem_Ico.mp hj).1
    exact_mod_cast this
  have hn : (3 : ℝ) ≤ interlacing := by exact_mod_cast h
  unfold Mesh.phaseShift
  rw [mul_one]
  exact div_lt_div_of_pos_left hj (by norm_num) (by linarith)

/-! ### Effect on waves -/

/-- Plane wave of integer frequencies `m`, periodic in the box. -/
noncomputable def wave (m : Fin 3 → ℤ) (r : Fin 3 → ℝ) : ℂ := Complex.exp ((∑ d, 2 * Real.pi * m d * r d / M.boxsize d : ℝ) * Complex.I)

/-- Mode of the mesh of a wave. -/
def modeOf (m : Fin 3 → ℤ) : M.Idx := fun d => (m d : ZMod (M.n d))

theorem char_modeOf (m : Fin 3 → ℤ) (i : M.Idx) :
    M.char i (modeOf M m) = Complex.exp ((∑ d, 2 * Real.pi * m d * ((i d).val : ℝ) / M.n d : ℝ) * Complex.I) := by
  unfold Mesh.char
  push_cast
  rw [Finset.sum_mul, Complex.exp_sum]
  refine Finset.prod_congr rfl fun d _ => ?_
  have : NeZero (M.n d) := ⟨(M.n_pos d).ne'⟩
  have e : i d * modeOf M m d = (((i d).val * m d : ℤ) : ZMod (M.n d)) := by
    unfold modeOf
    push_cast
    rw [ZMod.natCast_zmod_val]
  rw [e, ZMod.stdAddChar_coe]
  congr 1
  push_cast
  ring

/-- Values of a wave at the nodes of the mesh of given corner. -/
theorem wave_nodes (hL : ∀ d, 0 < M.boxsize d) (m : Fin 3 → ℤ) (off : Fin 3 → ℝ) (i : M.Idx) :
    wave M m (M.rgrid off i) = wave M m off * M.char i (modeOf M m) := by
  rw [char_modeOf]
  unfold wave
  rw [← Complex.exp_add, ← add_mul, ← Complex.ofReal_add, ← Finset.sum_add_distrib]
  congr 3
  refine Finset.sum_congr rfl fun d _ => ?_
  unfold Mesh.rgrid
  rw [transformRslab_eq M hL]
  unfold Mesh.cell
  have := (hL d).ne'
  have := (n_pos' M d).ne'
  field_simp
  ring

theorem list_sum_range (n : ℕ) (f : ℕ → ℂ) : ((List.range n).map f).sum = ∑ j ∈ Finset.range n, f j := by
  induction n with
  | zero => simp
  | succ n ih => rw [List.range_succ, List.map_append, List.sum_append, ih, Finset.sum_range_succ]; simp

theorem r2c_char (c : ℂ) (q k : M.Idx) : M.r2c (fun i => c * M.char i q) k = (open Classical in if k = q then c else 0) := by
  classical
  have e : (fun i => c * M.char i q) = M.c2r (fun k => if k = q then c else 0) := by
    funext i
    unfold Mesh.c2r
    rw [Finset.sum_eq_single q]
    · beta_reduce
      rw [if_pos rfl]
    · intro b _ hb
      beta_reduce
      rw [if_neg hb, zero_mul]
    · intro h
      exact absurd (Finset.mem_univ _) h
  rw [e, r2c_c2r]

/-- Sum over axes of the frequencies of a wave, in units of the number of cells. -/
noncomputable def turns (m : Fin 3 → ℤ) : ℝ := ∑ d, (m d : ℝ) / M.n d

/-- Frequencies of the mode that represents a wave on the mesh. -/
def foldedFreq (m : Fin 3 → ℤ) : Fin 3 → ℤ := fun d => M.freq d (m d : ZMod (M.n d))

/-- Weight of the grid number `j` in the interlacing of order `n`, for a wave: a number of modulus 1. -/
noncomputable def gridWeight (n j : ℕ) (m : Fin 3 → ℤ) : ℂ :=
  Complex.exp ((2 * Real.pi * ((j : ℝ) / n * turns M (foldedFreq M m) - (j : ℝ) / 2 * turns M m) : ℝ) * Complex.I)

theorem wave_shifted (hL : ∀ d, 0 < M.boxsize d) (m : Fin 3 → ℤ) (j : ℕ) :
    wave M m (M.shiftedOffset j) = wave M m M.offset * Complex.exp ((-(2 * Real.pi * ((j : ℝ) / 2 * turns M m)) : ℝ) * Complex.I) := by
  unfold wave turns
  rw [← Complex.exp_add, ← add_mul, ← Complex.ofReal_add]
  congr 3
  rw [Finset.mul_sum, Finset.mul_sum, ← Finset.sum_neg_distrib, ← Finset.sum_add_distrib]
  refine Finset.sum_congr rfl fun d _ => ?_
  rw [C44_offset]
  unfold Mesh.offset
  have := (hL d).ne'
  have := (n_pos' M d).ne'
  field_simp
  ring

theorem phase_modeOf (hL : ∀ d, 0 < M.boxsize d) (m : Fin 3 → ℤ) (n j : ℕ) :
    M.phase (Mesh.phaseShift n j) (modeOf M m) =
      Complex.exp ((2 * Real.pi * ((j : ℝ) / n * turns M (foldedFreq M m)) : ℝ) * Complex.I) := by
  unfold Mesh.phase Mesh.phaseShift turns foldedFreq
  have e : ∑ d, M.kvec (modeOf M m) d * M.cell d = 2 * Real.pi * ∑ d, (M.freq d (m d : ZMod (M.n d)) : ℝ) / M.n d := by
    rw [Finset.mul_sum]
    refine Finset.sum_congr rfl fun d _ => ?_
    unfold Mesh.kvec Mesh.cell modeOf
    have := (hL d).ne'
    have := (n_pos' M d).ne'
    field_simp
  rw [e]
  congr 1
  push_cast
  ring

/-- Interlacing of order `n` multiplies each wave by the mean of the weights of the grids. -/
theorem C44_wave (hL : ∀ d, 0 < M.boxsize d) (m : Fin 3 → ℤ) (n : ℕ) (hn : 1 ≤ n) (i : M.Idx) :
    M.selectionC (wave M m) (some n) i = (∑ j ∈ Finset.range n, gridWeight M n j m) / n * wave M m (nodeAt M i) := by
  classical
  have hnode : nodeAt M i = M.rgrid M.offset i := funext fun d => (C66_nodes M hL i d).symm
  unfold Mesh.selectionC
  simp only [wave_nodes M hL, r2c_char]
  have hw : ∀ j, wave M m (M.shiftedOffset j) * M.phase (Mesh.phaseShift n j) (modeOf M m) = wave M m M.offset * gridWeight M n j m := by
    intro j
    rw [wave_shifted M hL, phase_modeOf M hL, mul_assoc, ← Complex.exp_add, ← add_mul, ← Complex.ofReal_add]
    unfold gridWeight
    congr 4
    ring
  have hF : (fun k => (if k = modeOf M m then wave M m M.offset else 0) + ((List.range (n - 1)).map fun j =>
      (if k = modeOf M m then wave M m (M.shiftedOffset (j + 1)) else 0) * M.phase (Mesh.phaseShift n (j + 1)) k).sum) =
      fun k => if k = modeOf M m then (∑ j ∈ Finset.range n, gridWeight M n j m) * wave M m M.offset else 0 := by
    funext k
    by_cases hk : k = modeOf M m
    · subst hk
      simp only [if_pos]
      simp only [hw]
      obtain ⟨p, rfl⟩ : ∃ p, n = p + 1 := ⟨n - 1, by omega⟩
      rw [Finset.sum_range_succ', add_tsub_cancel_right]
      have h0 : gridWeight M (p + 1) 0 m = 1 := by simp [gridWeight]
      rw [h0, add_mul, one_mul, add_comm, Finset.sum_mul]
      congr 1
      rw [list_sum_range]
      exact Finset.sum_congr rfl fun j _ => mul_comm _ _
    · simp [hk]
  rw [show M.c2r _ i = _ from congrArg (fun F => M.c2r F i) hF]
  unfold Mesh.c2r
  rw [Finset.sum_eq_single (modeOf M m)]
  · beta_reduce
    rw [if_pos rfl, hnode, wave_nodes M hL]
    ring
  · intro b _ hb
    beta_reduce
    rw [if_neg hb, zero_mul]
  · intro h
    exact absurd (Finset.mem_univ _) h

/-! ### Order 2 -/

theorem freq_fold (m : Fin 3 → ℤ) (d : Fin 3) : ∃ q : ℤ, m d = foldedFreq M m d + M.n d * q := by
  have h := M.freq_cast d (m d : ZMod (M.n d))
  rw [ZMod.intCast_eq_intCast_iff_dvd_sub] at h
  obtain ⟨q, hq⟩ := h
  exact ⟨q, by unfold foldedFreq; linarith⟩

/-- Frequencies below the Nyquist frequency are kept. -/
theorem fold_band {m : Fin 3 → ℤ} (h : ∀ d, 2 * |m d| < M.n d) : foldedFreq M m = m := by
  funext d
  obtain ⟨q, hq⟩ := freq_fold M m d
  have h1 := h d
  have h2 : 2 * |foldedFreq M m d| ≤ M.n d := M.freq_le d _
  have h3 : |m d - foldedFreq M m d| < M.n d := by
    have := abs_sub (m d) (foldedFreq M m d)
    omega
  have h4 : m d - foldedFreq M m d = M.n d * q := by omega
  rw [h4, abs_mul] at h3
  have hn := M.n_pos d
  have hz : |q| < 1 := by
    rw [abs_of_nonneg (by omega : (0 : ℤ) ≤ M.n d)] at h3
    by_contra hc
    push Not at hc
    nlinarith
  have : q = 0 := Int.abs_lt_one_iff.mp hz
  rw [this] at hq
  omega

theorem gridWeight_zero (n : ℕ) (m : Fin 3 → ℤ) : gridWeight M n 0 m = 1 := by simp [gridWeight]

/-- With order 2, waves below the Nyquist frequency are left as they are; of the others, seen on the mesh as waves of lower frequencies,
those that are off by an odd number of mesh sizes vanish, those off by an even number are left. -/
theorem C44_alias_partial (hL : ∀ d, 0 < M.boxsize d) (m : Fin 3 → ℤ) (q : Fin 3 → ℤ) (hq : ∀ d, m d = foldedFreq M m d + M.n d * q d)
    (i : M.Idx) : M.selectionC (wave M m) (some 2) i = if Even (∑ d, q d) then wave M m (nodeAt M i) else 0 := by
  rw [C44_wave M hL m 2 (by norm_num), Finset.sum_range_succ, Finset.sum_range_one, gridWeight_zero]
  have e : gridWeight M 2 1 m = (-1) ^ (∑ d, q d) := by
    unfold gridWeight
    have ht : turns M (foldedFreq M m) - turns M m = -((∑ d, q d : ℤ) : ℝ) := by
      unfold turns
      push_cast
      rw [← Finset.sum_sub_distrib, ← Finset.sum_neg_distrib]
      refine Finset.sum_congr rfl fun d _ => ?_
      have hn := (n_pos' M d).ne'
      have : (m d : ℝ) = foldedFreq M m d + M.n d * q d := by exact_mod_cast hq d
      rw [this]
      field_simp
      ring
    have hx : (2 * Real.pi * (((1 : ℕ) : ℝ) / ((2 : ℕ) : ℝ) * turns M (foldedFreq M m) - ((1 : ℕ) : ℝ) / 2 * turns M m) : ℝ) =
        ((-(∑ d, q d) : ℤ) : ℝ) * Real.pi := by
      push_cast
      push_cast at ht
      linear_combination Real.pi * ht
    rw [hx]
    have h2 : (((-(∑ d, q d) : ℤ) : ℝ) * Real.pi : ℝ) * Complex.I = ((-(∑ d, q d) : ℤ) : ℂ) * (Real.pi * Complex.I) := by
      push_cast
      ring
    rw [h2, Complex.exp_int_mul, Complex.exp_pi_mul_I, zpow_neg, ← inv_zpow, inv_neg_one]
  rw [e]
  split
  · rename_i h
    rw [h.neg_one_zpow]
    push_cast
    ring
  · rename_i h
    rw [Int.not_even_iff_odd] at h
    rw [h.neg_one_zpow]
    push_cast
    ring

example : ∃ m q : Fin 3 → ℤ, (∀ d, m d = foldedFreq mesh3 m d + mesh3.n d * q d) ∧ ¬ Even (∑ d, q d) :=
  ⟨![2, 1, 1], ![1, 0, 0], by decide, by decide⟩

/-! ### Trigonometric polynomials -/

/-- Sum of waves. -/
noncomputable def waves (S : Finset (Fin 3 → ℤ)) (c : (Fin 3 → ℤ) → ℂ) (r : Fin 3 → ℝ) : ℂ := ∑ m ∈ S, c m * wave M m r

theorem r2c_lin (a : ℂ) (f g : M.Idx → ℂ) (k : M.Idx) : M.r2c (fun i => a * f i + g i) k = a * M.r2c f k + M.r2c g k := by
  unfold Mesh.r2c
  rw [← mul_div_assoc, ← add_div, Finset.mul_sum, ← Finset.sum_add_distrib]
  congr 1
  exact Finset.sum_congr rfl fun i _ => by ring

theorem selectionC_lin (a : ℂ) (f g : (Fin 3 → ℝ) → ℂ) (o : Option ℕ) (i : M.Idx) :
    M.selectionC (fun r => a * f r + g r) o i = a * M.selectionC f o i + M.selectionC g o i := by
  cases o with
  | none => rfl
  | some n =>
    unfold Mesh.selectionC
    simp only [r2c_lin, list_sum_range]
    rw [← mul_div_assoc, ← add_div, ← c2r_mul, ← c2r_add]
    congr 2
    funext k
    rw [mul_add, Finset.mul_sum, add_add_add_comm, ← Finset.sum_add_distrib]
    congr 1
    exact Finset.sum_congr rfl fun j _ => by ring

theorem selectionC_waves (S : Finset (Fin 3 → ℤ)) (c : (Fin 3 → ℤ) → ℂ) (o : Option ℕ) (i : M.Idx) :
    M.selectionC (waves M S c) o i = ∑ m ∈ S, c m * M.selectionC (wave M m) o i := by
  classical
  induction S using Finset.induction_on with
  | empty =>
    have h := selectionC_lin M 1 (fun _ => 0) (fun _ => 0) o i
    simp only [mul_zero, zero_add, one_mul, left_eq_add] at h
    have e : waves M ∅ c = fun _ => 0 := by funext r; simp [waves]
    rw [e, h, Finset.sum_empty]
  | insert m S hm ih =>
    have e : waves M (insert m S) c = fun r => c m * wave M m r + waves M S c r := by
      funext r
      unfold waves
      rw [Finset.sum_insert hm]
    rw [e, selectionC_lin, ih, Finset.sum_insert hm]

/-- Selection functions without structure below two cells are reproduced at the nodes by interlacing of order 2 (`interlacing = 1` or
`2`), as without interlacing. -/
theorem C44_band_partial (hL : ∀ d, 0 < M.boxsize d) (nbar : Sky → ℝ) (S : Finset (Fin 3 → ℤ)) (c : (Fin 3 → ℤ) → ℂ)
    (hS : ∀ m ∈ S, ∀ d, 2 * |m d| < M.n d) (hn : ∀ r : Fin 3 → ℝ, (nbar (cartesianToSky ⟨r 0, r 1, r 2⟩) : ℂ) = waves M S c r)
    (interlacing : ℕ) (hi : interlacing ≤ 2) (i : M.Idx) :
    M.selection nbar interlacing i = nbar (cartesianToSky ⟨nodeAt M i 0, nodeAt M i 1, nodeAt M i 2⟩) := by
  have hnode : nodeAt M i = M.rgrid M.offset i := funext fun d => (C66_nodes M hL i d).symm
  have key : M.selectionC (waves M S c) (some 2) i = waves M S c (nodeAt M i) := by
    rw [selectionC_waves]
    unfold waves
    refine Finset.sum_congr rfl fun m hm => ?_
    rw [C44_alias_partial M hL m 0 (by rw [fold_band M (hS m hm)]; simp), if_pos (by simp)]
  have hn' : (fun r : Fin 3 → ℝ => (nbar (cartesianToSky ⟨r 0, r 1, r 2⟩) : ℂ)) = waves M S c := funext hn
  unfold Mesh.selection
  rw [hn']
  have : interlacing = 0 ∨ interlacing = 1 ∨ interlacing = 2 := by omega
  rcases this with rfl | rfl | rfl
  · change (waves M S c (M.rgrid M.offset i)).re = _
    rw [← hnode, ← hn]
    simp
  · change (M.selectionC (waves M S c) (some 2) i).re = _
    rw [key, ← hn]
    simp
  · change (M.selectionC (waves M S c) (some 2) i).re = _
    rw [key, ← hn]
    simp

/-- A selection function that varies along x meets the hypotheses. -/
example : ∃ (nbar : Sky → ℝ) (S : Finset (Fin 3 → ℤ)) (c : (Fin 3 → ℤ) → ℂ), (∀ m ∈ S, ∀ d, 2 * |m d| < mesh4.n d) ∧
    (∀ r : Fin 3 → ℝ, (nbar (cartesianToSky ⟨r 0, r 1, r 2⟩) : ℂ) = waves mesh4 S c r) ∧
    nbar (cartesianToSky ⟨0, 0, 0⟩) = 4 ∧ nbar (cartesianToSky ⟨4, 0, 0⟩) = 0 := by
  let nbar : Sky → ℝ := fun s => 2 + 2 * Real.cos (2 * Real.pi * (match s.dec with
    | some dec => (skyToCartesian (.float s.dist) (.float s.ra) (.float dec) true).x
    | none => 0) / 8)
  have hv : ∀ p : V3 ℝ, nbar (cartesianToSky p) = 2 + 2 * Real.cos (2 * Real.pi * p.x / 8) := by
    intro p
    simp only [nbar]
    by_cases hp : p = 0
    · have hn : p.norm = 0 := (V3.norm_eq_zero _).2 hp
      have hd : (cartesianToSky p).dec = none := by simp [cartesianToSky, hn]
      rw [hd, hp]
      simp
    · obtain ⟨dec, h1, h2⟩ := C22_from_cartesian hp true
      rw [h1]
      simp only [h2]
  refine ⟨nbar, {![-1, 0, 0], ![0, 0, 0], ![1, 0, 0]}, fun m => if m = ![0, 0, 0] then 2 else 1, by decide, fun r => ?_, ?_, ?_⟩
  · rw [hv]
    unfold waves
    rw [Finset.sum_insert (by decide), Finset.sum_insert (by decide), Finset.sum_singleton]
    have e1 : (![-1, 0, 0] : Fin 3 → ℤ) ≠ ![0, 0, 0] := by decide
    have e2 : (![1, 0, 0] : Fin 3 → ℤ) ≠ ![0, 0, 0] := by decide
    beta_reduce
    rw [if_neg e1, if_neg e2, if_pos rfl]
    unfold wave
    simp only [Fin.sum_univ_three]
    simp [mesh4]
    rw [Complex.cos]
    ring_nf
  · rw [hv]
    simp
    norm_num
  · rw [hv]
    have : (2 * Real.pi * 4 / 8 : ℝ) = Real.pi := by ring
    simp only [this, Real.cos_pi]
    norm_num

/-- Without interlacing, the selection function is evaluated at the nodes. -/
theorem C44_none (hL : ∀ d, 0 < M.boxsize d) (nbar : Sky → ℝ) (i : M.Idx) :
    M.selection nbar 0 i = nbar (cartesianToSky ⟨nodeAt M i 0, nodeAt M i 1, nodeAt M i 2⟩) := by
  have hnode : nodeAt M i = M.rgrid M.offset i := funext fun d => (C66_nodes M hL i d).symm
  rw [hnode]
  unfold Mesh.selection
  exact Complex.ofReal_re _

/-! ### Higher orders -/

/-- With orders of 3 or more, the phases do not match the shifts: all waves below the Nyquist frequency are damaged at all nodes, but
those with frequencies of zero sum. -/
theorem C44_order_violated (hL : ∀ d, 0 < M.boxsize d) (n : ℕ) (hn : 3 ≤ n) (m : Fin 3 → ℤ) (hm : ∀ d, 2 * |m d| < M.n d)
    (ht : turns M m ≠ 0) (i : M.Idx) : M.selectionC (wave M m) (some n) i ≠ wave M m (nodeAt M i) := by
  rw [C44_wave M hL m n (by omega)]
  have hw : wave M m (nodeAt M i) ≠ 0 := Complex.exp_ne_zero _
  intro h
  have h1 : (∑ j ∈ Finset.range n, gridWeight M n j m) / n = 1 := by
    have := mul_right_cancel₀ hw (h.trans (one_mul _).symm)
    exact this
  have hn0 : (n : ℂ) ≠ 0 := by exact_mod_cast (by omega : n ≠ 0)
  rw [div_eq_one_iff_eq hn0] at h1
  have hre : ∑ j ∈ Finset.range n, (gridWeight M n j m).re = n := by
    rw [← Complex.re_sum, h1]
    simp
  have hle : ∀ j, (gridWeight M n j m).re ≤ 1 := by
    intro j
    unfold gridWeight
    rw [Complex.exp_ofReal_mul_I_re]
    exact Real.cos_le_one _
  have hone : ∀ j ∈ Finset.range n, (gridWeight M n j m).re = 1 := by
    have hs : ∑ j ∈ Finset.range n, (1 - (gridWeight M n j m).re) = 0 := by
      rw [Finset.sum_sub_distrib, hre]
      simp
    rw [Finset.sum_eq_zero_iff_of_nonneg (fun j _ => sub_nonneg.mpr (hle j))] at hs
    intro j hj
    linarith [hs j hj]
  have h2 := hone 1 (Finset.mem_range.mpr (by omega))
  unfold gridWeight at h2
  rw [Complex.exp_ofReal_mul_I_re, Real.cos_eq_one_iff, fold_band M hm] at h2
  obtain ⟨z, hz⟩ := h2
  have hp := Real.pi_pos
  have hz' : (z : ℝ) = (1 / n - 1 / 2) * turns M m := by
    have : (2 * Real.pi) * (z : ℝ) = (2 * Real.pi) * ((1 / n - 1 / 2) * turns M m) := by
      push_cast at hz
      linear_combination hz
    exact mul_left_cancel₀ (by positivity) this
  have hn3 : (3 : ℝ) ≤ n := by exact_mod_cast hn
  have hi1 : (1 : ℝ) / n ≤ 1 / 3 := one_div_le_one_div_of_le (by norm_num) hn3
  have hi2 : (0 : ℝ) < 1 / n := by positivity
  have hb : |turns M m| < 3 / 2 := by
    unfold turns
    have : ∀ d, |(m d : ℝ) / M.n d| < 1 / 2 := by
      intro d
      have hnd := n_pos' M d
      rw [abs_div, abs_of_pos hnd, div_lt_iff₀ hnd]
      have : (2 : ℝ) * |(m d : ℝ)| < M.n d := by exact_mod_cast hm d
      linarith
    rw [Fin.sum_univ_three]
    have h0 := this 0
    have h1 := this 1
    have h2 := this 2
    calc _ ≤ |(m 0 : ℝ) / M.n 0 + (m 1 : ℝ) / M.n 1| + |(m 2 : ℝ) / M.n 2| := abs_add_le _ _
      _ ≤ |(m 0 : ℝ) / M.n 0| + |(m 1 : ℝ) / M.n 1| + |(m 2 : ℝ) / M.n 2| := by gcongr; exact abs_add_le _ _
      _ < 3 / 2 := by linarith
  have hc : |(1 : ℝ) / n - 1 / 2| < 1 / 2 := by rw [abs_lt]; constructor <;> linarith
  have hlt : |(z : ℝ)| < 1 := by
    rw [hz', abs_mul]
    nlinarith [abs_nonneg ((1 : ℝ) / n - 1 / 2), abs_nonneg (turns M m)]
  have hz0 : z = 0 := Int.abs_lt_one_iff.mp (by exact_mod_cast hlt)
  rw [hz0] at hz'
  have : (1 / (n : ℝ) - 1 / 2) ≠ 0 := by
    intro h
    linarith
  exact (mul_ne_zero this ht) (by rw [← hz']; simp)

example : ∃ m : Fin 3 → ℤ, (∀ d, 2 * |m d| < mesh4.n d) ∧ turns mesh4 m ≠ 0 := by
  refine ⟨![1, 0, 0], by decide, ?_⟩
  unfold turns
  rw [Fin.sum_univ_three]
  simp [mesh4]

end Verif.Props
