import Verif.Model.RoundedMoves
import Verif.Props.RoundedRsd
import Verif.Props.Box

/-!
# C133: moves of a box with rounding errors
-/

namespace Verif.Props.RoundedMoves

open Verif Verif.Spec Verif.Model Verif.Model.RoundedIsometry Verif.Model.RoundedMoves Verif.Lemmas.RoundedIsometry Verif.Props.RoundedIsometry

variable {F : Fmt} {ρ : Type}

theorem sum_float {p : ℝ × ℝ} {l : List (ℝ × ℝ)} {r : ℝ} (h : SumF F (p :: l) r) : F.IsFloat r := by
  cases h <;> exact Fmt.rnd_isFloat _

theorem dot_float {a b : V3 ℝ} {r : ℝ} (h : DotF F a b r) : F.IsFloat r := by
  obtain ⟨l, hl, h⟩ := h
  cases l with
  | nil => exact absurd hl.length_eq (by simp)
  | cons p l => exact sum_float h

/-- Vectors that do not see the translation are moved as positions are without it. -/
theorem transform_invariant {s : Isom} {x y : V3 ℝ} (h : TransformF F s x true y) : TransformF F ⟨s.rot, 0⟩ x false y := by
  obtain ⟨w, hw, e⟩ := h
  have e : y = w := e
  subst e
  refine ⟨y, hw, ?_⟩
  obtain ⟨h1, h2, h3⟩ := hw
  simp only [Bool.false_eq_true, if_false, addF, V3.zero_x, V3.zero_y, V3.zero_z, add_zero]
  rw [Fmt.rnd_exact (dot_float h1), Fmt.rnd_exact (dot_float h2), Fmt.rnd_exact (dot_float h3)]

theorem growth_one {d : ℝ} (hd : d = 3 / 10 ^ 13) : growth binary64 d ^ 3 - 1 ≤ 1 / 10 ^ 12 ∧ growth binary64 d - 1 ≤ 1 / 10 ^ 12 := by
  have h := rho64
  have h0 := rho_nonneg (F := binary64)
  have hg : growth binary64 d ≤ 1 + 325 / 10 ^ 15 := by
    unfold growth
    rw [hd]
    have : (1 + rho binary64) ^ 2 ≤ (1 + 1 / 10 ^ 14 : ℝ) ^ 2 := pow_le_pow_left₀ (by linarith) (by linarith) 2
    calc (1 + 3 / 10 ^ 13 : ℝ) * (1 + rho binary64) ^ 2 ≤ (1 + 3 / 10 ^ 13) * (1 + 1 / 10 ^ 14) ^ 2 := mul_le_mul_of_nonneg_left this (by norm_num)
      _ ≤ _ := by norm_num
  have h1 : 1 ≤ growth binary64 d := one_le_growth (by rw [hd]; norm_num)
  refine ⟨?_, by linarith⟩
  have := pow_le_pow_left₀ (by linarith) hg 3
  have e : (1 + 325 / 10 ^ 15 : ℝ) ^ 3 - 1 ≤ 1 / 10 ^ 12 := by norm_num
  linarith

/-- One call on a new isometry. -/
theorem one_call {op : OpF} {op' : Isom.Op} (ho : Stands (3 / 10 ^ 13) op op') {s : Isom} (h : StepF binary64 Isom.init op s) {x y : V3 ℝ}
    (hy : TransformF binary64 s x false y) :
    dist y ((Isom.init.run [op']).transform x false) ≤ 1 / 10 ^ 12 * (x.norm + shiftOf op + 18 * binary64.tiny) := by
  have := C128_history (by norm_num) (.cons ho .nil) (.cons h .nil) hy
  have ht := tiny_pos (F := binary64)
  refine this.trans ?_
  have e : x.norm + shifts [op] + 6 * ((([op] : List OpF).length : ℝ) + 2) * binary64.tiny = x.norm + shiftOf op + 18 * binary64.tiny := by
    simp only [shifts, List.map_cons, List.map_nil, List.sum_cons, List.sum_nil, List.length_cons, List.length_nil, add_zero, zero_add,
      Nat.cast_one]
    ring
  rw [e]
  have := shiftOf_nonneg op
  have := V3.norm_nonneg x
  exact mul_le_mul_of_nonneg_right (growth_one rfl).1 (by positivity)

/-- No call at all. -/
theorem no_call {x y : V3 ℝ} (hy : TransformF binary64 Isom.init x false y) : dist y x ≤ 1 / 10 ^ 12 * (x.norm + 18 * binary64.tiny) := by
  have := C128_history (F := binary64) (d := 3 / 10 ^ 13) (by norm_num) .nil .nil hy
  have ht := tiny_pos (F := binary64)
  have hx := V3.norm_nonneg x
  have e : (Isom.init.run []).transform x false = x := by
    simp [Isom.run, Isom.init, Isom.transform, M3.one_mulVec]
  rw [e] at this
  refine this.trans ?_
  simp only [shifts, List.map_nil, List.sum_nil, List.length_nil, Nat.cast_zero, mul_zero, zero_add, pow_one, add_zero]
  have h1 := (growth_one rfl).2
  have h0 : (0 : ℝ) ≤ growth binary64 (3 / 10 ^ 13) - 1 := by linarith [one_le_growth (F := binary64) (d := 3 / 10 ^ 13) (by norm_num)]
  exact mul_le_mul h1 (by linarith) (by positivity) (by norm_num)

theorem call_translation {v : V3 ℝ} {op : Isom} (h : StepF binary64 Isom.init (.translationOrigin v) op) {x y : V3 ℝ} :
    (TransformF binary64 op x false y → dist y (x + v) ≤ 1 / 10 ^ 12 * (x.norm + v.norm + 18 * binary64.tiny)) ∧
    (TransformF binary64 op x true y → dist y x ≤ 1 / 10 ^ 12 * (x.norm + 18 * binary64.tiny)) := by
  constructor
  · intro hy
    have := one_call (Stands.translationOrigin (ShiftMeans.vec v)) h hy
    have e : (Isom.init.run [.translation (.vec v) .none .origin]).transform x false = x + v := by
      simp [Isom.run, Isom.step, Isom.translation, Isom.shiftVector, Isom.init, Isom.transform, M3.one_mulVec]
    rwa [e] at this
  · intro hy
    have hr : op.rot = 1 := by cases h; rfl
    have := transform_invariant hy
    rw [hr] at this
    exact no_call this

theorem call_rotation {m q : M3 ℝ} (hq : LinearRotation q.mulVec) (hm : frob (m - q) ≤ 3 / 10 ^ 13) {op : Isom}
    (h : StepF binary64 Isom.init (.dotOrigin m) op) {x y : V3 ℝ} {i : Bool} (hy : TransformF binary64 op x i y) :
    dist y (q.mulVec x) ≤ 1 / 10 ^ 12 * (x.norm + 18 * binary64.tiny) := by
  have h0 : op.trans = 0 := by
    cases h with
    | dotOrigin _ ht =>
      obtain ⟨h1, h2, h3⟩ := ht
      ext <;> simp only [V3.zero_x, V3.zero_y, V3.zero_z]
      · exact dot_zero h1 (by simp [Isom.init]) (by simp [Isom.init]) (by simp [Isom.init])
      · exact dot_zero h2 (by simp [Isom.init]) (by simp [Isom.init]) (by simp [Isom.init])
      · exact dot_zero h3 (by simp [Isom.init]) (by simp [Isom.init]) (by simp [Isom.init])
  have hy' : TransformF binary64 op x false y := by
    cases i with
    | false => exact hy
    | true =>
      have := transform_invariant hy
      rwa [← h0] at this
  have := one_call (Stands.dotOrigin hq hm) h hy'
  have e : (Isom.init.run [.dot q .origin]).transform x false = q.mulVec x := by
    simp [Isom.run, Isom.step, Isom.dot, Isom.init, Isom.transform, M3.mul_one', M3.mulVec_zero]
  rw [e] at this
  simpa [shiftOf] using this

/-- Angles of quarter turns. -/
theorem quarter_err {k : ℤ} (hk : |k| ≤ 4) : |quarterF binary64 k - k * Real.pi / 2| ≤ 23 * binary64.u := by
  have hu : binary64.u = 1 / 2 ^ 53 := u64
  have hup := binary64.u_pos
  have ht := tiny_pos (F := binary64)
  have ht' : binary64.tiny ≤ 1 / 100 := tiny64.trans (by norm_num)
  have hpi := Real.pi_gt_three
  have hpi' := Real.pi_lt_d2
  have hk' : |(k : ℝ)| ≤ 4 := by exact_mod_cast hk
  have hf : binary64.IsFloat (k : ℝ) :=
    ⟨k, 0, hk.trans (by norm_num [binary64]), by norm_num [binary64], by norm_num⟩
  unfold quarterF
  rw [Fmt.rnd_exact hf]
  have h1 := rnd_err_tiny (F := binary64) Real.pi
  rw [abs_of_pos Real.pi_pos] at h1
  set P := binary64.rnd Real.pi
  have h1' : |P - Real.pi| ≤ 4 * binary64.u := h1.trans (by nlinarith)
  have hkP : |k * P| ≤ 13 := by
    have a : |P| ≤ 3.25 := by
      have := abs_le.1 h1'
      rw [hu] at this
      rw [abs_le]
      constructor <;> linarith
    rw [abs_mul]
    calc |(k : ℝ)| * |P| ≤ 4 * 3.25 := mul_le_mul hk' a (abs_nonneg _) (by norm_num)
      _ = 13 := by norm_num
  have h2 := rnd_err_tiny (F := binary64) (k * P)
  set y := binary64.rnd (k * P)
  have h2' : |y - k * P| ≤ 14 * binary64.u := h2.trans (by nlinarith)
  have hy : |y / 2| ≤ 7 := by
    have := abs_add_le (y - k * P) (k * P)
    rw [sub_add_cancel] at this
    rw [abs_div, abs_of_pos (two_pos : (0 : ℝ) < 2)]
    rw [hu] at h2'
    linarith
  have h3 := rnd_err_tiny (F := binary64) (y / 2)
  have h3' : |binary64.rnd (y / 2) - y / 2| ≤ 8 * binary64.u := h3.trans (by nlinarith)
  have h4 : |k * P - k * Real.pi| ≤ 16 * binary64.u := by
    rw [← mul_sub, abs_mul]
    calc |(k : ℝ)| * |P - Real.pi| ≤ 4 * (4 * binary64.u) := mul_le_mul hk' h1' (abs_nonneg _) (by norm_num)
      _ = _ := by ring
  have a2 := abs_le.1 h2'
  have a3 := abs_le.1 h3'
  have a4 := abs_le.1 h4
  rw [abs_le]
  constructor <;> linarith

/-- Axes by name or by index. -/
theorem doc_axis {a : Axis} {v : V3 ℝ} (hv : AxisArray a v) (hd : (∃ s, a = .str s) ∨ ∃ i, a = .idx i) : AxisMeans a v ∧ Coord v := by
  cases hv with
  | x => exact ⟨.x, .inl rfl⟩
  | y => exact ⟨.y, .inr (.inl rfl)⟩
  | z => exact ⟨.z, .inr (.inr rfl)⟩
  | i0 => exact ⟨.i0, .inl rfl⟩
  | i1 => exact ⟨.i1, .inr (.inl rfl)⟩
  | i2 => exact ⟨.i2, .inr (.inr rfl)⟩
  | vec => rcases hd with ⟨_, h⟩ | ⟨_, h⟩ <;> cases h

/-- The matrix of quarter turns is near that of exact arithmetic. -/
theorem quarter_turn {cs sn : ℝ → ℝ} (hcs : ∀ t, |cs t| ≤ 1 ∧ |cs t - Real.cos t| ≤ 2 / 10 ^ 16)
    (hsn : ∀ t, |sn t| ≤ 1 ∧ |sn t - Real.sin t| ≤ 2 / 10 ^ 16) {k : ℤ} (hk : |k| ≤ 4) {n : V3 ℝ} (hn : Coord n) :
    frob (rotationCallF binary64 n (quarterF binary64 k) false (cs (angleF binary64 (degreesF binary64 (quarterF binary64 k))))
      (sn (angleF binary64 (degreesF binary64 (quarterF binary64 k)))) - axisMat n (k * Real.pi / 2)) ≤ 3 / 10 ^ 13 := by
  have hn1 : n.norm = 1 := V3.norm_eq_one_of_sq (by rcases hn with rfl | rfl | rfl <;> norm_num)
  have hup := binary64.u_pos
  have hu' : binary64.u ≤ 1 / 1024 := by rw [u64]; norm_num
  have hnn : losF binary64 n = n := by
    obtain ⟨c1, c2, c3⟩ := C128_coordinate_axes (F := binary64)
    rcases hn with rfl | rfl | rfl <;> assumption
  have hq := quarter_err hk
  set θ := quarterF binary64 k
  have hpi' := Real.pi_lt_d2
  have hk' : |(k : ℝ)| ≤ 4 := by exact_mod_cast hk
  have hθ0 : |k * Real.pi / 2| ≤ 6.3 := by
    rw [abs_div, abs_mul, abs_of_pos Real.pi_pos, abs_of_pos (two_pos : (0 : ℝ) < 2)]
    have := mul_le_mul hk' hpi'.le Real.pi_pos.le (by norm_num)
    linarith
  have hθ : |θ| ≤ 6.4 := by
    have := abs_add_le (θ - k * Real.pi / 2) (k * Real.pi / 2)
    rw [sub_add_cancel] at this
    rw [u64] at hq
    linarith
  have e1 := degrees_err hu' θ
  have e2 := angle_err (F := binary64) (degreesF binary64 θ)
  have e4 := abs_add_le (degreesF binary64 θ * Real.pi / 180 - θ) θ
  rw [sub_add_cancel] at e4
  have hA : |angleF binary64 (degreesF binary64 θ) - k * Real.pi / 2| ≤ 120 * binary64.u := by
    have t := abs_add_three (angleF binary64 (degreesF binary64 θ) - degreesF binary64 θ * Real.pi / 180)
      (degreesF binary64 θ * Real.pi / 180 - θ) (θ - k * Real.pi / 2)
    rw [sub_add_sub_cancel, sub_add_sub_cancel] at t
    have b1 : 5 * binary64.u * (|θ| + 1) ≤ 5 * binary64.u * 7.4 := mul_le_mul_of_nonneg_left (by linarith) (by positivity)
    have b2 : |degreesF binary64 θ * Real.pi / 180| ≤ 6.5 := by
      rw [u64] at b1 e1
      linarith
    have b3 : 5 * binary64.u * (|degreesF binary64 θ * Real.pi / 180| + 1) ≤ 5 * binary64.u * 7.5 :=
      mul_le_mul_of_nonneg_left (by linarith) (by positivity)
    linarith
  have key := rotation_close (F := binary64) (η := 0) (by rw [← V3.norm_sq, hn1, one_pow]) le_rfl
    (v := losF binary64 (losF binary64 n)) (n := n) (by rw [hnn, hnn]; rcases hn with rfl | rfl | rfl <;> simp)
    (by rw [hnn, hnn]; simp) (hcs _).1 (hsn _).1 (hcs _).2 (hsn _).2 hA
  refine key.trans ?_
  rw [u64]
  norm_num

/-! ### Translations are one rounding a coordinate -/

/-- Three floats. -/
def FloatV (F : Fmt) (v : V3 ℝ) : Prop := F.IsFloat v.x ∧ F.IsFloat v.y ∧ F.IsFloat v.z

/-- All vectors of a row are floats. -/
def FloatRow (F : Fmt) (r : Row ρ) : Prop :=
  FloatV F r.pos ∧ FloatV F r.vel ∧ (∀ v ∈ r.vecs, FloatV F v) ∧ ∀ v ∈ r.tis, FloatV F v

/-- Sum of two vectors, one rounding a coordinate. -/
noncomputable def plus (F : Fmt) (p v : V3 ℝ) : V3 ℝ := ⟨F.rnd (p.x + v.x), F.rnd (p.y + v.y), F.rnd (p.z + v.z)⟩

theorem one_exact {x w : V3 ℝ} (hx : FloatV F x) (h : MulVecF F 1 x w) : w = x := by
  obtain ⟨h1, h2, h3⟩ := h
  obtain ⟨x1, x2, x3⟩ := hx
  ext
  · exact RoundedRsd.dot_single x1 h1 (.inl ⟨by simp [row0], by simp [row0], by simp [row0]⟩)
  · exact RoundedRsd.dot_single x2 h2 (.inr (.inl ⟨by simp [row1], by simp [row1], by simp [row1]⟩))
  · exact RoundedRsd.dot_single x3 h3 (.inr (.inr ⟨by simp [row2], by simp [row2], by simp [row2]⟩))

theorem translation_exact {v x y : V3 ℝ} {op : Isom} (hv : FloatV F v) (hx : FloatV F x) (h : StepF F Isom.init (.translationOrigin v) op) :
    (TransformF F op x false y → y = plus F x v) ∧ (TransformF F op x true y → y = x) := by
  cases h
  have e : addF F Isom.init.trans v = v := by
    obtain ⟨v1, v2, v3⟩ := hv
    simp only [addF, Isom.init, V3.zero_x, V3.zero_y, V3.zero_z, zero_add]
    rw [Fmt.rnd_exact v1, Fmt.rnd_exact v2, Fmt.rnd_exact v3]
  constructor
  · rintro ⟨w, hw, rfl⟩
    obtain rfl := one_exact hx hw
    simp only [e]
    rfl
  · rintro ⟨w, hw, h⟩
    obtain rfl := one_exact hx hw
    exact h

theorem forall_map {α β : Type} {P : α → β → Prop} {f : α → β} {l : List α} {l' : List β} (h : List.Forall₂ P l l')
    (hf : ∀ a ∈ l, ∀ b, P a b → b = f a) : l' = l.map f := by
  induction h with
  | nil => rfl
  | @cons a b l l' h _ ih =>
    rw [List.map_cons, hf a List.mem_cons_self b h, ih fun a ha => hf a (List.mem_cons_of_mem _ ha)]

/-- C133: `translate` adds the shift to the centre of the box and to position-like columns with one rounding a coordinate; velocities and
other translation-invariant columns, and the size of the box, are unchanged bit for bit. -/
theorem C133_translate {cs sn : ℝ → ℝ} {b b' : Box ρ} {s : Isom.Shift} {a : Isom.TAxis} {v : V3 ℝ} (hs : ShiftMeans s a v) (hv : FloatV F v)
    (hc : FloatV F b.boxcenter) (hr : ∀ r ∈ b.rows, FloatRow F r) (h : MoveF F cs sn b (.translate s a) b') :
    b' = ⟨b.boxsize, plus F b.boxcenter v, b.rows.map (rowMap (fun p => plus F p v) fun p => p)⟩ := by
  cases h with
  | @translate _ _ v' c' op rows' he hop hc' hrows =>
    have : v' = v := by
      rw [shiftMeans_vector hs] at he
      exact (Except.ok.inj he).symm
    subst this
    rw [(translation_exact hv hc hop).1 hc']
    congr 1
    refine forall_map hrows ?_
    intro r hmem r' hrr
    obtain ⟨f1, f2, f3, f4⟩ := hr r hmem
    have e1 := (translation_exact hv f1 hop).1 hrr.pos
    have e2 := (translation_exact hv f2 hop).2 hrr.vel
    have e3 : r'.vecs = r.vecs.map fun p => plus F p v' := forall_map hrr.vecs fun p hp q hq => (translation_exact hv (f3 p hp) hop).1 hq
    have e4 : r'.tis = r.tis.map fun p => p := forall_map hrr.tis fun p hp q hq => (translation_exact hv (f4 p hp) hop).2 hq
    ext1
    · exact e1
    · exact e2
    · exact e3
    · exact e4
    · exact hrr.rest

/-- C133: `recenter` puts the centre of the box at the origin, exactly; particles in the box stay in the box, exactly, when half of the size of
the box is a float. -/
theorem C133_recenter {cs sn : ℝ → ℝ} {b b' : Box ρ} (hc : FloatV F b.boxcenter) (hr : ∀ r ∈ b.rows, FloatRow F r)
    (h : MoveF F cs sn b .recenter b') :
    b'.boxsize = b.boxsize ∧ b'.boxcenter = 0 ∧ b'.rows = b.rows.map (rowMap (fun p => plus F p (-b.boxcenter)) fun p => p) ∧
    (F.IsFloat (b.boxsize.x / 2) ∧ F.IsFloat (b.boxsize.y / 2) ∧ F.IsFloat (b.boxsize.z / 2) →
      (∀ r ∈ b.rows, Inside b.boxsize b.boxcenter r.pos) → ∀ r ∈ b'.rows, Inside b'.boxsize b'.boxcenter r.pos) := by
  cases h with
  | recenter h =>
    have hn : FloatV F (-b.boxcenter) := ⟨Fmt.isFloat_neg hc.1, Fmt.isFloat_neg hc.2.1, Fmt.isFloat_neg hc.2.2⟩
    have e := C133_translate (ShiftMeans.vec _) hn hc hr h
    have e0 : plus F b.boxcenter (-b.boxcenter) = 0 := by
      ext <;> simp [plus, Fmt.rnd_zero]
    rw [e0] at e
    subst e
    refine ⟨rfl, rfl, rfl, ?_⟩
    rintro ⟨l1, l2, l3⟩ hin r' hr'
    simp only [List.mem_map] at hr'
    obtain ⟨r, hr1, rfl⟩ := hr'
    obtain ⟨i1, i2, i3⟩ := hin r hr1
    have key : ∀ {x c l : ℝ}, F.IsFloat l → |x - c| ≤ l → |F.rnd (x + -c) - 0| ≤ l := by
      intro x c l hl hx
      rw [abs_le] at hx
      rw [sub_zero, ← sub_eq_add_neg, abs_le]
      exact ⟨Fmt.le_rnd (Fmt.isFloat_neg hl) hx.1, Fmt.rnd_le hl hx.2⟩
    exact ⟨key l1 i1, key l2 i2, key l3 i3⟩

/-! ### Histories of moves, in double precision -/

/-- Positions, centre and size up to `M`, velocities up to `V`. -/
structure Bounded (M V : ℝ) (b : Box ρ) : Prop where
  center : b.boxcenter.norm ≤ M
  size : b.boxsize.norm ≤ M
  pos : ∀ r ∈ b.rows, ∀ v ∈ r.pos :: r.vecs, v.norm ≤ M
  vel : ∀ r ∈ b.rows, ∀ v ∈ r.vel :: r.tis, v.norm ≤ V

/-- Calls as documented: translations up to `M`, at most four quarter turns, about an axis given by its name or its index. -/
def Usual (M : ℝ) : Box.Move → Prop
  | .translate s a => ∀ v, Isom.shiftVector s a = .ok v → v.norm ≤ M
  | .recenter => True
  | .rotate k a => |k| ≤ 4 ∧ ((∃ s, a = .str s) ∨ ∃ i, a = .idx i)

/-- Rotation that calls stand for: quarter turns about axes, one after the other. -/
inductive Turns : List Box.Move → (V3 ℝ → V3 ℝ) → Prop
  | nil : Turns [] fun p => p
  | translate {s : Isom.Shift} {a : Isom.TAxis} {ops : List Box.Move} {R : V3 ℝ → V3 ℝ} : Turns ops R → Turns (.translate s a :: ops) R
  | recenter {ops : List Box.Move} {R : V3 ℝ → V3 ℝ} : Turns ops R → Turns (.recenter :: ops) R
  | rotate {k : ℤ} {a : Axis} {n : V3 ℝ} {ops : List Box.Move} {R : V3 ℝ → V3 ℝ} : AxisMeans a n → Turns ops R →
      Turns (.rotate k a :: ops) fun p => R (rodrigues n (k * Real.pi / 2) p)

/-- Point in the closed box of the given size and centre, up to `e` along each axis. -/
def InsideBy (e : ℝ) (size center p : V3 ℝ) : Prop :=
  |p.x - center.x| ≤ size.x / 2 + e ∧ |p.y - center.y| ≤ size.y / 2 + e ∧ |p.z - center.z| ≤ size.z / 2 + e

/-- Two rows: position-like columns relative to the centres are turned by `R` up to `e`, translation-invariant columns up to `f`, and other
columns are the same. -/
structure TurnedRow (R : V3 ℝ → V3 ℝ) (e f : ℝ) (c c' : V3 ℝ) (r r' : Row ρ) : Prop where
  pos : List.Forall₂ (fun v v' => dist (v' - c') (R (v - c)) ≤ e) (r.pos :: r.vecs) (r'.pos :: r'.vecs)
  vel : List.Forall₂ (fun v v' => dist v' (R v) ≤ f) (r.vel :: r.tis) (r'.vel :: r'.tis)
  rest : r'.rest = r.rest

theorem dist_eq (u v : V3 ℝ) : dist u v = (u - v).norm := rfl

theorem tiny_low {M : ℝ} (hM : 1 / 10 ^ 100 ≤ M) : 18 * binary64.tiny ≤ M / 100 := by
  have := RoundedRsd.tiny_small
  have : (18 : ℝ) * (1 / 10 ^ 200) ≤ 1 / 10 ^ 100 / 100 := by norm_num
  linarith

theorem forall_imp {α β : Type} {P Q : α → β → Prop} {l : List α} {l' : List β} (h : List.Forall₂ P l l')
    (hf : ∀ a ∈ l, ∀ b, P a b → Q a b) : List.Forall₂ Q l l' := by
  induction h with
  | nil => exact .nil
  | @cons a b l l' h _ ih => exact .cons (hf a List.mem_cons_self b h) (ih fun a ha => hf a (List.mem_cons_of_mem _ ha))

theorem forall_comp {α β γ : Type} {P : α → β → Prop} {Q : β → γ → Prop} {S : α → γ → Prop} {l : List α} {l' : List β} {l'' : List γ}
    (h : List.Forall₂ P l l') (h' : List.Forall₂ Q l' l'') (hf : ∀ a b c, P a b → Q b c → S a c) : List.Forall₂ S l l'' := by
  induction h generalizing l'' with
  | nil => cases h'; exact .nil
  | cons h _ ih =>
    cases h' with
    | cons k h' => exact .cons (hf _ _ _ h k) (ih h')

/-- A map that adds a vector after a linear map: relative positions only see the linear map. -/
theorem relative {Q : V3 ℝ → V3 ℝ} (hQ : LinearRotation Q) {t x x' c c' : V3 ℝ} {δ δ' : ℝ} (hx : dist x' (Q x + t) ≤ δ)
    (hc : dist c' (Q c + t) ≤ δ') : dist (x' - c') (Q (x - c)) ≤ δ + δ' := by
  have e : Q (x - c) = Q x - Q c := by
    have := hQ.1 (-1) c x
    have e1 : (-1 : ℝ) • c + x = x - c := by ext <;> simp <;> ring
    have e2 : (-1 : ℝ) • Q c + Q x = Q x - Q c := by ext <;> simp <;> ring
    rwa [e1, e2] at this
  rw [dist_eq] at *
  rw [e]
  have e3 : x' - c' - (Q x - Q c) = (x' - (Q x + t)) - (c' - (Q c + t)) := by ext <;> simp <;> ring
  rw [e3]
  have := norm_sub_le (x' - (Q x + t)) (c' - (Q c + t))
  linarith

/-- One call. -/
theorem one_move {cs sn : ℝ → ℝ} (hcs : ∀ t, |cs t| ≤ 1 ∧ |cs t - Real.cos t| ≤ 2 / 10 ^ 16)
    (hsn : ∀ t, |sn t| ≤ 1 ∧ |sn t - Real.sin t| ≤ 2 / 10 ^ 16) {M V : ℝ} (hM : 1 / 10 ^ 100 ≤ M) (hV : 1 / 10 ^ 100 ≤ V) {b b' : Box ρ}
    {op : Box.Move} (hop : Usual M op) (hb : Bounded M V b) (h : MoveF binary64 cs sn b op b') :
    ∃ Q, Turns [op] Q ∧ LinearRotation Q ∧ List.Forall₂ (TurnedRow Q (9 / 2 / 10 ^ 12 * M) (2 / 10 ^ 12 * V) b.boxcenter b'.boxcenter) b.rows b'.rows ∧
      (b'.boxsize = b.boxsize ∧ Q = (fun p => p) ∨ ∃ (k : ℤ) (n w : V3 ℝ), Coord n ∧ Q = rodrigues n (k * Real.pi / 2) ∧ b'.boxsize = w.map abs ∧
        dist w (Q b.boxsize) ≤ 1 / 10 ^ 12 * (M + M / 100)) := by
  have lowM := tiny_low hM
  have lowV := tiny_low hV
  have hM0 : 0 < M := lt_of_lt_of_le (by norm_num) hM
  have hV0 : 0 < V := lt_of_lt_of_le (by norm_num) hV
  have trans : ∀ {s : Isom.Shift} {a : Isom.TAxis}, Usual M (.translate s a) → MoveF binary64 cs sn b (.translate s a) b' →
      LinearRotation (fun p : V3 ℝ => p) ∧
      List.Forall₂ (TurnedRow (fun p => p) (9 / 2 / 10 ^ 12 * M) (2 / 10 ^ 12 * V) b.boxcenter b'.boxcenter) b.rows b'.rows ∧
      b'.boxsize = b.boxsize := by
    intro s a hu h
    have hid : LinearRotation (fun p : V3 ℝ => p) := ⟨fun _ _ _ => rfl, fun _ _ => rfl, fun _ _ _ => rfl⟩
    cases h with
    | @translate _ _ v c' o rows' he ho hc hr =>
      have hv := hu v he
      refine ⟨hid, ?_, rfl⟩
      refine forall_imp hr fun r hr r' hrr => ?_
      have hc := (call_translation ho).1 hc
      have hc2 : dist c' (b.boxcenter + v) ≤ 1 / 10 ^ 12 * (M + M + M / 100) :=
        hc.trans (mul_le_mul_of_nonneg_left (by linarith [hb.center]) (by norm_num))
      have hpos : ∀ x ∈ r.pos :: r.vecs, ∀ y, TransformF binary64 o x false y → dist (y - c') (x - b.boxcenter) ≤ 9 / 2 / 10 ^ 12 * M := by
        intro x hx y hy
        have h1 := (call_translation ho).1 hy
        have h2 : dist y (x + v) ≤ 1 / 10 ^ 12 * (M + M + M / 100) :=
          h1.trans (mul_le_mul_of_nonneg_left (by linarith [hb.pos r hr x hx]) (by norm_num))
        exact (relative hid h2 hc2).trans (by linarith)
      have hvel : ∀ x ∈ r.vel :: r.tis, ∀ y, TransformF binary64 o x true y → dist y x ≤ 2 / 10 ^ 12 * V := by
        intro x hx y hy
        refine ((call_translation ho).2 hy).trans ?_
        have := hb.vel r hr x hx
        linarith
      exact ⟨.cons (hpos _ List.mem_cons_self _ hrr.pos) (forall_imp hrr.vecs fun x hx y => hpos x (List.mem_cons_of_mem _ hx) y),
        .cons (hvel _ List.mem_cons_self _ hrr.vel) (forall_imp hrr.tis fun x hx y => hvel x (List.mem_cons_of_mem _ hx) y), hrr.rest⟩
  cases op with
  | translate s a =>
    obtain ⟨h1, h2, h3⟩ := trans hop h
    exact ⟨_, .translate .nil, h1, h2, .inl ⟨h3, rfl⟩⟩
  | recenter =>
    cases h with
    | recenter h =>
      obtain ⟨h1, h2, h3⟩ := trans (s := .vec (-b.boxcenter)) (a := .none) (by
        intro v hv
        have : v = -b.boxcenter := (Except.ok.inj hv).symm
        rw [this, Lemmas.RoundedIsometry.norm_neg]
        exact hb.center) h
      exact ⟨_, .recenter .nil, h1, h2, .inl ⟨h3, rfl⟩⟩
  | rotate k a =>
    obtain ⟨hk, hdoc⟩ := hop
    cases h with
    | @rotate _ _ n c' s' o rows' ha ho hc hs hr =>
      obtain ⟨hm, hn⟩ := doc_axis ha hdoc
      have hrot := linearRotation_rodrigues (axisMeans_unit hm) (k * Real.pi / 2)
      have eq : (axisMat n (k * Real.pi / 2)).mulVec = rodrigues n (k * Real.pi / 2) := by funext p; exact axisMat_mulVec _ p
      have hrot' : LinearRotation (axisMat n (k * Real.pi / 2)).mulVec := by rw [eq]; exact hrot
      have call : ∀ {x y : V3 ℝ} {i : Bool}, TransformF binary64 o x i y →
          dist y (rodrigues n (k * Real.pi / 2) x) ≤ 1 / 10 ^ 12 * (x.norm + 18 * binary64.tiny) := by
        intro x y i hy
        have := call_rotation hrot' (quarter_turn hcs hsn hk hn) ho hy
        rwa [eq] at this
      refine ⟨_, .rotate hm .nil, hrot, ?_, .inr ⟨k, n, s', hn, rfl, rfl, ?_⟩⟩
      · refine forall_imp hr fun r hr r' hrr => ?_
        have add0 : ∀ u : V3 ℝ, u + 0 = u := fun u => by ext <;> simp
        have hc2 : dist c' (rodrigues n (k * Real.pi / 2) b.boxcenter + 0) ≤ 1 / 10 ^ 12 * (M + M / 100) := by
          rw [add0]
          exact (call hc).trans (mul_le_mul_of_nonneg_left (by linarith [hb.center]) (by norm_num))
        have hpos : ∀ x ∈ r.pos :: r.vecs, ∀ y, TransformF binary64 o x false y →
            dist (y - c') (rodrigues n (k * Real.pi / 2) (x - b.boxcenter)) ≤ 9 / 2 / 10 ^ 12 * M := by
          intro x hx y hy
          have h2 : dist y (rodrigues n (k * Real.pi / 2) x + 0) ≤ 1 / 10 ^ 12 * (M + M / 100) := by
            rw [add0]
            exact (call hy).trans (mul_le_mul_of_nonneg_left (by linarith [hb.pos r hr x hx]) (by norm_num))
          exact (relative hrot h2 hc2).trans (by linarith)
        have hvel : ∀ x ∈ r.vel :: r.tis, ∀ y, TransformF binary64 o x true y → dist y (rodrigues n (k * Real.pi / 2) x) ≤ 2 / 10 ^ 12 * V := by
          intro x hx y hy
          refine (call hy).trans ?_
          have := hb.vel r hr x hx
          linarith
        exact ⟨.cons (hpos _ List.mem_cons_self _ hrr.pos) (forall_imp hrr.vecs fun x hx y => hpos x (List.mem_cons_of_mem _ hx) y),
          .cons (hvel _ List.mem_cons_self _ hrr.vel) (forall_imp hrr.tis fun x hx y => hvel x (List.mem_cons_of_mem _ hx) y), hrr.rest⟩
      · exact (call hs).trans (mul_le_mul_of_nonneg_left (by linarith [hb.size]) (by norm_num))

/-- Catalog at the end of a history. -/
def last (b : Box ρ) : List (Box.Move × Box ρ) → Box ρ
  | [] => b
  | x :: l => last x.2 l

theorem turns_cons {op : Box.Move} {ops : List Box.Move} {Q R : V3 ℝ → V3 ℝ} (hQ : Turns [op] Q) (hR : Turns ops R) : Turns (op :: ops) fun p => R (Q p) := by
  cases hQ with
  | translate h => cases h; exact .translate hR
  | recenter h => cases h; exact .recenter hR
  | rotate ha h => cases h; exact .rotate ha hR

theorem dist_map {R : V3 ℝ → V3 ℝ} (hR : LinearRotation R) (p q : V3 ℝ) : dist (R p) (R q) = dist p q := by
  have e : R p - R q = R (p - q) := by
    have := hR.1 (-1) q p
    have e1 : (-1 : ℝ) • q + p = p - q := by ext <;> simp <;> ring
    have e2 : (-1 : ℝ) • R q + R p = R p - R q := by ext <;> simp <;> ring
    rw [e1, e2] at this
    exact this.symm
  rw [dist_eq, dist_eq, e]
  have := hR.2.1 (p - q) (p - q)
  simp only [V3.dot] at this
  exact congrArg Real.sqrt (by linarith)

theorem dist_tri (p q r : V3 ℝ) : dist p r ≤ dist p q + dist q r := by
  rw [dist_eq, dist_eq, dist_eq]
  exact norm_tri _ _ _

/-- C133. Any number of calls: columns relative to the centre are turned by the rotation that the calls stand for, up to `5·10⁻¹² M` per call for positions
and `2·10⁻¹² V` per call for velocities, and rows keep their order and their other columns. -/
theorem C133_history {cs sn : ℝ → ℝ} (hcs : ∀ t, |cs t| ≤ 1 ∧ |cs t - Real.cos t| ≤ 2 / 10 ^ 16)
    (hsn : ∀ t, |sn t| ≤ 1 ∧ |sn t - Real.sin t| ≤ 2 / 10 ^ 16) {M V : ℝ} (hM : 1 / 10 ^ 100 ≤ M) (hV : 1 / 10 ^ 100 ≤ V) {b : Box ρ}
    {l : List (Box.Move × Box ρ)} (h : HistF binary64 cs sn b l) (hops : ∀ x ∈ l, Usual M x.1) (hb : Bounded M V b) (hl : ∀ x ∈ l, Bounded M V x.2) :
    ∃ R, Turns (l.map Prod.fst) R ∧ LinearRotation R ∧
      List.Forall₂ (TurnedRow R (l.length * (5 / 10 ^ 12 * M)) (l.length * (2 / 10 ^ 12 * V)) b.boxcenter (last b l).boxcenter) b.rows (last b l).rows := by
  have hM0 : 0 < M := lt_of_lt_of_le (by norm_num) hM
  induction h with
  | @nil b =>
    refine ⟨_, .nil, ⟨fun _ _ _ => rfl, fun _ _ => rfl, fun _ _ _ => rfl⟩, List.forall₂_same.2 fun r _ => ?_⟩
    have d0 : ∀ v : V3 ℝ, dist v v = 0 := fun v => by simp [Spec.dist]
    exact ⟨List.forall₂_same.2 fun v _ => by simp [d0, last], List.forall₂_same.2 fun v _ => by simp [d0], rfl⟩
  | @cons b b' op l h _ ih =>
    obtain ⟨Q, hQ, rQ, hrows, -⟩ := one_move hcs hsn hM hV (hops _ List.mem_cons_self) hb h
    obtain ⟨R, hR, rR, hrows'⟩ := ih (fun x hx => hops x (List.mem_cons_of_mem _ hx)) (hl _ List.mem_cons_self)
      fun x hx => hl x (List.mem_cons_of_mem _ hx)
    refine ⟨_, turns_cons hQ hR, LinearRotation.comp rQ rR, forall_comp hrows hrows' fun r r' r'' h1 h2 => ⟨?_, ?_, h2.rest.trans h1.rest⟩⟩
    · refine forall_comp h1.pos h2.pos fun v v' v'' k1 k2 => ?_
      have t := dist_tri (v'' - (last b' l).boxcenter) (R (v' - b'.boxcenter)) (R (Q (v - b.boxcenter)))
      rw [dist_map rR] at t
      refine t.trans ?_
      push_cast [List.length_cons]
      linarith
    · refine forall_comp h1.vel h2.vel fun v v' v'' k1 k2 => ?_
      have t := dist_tri v'' (R v') (R (Q v))
      rw [dist_map rR] at t
      refine t.trans ?_
      push_cast [List.length_cons]
      linarith

theorem coord_le (u v : V3 ℝ) : |u.x - v.x| ≤ dist u v ∧ |u.y - v.y| ≤ dist u v ∧ |u.z - v.z| ≤ dist u v := by
  have := abs_le_norm (u - v)
  rw [dist_eq]
  exact this

/-- Size of a box that is larger by `2 e` along each axis, after quarter turns. -/
theorem size_grow (k : ℤ) {n : V3 ℝ} (hn : Coord n) {L : V3 ℝ} (hL : NonnegSize L) {e : ℝ} (he : 0 ≤ e) :
    (rodrigues n (k * Real.pi / 2) ⟨L.x + 2 * e, L.y + 2 * e, L.z + 2 * e⟩).map abs =
      ⟨((rodrigues n (k * Real.pi / 2) L).map abs).x + 2 * e, ((rodrigues n (k * Real.pi / 2) L).map abs).y + 2 * e,
        ((rodrigues n (k * Real.pi / 2) L).map abs).z + 2 * e⟩ := by
  obtain ⟨h1, h2, h3⟩ := C09_rotate_size k L hL
  obtain ⟨g1, g2, g3⟩ := C09_rotate_size k ⟨L.x + 2 * e, L.y + 2 * e, L.z + 2 * e⟩
    ⟨by have := hL.1; simp only; linarith, by have := hL.2.1; simp only; linarith, by have := hL.2.2; simp only; linarith⟩
  rcases hn with rfl | rfl | rfl
  · rw [h1, g1]; split <;> rfl
  · rw [h2, g2]; split <;> rfl
  · rw [h3, g3]; split <;> rfl

theorem insideBy_near {e d : ℝ} {L c p c' p' : V3 ℝ} (h : InsideBy e L c p) (hd : dist (p' - c') (p - c) ≤ d) : InsideBy (e + d) L c' p' := by
  obtain ⟨h1, h2, h3⟩ := coord_le (p' - c') (p - c)
  obtain ⟨k1, k2, k3⟩ := h
  simp only [V3.sub_x, V3.sub_y, V3.sub_z] at h1 h2 h3
  refine ⟨?_, ?_, ?_⟩
  · have := abs_sub_abs_le_abs_sub (p'.x - c'.x) (p.x - c.x); linarith
  · have := abs_sub_abs_le_abs_sub (p'.y - c'.y) (p.y - c.y); linarith
  · have := abs_sub_abs_le_abs_sub (p'.z - c'.z) (p.z - c.z); linarith

theorem insideBy_size {e d : ℝ} {w w' c p : V3 ℝ} (h : InsideBy e (w.map abs) c p) (hd : dist w' w ≤ d) : InsideBy (e + d / 2) (w'.map abs) c p := by
  obtain ⟨h1, h2, h3⟩ := coord_le w' w
  obtain ⟨k1, k2, k3⟩ := h
  simp only [V3.map] at k1 k2 k3
  refine ⟨?_, ?_, ?_⟩ <;> simp only [V3.map]
  · have := abs_sub_abs_le_abs_sub w.x w'.x; rw [abs_sub_comm] at this; linarith
  · have := abs_sub_abs_le_abs_sub w.y w'.y; rw [abs_sub_comm] at this; linarith
  · have := abs_sub_abs_le_abs_sub w.z w'.z; rw [abs_sub_comm] at this; linarith

theorem insideBy_rotate (k : ℤ) {n : V3 ℝ} (hn : Coord n) {L : V3 ℝ} (hL : NonnegSize L) {e : ℝ} (he : 0 ≤ e) {p : V3 ℝ} (h : InsideBy e L 0 p) :
    InsideBy e ((rodrigues n (k * Real.pi / 2) L).map abs) 0 (rodrigues n (k * Real.pi / 2) p) := by
  have hL' : NonnegSize ⟨L.x + 2 * e, L.y + 2 * e, L.z + 2 * e⟩ :=
    ⟨by have := hL.1; simp only; linarith, by have := hL.2.1; simp only; linarith, by have := hL.2.2; simp only; linarith⟩
  have := (inside_rotate k hn ⟨L.x + 2 * e, L.y + 2 * e, L.z + 2 * e⟩ 0 p hL').2 (by
    obtain ⟨k1, k2, k3⟩ := h
    exact ⟨by simp only; linarith, by simp only; linarith, by simp only; linarith⟩)
  rw [size_grow k hn hL he] at this
  have z : rodrigues n (k * Real.pi / 2) 0 = 0 := by
    ext <;> simp [rodrigues, V3.dot, V3.cross]
  rw [z] at this
  obtain ⟨k1, k2, k3⟩ := this
  exact ⟨by simp only at k1; linarith, by simp only at k2; linarith, by simp only at k3; linarith⟩

/-- C133, without exact containment (`C133_rotate_violated`). Any number of calls: rows that were in the box up to `e` are in the box at the end up to `6·10⁻¹² M` more per call. -/
theorem C133_contained_partial {cs sn : ℝ → ℝ} (hcs : ∀ t, |cs t| ≤ 1 ∧ |cs t - Real.cos t| ≤ 2 / 10 ^ 16)
    (hsn : ∀ t, |sn t| ≤ 1 ∧ |sn t - Real.sin t| ≤ 2 / 10 ^ 16) {M V : ℝ} (hM : 1 / 10 ^ 100 ≤ M) (hV : 1 / 10 ^ 100 ≤ V) {b : Box ρ}
    {l : List (Box.Move × Box ρ)} (h : HistF binary64 cs sn b l) (hops : ∀ x ∈ l, Usual M x.1) (hb : Bounded M V b) (hl : ∀ x ∈ l, Bounded M V x.2)
    (hL : NonnegSize b.boxsize) {e : ℝ} (he : 0 ≤ e) (hin : ∀ r ∈ b.rows, InsideBy e b.boxsize b.boxcenter r.pos) :
    NonnegSize (last b l).boxsize ∧
      ∀ r ∈ (last b l).rows, InsideBy (e + l.length * (6 / 10 ^ 12 * M)) (last b l).boxsize (last b l).boxcenter r.pos := by
  have hM0 : 0 < M := lt_of_lt_of_le (by norm_num) hM
  induction h generalizing e with
  | @nil b => exact ⟨hL, fun r hr => by simpa [last] using hin r hr⟩
  | @cons b b' op l h _ ih =>
    obtain ⟨Q, hQ, rQ, hrows, hsize⟩ := one_move hcs hsn hM hV (hops _ List.mem_cons_self) hb h
    have key : NonnegSize b'.boxsize ∧ ∀ r ∈ b'.rows, InsideBy (e + 6 / 10 ^ 12 * M) b'.boxsize b'.boxcenter r.pos := by
      have mono : ∀ {d : ℝ} {L c p : V3 ℝ}, d ≤ e + 6 / 10 ^ 12 * M → InsideBy d L c p → InsideBy (e + 6 / 10 ^ 12 * M) L c p :=
        fun hd ⟨k1, k2, k3⟩ => ⟨by linarith, by linarith, by linarith⟩
      have row : ∀ r' ∈ b'.rows, ∃ r ∈ b.rows, dist (r'.pos - b'.boxcenter) (Q (r.pos - b.boxcenter)) ≤ 9 / 2 / 10 ^ 12 * M := by
        intro r' hr'
        obtain ⟨i, hi, rfl⟩ := List.getElem_of_mem hr'
        have hlen := hrows.length_eq
        have hi' : i < b.rows.length := by omega
        have := (List.forall₂_iff_get.1 hrows).2 i hi' hi
        have := this.pos
        exact ⟨b.rows[i], List.getElem_mem hi', by cases this with | cons h _ => exact h⟩
      rcases hsize with ⟨hs, rfl⟩ | ⟨k, n, w, hn, rfl, hs, hw⟩
      · rw [hs]
        refine ⟨hL, fun r' hr' => ?_⟩
        obtain ⟨r, hr, hd⟩ := row r' hr'
        exact mono (by linarith) (insideBy_near (hin r hr) hd)
      · rw [hs]
        refine ⟨⟨abs_nonneg _, abs_nonneg _, abs_nonneg _⟩, fun r' hr' => ?_⟩
        obtain ⟨r, hr, hd⟩ := row r' hr'
        have h0 : InsideBy e b.boxsize 0 (r.pos - b.boxcenter) := by
          obtain ⟨k1, k2, k3⟩ := hin r hr
          exact ⟨by simpa using k1, by simpa using k2, by simpa using k3⟩
        have h1 := insideBy_rotate k hn hL he h0
        have h2 := insideBy_near (c' := b'.boxcenter) (p' := r'.pos) h1 (d := 9 / 2 / 10 ^ 12 * M) (by
          have z : ∀ u : V3 ℝ, u - 0 = u := fun u => by ext <;> simp
          rw [z]
          exact hd)
        exact mono (by linarith) (insideBy_size h2 hw)
    have := ih (fun x hx => hops x (List.mem_cons_of_mem _ hx)) (hl _ List.mem_cons_self) (fun x hx => hl x (List.mem_cons_of_mem _ hx)) key.1
      (e := e + 6 / 10 ^ 12 * M) (by positivity) key.2
    refine ⟨this.1, fun r hr => ?_⟩
    have := this.2 r hr
    have eq : e + 6 / 10 ^ 12 * M + l.length * (6 / 10 ^ 12 * M) = e + ((op, b') :: l).length * (6 / 10 ^ 12 * M) := by
      push_cast [List.length_cons]; ring
    rw [eq] at this
    exact this

/-! ### The hypotheses are met -/

theorem exists_transform (op : Isom) (i : Bool) (x : V3 ℝ) : ∃ y, TransformF F op x i y := by
  obtain ⟨w, hw⟩ := exists_mulVec (F := F) op.rot x
  exact ⟨_, w, hw, rfl⟩

theorem exists_forall {α β : Type} {P : α → β → Prop} (h : ∀ a, ∃ b, P a b) (l : List α) : ∃ l', List.Forall₂ P l l' := by
  choose f hf using h
  exact ⟨l.map f, by
    induction l with
    | nil => exact .nil
    | cons a l ih => exact .cons (hf a) ih⟩

theorem exists_rows (op : Isom) (rows : List (Row ρ)) : ∃ rows', List.Forall₂ (RowF F op) rows rows' := by
  refine exists_forall (fun r => ?_) rows
  obtain ⟨p, hp⟩ := exists_transform (F := F) op false r.pos
  obtain ⟨v, hv⟩ := exists_transform (F := F) op true r.vel
  obtain ⟨ps, hps⟩ := exists_forall (exists_transform (F := F) op false) r.vecs
  obtain ⟨vs, hvs⟩ := exists_forall (exists_transform (F := F) op true) r.tis
  exact ⟨⟨p, v, ps, vs, r.rest⟩, hp, hv, hps, hvs, rfl⟩

/-- Calls with arguments that the functions accept have an outcome. -/
theorem exists_move (cs sn : ℝ → ℝ) (b : Box ρ) :
    (∀ {s : Isom.Shift} {a : Isom.TAxis} {v : V3 ℝ}, ShiftMeans s a v → ∃ b', MoveF F cs sn b (.translate s a) b') ∧
    (∃ b', MoveF F cs sn b .recenter b') ∧
    ∀ {a : Axis} {v : V3 ℝ}, AxisArray a v → ∀ k, ∃ b', MoveF F cs sn b (.rotate k a) b' := by
  have ht : ∀ {s : Isom.Shift} {a : Isom.TAxis} {v : V3 ℝ}, ShiftMeans s a v → ∃ b', MoveF F cs sn b (.translate s a) b' := by
    intro s a v hs
    obtain ⟨c, hc⟩ := exists_transform (F := F) ⟨1, addF F 0 v⟩ false b.boxcenter
    obtain ⟨rows, hr⟩ := exists_rows (F := F) ⟨1, addF F 0 v⟩ b.rows
    exact ⟨_, .translate (shiftMeans_vector hs) .translationOrigin hc hr⟩
  refine ⟨ht, ?_, fun {a v} ha k => ?_⟩
  · obtain ⟨b', h⟩ := ht (ShiftMeans.vec (-b.boxcenter))
    exact ⟨b', .recenter h⟩
  · obtain ⟨m, hm⟩ : ∃ m, m = rotationCallF F v (quarterF F k) false (cs (angleF F (degreesF F (quarterF F k))))
      (sn (angleF F (degreesF F (quarterF F k)))) := ⟨_, rfl⟩
    obtain ⟨r, hr⟩ := exists_mul (F := F) m Isom.init.rot
    obtain ⟨t, ht⟩ := exists_mulVec (F := F) m Isom.init.trans
    obtain ⟨c, hc⟩ := exists_transform (F := F) ⟨r, t⟩ false b.boxcenter
    obtain ⟨s, hs⟩ := exists_transform (F := F) ⟨r, t⟩ true b.boxsize
    obtain ⟨rows, hrows⟩ := exists_rows (F := F) ⟨r, t⟩ b.rows
    refine ⟨_, .rotate ha ?_ hc hs hrows⟩
    rw [← hm]
    exact .dotOrigin hr ht

theorem exists_sup {α : Type} (f : α → ℝ) (l : List α) : ∃ M, ∀ x ∈ l, f x ≤ M := by
  induction l with
  | nil => exact ⟨0, by simp⟩
  | cons a l ih =>
    obtain ⟨M, hM⟩ := ih
    refine ⟨max (f a) M, fun x hx => ?_⟩
    rcases List.mem_cons.1 hx with rfl | hx
    · exact le_max_left _ _
    · exact (hM x hx).trans (le_max_right _ _)

/-- Every catalog is bounded. -/
theorem exists_bounded (b : Box ρ) : ∃ N, ∀ M V, N ≤ M → N ≤ V → Bounded M V b := by
  obtain ⟨P, hP⟩ := exists_sup V3.norm (b.rows.flatMap fun r => r.pos :: r.vecs)
  obtain ⟨U, hU⟩ := exists_sup V3.norm (b.rows.flatMap fun r => r.vel :: r.tis)
  refine ⟨max (max b.boxcenter.norm b.boxsize.norm) (max P U), fun M V hM hV => ⟨?_, ?_, fun r hr v hv => ?_, fun r hr v hv => ?_⟩⟩
  · exact ((le_max_left _ _).trans (le_max_left _ _)).trans hM
  · exact ((le_max_right _ _).trans (le_max_left _ _)).trans hM
  · exact (hP v (List.mem_flatMap.2 ⟨r, hr, hv⟩)).trans (((le_max_left _ _).trans (le_max_right _ _)).trans hM)
  · exact (hU v (List.mem_flatMap.2 ⟨r, hr, hv⟩)).trans (((le_max_right _ _).trans (le_max_right _ _)).trans hV)

/-- A quarter turn about the third axis, then a shift by 5 along the first one, then `recenter`. -/
example (b : Box ρ) : ∃ (M V : ℝ) (l : List (Box.Move × Box ρ)),
    l.map Prod.fst = [.rotate 1 (.idx 2), .translate (.vec ⟨5, 0, 0⟩) .none, .recenter] ∧
      1 / 10 ^ 100 ≤ M ∧ 1 / 10 ^ 100 ≤ V ∧ HistF binary64 Real.cos Real.sin b l ∧ (∀ x ∈ l, Usual M x.1) ∧ Bounded M V b ∧ ∀ x ∈ l, Bounded M V x.2 := by
  obtain ⟨b1, h1⟩ := (exists_move (F := binary64) Real.cos Real.sin b).2.2 (AxisArray.i2) 1
  obtain ⟨b2, h2⟩ := (exists_move (F := binary64) Real.cos Real.sin b1).1 (ShiftMeans.vec ⟨5, 0, 0⟩)
  obtain ⟨b3, h3⟩ := (exists_move (F := binary64) Real.cos Real.sin b2).2.1
  obtain ⟨n0, k0⟩ := exists_bounded b
  obtain ⟨n1, k1⟩ := exists_bounded b1
  obtain ⟨n2, k2⟩ := exists_bounded b2
  obtain ⟨n3, k3⟩ := exists_bounded b3
  obtain ⟨N, hN⟩ := exists_sup id [n0, n1, n2, n3, 1, (⟨5, 0, 0⟩ : V3 ℝ).norm]
  simp only [id, List.mem_cons, List.not_mem_nil, or_false, forall_eq_or_imp, forall_eq] at hN
  obtain ⟨g0, g1, g2, g3, g4, g5⟩ := hN
  refine ⟨N, N, [(_, b1), (_, b2), (_, b3)], rfl, le_trans (by norm_num) g4, le_trans (by norm_num) g4,
    .cons h1 (.cons h2 (.cons h3 .nil)), ?_, k0 N N g0 g0, ?_⟩
  · simp only [List.mem_cons, List.not_mem_nil, or_false, forall_eq_or_imp, forall_eq]
    refine ⟨⟨by norm_num, .inr ⟨_, rfl⟩⟩, fun v hv => ?_, trivial⟩
    rw [← Except.ok.inj hv]
    exact g5
  · simp only [List.mem_cons, List.not_mem_nil, or_false, forall_eq_or_imp, forall_eq]
    exact ⟨k1 N N g1 g1, k2 N N g2 g2, k3 N N g3 g3⟩

end Verif.Props.RoundedMoves
