import Verif.Props.Sky
import Verif.Spec.Axis

/-!
# C25: redshift-space positions
-/

namespace Verif.Props
open Verif Verif.Model

theorem normalize_eq {v : V3 ℝ} (h : v ≠ 0) :
    Model.normalize v = .ok ⟨v.x / v.norm, v.y / v.norm, v.z / v.norm⟩ := by
  rw [Model.normalize, if_neg]
  rw [V3.norm_eq_zero]; exact h

theorem norm_smul' (a : ℝ) (v : V3 ℝ) : (a • v).norm = |a| * v.norm := by
  have : (a • v).norm ^ 2 = (|a| * v.norm) ^ 2 := by
    rw [mul_pow, sq_abs, V3.norm_sq, V3.norm_sq]; simp; ring
  exact (sq_eq_sq₀ (V3.norm_nonneg _) (by have := V3.norm_nonneg v; positivity)).1 this

/-- Component of `v` along `n`: the multiple of `n` whose difference with `v` is perpendicular to `n`. -/
def IsComponentAlong (n v w : V3 ℝ) : Prop := (∃ a : ℝ, w = a • n) ∧ V3.dot (v - w) n = 0

/-- C25: `vector_projection` returns the component along the direction, whatever its length and sign; a null direction
gives `nan`. -/
theorem C25_projection (v n : V3 ℝ) :
    (n ≠ 0 → ∃ w, vectorProjection v n = .ok w ∧ IsComponentAlong n v w ∧
      w = (V3.dot v n / V3.dot n n) • n) ∧
    (n = 0 → vectorProjection v n = .error .nan) := by
  constructor
  · intro h
    have hn := V3.norm_pos h
    have hs := V3.norm_sq n
    have hd : V3.dot n n = n.norm ^ 2 := by rw [hs]; simp only [V3.dot]; ring
    have hd0 : V3.dot n n ≠ 0 := by rw [hd]; positivity
    refine ⟨(V3.dot v n / V3.dot n n) • n, ?_, ⟨⟨_, rfl⟩, ?_⟩, rfl⟩
    · rw [vectorProjection, normalize_eq h, hd]
      simp only [bind, Except.bind, Except.ok.injEq]
      ext <;> simp [V3.dot] <;> field_simp
    · rw [show V3.dot (v - (V3.dot v n / V3.dot n n) • n) n = V3.dot v n - V3.dot v n / V3.dot n n * V3.dot n n by
        simp only [V3.dot, V3.sub_x, V3.sub_y, V3.sub_z, V3.smul_x, V3.smul_y, V3.smul_z]; ring]
      rw [div_mul_cancel₀ _ hd0]; ring
  · rintro rfl
    have : (0 : V3 ℝ).norm = 0 := (V3.norm_eq_zero _).2 rfl
    simp [vectorProjection, Model.normalize, this, bind, Except.bind]

theorem component_unique {n v w w' : V3 ℝ} (h : n ≠ 0) (h1 : IsComponentAlong n v w) (h2 : IsComponentAlong n v w') :
    w = w' := by
  obtain ⟨⟨a, rfl⟩, ha⟩ := h1
  obtain ⟨⟨b, rfl⟩, hb⟩ := h2
  have hn := V3.norm_pos h
  have hd : V3.dot n n = n.norm ^ 2 := by rw [V3.norm_sq]; simp only [V3.dot]; ring
  have e : (a - b) * V3.dot n n = 0 := by
    simp only [V3.dot, V3.sub_x, V3.sub_y, V3.sub_z, V3.smul_x, V3.smul_y, V3.smul_z] at ha hb ⊢
    linarith
  have : a - b = 0 := (mul_eq_zero.1 e).resolve_right (by rw [hd]; positivity)
  rw [show a = b by linarith]

theorem mapM_ok {α β : Type*} (f : α → Except Err β) (g : α → β) (l : List α) (h : ∀ a ∈ l, f a = .ok (g a)) :
    l.mapM f = .ok (l.map g) := by
  induction l with
  | nil => rfl
  | cons a l ih =>
    rw [List.mapM_cons, h a (by simp), ih (fun b hb => h b (by simp [hb]))]
    rfl

theorem getLos_ne_zero {a : Axis} {n : V3 ℝ} (h : getLos a = .ok n) : n.norm = 1 := by
  have key : ∀ {v n : V3 ℝ}, Model.normalize v = .ok n → n.norm = 1 := by
    intro v n h
    by_cases hv : v = 0
    · subst hv
      have : (0 : V3 ℝ).norm = 0 := (V3.norm_eq_zero _).2 rfl
      simp [Model.normalize, this] at h
    · rw [normalize_eq hv] at h
      have hn := V3.norm_pos hv
      rw [← Except.ok.inj h]
      apply V3.norm_eq_one_of_sq
      have := V3.norm_sq v
      field_simp
      linarith
  cases a with
  | str s =>
    simp only [getLos, bind, Except.bind] at h
    split at h
    · simp at h
    · split at h
      · simp at h
      · exact key h
  | idx i =>
    simp only [getLos, bind, Except.bind] at h
    split at h
    · simp at h
    · exact key h
  | vec v => exact key h
  | none => exact key h

/-- C25, constant factor, fixed line of sight `n`: each position is displaced by `f` times the component of its velocity
along `n`. -/
theorem C25_fixed {los : Axis} (hlos : los ≠ .none) {n : V3 ℝ} (hn : getLos los = .ok n) (f : ℝ)
    (pos vel : List (V3 ℝ)) :
    rsdPosition (.const f) los pos vel = .ok (List.zipWith (fun p v => p + (f * V3.dot v n) • n) pos vel) := by
  have h1 := getLos_ne_zero hn
  have hne : n ≠ 0 := by rintro rfl; rw [(V3.norm_eq_zero _).2 rfl] at h1; norm_num at h1
  have hd : V3.dot n n = 1 := by
    have : V3.dot n n = n.norm ^ 2 := by rw [V3.norm_sq]; simp only [V3.dot]; ring
    rw [this, h1]; norm_num
  have hp : ∀ v, vectorProjection v n = .ok (V3.dot v n • n) := by
    intro v
    obtain ⟨w, hw, -, rfl⟩ := (C25_projection v n).1 hne
    rw [hw, hd, div_one]
  have hm := mapM_ok (fun v => vectorProjection v n) (fun v => V3.dot v n • n) vel (fun v _ => hp v)
  have hr : rsdPosition (.const f) los pos vel = (do
      let l ← getLos los
      let rsd ← vel.mapM fun v => vectorProjection v l
      .ok (List.zipWith (· + ·) pos (rsd.map fun r => f • r))) := by
    cases los with
    | none => exact absurd rfl hlos
    | str s => simp only [rsdPosition]; cases getLos (.str s) <;> rfl
    | idx i => simp only [rsdPosition]; cases getLos (.idx i) <;> rfl
    | vec v => simp only [rsdPosition]; cases getLos (.vec v) <;> rfl
  rw [hr, hn]
  show (do
      let rsd ← vel.mapM fun v => vectorProjection v n
      (.ok (List.zipWith (· + ·) pos (rsd.map fun r => f • r)) : Except Err _)) = _
  rw [hm]
  show Except.ok _ = _
  rw [Except.ok.injEq, List.map_map, List.zipWith_map_right]
  congr 1
  funext p v
  ext <;> simp [Function.comp, mul_assoc]

/-- C25: with a fixed line of sight, transverse coordinates are unchanged. -/
theorem C25_transverse {los : Axis} (hlos : los ≠ .none) {n : V3 ℝ} (hn : getLos los = .ok n) (f : ℝ)
    (p v t : V3 ℝ) (ht : V3.dot t n = 0) :
    ∃ q, rsdPosition (.const f) los [p] [v] = .ok [q] ∧ V3.dot t q = V3.dot t p ∧
      V3.dot q n = V3.dot p n + f * V3.dot v n := by
  have h1 := getLos_ne_zero hn
  have hd : V3.dot n n = 1 := by
    have : V3.dot n n = n.norm ^ 2 := by rw [V3.norm_sq]; simp only [V3.dot]; ring
    rw [this, h1]; norm_num
  refine ⟨_, C25_fixed hlos hn f [p] [v], ?_, ?_⟩
  · simp only [V3.dot, V3.add_x, V3.add_y, V3.add_z, V3.smul_x, V3.smul_y, V3.smul_z] at ht ⊢
    linear_combination f * (v.x * n.x + v.y * n.y + v.z * n.z) * ht
  · simp only [V3.dot, V3.add_x, V3.add_y, V3.add_z, V3.smul_x, V3.smul_y, V3.smul_z] at hd ⊢
    linear_combination f * (v.x * n.x + v.y * n.y + v.z * n.z) * hd

/-- C25: the length and the sign of the line-of-sight vector do not matter. -/
theorem C25_los_scale (f : ℝ) (a : ℝ) (ha : a ≠ 0) (u : V3 ℝ) (hu : u ≠ 0) (pos vel : List (V3 ℝ)) :
    rsdPosition (.const f) (.vec (a • u)) pos vel = rsdPosition (.const f) (.vec u) pos vel := by
  have hau : a • u ≠ 0 := by
    intro h
    apply hu
    ext
    · simpa [ha] using congrArg V3.x h
    · simpa [ha] using congrArg V3.y h
    · simpa [ha] using congrArg V3.z h
  have e1 : getLos (.vec u) = .ok _ := normalize_eq hu
  have e2 : getLos (.vec (a • u)) = .ok _ := normalize_eq hau
  rw [C25_fixed (by simp) e1, C25_fixed (by simp) e2]
  have hn := V3.norm_pos hu
  have hab : |a| * |a| = a * a := abs_mul_abs_self a
  have hab0 : |a| ≠ 0 := abs_ne_zero.2 ha
  congr 2
  funext p v
  rw [norm_smul']
  have hsq : a ^ 2 = |a| ^ 2 := (sq_abs a).symm
  ext <;> simp [V3.dot] <;> field_simp <;> first | done | (rw [hsq]; try ring)

/-- C25, constant factor, local line of sight: each position is displaced along itself, by `f` times the component of
its velocity along it. -/
theorem C25_local (f : ℝ) (pos vel : List (V3 ℝ)) (h0 : ∀ p ∈ pos, p ≠ 0) :
    rsdPosition (.const f) .none pos vel =
      .ok (List.zipWith (fun p v => p + (f * (V3.dot v p / V3.dot p p)) • p) pos vel) := by
  have hm := mapM_ok (fun pv : V3 ℝ × V3 ℝ => do
        let l ← Model.normalize pv.1
        vectorProjection pv.2 l) (fun pv => (V3.dot pv.2 pv.1 / V3.dot pv.1 pv.1) • pv.1) (pos.zip vel) (by
    rintro ⟨p, v⟩ hpv
    have hp : p ≠ 0 := h0 p (List.of_mem_zip hpv).1
    have hn := V3.norm_pos hp
    have hs := V3.norm_sq p
    have hd : V3.dot p p = p.norm ^ 2 := by rw [hs]; simp only [V3.dot]; ring
    simp only [normalize_eq hp, bind, Except.bind]
    have hu1 : (⟨p.x / p.norm, p.y / p.norm, p.z / p.norm⟩ : V3 ℝ).norm = 1 := by
      apply V3.norm_eq_one_of_sq
      field_simp
      linarith
    have hu : (⟨p.x / p.norm, p.y / p.norm, p.z / p.norm⟩ : V3 ℝ) ≠ 0 := by
      intro h; rw [h, (V3.norm_eq_zero _).2 rfl] at hu1; norm_num at hu1
    obtain ⟨w, hw, -, rfl⟩ := (C25_projection v _).1 hu
    rw [hw, hd]
    have hdu : V3.dot (⟨p.x / p.norm, p.y / p.norm, p.z / p.norm⟩ : V3 ℝ) ⟨p.x / p.norm, p.y / p.norm, p.z / p.norm⟩ = 1 := by
      simp only [V3.dot]
      field_simp
      linarith
    rw [hdu, div_one, Except.ok.injEq]
    ext <;> simp [V3.dot] <;> field_simp)
  unfold rsdPosition
  simp only [hm]
  show Except.ok _ = _
  rw [Except.ok.injEq, List.map_map]
  clear hm h0
  induction pos generalizing vel with
  | nil => simp
  | cons p pos ih =>
    cases vel with
    | nil => simp
    | cons v vel =>
      simp only [List.zip_cons_cons, List.map_cons, List.zipWith_cons_cons, ih vel, List.cons.injEq, and_true]
      ext <;> simp [Function.comp, mul_assoc]

theorem arg_smul {a : ℝ} (ha : 0 < a) (y x : ℝ) : arctan2 (a * y) (a * x) = arctan2 y x := by
  have : (⟨a * x, a * y⟩ : ℂ) = a * ⟨x, y⟩ := by apply Complex.ext <;> simp
  rw [arctan2, this, Complex.arg_real_mul _ ha, arctan2]

/-- C25: with the local line of sight, RA and Dec are unchanged and the distance is increased by `f` times the radial
velocity, as long as the particle does not cross the observer. -/
theorem C25_local_sky (f : ℝ) (p v : V3 ℝ) (h0 : p ≠ 0) (hx : 0 < p.norm + f * (V3.dot v p / p.norm)) (d : Bool) :
    ∃ q, rsdPosition (.const f) .none [p] [v] = .ok [q] ∧
      (cartesianToSky q d).ra = (cartesianToSky p d).ra ∧ (cartesianToSky q d).dec = (cartesianToSky p d).dec ∧
      (cartesianToSky q d).dist = (cartesianToSky p d).dist + f * (V3.dot v p / p.norm) := by
  refine ⟨_, C25_local f [p] [v] (by simpa using h0), ?_⟩
  have hn := V3.norm_pos h0
  have hd : V3.dot p p = p.norm ^ 2 := by rw [V3.norm_sq]; simp only [V3.dot]; ring
  have hq : p + (f * (V3.dot v p / V3.dot p p)) • p = (1 + f * (V3.dot v p / p.norm ^ 2)) • p := by
    rw [hd]; ext <;> simp <;> ring
  have ha : 0 < 1 + f * (V3.dot v p / p.norm ^ 2) := by
    have : 1 + f * (V3.dot v p / p.norm ^ 2) = (p.norm + f * (V3.dot v p / p.norm)) / p.norm := by field_simp
    rw [this]; positivity
  simp only [hq]
  generalize 1 + f * (V3.dot v p / p.norm ^ 2) = a at ha hq
  have hna : (a • p).norm = a * p.norm := by rw [norm_smul', abs_of_pos ha]
  have hdist : a * p.norm = p.norm + f * (V3.dot v p / p.norm) := by
    have e := congrArg (fun w => V3.dot w p) hq
    have e1 : V3.dot (p + (f * (V3.dot v p / V3.dot p p)) • p) p = V3.dot p p + f * V3.dot v p := by
      have : V3.dot p p ≠ 0 := by rw [hd]; positivity
      rw [show V3.dot (p + (f * (V3.dot v p / V3.dot p p)) • p) p =
        V3.dot p p + f * (V3.dot v p / V3.dot p p * V3.dot p p) by
        simp only [V3.dot, V3.add_x, V3.add_y, V3.add_z, V3.smul_x, V3.smul_y, V3.smul_z]; ring]
      rw [div_mul_cancel₀ _ this]
    have e2 : V3.dot (a • p) p = a * V3.dot p p := by
      simp only [V3.dot, V3.smul_x, V3.smul_y, V3.smul_z]; ring
    rw [e1, e2, hd] at e
    field_simp
    linarith
  refine ⟨?_, ?_, ?_⟩
  · simp only [cartesianToSky, V3.smul_x, V3.smul_y, arg_smul ha]
  · simp only [cartesianToSky, hna, V3.smul_z, (by positivity : a * p.norm ≠ 0), hn.ne', if_false]
    rw [mul_div_mul_left _ _ ha.ne']
  · simp only [cartesianToSky, hna, hdist]

example : (⟨3, 0, 4⟩ : V3 ℝ) ≠ 0 ∧ 0 < (⟨3, 0, 4⟩ : V3 ℝ).norm + 1 * (V3.dot ⟨-5, 2, 0⟩ ⟨3, 0, 4⟩ / (⟨3, 0, 4⟩ : V3 ℝ).norm) := by
  have h : (⟨3, 0, 4⟩ : V3 ℝ).norm = 5 := by
    have : (⟨3, 0, 4⟩ : V3 ℝ).norm ^ 2 = 5 ^ 2 := by rw [V3.norm_sq]; norm_num
    exact (sq_eq_sq₀ (V3.norm_nonneg _) (by norm_num)).1 this
  refine ⟨by intro h; simpa using congrArg V3.x h, ?_⟩
  rw [h]; norm_num [V3.dot]

/-- C25: at the observer the local line of sight is not defined: `nan`. -/
theorem C25_local_origin (f : Factor) (v : V3 ℝ) : rsdPosition f .none [0] [v] = .error .nan := by
  have : (0 : V3 ℝ).norm = 0 := (V3.norm_eq_zero _).2 rfl
  simp [rsdPosition, Model.normalize, this, bind, Except.bind]

/-- The full statement of C25 for a callable factor and a fixed line of sight. -/
def CallableFactor (f : ℝ → ℝ) (n : V3 ℝ) (pos vel : List (V3 ℝ)) : Prop :=
  rsdPosition (.fn f) (.vec n) pos vel =
    .ok (List.zipWith (fun p v => p + (f p.norm * V3.dot v n) • n) pos vel)

theorem rsd_fn_fixed (f : ℝ → ℝ) {n : V3 ℝ} (h1 : n.norm = 1) (pos vel : List (V3 ℝ)) :
    rsdPosition (.fn f) (.vec n) pos vel =
      (mulRows (vel.map fun v => V3.dot v n • n) (pos.map fun p => f p.norm)).map
        fun r => List.zipWith (· + ·) pos r := by
  have hne : n ≠ 0 := by rintro rfl; rw [(V3.norm_eq_zero _).2 rfl] at h1; norm_num at h1
  have hd : V3.dot n n = 1 := by
    have : V3.dot n n = n.norm ^ 2 := by rw [V3.norm_sq]; simp only [V3.dot]; ring
    rw [this, h1]; norm_num
  have hp : ∀ v, vectorProjection v n = .ok (V3.dot v n • n) := by
    intro v
    obtain ⟨w, hw, -, rfl⟩ := (C25_projection v n).1 hne
    rw [hw, hd, div_one]
  have hm := mapM_ok (fun v => vectorProjection v n) (fun v => V3.dot v n • n) vel (fun v _ => hp v)
  have hl : getLos (.vec n) = .ok n := by
    have : getLos (.vec n) = .ok _ := normalize_eq hne
    rw [this, h1]; congr 1; ext <;> simp
  unfold rsdPosition
  simp only [hl, bind, Except.bind, hm]
  cases mulRows (vel.map fun v => V3.dot v n • n) (pos.map fun p => f p.norm) <;> rfl

/-- C25: a callable factor works for catalogs of one particle. -/
theorem C25_callable_partial (f : ℝ → ℝ) {n : V3 ℝ} (h1 : n.norm = 1) (p v : V3 ℝ) :
    CallableFactor f n [p] [v] := by
  rw [CallableFactor, rsd_fn_fixed f h1]
  simp only [mulRows, List.map_cons, List.map_nil, Except.map, List.zipWith_cons_cons, List.zipWith_nil_left,
    Except.ok.injEq, List.cons.injEq, and_true]
  ext <;> simp [mul_assoc]

/-- C25 is violated for a callable factor: an array of shape (N, 3) is multiplied by one of shape (N,). For two, or four
or more particles, and for none, the call raises. -/
theorem C25_callable_violated (f : ℝ → ℝ) {n : V3 ℝ} (h1 : n.norm = 1) (pos vel : List (V3 ℝ))
    (hl : pos.length ≠ 1 ∧ pos.length ≠ 3) : rsdPosition (.fn f) (.vec n) pos vel = .error .valueError := by
  rw [rsd_fn_fixed f h1]
  match pos, hl with
  | [], _ => rfl
  | [a, b], _ => rfl
  | a :: b :: c :: d :: l, _ => rfl

/-- C25 is violated for three particles and a callable factor: the result is silently wrong, here a displacement scaled
by the value of `f` for another particle. -/
theorem C25_callable_three_violated : ∃ (f : ℝ → ℝ) (n : V3 ℝ) (pos vel : List (V3 ℝ)), n.norm = 1 ∧ pos.length = 3 ∧
    vel.length = 3 ∧ (∃ qs, rsdPosition (.fn f) (.vec n) pos vel = .ok qs) ∧ ¬ CallableFactor f n pos vel := by
  have n1 : (⟨0, 0, 1⟩ : V3 ℝ).norm = 1 := V3.norm_eq_one_of_sq (by norm_num)
  refine ⟨id, ⟨0, 0, 1⟩, [0, 0, ⟨0, 0, 1⟩], [⟨0, 0, 1⟩, 0, 0], n1, rfl, rfl, ?_⟩
  have h0 : (0 : V3 ℝ).norm = 0 := (V3.norm_eq_zero _).2 rfl
  constructor
  · rw [rsd_fn_fixed _ n1]; exact ⟨_, rfl⟩
  · rw [CallableFactor, rsd_fn_fixed _ n1]
    simp only [mulRows, List.map_cons, List.map_nil, Except.map, List.zipWith_cons_cons, List.zipWith_nil_left,
      Except.ok.injEq, List.cons.injEq, and_true, h0, n1, id]
    intro h
    have := congrArg V3.z h.1
    norm_num [V3.dot] at this

/-- C25: the displacement is linear in a constant factor. -/
theorem C25_linear {los : Axis} (hlos : los ≠ .none) {n : V3 ℝ} (hn : getLos los = .ok n) (f g a : ℝ) (p v : V3 ℝ) :
    ∃ q1 q2 q, rsdPosition (.const f) los [p] [v] = .ok [q1] ∧ rsdPosition (.const g) los [p] [v] = .ok [q2] ∧
      rsdPosition (.const (a * f + g)) los [p] [v] = .ok [q] ∧ q - p = a • (q1 - p) + (q2 - p) := by
  refine ⟨_, _, _, C25_fixed hlos hn _ _ _, C25_fixed hlos hn _ _ _, C25_fixed hlos hn _ _ _, ?_⟩
  ext <;> simp <;> ring

end Verif.Props
