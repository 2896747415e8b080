import Verif.Model.Box
import Verif.Spec.Axis
import Verif.Lemmas.Isometry

/-!
# C09: in-place moves of a box catalog
-/

namespace Verif.Props

open Verif Verif.Model Verif.Spec

variable {ρ : Type}

/-- Point in the closed box of the given size and centre. -/
def Inside (size center p : V3 ℝ) : Prop :=
  |p.x - center.x| ≤ size.x / 2 ∧ |p.y - center.y| ≤ size.y / 2 ∧ |p.z - center.z| ≤ size.z / 2

/-- All sides of the box are non-negative. -/
def NonnegSize (size : V3 ℝ) : Prop := 0 ≤ size.x ∧ 0 ≤ size.y ∧ 0 ≤ size.z

/-- Row whose position-like columns went through `f` and whose translation-invariant columns went through `g`. -/
def rowMap (f g : V3 ℝ → V3 ℝ) (r : Row ρ) : Row ρ := ⟨f r.pos, g r.vel, r.vecs.map f, r.tis.map g, r.rest⟩

theorem rowMap_id (r : Row ρ) : rowMap (fun p => p) (fun p => p) r = r := by simp [rowMap]

theorem rowMap_comp (f f' g g' : V3 ℝ → V3 ℝ) (r : Row ρ) :
    rowMap f' g' (rowMap f g r) = rowMap (fun p => f' (f p)) (fun p => g' (g p)) r := by
  simp [rowMap, Function.comp_def]

theorem rowMap_comp_fun (f f' g g' : V3 ℝ → V3 ℝ) :
    (rowMap f' g' ∘ rowMap f g : Row ρ → Row ρ) = rowMap (fun p => f' (f p)) (fun p => g' (g p)) := by
  funext r; exact rowMap_comp f f' g g' r

theorem rowMap_id_fun : (rowMap (fun p => p) (fun p => p) : Row ρ → Row ρ) = id := by
  funext r; exact rowMap_id r

theorem transform_rowMap (R : M3 ℝ) (t : V3 ℝ) :
    (Row.transform ⟨R, t⟩ : Row ρ → Row ρ) = rowMap (fun p => R.mulVec p + t) R.mulVec := by
  funext r; simp [Row.transform, rowMap, Isom.transform]

/-- C09: `translate` moves the box and the position-like columns by the designated vector, and nothing else. -/
theorem C09_translate (b : Box ρ) {s : Isom.Shift} {a : Isom.TAxis} {v : V3 ℝ} (h : ShiftMeans s a v) :
    b.translate s a =
      (⟨b.boxsize, b.boxcenter + v, b.rows.map (rowMap (fun p => p + v) (fun p => p))⟩, none) := by
  have h1 : (1 : M3 ℝ).mulVec = fun p => p := by funext p; exact M3.one_mulVec p
  simp [Box.translate, Isom.translation, shiftMeans_vector h, Isom.init, Isom.transform, transform_rowMap, h1]

/-- C09: a rejected `translate` leaves the catalog alone; it is rejected exactly when a 3-vector comes with an axis, or
the axis is not one of the three. -/
theorem C09_translate_rejected (b : Box ρ) (s : Isom.Shift) (a : Isom.TAxis) (e : Err)
    (h : (b.translate s a).2 = some e) : (b.translate s a).1 = b := by
  unfold Box.translate at h ⊢
  split <;> simp_all

/-- C09: `recenter` puts the centre at the origin and subtracts the former centre from position-like columns. -/
theorem C09_recenter (b : Box ρ) :
    b.recenter = (⟨b.boxsize, 0, b.rows.map (rowMap (fun p => p - b.boxcenter) (fun p => p))⟩, none) := by
  rw [Box.recenter, C09_translate b (ShiftMeans.vec _)]
  simp [sub_eq_add_neg]

/-- C09: `translate(s)` then `translate(-s)` gives the catalog back. -/
theorem C09_translate_back (b : Box ρ) (v : V3 ℝ) :
    ((b.translate (.vec v) .none).1.translate (.vec (-v)) .none) = (b, none) := by
  rw [C09_translate b (ShiftMeans.vec _), C09_translate _ (ShiftMeans.vec _)]
  simp [rowMap_comp_fun, rowMap_id_fun]

/-- C09: same along one axis. -/
theorem C09_translate_back_axis (b : Box ρ) (x : ℝ) {a : Isom.TAxis} {v w : V3 ℝ} (h : ShiftMeans (.scalar x) a v)
    (h' : ShiftMeans (.scalar (-x)) a w) : ((b.translate (.scalar x) a).1.translate (.scalar (-x)) a) = (b, none) := by
  have : w = -v := by
    have hw := shiftMeans_vector h'
    cases h <;> simp [Isom.shiftVector, xyzIndex, unitAt, V3.const, bind, Except.bind] at hw <;> rw [← hw] <;>
      ext <;> simp
  subst this
  rw [C09_translate b h, C09_translate _ h']
  simp [rowMap_comp_fun, rowMap_id_fun]

theorem Isom.rotation_init {a : Axis} {n : V3 ℝ} (h : getLos a = .ok n) (t : ℝ) (f : Isom.Frame) :
    Isom.init.rotation t a false f = (⟨axisMat n t, 0⟩, none) := by
  rw [rotation_ok h]
  simp [Isom.dot, Isom.init, radians, M3.mul_one', M3.mulVec_zero]

theorem rotate_of_getLos (b : Box ρ) (k : ℤ) {a : Axis} {n : V3 ℝ} (h : getLos a = .ok n) :
    b.rotate k a = (⟨(rodrigues n (k * Real.pi / 2) b.boxsize).map abs, rodrigues n (k * Real.pi / 2) b.boxcenter,
      b.rows.map (rowMap (rodrigues n (k * Real.pi / 2)) (rodrigues n (k * Real.pi / 2)))⟩, none) := by
  have hR : (axisMat n (k * Real.pi / 2)).mulVec = rodrigues n (k * Real.pi / 2) := by
    funext p; exact axisMat_mulVec _ p
  simp [Box.rotate, Isom.rotation_init h, Isom.transform, transform_rowMap, hR]

/-- C09: `rotate(k, axis)` rotates the centre and all the vector columns by k quarter turns about the axis through the
origin; the box size becomes the absolute values of the rotated box size. -/
theorem C09_rotate (b : Box ρ) (k : ℤ) {a : Axis} {n : V3 ℝ} (h : AxisMeans a n) :
    b.rotate k a = (⟨(rodrigues n (k * Real.pi / 2) b.boxsize).map abs, rodrigues n (k * Real.pi / 2) b.boxcenter,
      b.rows.map (rowMap (rodrigues n (k * Real.pi / 2)) (rodrigues n (k * Real.pi / 2)))⟩, none) :=
  rotate_of_getLos b k (axisMeans_getLos h)

/-- The three coordinate axes. -/
def Coord (n : V3 ℝ) : Prop := n = ⟨1, 0, 0⟩ ∨ n = ⟨0, 1, 0⟩ ∨ n = ⟨0, 0, 1⟩

theorem one_of_sq {x : ℝ} (h : x ^ 2 = 1) : x = 1 ∨ x = -1 := by
  have : (x - 1) * (x + 1) = 0 := by linarith [sq_nonneg x, show (x - 1) * (x + 1) = x ^ 2 - 1 by ring]
  rcases mul_eq_zero.1 this with h | h
  · left; linarith
  · right; linarith

/-- cosine and sine of k quarter turns. -/
theorem quarter (k : ℤ) :
    (Even k ∧ Real.sin (k * Real.pi / 2) = 0 ∧ (Real.cos (k * Real.pi / 2) = 1 ∨ Real.cos (k * Real.pi / 2) = -1)) ∨
    (¬ Even k ∧ Real.cos (k * Real.pi / 2) = 0 ∧ (Real.sin (k * Real.pi / 2) = 1 ∨ Real.sin (k * Real.pi / 2) = -1)) := by
  have h1 := Real.sin_sq_add_cos_sq (k * Real.pi / 2)
  by_cases hk : Even k
  · left
    obtain ⟨m, rfl⟩ := hk
    have : ((m + m : ℤ) : ℝ) * Real.pi / 2 = m * Real.pi := by push_cast; ring
    rw [this] at h1 ⊢
    have hs : Real.sin (m * Real.pi) = 0 := Real.sin_int_mul_pi m
    refine ⟨⟨m, rfl⟩, hs, ?_⟩
    rw [hs] at h1
    exact one_of_sq (by linarith)
  · right
    obtain ⟨m, rfl⟩ := Int.not_even_iff_odd.1 hk
    have : ((2 * m + 1 : ℤ) : ℝ) * Real.pi / 2 = m * Real.pi + Real.pi / 2 := by push_cast; ring
    rw [this] at h1 ⊢
    have hc : Real.cos (m * Real.pi + Real.pi / 2) = 0 := by
      rw [Real.cos_add_pi_div_two, Real.sin_int_mul_pi]; simp
    refine ⟨hk, hc, ?_⟩
    rw [hc] at h1
    exact one_of_sq (by linarith)

/-- Components of a vector turned by `t` about a coordinate axis. -/
theorem rodrigues_x (t : ℝ) (p : V3 ℝ) : rodrigues ⟨1, 0, 0⟩ t p =
    ⟨p.x, Real.cos t * p.y - Real.sin t * p.z, Real.sin t * p.y + Real.cos t * p.z⟩ := by
  ext <;> simp [rodrigues, V3.cross, V3.dot] <;> ring

theorem rodrigues_y (t : ℝ) (p : V3 ℝ) : rodrigues ⟨0, 1, 0⟩ t p =
    ⟨Real.cos t * p.x + Real.sin t * p.z, p.y, -Real.sin t * p.x + Real.cos t * p.z⟩ := by
  ext <;> simp [rodrigues, V3.cross, V3.dot] <;> ring

theorem rodrigues_z (t : ℝ) (p : V3 ℝ) : rodrigues ⟨0, 0, 1⟩ t p =
    ⟨Real.cos t * p.x - Real.sin t * p.y, Real.sin t * p.x + Real.cos t * p.y, p.z⟩ := by
  ext <;> simp [rodrigues, V3.cross, V3.dot] <;> ring

theorem rodrigues_sub (n : V3 ℝ) (t : ℝ) (p q : V3 ℝ) : rodrigues n t (p - q) = rodrigues n t p - rodrigues n t q := by
  ext <;> simp [rodrigues, V3.cross, V3.dot] <;> ring

/-- C09: the box size after k quarter turns about a coordinate axis: unchanged for even k, the two other sides swapped for
odd k. -/
theorem C09_rotate_size (k : ℤ) (L : V3 ℝ) (hL : NonnegSize L) :
    ((rodrigues ⟨1, 0, 0⟩ (k * Real.pi / 2) L).map abs = if Even k then L else ⟨L.x, L.z, L.y⟩) ∧
    ((rodrigues ⟨0, 1, 0⟩ (k * Real.pi / 2) L).map abs = if Even k then L else ⟨L.z, L.y, L.x⟩) ∧
    ((rodrigues ⟨0, 0, 1⟩ (k * Real.pi / 2) L).map abs = if Even k then L else ⟨L.y, L.x, L.z⟩) := by
  obtain ⟨hx, hy, hz⟩ := hL
  rw [rodrigues_x, rodrigues_y, rodrigues_z]
  rcases quarter k with ⟨hk, hs, hc | hc⟩ | ⟨hk, hc, hs | hs⟩ <;>
    simp [hk, hs, hc, V3.map, abs_of_nonneg hx, abs_of_nonneg hy, abs_of_nonneg hz]

/-- A point relative to the centre is in the box iff the point turned by quarter turns is in the turned box. -/
theorem inside_rotate (k : ℤ) {n : V3 ℝ} (hn : Coord n) (L c p : V3 ℝ) (hL : NonnegSize L) :
    Inside ((rodrigues n (k * Real.pi / 2) L).map abs) (rodrigues n (k * Real.pi / 2) c)
      (rodrigues n (k * Real.pi / 2) p) ↔ Inside L c p := by
  obtain ⟨h1, h2, h3⟩ := C09_rotate_size k L hL
  have e' : ∀ a b : ℝ, |-a + b| = |a - b| := fun a b => by rw [← abs_neg]; congr 1; ring
  rcases hn with rfl | rfl | rfl
  · rw [h1, rodrigues_x, rodrigues_x]
    rcases quarter k with ⟨hk, hs, hc | hc⟩ | ⟨hk, hc, hs | hs⟩ <;>
      simp [hk, hs, hc, Inside, e'] <;> tauto
  · rw [h2, rodrigues_y, rodrigues_y]
    rcases quarter k with ⟨hk, hs, hc | hc⟩ | ⟨hk, hc, hs | hs⟩ <;>
      simp [hk, hs, hc, Inside, e'] <;> tauto
  · rw [h3, rodrigues_z, rodrigues_z]
    rcases quarter k with ⟨hk, hs, hc | hc⟩ | ⟨hk, hc, hs | hs⟩ <;>
      simp [hk, hs, hc, Inside, e'] <;> tauto

/-- A string or an integer designates a coordinate axis or is rejected. -/
theorem getLos_coord {a : Axis} {n : V3 ℝ} (ha : (∃ s, a = .str s) ∨ ∃ i, a = .idx i) (h : getLos a = .ok n) :
    Coord n := by
  have unit : ∀ i n', (do Model.normalize (← unitAt i (1 : ℝ))) = Except.ok n' → Coord n' := by
    intro i n' h
    have k1 : Model.normalize ⟨1, 0, 0⟩ = .ok ⟨1, 0, 0⟩ := normalize_unit (by norm_num)
    have k2 : Model.normalize ⟨0, 1, 0⟩ = .ok ⟨0, 1, 0⟩ := normalize_unit (by norm_num)
    have k3 : Model.normalize ⟨0, 0, 1⟩ = .ok ⟨0, 0, 1⟩ := normalize_unit (by norm_num)
    unfold unitAt at h
    split at h
    · simp only [bind, Except.bind, k1, Except.ok.injEq] at h; exact Or.inl h.symm
    split at h
    · simp only [bind, Except.bind, k2, Except.ok.injEq] at h; exact Or.inr (Or.inl h.symm)
    split at h
    · simp only [bind, Except.bind, k3, Except.ok.injEq] at h; exact Or.inr (Or.inr h.symm)
    · simp [bind, Except.bind] at h
  rcases ha with ⟨s, rfl⟩ | ⟨i, rfl⟩
  · simp only [getLos] at h
    cases hx : xyzIndex s with
    | error e => simp [hx, bind, Except.bind] at h
    | ok i => rw [hx] at h; exact unit i n h
  · exact unit i n h

/-- The moves as documented: any translation, `recenter`, and `rotate` about an axis given by a string or an integer. -/
def Documented : Box.Move → Prop
  | .translate _ _ => True
  | .recenter => True
  | .rotate _ a => (∃ s, a = .str s) ∨ ∃ i, a = .idx i

/-- What a history of moves does: one rotation `R` such that positions relative to the box centre and
translation-invariant columns are turned by `R`, other columns and the number and order of rows are unchanged, and a point
is in the box iff its image is in the moved box; the volume is unchanged. -/
structure Moved (b b' : Box ρ) (R : V3 ℝ → V3 ℝ) : Prop where
  rotation : LinearRotation R
  rows : b'.rows = b.rows.map (rowMap (fun p => b'.boxcenter + R (p - b.boxcenter)) R)
  inside : ∀ p, Inside b.boxsize b.boxcenter p ↔ Inside b'.boxsize b'.boxcenter (b'.boxcenter + R (p - b.boxcenter))
  volume : b'.boxsize.x * b'.boxsize.y * b'.boxsize.z = b.boxsize.x * b.boxsize.y * b.boxsize.z

theorem Moved.refl (b : Box ρ) : Moved b b (fun p => p) where
  rotation := ⟨fun _ _ _ => rfl, fun _ _ => rfl, fun _ _ _ => rfl⟩
  rows := by
    have : (fun p : V3 ℝ => b.boxcenter + (p - b.boxcenter)) = fun p => p := by funext p; abel
    rw [this, rowMap_id_fun, List.map_id]
  inside p := by
    have : b.boxcenter + (p - b.boxcenter) = p := by abel
    rw [this]
  volume := rfl

theorem LinearRotation.comp {f g : V3 ℝ → V3 ℝ} (hf : LinearRotation f) (hg : LinearRotation g) :
    LinearRotation (fun p => g (f p)) := by
  obtain ⟨f1, f2, f3⟩ := hf
  obtain ⟨g1, g2, g3⟩ := hg
  refine ⟨fun a p q => ?_, fun p q => ?_, fun a b c => ?_⟩
  · simp only [f1, g1]
  · simp only [g2, f2]
  · simp only [g3, f3]

theorem Moved.trans {b1 b2 b3 : Box ρ} {R S : V3 ℝ → V3 ℝ} (h : Moved b1 b2 R) (h' : Moved b2 b3 S) :
    Moved b1 b3 (fun p => S (R p)) where
  rotation := LinearRotation.comp h.rotation h'.rotation
  rows := by
    rw [h'.rows, h.rows, List.map_map, rowMap_comp_fun]
    congr 2
    funext p
    congr 2
    abel
  inside p := by
    rw [h.inside, h'.inside]
    have : b2.boxcenter + R (p - b1.boxcenter) - b2.boxcenter = R (p - b1.boxcenter) := by abel
    rw [this]
  volume := by rw [h'.volume, h.volume]

theorem linearRotation_rodrigues {n : V3 ℝ} (hn : n.x ^ 2 + n.y ^ 2 + n.z ^ 2 = 1) (t : ℝ) :
    LinearRotation (rodrigues n t) := by
  have := linearRotation_of_isRot (axisMat_isRot hn t)
  have e : (axisMat n t).mulVec = rodrigues n t := by funext p; exact axisMat_mulVec t p
  rwa [e] at this

theorem moved_shift (b : Box ρ) (v : V3 ℝ) :
    Moved b ⟨b.boxsize, b.boxcenter + v, b.rows.map (rowMap (fun p => p + v) (fun p => p))⟩ (fun p => p) where
  rotation := (Moved.refl b).rotation
  rows := by
    simp only
    congr 2
    funext p
    abel
  inside p := by
    have e : ∀ a b c : ℝ, |a + b + (c - a) - (a + b)| = |c - a| := fun a b c => by congr 1; ring
    simp [Inside]
  volume := rfl

theorem moved_move (b : Box ρ) (hb : NonnegSize b.boxsize) (op : Box.Move) (hop : Documented op) :
    (∃ R, Moved b (b.move op).1 R) ∧ NonnegSize (b.move op).1.boxsize := by
  have key : ∀ v s a, Isom.shiftVector s a = .ok v → b.translate s a =
      (⟨b.boxsize, b.boxcenter + v, b.rows.map (rowMap (fun p => p + v) (fun p => p))⟩, none) := by
    intro v s a h
    have h1 : (1 : M3 ℝ).mulVec = fun p => p := by funext p; exact M3.one_mulVec p
    simp [Box.translate, Isom.translation, h, Isom.init, Isom.transform, transform_rowMap, h1]
  have tr : ∀ s a, (∃ R, Moved b (b.translate s a).1 R) ∧ NonnegSize (b.translate s a).1.boxsize := by
    intro s a
    cases h : Isom.shiftVector s a with
    | error e =>
      have : b.translate s a = (b, some e) := by simp [Box.translate, Isom.translation, h]
      rw [this]
      exact ⟨⟨_, Moved.refl b⟩, hb⟩
    | ok v =>
      rw [key v s a h]
      exact ⟨⟨_, moved_shift b v⟩, hb⟩
  cases op with
  | translate s a => exact tr s a
  | recenter => exact tr _ _
  | rotate k a =>
    simp only [Box.move]
    cases h : getLos a with
    | error e =>
      have : b.rotate k a = (b, some e) := by simp [Box.rotate, Isom.rotation, h]
      rw [this]
      exact ⟨⟨_, Moved.refl b⟩, hb⟩
    | ok n =>
      have hn := getLos_coord hop h
      have hu := getLos_unit h
      rw [rotate_of_getLos b k h]
      refine ⟨⟨rodrigues n (k * Real.pi / 2), linearRotation_rodrigues hu _, ?_, ?_, ?_⟩, ?_⟩
      · simp only
        congr 2
        funext p
        rw [rodrigues_sub]
        abel
      · intro p
        rw [← inside_rotate k hn b.boxsize b.boxcenter p hb, rodrigues_sub]
        simp
      · obtain ⟨h1, h2, h3⟩ := C09_rotate_size k b.boxsize hb
        rcases hn with rfl | rfl | rfl
        · simp only [h1]; split <;> ring
        · simp only [h2]; split <;> ring
        · simp only [h3]; split <;> ring
      · exact ⟨abs_nonneg _, abs_nonneg _, abs_nonneg _⟩

/-- C09: any history of translations, recentrings and quarter turns (rejected calls included) turns the catalog rigidly
with its box: positions relative to the centre and velocities are rotated only, a point is inside the box before iff its
image is inside the box after, and the volume of the box does not change. -/
theorem C09_history (b : Box ρ) (hb : NonnegSize b.boxsize) (ops : List Box.Move) (hops : ∀ op ∈ ops, Documented op) :
    ∃ R, Moved b (b.run ops) R := by
  unfold Box.run
  induction ops generalizing b with
  | nil => exact ⟨_, Moved.refl b⟩
  | cons op ops ih =>
    obtain ⟨⟨R, hR⟩, hb'⟩ := moved_move b hb op (hops op (by simp))
    obtain ⟨S, hS⟩ := ih (b.move op).1 hb' (fun o ho => hops o (by simp [ho]))
    exact ⟨_, hR.trans hS⟩

/-- C09: where the box is after a history: each translation adds its vector to the centre, recentring puts it at the origin, a rotation
turns it; and columns follow. -/
theorem C09_history_steps (b : Box ρ) (ops : List Box.Move) :
    (∀ s a v, ShiftMeans s a v → b.run (ops ++ [.translate s a]) =
      ⟨(b.run ops).boxsize, (b.run ops).boxcenter + v, (b.run ops).rows.map (rowMap (fun p => p + v) (fun p => p))⟩) ∧
    b.run (ops ++ [.recenter]) =
      ⟨(b.run ops).boxsize, 0, (b.run ops).rows.map (rowMap (fun p => p - (b.run ops).boxcenter) (fun p => p))⟩ ∧
    ∀ (k : ℤ) (a : Axis) (n : V3 ℝ), AxisMeans a n → b.run (ops ++ [.rotate k a]) =
      ⟨(rodrigues n (k * Real.pi / 2) (b.run ops).boxsize).map abs, rodrigues n (k * Real.pi / 2) (b.run ops).boxcenter,
        (b.run ops).rows.map (rowMap (rodrigues n (k * Real.pi / 2)) (rodrigues n (k * Real.pi / 2)))⟩ := by
  have h : ∀ op, b.run (ops ++ [op]) = ((b.run ops).move op).1 := fun op => by simp [Box.run]
  refine ⟨fun s a v hv => ?_, ?_, fun k a n hn => ?_⟩
  · rw [h, Box.move, C09_translate _ hv]
  · rw [h, Box.move, C09_recenter]
  · rw [h, Box.move, C09_rotate _ k hn]

/-- C09: every particle in the box before a history of moves is in the box after; the norms of velocities are unchanged. -/
theorem C09_contained (b : Box ρ) (hb : NonnegSize b.boxsize) (ops : List Box.Move) (hops : ∀ op ∈ ops, Documented op)
    (hin : ∀ r ∈ b.rows, Inside b.boxsize b.boxcenter r.pos) :
    (∀ r ∈ (b.run ops).rows, Inside (b.run ops).boxsize (b.run ops).boxcenter r.pos) ∧
    (b.run ops).rows.map (fun r => r.vel.norm) = b.rows.map (fun r => r.vel.norm) := by
  obtain ⟨R, hR⟩ := C09_history b hb ops hops
  constructor
  · intro r hr
    rw [hR.rows, List.mem_map] at hr
    obtain ⟨r0, h0, rfl⟩ := hr
    exact (hR.inside _).1 (hin r0 h0)
  · rw [hR.rows, List.map_map]
    apply List.map_congr_left
    intro r _
    have := hR.rotation.2.1 r.vel r.vel
    simp only [Function.comp, rowMap, V3.norm]
    congr 1
    simpa [V3.dot, sq] using this

/-- C09: turns about one axis add up, and a multiple of four quarter turns restores the catalog. -/
theorem C09_turns (b : Box ρ) (hb : NonnegSize b.boxsize) {a : Axis} {n : V3 ℝ} (h : AxisMeans a n) (hn : Coord n)
    (k l : ℤ) : ((b.rotate k a).1.rotate l a = b.rotate (k + l) a) ∧ b.rotate (4 * k) a = (b, none) := by
  have hu := axisMeans_unit h
  have hadd : ∀ s t p, rodrigues n t (rodrigues n s p) = rodrigues n (s + t) p := by
    intro s t p
    rw [← axisMat_mulVec, ← axisMat_mulVec, ← M3.mulVec_mul, axisMat_add hu, axisMat_mulVec, add_comm]
  have h0 : ∀ k : ℤ, rodrigues n ((4 * k : ℤ) * Real.pi / 2) = fun p => p := by
    intro k
    have e : ((4 * k : ℤ) : ℝ) * Real.pi / 2 = k * (2 * Real.pi) := by push_cast; ring
    have hc : Real.cos (k * (2 * Real.pi)) = 1 := Real.cos_int_mul_two_pi k
    have hs : Real.sin (k * (2 * Real.pi)) = 0 := by
      have := Real.sin_int_mul_pi (2 * k)
      rw [← this]; congr 1; push_cast; ring
    funext p
    rw [e]
    ext <;> simp [rodrigues, hc, hs]
  have ekl : ((k + l : ℤ) : ℝ) * Real.pi / 2 = k * Real.pi / 2 + l * Real.pi / 2 := by push_cast; ring
  constructor
  · rw [C09_rotate b k h, C09_rotate _ l h, C09_rotate b (k + l) h, ekl]
    have hsz : (rodrigues n (l * Real.pi / 2) ((rodrigues n (k * Real.pi / 2) b.boxsize).map abs)).map abs
        = (rodrigues n (k * Real.pi / 2 + l * Real.pi / 2) b.boxsize).map abs := by
      rw [← ekl]
      have hkn : NonnegSize ((rodrigues n (k * Real.pi / 2) b.boxsize).map abs) :=
        ⟨abs_nonneg _, abs_nonneg _, abs_nonneg _⟩
      obtain ⟨h1, h2, h3⟩ := C09_rotate_size k b.boxsize hb
      obtain ⟨l1, l2, l3⟩ := C09_rotate_size l _ hkn
      obtain ⟨s1, s2, s3⟩ := C09_rotate_size (k + l) b.boxsize hb
      rcases hn with rfl | rfl | rfl
      · rw [l1, s1, h1]; by_cases hk : Even k <;> by_cases hl : Even l <;> simp [hk, hl, Int.even_add]
      · rw [l2, s2, h2]; by_cases hk : Even k <;> by_cases hl : Even l <;> simp [hk, hl, Int.even_add]
      · rw [l3, s3, h3]; by_cases hk : Even k <;> by_cases hl : Even l <;> simp [hk, hl, Int.even_add]
    simp only [List.map_map, rowMap_comp_fun, hadd, hsz]
  · rw [C09_rotate b (4 * k) h, h0]
    have : b.boxsize.map abs = b.boxsize := by
      ext <;> simp [hb.1, hb.2.1, hb.2.2]
    simp [this, rowMap_id_fun]

/-- C09 refuted for the default `axis=None` (documented as "angle is applied to all axes"): the box is turned about the
diagonal (1, 1, 1), the box size and centre do not follow, and a particle of the box ends up outside. -/
theorem C09_no_axis_violated : ∃ b : Box Unit, NonnegSize b.boxsize ∧ (∀ r ∈ b.rows, Inside b.boxsize b.boxcenter r.pos) ∧
    ¬ ∀ r ∈ (b.rotate 1 .none).1.rows, Inside (b.rotate 1 .none).1.boxsize (b.rotate 1 .none).1.boxcenter r.pos := by
  let n : V3 ℝ := ⟨1 / Real.sqrt 3, 1 / Real.sqrt 3, 1 / Real.sqrt 3⟩
  have h3 : Real.sqrt 3 * Real.sqrt 3 = 3 := Real.mul_self_sqrt (by norm_num)
  have h0 : 0 < Real.sqrt 3 := Real.sqrt_pos.2 (by norm_num)
  have hlt : Real.sqrt 3 < 2 := by nlinarith
  have hq : 1 / Real.sqrt 3 * (1 / Real.sqrt 3) = 1 / 3 := by field_simp; linarith
  have hlos : getLos .none = .ok n := by
    have hn : (⟨1, 1, 1⟩ : V3 ℝ).norm = Real.sqrt 3 := by simp [V3.norm]; norm_num
    simp only [getLos, Model.normalize, hn, if_neg h0.ne', n]
  let b : Box Unit := ⟨⟨1, 1, 1⟩, 0, [⟨⟨1 / 2, 1 / 2, -1 / 2⟩, 0, [], [], ()⟩]⟩
  refine ⟨b, ?_, ?_, ?_⟩
  · norm_num [NonnegSize, b]
  · intro r hr
    simp only [b, List.mem_singleton] at hr
    subst hr
    norm_num [Inside, b, abs_of_nonneg, abs_of_neg]
  · intro hall
    rw [rotate_of_getLos b 1 hlos] at hall
    have hpi : ((1 : ℤ) : ℝ) * Real.pi / 2 = Real.pi / 2 := by push_cast; ring
    have := hall (rowMap (rodrigues n (Real.pi / 2)) (rodrigues n (Real.pi / 2)) ⟨⟨1 / 2, 1 / 2, -1 / 2⟩, 0, [], [], ()⟩)
      (by simp [b])
    obtain ⟨-, hy, -⟩ := this
    rw [hpi] at hy
    have hrot : ∀ p : V3 ℝ, (rodrigues n (Real.pi / 2) p).y
        = 1 / Real.sqrt 3 * p.x - 1 / Real.sqrt 3 * p.z + 1 / 3 * (p.x + p.y + p.z) := by
      intro p
      simp only [rodrigues, Real.cos_pi_div_two, Real.sin_pi_div_two, V3.cross, V3.dot, n, V3.add_y, V3.smul_y]
      linear_combination (p.x + p.y + p.z) * hq
    simp only [rowMap, V3.map_y, hrot, b, V3.zero_x, V3.zero_y, V3.zero_z] at hy
    have hhalf : 1 / 2 < 1 / Real.sqrt 3 := by
      rw [div_lt_div_iff₀ (by norm_num) h0]; linarith
    have h1 := le_of_abs_le hy
    norm_num [abs_of_nonneg] at h1
    have : (1 : ℝ) / Real.sqrt 3 = (Real.sqrt 3)⁻¹ := one_div _
    linarith

/-- Witness for the hypotheses of C09: a box with distinct sides, off-centre, one particle on a face, and a history with
all the kinds of moves (one of them rejected). -/
example : ∃ (b : Box String) (ops : List Box.Move), NonnegSize b.boxsize ∧ (∀ op ∈ ops, Documented op) ∧
    (∀ r ∈ b.rows, Inside b.boxsize b.boxcenter r.pos) ∧ b.rows ≠ [] ∧ ops.length = 4 := by
  refine ⟨⟨⟨1, 2, 4⟩, ⟨10, 0, 0⟩, [⟨⟨21 / 2, 1, -1⟩, ⟨1, 2, 3⟩, [⟨1, 0, 0⟩], [], "id"⟩]⟩,
    [.translate (.scalar 3) (.str "x"), .rotate 1 (.str "z"), .rotate 7 (.idx 5), .recenter], ?_, ?_, ?_, by simp, rfl⟩
  · norm_num [NonnegSize]
  · intro op hop
    simp only [List.mem_cons, List.not_mem_nil, or_false] at hop
    rcases hop with rfl | rfl | rfl | rfl <;> simp [Documented]
  · intro r hr
    simp only [List.mem_singleton] at hr
    subst hr
    norm_num [Inside, abs_of_nonneg]

end Verif.Props
