import Verif.Props.Box
import Verif.Props.Remap

/-!
# C16, C17, C65: sub-boxes, padding and remapping of box catalogs
-/

namespace Verif.Props

open Verif Verif.Model Verif.Spec
open Remap (Cuboid det3 toReal)

variable {ρ : Type}

/-- Limits designated by a range: in units of the box, from its lower edge, or absolute. -/
noncomputable def limits (size center : ℝ) (unit : Bool) (r : ℝ × ℝ) : ℝ × ℝ :=
  if unit then (center - size / 2 + r.1 * size, center - size / 2 + r.2 * size) else r

/-- `lo <= x < hi`. -/
def Within (l : ℝ × ℝ) (x : ℝ) : Prop := l.1 ≤ x ∧ x < l.2

open Classical in
/-- C16: `subbox` keeps, in order, exactly the rows with min <= x < max on each axis; the edges of its box are those of the
range intersected with those of the current box. -/
theorem C16_exact (b : Box ρ) (u : Bool) (r0 r1 r2 : ℝ × ℝ) :
    ∃ b', b.subbox (.many [r0, r1, r2]) u = .ok b' ∧
      b'.rows = b.rows.filter (fun r => decide (Within (limits b.boxsize.x b.boxcenter.x u r0) r.pos.x ∧
        Within (limits b.boxsize.y b.boxcenter.y u r1) r.pos.y ∧
        Within (limits b.boxsize.z b.boxcenter.z u r2) r.pos.z)) ∧
      (b'.boxcenter.x - b'.boxsize.x / 2 =
          max (b.boxcenter.x - b.boxsize.x / 2) (limits b.boxsize.x b.boxcenter.x u r0).1 ∧
        b'.boxcenter.x + b'.boxsize.x / 2 =
          min (b.boxcenter.x + b.boxsize.x / 2) (limits b.boxsize.x b.boxcenter.x u r0).2) ∧
      (b'.boxcenter.y - b'.boxsize.y / 2 =
          max (b.boxcenter.y - b.boxsize.y / 2) (limits b.boxsize.y b.boxcenter.y u r1).1 ∧
        b'.boxcenter.y + b'.boxsize.y / 2 =
          min (b.boxcenter.y + b.boxsize.y / 2) (limits b.boxsize.y b.boxcenter.y u r1).2) ∧
      (b'.boxcenter.z - b'.boxsize.z / 2 =
          max (b.boxcenter.z - b.boxsize.z / 2) (limits b.boxsize.z b.boxcenter.z u r2).1 ∧
        b'.boxcenter.z + b'.boxsize.z / 2 =
          min (b.boxcenter.z + b.boxsize.z / 2) (limits b.boxsize.z b.boxcenter.z u r2).2) := by
  have e : ∀ a b c : ℝ, a * b + c = c + b * a := fun a b c => by ring
  refine ⟨_, rfl, ?_, ?_, ?_, ?_⟩
  · cases u <;> simp [limits, Within, Box.lower, e]
  all_goals
    cases u <;> simp [limits, Box.lower, Box.upper, e] <;> constructor <;> ring

/-- C16: one range stands for the three axes; any other number of ranges is rejected. -/
theorem C16_arguments (b : Box ρ) (u : Bool) :
    (∀ lo hi, b.subbox (.one lo hi) u = b.subbox (.many [(lo, hi), (lo, hi), (lo, hi)]) u) ∧
    ∀ l : List (ℝ × ℝ), l.length ≠ 3 → b.subbox (.many l) u = .error .valueError := by
  refine ⟨fun _ _ => rfl, fun l hl => ?_⟩
  match l, hl with
  | [], _ => rfl
  | [_], _ => rfl
  | [_, _], _ => rfl
  | [_, _, _], h => exact absurd rfl h
  | _ :: _ :: _ :: _ :: _, _ => rfl

theorem inside_iff_edges (L c p : V3 ℝ) : Inside L c p ↔
    (c.x - L.x / 2 ≤ p.x ∧ p.x ≤ c.x + L.x / 2) ∧ (c.y - L.y / 2 ≤ p.y ∧ p.y ≤ c.y + L.y / 2) ∧
      (c.z - L.z / 2 ≤ p.z ∧ p.z ≤ c.z + L.z / 2) := by
  simp only [Inside, abs_le]
  constructor
  · rintro ⟨⟨_, _⟩, ⟨_, _⟩, _, _⟩
    refine ⟨⟨?_, ?_⟩, ⟨?_, ?_⟩, ?_, ?_⟩ <;> linarith
  · rintro ⟨⟨_, _⟩, ⟨_, _⟩, _, _⟩
    refine ⟨⟨?_, ?_⟩, ⟨?_, ?_⟩, ?_, ?_⟩ <;> linarith

/-- C16: the box of the sub-catalog contains every kept particle that was in the box. -/
theorem C16_contained (b : Box ρ) (u : Bool) (ranges : Box.Ranges) (b' : Box ρ) (h : b.subbox ranges u = .ok b')
    (r : Row ρ) (hr : r ∈ b'.rows) (hin : Inside b.boxsize b.boxcenter r.pos) : Inside b'.boxsize b'.boxcenter r.pos := by
  classical
  have main : ∀ r0 r1 r2, b.subbox (.many [r0, r1, r2]) u = .ok b' → Inside b'.boxsize b'.boxcenter r.pos := by
    intro r0 r1 r2 h
    obtain ⟨b'', h'', hrows, ⟨x0, x1⟩, ⟨y0, y1⟩, z0, z1⟩ := C16_exact b u r0 r1 r2
    rw [h''] at h
    cases h
    rw [hrows, List.mem_filter] at hr
    have hw := of_decide_eq_true hr.2
    rw [inside_iff_edges] at hin ⊢
    obtain ⟨⟨_, _⟩, ⟨_, _⟩, _, _⟩ := hin
    obtain ⟨⟨_, _⟩, ⟨_, _⟩, _, _⟩ := hw
    rw [x0, x1, y0, y1, z0, z1]
    refine ⟨⟨max_le ?_ ?_, le_min ?_ ?_⟩, ⟨max_le ?_ ?_, le_min ?_ ?_⟩, max_le ?_ ?_, le_min ?_ ?_⟩ <;>
      first | assumption | (apply le_of_lt; assumption)
  cases ranges with
  | one lo hi => exact main _ _ _ h
  | many l =>
    by_cases hl : l.length = 3
    · match l, hl with
      | [r0, r1, r2], _ => exact main _ _ _ h
    · rw [(C16_arguments b u).2 l hl] at h
      cases h

theorem limits_mono {size : ℝ} (hs : 0 ≤ size) (c : ℝ) (u : Bool) {a m : ℝ} (h : a ≤ m) (d e : ℝ) :
    (limits size c u (a, d)).1 ≤ (limits size c u (m, e)).1 := by
  cases u
  · simpa [limits]
  · simp only [limits, if_true]
    nlinarith

theorem limits_shared (size c : ℝ) (u : Bool) (a m d : ℝ) :
    (limits size c u (a, m)).2 = (limits size c u (m, d)).1 ∧ (limits size c u (a, d)).1 = (limits size c u (a, m)).1 ∧
    (limits size c u (a, d)).2 = (limits size c u (m, d)).2 := by
  cases u <;> simp [limits]

open Classical in
/-- C16: cutting one range in two cuts the catalog in two: the rows of the whole range are those of the two halves, each row
in exactly one of them (here along x). -/
theorem C16_split_x (b : Box ρ) (hb : NonnegSize b.boxsize) (u : Bool) (a m d : ℝ) (ham : a ≤ m) (hmd : m ≤ d)
    (r1 r2 : ℝ × ℝ) : ∃ b1 b2 b12, b.subbox (.many [(a, m), r1, r2]) u = .ok b1 ∧
      b.subbox (.many [(m, d), r1, r2]) u = .ok b2 ∧ b.subbox (.many [(a, d), r1, r2]) u = .ok b12 ∧
      ∃ t, b1.rows = b12.rows.filter (fun r => decide (r.pos.x < t)) ∧
        b2.rows = b12.rows.filter (fun r => decide (t ≤ r.pos.x)) := by
  obtain ⟨b1, h1, e1, -⟩ := C16_exact b u (a, m) r1 r2
  obtain ⟨b2, h2, e2, -⟩ := C16_exact b u (m, d) r1 r2
  obtain ⟨b12, h12, e12, -⟩ := C16_exact b u (a, d) r1 r2
  obtain ⟨s1, s2, s3⟩ := limits_shared b.boxsize.x b.boxcenter.x u a m d
  have o1 := limits_mono hb.1 b.boxcenter.x u ham m d
  have o2 := limits_mono hb.1 b.boxcenter.x u hmd d d
  have o3 : (limits b.boxsize.x b.boxcenter.x u (d, d)).1 = (limits b.boxsize.x b.boxcenter.x u (m, d)).2 := by
    cases u <;> simp [limits]
  refine ⟨b1, b2, b12, h1, h2, h12, (limits b.boxsize.x b.boxcenter.x u (m, d)).1, ?_, ?_⟩
  · rw [e1, e12, List.filter_filter]
    apply List.filter_congr
    intro r _
    rw [← Bool.decide_and]
    apply decide_eq_decide.2
    simp only [Within]
    rw [s1, s2, s3]
    constructor
    · rintro ⟨⟨p, q⟩, y, z⟩
      exact ⟨q, ⟨p, lt_of_lt_of_le q (by linarith)⟩, y, z⟩
    · rintro ⟨q, ⟨p, -⟩, y, z⟩
      exact ⟨⟨p, q⟩, y, z⟩
  · rw [e2, e12, List.filter_filter]
    apply List.filter_congr
    intro r _
    rw [← Bool.decide_and]
    apply decide_eq_decide.2
    simp only [Within]
    rw [s2, s3]
    constructor
    · rintro ⟨⟨p, q⟩, y, z⟩
      exact ⟨p, ⟨by linarith, q⟩, y, z⟩
    · rintro ⟨p, ⟨-, q⟩, y, z⟩
      exact ⟨⟨p, q⟩, y, z⟩

open Classical in
/-- C16: same along y. -/
theorem C16_split_y (b : Box ρ) (hb : NonnegSize b.boxsize) (u : Bool) (a m d : ℝ) (ham : a ≤ m) (hmd : m ≤ d)
    (r0 r2 : ℝ × ℝ) : ∃ b1 b2 b12, b.subbox (.many [r0, (a, m), r2]) u = .ok b1 ∧
      b.subbox (.many [r0, (m, d), r2]) u = .ok b2 ∧ b.subbox (.many [r0, (a, d), r2]) u = .ok b12 ∧
      ∃ t, b1.rows = b12.rows.filter (fun r => decide (r.pos.y < t)) ∧
        b2.rows = b12.rows.filter (fun r => decide (t ≤ r.pos.y)) := by
  obtain ⟨b1, h1, e1, -⟩ := C16_exact b u r0 (a, m) r2
  obtain ⟨b2, h2, e2, -⟩ := C16_exact b u r0 (m, d) r2
  obtain ⟨b12, h12, e12, -⟩ := C16_exact b u r0 (a, d) r2
  obtain ⟨s1, s2, s3⟩ := limits_shared b.boxsize.y b.boxcenter.y u a m d
  have o1 := limits_mono hb.2.1 b.boxcenter.y u ham m d
  have o2 := limits_mono hb.2.1 b.boxcenter.y u hmd d d
  have o3 : (limits b.boxsize.y b.boxcenter.y u (d, d)).1 = (limits b.boxsize.y b.boxcenter.y u (m, d)).2 := by
    cases u <;> simp [limits]
  refine ⟨b1, b2, b12, h1, h2, h12, (limits b.boxsize.y b.boxcenter.y u (m, d)).1, ?_, ?_⟩
  · rw [e1, e12, List.filter_filter]
    apply List.filter_congr
    intro r _
    rw [← Bool.decide_and]
    apply decide_eq_decide.2
    simp only [Within]
    rw [s1, s2, s3]
    constructor
    · rintro ⟨x, ⟨p, q⟩, z⟩
      exact ⟨q, x, ⟨p, lt_of_lt_of_le q (by linarith)⟩, z⟩
    · rintro ⟨q, x, ⟨p, -⟩, z⟩
      exact ⟨x, ⟨p, q⟩, z⟩
  · rw [e2, e12, List.filter_filter]
    apply List.filter_congr
    intro r _
    rw [← Bool.decide_and]
    apply decide_eq_decide.2
    simp only [Within]
    rw [s2, s3]
    constructor
    · rintro ⟨x, ⟨p, q⟩, z⟩
      exact ⟨p, x, ⟨by linarith, q⟩, z⟩
    · rintro ⟨p, x, ⟨-, q⟩, z⟩
      exact ⟨x, ⟨p, q⟩, z⟩

open Classical in
/-- C16: same along z. -/
theorem C16_split_z (b : Box ρ) (hb : NonnegSize b.boxsize) (u : Bool) (a m d : ℝ) (ham : a ≤ m) (hmd : m ≤ d)
    (r0 r1 : ℝ × ℝ) : ∃ b1 b2 b12, b.subbox (.many [r0, r1, (a, m)]) u = .ok b1 ∧
      b.subbox (.many [r0, r1, (m, d)]) u = .ok b2 ∧ b.subbox (.many [r0, r1, (a, d)]) u = .ok b12 ∧
      ∃ t, b1.rows = b12.rows.filter (fun r => decide (r.pos.z < t)) ∧
        b2.rows = b12.rows.filter (fun r => decide (t ≤ r.pos.z)) := by
  obtain ⟨b1, h1, e1, -⟩ := C16_exact b u r0 r1 (a, m)
  obtain ⟨b2, h2, e2, -⟩ := C16_exact b u r0 r1 (m, d)
  obtain ⟨b12, h12, e12, -⟩ := C16_exact b u r0 r1 (a, d)
  obtain ⟨s1, s2, s3⟩ := limits_shared b.boxsize.z b.boxcenter.z u a m d
  have o1 := limits_mono hb.2.2 b.boxcenter.z u ham m d
  have o2 := limits_mono hb.2.2 b.boxcenter.z u hmd d d
  have o3 : (limits b.boxsize.z b.boxcenter.z u (d, d)).1 = (limits b.boxsize.z b.boxcenter.z u (m, d)).2 := by
    cases u <;> simp [limits]
  refine ⟨b1, b2, b12, h1, h2, h12, (limits b.boxsize.z b.boxcenter.z u (m, d)).1, ?_, ?_⟩
  · rw [e1, e12, List.filter_filter]
    apply List.filter_congr
    intro r _
    rw [← Bool.decide_and]
    apply decide_eq_decide.2
    simp only [Within]
    rw [s1, s2, s3]
    constructor
    · rintro ⟨x, y, ⟨p, q⟩⟩
      exact ⟨q, x, y, ⟨p, lt_of_lt_of_le q (by linarith)⟩⟩
    · rintro ⟨q, x, y, ⟨p, -⟩⟩
      exact ⟨x, y, ⟨p, q⟩⟩
  · rw [e2, e12, List.filter_filter]
    apply List.filter_congr
    intro r _
    rw [← Bool.decide_and]
    apply decide_eq_decide.2
    simp only [Within]
    rw [s2, s3]
    constructor
    · rintro ⟨x, y, ⟨p, q⟩⟩
      exact ⟨p, x, y, ⟨by linarith, q⟩⟩
    · rintro ⟨p, x, y, ⟨-, q⟩⟩
      exact ⟨x, y, ⟨p, q⟩⟩

/-- Witness: a box with a particle on the cut. -/
example : ∃ b : Box Unit, NonnegSize b.boxsize ∧ ∃ r ∈ b.rows, Inside b.boxsize b.boxcenter r.pos ∧
    r.pos.x = b.boxcenter.x := by
  refine ⟨⟨⟨1, 2, 3⟩, ⟨5, 5, 5⟩, [⟨⟨5, 4, 5⟩, 0, [], [], ()⟩]⟩, by norm_num [NonnegSize], ⟨⟨5, 4, 5⟩, 0, [], [], ()⟩, ?_⟩
  norm_num [Inside, abs_of_nonneg]

/-! ## Padding -/

/-- Image of a row shifted by `k` boxes. -/
def image (L : V3 ℝ) (k : V3 ℤ) (r : Row ρ) : Row ρ :=
  rowMap (fun p => ⟨p.x + L.x * k.x, p.y + L.y * k.y, p.z + L.z * k.z⟩) (fun p => p) r

theorem padShifts_small {f : ℝ} (h0 : 0 < f) (h1 : f ≤ 1) : Box.padShifts f = [0] := by
  have : ⌈f⌉ = 1 := by rw [Int.ceil_eq_iff]; norm_num; exact ⟨h0, h1⟩
  rw [Box.padShifts, this]
  simp [Remap.arange]

theorem padShifts_medium {f : ℝ} (h0 : 1 < f) (h1 : f ≤ 2) : Box.padShifts f = [-1, 0, 1] := by
  have : ⌈f⌉ = 2 := by rw [Int.ceil_eq_iff]; norm_num; exact ⟨h0, h1⟩
  rw [Box.padShifts, this]
  have h3 : Remap.arange (-2 + 1) 2 = [-1, 0, 1] := by decide
  rw [h3]
  simp

theorem padShifts_length (f : ℝ) : (Box.padShifts f).length = (⌈f⌉ - (-⌈f⌉ + 1)).toNat := by
  simp [Box.padShifts, Remap.arange]

theorem padBroadcast_error (L : V3 ℝ) {l : List ℝ} (h1 : l.length ≠ 1) (h3 : l.length ≠ 3) :
    Box.padBroadcast L l = .error .valueError := by
  match l, h1, h3 with
  | [], _, _ => rfl
  | [_], h, _ => exact absurd rfl h
  | [_, _], _, _ => rfl
  | [_, _, _], _, h => exact absurd rfl h
  | _ :: _ :: _ :: _ :: _, _, _ => rfl

/-- The shift, in boxes, used for one factor in (0, 2]. -/
def shiftOf (f : ℝ) (k : V3 ℤ) : Prop := (0 < f ∧ f ≤ 1 ∧ k = ⟨0, 0, 0⟩) ∨ (1 < f ∧ f ≤ 2 ∧ k = ⟨-1, 0, 1⟩)

theorem padBroadcast_ok (L : V3 ℝ) {f : ℝ} {k : V3 ℤ} (h : shiftOf f k) :
    Box.padBroadcast L (Box.padShifts f) = .ok ⟨L.x * k.x, L.y * k.y, L.z * k.z⟩ := by
  rcases h with ⟨h0, h1, rfl⟩ | ⟨h0, h1, rfl⟩
  · rw [padShifts_small h0 h1]; simp [Box.padBroadcast]
  · rw [padShifts_medium h0 h1]; simp [Box.padBroadcast]

theorem shiftOf_or (f : ℝ) : (∃ k, shiftOf f k) ∨ ∀ L, Box.padBroadcast L (Box.padShifts f) = .error .valueError := by
  by_cases h0 : 0 < f
  · by_cases h1 : f ≤ 1
    · exact Or.inl ⟨_, Or.inl ⟨h0, h1, rfl⟩⟩
    · by_cases h2 : f ≤ 2
      · exact Or.inl ⟨_, Or.inr ⟨by linarith, h2, rfl⟩⟩
      · right
        intro L
        have : 3 ≤ ⌈f⌉ := by
          have : (2 : ℤ) < ⌈f⌉ := Int.lt_ceil.2 (by push_cast; linarith)
          omega
        apply padBroadcast_error <;> rw [padShifts_length] <;> omega
  · right
    intro L
    have : ⌈f⌉ ≤ 0 := Int.ceil_le.2 (by push_cast; linarith)
    apply padBroadcast_error <;> rw [padShifts_length] <;> omega

open Classical in
/-- C17, what `pad` does: it succeeds exactly when the three factors are in (0, 2]; the box is enlarged about the same
centre; the rows are, one after the other for the factors along x, y and z, the images shifted by (0, 0, 0) boxes for a
factor in (0, 1], by (-1, 0, 1) boxes for a factor in (1, 2], limited to the enlarged box. -/
theorem C17_exact_partial (b : Box ρ) (f : V3 ℝ) :
    (∀ kx ky kz, shiftOf f.x kx → shiftOf f.y ky → shiftOf f.z kz →
      b.pad f = .ok ⟨V3.emul b.boxsize f, b.boxcenter, [kx, ky, kz].flatMap fun k =>
        (b.rows.map (image b.boxsize k)).filter
          (fun r => decide (Inside (V3.emul b.boxsize f) b.boxcenter r.pos))⟩) ∧
    ((¬ ∃ kx, shiftOf f.x kx) ∨ (¬ ∃ ky, shiftOf f.y ky) ∨ (¬ ∃ kz, shiftOf f.z kz) →
      b.pad f = .error .valueError) := by
  constructor
  · intro kx ky kz hx hy hz
    have himg : ∀ k : V3 ℤ, b.padImage (V3.emul b.boxsize f) ⟨b.boxsize.x * k.x, b.boxsize.y * k.y, b.boxsize.z * k.z⟩ =
        (b.rows.map (image b.boxsize k)).filter
          (fun r => decide (Inside (V3.emul b.boxsize f) b.boxcenter r.pos)) := by
      intro k
      have hs : (Box.shiftRow (⟨b.boxsize.x * k.x, b.boxsize.y * k.y, b.boxsize.z * k.z⟩) : Row ρ → Row ρ)
          = image b.boxsize k := by
        funext r
        simp only [Box.shiftRow, image, rowMap, List.map_id']
        rfl
      unfold Box.padImage
      rw [hs]
      apply List.filter_congr
      intro r _
      apply decide_eq_decide.2
      rw [inside_iff_edges]
      simp only [Box.lower, Box.upper]
      tauto
    simp only [Box.pad, List.mapM_cons, List.mapM_nil, padBroadcast_ok b.boxsize hx, padBroadcast_ok b.boxsize hy,
      padBroadcast_ok b.boxsize hz, bind, Except.bind, pure, Except.pure, List.flatMap_cons, List.flatMap_nil, himg]
  · intro h
    simp only [Box.pad, List.mapM_cons, List.mapM_nil]
    rcases shiftOf_or f.x with ⟨kx, hx⟩ | hx
    · rcases shiftOf_or f.y with ⟨ky, hy⟩ | hy
      · rcases shiftOf_or f.z with ⟨kz, hz⟩ | hz
        · rcases h with h | h | h
          · exact absurd ⟨kx, hx⟩ h
          · exact absurd ⟨ky, hy⟩ h
          · exact absurd ⟨kz, hz⟩ h
        · simp [padBroadcast_ok b.boxsize hx, padBroadcast_ok b.boxsize hy, hz, bind, Except.bind, pure, Except.pure]
      · simp [padBroadcast_ok b.boxsize hx, hy, bind, Except.bind]
    · simp [hx, bind, Except.bind]

/-- C17, the part of the property that holds: every row of the padded catalog is a periodic image of a row of the catalog,
in the enlarged box, with its other columns copied. Missing: all the images, each once. -/
theorem C17_sound_partial (b b' : Box ρ) (f : V3 ℝ) (h : b.pad f = .ok b') :
    b'.boxsize = V3.emul b.boxsize f ∧ b'.boxcenter = b.boxcenter ∧
    ∀ r' ∈ b'.rows, Inside b'.boxsize b'.boxcenter r'.pos ∧ ∃ r ∈ b.rows, ∃ k, r' = image b.boxsize k r := by
  classical
  obtain ⟨h1, h2⟩ := C17_exact_partial b f
  by_cases hx : ∃ kx, shiftOf f.x kx
  · by_cases hy : ∃ ky, shiftOf f.y ky
    · by_cases hz : ∃ kz, shiftOf f.z kz
      · obtain ⟨kx, hx⟩ := hx
        obtain ⟨ky, hy⟩ := hy
        obtain ⟨kz, hz⟩ := hz
        rw [h1 kx ky kz hx hy hz] at h
        cases h
        refine ⟨rfl, rfl, fun r' hr' => ?_⟩
        rw [List.mem_flatMap] at hr'
        obtain ⟨k, -, hk⟩ := hr'
        rw [List.mem_filter, List.mem_map] at hk
        obtain ⟨⟨r, hr, rfl⟩, hin⟩ := hk
        exact ⟨of_decide_eq_true hin, r, hr, k, rfl⟩
      · rw [h2 (Or.inr (Or.inr hz))] at h; cases h
    · rw [h2 (Or.inr (Or.inl hy))] at h; cases h
  · rw [h2 (Or.inl hx)] at h; cases h

/-- Every periodic image lying in the enlarged box is there. -/
def PadComplete : Prop := ∀ (b b' : Box ℕ) (f : V3 ℝ), PosBox b.boxsize → b.pad f = .ok b' →
  ∀ r ∈ b.rows, ∀ k, Inside b'.boxsize b'.boxcenter (image b.boxsize k r).pos → image b.boxsize k r ∈ b'.rows

/-- No image is there twice, when the rows of the catalog carry distinct identifiers. -/
def PadOnce : Prop := ∀ (b b' : Box ℕ) (f : V3 ℝ), PosBox b.boxsize → (b.rows.map Row.rest).Nodup → b.pad f = .ok b' →
  (b'.rows.map fun r => (r.pos, r.rest)).Nodup

/-- Padding works for any positive factor. -/
def PadTotal : Prop := ∀ (b : Box ℕ) (f : V3 ℝ), PosBox b.boxsize → PosBox f → ∃ b', b.pad f = .ok b'

/-- A unit box centred on the origin with one particle at the centre. -/
def onePoint : Box ℕ := ⟨⟨1, 1, 1⟩, 0, [⟨0, 0, [], [], 7⟩]⟩

/-- C17 refuted: with the default factor 1.1, `pad` loses the particle at the centre of the box. -/
theorem C17_lost_violated : ¬ PadComplete := by
  classical
  intro hall
  have hk : shiftOf (11 / 10) ⟨-1, 0, 1⟩ := Or.inr (by norm_num)
  have hp := (C17_exact_partial onePoint ⟨11 / 10, 11 / 10, 11 / 10⟩).1 _ _ _ hk hk hk
  have := hall onePoint _ _ (by norm_num [PosBox, onePoint]) hp ⟨0, 0, [], [], 7⟩ (by simp [onePoint]) ⟨0, 0, 0⟩
    (by norm_num [Inside, onePoint, image, rowMap])
  simp only [List.mem_flatMap, List.mem_filter] at this
  obtain ⟨k, hk, hm, -⟩ := this
  have hk : k = ⟨-1, 0, 1⟩ := by simpa using hk
  subst hk
  simp [image, rowMap, onePoint] at hm

/-- C17 refuted: with factor 1 each particle comes three times. -/
theorem C17_repeated_violated : ¬ PadOnce := by
  classical
  intro hall
  have hk : shiftOf 1 ⟨0, 0, 0⟩ := Or.inl (by norm_num)
  have hp := (C17_exact_partial onePoint ⟨1, 1, 1⟩).1 _ _ _ hk hk hk
  have := hall onePoint _ _ (by norm_num [PosBox, onePoint]) (by simp [onePoint]) hp
  have hin : Inside (V3.emul onePoint.boxsize ⟨1, 1, 1⟩) onePoint.boxcenter (image onePoint.boxsize ⟨0, 0, 0⟩
      (⟨0, 0, [], [], 7⟩ : Row ℕ)).pos := by
    norm_num [Inside, onePoint, image, rowMap]
  simp only [onePoint] at this hin
  simp [hin] at this

/-- C17 refuted: factors above 2 are not supported. -/
theorem C17_large_violated : ¬ PadTotal := by
  intro hall
  obtain ⟨b', hb'⟩ := hall onePoint ⟨3, 3, 3⟩ (by norm_num [PosBox, onePoint]) (by norm_num [PosBox])
  rw [(C17_exact_partial onePoint ⟨3, 3, 3⟩).2 (Or.inl ?_)] at hb'
  · cases hb'
  · rintro ⟨k, ⟨h0, h1, -⟩ | ⟨h0, h1, -⟩⟩ <;> norm_num at h1

end Verif.Props
