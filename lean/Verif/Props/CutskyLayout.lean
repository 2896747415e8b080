import Verif.Props.CutskyToBox
import Mathlib.Data.List.Pairwise

/-!
# C19: the sub-boxes carved out by `isometry_for_cutsky`
-/

namespace Verif.Props
open Verif Verif.Model Verif.Spec

/-- The segment of length `b` centred on `x` is in the segment of length `B` centred on `c`, at least `e` from its ends. -/
def SegmentIn (B c e b x : ℝ) : Prop := c - B / 2 + e ≤ x - b / 2 ∧ x + b / 2 ≤ c + B / 2 - e

/-- The segments of length `b` centred on `x` and `y` are at least `i` apart. -/
def SegmentsApart (i b x y : ℝ) : Prop := x + b / 2 + i ≤ y - b / 2 ∨ y + b / 2 + i ≤ x - b / 2

/-- `m` segments of length `b` fit in a segment of length `B`, with gaps `i` and margins `e`. -/
def Fits (B b e i : ℝ) (m : ℕ) : Prop := 1 ≤ m ∧ m * b + (m - 1) * i + 2 * e ≤ B

theorem trunc_pos {x : ℝ} (h : 1 ≤ trunc x) : (trunc x : ℝ) ≤ x ∧ 0 ≤ x := by
  unfold trunc at h ⊢
  split
  · rename_i h0; exact ⟨Int.floor_le x, h0⟩
  · rename_i h0
    rw [if_neg h0] at h
    rw [not_le] at h0
    have : ⌈x⌉ ≤ 0 := Int.ceil_le.2 (by push_cast; exact h0.le)
    omega

theorem le_trunc {x : ℝ} {m : ℕ} (h : (m : ℝ) ≤ x) : (m : ℤ) ≤ trunc x := by
  have h0 : 0 ≤ x := (Nat.cast_nonneg m).trans h
  unfold trunc
  rw [if_pos h0]
  exact Int.le_floor.2 (by exact_mod_cast h)

/-- C19, one axis, exactly: the centres are regularly spaced, with margins at least those requested, equal if one of them
is left free; the number of sub-boxes is the largest that fits; if there are margins, they are extended to fill the box. -/
theorem C19_axis_exact {B b c : ℝ} {em? im? : Option ℝ} {cs : List ℝ} (hb : 0 < b)
    (h : axisLayout B b c em? im? = .ok cs) :
    ∃ (n : ℕ) (em im : ℝ), cs = (List.range n).map (fun k : ℕ => c - B / 2 + em + b / 2 + (b + im) * k) ∧
      0 ≤ em?.getD 0 ∧ 0 ≤ im?.getD 0 ∧
      em?.getD 0 ≤ em ∧ im?.getD 0 ≤ im ∧ (em? = none ∨ im? = none → em = im) ∧
      (1 ≤ n → n * b + (n - 1) * im + 2 * em ≤ B) ∧
      (1 ≤ n → 0 < em ∨ 0 < im → n * b + (n - 1) * im + 2 * em = B) ∧
      (∀ m, Fits B b (em?.getD 0) (im?.getD 0) m → m ≤ n) := by
  unfold axisLayout at h
  simp only at h
  by_cases hz : b + im?.getD 0 = 0
  · rw [if_pos hz] at h; cases h
  rw [if_neg hz] at h
  set e := em?.getD 0 with he
  set i := im?.getD 0 with hi
  set N := trunc ((B - 2 * e + i) / (b + i)) with hN
  -- the margins chosen
  obtain ⟨em, im, hm, hem, him, hfree, hzero⟩ : ∃ em im, chooseMargins B b N em? im? = .ok (em, im) ∧
      (∀ x, em? = some x → em = e) ∧ (∀ x, im? = some x → im = i) ∧ (em? = none ∨ im? = none → em = im) ∧
      (em? = none → im? = none → em = 0 → b * N ≤ B) := by
    unfold chooseMargins at h ⊢
    cases em? with
    | none =>
      cases im? with
      | none =>
        simp only at h ⊢
        by_cases hn : (N : ℝ) + 1 = 0
        · rw [if_pos hn] at h; cases h
        · rw [if_neg hn]
          refine ⟨_, _, rfl, by simp, by simp, fun _ => rfl, fun _ _ h0 => ?_⟩
          rw [div_eq_zero_iff] at h0
          rcases h0 with h0 | h0
          · linarith
          · exact absurd h0 hn
      | some x => exact ⟨_, _, rfl, by simp, by simp [hi], fun _ => rfl, by simp⟩
    | some x =>
      cases im? with
      | none => exact ⟨_, _, rfl, by simp [he], by simp, fun _ => rfl, by simp⟩
      | some y => exact ⟨_, _, rfl, by simp [he], by simp [hi], by simp, by simp⟩
  rw [hm] at h
  simp only [bind, Except.bind, rescaleMargins] at h
  by_cases hneg : em < 0 ∨ im < 0
  · rw [if_pos hneg] at h; cases h
  rw [if_neg hneg] at h
  rw [not_or, not_lt, not_lt] at hneg
  have he0 : 0 ≤ e := by
    cases hem? : em? with
    | none => rw [he, hem?]; simp
    | some x => rw [← hem x hem?]; exact hneg.1
  have hi0 : 0 ≤ i := by
    cases him? : im? with
    | none => rw [hi, him?]; simp
    | some x => rw [← him x him?]; exact hneg.2
  have hle_e : e ≤ em := by
    cases hem? : em? with
    | none => rw [he, hem?]; exact hneg.1
    | some x => rw [hem x hem?]
  have hle_i : i ≤ im := by
    cases him? : im? with
    | none => rw [hi, him?]; exact hneg.2
    | some x => rw [him x him?]
  have hbi : 0 < b + i := by linarith
  have hmax : ∀ m, Fits B b e i m → m ≤ N.toNat := by
    intro m hf
    have : (m : ℝ) ≤ (B - 2 * e + i) / (b + i) := by
      rw [le_div_iff₀ hbi]; linarith [hf.2]
    have := le_trunc this
    omega
  have hfit : 1 ≤ N.toNat → ((N.toNat : ℕ) : ℝ) = N ∧ (N : ℝ) * (b + i) ≤ B - 2 * e + i := by
    intro h1
    have hN1 : 1 ≤ N := by omega
    refine ⟨?_, ?_⟩
    · have : ((N.toNat : ℕ) : ℤ) = N := Int.toNat_of_nonneg (by omega)
      exact_mod_cast this
    · have := (trunc_pos hN1).1
      rwa [le_div_iff₀ hbi] at this
  by_cases hp : 0 < em ∨ 0 < im
  · rw [if_pos hp] at h
    by_cases hden : im * ((N : ℝ) - 1) + 2 * em = 0
    · rw [if_pos hden] at h
      by_cases hn : 0 < B - b * (N : ℝ)
      · rw [if_pos hn] at h; cases h
      · rw [if_neg hn] at h; cases h
    rw [if_neg hden] at h
    by_cases hr : (B - b * N) / (im * (N - 1) + 2 * em) < 1
    · rw [if_pos hr] at h; cases h
    rw [if_neg hr] at h
    rw [not_lt] at hr
    set r := (B - b * N) / (im * (N - 1) + 2 * em) with hrd
    simp only [Except.ok.injEq] at h
    have hfill : 1 ≤ N.toNat → (N.toNat : ℝ) * b + (N.toNat - 1) * (r * im) + 2 * (r * em) = B := by
      intro h1
      rw [(hfit h1).1]
      have : r * (im * (N - 1) + 2 * em) = B - b * N := by rw [hrd]; field_simp
      linarith
    refine ⟨N.toNat, r * em, r * im, ?_, he0, hi0, ?_, ?_, ?_, ?_, ?_, hmax⟩
    · rw [← h]
      refine List.map_congr_left fun k _ => ?_
      ring
    · nlinarith
    · nlinarith
    · intro h'; rw [hfree h']
    · intro h1; exact (hfill h1).le
    · intro h1 _; exact hfill h1
  · rw [if_neg hp] at h
    rw [not_or, not_lt, not_lt] at hp
    have em0 : em = 0 := le_antisymm hp.1 hneg.1
    have im0 : im = 0 := le_antisymm hp.2 hneg.2
    have e0 : e = 0 := le_antisymm (by linarith) he0
    have i0 : i = 0 := le_antisymm (by linarith) hi0
    simp only [Except.ok.injEq] at h
    refine ⟨N.toNat, em, im, ?_, he0, hi0, hle_e, hle_i, hfree, ?_, ?_, hmax⟩
    · rw [← h]
      refine List.map_congr_left fun k _ => ?_
      ring
    · intro h1
      have := hfit h1
      rw [this.1, em0, im0]
      have h2 := this.2
      rw [e0, i0] at h2
      linarith
    · intro _ h2
      rw [em0, im0] at h2
      simp at h2

/-- C19, one axis: the sub-boxes are in the box, at least the external margin from its faces, and at least the internal
margin from each other (in increasing order); there are as many as can fit. -/
theorem C19_axis {B b c : ℝ} {em? im? : Option ℝ} {cs : List ℝ} (hb : 0 < b)
    (h : axisLayout B b c em? im? = .ok cs) :
    (∀ x ∈ cs, SegmentIn B c (em?.getD 0) b x) ∧
      cs.Pairwise (fun x y => x + b / 2 + im?.getD 0 ≤ y - b / 2) ∧
      (∀ m, Fits B b (em?.getD 0) (im?.getD 0) m → m ≤ cs.length) := by
  obtain ⟨n, em, im, rfl, he0, hi0, he, hi, -, hfit, -, hmax⟩ := C19_axis_exact hb h
  refine ⟨?_, ?_, by simpa using hmax⟩
  · intro x hx
    simp only [List.mem_map, List.mem_range] at hx
    obtain ⟨k, hk, rfl⟩ := hx
    have h1 := hfit (by omega)
    have hk' : (k : ℝ) ≤ n - 1 := by
      have : (k : ℝ) + 1 ≤ n := by exact_mod_cast hk
      linarith
    have hk0 : (0 : ℝ) ≤ k := Nat.cast_nonneg k
    constructor <;> nlinarith
  · rw [List.pairwise_map]
    refine List.Pairwise.imp ?_ List.pairwise_lt_range
    intro j k hjk
    have : (j : ℝ) + 1 ≤ k := by exact_mod_cast hjk
    nlinarith

/-- C19: negative margins are rejected. -/
theorem C19_negative {B b c : ℝ} {em? im? : Option ℝ} (h : (∃ e, em? = some e ∧ e < 0) ∨ (∃ i, im? = some i ∧ i < 0)) :
    axisLayout B b c em? im? = .error .valueError := by
  unfold axisLayout
  simp only
  split
  · rfl
  · rcases h with ⟨e, rfl, he⟩ | ⟨i, rfl, hi⟩
    · cases im? <;> simp [bind, Except.bind, chooseMargins, rescaleMargins, he]
    · cases em? <;> simp [bind, Except.bind, chooseMargins, rescaleMargins, hi]

/-- C19: the layout succeeds when at least one sub-box fits, if the requested external margin is positive, -/
theorem C19_succeeds {B b c e i : ℝ} (hb : 0 < b) (he : 0 < e) (hi : 0 ≤ i) (hf : b + 2 * e ≤ B) :
    ∃ cs, axisLayout B b c (some e) (some i) = .ok cs ∧ cs ≠ [] := by
  have hbi : b + i ≠ 0 := by linarith
  have hbi' : 0 < b + i := by linarith
  set N := trunc ((B - 2 * e + i) / (b + i)) with hN
  have h1 : (1 : ℤ) ≤ N := by
    have : ((1 : ℕ) : ℝ) ≤ (B - 2 * e + i) / (b + i) := by rw [le_div_iff₀ hbi']; push_cast; linarith
    exact_mod_cast le_trunc this
  have h2 : (N : ℝ) * (b + i) ≤ B - 2 * e + i := by
    have := (trunc_pos h1).1
    rwa [le_div_iff₀ hbi'] at this
  have h1' : (1 : ℝ) ≤ N := by exact_mod_cast h1
  have hden : 0 < i * ((N : ℝ) - 1) + 2 * e := by nlinarith
  have hr : ¬ (B - b * N) / (i * ((N : ℝ) - 1) + 2 * e) < 1 := by
    rw [not_lt, le_div_iff₀ hden]; linarith
  have key : ∃ cs, axisLayout B b c (some e) (some i) = .ok cs := by
    unfold axisLayout
    simp only [Option.getD_some, hbi, if_false, chooseMargins, rescaleMargins, bind, Except.bind, not_lt.2 he.le, not_lt.2 hi,
      or_self, he, true_or, if_true, ← hN, hden.ne', hr]
    exact ⟨_, rfl⟩
  obtain ⟨cs, hcs⟩ := key
  refine ⟨cs, hcs, ?_⟩
  have := (C19_axis hb hcs).2.2 1 ⟨le_refl _, by simp; linarith⟩
  intro h; rw [h] at this; simp at this

/-- or if no margin is requested. -/
theorem C19_succeeds_free {B b c : ℝ} (hb : 0 < b) (hf : b ≤ B) :
    ∃ cs, axisLayout B b c none none = .ok cs ∧ cs ≠ [] := by
  set N := trunc (B / b) with hN
  have hN' : trunc ((B - 2 * 0 + 0) / (b + 0)) = N := by rw [hN]; congr 1; simp
  have h1 : (1 : ℤ) ≤ N := by
    have : ((1 : ℕ) : ℝ) ≤ B / b := by rw [le_div_iff₀ hb]; push_cast; linarith
    exact_mod_cast le_trunc this
  have h2 : (N : ℝ) * b ≤ B := by
    have := (trunc_pos h1).1
    rwa [le_div_iff₀ hb] at this
  have h1' : (1 : ℝ) ≤ N := by exact_mod_cast h1
  have hn1 : ¬ ((N : ℝ) + 1 = 0) := by intro h; linarith
  have ht : 0 ≤ (B - b * N) / ((N : ℝ) + 1) := div_nonneg (by linarith) (by linarith)
  set t := (B - b * N) / ((N : ℝ) + 1) with htd
  have hb0 : ¬ (b + 0 = 0) := by rw [add_zero]; exact hb.ne'
  have key : ∃ cs, axisLayout B b c none none = .ok cs := by
    unfold axisLayout
    simp only [Option.getD_none, hb0, if_false, chooseMargins, rescaleMargins, hN', hn1, ← htd, bind, Except.bind, not_lt.2 ht, or_self]
    by_cases h0 : 0 < t
    · have hden : t * ((N : ℝ) - 1) + 2 * t = B - b * N := by
        have : t * ((N : ℝ) + 1) = B - b * N := by rw [htd]; field_simp
        linarith
      have hpos : 0 < t * ((N : ℝ) - 1) + 2 * t := by nlinarith
      have hr : ¬ (B - b * N) / (t * ((N : ℝ) - 1) + 2 * t) < 1 := by
        rw [hden, div_self (by rw [← hden]; exact hpos.ne')]; exact lt_irrefl _
      simp only [h0, if_true, hpos.ne', if_false, hr]
      exact ⟨_, rfl⟩
    · simp only [h0, if_false]
      exact ⟨_, rfl⟩
  obtain ⟨cs, hcs⟩ := key
  refine ⟨cs, hcs, ?_⟩
  have := (C19_axis hb hcs).2.2 1 ⟨le_refl _, by simp; linarith⟩
  intro h; rw [h] at this; simp at this

/-- C19, limits of the layout: leaving only the external margin free fails an internal assertion, although the sub-boxes
would fit: a side of 10, sub-boxes of 3 and an internal margin of 0.5 (3 sub-boxes with margins of 0.25 around). -/
theorem C19_free_external_violated : axisLayout 10 3 0 none (some (1 / 2)) = .error .assertionError ∧ Fits 10 3 0 (1 / 2) 3 := by
  refine ⟨?_, by norm_num [Fits]⟩
  have hN : trunc ((10 - 2 * 0 + 1 / 2) / (3 + 1 / 2) : ℝ) = 3 := by
    unfold trunc
    rw [if_pos (by norm_num), Int.floor_eq_iff]; norm_num
  unfold axisLayout
  simp only [Option.getD_none, Option.getD_some, hN]
  norm_num [bind, Except.bind, chooseMargins, rescaleMargins]

/-- The same with the internal margin left free: a side of 10, sub-boxes of 3 and an external margin of 0.4. -/
theorem C19_free_internal_violated : axisLayout 10 3 0 (some (2 / 5)) none = .error .assertionError ∧ Fits 10 3 (2 / 5) 0 3 := by
  refine ⟨?_, by norm_num [Fits]⟩
  have hN : trunc ((10 - 2 * (2 / 5) + 0) / (3 + 0) : ℝ) = 3 := by
    unfold trunc
    rw [if_pos (by norm_num), Int.floor_eq_iff]; norm_num
  unfold axisLayout
  simp only [Option.getD_none, Option.getD_some, hN]
  norm_num [bind, Except.bind, chooseMargins, rescaleMargins]

/-- C19, limits of the layout: without external margin, a single sub-box along an axis is put at an undefined position. -/
theorem C19_single_violated : axisLayout 10 6 0 (some 0) (some 1) = .error .nan ∧ Fits 10 6 0 1 1 := by
  refine ⟨?_, by norm_num [Fits]⟩
  have hN : trunc ((10 - 2 * 0 + 1) / (6 + 1) : ℝ) = 1 := by
    unfold trunc
    rw [if_pos (by norm_num), Int.floor_eq_iff]; norm_num
  unfold axisLayout
  simp only [Option.getD_some, hN]
  norm_num [bind, Except.bind, chooseMargins, rescaleMargins]

/-! ### The three axes -/

theorem shiftedIsometry_transform (center : V3 ℝ) (origin : Isom) (p : V3 ℝ) :
    (shiftedIsometry center origin).transform p false = origin.transform (p - center) false := by
  obtain ⟨R, T⟩ := origin
  simp only [shiftedIsometry, Isom.translation, shiftMeans_vector (ShiftMeans.vec (-center)), Isom.extend, Isom.concatenate,
    List.foldl, Isom.init, Isom.transform]
  ext <;> simp <;> ring

/-- The survey centre: on the line of sight to the middle of the RA and Dec ranges, half the box depth before the maximum
distance. -/
noncomputable def surveyCentre (dr rr dcr : ℝ × ℝ) : V3 ℝ :=
  skyPoint (dr.2 - (cutskyToBox dr rr dcr).1.x / 2) (rr.1 + raWidth rr / 2) ((dcr.1 + dcr.2) / 2)

/-- C19: every returned isometry sends the centre of its sub-box to the survey centre. -/
theorem C19_centre {dr rr dcr : ℝ × ℝ} (h0 : 0 ≤ raWidth rr) (h1 : raWidth rr < 360) (center : V3 ℝ) :
    (shiftedIsometry center (cutskyToBox dr rr dcr).2).transform center false = surveyCentre dr rr dcr := by
  rw [shiftedIsometry_transform]
  have : (cutskyIsometry dr rr dcr).transform (center - center) false = surveyCentre dr rr dcr := by
    rw [cutskyIsometry_iff h0 h1, surveyCentre, surveyAxes_skyPoint]
    have e := Real.sin_sq_add_cos_sq (rad ((dcr.1 + dcr.2) / 2))
    have hs : (cutskyToBox dr rr dcr).1.x = (cutskyBoxsize dr rr dcr).x := rfl
    rw [hs]
    ext <;> simp [rad_zero]
    · linear_combination (dr.2 - (cutskyBoxsize dr rr dcr).x / 2) * (-e)
    · ring_nf; simp
  exact this

theorem product3_length (xs ys zs : List ℝ) : (product3 xs ys zs).length = xs.length * ys.length * zs.length := by
  simp [product3, List.length_flatMap, mul_assoc]

theorem mem_product3 {xs ys zs : List ℝ} {p : V3 ℝ} : p ∈ product3 xs ys zs ↔ p.x ∈ xs ∧ p.y ∈ ys ∧ p.z ∈ zs := by
  obtain ⟨x, y, z⟩ := p
  simp only [product3, List.mem_flatMap, List.mem_map, V3.mk.injEq]
  constructor
  · rintro ⟨a, ha, b, hb, c, hc, rfl, rfl, rfl⟩; exact ⟨ha, hb, hc⟩
  · rintro ⟨ha, hb, hc⟩; exact ⟨x, ha, y, hb, z, hc, rfl, rfl, rfl⟩

theorem product3_pairwise {xs ys zs : List ℝ} {P Q R : ℝ → ℝ → Prop} (hx : xs.Pairwise P) (hy : ys.Pairwise Q)
    (hz : zs.Pairwise R) : (product3 xs ys zs).Pairwise (fun p q => P p.x q.x ∨ Q p.y q.y ∨ R p.z q.z) := by
  unfold product3
  rw [List.pairwise_flatMap]
  constructor
  · intro x _
    rw [List.pairwise_flatMap]
    constructor
    · intro y _
      rw [List.pairwise_map]
      exact hz.imp fun h => Or.inr (Or.inr h)
    · refine hy.imp fun {y y'} h => ?_
      simp only [List.mem_map]
      rintro _ ⟨z, _, rfl⟩ _ ⟨z', _, rfl⟩
      exact Or.inr (Or.inl h)
  · refine hx.imp fun {x x'} h => ?_
    simp only [List.mem_flatMap, List.mem_map]
    rintro _ ⟨y, _, z, _, rfl⟩ _ ⟨y', _, z', _, rfl⟩
    exact Or.inl h

/-- The sub-box of size `s` centred on `p` is in the box of the catalog, at least the external margins from its faces. -/
def SubboxIn {ρ : Type} (b : Box ρ) (s : V3 ℝ) (e : V3 ℝ) (p : V3 ℝ) : Prop :=
  SegmentIn b.boxsize.x b.boxcenter.x e.x s.x p.x ∧ SegmentIn b.boxsize.y b.boxcenter.y e.y s.y p.y ∧
    SegmentIn b.boxsize.z b.boxcenter.z e.z s.z p.z

/-- Two sub-boxes of size `s` are separated by at least the internal margin along one of the axes. -/
def SubboxesApart (s i p q : V3 ℝ) : Prop :=
  SegmentsApart i.x s.x p.x q.x ∨ SegmentsApart i.y s.y p.y q.y ∨ SegmentsApart i.z s.z p.z q.z

/-- The requested margins, 0 if left free: one for all axes, or those of x, y and z. -/
noncomputable def requested : Margin → V3 ℝ
  | .all m => ⟨m.getD 0, m.getD 0, m.getD 0⟩
  | .each x y z => ⟨x.getD 0, y.getD 0, z.getD 0⟩

theorem requested_eq (m : Margin) : requested m = m.toV3.map (fun o => o.getD 0) := by cases m <;> rfl

/-- A margin is requested, for one axis at least. -/
def Requested (a : ℝ) : Margin → Prop
  | .all m => m = some a
  | .each x y z => x = some a ∨ y = some a ∨ z = some a

/-- C19: with `noutput` different from 1, each returned isometry moves one sub-box to the survey: it sends a point `p` to
where the isometry of `cutsky_to_box` sends `p - centre`. The sub-boxes are in the box with the external margins, and apart
by the internal margins; there are `noutput` of them, or as many as fit if `noutput` is `None`. -/
theorem C19_isometries {ρ : Type} {b : Box ρ} {dr rr dcr : ℝ × ℝ} {external internal : Margin} {noutput : Option ℤ}
    {r : Isometries} (hn : noutput ≠ some 1) (h : isometryForCutsky b dr rr dcr external internal noutput = .ok r) :
    let s := (cutskyToBox dr rr dcr).1
    0 < s.x → 0 < s.y → 0 < s.z →
    ∃ centres : List (V3 ℝ), ∃ l : List Isom, r = .many l ∧
      List.Forall₂ (fun iso c => ∀ p, Isom.transform iso p false = (cutskyToBox dr rr dcr).2.transform (p - c) false)
        l centres ∧
      (∀ p ∈ centres, SubboxIn b s (requested external) p) ∧
      centres.Pairwise (SubboxesApart s (requested internal)) ∧
      (∀ n, noutput = some n → centres.length = n.toNat) ∧
      (noutput = none → ∀ mx my mz, Fits b.boxsize.x s.x (requested external).x (requested internal).x mx →
        Fits b.boxsize.y s.y (requested external).y (requested internal).y my → Fits b.boxsize.z s.z (requested external).z (requested internal).z mz →
        mx * my * mz ≤ centres.length) := by
  intro s hsx hsy hsz
  simp only [requested_eq]
  unfold isometryForCutsky at h
  simp only [hn, if_false] at h
  have hs1 : (cutskyToBox dr rr dcr).1 = s := rfl
  rw [hs1] at h
  cases ex : axisLayout b.boxsize.x s.x b.boxcenter.x external.toV3.x internal.toV3.x with
  | error e => rw [ex] at h; cases h
  | ok xs =>
  cases ey : axisLayout b.boxsize.y s.y b.boxcenter.y external.toV3.y internal.toV3.y with
  | error e => rw [ex, ey] at h; cases h
  | ok ys =>
  cases ez : axisLayout b.boxsize.z s.z b.boxcenter.z external.toV3.z internal.toV3.z with
  | error e => rw [ex, ey, ez] at h; cases h
  | ok zs =>
  rw [ex, ey, ez] at h
  simp only [bind, Except.bind] at h
  obtain ⟨x1, x2, x3⟩ := C19_axis hsx ex
  obtain ⟨y1, y2, y3⟩ := C19_axis hsy ey
  obtain ⟨z1, z2, z3⟩ := C19_axis hsz ez
  have hin : ∀ p ∈ product3 xs ys zs, SubboxIn b s (external.toV3.map fun o => o.getD 0) p := fun p hp => by
    rw [mem_product3] at hp
    exact ⟨x1 _ hp.1, y1 _ hp.2.1, z1 _ hp.2.2⟩
  have hap : (product3 xs ys zs).Pairwise (SubboxesApart s (internal.toV3.map fun o => o.getD 0)) := by
    refine (product3_pairwise x2 y2 z2).imp fun {p q} hpq => ?_
    rcases hpq with hpq | hpq | hpq
    · exact Or.inl (Or.inl hpq)
    · exact Or.inr (Or.inl (Or.inl hpq))
    · exact Or.inr (Or.inr (Or.inl hpq))
  have hfor : ∀ l : List (V3 ℝ), List.Forall₂
      (fun iso c => ∀ p, Isom.transform iso p false = (cutskyToBox dr rr dcr).2.transform (p - c) false)
      (l.map fun c => shiftedIsometry c (cutskyToBox dr rr dcr).2) l := by
    intro l
    rw [List.forall₂_map_left_iff]
    exact List.forall₂_same.2 fun c _ p => shiftedIsometry_transform c _ p
  cases noutput with
  | none =>
    simp only [Except.ok.injEq] at h
    refine ⟨product3 xs ys zs, _, h.symm, hfor _, hin, hap, by simp, ?_⟩
    intro _ mx my mz fx fy fz
    rw [product3_length]
    exact Nat.mul_le_mul (Nat.mul_le_mul (x3 _ fx) (y3 _ fy)) (z3 _ fz)
  | some n =>
    simp only at h
    split at h
    · cases h
    · rename_i hlt
      simp only [Except.ok.injEq] at h
      refine ⟨(product3 xs ys zs).take n.toNat, _, h.symm, hfor _, fun p hp => hin p (List.mem_of_mem_take hp),
        hap.sublist (List.take_sublist _ _), ?_, by simp⟩
      intro m hm
      cases hm
      rw [List.length_take, product3_length]
      apply min_eq_left
      have : n ≤ ((xs.length * ys.length * zs.length : ℕ) : ℤ) := by push_cast; push_cast at hlt; omega
      omega

/-- C19: with `noutput = 1`, one isometry, which moves the centre of the catalog box to the survey centre. -/
theorem C19_one {ρ : Type} (b : Box ρ) (dr rr dcr : ℝ × ℝ) (external internal : Margin) :
    ∃ iso, isometryForCutsky b dr rr dcr external internal (some 1) = .ok (.one iso) ∧
      ∀ p, iso.transform p false = (cutskyToBox dr rr dcr).2.transform (p - b.boxcenter) false :=
  ⟨_, by simp [isometryForCutsky], shiftedIsometry_transform _ _⟩

/-- C19: negative margins are rejected, on any axis. -/
theorem C19_negative_rejected {ρ : Type} {b : Box ρ} {dr rr dcr : ℝ × ℝ} {external internal : Margin} {noutput : Option ℤ}
    (hn : noutput ≠ some 1) {a : ℝ} (ha : a < 0) (hr : Requested a external ∨ Requested a internal) :
    ∃ e, isometryForCutsky b dr rr dcr external internal noutput = .error e := by
  have h : ∃ m ∈ [external.toV3.x, external.toV3.y, external.toV3.z, internal.toV3.x, internal.toV3.y, internal.toV3.z],
      ∃ a, m = some a ∧ a < 0 := by
    refine ⟨some a, ?_, a, rfl, ha⟩
    rcases hr with hr | hr
    · cases external <;> simp only [Requested] at hr <;> simp [Margin.toV3, eq_comm (a := some a)] <;> tauto
    · cases internal <;> simp only [Requested] at hr <;> simp [Margin.toV3, eq_comm (a := some a)] <;> tauto
  unfold isometryForCutsky
  simp only [hn, if_false]
  have hax : ∀ (B s c : ℝ) (em im : Option ℝ), ((∃ a, em = some a ∧ a < 0) ∨ (∃ a, im = some a ∧ a < 0)) →
      axisLayout B s c em im = .error .valueError := fun B s c em im h => C19_negative h
  simp only [List.mem_cons, List.not_mem_nil, or_false, exists_eq_or_imp, exists_eq_left] at h
  cases ex : axisLayout b.boxsize.x (cutskyToBox dr rr dcr).1.x b.boxcenter.x external.toV3.x internal.toV3.x with
  | error e => exact ⟨e, rfl⟩
  | ok xs =>
  cases ey : axisLayout b.boxsize.y (cutskyToBox dr rr dcr).1.y b.boxcenter.y external.toV3.y internal.toV3.y with
  | error e => exact ⟨e, rfl⟩
  | ok ys =>
  cases ez : axisLayout b.boxsize.z (cutskyToBox dr rr dcr).1.z b.boxcenter.z external.toV3.z internal.toV3.z with
  | error e => exact ⟨e, rfl⟩
  | ok zs =>
  exfalso
  rcases h with h | h | h | h | h | h
  · rw [hax _ _ _ _ _ (Or.inl h)] at ex; cases ex
  · rw [hax _ _ _ _ _ (Or.inl h)] at ey; cases ey
  · rw [hax _ _ _ _ _ (Or.inl h)] at ez; cases ez
  · rw [hax _ _ _ _ _ (Or.inr h)] at ex; cases ex
  · rw [hax _ _ _ _ _ (Or.inr h)] at ey; cases ey
  · rw [hax _ _ _ _ _ (Or.inr h)] at ez; cases ez

/-- Non-vacuity of `C19_axis`: three sub-boxes of size 2 in a box of size 10, with margins of at least 0.5 and 1. -/
example : ∃ cs, axisLayout 10 2 0 (some (1 / 2)) (some 1) = .ok cs ∧ 3 ≤ cs.length := by
  obtain ⟨cs, h, -⟩ := C19_succeeds (B := 10) (b := 2) (c := 0) (e := 1 / 2) (i := 1) (by norm_num) (by norm_num)
    (by norm_num) (by norm_num)
  exact ⟨cs, h, (C19_axis (by norm_num) h).2.2 3 ⟨by norm_num, by norm_num⟩⟩

end Verif.Props
