import Verif.Props.Mask
import Verif.Props.Box

/-!
# C34: cut-sky catalogs row by row
-/

namespace Verif.Props
open Verif Verif.Model Verif.Spec

variable {ρ : Type}

/-- The rows of a list that are flagged, in order. -/
def flagged {α : Type} (l : List α) (flags : List Bool) : List α := ((l.zip flags).filter fun x => x.2).map fun x => x.1

theorem pick_eq_flagged {α : Type} (l : List α) (m : List Bool) : pick l m = flagged l m := rfl

/-- Where the isometry puts the position of a row. -/
def movedPosition (iso : Isom) (r : Row ρ) : V3 ℝ := iso.rot.mulVec r.pos + iso.trans

/-- C34: position and vectors of an output row are moved, the translational invariants rotated, the other columns are
untouched, whatever `rdd`. -/
theorem C34_row (iso : Isom) (rdd : Rdd) (r : Row ρ) :
    (skyRow iso rdd r).1.row = rowMap (fun p => iso.rot.mulVec p + iso.trans) (fun v => iso.rot.mulVec v) r := by
  obtain ⟨R, t⟩ := iso
  simp only [skyRow, transform_rowMap]

/-- C34: the sky columns, under the requested names, describe the position of the row: this is the point at that distance
in that direction. -/
theorem C34_columns (iso : Isom) (r : Row ρ) {nra ndec ndist : String} (h : nra ≠ ndec ∧ nra ≠ ndist ∧ ndec ≠ ndist)
    (h0 : movedPosition iso r ≠ 0) :
    ∃ dist ra dec : ℝ, (skyRow iso (some (nra, ndec, ndist)) r).1.cols =
        [(nra, some ra), (ndec, some dec), (ndist, some dist)] ∧
      movedPosition iso r = skyPoint dist ra dec ∧ 0 < dist ∧ (0 ≤ ra ∧ ra < 360) ∧ (-90 ≤ dec ∧ dec ≤ 90) := by
  obtain ⟨dec, hd, hs⟩ := C22_from_cartesian h0 true
  obtain ⟨R, t⟩ := iso
  have hp : (r.transform ⟨R, t⟩).pos = movedPosition ⟨R, t⟩ r := by simp [Row.transform, Isom.transform, movedPosition]
  have hr := C23_ranges (movedPosition ⟨R, t⟩ r) true
  refine ⟨(cartesianToSky (movedPosition ⟨R, t⟩ r)).dist, (cartesianToSky (movedPosition ⟨R, t⟩ r)).ra, dec, ?_, ?_, ?_, ?_, ?_⟩
  · have hd' : (cartesianToSky (movedPosition ⟨R, t⟩ r)).dec = some dec := hd
    simp [skyRow, hp, h.1, h.2.1, h.2.2, hd']
  · conv_lhs => rw [← hs]
    ext <;> simp [skyToCartesian, Num.val, Num.kind, Kind.join, store, conversion, skyPoint, rad]
  · exact V3.norm_pos h0
  · simpa [turn] using (⟨hr.2.1, hr.2.2.1⟩ : _ ∧ _)
  · have := hr.2.2.2.2 dec hd
    norm_num [turn] at this
    exact this

/-- C34: no sky column if not requested. -/
theorem C34_no_columns (iso : Isom) (r : Row ρ) : (skyRow iso none r).1.cols = [] := rfl

/-- A row is accepted by a radial mask: its draw is at most the probability at its distance. -/
def RadialAccepts (m : Option RadialArg) (i : ℕ) (p : V3 ℝ) : Prop :=
  ∀ a, m = some a → ∀ u, a.draws[i]? = some u → u ≤ a.prob p.norm

/-- A row is accepted by an angular mask. -/
def AngularAccepts (m : Option AngularArg) (i : ℕ) (p : V3 ℝ) : Prop :=
  ∀ a, m = some a → ∀ u, a.draws[i]? = some u → u ≤ a.prob (cartesianToSky p).ra (cartesianToSky p).dec

theorem flagged_map {α β : Type} (l : List α) (g : α → β) (m : List Bool) : flagged (l.map g) m = (flagged l m).map g :=
  pick_map l g m

theorem flagged_all {α : Type} (l : List α) : flagged l (l.map fun _ => true) = l := by
  induction l with
  | nil => rfl
  | cons a l ih => simp [flagged, List.zip_cons_cons] at ih ⊢; exact ih

/-- C34: the output rows are, in order, those accepted by the masks given. -/
theorem C34_selected (b : Box ρ) (iso : Isom) (radial : Option RadialArg) (angular : Option AngularArg) (rdd : Rdd)
    (hr : ∀ a, radial = some a → a.draws.length = b.rows.length)
    (ha : ∀ a, angular = some a → a.draws.length = b.rows.length) :
    ∃ flags : List Bool, flags.length = b.rows.length ∧
      (∀ (i : ℕ) (r : Row ρ), b.rows[i]? = some r → (flags[i]? = some true ↔
        RadialAccepts radial i (movedPosition iso r) ∧ AngularAccepts angular i (movedPosition iso r))) ∧
      cutskyFromIsometry b iso radial angular rdd = (flagged b.rows flags).map fun r => (skyRow iso rdd r).1 := by
  have hp : ∀ r : Row ρ, (r.transform iso).pos = movedPosition iso r := fun r => by
    simp [Row.transform, Isom.transform, movedPosition]
  have hdist : ∀ r : Row ρ, (skyRow iso rdd r).2.dist = (movedPosition iso r).norm := fun r => by
    simp [skyRow, hp, cartesianToSky]
  have hsky : ∀ r : Row ρ, (skyRow iso rdd r).2 = cartesianToSky (movedPosition iso r) := fun r => by
    simp [skyRow, hp]
  have hget : ∀ {u : List ℝ} {i : ℕ} {r : Row ρ}, u.length = b.rows.length → b.rows[i]? = some r → ∃ x, u[i]? = some x := by
    intro u i r hu hi
    have : i < u.length := by rw [hu]; exact (List.getElem?_eq_some_iff.1 hi).1
    exact ⟨_, List.getElem?_eq_getElem this⟩
  -- flags of one mask
  have hR : ∀ a : RadialArg, a.draws.length = b.rows.length → ∀ i r, b.rows[i]? = some r →
      ((maskCall ((b.rows.map (skyRow iso rdd)).map fun s => a.prob s.2.dist) a.draws)[i]? = some true ↔
        RadialAccepts (some a) i (movedPosition iso r)) := by
    intro a hl i r hi
    obtain ⟨x, hx⟩ := hget hl hi
    rw [C26_select (p := a.prob (movedPosition iso r).norm) (by simp [hi, hdist]) hx]
    constructor
    · rintro h _ ⟨⟩ u hu
      rw [hx] at hu; cases hu; exact h
    · intro h; exact h a rfl x hx
  have hA : ∀ a : AngularArg, a.draws.length = b.rows.length → ∀ i r, b.rows[i]? = some r →
      ((maskCall ((b.rows.map (skyRow iso rdd)).map fun s => a.prob s.2.ra s.2.dec) a.draws)[i]? = some true ↔
        AngularAccepts (some a) i (movedPosition iso r)) := by
    intro a hl i r hi
    obtain ⟨x, hx⟩ := hget hl hi
    rw [C26_select (p := a.prob (cartesianToSky (movedPosition iso r)).ra (cartesianToSky (movedPosition iso r)).dec)
      (by simp [hi, hsky]) hx]
    constructor
    · rintro h _ ⟨⟩ u hu
      rw [hx] at hu; cases hu; exact h
    · intro h; exact h a rfl x hx
  have nR : ∀ i p, RadialAccepts none i p := fun i p a h => by simp at h
  have nA : ∀ i p, AngularAccepts none i p := fun i p a h => by simp at h
  cases radial with
  | none =>
    cases angular with
    | none =>
      refine ⟨b.rows.map fun _ => true, by simp, ?_, ?_⟩
      · intro i r hi
        rw [List.getElem?_map, hi]
        simp [nR, nA]
      · rw [flagged_all]
        simp [cutskyFromIsometry]
    | some a =>
      refine ⟨maskCall ((b.rows.map (skyRow iso rdd)).map fun s => a.prob s.2.ra s.2.dec) a.draws,
        ?_, fun i r hi => ?_, ?_⟩
      · rw [length_maskCall] <;> simp [ha]
      · rw [hA a (ha a rfl) i r hi]; exact ⟨fun h => ⟨nR _ _, h⟩, fun h => h.2⟩
      · simp [cutskyFromIsometry, pick_eq_flagged, flagged_map]
  | some m =>
    cases angular with
    | none =>
      refine ⟨maskCall ((b.rows.map (skyRow iso rdd)).map fun s => m.prob s.2.dist) m.draws,
        ?_, fun i r hi => ?_, ?_⟩
      · rw [length_maskCall] <;> simp [hr]
      · rw [hR m (hr m rfl) i r hi]; exact ⟨fun h => ⟨h, nA _ _⟩, fun h => h.1⟩
      · simp [cutskyFromIsometry, pick_eq_flagged, flagged_map]
    | some a =>
      refine ⟨List.zipWith (· && ·) (maskCall ((b.rows.map (skyRow iso rdd)).map fun s => m.prob s.2.dist) m.draws)
          (maskCall ((b.rows.map (skyRow iso rdd)).map fun s => a.prob s.2.ra s.2.dec) a.draws),
        ?_, fun i r hi => ?_, ?_⟩
      · rw [List.length_zipWith, length_maskCall, length_maskCall] <;> simp [hr, ha]
      · rw [← hR m (hr m rfl) i r hi, ← hA a (ha a rfl) i r hi, List.getElem?_zipWith]
        generalize (maskCall _ m.draws)[i]? = x
        generalize (maskCall _ a.draws)[i]? = y
        cases x <;> cases y <;> simp
      · simp [cutskyFromIsometry, pick_eq_flagged, flagged_map]

/-- C34, partial: a list of isometries gives the list of the individual results, with the default names of the sky columns. -/
theorem C34_list_partial (b : Box ρ) (isos : List (Isom × Option RadialArg × Option AngularArg)) :
    cutskyFromIsometries b isos defaultRdd = isos.map fun a => cutskyFromIsometry b a.1 a.2.1 a.2.2 defaultRdd := rfl

/-- C34 fails for a list of isometries and other names: the option is lost. -/
theorem C34_list_violated : ∃ (b : Box Unit) (iso : Isom) (rdd : Rdd),
    cutskyFromIsometries b [(iso, none, none)] rdd ≠ [cutskyFromIsometry b iso none none rdd] := by
  refine ⟨⟨⟨1, 1, 1⟩, 0, [⟨⟨1, 0, 0⟩, 0, [], [], ()⟩]⟩, Isom.init, none, fun h => ?_⟩
  simp [cutskyFromIsometries, cutskyFromIsometry, skyRow, defaultRdd] at h

/-- The masks built by `isometry_for_cutsky` (`make_survey.py:936-937`). -/
noncomputable def surveyMasks (drange rarange decrange : Range) (u v : List ℝ) : RadialArg × AngularArg :=
  (⟨uniformRadialProb 1 (some drange), u⟩, ⟨uniformAngularProb 1 (some rarange) (some decrange), v⟩)

/-- C34: `cutsky` with its own masks keeps exactly the rows whose moved position is the point at a distance, RA and Dec in
the ranges, for plain RA ranges and draws that are not exactly zero. -/
theorem C34_cutsky_partial (b : Box ρ) (iso : Isom) {drange rarange decrange : Range} (rdd : Rdd) {u v : List ℝ}
    (hu : u.length = b.rows.length) (hv : v.length = b.rows.length) (hu' : ∀ x ∈ u, 0 < x ∧ x < 1)
    (hv' : ∀ x ∈ v, 0 < x ∧ x < 1) (hplain : PlainRange rarange) :
    ∃ flags : List Bool, flags.length = b.rows.length ∧
      (∀ (i : ℕ) (r : Row ρ), b.rows[i]? = some r → (flags[i]? = some true ↔
        InRange drange (movedPosition iso r).norm ∧ InRa rarange (cartesianToSky (movedPosition iso r)).ra ∧
          ∃ dec, (cartesianToSky (movedPosition iso r)).dec = some dec ∧ InRange decrange dec)) ∧
      cutskyFromIsometry b iso (some (surveyMasks drange rarange decrange u v).1)
        (some (surveyMasks drange rarange decrange u v).2) rdd =
          (flagged b.rows flags).map fun r => (skyRow iso rdd r).1 := by
  obtain ⟨flags, h1, h2, h3⟩ := C34_selected b iso (some (surveyMasks drange rarange decrange u v).1)
    (some (surveyMasks drange rarange decrange u v).2) rdd (by rintro _ ⟨⟩; exact hu) (by rintro _ ⟨⟩; exact hv)
  refine ⟨flags, h1, fun i r hi => ?_, h3⟩
  rw [h2 i r hi]
  have one : clip01 1 = 1 := clip01_eq zero_le_one le_rfl
  have hi' : i < b.rows.length := (List.getElem?_eq_some_iff.1 hi).1
  have iu : i < u.length := by rw [hu]; exact hi'
  have iv : i < v.length := by rw [hv]; exact hi'
  have k1 : RadialAccepts (some (surveyMasks drange rarange decrange u v).1) i (movedPosition iso r) ↔
      InRange drange (movedPosition iso r).norm := by
    have hrad := C28_radial 1 drange (movedPosition iso r).norm
    constructor
    · intro h
      by_contra hc
      have := h _ rfl _ (List.getElem?_eq_getElem iu)
      simp only [surveyMasks, hrad.2 hc] at this
      exact absurd this (not_le.2 (hu' _ (List.getElem_mem iu)).1)
    · rintro h _ ⟨⟩ x hx
      simp only [surveyMasks, hrad.1 h, one]
      exact (hu' x (List.mem_of_getElem? hx)).2.le
  have k2 : AngularAccepts (some (surveyMasks drange rarange decrange u v).2) i (movedPosition iso r) ↔
      (InRa rarange (cartesianToSky (movedPosition iso r)).ra ∧
          ∃ dec, (cartesianToSky (movedPosition iso r)).dec = some dec ∧ InRange decrange dec) := by
    cases hdec : (cartesianToSky (movedPosition iso r)).dec with
    | none =>
      simp only [reduceCtorEq, false_and, exists_false, and_false, iff_false]
      intro h
      have := h _ rfl _ (List.getElem?_eq_getElem iv)
      simp only [surveyMasks, hdec, C28_no_declination] at this
      exact absurd this (not_le.2 (hv' _ (List.getElem_mem iv)).1)
    | some dec =>
      have hang := C28_angular_partial 1 decrange hplain (cartesianToSky (movedPosition iso r)).ra dec
      simp only [Option.some.injEq, exists_eq_left']
      constructor
      · intro h
        by_contra hc
        have := h _ rfl _ (List.getElem?_eq_getElem iv)
        simp only [surveyMasks, hdec, hang.2 hc] at this
        exact absurd this (not_le.2 (hv' _ (List.getElem_mem iv)).1)
      · rintro h _ ⟨⟩ x hx
        simp only [surveyMasks, hdec, hang.1 h, one]
        exact (hv' x (List.mem_of_getElem? hx)).2.le
  rw [k1, k2]

/-- Non-vacuity: two rows, one of which is kept. -/
example : ∃ (b : Box Unit) (u v : List ℝ), u.length = b.rows.length ∧ v.length = b.rows.length ∧ (∀ x ∈ u, 0 < x ∧ x < 1) ∧
    (∀ x ∈ v, 0 < x ∧ x < 1) ∧ PlainRange (300, 40) ∧
    InRange (2, 4) (movedPosition Isom.init (⟨⟨3, 0, 0⟩, 0, [], [], ()⟩ : Row Unit)).norm ∧
    b.rows = [⟨⟨3, 0, 0⟩, 0, [], [], ()⟩, ⟨⟨9, 0, 0⟩, 0, [], [], ()⟩] ∧
    ¬ InRange (2, 4) (movedPosition Isom.init (⟨⟨9, 0, 0⟩, 0, [], [], ()⟩ : Row Unit)).norm := by
  have s3 : Real.sqrt (3 ^ 2) = 3 := Real.sqrt_sq (by norm_num)
  have s9 : Real.sqrt (9 ^ 2) = 9 := Real.sqrt_sq (by norm_num)
  refine ⟨⟨⟨1, 1, 1⟩, 0, [⟨⟨3, 0, 0⟩, 0, [], [], ()⟩, ⟨⟨9, 0, 0⟩, 0, [], [], ()⟩]⟩, [1 / 2, 1 / 2], [1 / 2, 1 / 3], rfl, rfl,
    by simp; norm_num, by simp; norm_num, ⟨by norm_num, by norm_num, by norm_num⟩, ?_, rfl, ?_⟩
  · simp [InRange, movedPosition, Isom.init, V3.norm, s3]; norm_num
  · simp [InRange, movedPosition, Isom.init, V3.norm, s9]; norm_num

end Verif.Props
