import Verif.Props.FiberWitness
import Verif.Lemmas.FiberComp

/-!
# Completeness weights (C53, C54)
-/

namespace Verif.Props

open Verif Verif.Model Verif.Model.Fiber Verif.Spec.Fiber Verif.Lemmas.Fiber

variable {E : Type}

/-! ### Exact value of the weights -/

theorem tileIn_tileOf {w : World E} {tiles : List Tile} (hpos : ∀ t ∈ tiles, 0 ≤ t.id) (p : ℕ) (r : Target E) (t : ℤ) :
    tileIn w tiles p r = some t ↔ 0 ≤ tileOf w (tilesOfPass tiles p) r ∧ tileOf w (tilesOfPass tiles p) r = t := by
  unfold tileIn tileOf
  simp only
  rw [show (tiles.filter fun t : Tile => decide (t.pass = (p : ℤ))) = tilesOfPass tiles p from rfl]
  cases hf : w.find (tilesOfPass tiles p) r.ra r.dec with
  | nil => simp
  | cons i l =>
    simp only [List.head?_cons, Option.bind_some, List.getD_eq_getElem?_getD, List.getElem?_map]
    cases hi : (tilesOfPass tiles p)[i]? with
    | none => simp
    | some u =>
      have : 0 ≤ u.id := hpos u (List.mem_filter.mp (List.mem_of_getElem? hi)).1
      simp only [Option.map_some, Option.getD_some, Option.some.injEq]
      exact ⟨fun h => ⟨this, h⟩, fun h => h.2⟩

open Classical in
/-- A row after some passes. -/
noncomputable def rowAt (w : World E) (tiles : List Tile) (p : ℕ) (targets : List (Target E)) (r : Target E) : Weighted E where
  row := r
  weight := weightOf w tiles p targets r
  notUsed := decide (r.available = true ∧ r.numobs = 0 ∧ ∀ q < p, ¬∃ t f, HasFiber w tiles q r t f)

theorem rowAt_zero (w : World E) (tiles : List Tile) (targets : List (Target E)) (r : Target E) :
    weighted r = rowAt w tiles 0 targets r := by
  unfold weighted rowAt weightOf
  congr 1
  simp

theorem fiber_getD {r : Target E} {p : ℕ} {f : ℤ} (hf : f ≠ -1) : r.fiber.getD p (-1) = f ↔ r.fiber[p]? = some f := by
  rw [List.getD_eq_getElem?_getD]
  cases r.fiber[p]? with
  | none => simp [hf.symm]
  | some g => simp

theorem hasFiber_iff {w : World E} {tiles : List Tile} (hpos : ∀ t ∈ tiles, 0 ≤ t.id) (p : ℕ) (r : Target E) (t f : ℤ) :
    HasFiber w tiles p r t f ↔ 0 ≤ tileOf w (tilesOfPass tiles p) r ∧ tileOf w (tilesOfPass tiles p) r = t ∧
      r.fiber.getD p (-1) ≠ -1 ∧ r.fiber.getD p (-1) = f := by
  unfold HasFiber
  rw [tileIn_tileOf hpos]
  constructor
  · rintro ⟨⟨h1, h2⟩, h3, h4⟩
    rw [← fiber_getD h4] at h3
    exact ⟨h1, h2, by rw [h3]; exact h4, h3⟩
  · rintro ⟨h1, h2, h3, h4⟩
    rw [h4] at h3
    exact ⟨⟨h1, h2⟩, (fiber_getD h3).mp h4, h3⟩

theorem weightRow_rowAt {w : World E} {tiles : List Tile} (hpos : ∀ t ∈ tiles, 0 ≤ t.id) (p : ℕ) (targets : List (Target E))
    (r : Target E) :
    weightRow w (tilesOfPass tiles p) p (targets.map (rowAt w tiles p targets)) (rowAt w tiles p targets r)
      = rowAt w tiles (p + 1) targets r := by
  classical
  have hobs : r.obsPass.getD p false = true ↔ r.obsPass[p]? = some true := by
    rw [List.getD_eq_getElem?_getD]
    cases r.obsPass[p]? <;> simp
  have hlast : ∀ P : ℕ → Prop, (∀ q < p + 1, P q) ↔ (∀ q < p, P q) ∧ P p := by
    intro P
    constructor
    · intro h; exact ⟨fun q hq => h q (by omega), h p (by omega)⟩
    · rintro ⟨h1, h2⟩ q hq
      rcases Nat.lt_succ_iff_lt_or_eq.mp hq with h | rfl
      · exact h1 q h
      · exact h2
  have hasked : ∀ t f, asked w (tilesOfPass tiles p) p (targets.map (rowAt w tiles p targets)) t f
      = targets.countP fun y => decide (CountsFor w tiles p y t f) := by
    intro t f
    unfold asked
    rw [List.countP_map]
    refine List.countP_congr fun y _ => ?_
    simp only [Function.comp, rowAt, inPass, Bool.and_eq_true, decide_eq_true_eq, CountsFor, hasFiber_iff hpos]
    tauto
  generalize targets.map (rowAt w tiles p targets) = xs at hasked
  unfold weightRow
  have hin : inPass w (tilesOfPass tiles p) (rowAt w tiles p targets r) = decide (0 ≤ tileOf w (tilesOfPass tiles p) r) := rfl
  rw [hin]
  by_cases h0 : 0 ≤ tileOf w (tilesOfPass tiles p) r
  · rw [if_pos (by simpa using h0)]
    unfold rowAt
    simp only
    congr 1
    · -- weights
      unfold weightOf
      by_cases hn : r.numobs = 0
      · simp [hn]
      · simp only [if_neg hn, Finset.sum_range_succ, Option.map_some]
        by_cases ho : r.obsPass[p]? = some true
        · rw [if_pos (hobs.mpr ho), if_pos ho, ← add_assoc, hasked]
          congr 3
          refine List.countP_congr fun y _ => ?_
          simp only [decide_eq_true_eq]
          constructor
          · intro hc
            refine ⟨_, _, (hasFiber_iff hpos p r _ _).mpr ⟨h0, rfl, ?_, rfl⟩, hc⟩
            exact hc.2.2.1.2.2
          · rintro ⟨t, f, h1, h2⟩
            rw [hasFiber_iff hpos] at h1
            obtain ⟨_, rfl, _, rfl⟩ := h1
            exact h2
        · rw [if_neg (fun h => ho (hobs.mp h)), if_neg ho, add_zero]
    · -- flags
      rw [← Bool.decide_and, decide_eq_decide, hlast]
      have : (¬∃ t f, HasFiber w tiles p r t f) ↔ r.fiber.getD p (-1) = -1 := by
        constructor
        · intro h
          by_contra hne
          exact h ⟨_, _, (hasFiber_iff hpos p r _ _).mpr ⟨h0, rfl, hne, rfl⟩⟩
        · rintro h ⟨t, f, hf⟩
          exact ((hasFiber_iff hpos p r _ _).mp hf).2.2.1 h
      rw [this]
      tauto
  · rw [if_neg (by simpa using h0)]
    have hno : ∀ t f, ¬HasFiber w tiles p r t f := fun t f h => h0 ((hasFiber_iff hpos p r _ _).mp h).1
    unfold rowAt
    congr 1
    · unfold weightOf
      by_cases hn : r.numobs = 0
      · simp [hn]
      · simp only [if_neg hn, Finset.sum_range_succ, hno, false_and, exists_false, decide_false, List.countP_false]
        simp
    · rw [decide_eq_decide, hlast]
      simp [hno]

/-- C53 and C54: `compute_completeness_weight` never raises, leaves rows in place, and gives each row the weight of the specification,
which does not depend on how rows are spread over ranks nor on the exchanges. -/
theorem C53_weight {w : World E} {sched : ℕ → List (List CRow) → List (List CRow)} (hs : ∀ p sub, Csort CRow.tile sub (sched p sub))
    {tiles : List Tile} (hpos : ∀ t ∈ tiles, 0 ≤ t.id) (npasses : ℕ) (ranks : List (List (Target E))) :
    completenessWeight w sched tiles npasses ranks
      = .ok (ranks.map (List.map fun r => (r, weightOf w tiles npasses ranks.flatten r))) := by
  have key : (List.range npasses).foldlM (compStep w sched tiles) (ranks.map (List.map weighted))
      = .ok (ranks.map (List.map (rowAt w tiles npasses ranks.flatten))) := by
    induction npasses with
    | zero =>
      have : (weighted : Target E → Weighted E) = rowAt w tiles 0 ranks.flatten := funext fun r => rowAt_zero _ _ _ r
      rw [this]
      rfl
    | succ n ih =>
      rw [List.range_succ, List.foldlM_append, ih]
      simp only [Bind.bind, Except.bind, List.foldlM_cons, List.foldlM_nil, pure, Except.pure]
      rw [compStep_eq hs, List.map_map]
      simp only [Except.ok.injEq]
      refine List.map_congr_left fun l _ => ?_
      simp only [Function.comp, List.map_map]
      refine List.map_congr_left fun r _ => ?_
      simp only [Function.comp]
      rw [← List.map_flatten]
      exact weightRow_rowAt hpos n _ r
  unfold completenessWeight
  rw [key]
  simp only [Bind.bind, Except.bind, pure, Except.pure, Except.ok.injEq, List.map_map]
  refine List.map_congr_left fun l _ => ?_
  simp only [Function.comp, List.map_map]
  exact List.map_congr_left fun r _ => rfl

/-- C53: the weight is undefined exactly for targets that were not observed, and at least 1 for others. -/
theorem C53_defined {w : World E} {sched : ℕ → List (List CRow) → List (List CRow)} (hs : ∀ p sub, Csort CRow.tile sub (sched p sub))
    {tiles : List Tile} (hpos : ∀ t ∈ tiles, 0 ≤ t.id) {npasses : ℕ} {ranks : List (List (Target E))}
    {out : List (List (Target E × Option ℤ))} (h : completenessWeight w sched tiles npasses ranks = .ok out) :
    out.map (List.map Prod.fst) = ranks ∧
    ∀ l ∈ out, ∀ x ∈ l, (x.2 = none ↔ x.1.numobs = 0) ∧ ∀ v, x.2 = some v → 1 ≤ v := by
  rw [C53_weight hs hpos] at h
  simp only [Except.ok.injEq] at h
  subst h
  constructor
  · rw [List.map_map]
    conv_rhs => rw [← List.map_id ranks]
    refine List.map_congr_left fun l _ => ?_
    simp only [Function.comp, List.map_map, id]
    conv_rhs => rw [← List.map_id l]
    exact List.map_congr_left fun r _ => rfl
  · intro l hl x hx
    obtain ⟨l', _, rfl⟩ := List.mem_map.mp hl
    obtain ⟨r, _, rfl⟩ := List.mem_map.mp hx
    unfold weightOf
    by_cases hn : r.numobs = 0
    · simp [hn]
    · simp only [if_neg hn]
      refine ⟨by simp [hn], fun v hv => ?_⟩
      simp only [Option.some.injEq] at hv
      rw [← hv]
      have : (0 : ℤ) ≤ ∑ p ∈ Finset.range npasses, if r.obsPass[p]? = some true then
          ((ranks.flatten.countP fun y => @decide (∃ t f, HasFiber w tiles p r t f ∧ CountsFor w tiles p y t f)
            (Classical.propDecidable _) : ℕ) : ℤ) else 0 := by
        refine Finset.sum_nonneg fun p _ => ?_
        split_ifs
        · exact Int.natCast_nonneg _
        · exact le_rfl
      omega

/-- C54: the weights do not depend on how rows are spread over ranks. -/
theorem C54_weights {w : World E} {sched sched' : ℕ → List (List CRow) → List (List CRow)}
    (hs : ∀ p sub, Csort CRow.tile sub (sched p sub)) (hs' : ∀ p sub, Csort CRow.tile sub (sched' p sub))
    {tiles : List Tile} (hpos : ∀ t ∈ tiles, 0 ≤ t.id) (npasses : ℕ) {ranks ranks' : List (List (Target E))}
    (hflat : ranks'.flatten = ranks.flatten) :
    ∃ out out', completenessWeight w sched tiles npasses ranks = .ok out ∧ completenessWeight w sched' tiles npasses ranks' = .ok out' ∧
      out'.flatten = out.flatten := by
  refine ⟨_, _, C53_weight hs hpos npasses ranks, C53_weight hs' hpos npasses ranks', ?_⟩
  rw [← List.map_flatten, ← List.map_flatten, hflat]

end Verif.Props
