import Verif.Props.FiberWeights
import Mathlib.Algebra.BigOperators.Group.List.Basic
import Mathlib.Algebra.BigOperators.Ring.Finset

/-!
# Completeness weights conserve targets (C53)
-/

namespace Verif.Props

open Verif Verif.Model Verif.Model.Fiber Verif.Spec.Fiber Verif.Lemmas.Fiber

variable {E : Type}

/-! ### Double counting -/

theorem sum_map_countP_swap {α β : Type*} (m : α → β → Bool) (A : List α) (B : List β) :
    (A.map fun a => (B.countP (m a) : ℤ)).sum = (B.map fun b => (A.countP fun a => m a b : ℤ)).sum := by
  induction A with
  | nil => simp
  | cons a A ih =>
    rw [List.map_cons, List.sum_cons, ih]
    have : (B.map fun b => ((a :: A).countP fun a => m a b : ℤ)) = B.map fun b => (if m a b then (1 : ℤ) else 0) + (A.countP fun a => m a b : ℤ) := by
      refine List.map_congr_left fun b _ => ?_
      rw [List.countP_cons]
      push_cast
      ring
    rw [this, List.sum_map_add]
    congr 1
    clear this ih
    induction B with
    | nil => simp
    | cons b B ih =>
      rw [List.countP_cons, List.map_cons, List.sum_cons, ← ih]
      push_cast
      ring

theorem sum_map_ite_countP {α : Type*} (p : α → Prop) [DecidablePred p] (l : List α) :
    (l.map fun a => if p a then (1 : ℤ) else 0).sum = l.countP fun a => decide (p a) := by
  induction l with
  | nil => simp
  | cons a l ih =>
    rw [List.countP_cons, List.map_cons, List.sum_cons, ih]
    push_cast
    by_cases h : p a
    · simp [h]; ring
    · simp [h]

theorem sum_map_finset {α : Type*} (s : Finset ℕ) (g : ℕ → α → ℤ) (l : List α) :
    (l.map fun a => ∑ p ∈ s, g p a).sum = ∑ p ∈ s, (l.map (g p)).sum := by
  induction l with
  | nil => simp
  | cons a l ih => simp [ih, Finset.sum_add_distrib]

open Classical in
/-- What a history of passes leaves in a catalogue. -/
structure History (w : World E) (tiles : List Tile) (npasses : ℕ) (targets : List (Target E)) : Prop where
  someFiber : ∀ y ∈ targets, y.available = true → y.numobs = 0 → ∃ p < npasses, ∃ t f, HasFiber w tiles p y t f
  oneObserved : ∀ y ∈ targets, ∀ p < npasses, ∀ t f, HasFiber w tiles p y t f →
    ∃ r, [r] = targets.filter fun r => decide (r.obsPass[p]? = some true ∧ HasFiber w tiles p r t f)
  observed : ∀ r ∈ targets, ∀ p < npasses, r.obsPass[p]? = some true → r.numobs ≠ 0

theorem conserve {w : World E} {tiles : List Tile} {npasses : ℕ} {targets : List (Target E)} (h : History w tiles npasses targets) :
    (targets.map fun r => (weightOf w tiles npasses targets r).getD 0).sum
      = targets.countP (fun r => decide (r.numobs ≠ 0)) + targets.countP (fun r => r.available && decide (r.numobs = 0)) := by
  classical
  let m : ℕ → Target E → Target E → Bool := fun p r y =>
    decide (r.obsPass[p]? = some true ∧ ∃ t f, HasFiber w tiles p r t f ∧ CountsFor w tiles p y t f)
  have h1 : (targets.map fun r => (weightOf w tiles npasses targets r).getD 0)
      = targets.map fun r => (if r.numobs ≠ 0 then (1 : ℤ) else 0) + ∑ p ∈ Finset.range npasses, (targets.countP (m p r) : ℤ) := by
    refine List.map_congr_left fun r hr => ?_
    have hm : ∀ p, r.obsPass[p]? ≠ some true → targets.countP (m p r) = 0 := by
      intro p hp
      rw [List.countP_eq_zero]
      intro y _
      simp [m, hp]
    unfold weightOf
    by_cases hn : r.numobs = 0
    · rw [if_pos hn, if_neg (by simpa using hn), Finset.sum_eq_zero]
      · rfl
      · intro p hp
        rw [hm p fun ho => h.observed r hr p (Finset.mem_range.mp hp) ho hn]
        rfl
    · rw [if_neg hn, if_pos hn, Option.getD_some]
      congr 1
      refine Finset.sum_congr rfl fun p _ => ?_
      by_cases ho : r.obsPass[p]? = some true
      · rw [if_pos ho]
        congr 1
        refine List.countP_congr fun y _ => ?_
        simp [m, ho]
      · rw [if_neg ho, hm p ho]
        rfl
  have h2 : ∀ p ∈ Finset.range npasses, (targets.map fun r => (targets.countP (m p r) : ℤ)).sum
      = (targets.map fun y => if ∃ t f, CountsFor w tiles p y t f then (1 : ℤ) else 0).sum := by
    intro p hp
    rw [sum_map_countP_swap]
    congr 1
    refine List.map_congr_left fun y hy => ?_
    by_cases hc : ∃ t f, CountsFor w tiles p y t f
    · rw [if_pos hc]
      obtain ⟨t, f, hc⟩ := hc
      obtain ⟨r, hr⟩ := h.oneObserved y hy p (Finset.mem_range.mp hp) t f hc.2.2.1
      have : (targets.countP fun r => m p r y) = 1 := by
        rw [List.countP_eq_length_filter]
        have e : (targets.filter fun r => m p r y) = targets.filter fun r =>
            decide (r.obsPass[p]? = some true ∧ HasFiber w tiles p r t f) := by
          refine List.filter_congr fun r _ => ?_
          simp only [m]
          rw [decide_eq_decide]
          refine and_congr_right fun _ => ?_
          constructor
          · rintro ⟨t', f', h1, h2⟩
            have e1 := h2.2.2.1.1.symm.trans hc.2.2.1.1
            have e2 := h2.2.2.1.2.1.symm.trans hc.2.2.1.2.1
            simp only [Option.some.injEq] at e1 e2
            rw [← e1, ← e2]
            exact h1
          · intro h1
            exact ⟨t, f, h1, hc⟩
        rw [e, ← hr]
        rfl
      rw [this]
      rfl
    · rw [if_neg hc]
      have : (targets.countP fun r => m p r y) = 0 := by
        rw [List.countP_eq_zero]
        intro r _
        simp only [m, decide_eq_true_eq]
        rintro ⟨_, t, f, _, h2⟩
        exact hc ⟨t, f, h2⟩
      rw [this]
      rfl
  have h3 : ∀ y ∈ targets, (∑ p ∈ Finset.range npasses, if ∃ t f, CountsFor w tiles p y t f then (1 : ℤ) else 0)
      = if y.available = true ∧ y.numobs = 0 then 1 else 0 := by
    intro y hy
    by_cases ha : y.available = true ∧ y.numobs = 0
    · rw [if_pos ha]
      have hex := h.someFiber y hy ha.1 ha.2
      have hp0 : ∃ p, p < npasses ∧ ∃ t f, HasFiber w tiles p y t f := hex
      have hfind := Nat.find_spec hp0
      have hmin : ∀ q < Nat.find hp0, ¬∃ t f, HasFiber w tiles q y t f := by
        intro q hq hc
        exact Nat.find_min hp0 hq ⟨lt_trans hq hfind.1, hc⟩
      rw [Finset.sum_eq_single_of_mem (Nat.find hp0) (Finset.mem_range.mpr hfind.1)]
      · obtain ⟨t, f, hf⟩ := hfind.2
        rw [if_pos ⟨t, f, ha.1, ha.2, hf, hmin⟩]
      · intro q _ hne
        rw [if_neg]
        rintro ⟨t, f, _, _, hf, hq⟩
        rcases lt_or_gt_of_ne hne with hlt | hgt
        · exact hmin q hlt ⟨t, f, hf⟩
        · exact hq _ hgt hfind.2
    · rw [if_neg ha]
      refine Finset.sum_eq_zero fun p _ => ?_
      rw [if_neg]
      rintro ⟨t, f, h1, h2, _⟩
      exact ha ⟨h1, h2⟩
  rw [h1, List.sum_map_add, sum_map_ite_countP, sum_map_finset, Finset.sum_congr rfl h2, ← sum_map_finset]
  congr 1
  rw [List.map_congr_left h3, sum_map_ite_countP]
  congr 1
  refine List.countP_congr fun y _ => ?_
  simp

/-! ### What a run leaves in a catalogue -/

theorem forall₂_and {α β : Type*} {R S : α → β → Prop} {l : List α} {m : List β} (h : List.Forall₂ R l m) (h' : List.Forall₂ S l m) :
    List.Forall₂ (fun a b => R a b ∧ S a b) l m := by
  induction h with
  | nil => exact .nil
  | cons h1 _ ih =>
    cases h' with
    | cons h2 h3 => exact .cons ⟨h1, h2⟩ (ih h3)

theorem forall₂_exists_right {α β : Type*} {R : α → β → Prop} {l : List α} {m : List β} (h : List.Forall₂ R l m) :
    ∀ a ∈ l, ∃ b ∈ m, R a b := by
  induction h with
  | nil => simp
  | cons h1 _ ih =>
    intro a ha
    rcases List.mem_cons.mp ha with rfl | ha
    · exact ⟨_, by simp, h1⟩
    · obtain ⟨b, hb, hr⟩ := ih a ha
      exact ⟨b, by simp [hb], hr⟩

theorem forall₂_exists_left {α β : Type*} {R : α → β → Prop} {l : List α} {m : List β} (h : List.Forall₂ R l m) :
    ∀ b ∈ m, ∃ a ∈ l, R a b := forall₂_exists_right h.flip

/-- The columns of a pass. -/
def viewAt (q : ℕ) (r : Target E) : ℤ × ℝ × ℝ × Option Bool × Option ℤ := (r.tid, r.ra, r.dec, r.obsPass[q]?, r.fiber[q]?)

/-- In a pass, each fiber that is recorded on a tile was given to a target that was observed on this tile, and to one only. -/
structure PassView (covers : Tile → ℝ → ℝ → Prop) (tiles : List Tile) (q : ℕ) (vs : List (ℤ × ℝ × ℝ × Option Bool × Option ℤ)) : Prop where
  given : ∀ y ∈ vs, ∀ f, y.2.2.2.2 = some f → f ≠ -1 → ∃ t ∈ tiles, t.pass = q ∧ covers t y.2.1 y.2.2.1 ∧
    ∃ r ∈ vs, covers t r.2.1 r.2.2.1 ∧ r.2.2.2.1 = some true ∧ r.2.2.2.2 = some f
  one : ∀ t ∈ tiles, t.pass = q → ∀ r ∈ vs, ∀ r' ∈ vs, covers t r.2.1 r.2.2.1 → covers t r'.2.1 r'.2.2.1 →
    r.2.2.2.1 = some true → r'.2.2.2.1 = some true → r.2.2.2.2 = r'.2.2.2.2 → r.1 = r'.1

/-- The columns of a pass of one row, after the pass. -/
theorem row_view {w : World E} {covers : Tile → ℝ → ℝ → Prop} {tiles : List Tile} {n p : ℕ} (hp : p < n) {asgn : Tile → Assignment}
    {r0 a b : Target E} (hrun : RunRow n p r0 a)
    (h : (∀ t ∈ tiles, t.pass = p → covers t a.ra a.dec → 1 ≤ a.more → PassRow w covers p (asgn t) t a b) ∧
        ((¬∃ t ∈ tiles, t.pass = p ∧ covers t a.ra a.dec ∧ 1 ≤ a.more) → b = a)) :
    (∀ q ≠ p, b.obsPass[q]? = a.obsPass[q]? ∧ b.fiber[q]? = a.fiber[q]?) ∧
    (b.obsPass[p]? = some true → ∃ t ∈ tiles, ∃ f, t.pass = p ∧ covers t a.ra a.dec ∧ 1 ≤ a.more ∧ Assigned (asgn t) t a.tid f ∧
      Works w t f ∧ b.fiber[p]? = some f) ∧
    (∀ f, b.fiber[p]? = some f → f ≠ -1 → ∃ t ∈ tiles, t.pass = p ∧ covers t a.ra a.dec ∧ 1 ≤ a.more ∧ Works w t f ∧
      ∃ id', Assigned (asgn t) t id' f) ∧
    (∀ t ∈ tiles, t.pass = p → covers t a.ra a.dec → 1 ≤ a.more → ∀ f, Assigned (asgn t) t a.tid f → Works w t f →
      b.obsPass[p]? = some true ∧ b.fiber[p]? = some f) := by
  have hpl : p < a.obsPass.length := by rw [hrun.obsLen]; exact hp
  have hpf : p < a.fiber.length := by rw [hrun.fiberLen]; exact hp
  have hahead := hrun.ahead p le_rfl hp
  by_cases hex : ∃ t ∈ tiles, t.pass = p ∧ covers t a.ra a.dec ∧ 1 ≤ a.more
  · obtain ⟨t, ht, htp, hc, hm⟩ := hex
    have hrow := h.1 t ht htp hc hm
    refine ⟨?_, ?_, ?_, ?_⟩
    · intro q hq
      have hset1 : ∀ v, (a.obsPass.set p v)[q]? = a.obsPass[q]? := fun v => by rw [List.getElem?_set, if_neg hq.symm]
      have hset2 : ∀ v, (a.fiber.set p v)[q]? = a.fiber[q]? := fun v => by rw [List.getElem?_set, if_neg hq.symm]
      by_cases ho : ∃ f, Assigned (asgn t) t a.tid f ∧ Works w t f
      · obtain ⟨f, h1, h2⟩ := ho
        obtain ⟨e1, e2, _, _⟩ := hrow.observed f h1 h2
        rw [e1, e2, hset1, hset2]
        exact ⟨rfl, rfl⟩
      · rw [(hrow.unobserved ho).1, hset1]
        refine ⟨rfl, ?_⟩
        by_cases hr : ∃ f, FirstReached (asgn t) t a.tid f ∧ Works w t f
        · obtain ⟨f, h1, h2⟩ := hr
          rw [hrow.reached f ho h1 h2, hset2]
        · rw [hrow.unreached ho hr, hset2]
    · intro hob
      by_cases ho : ∃ f, Assigned (asgn t) t a.tid f ∧ Works w t f
      · obtain ⟨f, h1, h2⟩ := ho
        obtain ⟨e1, e2, _, _⟩ := hrow.observed f h1 h2
        refine ⟨t, ht, f, htp, hc, hm, h1, h2, ?_⟩
        rw [e2, List.getElem?_set]
        simp [hpf]
      · rw [(hrow.unobserved ho).1, List.getElem?_set] at hob
        simp [hpl] at hob
    · intro f hf hne
      refine ⟨t, ht, htp, hc, hm, ?_⟩
      by_cases ho : ∃ f, Assigned (asgn t) t a.tid f ∧ Works w t f
      · obtain ⟨g, h1, h2⟩ := ho
        obtain ⟨e1, e2, _, _⟩ := hrow.observed g h1 h2
        rw [e2, List.getElem?_set] at hf
        simp only [if_true, hpf, Option.some.injEq] at hf
        subst hf
        exact ⟨h2, a.tid, h1⟩
      · by_cases hr : ∃ f, FirstReached (asgn t) t a.tid f ∧ Works w t f
        · obtain ⟨g, h1, h2⟩ := hr
          rw [hrow.reached g ho h1 h2, List.getElem?_set] at hf
          simp only [if_true, hpf, Option.some.injEq] at hf
          subst hf
          obtain ⟨_, _, _, _, _, _, _, h3, _⟩ := h1
          exact ⟨h2, h3⟩
        · rw [hrow.unreached ho hr, List.getElem?_set] at hf
          simp only [if_true, hpf, Option.some.injEq] at hf
          exact absurd hf.symm hne
    · intro t' ht' htp' hc' hm' f h1 h2
      obtain ⟨e1, e2, _, _⟩ := (h.1 t' ht' htp' hc' hm').observed f h1 h2
      rw [e1, e2, List.getElem?_set, List.getElem?_set]
      simp [hpl, hpf]
  · have hb := h.2 hex
    subst hb
    refine ⟨fun q _ => ⟨rfl, rfl⟩, ?_, ?_, ?_⟩
    · rw [hahead.1]
      intro h'
      simp at h'
    · intro f hf hne
      rw [hahead.2] at hf
      simp only [Option.some.injEq] at hf
      exact absurd hf.symm hne
    · intro t ht htp hc hm
      exact absurd ⟨t, ht, htp, hc, hm⟩ hex

/-- The columns of all passes, after a pass. -/
theorem view_step {w : World E} {covers : Tile → ℝ → ℝ → Prop} {sched : ℕ → List (List (PRow E)) → List (List (PRow E))}
    (hs : ∀ p sub, Csort PRow.tile sub (sched p sub)) {tiles : List Tile} {ranks x y : List (List (Target E))} {n p : ℕ} (hp : p < n)
    (hw : SurveyOk w covers tiles x.flatten) (hx : List.Forall₂ (RunRow n p) ranks.flatten x.flatten)
    (h : passStep w sched tiles x p = .ok y) :
    PassView covers tiles p (y.flatten.map (viewAt p)) ∧ ∀ q ≠ p, y.flatten.map (viewAt q) = x.flatten.map (viewAt q) := by
  classical
  obtain ⟨asgn, h1, h2⟩ := C52_pass hs hw h
  have hin : List.Forall₂ (fun a b => inputOf b = inputOf a) x.flatten y.flatten := by
    refine forall₂_flatten ((passStep_kept hs h).imp fun _ _ hl => hl.imp fun a b hab => ?_)
    unfold Written at hab
    split_ifs at hab
    · obtain ⟨q, _, rfl⟩ := hab
      rfl
    · rw [hab]
  have hrel := forall₂_and (forall₂_flatten h2) hin
  have hview : List.Forall₂ (fun a b => (inputOf b = inputOf a) ∧ a ∈ x.flatten ∧
      (∀ q ≠ p, b.obsPass[q]? = a.obsPass[q]? ∧ b.fiber[q]? = a.fiber[q]?) ∧
      (b.obsPass[p]? = some true → ∃ t ∈ tiles, ∃ f, t.pass = p ∧ covers t a.ra a.dec ∧ 1 ≤ a.more ∧ Assigned (asgn t) t a.tid f ∧
        Works w t f ∧ b.fiber[p]? = some f) ∧
      (∀ f, b.fiber[p]? = some f → f ≠ -1 → ∃ t ∈ tiles, t.pass = p ∧ covers t a.ra a.dec ∧ 1 ≤ a.more ∧ Works w t f ∧
        ∃ id', Assigned (asgn t) t id' f) ∧
      (∀ t ∈ tiles, t.pass = p → covers t a.ra a.dec → 1 ≤ a.more → ∀ f, Assigned (asgn t) t a.tid f → Works w t f →
        b.obsPass[p]? = some true ∧ b.fiber[p]? = some f)) x.flatten y.flatten := by
    refine (forall₂_and_mem hrel).imp fun a b hab => ?_
    obtain ⟨r0, _, hrun⟩ := forall₂_exists_left hx a hab.1
    exact ⟨hab.2.2, hab.1, row_view hp hrun hab.2.1⟩
  have hok : ∀ t ∈ tiles, t.pass = p → ∀ a ∈ x.flatten, covers t a.ra a.dec → 1 ≤ a.more → ∃ rows,
      ((onTile covers t rows).map seen).Perm ((askFor covers t x.flatten).map fun r => (r.tid, r.ra, r.dec, r.extra, r.more)) ∧
      AssignmentOk covers t rows (asgn t) := by
    intro t ht htp a ha hc hm
    obtain ⟨rows, hr, he⟩ := h1 t ht htp (by
      refine List.ne_nil_of_mem (a := a) ?_
      unfold askFor
      rw [List.mem_filter, decide_eq_true_eq]
      exact ⟨ha, hc, hm⟩)
    exact ⟨rows, hr, hw.engine t rows _ he⟩
  have hinp : ∀ {a b : Target E}, inputOf b = inputOf a → b.tid = a.tid ∧ b.ra = a.ra ∧ b.dec = a.dec := by
    intro a b he
    simp only [inputOf, Prod.mk.injEq] at he
    exact ⟨he.1, he.2.1, he.2.2.1⟩
  refine ⟨⟨?_, ?_⟩, ?_⟩
  · intro v hv f hf hne
    obtain ⟨b, hb, rfl⟩ := List.mem_map.mp hv
    obtain ⟨a, ha, hi, _, _, _, hfib, _⟩ := forall₂_exists_left hview b hb
    obtain ⟨e1, e2, e3⟩ := hinp hi
    obtain ⟨t, ht, htp, hc, hm, hwk, id', hass⟩ := hfib f hf hne
    refine ⟨t, ht, htp, by simp only [viewAt, e2, e3]; exact hc, ?_⟩
    obtain ⟨rows, hperm, haok⟩ := hok t ht htp a ha hc hm
    have hass' := hass
    obtain ⟨_, loc, hl, hsci, hfl⟩ := hass'
    obtain ⟨ids, hav, hid⟩ := haok.reach _ hl hsci
    obtain ⟨r, hr, hrt, hrc⟩ := haok.rows _ hav _ hid hsci
    have hmem : seen r ∈ (onTile covers t rows).map seen := by
      refine List.mem_map.mpr ⟨r, ?_, rfl⟩
      unfold onTile
      rw [List.mem_filter, decide_eq_true_eq]
      exact ⟨hr, hrc⟩
    obtain ⟨a', ha', hse⟩ := List.mem_map.mp (hperm.mem_iff.mp hmem)
    unfold askFor at ha'
    rw [List.mem_filter, decide_eq_true_eq] at ha'
    have htid : a'.tid = id' := by
      have := congrArg Prod.fst hse
      simp only [seen] at this
      rw [this, hrt]
    obtain ⟨b', hb', hi', _, _, _, _, hobs⟩ := forall₂_exists_right hview a' ha'.1
    obtain ⟨e1', e2', e3'⟩ := hinp hi'
    obtain ⟨o1, o2⟩ := hobs t ht htp ha'.2.1 ha'.2.2 f (by rw [htid]; exact hass) hwk
    exact ⟨viewAt p b', List.mem_map.mpr ⟨b', hb', rfl⟩, by simp only [viewAt, e2', e3']; exact ha'.2.1, o1, o2⟩
  · intro t ht htp v hv v' hv' hc hc' ho ho' hff
    obtain ⟨b, hb, rfl⟩ := List.mem_map.mp hv
    obtain ⟨b', hb', rfl⟩ := List.mem_map.mp hv'
    obtain ⟨a, ha, hi, _, _, hobs, _, _⟩ := forall₂_exists_left hview b hb
    obtain ⟨a', ha', hi', _, _, hobs', _, _⟩ := forall₂_exists_left hview b' hb'
    obtain ⟨e1, e2, e3⟩ := hinp hi
    obtain ⟨e1', e2', e3'⟩ := hinp hi'
    simp only [viewAt, e2, e3, e2', e3'] at hc hc' hff
    obtain ⟨t1, ht1, f, hp1, hc1, hm1, has1, hw1, hf1⟩ := hobs ho
    obtain ⟨t2, ht2, f', hp2, hc2, hm2, has2, hw2, hf2⟩ := hobs' ho'
    have et1 : t1 = t := hw.tiles.disjoint t1 ht1 t ht (hp1.trans htp.symm) a ha hc1 hc
    have et2 : t2 = t := hw.tiles.disjoint t2 ht2 t ht (hp2.trans htp.symm) a' ha' hc2 hc'
    subst et1 et2
    rw [hf1, hf2, Option.some.injEq] at hff
    subst hff
    obtain ⟨rows, _, haok⟩ := hok _ ht htp a ha hc hm1
    obtain ⟨_, loc, hl, _, hfl⟩ := has1
    obtain ⟨_, loc', hl', _, hfl'⟩ := has2
    have h0 : 0 ≤ f := by
      obtain ⟨_, _, i, hi, _⟩ := hw1
      omega
    have hloc := haok.oneFiber loc loc' f h0 hfl hfl'
    subst hloc
    have := List.inj_on_of_nodup_map haok.oneTarget hl hl' rfl
    simp only [Prod.mk.injEq, true_and] at this
    simp only [viewAt, e1, e1']
    exact this
  · intro q hq
    refine forall₂_map_eq (fun a b hab => ?_) hview
    obtain ⟨e1, e2, e3⟩ := hinp hab.1
    have := hab.2.2.1 q hq
    simp only [viewAt, e1, e2, e3, this.1, this.2]

theorem run_view {w : World E} {covers : Tile → ℝ → ℝ → Prop} {sched : ℕ → List (List (PRow E)) → List (List (PRow E))}
    (hs : ∀ p sub, Csort PRow.tile sub (sched p sub)) {tiles : List Tile} {npasses : ℕ} {ranks out : List (List (Target E))}
    (hw : SurveyOk w covers tiles ranks.flatten) (h : applyFiberAssignment w sched tiles npasses ranks = .ok out) :
    ∀ q < npasses, PassView covers tiles q (out.flatten.map (viewAt q)) := by
  unfold applyFiberAssignment at h
  have := foldlM_range (I := fun p x => List.Forall₂ (RunRow npasses p) ranks.flatten x.flatten ∧
      ∀ q < p, PassView covers tiles q (x.flatten.map (viewAt q))) ?_ ?_ h
  · exact this.2
  · refine ⟨?_, fun q hq => absurd hq (by omega)⟩
    refine forall₂_flatten ?_
    rw [List.forall₂_map_right_iff, List.forall₂_same]
    intro l _
    rw [List.forall₂_map_right_iff, List.forall₂_same]
    intro r _
    exact runRow_initial npasses r
  · rintro p hp x y ⟨hx, hv⟩ hxy
    have hinput : x.flatten.map inputOf = ranks.flatten.map inputOf := forall₂_map_eq (fun a b hab => hab.input) hx
    have hsv := survey_congr hw hinput
    obtain ⟨h1, h2⟩ := view_step hs hp hsv hx hxy
    refine ⟨?_, ?_⟩
    · have hk := forall₂_flatten (passStep_kept hs hxy)
      clear hv hinput hsv h1 h2 hw h
      generalize x.flatten = xs at *
      generalize y.flatten = ys at *
      generalize ranks.flatten = rs at *
      induction hx generalizing ys with
      | nil => cases hk; exact .nil
      | cons g _ ih =>
        cases hk with
        | cons k k' => exact .cons (runRow_step hp g k) (ih _ k')
    · intro q hq
      rcases Nat.lt_succ_iff_lt_or_eq.mp hq with hlt | rfl
      · rw [h2 q (by omega)]
        exact hv q hlt
      · exact h1

/-- An available target that was never observed has a fiber in some pass. -/
theorem run_someFiber {w : World E} {covers : Tile → ℝ → ℝ → Prop} {sched : ℕ → List (List (PRow E)) → List (List (PRow E))}
    (hs : ∀ p sub, Csort PRow.tile sub (sched p sub)) {tiles : List Tile} {npasses : ℕ} {ranks out : List (List (Target E))}
    (hw : SurveyOk w covers tiles ranks.flatten) (h : applyFiberAssignment w sched tiles npasses ranks = .ok out) :
    ∀ r ∈ out.flatten, r.available = true → r.numobs = 0 → ∃ q < npasses, ∃ f, r.fiber[q]? = some f ∧ f ≠ -1 := by
  have := run_induct hs hw h (fun p r r' => 0 ≤ r'.numobs ∧ (r'.available = true → r'.numobs = 0 → ∃ q < p, ∃ f, r'.fiber[q]? = some f ∧ f ≠ -1))
    (fun r => by simp [initial]) (fun p hp r a b hrun hI hrel => by
      have hpf : p < a.fiber.length := by rw [hrun.fiberLen]; exact hp
      rcases hrel with ⟨t, ht, hpp, hc, hm, rows, asgn, he, hrow⟩ | rfl
      · by_cases hex : ∃ f, Assigned asgn t a.tid f ∧ Works w t f
        · obtain ⟨f, h1, h2⟩ := hex
          obtain ⟨_, _, e3, _⟩ := hrow.observed f h1 h2
          refine ⟨by omega, fun _ h0 => ?_⟩
          omega
        · obtain ⟨e1, e3, e4⟩ := hrow.unobserved hex
          refine ⟨by omega, fun hav h0 => ?_⟩
          by_cases hr : ∃ f, FirstReached asgn t a.tid f ∧ Works w t f
          · obtain ⟨f, h1, h2⟩ := hr
            refine ⟨p, by omega, f, ?_, ?_⟩
            · rw [hrow.reached f hex h1 h2, List.getElem?_set]
              simp [hpf]
            · obtain ⟨_, _, i, hi, _⟩ := h2
              omega
          · rcases hrow.available.mp hav with ha | ha
            · obtain ⟨q, hq, f, hf, hne⟩ := hI.2 ha (by omega)
              refine ⟨q, by omega, f, ?_, hne⟩
              rw [hrow.unreached hex hr, List.getElem?_set, if_neg (by omega)]
              exact hf
            · exact absurd ha hr
      · refine ⟨hI.1, fun h1 h2 => ?_⟩
        obtain ⟨q, hq, f, hf⟩ := hI.2 h1 h2
        exact ⟨q, by omega, f, hf⟩)
  intro r hr
  obtain ⟨r0, _, _, hI⟩ := forall₂_exists_left (forall₂_flatten this) r hr
  exact hI.2

theorem single_of_nodup {α β : Type*} [DecidableEq β] (key : α → β) {l : List α} (hn : (l.map key).Nodup) (P : α → Bool) {r : α} (hr : r ∈ l)
    (hP : P r = true) (hu : ∀ r' ∈ l, P r' = true → key r' = key r) : [r] = l.filter P := by
  have hmem : r ∈ l.filter P := List.mem_filter.mpr ⟨hr, hP⟩
  have hnf : ((l.filter P).map key).Nodup := hn.sublist (List.filter_sublist.map _)
  have hall : ∀ x ∈ l.filter P, key x = key r := fun x hx => hu x (List.mem_filter.mp hx).1 (List.mem_filter.mp hx).2
  match hl : l.filter P with
  | [] => rw [hl] at hmem; simp at hmem
  | [x] =>
    rw [hl] at hmem
    rw [List.mem_singleton.mp hmem]
  | x :: y :: l' =>
    rw [hl] at hnf hall
    simp only [List.map_cons, List.nodup_cons, List.mem_cons, not_or] at hnf
    exact absurd ((hall x (by simp)).trans (hall y (by simp)).symm) hnf.1.1

/-- The catalogue after a run of fiber assignment. -/
theorem run_history {w : World E} {covers : Tile → ℝ → ℝ → Prop} {sched : ℕ → List (List (PRow E)) → List (List (PRow E))}
    (hs : ∀ p sub, Csort PRow.tile sub (sched p sub)) {tiles : List Tile} {npasses : ℕ} {ranks out : List (List (Target E))}
    (hw : SurveyOk w covers tiles ranks.flatten) (h : applyFiberAssignment w sched tiles npasses ranks = .ok out) :
    History w tiles npasses out.flatten := by
  classical
  have hpos := hw.tiles.nonneg
  have hinput : out.flatten.map inputOf = ranks.flatten.map inputOf :=
    forall₂_map_eq (fun a b hab => hab.input) (forall₂_flatten (run_rows hs h))
  have hsv := survey_congr hw hinput
  have hview := run_view hs hw h
  -- the tile of a target is the one that covers it
  have htile : ∀ r ∈ out.flatten, ∀ p : ℕ, ∀ t ∈ tiles, t.pass = p → covers t r.ra r.dec → tileIn w tiles p r = some t.id := by
    intro r hr p t ht htp hc
    rw [tileIn_tileOf hpos, tileOf_of_covers hsv.find hsv.tiles hr (mem_tilesOfPass.mpr ⟨ht, htp⟩) hc]
    exact ⟨hpos t ht, rfl⟩
  have hback : ∀ r ∈ out.flatten, ∀ p : ℕ, ∀ t ∈ tiles, t.pass = p → tileIn w tiles p r = some t.id → covers t r.ra r.dec := by
    intro r hr p t ht htp he
    rw [tileIn_tileOf hpos] at he
    rcases tileOf_spec hsv.find (tilesOfPass tiles p) r with ⟨h1, _⟩ | ⟨u, hu, hc, hid⟩
    · omega
    · have : u = t := List.inj_on_of_nodup_map (hw.tiles.nodup p) hu (mem_tilesOfPass.mpr ⟨ht, htp⟩) (hid.symm.trans he.2)
      rw [← this]
      exact hc
  refine ⟨?_, ?_, ?_⟩
  · intro y hy ha hn
    obtain ⟨q, hq, f, hf, hne⟩ := run_someFiber hs hw h y hy ha hn
    obtain ⟨t, ht, htp, hc, _⟩ := (hview q hq).given (viewAt q y) (List.mem_map.mpr ⟨y, hy, rfl⟩) f hf hne
    exact ⟨q, hq, t.id, f, htile y hy q t ht htp hc, hf, hne⟩
  · intro y hy p hp ti f hfib
    obtain ⟨t, ht, htp, hc, v, hv, hcv, hov, hfv⟩ := (hview p hp).given (viewAt p y) (List.mem_map.mpr ⟨y, hy, rfl⟩) f hfib.2.1 hfib.2.2
    obtain ⟨r, hr, rfl⟩ := List.mem_map.mp hv
    have hti : ti = t.id := by
      have := hfib.1.symm.trans (htile y hy p t ht htp hc)
      simpa using this
    refine ⟨r, single_of_nodup Target.tid hsv.tids _ hr ?_ ?_⟩
    · refine decide_eq_true ?_
      rw [hti]
      exact ⟨hov, htile r hr p t ht htp hcv, hfv, hfib.2.2⟩
    · intro r' hr' hP
      have hP := of_decide_eq_true hP
      rw [hti] at hP
      have hc' := hback r' hr' p t ht htp hP.2.1
      exact (hview p hp).one t ht htp (viewAt p r') (List.mem_map.mpr ⟨r', hr', rfl⟩) (viewAt p r) hv hc' hcv hP.1 hov
        (hP.2.2.1.trans hfv.symm)
  · intro r hr p hp ho hn
    obtain ⟨r0, _, h1, _⟩ := forall₂_exists_left (forall₂_flatten (C51_partial hs hw h)) r hr
    rw [hn] at h1
    have : 0 < r.obsPass.count true := List.count_pos_iff.mpr (List.mem_of_getElem? ho)
    omega

/-- C53: when no target lies on two tiles of a pass, weights conserve targets: over the catalogue that fiber assignment returns, on any
ranks, the sum of the weights of the observed targets is the number of observed targets plus the number of available targets that
were not observed. What is missing is tiles of a pass that overlap, see `C53_violated`. -/
theorem C53_conservation_partial {w : World E} {covers : Tile → ℝ → ℝ → Prop}
    {sched : ℕ → List (List (PRow E)) → List (List (PRow E))} {sched' : ℕ → List (List CRow) → List (List CRow)}
    (hs : ∀ p sub, Csort PRow.tile sub (sched p sub)) (hs' : ∀ p sub, Csort CRow.tile sub (sched' p sub)) {tiles : List Tile}
    {npasses : ℕ} {ranks out : List (List (Target E))} {final : List (List (Target E × Option ℤ))}
    (hw : SurveyOk w covers tiles ranks.flatten) (h : applyFiberAssignment w sched tiles npasses ranks = .ok out)
    (h' : completenessWeight w sched' tiles npasses out = .ok final) :
    (final.flatten.map fun x => x.2.getD 0).sum
      = final.flatten.countP (fun x => decide (x.1.numobs ≠ 0)) + final.flatten.countP (fun x => x.1.available && decide (x.1.numobs = 0)) := by
  rw [C53_weight hs' hw.tiles.nonneg] at h'
  simp only [Except.ok.injEq] at h'
  subst h'
  rw [← List.map_flatten, List.map_map, List.countP_map, List.countP_map]
  exact conserve (run_history hs hw h)

/-- The hypotheses are met: a run of two passes on two ranks, then weights. -/
example : ∃ out final, SurveyOk demoWorld (fun _ _ _ => True) demoTiles demoRanks.flatten ∧
    applyFiberAssignment demoWorld (fun _ => toFirst PRow.tile) demoTiles 2 demoRanks = .ok out ∧
    completenessWeight demoWorld (fun _ => toTwo CRow.tile 5) demoTiles 2 out = .ok final := by
  obtain ⟨out, ho⟩ := C54_total (fun _ _ => csort_toFirst _ _) demo_total demoTiles 2 demoRanks
  exact ⟨out, _, demo_survey, ho, C53_weight (fun _ _ => csort_toTwo _ _ _) demo_survey.tiles.nonneg _ _⟩

/-! ### Overlapping tiles -/

/-- Location 1 (fiber 7) of tile 6 can reach targets 1 and 2 and is given to target 2. -/
def leakAssignment (t : ℤ) (both : Bool) : Assignment where
  tiles := [t]
  assigned := fun _ => if both then [(1, 2)] else []
  avail := fun _ => if both then [(1, [1, 2])] else []
  fiberOf := fun l => if l = 1 then some 7 else some (-1)
  type := fun _ => 1

/-- Both targets are there, on the tile, which is tile 6. -/
def LeakBoth (t : Tile) (rows : List (PRow Unit)) : Prop :=
  t.id = 6 ∧ (∃ r ∈ rows, r.tid = 1) ∧ ∃ r ∈ rows, r.tid = 2

open Classical in
/-- Tiles 5 and 6 as in `overWorld`. -/
noncomputable def leakWorld : World Unit where
  find := overWorld.find
  engine := fun t rows => .ok (leakAssignment t.id (decide (LeakBoth t rows)))
  zmtl := fun _ => some (demoPetals false)

theorem leak_ok : EngineOk leakWorld overCovers ∧ FindOk leakWorld overCovers := by
  classical
  refine ⟨?_, fun tiles ra dec i => over_ok.2 tiles ra dec i⟩
  intro t rows asgn h
  simp only [leakWorld, Except.ok.injEq] at h
  subst h
  have hfib : ∀ b : Bool, ∀ l l' f, 0 ≤ f → (leakAssignment t.id b).fiberOf l = some f → (leakAssignment t.id b).fiberOf l' = some f → l = l' := by
    intro b l l' f hf h1 h2
    simp only [leakAssignment] at h1 h2
    split_ifs at h1 h2 <;> simp only [Option.some.injEq] at h1 h2 <;> omega
  cases hb : decide (LeakBoth t rows) with
  | false =>
    exact ⟨.inl rfl, by simp [leakAssignment], by simp [leakAssignment], by simp [leakAssignment], by simp [leakAssignment],
        by simp [leakAssignment], hfib _⟩
  | true =>
    obtain ⟨h6, h1, h2⟩ := of_decide_eq_true hb
    refine ⟨.inl rfl, by simp [leakAssignment], by simp [leakAssignment], ?_, ?_, ?_, hfib _⟩
    · intro x hx _
      simp only [leakAssignment, if_true, List.mem_singleton] at hx
      subst hx
      exact ⟨[1, 2], by simp [leakAssignment], by simp⟩
    · intro x hx id hid _
      simp only [leakAssignment, if_true, List.mem_singleton] at hx
      subst hx
      simp only [List.mem_cons, List.not_mem_nil, or_false] at hid
      rcases hid with rfl | rfl
      · obtain ⟨r, hr, he⟩ := h1
        exact ⟨r, hr, he, .inl h6⟩
      · obtain ⟨r, hr, he⟩ := h2
        exact ⟨r, hr, he, .inl h6⟩
    · intro x hx
      simp only [leakAssignment, if_true, List.mem_singleton] at hx
      subst hx
      simp [leakAssignment]

theorem leak_unique : uniqueFirst [(1, 7), (2, 7)] = [(1, 7), (2, 7)] := by
  unfold uniqueFirst
  have : ([((1 : ℤ), (7 : ℤ)), (2, 7)].map Prod.fst).dedup = [1, 2] := by decide
  rw [this, sorted_two _ _ _ (by decide)]
  decide

theorem leak_extract (t : ℤ) (b : Bool) :
    extract (leakAssignment t b) = .ok (if b then [(2, 7)] else [], if b then [(1, 7), (2, 7)] else []) := by
  unfold extract
  rw [show (leakAssignment t b).tiles = [t] from rfl]
  simp only [List.mapM_cons, List.mapM_nil, Bind.bind, Except.bind, pure, Except.pure]
  rw [extractTile_eq]
  cases b
  · simp [leakAssignment]
  · have : (List.filter (fun av => (leakAssignment t true).science av) [1, 2]) = [1, 2] := by
      simp [leakAssignment, Assignment.science]
    simp [leakAssignment, Assignment.science, leak_unique]

theorem leak_tile (rows : List (PRow Unit)) (t : Tile) :
    (LeakBoth t rows → oneTile leakWorld rows t = .ok (rows.map (mtlRow ([(2, 7)], [(1, 7), (2, 7)])))) ∧
    (¬LeakBoth t rows → oneTile leakWorld rows t = .ok rows) := by
  obtain ⟨good, hg, hm⟩ := good_demo false
  have h7 : (7 : ℤ) ∈ good := (hm 7).mpr (by simp)
  constructor
  · intro hc
    rw [oneTile_eq]
    unfold tileInfo
    simp only [leakWorld, hc, decide_true, Bind.bind, Except.bind, leak_extract, hg, pure, Except.pure, Except.map, if_true,
      List.filter_cons, h7, List.filter_nil]
  · intro hc
    rw [oneTile_eq]
    unfold tileInfo
    simp only [leakWorld, hc, decide_false, Bind.bind, Except.bind, leak_extract, hg, pure, Except.pure, Except.map,
      List.filter_nil, Bool.false_eq_true, if_false]
    rw [List.map_congr_left (g := id) fun r _ => mtlRow_eq_self _ r (by simp [fiberIn]) (by simp [fiberIn]), List.map_id]

theorem leak_tileOf (r : Target Unit) : tileOf leakWorld overTiles r = tileOf overWorld overTiles r := rfl

theorem leak_sub : subcatalog leakWorld overTiles (overRanks.map (List.map (initial 1))) = [[overA], [overB]] := over_sub

theorem leak_onePass : onePass leakWorld overTiles [overA, overB]
    = .ok [mtlRow ([(2, 7)], [(1, 7), (2, 7)]) overA, mtlRow ([(2, 7)], [(1, 7), (2, 7)]) overB] := by
  unfold onePass
  have : (overTiles.filter fun t => decide (t.id ∈ [overA, overB].map PRow.tile)) = overTiles := by
    simp [overTiles, overA_tile, overB_tile]
  rw [this]
  unfold overTiles
  simp only [List.foldlM_cons, List.foldlM_nil, Bind.bind, Except.bind, pure, Except.pure]
  rw [(leak_tile _ _).2 (by rintro ⟨h, _⟩; simp at h)]
  simp only
  rw [(leak_tile _ _).1 ⟨rfl, ⟨overA, by simp, rfl⟩, overB, by simp, rfl⟩]
  rfl

/-- The rows after the run. -/
noncomputable def leakA : Target Unit := update 0 (initial 1 (demoTarget 1 0 2)) (mtlRow ([(2, 7)], [(1, 7), (2, 7)]) overA)
/-- The rows after the run. -/
noncomputable def leakB : Target Unit := update 0 (initial 1 (demoTarget 2 1 1)) (mtlRow ([(2, 7)], [(1, 7), (2, 7)]) overB)

theorem leak_run : applyFiberAssignment leakWorld (fun _ => toFirst PRow.tile) overTiles 1 overRanks = .ok [[leakA], [leakB]] := by
  unfold applyFiberAssignment
  rw [show List.range 1 = [0] from rfl]
  simp only [List.foldlM_cons, List.foldlM_nil, Bind.bind, Except.bind, pure, Except.pure]
  unfold passStep distribute
  simp only [Bind.bind, Except.bind, pure, Except.pure]
  rw [overTiles_pass, leak_sub]
  have hs : toFirst PRow.tile [[overA], [overB]] = [[overA, overB], []] := by
    simp only [toFirst, List.flatten_cons, List.flatten_nil, List.append_nil, List.singleton_append, List.map_cons, List.map_nil]
    rw [sorted_two _ _ _ (by rw [overA_tile, overB_tile]; decide)]
  have hnil : onePass leakWorld overTiles [] = .ok [] := by simp [onePass, pure, Except.pure]
  rw [hs]
  simp only [List.mapM_cons, List.mapM_nil, Bind.bind, Except.bind, pure, Except.pure, leak_onePass, hnil,
    List.flatten_cons, List.flatten_nil, List.append_nil]
  rw [sorted_two _ _ _ (by rw [mtlRow_index, mtlRow_index]; decide)]
  simp only [overRanks, List.map_cons, List.map_nil, Blinding.splitSizes, List.length_cons, List.length_nil, List.take_succ_cons,
    List.take_zero, List.drop_succ_cons, List.drop_zero, mtlRow_index, if_true]
  have hsel : selected leakWorld overTiles (initial 1 (demoTarget 1 0 2)) = true ∧
      selected leakWorld overTiles (initial 1 (demoTarget 2 1 1)) = true := over_selected
  simp only [List.zipWith_cons_cons, List.zipWith_nil_left, List.map_cons, List.map_nil, hsel, putMask]
  rfl

/-- C53 fails for tiles of one pass that overlap: a target is available through a tile that is not the first one found over it, and is
counted by nobody. -/
theorem C53_violated : EngineOk leakWorld overCovers ∧ FindOk leakWorld overCovers ∧ ∃ out final,
    applyFiberAssignment leakWorld (fun _ => toFirst PRow.tile) overTiles 1 overRanks = .ok out ∧
    completenessWeight leakWorld (fun _ => toFirst CRow.tile) overTiles 1 out = .ok final ∧
    (final.flatten.map fun x => x.2.getD 0).sum = 1 ∧
    final.flatten.countP (fun x => decide (x.1.numobs ≠ 0)) = 1 ∧
    final.flatten.countP (fun x => x.1.available && decide (x.1.numobs = 0)) = 1 := by
  have hpos : ∀ t ∈ overTiles, 0 ≤ t.id := by
    intro t ht
    simp only [overTiles, List.mem_cons, List.not_mem_nil, or_false] at ht
    rcases ht with rfl | rfl <;> norm_num
  refine ⟨leak_ok.1, leak_ok.2, _, _, leak_run, C53_weight (fun _ _ => csort_toFirst _ _) hpos _ _, ?_, ?_, ?_⟩
  · have hA : leakA.numobs = 0 := rfl
    have hB : leakB.numobs = 1 := rfl
    have hno : ∀ y ∈ [leakA, leakB], ¬∃ t f, HasFiber leakWorld overTiles 0 leakB t f ∧ CountsFor leakWorld overTiles 0 y t f := by
      rintro y hy ⟨t, f, h1, h2⟩
      simp only [List.mem_cons, List.not_mem_nil, or_false] at hy
      rcases hy with rfl | rfl
      · have e1 := ((hasFiber_iff hpos 0 _ _ _).mp h1).2.1
        have e2 := ((hasFiber_iff hpos 0 _ _ _).mp h2.2.2.1).2.1
        rw [overTiles_pass] at e1 e2
        have f1 : tileOf leakWorld overTiles leakB = 6 := (over_tileOf 2 1).2
        have f2 : tileOf leakWorld overTiles leakA = 5 := (over_tileOf 1 2).1
        omega
      · rw [h2.2.1] at hB
        exact absurd hB (by norm_num)
    have hcount : ∀ d : Target Unit → Bool, (∀ y ∈ [leakA, leakB], d y = false) → [leakA, leakB].countP d = 0 := by
      intro d hd
      rw [List.countP_eq_zero]
      intro y hy
      simp [hd y hy]
    simp only [List.map_cons, List.map_nil, List.flatten_cons, List.flatten_nil, List.append_nil, List.singleton_append, List.sum_cons,
      List.sum_nil]
    unfold weightOf
    rw [if_pos hA, if_neg (by rw [hB]; norm_num), Finset.sum_range_one, hcount _ (fun y hy => by simpa using fun t f h1 => fun h2 => hno y hy ⟨t, f, h1, h2⟩)]
    simp
  · rfl
  · rfl

end Verif.Props
