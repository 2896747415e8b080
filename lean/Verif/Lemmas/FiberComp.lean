import Verif.Lemmas.FiberRun

/-! # Lemmas on completeness weights -/

namespace Verif.Lemmas.Fiber

open Verif Verif.Model Verif.Model.Fiber

theorem updateAt_matchIdx_map {α β : Type*} (key : α → ℤ) (g : α → β) (B : List ℤ) (f : β → ℕ → β) (l : List α) :
    updateAt (matchIdx (l.map key) B) f (l.map g) = l.map fun a => if key a ∈ B then f (g a) (B.idxOf (key a)) else g a := by
  induction l with
  | nil => rfl
  | cons a l ih =>
    rw [List.map_cons, List.map_cons, matchIdx_cons, updateAt_append, List.map_cons]
    by_cases ha : key a ∈ B
    · rw [if_pos ha]
      have : updateAt [(0, B.idxOf (key a))] f (g a :: l.map g) = f (g a) (B.idxOf (key a)) :: l.map g := by simp [updateAt]
      rw [this, updateAt_shift, ih, if_pos ha]
    · rw [if_neg ha]
      have : updateAt [] f (g a :: l.map g) = g a :: l.map g := rfl
      rw [this, updateAt_shift, ih, if_neg ha]

theorem uniqueCounts_fst (l : List ℤ) : (uniqueCounts l).map Prod.fst = l.dedup.mergeSort (fun a b => decide (a ≤ b)) := by
  unfold uniqueCounts
  rw [List.map_map]
  exact List.map_id _

theorem mem_uniqueCounts (l : List ℤ) (a : ℤ) : a ∈ (uniqueCounts l).map Prod.fst ↔ a ∈ l := by
  rw [uniqueCounts_fst, List.mem_mergeSort, List.mem_dedup]

theorem getD_uniqueCounts {l : List ℤ} {a : ℤ} (h : a ∈ l) :
    ((uniqueCounts l).map Prod.snd).getD (((uniqueCounts l).map Prod.fst).idxOf a) 0 = l.count a := by
  have hm := (mem_uniqueCounts l a).mpr h
  rw [uniqueCounts_fst] at hm ⊢
  have hlt := List.idxOf_lt_length_of_mem hm
  unfold uniqueCounts
  rw [List.map_map, List.getD_eq_getElem?_getD, List.getElem?_map, List.getElem?_eq_getElem hlt, List.getElem_idxOf]
  rfl

/-- How many rows still to be counted ask for a fiber of a tile. -/
def need (rows : List CRow) (t f : ℤ) : ℕ := rows.countP fun r => decide (r.tile = t) && (r.notUsed && decide (r.fiber ≠ -1)) && decide (r.fiber = f)

/-- A row after its tile was treated. -/
def compRow (cnt : ℤ → ℤ → ℕ) (r : CRow) : CRow :=
  { r with weight := if r.obs then r.weight.map (· + (cnt r.tile r.fiber : ℤ)) else r.weight,
           notUsed := r.notUsed && decide (r.fiber = -1) }

theorem zipWith_map_self {α β : Type*} (f : Bool → β → β) (p : α → Bool) (g : α → β) (l : List α) :
    List.zipWith f (l.map p) (l.map g) = l.map fun a => f (p a) (g a) := by
  induction l with
  | nil => rfl
  | cons a l ih => simp [ih]

theorem compTile_eq (rows : List CRow) (t : ℤ) :
    compTile rows t = rows.map fun r => if r.tile = t then compRow (need rows) r else r := by
  unfold compTile
  simp only
  have h1 : takeMask (rows.map fun r => decide (r.tile = t)) rows = rows.filter fun r => decide (r.tile = t) := takeMask_eq _ _
  rw [h1]
  set inTile := rows.filter fun r => decide (r.tile = t) with hin
  have h2 : takeMask (inTile.map CRow.obs) inTile = inTile.filter CRow.obs := takeMask_eq _ _
  have h3 : takeMask (inTile.map fun r => r.notUsed && decide (r.fiber ≠ -1)) inTile
      = inTile.filter fun r => r.notUsed && decide (r.fiber ≠ -1) := takeMask_eq _ _
  rw [h2, h3]
  set comp := (inTile.filter fun r => r.notUsed && decide (r.fiber ≠ -1)).map CRow.fiber with hcomp
  have hcnt : ∀ f, comp.count f = need rows t f := by
    intro f
    rw [hcomp, hin, List.filter_filter, List.count_eq_countP, List.countP_map, List.countP_filter]
    unfold need
    refine List.countP_congr fun r _ => ?_
    simp only [Function.comp, Bool.and_eq_true, decide_eq_true_eq, beq_iff_eq]
    tauto
  rw [updateAt_matchIdx_map]
  have hw : ((inTile.filter CRow.obs).map fun a => if a.fiber ∈ (uniqueCounts comp).map Prod.fst then
      Option.map (· + (((uniqueCounts comp).map Prod.snd).getD (((uniqueCounts comp).map Prod.fst).idxOf a.fiber) 0 : ℤ)) a.weight
      else a.weight) = (inTile.filter CRow.obs).map fun a => a.weight.map (· + (need rows t a.fiber : ℤ)) := by
    refine List.map_congr_left fun a _ => ?_
    by_cases hm : a.fiber ∈ comp
    · rw [if_pos ((mem_uniqueCounts _ _).mpr hm), getD_uniqueCounts hm, hcnt]
    · rw [if_neg (fun h => hm ((mem_uniqueCounts _ _).mp h)), ← hcnt, List.count_eq_zero.mpr hm]
      simp
  rw [hw, putMask_map, zipWith_map_self, hin, putMask_map]
  refine List.map_congr_left fun r _ => ?_
  by_cases hr : r.tile = t
  · simp only [hr, decide_true, if_true]
    unfold compRow
    rcases r with ⟨w, ti, o, f, n, i⟩
    simp only at hr
    subst hr
    by_cases hf : f = -1 <;> cases n <;> cases o <;> simp [hf]
  · simp [hr]

theorem need_congr {rows rows' : List CRow} {t : ℤ}
    (h : (rows.filter fun r => decide (r.tile = t)).Perm (rows'.filter fun r => decide (r.tile = t))) (f : ℤ) :
    need rows t f = need rows' t f := by
  have e : ∀ l : List CRow, need l t f = (l.filter fun r => decide (r.tile = t)).countP fun r =>
      (r.notUsed && decide (r.fiber ≠ -1)) && decide (r.fiber = f) := by
    intro l
    unfold need
    rw [List.countP_filter]
    refine List.countP_congr fun r _ => ?_
    simp only [Bool.and_eq_true, decide_eq_true_eq]
    tauto
  rw [e, e, h.countP_eq]

/-- Treating tiles one after the other. -/
theorem compFold_eq (rows : List CRow) (ts : List ℤ) :
    ts.foldl compTile rows = rows.map fun r => if r.tile ∈ ts then compRow (need rows) r else r := by
  induction ts using List.reverseRecOn with
  | nil => simp
  | append_singleton ts t ih =>
    rw [List.foldl_append, List.foldl_cons, List.foldl_nil, ih, compTile_eq, List.map_map]
    refine List.map_congr_left fun r _ => ?_
    simp only [Function.comp, List.mem_append, List.mem_singleton]
    have htile : (if r.tile ∈ ts then compRow (need rows) r else r).tile = r.tile := by split_ifs <;> rfl
    rw [htile]
    by_cases ht : r.tile = t
    · rw [if_pos ht, if_pos (Or.inr ht)]
      by_cases hm : r.tile ∈ ts
      · rw [if_pos hm]
        -- nothing is left to count on this tile
        have h0 : ∀ f, need (rows.map fun r => if r.tile ∈ ts then compRow (need rows) r else r) r.tile f = 0 := by
          intro f
          unfold need
          rw [List.countP_map, List.countP_eq_zero]
          intro x _
          simp only [Function.comp]
          by_cases hx : x.tile ∈ ts
          · simp only [if_pos hx, compRow]
            by_cases hf : x.fiber = -1 <;> simp [hf]
          · simp only [if_neg hx]
            have : x.tile ≠ r.tile := fun e => hx (e ▸ hm)
            simp [this]
        generalize need (rows.map fun r => if r.tile ∈ ts then compRow (need rows) r else r) = c at h0
        unfold compRow
        simp only [h0]
        rcases r with ⟨w, ti, o, f, n, i⟩
        cases o <;> cases w <;> cases n <;> simp
      · rw [if_neg hm]
        have : ∀ f, need (rows.map fun r => if r.tile ∈ ts then compRow (need rows) r else r) r.tile f = need rows r.tile f := by
          intro f
          refine need_congr ?_ f
          rw [List.filter_map]
          have : ((fun x : CRow => decide (x.tile = r.tile)) ∘ fun x => if x.tile ∈ ts then compRow (need rows) x else x)
              = fun x => decide (x.tile = r.tile) := by
            funext x
            simp only [Function.comp]
            split_ifs <;> rfl
          rw [this]
          rw [List.map_congr_left (g := id), List.map_id]
          intro x hx
          rw [List.mem_filter, decide_eq_true_eq] at hx
          rw [if_neg (by rw [hx.2]; exact hm)]
          rfl
        generalize need (rows.map fun r => if r.tile ∈ ts then compRow (need rows) r else r) = c at this
        unfold compRow
        rw [this]
    · rw [if_neg ht]
      simp [ht]

theorem compPass_eq (tiles : List Tile) (rows : List CRow) :
    compPass tiles rows = rows.map fun r => if r.tile ∈ tiles.map Tile.id then compRow (need rows) r else r := by
  unfold compPass
  rw [compFold_eq]
  refine List.map_congr_left fun r hr => ?_
  have : r.tile ∈ (tiles.filter fun t => decide (t.id ∈ rows.map CRow.tile)).map Tile.id ↔ r.tile ∈ tiles.map Tile.id := by
    simp only [List.mem_map, List.mem_filter, decide_eq_true_eq]
    constructor
    · rintro ⟨t, ⟨h1, _⟩, h2⟩
      exact ⟨t, h1, h2⟩
    · rintro ⟨t, h1, h2⟩
      exact ⟨t, ⟨h1, r, hr, h2.symm⟩, h2⟩
  simp only [this]

/-- The rows of a tile on its rank are all its rows. -/
theorem csort_filter {ρ : Type} {key : ρ → ℤ} {sub moved : List (List ρ)} (hs : Csort key sub moved) {rows : List ρ} (hr : rows ∈ moved)
    {r : ρ} (hrr : r ∈ rows) :
    (rows.filter fun x => decide (key x = key r)).Perm (sub.flatten.filter fun x => decide (key x = key r)) := by
  refine List.Perm.trans ?_ (hs.rows.filter _)
  have hto := hs.together
  clear hs
  induction moved with
  | nil => simp at hr
  | cons l ls ih =>
    rw [List.pairwise_cons] at hto
    rw [List.flatten_cons, List.filter_append]
    rcases List.mem_cons.mp hr with rfl | hr'
    · have : (ls.flatten.filter fun x => decide (key x = key r)) = [] := by
        rw [List.filter_eq_nil_iff]
        intro x hx
        obtain ⟨l', hl', hx'⟩ := List.mem_flatten.mp hx
        have := hto.1 l' hl' r hrr x hx'
        simp only [decide_eq_true_eq]
        exact fun e => this e.symm
      rw [this, List.append_nil]
    · have : (l.filter fun x => decide (key x = key r)) = [] := by
        rw [List.filter_eq_nil_iff]
        intro x hx
        have := hto.1 rows hr' x hx r hrr
        simpa only [decide_eq_true_eq] using this
      rw [this, List.nil_append]
      exact ih hr' hto.2

variable {E : Type}

/-- Rows that lie on a tile of the pass. -/
def inPass (w : World E) (T : List Tile) (x : Weighted E) : Bool := decide (0 ≤ tileOf w T x.row)

/-- How many rows still to be counted ask for a fiber of a tile. -/
def asked (w : World E) (T : List Tile) (p : ℕ) (xs : List (Weighted E)) (t f : ℤ) : ℕ :=
  xs.countP fun x => inPass w T x && (decide (tileOf w T x.row = t) && (x.notUsed && decide (x.row.fiber.getD p (-1) ≠ -1)) &&
    decide (x.row.fiber.getD p (-1) = f))

/-- A row after a pass. -/
def weightRow (w : World E) (T : List Tile) (p : ℕ) (xs : List (Weighted E)) (x : Weighted E) : Weighted E :=
  if inPass w T x then
    { x with weight := if x.row.obsPass.getD p false then
               x.weight.map (· + (asked w T p xs (tileOf w T x.row) (x.row.fiber.getD p (-1)) : ℤ)) else x.weight,
             notUsed := x.notUsed && decide (x.row.fiber.getD p (-1) = -1) }
  else x

theorem tileOf_mem {w : World E} {T : List Tile} {r : Target E} (h : 0 ≤ tileOf w T r) : tileOf w T r ∈ T.map Tile.id := by
  unfold tileOf at h ⊢
  split at h
  · simp at h
  · rename_i i _ hf
    rw [List.getD_eq_getElem?_getD] at h ⊢
    cases hi : (T.map Tile.id)[i]? with
    | none => simp [hi] at h
    | some t => simpa using List.mem_of_getElem? hi

theorem compSub_flatten (w : World E) (T : List Tile) (p : ℕ) (ranks : List (List (Weighted E))) :
    ((cindexFrom 0 (ranks.map fun rows => takeMask (rows.map (inPass w T)) rows)).map
      (List.map fun x => toCRow w T p x.1 x.2)).flatten
    = (ranks.flatten.filter (inPass w T)).zipIdx.map fun x => toCRow w T p x.1 x.2 := by
  rw [← List.map_flatten, cindexFrom_flatten]
  have : (ranks.map fun rows => takeMask (rows.map (inPass w T)) rows) = ranks.map (List.filter (inPass w T)) := by
    refine List.map_congr_left fun rows _ => takeMask_eq _ _
  rw [this, ← List.filter_flatten]

theorem countP_zipIdx_map {α β : Type*} (f : α → ℕ → β) (p : β → Bool) (q : α → Bool) (h : ∀ a i, p (f a i) = q a) (l : List α) (k : ℕ) :
    ((l.zipIdx k).map fun x => f x.1 x.2).countP p = l.countP q := by
  rw [List.countP_map]
  have : (p ∘ fun x : α × ℕ => f x.1 x.2) = q ∘ Prod.fst := by
    funext x
    exact h _ _
  rw [this, ← List.countP_map, List.zipIdx_map_fst]

theorem need_asked (w : World E) (T : List Tile) (p : ℕ) (ranks : List (List (Weighted E))) (t f : ℤ) :
    need ((cindexFrom 0 (ranks.map fun rows => takeMask (rows.map (inPass w T)) rows)).map
      (List.map fun x => toCRow w T p x.1 x.2)).flatten t f = asked w T p ranks.flatten t f := by
  rw [compSub_flatten]
  unfold need
  rw [countP_zipIdx_map (fun x i => toCRow w T p x i) _
    (fun x => decide (tileOf w T x.row = t) && (x.notUsed && decide (x.row.fiber.getD p (-1) ≠ -1)) &&
      decide (x.row.fiber.getD p (-1) = f)) (fun a i => rfl), List.countP_filter]
  unfold asked
  refine List.countP_congr fun x _ => ?_
  simp only [Bool.and_eq_true]
  tauto

/-- One pass of the completeness weights, whatever the exchange. -/
theorem compStep_eq {w : World E} {sched : ℕ → List (List CRow) → List (List CRow)}
    (hs : ∀ p sub, Csort CRow.tile sub (sched p sub)) (tiles : List Tile) (ranks : List (List (Weighted E))) (p : ℕ) :
    compStep w sched tiles ranks p = .ok (ranks.map (List.map (weightRow w (tilesOfPass tiles p) p ranks.flatten))) := by
  unfold compStep
  simp only [Bind.bind, Except.bind, pure, Except.pure]
  set T := tilesOfPass tiles p with hT
  set sub := (cindexFrom 0 (ranks.map fun rows => takeMask (rows.map (inPass w T)) rows)).map
      (List.map fun x => toCRow w T p x.1 x.2) with hsub
  have hidx : (sub.flatten.map CRow.index).Pairwise (· < ·) := by
    rw [hsub, compSub_flatten, List.map_map]
    have : (CRow.index ∘ fun x : Weighted E × ℕ => toCRow w T p x.1 x.2) = Prod.snd := rfl
    rw [this, List.zipIdx_map_snd]
    exact List.pairwise_lt_range' 
  have hmem : ∀ c ∈ sub.flatten, c.tile ∈ T.map Tile.id := by
    intro c hc
    rw [hsub, compSub_flatten] at hc
    obtain ⟨⟨x, k⟩, hx, rfl⟩ := List.mem_map.mp hc
    have := (List.mem_filter.mp (List.fst_mem_of_mem_zipIdx hx)).2
    unfold inPass at this
    rw [decide_eq_true_eq] at this
    exact tileOf_mem this
  obtain ⟨back, h1, h2⟩ := distribute_ok (R := fun r r' : CRow => r' = compRow (need sub.flatten) r) (hs p sub) hidx
    (fun a b hab => by rw [hab]; rfl) (work := fun rows => .ok (compPass T rows)) (fun rows hr => by
      refine ⟨_, rfl, ?_⟩
      rw [compPass_eq, List.forall₂_map_right_iff, List.forall₂_same]
      intro r hrr
      have hin : r ∈ sub.flatten := (hs p sub).rows.mem_iff.mp (List.mem_flatten.mpr ⟨rows, hr, hrr⟩)
      rw [if_pos (hmem r hin)]
      unfold compRow
      rw [need_congr (csort_filter (hs p sub) hr hrr)])
  have h2' : back = sub.map (List.map (compRow (need sub.flatten))) := forall₂_map_fun _ _ _ h2
  have hfun : (fun x : Weighted E => decide (0 ≤ tileOf w T x.row)) = inPass w T := rfl
  rw [hfun, ← hsub, h1, h2', hsub]
  simp only [Except.ok.injEq]
  rw [← hsub]
  rw [hsub]
  rw [write_map (inPass w T) (toCRow w T p) (fun x (c : CRow) => { x with weight := c.weight, notUsed := c.notUsed })
    (compRow (need _)) (fun x => { x with
             weight := if x.row.obsPass.getD p false then
               x.weight.map (· + (asked w T p ranks.flatten (tileOf w T x.row) (x.row.fiber.getD p (-1)) : ℤ)) else x.weight,
             notUsed := x.notUsed && decide (x.row.fiber.getD p (-1) = -1) })
    (fun x j => by simp only [compRow, need_asked]; rfl) 0 ranks]
  rfl

end Verif.Lemmas.Fiber
