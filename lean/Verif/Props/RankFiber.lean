import Verif.Props.RankErrors
import Verif.Props.FiberWeights

/-!
# Ranks of fiber assignment finish together (C124)

Same setting as `Verif/Props/RankErrors.lean`.
-/

namespace Verif.Props.RankErrors

open Verif Verif.Model Verif.Model.Mpi Verif.Model.Fiber Verif.Spec.Mpi Verif.Lemmas.Mpi Verif.Props.Ranks Verif.Props.Communicators

variable {C E α ρ γ : Type} {n : ℕ} {members : C → List (Fin n)}

theorem barrier_leads {G : List (Fin n)} {comm : C} (hc : members comm = G) (hG : G.Nodup) (hne : G ≠ []) (b : Bool)
    {p q : ℕ → Prog C γ} (h : Leads members G p q) : Leads members G (fun i => barrier comm b (p i)) q := by
  cases b with
  | false => exact h
  | true => exact Leads.call hc hG hne (.other "barrier") (fun _ => ()) (fun i _ => p i) h

theorem cindexFrom_getElem? (k : ℕ) (parts : List (List α)) (i : ℕ) :
    (cindexFrom k parts)[i]? = parts[i]?.map fun l => l.zipIdx (k + ((parts.take i).map List.length).sum) := by
  induction parts generalizing k i with
  | nil => simp [cindexFrom]
  | cons l ls ih =>
    cases i with
    | zero => simp [cindexFrom]
    | succ i => simp [cindexFrom, ih, Nat.add_assoc]

/-- The rows made by all ranks. -/
def made (make : α → ℕ → ρ) (parts : List (List α)) : List (List ρ) := (cindexFrom 0 parts).map (List.map fun x => make x.1 x.2)

theorem made_length (make : α → ℕ → ρ) (parts : List (List α)) : (made make parts).length = parts.length := by
  unfold made
  rw [List.length_map]
  have : ∀ k, (cindexFrom k parts).length = parts.length := by
    induction parts with
    | nil => intro k; rfl
    | cons l ls ih => intro k; simp [cindexFrom, ih]
  exact this 0

theorem made_getD (make : α → ℕ → ρ) (parts : List (List α)) (i : ℕ) :
    (made make parts).getD i [] = ((parts.getD i []).zipIdx ((parts.map List.length).take i).sum).map fun x => make x.1 x.2 := by
  unfold made
  simp only [List.getD_eq_getElem?_getD, List.getElem?_map, cindexFrom_getElem?, Nat.zero_add, List.map_take]
  cases parts[i]? <;> simp

/-- Ranks meet until they work on their tiles. -/
theorem exchange_work {G : List (Fin n)} {comm : C} (hc : members comm = G) (hG : G.Nodup) (hne : G ≠ []) (b : Bool) (index : ρ → ℕ)
    (sched : List (List ρ) → List (List ρ)) (work : List ρ → Except Err (List ρ)) (make : α → ℕ → ρ) (parts : List (List α))
    (hl : parts.length = G.length) (k : ℕ → List ρ → Prog C γ) :
    Leads members G (fun i => exchange comm b index sched work i make (parts.getD i []) (k i)) fun i =>
      match work ((sched (made make parts)).getD i []) with
      | .error e => .done (.error e)
      | .ok w =>
        barrier comm b <|
        .call comm (.other "csort") w fun worked =>
        if ((Blinding.splitSizes ((made make parts).map List.length)
            (worked.flatten.mergeSort fun x y => decide (index x ≤ index y))).getD i []).map index = ((made make parts).getD i []).map index then
          barrier comm b (k i ((Blinding.splitSizes ((made make parts).map List.length)
            (worked.flatten.mergeSort fun x y => decide (index x ≤ index y))).getD i []))
        else .done (.error .assertionError) := by
  have e : (List.range G.length).map (fun i => (parts.getD i []).length) = parts.map List.length := by
    rw [← hl, ← Function.comp_def List.length, ← List.map_map, range_map_getD]
  have e2 : (List.range G.length).map (fun i => (made make parts).getD i []) = made make parts := by
    rw [← hl, ← made_length make parts, range_map_getD]
  unfold exchange
  refine Leads.call hc hG hne _ _ _ ?_
  rw [e]
  simp only [← made_getD]
  refine barrier_leads hc hG hne b (Leads.call hc hG hne _ _ _ (barrier_leads hc hG hne b ?_))
  rw [e2]
  cases b with
  | false => exact Leads.refl _ _
  | true => exact Leads.call hc hG hne _ _ _ (Leads.refl _ _)

/-- A pass that does not raise. -/
theorem exchange_leads {G : List (Fin n)} {comm : C} (hc : members comm = G) (hG : G.Nodup) (hne : G ≠ []) (b : Bool) (index : ρ → ℕ)
    {sched : List (List ρ) → List (List ρ)} (hsched : ∀ sub, (sched sub).length = sub.length) (work : List ρ → Except Err (List ρ))
    (make : α → ℕ → ρ) (parts : List (List α)) (hl : parts.length = G.length) (k : ℕ → List ρ → Prog C γ) {out : List (List ρ)}
    (hout : distribute index sched work (made make parts) = .ok out) :
    Leads members G (fun i => exchange comm b index sched work i make (parts.getD i []) (k i)) fun i => k i (out.getD i []) := by
  refine (exchange_work hc hG hne b index sched work make parts hl k).trans ?_
  unfold distribute at hout
  obtain ⟨worked, hw, hout⟩ := Lemmas.Bricks.bind_ok hout
  have hfor := Lemmas.Fiber.mapM_forall₂ hw
  have hml : (sched (made make parts)).length = G.length := by rw [hsched, made_length, hl]
  have hwl : worked.length = G.length := by rw [← hfor.length_eq, hml]
  generalize sched (made make parts) = moved at hfor hml
  have hone : ∀ i < G.length, work (moved.getD i []) = .ok (worked.getD i []) := fun i hi => by
    have h1 : i < moved.length := by omega
    have h2 : i < worked.length := by omega
    have := (List.forall₂_iff_get.1 hfor).2 i h1 h2
    simpa [h1, h2] using this
  simp only at hout
  split at hout
  swap
  · cases hout
  next hidx =>
  have hout' : Blinding.splitSizes ((made make parts).map List.length) (worked.flatten.mergeSort fun a b => decide (index a ≤ index b)) = out :=
    Except.ok.inj hout
  rw [hout'] at hidx
  have e : (List.range G.length).map (fun i => worked.getD i []) = worked := by rw [← hwl, range_map_getD]
  have hB : Leads members G (fun i => barrier comm b <| Prog.call comm (.other "csort") (worked.getD i []) fun worked =>
        if ((Blinding.splitSizes ((made make parts).map List.length)
            (worked.flatten.mergeSort fun x y => decide (index x ≤ index y))).getD i []).map index = ((made make parts).getD i []).map index then
          barrier comm b (k i ((Blinding.splitSizes ((made make parts).map List.length)
            (worked.flatten.mergeSort fun x y => decide (index x ≤ index y))).getD i []))
        else .done (.error .assertionError)) fun i => k i (out.getD i []) := by
    refine barrier_leads hc hG hne b (Leads.call hc hG hne _ _ _ ?_)
    rw [e, hout']
    refine (barrier_leads hc hG hne b (Leads.refl G fun i => k i (out.getD i []))).congr fun i hi => if_pos ?_
    have := congrArg (fun l => l.getD i []) hidx
    simp only [List.getD_eq_getElem?_getD, List.getElem?_map] at this ⊢
    cases h1 : out[i]? <;> cases h2 : (made make parts)[i]? <;> simp_all
  exact hB.congr fun i hi => by simp only [hone i hi]

theorem map_getD {β δ : Type} (f : β → δ) (l : List β) (d : β) {i : ℕ} (hi : i < l.length) (d' : δ) : (l.map f).getD i d' = f (l.getD i d) := by
  simp [hi]

/-- Passes that do not raise. -/
theorem fiberPasses_leads {G : List (Fin n)} {comm : C} (hc : members comm = G) (hG : G.Nodup) (hne : G ≠ []) (w : World E)
    {sched : ℕ → List (List (PRow E)) → List (List (PRow E))} (hs : ∀ p sub, Csort PRow.tile sub (sched p sub)) (tiles : List Tile)
    (l ps : List ℕ) {ranks out : List (List (Target E))} (hl : ranks.length = G.length)
    (h : l.foldlM (passStep w sched tiles) ranks = .ok out) :
    out.length = G.length ∧
    Leads members G (fun i => fiberPasses comm w sched tiles i (l ++ ps) (ranks.getD i []))
      fun i => fiberPasses comm w sched tiles i ps (out.getD i []) := by
  induction l generalizing ranks with
  | nil =>
    obtain rfl : ranks = out := Except.ok.inj h
    exact ⟨hl, Leads.refl _ _⟩
  | cons p l ih =>
    rw [List.foldlM_cons] at h
    obtain ⟨mid, h1, h2⟩ := Lemmas.Bricks.bind_ok h
    unfold passStep at h1
    simp only at h1
    obtain ⟨back, hb, h1⟩ := Lemmas.Bricks.bind_ok h1
    have hback : back.length = G.length := by
      unfold distribute at hb
      obtain ⟨worked, -, hb⟩ := Lemmas.Bricks.bind_ok hb
      simp only at hb
      split at hb
      swap
      · cases hb
      next hidx =>
      have := congrArg List.length hidx
      rw [Except.ok.inj hb, List.length_map, List.length_map] at this
      rw [this]
      refine (made_length (toPRow w (tilesOfPass tiles p)) (ranks.map fun rows => takeMask (rows.map (selected w (tilesOfPass tiles p))) rows)).trans ?_
      rw [List.length_map, hl]
    have hmid : mid = List.zipWith (fun rows q => putMask (update p) (rows.map (selected w (tilesOfPass tiles p))) rows q) ranks back :=
      (Except.ok.inj h1).symm
    obtain ⟨hol, hrest⟩ := ih (ranks := mid) (by rw [hmid]; simp [hl, hback]) h2
    refine ⟨hol, ?_⟩
    have hx := exchange_leads hc hG hne true PRow.index (sched := sched p) (fun sub => (hs p sub).ranks) (onePass w (tilesOfPass tiles p))
      (toPRow w (tilesOfPass tiles p)) (ranks.map fun rows => takeMask (rows.map (selected w (tilesOfPass tiles p))) rows) (by simp [hl])
      (fun i q => fiberPasses comm w sched tiles i (l ++ ps)
        (putMask (update p) ((ranks.getD i []).map (selected w (tilesOfPass tiles p))) (ranks.getD i []) q)) hb
    refine (hx.trans (hrest.congr fun i hi => ?_)).congr fun i hi => ?_
    · have h1 : i < ranks.length := by omega
      have h2 : i < back.length := by omega
      rw [hmid]
      simp [h1, h2]
    · rw [map_getD _ ranks [] (by omega)]
      rfl

/-- C124 holds for fiber assignment that raises on no rank: all ranks return, with the result of C51 to C54. -/
theorem C124_fiber_partial {G : List (Fin n)} {comm : C} (hc : members comm = G) (hG : G.Nodup) (hne : G ≠ []) (w : World E)
    {sched : ℕ → List (List (PRow E)) → List (List (PRow E))} (hs : ∀ p sub, Csort PRow.tile sub (sched p sub)) (tiles : List Tile)
    (npasses : ℕ) {ranks out : List (List (Target E))} (hl : ranks.length = G.length)
    (h : applyFiberAssignment w sched tiles npasses ranks = .ok out) :
    Ends members G (fun i => fiberAssignment comm w sched tiles npasses i (ranks.getD i [])) fun i => .ok (out.getD i []) := by
  have h1 := (fiberPasses_leads hc hG hne w hs tiles (List.range npasses) [] (ranks := ranks.map (List.map (initial npasses))) (by simp [hl]) h).2
  unfold fiberAssignment
  refine Leads.path (q := fun i => .done (.ok (out.getD i []))) (Leads.call hc hG hne _ _ _ ((h1.trans ?_).congr fun i hi => ?_)) fun i hi => rfl
  · exact Leads.call hc hG hne _ _ _ (Leads.refl _ _)
  · rw [map_getD _ ranks [] (by omega), List.append_nil]

/-- C124 fails for fiber assignment: if, in some pass, the assignment raises on a rank, the ranks on which it does not wait for ever. -/
theorem C124_fiber_violated {G : List (Fin n)} {comm : C} (hc : members comm = G) (hG : G.Nodup) (w : World E)
    {sched : ℕ → List (List (PRow E)) → List (List (PRow E))} (hs : ∀ p sub, Csort PRow.tile sub (sched p sub)) (tiles : List Tile)
    {npasses p : ℕ} (hp : p < npasses) {ranks mid : List (List (Target E))} (hl : ranks.length = G.length)
    (hmid : (List.range p).foldlM (passStep w sched tiles) (ranks.map (List.map (initial npasses))) = .ok mid) {a b : ℕ}
    (ha : a < G.length) (hb : b < G.length) {e : Err} {rows : List (PRow E)}
    (hwa : onePass w (tilesOfPass tiles p) ((sched p (subcatalog w (tilesOfPass tiles p) mid)).getD a []) = .error e)
    (hwb : onePass w (tilesOfPass tiles p) ((sched p (subcatalog w (tilesOfPass tiles p) mid)).getD b []) = .ok rows)
    (s : Machine C (List (Target E)) n)
    (hrun : Runs G (fun i => fiberAssignment comm w sched tiles npasses i (ranks.getD i [])) s) :
    RankEnds members s G[a] (.error e) ∧ Never members s G[b] := by
  have hne : G ≠ [] := List.ne_nil_of_length_pos (by omega)
  obtain ⟨hml, h1⟩ := fiberPasses_leads hc hG hne w hs tiles (List.range p) (p :: List.range' (p + 1) (npasses - p - 1))
    (ranks := ranks.map (List.map (initial npasses))) (by simp [hl]) hmid
  have hx := exchange_work hc hG hne true PRow.index (sched p) (onePass w (tilesOfPass tiles p))
      (toPRow w (tilesOfPass tiles p)) (mid.map fun rows => takeMask (rows.map (selected w (tilesOfPass tiles p))) rows) (by simp [hml])
      (fun i q => fiberPasses comm w sched tiles i (List.range' (p + 1) (npasses - p - 1))
        (putMask (update p) ((mid.getD i []).map (selected w (tilesOfPass tiles p))) (mid.getD i []) q))
  have hsplit : List.range npasses = List.range p ++ p :: List.range' (p + 1) (npasses - p - 1) := by
    obtain ⟨m, rfl⟩ : ∃ m, npasses = p + (1 + m) := ⟨npasses - p - 1, by omega⟩
    rw [List.range_eq_range', List.range_eq_range', show p + (1 + m) - p - 1 = m by omega, ← List.range'_succ,
      show m + 1 = 1 + m by omega]
    have := List.range'_append_1 (s := 0) (m := p) (n := 1 + m)
    rw [Nat.zero_add] at this
    exact this.symm
  unfold fiberAssignment at hrun
  have hall := Leads.call hc hG hne .allgather (fun i => (ranks.getD i []).length)
    (fun i _ => fiberPasses comm w sched tiles i (List.range npasses) ((ranks.getD i []).map (initial npasses)))
    ((h1.trans (hx.congr fun i hi => by rw [map_getD _ mid [] (by omega)]; rfl)).congr fun i hi => by
      rw [map_getD _ ranks [] (by omega), hsplit])
  have hsub : made (toPRow w (tilesOfPass tiles p)) (mid.map fun rows => takeMask (rows.map (selected w (tilesOfPass tiles p))) rows) =
      subcatalog w (tilesOfPass tiles p) mid := rfl
  rw [hsub] at hall
  exact hall.hangs hc ha hb (e := e) (by simp only [hwa]) ⟨_, _, _, _, by simp only [hwb]; rfl⟩ hrun

/-- Passes of the completeness weights. -/
theorem weightPasses_leads {G : List (Fin n)} {comm : C} (hc : members comm = G) (hG : G.Nodup) (hne : G ≠ []) (w : World E)
    {sched : ℕ → List (List CRow) → List (List CRow)} (hs : ∀ p sub, Csort CRow.tile sub (sched p sub)) (tiles : List Tile)
    (l : List ℕ) {ranks out : List (List (Weighted E))} (hl : ranks.length = G.length)
    (h : l.foldlM (compStep w sched tiles) ranks = .ok out) :
    out.length = G.length ∧
    Leads members G (fun i => weightPasses comm w sched tiles i l (ranks.getD i []))
      fun i => weightPasses comm w sched tiles i [] (out.getD i []) := by
  induction l generalizing ranks with
  | nil =>
    obtain rfl : ranks = out := Except.ok.inj h
    exact ⟨hl, Leads.refl _ _⟩
  | cons p l ih =>
    rw [List.foldlM_cons] at h
    obtain ⟨mid, h1, h2⟩ := Lemmas.Bricks.bind_ok h
    unfold compStep at h1
    simp only at h1
    obtain ⟨back, hb, h1⟩ := Lemmas.Bricks.bind_ok h1
    have hback : back.length = G.length := by
      unfold distribute at hb
      obtain ⟨worked, -, hb⟩ := Lemmas.Bricks.bind_ok hb
      simp only at hb
      split at hb
      swap
      · cases hb
      next hidx =>
      have := congrArg List.length hidx
      rw [Except.ok.inj hb, List.length_map, List.length_map] at this
      rw [this]
      refine (made_length (toCRow w (tilesOfPass tiles p) p)
        (ranks.map fun rows => takeMask (rows.map fun x : Weighted E => decide (0 ≤ tileOf w (tilesOfPass tiles p) x.row)) rows)).trans ?_
      rw [List.length_map, hl]
    have hmid := (Except.ok.inj h1).symm
    obtain ⟨hol, hrest⟩ := ih (ranks := mid) (by rw [hmid]; simp [hl, hback]) h2
    refine ⟨hol, ?_⟩
    have hx := exchange_leads hc hG hne false CRow.index (sched := sched p) (fun sub => (hs p sub).ranks)
      (fun rows => .ok (compPass (tilesOfPass tiles p) rows)) (toCRow w (tilesOfPass tiles p) p)
      (ranks.map fun rows : List (Weighted E) => takeMask (rows.map fun x : Weighted E => decide (0 ≤ tileOf w (tilesOfPass tiles p) x.row)) rows)
      (by simp [hl])
      (fun i q => .call comm (.gather 0) () fun _ => weightPasses comm w sched tiles i l
        (putMask (fun x (c : CRow) => { x with weight := c.weight, notUsed := c.notUsed })
          ((ranks.getD i []).map fun x : Weighted E => decide (0 ≤ tileOf w (tilesOfPass tiles p) x.row)) (ranks.getD i []) q)) hb
    refine (hx.trans (Leads.call hc hG hne _ _ _ (hrest.congr fun i hi => ?_))).congr fun i hi => ?_
    · have h1 : i < ranks.length := by omega
      have h2 : i < back.length := by omega
      rw [hmid]
      simp [h1, h2]
    · rw [map_getD _ ranks [] (by omega)]
      rfl

/-- C124: completeness weights: all ranks return, with the result of C53. -/
theorem C124_weights {G : List (Fin n)} {comm : C} (hc : members comm = G) (hG : G.Nodup) (hne : G ≠ []) (w : World E)
    {sched : ℕ → List (List CRow) → List (List CRow)} (hs : ∀ p sub, Csort CRow.tile sub (sched p sub)) {tiles : List Tile}
    (hpos : ∀ t ∈ tiles, 0 ≤ t.id) (npasses : ℕ) {ranks : List (List (Target E))} (hl : ranks.length = G.length) :
    ∃ out, completenessWeight w sched tiles npasses ranks = .ok out ∧
      Ends members G (fun i => weights comm w sched tiles npasses i (ranks.getD i [])) fun i => .ok (out.getD i []) := by
  have h := C53_weight (w := w) hs hpos npasses ranks
  refine ⟨_, h, ?_⟩
  generalize ranks.map (List.map fun r => (r, Spec.Fiber.weightOf w tiles npasses ranks.flatten r)) = final at h
  unfold completenessWeight at h
  obtain ⟨out, h1, h2⟩ := Lemmas.Bricks.bind_ok h
  obtain ⟨hol, h3⟩ := weightPasses_leads hc hG hne w hs tiles (List.range npasses) (ranks := ranks.map (List.map weighted)) (by simp [hl]) h1
  have hf : final = out.map (List.map fun x => (x.row, x.weight)) := (Except.ok.inj h2).symm
  unfold weights
  refine Leads.path (q := fun i => .done (.ok ((out.getD i []).map fun x => (x.row, x.weight))))
    (Leads.call hc hG hne _ _ _ ((h3.trans ?_).congr fun i hi => ?_)) fun i hi => ?_
  · exact Leads.call hc hG hne _ _ _ (Leads.refl _ _)
  · rw [map_getD _ ranks [] (by omega)]
  · rw [hf, map_getD _ out [] (by omega)]

/-! ### Non-vacuity -/

/-- A target on a tile, and an assignment that always fails. -/
def failing : World Unit where
  find _ _ _ := [0]
  engine _ _ := .error .valueError
  zmtl _ := none

/-- Non-vacuity: the target is on one rank, the other one waits for ever. -/
example : RankEnds two (both fun i => fiberAssignment none failing (fun _ => toFirst PRow.tile) [⟨5, 0, 0, 0⟩] 1 i
      ([[demoTarget 100 0 1], []].getD i [])) 0 (.error .valueError) ∧
    Never two (both fun i => fiberAssignment none failing (fun _ => toFirst PRow.tile) [⟨5, 0, 0, 0⟩] 1 i
      ([[demoTarget 100 0 1], []].getD i [])) 1 := by
  refine C124_fiber_violated (members := two) (G := [0, 1]) (comm := none) rfl (by decide) failing (fun _ _ => csort_toFirst _ _)
    [⟨5, 0, 0, 0⟩] (p := 0) one_pos rfl rfl (a := 0) (b := 1) (by simp) (by simp) (rows := []) ?_ ?_ _ (both_runs _)
  · simp [tilesOfPass, subcatalog, cindexFrom, takeMask, selected, tileOf, failing, initial, demoTarget, toFirst, onePass, toPRow, oneTile]
    rfl
  · simp [toFirst, subcatalog, cindexFrom, onePass]
    rfl

end Verif.Props.RankErrors
