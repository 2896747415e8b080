import Verif.Lemmas.FiberPass

/-! # Lemmas on fiber assignment: all passes -/

namespace Verif.Lemmas.Fiber

open Verif Verif.Model Verif.Model.Fiber Verif.Spec.Fiber

/-- Rows of the subcatalogue and rows of the catalogue. -/
theorem write_rel {α ρ : Type} (sel : α → Bool) (c : α → ℕ → ρ) (f : α → ρ → α) {R : ρ → ρ → Prop} (k : ℕ) (ranks : List (List α))
    (back : List (List ρ))
    (h : List.Forall₂ (List.Forall₂ R)
      ((cindexFrom k (ranks.map fun rows => takeMask (rows.map sel) rows)).map (List.map fun x => c x.1 x.2)) back) :
    List.Forall₂ (List.Forall₂ (Written f sel fun r q => ∃ j, R (c r j) q)) ranks
      (List.zipWith (fun rows q => putMask f (rows.map sel) rows q) ranks back) := by
  induction ranks generalizing k back with
  | nil =>
    simp only [List.map_nil, cindexFrom, List.forall₂_nil_left_iff] at h
    subst h
    exact .nil
  | cons rows ranks ih =>
    simp only [List.map_cons, cindexFrom] at h
    cases h with
    | cons hb hrest =>
      rw [takeMask_eq] at hb
      refine .cons ?_ (ih _ _ hrest)
      refine putMask_rel f sel _ rows _ ?_
      have : ∀ (l : List α) (k : ℕ) (b : List ρ), List.Forall₂ R ((l.zipIdx k).map fun x => c x.1 x.2) b →
          List.Forall₂ (fun r q => ∃ j, R (c r j) q) l b := by
        intro l
        induction l with
        | nil =>
          intro k b hb
          simp only [List.zipIdx_nil, List.map_nil, List.forall₂_nil_left_iff] at hb
          subst hb
          exact .nil
        | cons a l ih =>
          intro k b hb
          simp only [List.zipIdx_cons, List.map_cons] at hb
          cases hb with
          | cons h1 h2 => exact .cons ⟨_, h1⟩ (ih _ _ h2)
      exact this _ _ _ hb

/-- The same when rows of the subcatalogue are changed by a function. -/
theorem write_map {α ρ : Type} (sel : α → Bool) (c : α → ℕ → ρ) (f : α → ρ → α) (g : ρ → ρ) (h : α → α)
    (hh : ∀ a j, f a (g (c a j)) = h a) (k : ℕ) (ranks : List (List α)) :
    List.zipWith (fun rows q => putMask f (rows.map sel) rows q) ranks
      (((cindexFrom k (ranks.map fun rows => takeMask (rows.map sel) rows)).map (List.map fun x => c x.1 x.2)).map (List.map g))
      = ranks.map (List.map fun a => if sel a then h a else a) := by
  have := write_rel (R := fun x y => y = g x) sel c f k ranks
    (((cindexFrom k (ranks.map fun rows => takeMask (rows.map sel) rows)).map (List.map fun x => c x.1 x.2)).map (List.map g)) (by
      rw [List.forall₂_map_right_iff, List.forall₂_same]
      intro l _
      rw [List.forall₂_map_right_iff, List.forall₂_same]
      intro x _
      rfl)
  refine forall₂_map_fun _ _ _ (this.imp fun l m hlm => hlm.imp fun a b hab => ?_)
  unfold Written at hab
  split_ifs at hab ⊢ with hs
  · obtain ⟨b', ⟨j, rfl⟩, rfl⟩ := hab
    exact hh a j
  · exact hab

variable {E : Type}

theorem subcatalog_flatten (w : World E) (T : List Tile) (ranks : List (List (Target E))) :
    (subcatalog w T ranks).flatten = (ranks.flatten.filter (selected w T)).zipIdx.map fun x => toPRow w T x.1 x.2 := by
  unfold subcatalog
  rw [← List.map_flatten, cindexFrom_flatten]
  have : (ranks.map fun rows => takeMask (rows.map (selected w T)) rows) = ranks.map (List.filter (selected w T)) := by
    refine List.map_congr_left fun rows _ => takeMask_eq _ _
  rw [this, ← List.filter_flatten]

theorem subcatalog_index (w : World E) (T : List Tile) (ranks : List (List (Target E))) :
    ((subcatalog w T ranks).flatten.map PRow.index).Pairwise (· < ·) := by
  rw [subcatalog_flatten, List.map_map]
  have : (PRow.index ∘ fun x : Target E × ℕ => toPRow w T x.1 x.2) = Prod.snd := rfl
  rw [this, List.zipIdx_map_snd]
  exact List.pairwise_lt_range' 

theorem mem_subcatalog {w : World E} {T : List Tile} {ranks : List (List (Target E))} {q : PRow E}
    (h : q ∈ (subcatalog w T ranks).flatten) :
    ∃ r ∈ ranks.flatten, selected w T r = true ∧ ∃ k, q = toPRow w T r k := by
  rw [subcatalog_flatten] at h
  obtain ⟨⟨r, k⟩, hx, rfl⟩ := List.mem_map.mp h
  have := List.fst_mem_of_mem_zipIdx hx
  rw [List.mem_filter] at this
  exact ⟨r, this.1, this.2, k, rfl⟩

/-- The tile of a target. -/
theorem tileOf_spec {w : World E} {covers : Tile → ℝ → ℝ → Prop} (hf : FindOk w covers) (T : List Tile) (r : Target E) :
    (tileOf w T r = -1 ∧ ∀ t ∈ T, ¬covers t r.ra r.dec) ∨ ∃ t ∈ T, covers t r.ra r.dec ∧ tileOf w T r = t.id := by
  unfold tileOf
  cases hfind : w.find T r.ra r.dec with
  | nil =>
    left
    refine ⟨rfl, ?_⟩
    intro t ht hc
    obtain ⟨i, hi, he⟩ := List.mem_iff_getElem.mp ht
    have := (hf T r.ra r.dec i).mpr ⟨t, by rw [List.getElem?_eq_getElem hi, he], hc⟩
    rw [hfind] at this
    simp at this
  | cons i l =>
    right
    have : i ∈ w.find T r.ra r.dec := by rw [hfind]; simp
    obtain ⟨t, ht, hc⟩ := (hf T r.ra r.dec i).mp this
    refine ⟨t, List.mem_of_getElem? ht, hc, ?_⟩
    simp [List.getD_eq_getElem?_getD, ht]

theorem mem_tilesOfPass {tiles : List Tile} {p : ℕ} {t : Tile} : t ∈ tilesOfPass tiles p ↔ t ∈ tiles ∧ t.pass = p := by
  unfold tilesOfPass
  rw [List.mem_filter, decide_eq_true_eq]

theorem tileOf_of_covers {w : World E} {covers : Tile → ℝ → ℝ → Prop} (hf : FindOk w covers) {tiles : List Tile}
    {targets : List (Target E)} (ht : TilesOk covers tiles targets) {p : ℕ} {r : Target E} (hr : r ∈ targets) {t : Tile}
    (htp : t ∈ tilesOfPass tiles p) (hc : covers t r.ra r.dec) : tileOf w (tilesOfPass tiles p) r = t.id := by
  rcases tileOf_spec hf (tilesOfPass tiles p) r with ⟨_, h⟩ | ⟨t', ht', hc', he⟩
  · exact absurd hc (h t htp)
  · rw [he]
    have h1 := mem_tilesOfPass.mp htp
    have h2 := mem_tilesOfPass.mp ht'
    rw [ht.disjoint t' h2.1 t h1.1 (h2.2.trans h1.2.symm) r hr hc' hc]

theorem subOk {w : World E} {covers : Tile → ℝ → ℝ → Prop} (hf : FindOk w covers) {tiles : List Tile}
    {ranks : List (List (Target E))} (ht : TilesOk covers tiles ranks.flatten) (hn : (ranks.flatten.map Target.tid).Nodup) (p : ℕ) :
    SubOk covers (tilesOfPass tiles p) (subcatalog w (tilesOfPass tiles p) ranks).flatten where
  tiles := ht.nodup p
  tids := by
    rw [subcatalog_flatten, List.map_map]
    have : (PRow.tid ∘ fun x : Target E × ℕ => toPRow w (tilesOfPass tiles p) x.1 x.2) = Target.tid ∘ Prod.fst := rfl
    rw [this, ← List.map_map, List.zipIdx_map_fst]
    exact hn.sublist (List.filter_sublist.map _)
  index := subcatalog_index _ _ _
  tile := by
    intro q hq
    obtain ⟨r, hr, hs, k, rfl⟩ := mem_subcatalog hq
    rcases tileOf_spec hf (tilesOfPass tiles p) r with ⟨h, _⟩ | ⟨t, ht, _, he⟩
    · simp [selected, h] at hs
    · exact List.mem_map.mpr ⟨t, ht, he.symm⟩
  cover := by
    intro t htp q hq hc
    obtain ⟨r, hr, hs, k, rfl⟩ := mem_subcatalog hq
    exact tileOf_of_covers hf ht hr htp hc

/-- Effect of a pass on a row. -/
def passRow (w : World E) (T : List Tile) (p : ℕ) (info : ℤ → List (ℤ × ℤ) × List (ℤ × ℤ)) (r : Target E) : Target E :=
  if selected w T r then update p r (mtlRow (info (tileOf w T r)) (toPRow w T r 0)) else r

theorem update_index (w : World E) (T : List Tile) (p : ℕ) (i : List (ℤ × ℤ) × List (ℤ × ℤ)) (r : Target E) (j k : ℕ) :
    update p r (mtlRow i (toPRow w T r j)) = update p r (mtlRow i (toPRow w T r k)) := by
  unfold update
  simp only [mtlRow_more, mtlRow_numobs, mtlRow_available, mtlRow_obs, mtlRow_fiber]
  rfl

/-- The pass on all ranks. -/
theorem passStep_core {w : World E} {covers : Tile → ℝ → ℝ → Prop} (hw : EngineOk w covers) (hf : FindOk w covers)
    {sched : ℕ → List (List (PRow E)) → List (List (PRow E))} (hs : ∀ p sub, Csort PRow.tile sub (sched p sub)) {tiles : List Tile}
    {ranks out : List (List (Target E))} (ht : TilesOk covers tiles ranks.flatten) (hn : (ranks.flatten.map Target.tid).Nodup) {p : ℕ}
    (h : passStep w sched tiles ranks p = .ok out) :
    ∃ info : ℤ → List (ℤ × ℤ) × List (ℤ × ℤ),
      (∀ t ∈ tilesOfPass tiles p, t.id ∈ (subcatalog w (tilesOfPass tiles p) ranks).flatten.map PRow.tile →
        ∃ rows', (rows'.map PRow.tid).Nodup ∧
          (onTile covers t rows').Perm (onTile covers t (subcatalog w (tilesOfPass tiles p) ranks).flatten) ∧
          tileInfo w t rows' = .ok (info t.id)) ∧
      out = ranks.map (List.map (passRow w (tilesOfPass tiles p) p info)) := by
  unfold passStep at h
  simp only [Bind.bind, Except.bind, pure, Except.pure] at h
  cases hd : distribute PRow.index (sched p) (onePass w (tilesOfPass tiles p)) (subcatalog w (tilesOfPass tiles p) ranks) with
  | error e => simp [hd] at h
  | ok back =>
    simp only [hd, Except.ok.injEq] at h
    obtain ⟨info, h1, h2⟩ := pass_core hw (hs p _) (subOk hf ht hn p) hd
    refine ⟨info, h1, ?_⟩
    rw [← h, h2]
    unfold subcatalog
    exact write_map (selected w (tilesOfPass tiles p)) (toPRow w (tilesOfPass tiles p)) (update p)
      (fun r => mtlRow (info r.tile) r)
      (fun r => update p r (mtlRow (info (tileOf w (tilesOfPass tiles p) r)) (toPRow w (tilesOfPass tiles p) r 0)))
      (fun r j => update_index _ _ _ _ _ _ _) 0 ranks

/-- Conversely. -/
theorem passStep_mk {w : World E} {covers : Tile → ℝ → ℝ → Prop} (hw : EngineOk w covers) (hf : FindOk w covers)
    {sched : ℕ → List (List (PRow E)) → List (List (PRow E))} (hs : ∀ p sub, Csort PRow.tile sub (sched p sub)) {tiles : List Tile}
    {ranks : List (List (Target E))} (ht : TilesOk covers tiles ranks.flatten) (hn : (ranks.flatten.map Target.tid).Nodup) {p : ℕ}
    (info : ℤ → List (ℤ × ℤ) × List (ℤ × ℤ))
    (hinfo : ∀ t ∈ tilesOfPass tiles p, t.id ∈ (subcatalog w (tilesOfPass tiles p) ranks).flatten.map PRow.tile → ∀ rows',
      (onTile covers t rows').Perm (onTile covers t (subcatalog w (tilesOfPass tiles p) ranks).flatten) →
      tileInfo w t rows' = .ok (info t.id)) :
    passStep w sched tiles ranks p = .ok (ranks.map (List.map (passRow w (tilesOfPass tiles p) p info))) := by
  unfold passStep
  simp only [Bind.bind, Except.bind, pure, Except.pure]
  rw [pass_mk hw (hs p _) (subOk hf ht hn p) info hinfo]
  simp only [Except.ok.injEq]
  unfold subcatalog
  exact write_map (selected w (tilesOfPass tiles p)) (toPRow w (tilesOfPass tiles p)) (update p)
    (fun r => mtlRow (info r.tile) r)
    (fun r => update p r (mtlRow (info (tileOf w (tilesOfPass tiles p) r)) (toPRow w (tilesOfPass tiles p) r 0)))
    (fun r j => update_index _ _ _ _ _ _ _) 0 ranks

/-! ### Without conditions on the packages -/

/-- What a tile leaves of a row. -/
def Kept (a b : PRow E) : Prop :=
  b.index = a.index ∧ b.tile = a.tile ∧ b.tid = a.tid ∧ b.numobs + b.more = a.numobs + a.more ∧
    a.numobs + (if b.obs = true ∧ a.obs = false then 1 else 0) ≤ b.numobs ∧ (a.obs = true → b.obs = true) ∧
    (b.obs = a.obs → b.obs = false → b.numobs = a.numobs)

theorem Kept.trans {a b c : PRow E} (h1 : Kept a b) (h2 : Kept b c) : Kept a c := by
  obtain ⟨i1, t1, d1, s1, n1, o1, e1⟩ := h1
  obtain ⟨i2, t2, d2, s2, n2, o2, e2⟩ := h2
  refine ⟨by rw [i2, i1], by rw [t2, t1], by rw [d2, d1], by omega, ?_, fun h => o2 (o1 h), ?_⟩
  · rcases ha : a.obs <;> rcases hb : b.obs <;> rcases hc : c.obs <;> simp_all <;> omega
  · rcases ha : a.obs <;> rcases hb : b.obs <;> rcases hc : c.obs <;> simp_all

theorem mtlRow_kept (i : List (ℤ × ℤ) × List (ℤ × ℤ)) (r : PRow E) : Kept r (mtlRow i r) := by
  refine ⟨by simp, by simp, by simp, ?_, ?_, ?_, ?_⟩
  · rw [mtlRow_more, mtlRow_numobs]; ring
  · rw [mtlRow_numobs, mtlRow_obs]
    rcases r.obs <;> rcases (fiberIn i.1 r.tid).isSome <;> simp
  · rw [mtlRow_obs]
    intro h
    simp [h]
  · rw [mtlRow_numobs, mtlRow_obs]
    rcases r.obs <;> rcases (fiberIn i.1 r.tid).isSome <;> simp

theorem kept_refl (r : PRow E) : Kept r r := by
  refine ⟨rfl, rfl, rfl, rfl, ?_, id, fun _ _ => rfl⟩
  rcases r.obs <;> simp

theorem forall₂_trans {α : Type*} {R : α → α → Prop} (hR : ∀ a b c, R a b → R b c → R a c) {x y z : List α}
    (h1 : List.Forall₂ R x y) (h2 : List.Forall₂ R y z) : List.Forall₂ R x z := by
  induction h1 generalizing z with
  | nil => cases h2; exact .nil
  | cons h _ ih => cases h2 with
    | cons h' hr => exact .cons (hR _ _ _ h h') (ih hr)

theorem fold_kept {w : World E} {T : List Tile} {rows out : List (PRow E)} (h : T.foldlM (oneTile w) rows = .ok out) :
    List.Forall₂ Kept rows out := by
  induction T generalizing rows with
  | nil =>
    simp only [List.foldlM_nil, pure, Except.pure, Except.ok.injEq] at h
    rw [← h, List.forall₂_same]
    intro r _
    exact kept_refl r
  | cons t T ih =>
    rw [List.foldlM_cons, oneTile_eq] at h
    simp only [Bind.bind, Except.bind] at h
    cases hi : tileInfo w t rows with
    | error e => simp [hi, Except.map] at h
    | ok i =>
      simp only [hi, Except.map] at h
      refine forall₂_trans (R := Kept) (fun _ _ _ h h' => h.trans h') ?_ (ih h)
      rw [List.forall₂_map_right_iff, List.forall₂_same]
      intro r _
      exact mtlRow_kept i r

theorem passStep_kept {w : World E} {sched : ℕ → List (List (PRow E)) → List (List (PRow E))}
    (hs : ∀ p sub, Csort PRow.tile sub (sched p sub)) {tiles : List Tile} {ranks out : List (List (Target E))} {p : ℕ}
    (h : passStep w sched tiles ranks p = .ok out) :
    List.Forall₂ (List.Forall₂ (Written (update p) (selected w (tilesOfPass tiles p)) fun r q =>
      ∃ j, Kept (toPRow w (tilesOfPass tiles p) r j) q)) ranks out := by
  unfold passStep at h
  simp only [Bind.bind, Except.bind, pure, Except.pure] at h
  cases hd : distribute PRow.index (sched p) (onePass w (tilesOfPass tiles p)) (subcatalog w (tilesOfPass tiles p) ranks) with
  | error e => simp [hd] at h
  | ok back =>
    simp only [hd, Except.ok.injEq] at h
    rw [← h]
    refine write_rel _ (toPRow w (tilesOfPass tiles p)) (update p) 0 ranks back ?_
    obtain ⟨back', h1, h2⟩ := distribute_ok (R := Kept) (hs p _) (subcatalog_index w (tilesOfPass tiles p) ranks)
      (fun a b hab => hab.1) (work := onePass w (tilesOfPass tiles p)) (fun rows hr => by
        obtain ⟨out, ho⟩ := distribute_work hd rows hr
        exact ⟨out, ho, fold_kept ho⟩)
    rw [hd] at h1
    simp only [Except.ok.injEq] at h1
    rw [h1]
    exact h2

/-- If no tile raises, a pass does not raise. -/
theorem passStep_total {w : World E} {sched : ℕ → List (List (PRow E)) → List (List (PRow E))}
    (hs : ∀ p sub, Csort PRow.tile sub (sched p sub)) (hw : ∀ rows t, ∃ out, oneTile w rows t = .ok out) (tiles : List Tile)
    (ranks : List (List (Target E))) (p : ℕ) : ∃ out, passStep w sched tiles ranks p = .ok out := by
  have hfold : ∀ (T : List Tile) (rows : List (PRow E)), ∃ out, T.foldlM (oneTile w) rows = .ok out := by
    intro T
    induction T with
    | nil => intro rows; exact ⟨rows, rfl⟩
    | cons t T ih =>
      intro rows
      obtain ⟨o, ho⟩ := hw rows t
      obtain ⟨o', ho'⟩ := ih o
      exact ⟨o', by simp [List.foldlM_cons, ho, Bind.bind, Except.bind, ho']⟩
  obtain ⟨back, h1, _⟩ := distribute_ok (R := Kept) (hs p _) (subcatalog_index w (tilesOfPass tiles p) ranks)
    (fun a b hab => hab.1) (work := onePass w (tilesOfPass tiles p)) (fun rows hr => by
      obtain ⟨out, ho⟩ := hfold (List.filter (fun t => t.id ∈ rows.map PRow.tile) (tilesOfPass tiles p)) rows
      exact ⟨out, ho, fold_kept ho⟩)
  unfold passStep
  simp only [Bind.bind, Except.bind, pure, Except.pure, h1]
  exact ⟨_, rfl⟩

/-- Induction over the passes. -/
theorem foldlM_range {α : Type*} {f : α → ℕ → Except Err α} {n : ℕ} {a out : α} (I : ℕ → α → Prop) (h0 : I 0 a)
    (hstep : ∀ p < n, ∀ x y, I p x → f x p = .ok y → I (p + 1) y) (h : (List.range n).foldlM f a = .ok out) : I n out := by
  induction n generalizing out with
  | zero =>
    simp only [List.range_zero, List.foldlM_nil, pure, Except.pure, Except.ok.injEq] at h
    rw [← h]
    exact h0
  | succ n ih =>
    rw [List.range_succ, List.foldlM_append] at h
    simp only [Bind.bind, Except.bind, List.foldlM_cons, List.foldlM_nil, pure, Except.pure] at h
    cases hx : (List.range n).foldlM f a with
    | error e => simp [hx] at h
    | ok x =>
      simp only [hx] at h
      have := ih (fun p hp => hstep p (by omega)) hx
      cases hy : f x n with
      | error e => simp [hy] at h
      | ok y =>
        simp only [hy, Except.ok.injEq] at h
        rw [← h]
        exact hstep n (by omega) x y this hy

end Verif.Lemmas.Fiber
