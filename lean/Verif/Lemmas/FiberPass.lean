import Verif.Lemmas.FiberTile

/-! # Lemmas on fiber assignment: one pass -/

namespace Verif.Lemmas.Fiber

open Verif Verif.Model Verif.Model.Fiber Verif.Spec.Fiber

variable {E : Type}

theorem eq_of_tid {rows : List (PRow E)} (hn : (rows.map PRow.tid).Nodup) {r r' : PRow E} (h : r ∈ rows) (h' : r' ∈ rows)
    (he : r.tid = r'.tid) : r = r' := List.inj_on_of_nodup_map hn h h' he

/-- A tile acts only on the rows that lie on it. -/
theorem tile_only {w : World E} {covers : Tile → ℝ → ℝ → Prop} (hw : EngineOk w covers) {t : Tile} {rows : List (PRow E)}
    {i : List (ℤ × ℤ) × List (ℤ × ℤ)} (h : tileInfo w t rows = .ok i) (hn : (rows.map PRow.tid).Nodup) {r : PRow E} (hr : r ∈ rows)
    (hc : ¬covers t r.ra r.dec) : fiberIn i.1 r.tid = none ∧ fiberIn i.2 r.tid = none := by
  obtain ⟨asgn, ho⟩ := tileInfo_outcome hw h
  have hok := hw _ _ _ ho.engine
  have key : ∀ x ∈ asgn.avail t.id, r.tid ∈ x.2 → Science asgn r.tid → False := by
    intro x hx hid hs
    obtain ⟨r0, hr0, he, hc0⟩ := hok.rows x hx _ hid hs
    rw [eq_of_tid hn hr0 hr he] at hc0
    exact hc hc0
  constructor
  · cases hf : fiberIn i.1 r.tid with
    | none => rfl
    | some f =>
      obtain ⟨⟨_, loc, hl, hs, _⟩, _⟩ := (ho.observed _ _).mp hf
      obtain ⟨ids, hm, hid⟩ := hok.reach _ hl hs
      exact (key _ hm hid hs).elim
  · cases hf : fiberIn i.2 r.tid with
    | none => rfl
    | some f =>
      obtain ⟨⟨pre, x, post, heq, hid, hs, _⟩, _⟩ := (ho.available _ _).mp hf
      exact (key x (by rw [heq]; simp) hid hs).elim

theorem step_eq {w : World E} {covers : Tile → ℝ → ℝ → Prop} (hw : EngineOk w covers) {t : Tile} {rows : List (PRow E)}
    {i : List (ℤ × ℤ) × List (ℤ × ℤ)} (h : tileInfo w t rows = .ok i) (hn : (rows.map PRow.tid).Nodup)
    (hc : ∀ r ∈ rows, covers t r.ra r.dec → r.tile = t.id) :
    rows.map (mtlRow i) = rows.map fun r => if r.tile = t.id then mtlRow i r else r := by
  refine List.map_congr_left fun r hr => ?_
  split_ifs with ht
  · rfl
  · have := tile_only hw h hn hr fun hcov => ht (hc r hr hcov)
    exact mtlRow_eq_self i r this.1 this.2

theorem onTile_map {covers : Tile → ℝ → ℝ → Prop} {t : Tile} {rows : List (PRow E)} {g : PRow E → PRow E}
    (hra : ∀ r, (g r).ra = r.ra) (hdec : ∀ r, (g r).dec = r.dec) (hg : ∀ r ∈ rows, covers t r.ra r.dec → g r = r) :
    onTile covers t (rows.map g) = onTile covers t rows := by
  classical
  unfold onTile
  rw [List.filter_map]
  have : ((fun r : PRow E => decide (covers t r.ra r.dec)) ∘ g) = fun r => decide (covers t r.ra r.dec) := by
    funext r
    simp [hra, hdec]
  rw [this]
  conv_rhs => rw [← List.map_id (List.filter (fun r => decide (covers t r.ra r.dec)) rows)]
  refine List.map_congr_left fun r hr => ?_
  rw [List.mem_filter, decide_eq_true_eq] at hr
  exact hg r hr.1 hr.2

/-- State after some tiles. -/
def after (info : ℤ → List (ℤ × ℤ) × List (ℤ × ℤ)) (T : List Tile) (r : PRow E) : PRow E :=
  if r.tile ∈ T.map Tile.id then mtlRow (info r.tile) r else r

theorem after_nil (info : ℤ → List (ℤ × ℤ) × List (ℤ × ℤ)) : after (E := E) info [] = id := by
  funext r
  simp [after]

theorem after_cons {info : ℤ → List (ℤ × ℤ) × List (ℤ × ℤ)} {t : Tile} {T : List Tile} {i : List (ℤ × ℤ) × List (ℤ × ℤ)}
    (hn : t.id ∉ T.map Tile.id) (info' : ℤ → List (ℤ × ℤ) × List (ℤ × ℤ)) (hi : info' t.id = i)
    (hT : ∀ s ∈ T, info' s.id = info s.id) (r : PRow E) :
    after info T (if r.tile = t.id then mtlRow i r else r) = after info' (t :: T) r := by
  unfold after
  by_cases h : r.tile = t.id
  · simp only [h, if_true, mtlRow_tile, hn, if_false, List.map_cons, List.mem_cons, true_or, hi]
  · simp only [h, if_false, List.map_cons, List.mem_cons, false_or]
    split_ifs with hm
    · obtain ⟨s, hs, he⟩ := List.mem_map.mp hm
      rw [← he, hT s hs]
    · rfl

/-- Tiles one after the other: each tile is assigned with the rows that lie on it as they were before the pass. -/
theorem fold_ok {w : World E} {covers : Tile → ℝ → ℝ → Prop} (hw : EngineOk w covers) {T : List Tile} {rows out : List (PRow E)}
    (hT : (T.map Tile.id).Nodup) (hn : (rows.map PRow.tid).Nodup) (hc : ∀ t ∈ T, ∀ r ∈ rows, covers t r.ra r.dec → r.tile = t.id)
    (h : T.foldlM (oneTile w) rows = .ok out) :
    ∃ info : ℤ → List (ℤ × ℤ) × List (ℤ × ℤ),
      (∀ t ∈ T, ∃ rows', (rows'.map PRow.tid).Nodup ∧ onTile covers t rows' = onTile covers t rows ∧
        tileInfo w t rows' = .ok (info t.id)) ∧ out = rows.map (after info T) := by
  induction T generalizing rows with
  | nil =>
    simp only [List.foldlM_nil, pure, Except.pure, Except.ok.injEq] at h
    refine ⟨fun _ => ([], []), by simp, ?_⟩
    rw [← h, after_nil, List.map_id]
  | cons t T ih =>
    rw [List.foldlM_cons, oneTile_eq] at h
    simp only [Bind.bind, Except.bind] at h
    cases hi : tileInfo w t rows with
    | error e => simp [hi, Except.map] at h
    | ok i =>
      simp only [hi, Except.map] at h
      rw [List.map_cons, List.nodup_cons] at hT
      have hstep := step_eq hw hi hn (hc t (by simp))
      have hgra : ∀ r : PRow E, (if r.tile = t.id then mtlRow i r else r).ra = r.ra := by intro r; split_ifs <;> simp
      have hgdec : ∀ r : PRow E, (if r.tile = t.id then mtlRow i r else r).dec = r.dec := by intro r; split_ifs <;> simp
      obtain ⟨info, h1, h2⟩ := ih (rows := rows.map (mtlRow i)) hT.2
        (by rw [List.map_map]; simpa [Function.comp_def] using hn)
        (by
          intro s hs r hr hcov
          obtain ⟨r0, hr0, rfl⟩ := List.mem_map.mp hr
          simp only [mtlRow_ra, mtlRow_dec, mtlRow_tile] at hcov ⊢
          exact hc s (by simp [hs]) r0 hr0 hcov) h
      refine ⟨fun k => if k = t.id then i else info k, ?_, ?_⟩
      · intro s hs
        rcases List.mem_cons.mp hs with rfl | hs
        · exact ⟨rows, hn, rfl, by simpa using hi⟩
        · have hne : s.id ≠ t.id := fun e => hT.1 (e ▸ List.mem_map.mpr ⟨s, hs, rfl⟩)
          obtain ⟨rows', hn', ho, hinfo⟩ := h1 s hs
          refine ⟨rows', hn', ?_, by simpa [hne] using hinfo⟩
          rw [ho, hstep]
          refine onTile_map hgra hgdec fun r hr hcov => ?_
          rw [if_neg]
          rw [hc s (by simp [hs]) r hr hcov]
          exact hne
      · rw [h2, hstep, List.map_map]
        refine List.map_congr_left fun r _ => ?_
        exact after_cons hT.1 _ (by simp) (fun s hs => by
          have hne : s.id ≠ t.id := fun e => hT.1 (e ▸ List.mem_map.mpr ⟨s, hs, rfl⟩)
          simp [hne]) r

/-- Conversely, the tiles can be treated if each can. -/
theorem fold_mk {w : World E} {covers : Tile → ℝ → ℝ → Prop} (hw : EngineOk w covers) {T : List Tile} {rows : List (PRow E)}
    (hT : (T.map Tile.id).Nodup) (hn : (rows.map PRow.tid).Nodup) (hc : ∀ t ∈ T, ∀ r ∈ rows, covers t r.ra r.dec → r.tile = t.id)
    (info : ℤ → List (ℤ × ℤ) × List (ℤ × ℤ))
    (hinfo : ∀ t ∈ T, ∀ rows', onTile covers t rows' = onTile covers t rows → tileInfo w t rows' = .ok (info t.id)) :
    T.foldlM (oneTile w) rows = .ok (rows.map (after info T)) := by
  induction T generalizing rows with
  | nil => simp [pure, Except.pure, after_nil]
  | cons t T ih =>
    rw [List.foldlM_cons, oneTile_eq]
    have hi := hinfo t (by simp) rows rfl
    simp only [Bind.bind, Except.bind, hi, Except.map]
    rw [List.map_cons, List.nodup_cons] at hT
    have hstep := step_eq hw hi hn (hc t (by simp))
    have hgra : ∀ r : PRow E, (if r.tile = t.id then mtlRow (info t.id) r else r).ra = r.ra := by intro r; split_ifs <;> simp
    have hgdec : ∀ r : PRow E, (if r.tile = t.id then mtlRow (info t.id) r else r).dec = r.dec := by intro r; split_ifs <;> simp
    rw [ih (rows := rows.map (mtlRow (info t.id))) hT.2
        (by rw [List.map_map]; simpa [Function.comp_def] using hn)
        (by
          intro s hs r hr hcov
          obtain ⟨r0, hr0, rfl⟩ := List.mem_map.mp hr
          simp only [mtlRow_ra, mtlRow_dec, mtlRow_tile] at hcov ⊢
          exact hc s (by simp [hs]) r0 hr0 hcov)
        (by
          intro s hs rows' ho
          have hne : s.id ≠ t.id := fun e => hT.1 (e ▸ List.mem_map.mpr ⟨s, hs, rfl⟩)
          refine hinfo s (by simp [hs]) rows' ?_
          rw [ho, hstep]
          refine onTile_map hgra hgdec fun r hr hcov => ?_
          rw [if_neg]
          rw [hc s (by simp [hs]) r hr hcov]
          exact hne), hstep, List.map_map]
    congr 1
    refine List.map_congr_left fun r _ => ?_
    exact after_cons hT.1 _ rfl (fun _ _ => rfl) r

/-! ### All ranks -/

/-- What is asked of the rows of a pass. -/
structure SubOk (covers : Tile → ℝ → ℝ → Prop) (T : List Tile) (S : List (PRow E)) : Prop where
  tiles : (T.map Tile.id).Nodup
  tids : (S.map PRow.tid).Nodup
  index : (S.map PRow.index).Pairwise (· < ·)
  tile : ∀ r ∈ S, r.tile ∈ T.map Tile.id
  cover : ∀ t ∈ T, ∀ r ∈ S, covers t r.ra r.dec → r.tile = t.id

theorem together_unique {ρ : Type} {key : ρ → ℤ} {sub moved : List (List ρ)} (hs : Csort key sub moved) {a b : List ρ}
    (ha : a ∈ moved) (hb : b ∈ moved) {k : ℤ} (hka : k ∈ a.map key) (hkb : k ∈ b.map key) : a = b := by
  by_contra hne
  have hsymm : Std.Symm fun l l' : List ρ => ∀ a ∈ l, ∀ b ∈ l', key a ≠ key b :=
    ⟨fun l l' h a ha b hb e => h b hb a ha e.symm⟩
  have := hs.together.forall ha hb hne
  obtain ⟨x, hx, hxk⟩ := List.mem_map.mp hka
  obtain ⟨y, hy, hyk⟩ := List.mem_map.mp hkb
  exact this x hx y hy (hxk.trans hyk.symm)

theorem filter_flatten {ρ : Type} (p : ρ → Bool) (pre post : List (List ρ)) (rows : List ρ)
    (h1 : ∀ l ∈ pre, ∀ x ∈ l, p x = false) (h2 : ∀ l ∈ post, ∀ x ∈ l, p x = false) :
    (pre ++ rows :: post).flatten.filter p = rows.filter p := by
  rw [List.flatten_append, List.flatten_cons, List.filter_append, List.filter_append]
  have e1 : pre.flatten.filter p = [] := by
    rw [List.filter_eq_nil_iff]
    intro x hx
    obtain ⟨l, hl, hxl⟩ := List.mem_flatten.mp hx
    simp [h1 l hl x hxl]
  have e2 : post.flatten.filter p = [] := by
    rw [List.filter_eq_nil_iff]
    intro x hx
    obtain ⟨l, hl, hxl⟩ := List.mem_flatten.mp hx
    simp [h2 l hl x hxl]
  rw [e1, e2]
  simp

/-- The rank that has a tile has all rows that lie on it. -/
theorem onTile_rank {covers : Tile → ℝ → ℝ → Prop} {T : List Tile} {sub moved : List (List (PRow E))}
    (hs : Csort PRow.tile sub moved) (hS : SubOk covers T sub.flatten) {rows : List (PRow E)} (hr : rows ∈ moved) {t : Tile} (ht : t ∈ T)
    (hk : t.id ∈ rows.map PRow.tile) : (onTile covers t rows).Perm (onTile covers t sub.flatten) := by
  classical
  have hp : (onTile covers t moved.flatten).Perm (onTile covers t sub.flatten) := hs.rows.filter _
  refine List.Perm.trans ?_ hp
  obtain ⟨pre, post, heq⟩ := List.append_of_mem hr
  obtain ⟨y, hy, hyk⟩ := List.mem_map.mp hk
  have hcov : ∀ l ∈ moved, ∀ x ∈ l, covers t x.ra x.dec → x.tile = t.id := by
    intro l hl x hx hc
    exact hS.cover t ht x (hs.rows.mem_iff.mp (List.mem_flatten.mpr ⟨l, hl, hx⟩)) hc
  have htog := hs.together
  rw [heq, List.pairwise_append] at htog
  obtain ⟨_, h2, h3⟩ := htog
  rw [List.pairwise_cons] at h2
  have : onTile covers t moved.flatten = onTile covers t rows := by
    unfold onTile
    rw [heq]
    refine filter_flatten _ pre post rows ?_ ?_
    · intro l hl x hx
      rw [decide_eq_false_iff_not]
      intro hc
      exact h3 l hl rows (by simp) x hx y hy ((hcov l (by rw [heq]; simp [hl]) x hx hc).trans hyk.symm)
    · intro l hl x hx
      rw [decide_eq_false_iff_not]
      intro hc
      exact h2.1 l hl y hy x hx (hyk.trans (hcov l (by rw [heq]; simp [hl]) x hx hc).symm)
  rw [this]

theorem rank_rows {covers : Tile → ℝ → ℝ → Prop} {T : List Tile} {sub moved : List (List (PRow E))}
    (hs : Csort PRow.tile sub moved) (hS : SubOk covers T sub.flatten) {rows : List (PRow E)} (hr : rows ∈ moved) :
    (rows.map PRow.tid).Nodup ∧ ∀ r ∈ rows, r ∈ sub.flatten := by
  constructor
  · have h1 : (moved.flatten.map PRow.tid).Nodup := (hs.rows.map _).nodup_iff.mpr hS.tids
    exact h1.sublist ((List.sublist_flatten_of_mem hr).map _)
  · intro r hrr
    exact hs.rows.mem_iff.mp (List.mem_flatten.mpr ⟨rows, hr, hrr⟩)

theorem after_filter {covers : Tile → ℝ → ℝ → Prop} {T : List Tile} {S : List (PRow E)} (hS : SubOk covers T S)
    {rows : List (PRow E)} (hr : ∀ r ∈ rows, r ∈ S) (info : ℤ → List (ℤ × ℤ) × List (ℤ × ℤ)) :
    rows.map (after info (T.filter fun t => t.id ∈ rows.map PRow.tile)) = rows.map fun r => mtlRow (info r.tile) r := by
  refine List.map_congr_left fun r hrr => ?_
  unfold after
  rw [if_pos]
  obtain ⟨t, ht, he⟩ := List.mem_map.mp (hS.tile r (hr r hrr))
  refine List.mem_map.mpr ⟨t, List.mem_filter.mpr ⟨ht, ?_⟩, he⟩
  rw [decide_eq_true_eq, he]
  exact List.mem_map.mpr ⟨r, hrr, rfl⟩

theorem forall₂_map_fun {α β : Type*} (g : α → β) (a : List (List α)) (b : List (List β))
    (h : List.Forall₂ (List.Forall₂ fun x y => y = g x) a b) : b = a.map (List.map g) := by
  have h1 : ∀ (l : List α) (m : List β), List.Forall₂ (fun x y => y = g x) l m → m = l.map g := by
    intro l m h
    induction h with
    | nil => rfl
    | cons h _ ih => rw [h, ih]; rfl
  induction h with
  | nil => rfl
  | cons h _ ih => rw [h1 _ _ h, ih]; rfl

theorem distribute_work {ρ : Type} {index : ρ → ℕ} {sched : List (List ρ) → List (List ρ)}
    {work : List ρ → Except Err (List ρ)} {sub back : List (List ρ)} (h : distribute index sched work sub = .ok back) :
    ∀ rows ∈ sched sub, ∃ out, work rows = .ok out := by
  unfold distribute at h
  simp only [Bind.bind, Except.bind] at h
  cases hm : (sched sub).mapM work with
  | error e => simp [hm] at h
  | ok worked =>
    intro rows hr
    have hf := mapM_forall₂ hm
    obtain ⟨i, hi⟩ := List.mem_iff_getElem.mp hr
    obtain ⟨hi, rfl⟩ := hi
    have := hf.get hi (by rw [← hf.length_eq]; exact hi)
    exact ⟨_, this⟩

/-- One pass on all ranks: each row is changed by its own tile only, and each tile is assigned with the rows that lie on it as they
were before the pass. -/
theorem pass_core {w : World E} {covers : Tile → ℝ → ℝ → Prop} (hw : EngineOk w covers) {T : List Tile}
    {sched : List (List (PRow E)) → List (List (PRow E))} {sub back : List (List (PRow E))} (hs : Csort PRow.tile sub (sched sub))
    (hS : SubOk covers T sub.flatten) (h : distribute PRow.index sched (onePass w T) sub = .ok back) :
    ∃ info : ℤ → List (ℤ × ℤ) × List (ℤ × ℤ),
      (∀ t ∈ T, t.id ∈ sub.flatten.map PRow.tile → ∃ rows', (rows'.map PRow.tid).Nodup ∧
        (onTile covers t rows').Perm (onTile covers t sub.flatten) ∧ tileInfo w t rows' = .ok (info t.id)) ∧
      back = sub.map (List.map fun r => mtlRow (info r.tile) r) := by
  classical
  have H : ∀ rows, ∃ info : ℤ → List (ℤ × ℤ) × List (ℤ × ℤ), rows ∈ sched sub →
      (∀ t ∈ T, t.id ∈ rows.map PRow.tile → ∃ rows', (rows'.map PRow.tid).Nodup ∧
        onTile covers t rows' = onTile covers t rows ∧ tileInfo w t rows' = .ok (info t.id)) ∧
      onePass w T rows = .ok (rows.map fun r => mtlRow (info r.tile) r) := by
    intro rows
    by_cases hr : rows ∈ sched sub
    · obtain ⟨out, ho⟩ := distribute_work h rows hr
      obtain ⟨hn, hm⟩ := rank_rows hs hS hr
      obtain ⟨info, h1, h2⟩ := fold_ok hw (hS.tiles.sublist (List.filter_sublist.map _)) hn
        (fun t ht r hrr hc => hS.cover t (List.mem_filter.mp ht).1 r (hm r hrr) hc) ho
      refine ⟨info, fun _ => ⟨fun t ht hk => h1 t (List.mem_filter.mpr ⟨ht, by simpa using hk⟩), ?_⟩⟩
      rw [ho, h2, after_filter hS hm]
    · exact ⟨fun _ => ([], []), fun h => absurd h hr⟩
  choose infoOf hinfo using H
  let ginfo : ℤ → List (ℤ × ℤ) × List (ℤ × ℤ) := fun k =>
    if hk : ∃ rows ∈ sched sub, k ∈ rows.map PRow.tile then infoOf hk.choose k else ([], [])
  have hg : ∀ rows ∈ sched sub, ∀ k ∈ rows.map PRow.tile, ginfo k = infoOf rows k := by
    intro rows hr k hk
    have hex : ∃ rows ∈ sched sub, k ∈ rows.map PRow.tile := ⟨rows, hr, hk⟩
    have hc := hex.choose_spec
    have : hex.choose = rows := together_unique hs hc.1 hr hc.2 hk
    simp only [ginfo, dif_pos hex, this]
  refine ⟨ginfo, ?_, ?_⟩
  · intro t ht hk
    have hk' : t.id ∈ (sched sub).flatten.map PRow.tile := by
      rw [(hs.rows.map PRow.tile).mem_iff]; exact hk
    obtain ⟨r, hr, hrt⟩ := List.mem_map.mp hk'
    obtain ⟨rows, hrows, hrr⟩ := List.mem_flatten.mp hr
    have hkr : t.id ∈ rows.map PRow.tile := List.mem_map.mpr ⟨r, hrr, hrt⟩
    obtain ⟨rows', h0, h1, h2⟩ := (hinfo rows hrows).1 t ht hkr
    refine ⟨rows', h0, ?_, ?_⟩
    · rw [h1]
      exact onTile_rank hs hS hrows ht hkr
    · rw [hg rows hrows _ hkr]
      exact h2
  · obtain ⟨back', h1, h2⟩ := distribute_ok (R := fun r r' : PRow E => r' = mtlRow (ginfo r.tile) r) hs hS.index
      (fun a b hab => by rw [hab]; simp) (work := onePass w T) (fun rows hr => by
        refine ⟨_, (hinfo rows hr).2, ?_⟩
        rw [List.forall₂_map_right_iff, List.forall₂_same]
        intro r hrr
        rw [hg rows hr _ (List.mem_map.mpr ⟨r, hrr, rfl⟩)])
    rw [h] at h1
    simp only [Except.ok.injEq] at h1
    rw [h1]
    exact forall₂_map_fun _ _ _ h2

/-- Conversely the pass can be done if each tile can be assigned. -/
theorem pass_mk {w : World E} {covers : Tile → ℝ → ℝ → Prop} (hw : EngineOk w covers) {T : List Tile}
    {sched : List (List (PRow E)) → List (List (PRow E))} {sub : List (List (PRow E))} (hs : Csort PRow.tile sub (sched sub))
    (hS : SubOk covers T sub.flatten) (info : ℤ → List (ℤ × ℤ) × List (ℤ × ℤ))
    (hinfo : ∀ t ∈ T, t.id ∈ sub.flatten.map PRow.tile → ∀ rows', (onTile covers t rows').Perm (onTile covers t sub.flatten) →
      tileInfo w t rows' = .ok (info t.id)) :
    distribute PRow.index sched (onePass w T) sub = .ok (sub.map (List.map fun r => mtlRow (info r.tile) r)) := by
  obtain ⟨back, h1, h2⟩ := distribute_ok (R := fun r r' : PRow E => r' = mtlRow (info r.tile) r) hs hS.index
    (fun a b hab => by rw [hab]; simp) (work := onePass w T) (fun rows hr => by
      obtain ⟨hn, hm⟩ := rank_rows hs hS hr
      have := fold_mk hw (T := T.filter fun t => t.id ∈ rows.map PRow.tile) (rows := rows)
        (hS.tiles.sublist (List.filter_sublist.map _)) hn
        (fun t ht r hrr hc => hS.cover t (List.mem_filter.mp ht).1 r (hm r hrr) hc) info
        (by
          intro t ht rows' ho
          rw [List.mem_filter, decide_eq_true_eq] at ht
          refine hinfo t ht.1 ?_ rows' ?_
          · obtain ⟨r, hrr, hrt⟩ := List.mem_map.mp ht.2
            exact List.mem_map.mpr ⟨r, hm r hrr, hrt⟩
          · rw [ho]
            exact onTile_rank hs hS hr ht.1 ht.2)
      refine ⟨_, this, ?_⟩
      rw [after_filter hS hm, List.forall₂_map_right_iff, List.forall₂_same]
      intro r _
      rfl)
  rw [h1, forall₂_map_fun _ _ _ h2]

end Verif.Lemmas.Fiber
