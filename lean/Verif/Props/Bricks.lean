import Verif.Lemmas.BricksRank
import Mathlib.Tactic.FinCases

/-!
# Theorems on the reading of brick quantities

C55: `get_brick_pixel_quantities` returns, for each input object, the quantities of its own brick and pixel, in input order, whatever
the number of ranks and the order of bricks.
-/

namespace Verif.Props

open Verif Verif.Model Verif.Model.Bricks Verif.Spec.Bricks Verif.Lemmas.Bricks Verif.Lemmas.Fiber Verif.Model.Fiber

namespace Bricks

/-- The object of a row. -/
def fromRow (r : Row) : Object := ⟨r.ra, r.dec, r.index⟩

theorem makeRows_eq (s : Survey) (ranks : List (List (ℝ × ℝ))) : makeRows s ranks = (objectsFrom 0 ranks).map (List.map (toRow s)) := by
  unfold makeRows
  generalize 0 = k
  induction ranks generalizing k with
  | nil => rfl
  | cons l ls ih => simp [cindexFrom, objectsFrom, ih, toRow, Function.comp_def]

theorem objectsFrom_index (k : ℕ) (ranks : List (List (ℝ × ℝ))) :
    ((objectsFrom k ranks).flatten.map Object.index) = List.range' k ranks.flatten.length := by
  induction ranks generalizing k with
  | nil => rfl
  | cons l ls ih =>
    simp only [objectsFrom, List.flatten_cons, List.map_append, ih, List.length_append, List.map_map]
    rw [← List.range'_append_1]
    congr 1
    have : (Object.index ∘ fun x : (ℝ × ℝ) × ℕ => (⟨x.1.1, x.1.2, x.2⟩ : Object)) = Prod.snd := rfl
    rw [this, List.zipIdx_map_snd]

theorem fromRow_toRow (s : Survey) (o : Object) : fromRow (toRow s o) = o := rfl

/-- What a row holds at the end. -/
noncomputable def outRow (s : Survey) (ans : Callable → Answer) (columns : List Column) (H : List (String × Dtype)) (r : Row) : ℕ × List Val :=
  (r.index, H.map fun h => valQ (total s ans columns (fromRow r)) h.1)

theorem indexed_eq (s : Survey) (ans : Callable → Answer) (columns : List Column) (H : List (String × Dtype)) (objs : List Object) :
    indexed (objs.map (toRow s)) (tab H (fun n o => valQ (total s ans columns o) n) objs) =
      (objs.map (toRow s)).map (outRow s ans columns H) := by
  unfold indexed
  apply List.ext_getElem
  · simp
  · intro i h1 h2
    simp only [List.length_map, List.length_zipIdx] at h1
    simp [rowOf, tab, outRow, fromRow, toRow, Function.comp_def, List.getElem?_eq_getElem h1]

theorem good_of_gives {s : Survey} (hs : SurveyOk s) {ans : Callable → Answer} {columns : List Column}
    (hcall : ∀ f kw, .call f kw ∈ columns → Pointwise f (ans f)) {o : Object} {q : List (String × Dtype × Val)}
    (h : GivesAll s ans columns o q) : q = total s ans columns o ∧ Good s ans columns (headerOf q) o := by
  obtain ⟨qs, hq, rfl⟩ := h
  have h1 : qs.flatten = total s ans columns o ∧ (∀ c ∈ columns, (single s ans o c).isSome) ∧
      ∀ x ∈ qs.flatten, Typed x.2.1 x.2.2 := by
    induction hq with
    | nil => simp [total]
    | cons hc _ ih =>
      rename_i c q cs qs _
      have hsing := single_of_gives hc
      obtain ⟨h1, h2, h3⟩ := ih fun f kw hf => hcall f kw (by simp [hf])
      refine ⟨?_, ?_, ?_⟩
      · simp only [total] at h1
        simp [total, hsing, h1]
      · intro c' hc'
        rcases List.mem_cons.1 hc' with rfl | hc'
        · simp [hsing]
        · exact h2 c' hc'
      · intro x hx
        rw [List.flatten_cons, List.mem_append] at hx
        rcases hx with hx | hx
        · cases hc with
          | north name h hn => rw [List.mem_singleton.1 hx]; exact .str _ _ (by decide)
          | south name h hn => rw [List.mem_singleton.1 hx]; exact .str _ _ (by decide)
          | ra name h => rw [List.mem_singleton.1 hx]; exact .float _
          | dec name h => rw [List.mem_singleton.1 hx]; exact .float _
          | brickname name h => rw [List.mem_singleton.1 hx]; exact .str _ _ (hs.name _ _)
          | brickid name h => rw [List.mem_singleton.1 hx]; exact .int _
          | index name h =>
            rw [List.mem_singleton.1 hx]
            have := Typed.int (o.index : ℤ)
            simpa using this
          | image name fn path img x y default hp hf hx' => rw [List.mem_singleton.1 hx]; exact hs.image path img hf _ _
          | imageTyped name fn path img x y default d v hp hf hx' hv => rw [List.mem_singleton.1 hx]; exact typed_converted hv
          | absent name fn path default hp hf => rw [List.mem_singleton.1 hx, ← (default_given default).1, ← (default_given default).2]; exact typed_default _
          | absentTyped name fn path default d v hp hf hv => rw [List.mem_singleton.1 hx]; exact typed_converted hv
          | call f kwargs kw hk =>
            obtain ⟨h, hh, rfl⟩ := List.mem_map.1 hx
            exact (hcall f (some kwargs) (by simp)).typed _ _ h hh _ _
        · exact h3 x hx
  exact ⟨h1.1, h1.2.1, by rw [h1.1], by rw [← h1.1]; exact h1.2.2⟩

/-- The exact result. -/
theorem run_eq {s : Survey} (hs : SurveyOk s) {ans : Callable → Answer} {columns : List Column} (hc : columns ≠ [])
    (hcall : ∀ f kw, .call f kw ∈ columns → Pointwise f (ans f)) {sched : List (List Row) → List (List Row)}
    (hsched : ∀ sub, Csort Row.brickid sub (sched sub)) {H : List (String × Dtype)} (hn : (H.map Prod.fst).Nodup)
    {ranks : List (List (ℝ × ℝ))} (hr : ranks.flatten ≠ []) (hg : ∀ o ∈ (objectsFrom 0 ranks).flatten, Good s ans columns H o) :
    getBrickPixelQuantities s sched columns ranks =
      .ok ((objectsFrom 0 ranks).map (tab H fun n o => valQ (total s ans columns o) n)) := by
  unfold getBrickPixelQuantities
  rw [if_neg hc, if_neg hr]
  have hcs := hsched (makeRows s ranks)
  generalize hmv : sched (makeRows s ranks) = moved at hcs
  have hmem : ∀ rows ∈ moved, ∀ r ∈ rows, fromRow r ∈ (objectsFrom 0 ranks).flatten ∧ toRow s (fromRow r) = r := by
    intro rows hrows r hr
    have h1 : r ∈ (makeRows s ranks).flatten := hcs.rows.mem_iff.1 (List.mem_flatten.2 ⟨rows, hrows, hr⟩)
    rw [makeRows_eq, ← List.map_flatten] at h1
    obtain ⟨o, ho, rfl⟩ := List.mem_map.1 h1
    exact ⟨ho, rfl⟩
  have hback : ∀ rows ∈ moved, (rows.map fromRow).map (toRow s) = rows := by
    intro rows hrows
    rw [List.map_map]
    conv_rhs => rw [← List.map_id rows]
    exact List.map_congr_left fun r hr => (hmem rows hrows r hr).2
  -- data of each rank
  have hdata : moved.mapM (oneRank s columns) =
      .ok (moved.map fun rows => if rows = [] then [] else tab H (fun n o => valQ (total s ans columns o) n) (rows.map fromRow)) := by
    apply mapM_fun
    intro rows hrows
    split_ifs with he
    · subst he
      simp [oneRank, uniqueNames, pure, Except.pure]
    · rw [← oneRank_eq hs hcall hn (objs := rows.map fromRow)
        (fun o ho => by obtain ⟨r, hr, rfl⟩ := List.mem_map.1 ho; exact hg _ (hmem rows hrows r hr).1) (by simpa using he),
        hback rows hrows]
  simp only [hmv, hdata, Bind.bind, Except.bind]
  -- headers
  have hheader : ∀ h ∈ (moved.zip (moved.map fun rows => if rows = [] then [] else
      tab H (fun n o => valQ (total s ans columns o) n) (rows.map fromRow))).filterMap
        (fun x => if x.1 = [] then none else some (header x.2)), h = H := by
    intro h hh
    rw [List.mem_filterMap] at hh
    obtain ⟨x, hx, hx'⟩ := hh
    rw [List.zip_map_right, List.mem_map] at hx
    obtain ⟨y, hy, rfl⟩ := hx
    have : y.1 = y.2 := by
      have := List.of_mem_zip hy
      rw [List.zip_eq_zipWith, List.zipWith_self] at hy
      obtain ⟨z, _, rfl⟩ := List.mem_map.1 hy
      rfl
    simp only [Prod.map] at hx'
    by_cases h1 : y.1 = []
    · simp [h1] at hx'
    · have h2 : ¬ y.2 = [] := this ▸ h1
      simp only [id, if_neg h1, if_neg h2, Option.some.injEq] at hx'
      rw [← hx']
      simp [header, tab, Function.comp_def]
  generalize hhs : ((moved.zip (moved.map fun rows => if rows = [] then [] else
      tab H (fun n o => valQ (total s ans columns o) n) (rows.map fromRow))).filterMap
        (fun x => if x.1 = [] then none else some (header x.2))) = headers at hheader
  cases headers with
  | nil =>
    exfalso
    apply hr
    have : moved.flatten = [] := by
      rw [List.flatten_eq_nil_iff]
      intro rows hrows
      rw [List.filterMap_eq_nil_iff] at hhs
      by_contra hne
      have := hhs (rows, if rows = [] then [] else tab H (fun n o => valQ (total s ans columns o) n) (rows.map fromRow)) (by
        rw [List.zip_map_right, List.mem_map]
        refine ⟨(rows, rows), ?_, rfl⟩
        rw [List.zip_eq_zipWith, List.zipWith_self]
        exact List.mem_map.2 ⟨rows, hrows, rfl⟩)
      simp [hne] at this
    have h2 := hcs.rows
    rw [this] at h2
    have h3 := h2.symm.eq_nil
    rw [makeRows_eq, ← List.map_flatten, List.map_eq_nil_iff] at h3
    have h4 := objectsFrom_index 0 ranks
    rw [h3] at h4
    have h5 := congrArg List.length h4
    rw [List.length_range'] at h5
    exact List.length_eq_zero_iff.1 h5.symm
  | cons h hs' =>
    have hH : h = H := hheader h (by simp)
    subst hH
    have hany : (hs'.any fun h' => decide (h' ≠ h)) = false := by
      rw [List.any_eq_false]
      intro h' hh'
      simp [hheader h' (by simp [hh'])]
    simp only [hany, Bool.false_eq_true, if_false]
    -- rows sorted back
    have hall : (List.zipWith indexed moved (moved.map fun rows => if rows = [] then [] else
        tab h (fun n o => valQ (total s ans columns o) n) (rows.map fromRow))).flatten = moved.flatten.map (outRow s ans columns h) := by
      rw [List.zipWith_map_right, List.zipWith_self, List.map_flatten]
      congr 1
      apply List.map_congr_left
      intro rows hrows
      split_ifs with he
      · subst he
        rfl
      · have := indexed_eq s ans columns h (rows.map fromRow)
        rw [hback rows hrows] at this
        exact this
    rw [hall]
    have hidx : (((makeRows s ranks).flatten.map (outRow s ans columns h)).map Prod.fst).Pairwise (· < ·) := by
      rw [makeRows_eq, ← List.map_flatten, List.map_map, List.map_map]
      have : ((Prod.fst ∘ outRow s ans columns h) ∘ toRow s) = Object.index := rfl
      rw [this, objectsFrom_index]
      exact List.pairwise_lt_range'
    rw [sort_back (fun x : ℕ × List Val => x.1) (d := (makeRows s ranks).flatten.map (outRow s ans columns h)) hidx rfl
      (hcs.rows.symm.map _)]
    have hsplit : Blinding.splitSizes ((makeRows s ranks).map List.length) ((makeRows s ranks).flatten.map (outRow s ans columns h)) =
        (makeRows s ranks).map (List.map (outRow s ans columns h)) := by
      rw [List.map_flatten]
      have := splitSizes_flatten ((makeRows s ranks).map (List.map (outRow s ans columns h)))
      rw [List.map_map] at this
      have hl : (List.length ∘ List.map (outRow s ans columns h)) = (List.length : List Row → ℕ) := by
        funext l
        simp
      rw [hl] at this
      exact this
    rw [hsplit, if_pos]
    · congr 1
      rw [makeRows_eq, List.map_map, List.map_map]
      apply List.map_congr_left
      intro objs _
      simp only [Function.comp, toColumns, List.map_map, tab]
      apply List.ext_getElem
      · simp
      · intro i h1 h2
        simp only [List.length_map, List.length_zipIdx] at h1
        simp [outRow, fromRow, toRow, Function.comp_def, List.getElem?_eq_getElem h1]
    · rw [List.map_map]
      apply List.map_congr_left
      intro rows _
      simp [outRow, Function.comp_def]

end Bricks

open Bricks

/-- C55: if the quantities of all objects are defined, with the same distinct names and the same types, each rank gets columns with
these names and types where each of its objects finds, in the order of the input, its own quantities. `Csort` leaves open how bricks
are shared out between ranks. Missing: quantities whose type depends on the brick, see `C55_types_violated`. -/
theorem C55_partial {s : Survey} (hs : SurveyOk s) {ans : Callable → Answer} {columns : List Column} (hc : columns ≠ [])
    (hcall : ∀ f kw, .call f kw ∈ columns → Pointwise f (ans f)) {sched : List (List Row) → List (List Row)}
    (hsched : ∀ sub, Csort Row.brickid sub (sched sub)) {H : List (String × Dtype)} (hn : (H.map Prod.fst).Nodup)
    {ranks : List (List (ℝ × ℝ))} (hr : ranks.flatten ≠ [])
    (hg : ∀ o ∈ (objectsFrom 0 ranks).flatten, ∃ q, GivesAll s ans columns o q ∧ headerOf q = H) :
    ∃ out, getBrickPixelQuantities s sched columns ranks = .ok out ∧
      List.Forall₂ (fun objs cols => cols.map (fun c => (c.1, c.2.dtype)) = H ∧
        ∀ c ∈ cols, List.Forall₂ (fun o v => ∃ q, GivesAll s ans columns o q ∧ (c.1, c.2.dtype, v) ∈ q) objs c.2.vals)
        (objectsFrom 0 ranks) out := by
  have hgood : ∀ o ∈ (objectsFrom 0 ranks).flatten, Good s ans columns H o := by
    intro o ho
    obtain ⟨q, hq, hh⟩ := hg o ho
    exact hh ▸ (good_of_gives hs hcall hq).2
  refine ⟨_, run_eq hs hc hcall hsched hn hr hgood, ?_⟩
  rw [List.forall₂_map_right_iff, List.forall₂_same]
  intro objs hobjs
  constructor
  · simp [tab, Function.comp_def]
  · intro c hcm
    obtain ⟨h, hh, rfl⟩ := List.mem_map.1 hcm
    simp only [List.forall₂_map_right_iff, List.forall₂_same]
    intro o ho
    obtain ⟨q, hq, hhq⟩ := hg o (List.mem_flatten.2 ⟨objs, hobjs, ho⟩)
    refine ⟨q, hq, ?_⟩
    have hqt := (good_of_gives hs hcall hq).1
    rw [← hhq] at hh
    obtain ⟨x, hx, rfl⟩ := List.mem_map.1 hh
    simp only
    rw [← hqt, valQ_of_mem (by rw [hhq]; exact hn) hx]
    exact hx

/-- C55: an object has at most one value of its quantities, so that the result is determined by `C55_partial`. -/
theorem C55_unique {s : Survey} {ans : Callable → Answer} {columns : List Column} {o : Object} {q q' : List (String × Dtype × Val)}
    (h : GivesAll s ans columns o q) (h' : GivesAll s ans columns o q') : q = q' := by
  obtain ⟨qs, hq, rfl⟩ := h
  obtain ⟨qs', hq', rfl⟩ := h'
  congr 1
  induction hq generalizing qs' with
  | nil =>
    cases hq'
    rfl
  | cons h _ ih =>
    cases hq' with
    | cons h' hr' =>
      have := (single_of_gives h).symm.trans (single_of_gives h')
      rw [Option.some.inj this, ih _ hr']

/-- C55: columns do not depend on how objects are spread over ranks, nor on how bricks are shared out. -/
theorem C55_layout_partial {s : Survey} (hs : SurveyOk s) {ans : Callable → Answer} {columns : List Column} (hc : columns ≠ [])
    (hcall : ∀ f kw, .call f kw ∈ columns → Pointwise f (ans f)) {sched sched' : List (List Row) → List (List Row)}
    (hsched : ∀ sub, Csort Row.brickid sub (sched sub)) (hsched' : ∀ sub, Csort Row.brickid sub (sched' sub))
    {H : List (String × Dtype)} (hn : (H.map Prod.fst).Nodup)
    {ranks ranks' : List (List (ℝ × ℝ))} (hr : ranks.flatten ≠ []) (hsame : ranks.flatten = ranks'.flatten)
    (hg : ∀ o ∈ (objectsFrom 0 ranks).flatten, ∃ q, GivesAll s ans columns o q ∧ headerOf q = H) :
    ∃ out out', getBrickPixelQuantities s sched columns ranks = .ok out ∧ getBrickPixelQuantities s sched' columns ranks' = .ok out' ∧
      ∀ n d, (out.flatMap fun cols => cols.filter fun c => decide (c.1 = n ∧ c.2.dtype = d)).flatMap (fun c => c.2.vals) =
        (out'.flatMap fun cols => cols.filter fun c => decide (c.1 = n ∧ c.2.dtype = d)).flatMap fun c => c.2.vals := by
  have hgood : ∀ o ∈ (objectsFrom 0 ranks).flatten, Good s ans columns H o := by
    intro o ho
    obtain ⟨q, hq, hh⟩ := hg o ho
    exact hh ▸ (good_of_gives hs hcall hq).2
  have hflat : ∀ (k : ℕ) (r : List (List (ℝ × ℝ))), (objectsFrom k r).flatten = (r.flatten.zipIdx k).map fun x => ⟨x.1.1, x.1.2, x.2⟩ := by
    intro k r
    induction r generalizing k with
    | nil => rfl
    | cons l ls ih => simp [objectsFrom, ih, List.zipIdx_append]
  have hobj : (objectsFrom 0 ranks).flatten = (objectsFrom 0 ranks').flatten := by rw [hflat, hflat, hsame]
  have key : ∀ (objs : List (List Object)) (n : String) (d : Dtype),
      ((objs.map (tab H fun n o => valQ (total s ans columns o) n)).flatMap
        fun cols => cols.filter fun c => decide (c.1 = n ∧ c.2.dtype = d)).flatMap (fun c => c.2.vals) =
      if (n, d) ∈ H then objs.flatten.map (fun o => valQ (total s ans columns o) n) else [] := by
    intro objs n d
    have h1 : ∀ l : List Object, (((tab H (fun n o => valQ (total s ans columns o) n) l).filter
        fun c => decide (c.1 = n ∧ c.2.dtype = d)).flatMap fun c => c.2.vals) =
        if (n, d) ∈ H then l.map (fun o => valQ (total s ans columns o) n) else [] := by
      intro l
      clear hg hgood
      induction H with
      | nil => rfl
      | cons h H ih =>
        have hn' := hn
        rw [List.map_cons, List.nodup_cons] at hn'
        have ih := ih hn'.2
        simp only [tab, List.map_cons] at ih ⊢
        by_cases hh : h = (n, d)
        · subst hh
          have : (n, d) ∉ H := fun hm => hn'.1 (List.mem_map.2 ⟨_, hm, rfl⟩)
          rw [if_neg this] at ih
          rw [List.filter_cons_of_pos (by simp), List.flatMap_cons, ih]
          simp
        · have h2 : ¬ (h.1 = n ∧ h.2 = d) := fun h' => hh (Prod.ext h'.1 h'.2)
          rw [List.filter_cons_of_neg (by simpa using h2), ih]
          simp [List.mem_cons, Ne.symm hh]
    induction objs with
    | nil => simp
    | cons l ls ih =>
      rw [List.map_cons, List.flatMap_cons, List.flatMap_append, ih, h1]
      split_ifs <;> simp
  refine ⟨_, _, run_eq hs hc hcall hsched hn hr hgood, run_eq hs hc hcall hsched' hn (hsame ▸ hr) (hobj ▸ hgood), ?_⟩
  intro n d
  rw [key, key, hobj]

/-- C55: without objects, or without columns, no column is returned. -/
theorem C55_empty (s : Survey) (sched : List (List Row) → List (List Row)) (columns : List Column) (ranks : List (List (ℝ × ℝ)))
    (h : columns = [] ∨ ranks.flatten = []) : getBrickPixelQuantities s sched columns ranks = .ok (ranks.map fun _ => []) := by
  unfold getBrickPixelQuantities
  split_ifs with h1 h2
  · rfl
  · rfl
  · tauto

theorem Bricks.oneRank_rejects {s : Survey} {columns : List Column} {col : Column} (hm : col ∈ columns)
    (hu : ∀ b g sub tmp res, column s b g sub tmp col ≠ .ok res) {rows : List Row} (hr : rows ≠ []) (res : List (String × Arr)) :
    oneRank s columns rows ≠ .ok res := by
  intro hres
  obtain ⟨r, hrr⟩ := List.exists_mem_of_ne_nil _ hr
  unfold oneRank at hres
  have hcols : ∀ (cols : List Column) (b g : String) (sub : List Row) (tmp res : List (String × Arr)), col ∈ cols →
      cols.foldlM (column s b g sub) tmp ≠ .ok res := by
    intro cols b g sub
    induction cols with
    | nil => intro _ _ h; simp at h
    | cons c cs ih =>
      intro tmp res h hres
      rw [List.foldlM_cons] at hres
      obtain ⟨t, ht, hrest⟩ := bind_ok hres
      rcases List.mem_cons.1 h with rfl | h
      · exact hu _ _ _ _ _ ht
      · exact ih _ _ h hrest
  have hun : uniqueNames (rows.map Row.brickname) ≠ [] := by
    apply List.ne_nil_of_mem (a := r.brickname)
    rw [mem_uniqueNames]
    exact List.mem_map.2 ⟨r, hrr, rfl⟩
  cases hl : uniqueNames (rows.map Row.brickname) with
  | nil => exact hun hl
  | cons b bs =>
    rw [hl, List.foldlM_cons] at hres
    obtain ⟨t, ht, -⟩ := bind_ok hres
    unfold oneBrick at ht
    simp only at ht
    obtain ⟨tmp, htmp, -⟩ := bind_ok ht
    exact hcols _ _ _ _ _ _ hm htmp

/-- An item of `columns` that always raises. -/
theorem Bricks.rejects {s : Survey} {sched : List (List Row) → List (List Row)} (hsched : ∀ sub, Csort Row.brickid sub (sched sub))
    {columns : List Column} {col : Column} (hm : col ∈ columns) (hu : ∀ b g sub tmp res, column s b g sub tmp col ≠ .ok res)
    {ranks : List (List (ℝ × ℝ))} (hr : ranks.flatten ≠ []) :
    ¬ ∃ out, getBrickPixelQuantities s sched columns ranks = .ok out := by
  rintro ⟨out, hout⟩
  unfold getBrickPixelQuantities at hout
  rw [if_neg (List.ne_nil_of_mem hm), if_neg hr] at hout
  simp only at hout
  obtain ⟨data, hdata, -⟩ := bind_ok hout
  have hcs := hsched (makeRows s ranks)
  have hne : (sched (makeRows s ranks)).flatten ≠ [] := by
    intro he
    have h2 := hcs.rows
    rw [he] at h2
    have h3 := h2.symm.eq_nil
    rw [makeRows_eq, ← List.map_flatten, List.map_eq_nil_iff] at h3
    have h4 := objectsFrom_index 0 ranks
    rw [h3] at h4
    have h5 := congrArg List.length h4
    rw [List.length_range'] at h5
    exact hr (List.length_eq_zero_iff.1 h5.symm)
  obtain ⟨r, hr'⟩ := List.exists_mem_of_ne_nil _ hne
  obtain ⟨rows, hrows, hrr⟩ := List.mem_flatten.1 hr'
  obtain ⟨res, hres⟩ : ∃ res, oneRank s columns rows = .ok res := by
    have := mapM_forall₂ hdata
    obtain ⟨i, hi, rfl⟩ := List.getElem_of_mem hrows
    have hl := this.length_eq
    exact ⟨data[i]'(hl ▸ hi), (List.forall₂_iff_get.1 this).2 i hi (hl ▸ hi)⟩
  exact oneRank_rejects hm hu (List.ne_nil_of_mem hrr) res hres

/-- C55: a name that is not known is rejected. -/
theorem C55_unknown {s : Survey} {sched : List (List Row) → List (List Row)} (hsched : ∀ sub, Csort Row.brickid sub (sched sub))
    {columns : List Column} {name : String} (hm : .plain name ∈ columns)
    (hu : name.toLower ∉ ["photsys", "ra", "dec", "brickname", "brickid", "index"]) {ranks : List (List (ℝ × ℝ))} (hr : ranks.flatten ≠ []) :
    ¬ ∃ out, getBrickPixelQuantities s sched columns ranks = .ok out := by
  refine rejects hsched hm ?_ hr
  intro b g sub tmp res h
  simp only [List.mem_cons, List.not_mem_nil, or_false, not_or] at hu
  simp [column, known, hu] at h

/-- C55 fails: a callable with the documented arguments (positions, brick name, region) is never called with its region, and any call
with such a callable raises. -/
theorem C55_callable_violated {s : Survey} {sched : List (List Row) → List (List Row)} (hsched : ∀ sub, Csort Row.brickid sub (sched sub))
    {columns : List Column} {f : Callable} {kwargs : Option (List (String × Kwarg))} (hm : .call f kwargs ∈ columns)
    (hf : f.wantsRegion = true) {ranks : List (List (ℝ × ℝ))} (hr : ranks.flatten ≠ []) :
    ¬ ∃ out, getBrickPixelQuantities s sched columns ranks = .ok out := by
  refine rejects hsched hm ?_ hr
  intro b g sub tmp res h
  cases kwargs with
  | none => simp [column] at h
  | some kwargs =>
    simp only [column] at h
    obtain ⟨kw, -, h⟩ := bind_ok h
    simp [hf] at h

end Verif.Props
