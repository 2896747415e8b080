import Verif.Lemmas.Bricks

/-! # Lemmas on the bricks of one rank -/

namespace Verif.Lemmas.Bricks

open Verif Verif.Model Verif.Model.Bricks Verif.Spec.Bricks Verif.Lemmas.Fiber Verif.Model.Fiber

theorem putMask_const {α β : Type*} (p : α → Bool) (f g : α → β) (l : List α) :
    putMask (fun _ v => v) (l.map p) (l.map f) ((l.filter p).map g) = l.map fun a => if p a then g a else f a := by
  induction l with
  | nil => rfl
  | cons a l ih =>
    simp only [List.map_cons]
    cases h : p a <;> simp [putMask, h, ih]

theorem count_mask {α : Type*} (p : α → Bool) (l : List α) : (l.map p).count true = (l.filter p).length := by
  rw [List.count_eq_countP, List.countP_map, List.countP_eq_length_filter]
  congr 1
  apply List.filter_congr
  intro a _
  simp

theorem writeMask_eq {α : Type} {s : Survey} (p : α → Bool) (f g : α → Val) (l : List α) (d d' : Dtype)
    (h : ∀ a ∈ l.filter p, Typed d (g a)) :
    writeMask s (l.map p) ⟨d, l.map f⟩ ⟨d', (l.filter p).map g⟩ = .ok ⟨d, l.map fun a => if p a then g a else f a⟩ := by
  unfold writeMask
  have : ((l.filter p).map g).mapM (convert s d) = .ok ((l.filter p).map g) := by
    rw [List.mapM_map]
    exact mapM_fun (f := convert s d ∘ g) fun a ha => convert_typed (h a ha)
  simp only [this, Bind.bind, Except.bind, pure, Except.pure]
  rw [if_pos (by rw [count_mask, List.length_map]), putMask_const]

theorem dictSet_replace {α : Type*} {n : String} {v w : α} {d₁ d₂ : List (String × α)} (h : n ∉ d₁.map Prod.fst) :
    dictSet n v (d₁ ++ (n, w) :: d₂) = d₁ ++ (n, v) :: d₂ := by
  induction d₁ with
  | nil => simp [dictSet]
  | cons x d ih =>
    simp only [List.map_cons, List.mem_cons, not_or] at h
    simp [dictSet, Ne.symm h.1, ih h.2]

theorem lookup_new {α : Type*} {n : String} {d : List (String × α)} (h : n ∉ d.map Prod.fst) : d.lookup n = none := by
  induction d with
  | nil => rfl
  | cons x d ih =>
    simp only [List.map_cons, List.mem_cons, not_or] at h
    have : (n == x.1) = false := by simpa using h.1
    rw [List.lookup_cons, this, ih h.2]

theorem lookup_replace {α : Type*} {n : String} {w : α} {d₁ d₂ : List (String × α)} (h : n ∉ d₁.map Prod.fst) :
    (d₁ ++ (n, w) :: d₂).lookup n = some w := by
  induction d₁ with
  | nil => simp
  | cons x d ih =>
    simp only [List.map_cons, List.mem_cons, not_or] at h
    have : (n == x.1) = false := by simpa using h.1
    rw [List.cons_append, List.lookup_cons, this, ih h.2]

/-- The first brick written on a rank. -/
theorem write_first {α : Type} {s : Survey} (p : α → Bool) (val : String → α → Val) (l : List α) (H₁ H₂ : List (String × Dtype))
    (hn : ((H₁ ++ H₂).map Prod.fst).Nodup) (ht : ∀ h ∈ H₂, ∀ a ∈ l.filter p, Typed h.2 (val h.1 a)) :
    (tab H₂ val (l.filter p)).foldlM (writeColumn s (l.map p)) (tab H₁ (fun n a => if p a then val n a else .uninit) l) =
      .ok (tab (H₁ ++ H₂) (fun n a => if p a then val n a else .uninit) l) := by
  induction H₂ generalizing H₁ with
  | nil => simp [tab, pure, Except.pure]
  | cons h H₂ ih =>
    have hnew : h.1 ∉ (tab H₁ (fun n a => if p a then val n a else Val.uninit) l).map Prod.fst := by
      rw [tab_names]
      rw [List.map_append, List.nodup_append] at hn
      intro hm
      exact hn.2.2 _ hm _ (by simp) rfl
    have hstep : writeColumn s (l.map p) (tab H₁ (fun n a => if p a then val n a else .uninit) l) (h.1, ⟨h.2, (l.filter p).map (val h.1)⟩) =
        .ok (tab (H₁ ++ [h]) (fun n a => if p a then val n a else .uninit) l) := by
      unfold writeColumn
      simp only [lookup_new hnew, Option.getD_none]
      have : List.replicate (l.map p).length Val.uninit = l.map fun _ => Val.uninit := by rw [List.length_map, List.map_const']
      rw [this, writeMask_eq p _ (val h.1) l h.2 h.2 (ht h (by simp))]
      simp only [Bind.bind, Except.bind, pure, Except.pure]
      rw [dictSet_new hnew]
      simp [tab]
    rw [show tab (h :: H₂) val (l.filter p) = (h.1, ⟨h.2, (l.filter p).map (val h.1)⟩) :: tab H₂ val (l.filter p) from rfl,
      List.foldlM_cons, hstep]
    simp only [Bind.bind, Except.bind]
    rw [ih _ (by simpa using hn) fun h' hh' => ht h' (by simp [hh'])]
    simp

/-- The next bricks written on a rank. -/
theorem write_next {α : Type} {s : Survey} (p : α → Bool) (val cur : String → α → Val) (l : List α) (H₁ H₂ : List (String × Dtype))
    (hn : ((H₁ ++ H₂).map Prod.fst).Nodup) (ht : ∀ h ∈ H₂, ∀ a ∈ l.filter p, Typed h.2 (val h.1 a)) :
    (tab H₂ val (l.filter p)).foldlM (writeColumn s (l.map p))
        (tab H₁ (fun n a => if p a then val n a else cur n a) l ++ tab H₂ cur l) =
      .ok (tab (H₁ ++ H₂) (fun n a => if p a then val n a else cur n a) l) := by
  induction H₂ generalizing H₁ with
  | nil => simp [tab, pure, Except.pure]
  | cons h H₂ ih =>
    have hnew : h.1 ∉ (tab H₁ (fun n a => if p a then val n a else cur n a) l).map Prod.fst := by
      rw [tab_names]
      rw [List.map_append, List.nodup_append] at hn
      intro hm
      exact hn.2.2 _ hm _ (by simp) rfl
    have hstep : writeColumn s (l.map p) (tab H₁ (fun n a => if p a then val n a else cur n a) l ++ tab (h :: H₂) cur l)
        (h.1, ⟨h.2, (l.filter p).map (val h.1)⟩) =
        .ok (tab (H₁ ++ [h]) (fun n a => if p a then val n a else cur n a) l ++ tab H₂ cur l) := by
      unfold writeColumn
      rw [show tab (h :: H₂) cur l = (h.1, ⟨h.2, l.map (cur h.1)⟩) :: tab H₂ cur l from rfl]
      simp only [lookup_replace hnew, Option.getD_some]
      rw [writeMask_eq p _ (val h.1) l h.2 h.2 (ht h (by simp))]
      simp only [Bind.bind, Except.bind, pure, Except.pure]
      rw [dictSet_replace hnew]
      simp [tab]
    rw [show tab (h :: H₂) val (l.filter p) = (h.1, ⟨h.2, (l.filter p).map (val h.1)⟩) :: tab H₂ val (l.filter p) from rfl,
      List.foldlM_cons, hstep]
    simp only [Bind.bind, Except.bind]
    rw [ih _ (by simpa using hn) fun h' hh' => ht h' (by simp [hh'])]
    simp

/-- The quantities of an object are defined, with given names and types. -/
structure Good (s : Survey) (ans : Callable → Answer) (columns : List Column) (H : List (String × Dtype)) (o : Object) : Prop where
  defined : ∀ c ∈ columns, (single s ans o c).isSome
  header : headerOf (total s ans columns o) = H
  typed : ∀ x ∈ total s ans columns o, Typed x.2.1 x.2.2

theorem Good.val_typed {s : Survey} {ans : Callable → Answer} {columns : List Column} {H : List (String × Dtype)} {o : Object}
    (h : Good s ans columns H o) (hn : (H.map Prod.fst).Nodup) {x : String × Dtype} (hx : x ∈ H) :
    Typed x.2 (valQ (total s ans columns o) x.1) := by
  rw [← h.header] at hx
  obtain ⟨y, hy, rfl⟩ := List.mem_map.1 hx
  have := valQ_of_mem (by rw [h.header]; exact hn) hy
  simp only at this ⊢
  rw [this]
  exact h.typed y hy

theorem toRow_brick (s : Survey) (o : Object) : (toRow s o).brickname = brick s o := rfl

theorem region_of_brick {s : Survey} (hs : SurveyOk s) {o o' : Object} (h : brick s o = brick s o') : region s o = region s o' := by
  have := hs.centre _ _ _ _ h
  unfold region North
  rw [this]

/-- One brick: the quantities of its objects. -/
theorem brick_tmp {s : Survey} (hs : SurveyOk s) {ans : Callable → Answer} {columns : List Column}
    (hcall : ∀ f kw, .call f kw ∈ columns → Pointwise f (ans f)) {H : List (String × Dtype)} (hn : (H.map Prod.fst).Nodup)
    {objs : List Object} (hg : ∀ o ∈ objs, Good s ans columns H o) {b : String} (hb : ∃ o ∈ objs, brick s o = b)
    (data : List (String × Arr)) :
    oneBrick s columns (objs.map (toRow s)) data b =
      (tab H (fun n o => valQ (total s ans columns o) n) (objs.filter fun o => decide (brick s o = b))).foldlM
        (writeColumn s (objs.map fun o => decide (brick s o = b))) data := by
  unfold oneBrick
  have hmask : (objs.map (toRow s)).map (fun r => decide (r.brickname = b)) = objs.map fun o => decide (brick s o = b) := by
    rw [List.map_map]
    rfl
  have hsub : takeMask (objs.map fun o => decide (brick s o = b)) (objs.map (toRow s)) =
      (objs.filter fun o => decide (brick s o = b)).map (toRow s) := by
    have := takeMask_eq (fun r : Row => decide (r.brickname = b)) (objs.map (toRow s))
    rw [hmask] at this
    rw [this, List.filter_map]
    rfl
  simp only [hmask, hsub]
  obtain ⟨o₁, ho₁, hbo₁⟩ := hb
  have hmem : ∀ o ∈ objs.filter (fun o => decide (brick s o = b)), o ∈ objs ∧ brick s o = b := by
    intro o ho
    simpa using ho
  generalize hl : (objs.filter fun o => decide (brick s o = b)) = l at hmem
  cases l with
  | nil =>
    have : o₁ ∈ objs.filter (fun o => decide (brick s o = b)) := by simp [ho₁, hbo₁]
    rw [hl] at this
    simp at this
  | cons o₀ l =>
    simp only [List.map_cons]
    have ho₀ := hmem o₀ (by simp)
    have := columns_eq (s := s) (ans := ans) (b := b) (g := region s o₀) (sub := o₀ :: l) (o₀ := o₀) (by simp)
      (fun o ho => (hmem o ho).2) (fun o ho => region_of_brick hs ((hmem o ho).2.trans ho₀.2.symm)) columns hcall
      (fun o ho c hc => (hg o (hmem o ho).1).defined c hc) []
      (by rw [(hg o₀ ho₀.1).header]; simpa using hn)
    rw [(hg o₀ ho₀.1).header, List.map_cons] at this
    rw [region_eq, this]
    simp only [Bind.bind, Except.bind, List.nil_append]

theorem mem_uniqueNames (l : List String) (b : String) : b ∈ uniqueNames l ↔ b ∈ l := by
  unfold uniqueNames
  rw [List.mem_mergeSort, List.mem_dedup]

/-- All bricks of a rank. -/
theorem oneRank_eq {s : Survey} (hs : SurveyOk s) {ans : Callable → Answer} {columns : List Column}
    (hcall : ∀ f kw, .call f kw ∈ columns → Pointwise f (ans f)) {H : List (String × Dtype)} (hn : (H.map Prod.fst).Nodup)
    {objs : List Object} (hg : ∀ o ∈ objs, Good s ans columns H o) (hne : objs ≠ []) :
    oneRank s columns (objs.map (toRow s)) = .ok (tab H (fun n o => valQ (total s ans columns o) n) objs) := by
  have key : ∀ (bs done : List String), (∀ b ∈ bs, ∃ o ∈ objs, brick s o = b) →
      bs.foldlM (oneBrick s columns (objs.map (toRow s)))
        (if done = [] then [] else tab H (fun n o => if brick s o ∈ done then valQ (total s ans columns o) n else .uninit) objs) =
      .ok (if done ++ bs = [] then [] else
        tab H (fun n o => if brick s o ∈ done ++ bs then valQ (total s ans columns o) n else .uninit) objs) := by
    intro bs
    induction bs with
    | nil => intro done _; simp [pure, Except.pure]
    | cons b bs ih =>
      intro done hbs
      have hty : ∀ h ∈ H, ∀ o ∈ objs.filter (fun o => decide (brick s o = b)), Typed h.2 (valQ (total s ans columns o) h.1) := by
        intro h hh o ho
        exact (hg o (List.mem_filter.1 ho).1).val_typed hn hh
      have hstep : oneBrick s columns (objs.map (toRow s))
          (if done = [] then [] else tab H (fun n o => if brick s o ∈ done then valQ (total s ans columns o) n else .uninit) objs) b =
          .ok (if done ++ [b] = [] then [] else
            tab H (fun n o => if brick s o ∈ done ++ [b] then valQ (total s ans columns o) n else .uninit) objs) := by
        rw [brick_tmp hs hcall hn hg (hbs b (by simp))]
        rw [if_neg (show ¬ (done ++ [b] = []) by simp)]
        by_cases hd : done = []
        · subst hd
          have := write_first (s := s) (fun o => decide (brick s o = b)) (fun n o => valQ (total s ans columns o) n) objs [] H
            (by simpa using hn) hty
          simp only [tab, List.map_nil, List.nil_append, decide_eq_true_eq] at this
          simp only [if_pos, tab, this, List.nil_append, List.mem_singleton]
        · rw [if_neg hd]
          have := write_next (s := s) (fun o => decide (brick s o = b)) (fun n o => valQ (total s ans columns o) n)
            (fun n o => if brick s o ∈ done then valQ (total s ans columns o) n else .uninit) objs [] H (by simpa using hn) hty
          simp only [tab, List.map_nil, List.nil_append, decide_eq_true_eq] at this
          simp only [tab, this]
          congr 1
          apply List.map_congr_left
          intro h _
          congr 2
          apply List.map_congr_left
          intro o _
          by_cases h1 : brick s o = b <;> by_cases h2 : brick s o ∈ done <;> simp [h1, h2]
      rw [List.foldlM_cons, hstep]
      simp only [Bind.bind, Except.bind]
      rw [ih (done ++ [b]) fun b' hb' => hbs b' (by simp [hb'])]
      simp only [List.append_assoc, List.singleton_append]
  have hmemb : ∀ o ∈ objs, brick s o ∈ uniqueNames ((objs.map (toRow s)).map Row.brickname) := by
    intro o ho
    rw [mem_uniqueNames, List.map_map]
    exact List.mem_map.2 ⟨o, ho, rfl⟩
  have := key (uniqueNames ((objs.map (toRow s)).map Row.brickname)) [] (by
    intro b hb
    rw [mem_uniqueNames, List.map_map] at hb
    obtain ⟨o, ho, rfl⟩ := List.mem_map.1 hb
    exact ⟨o, ho, rfl⟩)
  unfold oneRank
  rw [if_pos rfl] at this
  rw [this]
  obtain ⟨o, ho⟩ := List.exists_mem_of_ne_nil _ hne
  rw [List.nil_append, if_neg (List.ne_nil_of_mem (hmemb o ho))]
  congr 1
  apply List.map_congr_left
  intro h _
  congr 2
  apply List.map_congr_left
  intro o ho
  simp only [if_pos (hmemb o ho)]

end Verif.Lemmas.Bricks
