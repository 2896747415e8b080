import Verif.Props.Bricks

/-!
# C55: one value for all objects of a brick
-/

namespace Verif.Props.Bricks

open Verif Verif.Model Verif.Model.Bricks Verif.Model.Fiber

/-- An array of one element repeated `n` times, other arrays as they are. -/
def spread (n : ℕ) (a : Arr) : Arr :=
  match a.vals with
  | [v] => ⟨a.dtype, List.replicate n v⟩
  | _ => a

/-- The callable that repeats the answers of `f` having one element for each position. -/
def spreadCallable (f : Callable) : Callable where
  wantsRegion := f.wantsRegion
  run pts brick kw := match f.run pts brick kw with
    | .ok res => .ok (res.map fun x => (x.1, spread pts.length x.2))
    | .error e => .error e

/-- The same for items of `columns`. -/
def spreadColumn : Column → Column
  | .call f kwargs => .call (spreadCallable f) kwargs
  | c => c

theorem spread_eq {n : ℕ} {a : Arr} (h : a.vals.length = n) : spread n a = a := by
  unfold spread
  split
  · rename_i v hv
    rw [hv] at h
    subst h
    cases a
    simp_all
  · rfl

theorem spread_dtype (n : ℕ) (a : Arr) : (spread n a).dtype = a.dtype := by
  unfold spread
  split <;> rfl

theorem dictSet_map {α β : Type} (f : α → β) (name : String) (v : α) (d : List (String × α)) :
    dictSet name (f v) (d.map fun x => (x.1, f x.2)) = (dictSet name v d).map fun x => (x.1, f x.2) := by
  induction d with
  | nil => rfl
  | cons x d ih =>
    simp only [List.map_cons, dictSet]
    split_ifs
    · rfl
    · rw [List.map_cons, ih]

theorem mapM_length {α β ε : Type} {f : α → Except ε β} {l : List α} {r : List β} (h : l.mapM f = .ok r) : r.length = l.length := by
  induction l generalizing r with
  | nil => rw [List.mapM_nil] at h; cases h; rfl
  | cons a l ih =>
    rw [List.mapM_cons] at h
    cases ha : f a with
    | error e => rw [ha] at h; cases h
    | ok b =>
      cases hl : l.mapM f with
      | error e => rw [ha, hl] at h; cases h
      | ok r' =>
        rw [ha, hl] at h
        cases h
        simp [ih hl]

theorem oneFile_length {s : Survey} {path : String} {rows : List Row} {dtype : Option Dtype} {default : Default} {a : Arr}
    (h : oneFile s path rows dtype default = .ok a) : a.vals.length = rows.length := by
  unfold oneFile at h
  cases hf : s.file path with
  | none =>
    rw [hf] at h
    simp only [Bind.bind, Except.bind] at h
    cases hc : convert s (dtype.getD default.dtype) default.val with
    | error e => rw [hc] at h; cases h
    | ok v => rw [hc] at h; cases h; simp
  | some img =>
    rw [hf] at h
    simp only [Bind.bind, Except.bind] at h
    cases hm : rows.mapM (pixelAt img) with
    | error e => rw [hm] at h; cases h
    | ok vals =>
      rw [hm] at h
      cases dtype with
      | none => cases h; exact mapM_length hm
      | some d =>
        simp only at h
        cases hv : vals.mapM (convert s d) with
        | error e => rw [hv] at h; cases h
        | ok w => rw [hv] at h; cases h; exact (mapM_length hv).trans (mapM_length hm)

/-- Repeating values of a dictionary. -/
def spreadAll (n : ℕ) (d : List (String × Arr)) : List (String × Arr) := d.map fun x => (x.1, spread n x.2)

theorem dictSet_spread {n : ℕ} {a : Arr} (h : a.vals.length = n) (name : String) (d : List (String × Arr)) :
    dictSet name a (spreadAll n d) = spreadAll n (dictSet name a d) := by
  unfold spreadAll
  rw [← dictSet_map (spread n), spread_eq h]

theorem known_length {rows : List Row} {name : String} {a : Arr} (h : known rows name = some a) : a.vals.length = rows.length := by
  unfold known at h
  split_ifs at h <;> cases h <;> simp

theorem column_spread (s : Survey) (brickname region : String) (rows : List Row) (tmp : List (String × Arr)) (c : Column) :
    column s brickname region rows (spreadAll rows.length tmp) (spreadColumn c) =
      (column s brickname region rows tmp c).map (spreadAll rows.length) := by
  cases c with
  | plain name =>
    simp only [spreadColumn, column]
    by_cases hp : name.toLower = "photsys"
    · rw [if_pos hp, if_pos hp]
      simp only [Except.map]
      rw [dictSet_spread (by simp)]
    · rw [if_neg hp, if_neg hp]
      cases hk : known rows name.toLower with
      | none => rfl
      | some a => simp only [Except.map]; rw [dictSet_spread (known_length hk)]
  | file name fn dtype default unknown =>
    simp only [spreadColumn, column]
    cases fn with
    | none => rfl
    | some fn =>
      simp only [Bind.bind, Except.bind]
      cases fn region brickname with
      | error e => rfl
      | ok path =>
        dsimp only
        split_ifs
        · rfl
        · cases ho : oneFile s path rows dtype default with
          | error e => rfl
          | ok a => simp only [pure, Except.pure, Except.map]; rw [dictSet_spread (oneFile_length ho)]
  | call f kwargs =>
    simp only [spreadColumn, column]
    cases kwargs with
    | none => rfl
    | some kwargs =>
      simp only [Bind.bind, Except.bind]
      cases kwargs.mapM (formatKwarg region) with
      | error e => rfl
      | ok kw =>
        dsimp only
        by_cases hw : f.wantsRegion = true
        · rw [if_pos hw, if_pos (show (spreadCallable f).wantsRegion = true from hw)]
          rfl
        · rw [if_neg hw, if_neg (show ¬ (spreadCallable f).wantsRegion = true from hw)]
          dsimp only [spreadCallable]
          cases f.run (rows.map fun r => (r.ra, r.dec)) brickname kw with
          | error e => rfl
          | ok res =>
            simp only [pure, Except.pure, Except.map, List.length_map]
            congr 1
            induction res generalizing tmp with
            | nil => rfl
            | cons x res ih =>
              simp only [List.map_cons, List.foldl_cons]
              rw [← ih]
              congr 1
              exact dictSet_map (spread rows.length) x.1 x.2 tmp

theorem columns_spread (s : Survey) (brickname region : String) (rows : List Row) (columns : List Column) (tmp : List (String × Arr)) :
    (columns.map spreadColumn).foldlM (column s brickname region rows) (spreadAll rows.length tmp) =
      (columns.foldlM (column s brickname region rows) tmp).map (spreadAll rows.length) := by
  induction columns generalizing tmp with
  | nil => rfl
  | cons c columns ih =>
    rw [List.map_cons, List.foldlM_cons, List.foldlM_cons, column_spread]
    cases column s brickname region rows tmp c with
    | error e => rfl
    | ok t => exact ih t

theorem writeMask_spread (s : Survey) {mask : List Bool} (a value : Arr) (h : mask.count true ≠ 0) :
    writeMask s mask a (spread (mask.count true) value) = writeMask s mask a value := by
  unfold spread
  split
  · rename_i v hv
    unfold writeMask
    rw [hv]
    cases hc : convert s a.dtype v with
    | error e =>
      have e1 : [v].mapM (convert s a.dtype) = .error e := by simp [List.mapM_cons, hc, Bind.bind, Except.bind]
      have e2 : (List.replicate (mask.count true) v).mapM (convert s a.dtype) = .error e := by
        obtain ⟨n, hn⟩ := Nat.exists_eq_succ_of_ne_zero h
        rw [hn, List.replicate_succ, List.mapM_cons, hc]
        rfl
      rw [e1, e2]
    | ok w =>
      have e1 : [v].mapM (convert s a.dtype) = .ok [w] := by simp [List.mapM_cons, hc, Bind.bind, Except.bind, pure, Except.pure]
      have e2 : ∀ n, (List.replicate n v).mapM (convert s a.dtype) = .ok (List.replicate n w) := by
        intro n
        induction n with
        | zero => rfl
        | succ n ih => rw [List.replicate_succ, List.mapM_cons, hc, ih]; rfl
      rw [e1, e2]
      simp only [Bind.bind, Except.bind, List.length_replicate, if_true, List.length_singleton]
      by_cases h1 : 1 = mask.count true
      · rw [if_pos h1, ← h1]
        rfl
      · rw [if_neg h1]
  · rfl

theorem takeMask_length {α : Type} (mask : List Bool) (l : List α) (h : mask.length = l.length) :
    (takeMask mask l).length = mask.count true := by
  induction mask generalizing l with
  | nil => cases l <;> rfl
  | cons m mask ih =>
    cases l with
    | nil => simp at h
    | cons a l =>
      have := ih l (by simpa using h)
      cases m <;> simp [takeMask, this]

theorem oneBrick_spread (s : Survey) (columns : List Column) (rows : List Row) (data : List (String × Arr)) {brickname : String}
    (hb : ∃ r ∈ rows, r.brickname = brickname) :
    oneBrick s (columns.map spreadColumn) rows data brickname = oneBrick s columns rows data brickname := by
  have hcount : (rows.map fun r => decide (r.brickname = brickname)).count true ≠ 0 := by
    obtain ⟨r, hr, h⟩ := hb
    rw [Nat.ne_zero_iff_zero_lt, List.count_pos_iff]
    exact List.mem_map.mpr ⟨r, hr, by simpa using h⟩
  have hlen := takeMask_length (rows.map fun r => decide (r.brickname = brickname)) rows (by simp)
  unfold oneBrick
  dsimp only
  generalize (rows.map fun r => decide (r.brickname = brickname)) = mask at *
  generalize takeMask mask rows = sub at *
  have hc : ∀ region, (columns.map spreadColumn).foldlM (column s brickname region sub) [] =
      (columns.foldlM (column s brickname region sub) []).map (spreadAll sub.length) :=
    fun region => columns_spread s brickname region sub columns []
  rw [hc]
  generalize (columns.foldlM (_ : List (String × Arr) → Column → Except Err (List (String × Arr))) []) = res
  cases res with
  | error e => rfl
  | ok tmp =>
    simp only [Except.map, Bind.bind, Except.bind]
    rw [hlen]
    clear hlen
    induction tmp generalizing data with
    | nil => rfl
    | cons x tmp ih =>
      rw [spreadAll, List.map_cons, List.foldlM_cons, List.foldlM_cons]
      have e : writeColumn s mask data (x.1, spread (mask.count true) x.2) = writeColumn s mask data x := by
        unfold writeColumn
        simp only [spread_dtype, writeMask_spread s _ _ hcount]
      rw [e]
      cases writeColumn s mask data x with
      | error e => rfl
      | ok d => exact ih d

theorem oneRank_spread (s : Survey) (columns : List Column) (rows : List Row) :
    oneRank s (columns.map spreadColumn) rows = oneRank s columns rows := by
  have hmem : ∀ b ∈ uniqueNames (rows.map Row.brickname), ∃ r ∈ rows, r.brickname = b := by
    intro b hb
    unfold uniqueNames at hb
    rw [List.mem_mergeSort, List.mem_dedup] at hb
    exact List.mem_map.mp hb
  unfold oneRank
  generalize uniqueNames (rows.map Row.brickname) = names at *
  generalize ([] : List (String × Arr)) = data
  induction names generalizing data with
  | nil => rfl
  | cons b names ih =>
    rw [List.foldlM_cons, List.foldlM_cons, oneBrick_spread s columns rows data (hmem b List.mem_cons_self)]
    cases oneBrick s columns rows data b with
    | error e => rfl
    | ok d => exact ih (fun b hb => hmem b (List.mem_cons_of_mem _ hb)) d

/-- A function given in `columns` may answer one value for all positions of a brick: the result is the same as if it had repeated
this value for each position. For all columns, positions and layouts. -/
theorem C55_broadcast (s : Survey) (sched : List (List Row) → List (List Row)) (columns : List Column) (ranks : List (List (ℝ × ℝ))) :
    getBrickPixelQuantities s sched (columns.map spreadColumn) ranks = getBrickPixelQuantities s sched columns ranks := by
  unfold getBrickPixelQuantities
  have : oneRank s (columns.map spreadColumn) = oneRank s columns := funext fun rows => oneRank_spread s columns rows
  rw [this]
  simp only [List.map_eq_nil_iff]

/-- Non-vacuity: a function answering one value by brick, repeated over three positions. -/
example : (spreadCallable ⟨false, fun _ b _ => .ok [("depth", ⟨.str 8, [.str b]⟩)]⟩).run [(1, 2), (1, 3), (1, 4)] "0001p000" [] =
    .ok [("depth", ⟨.str 8, [.str "0001p000", .str "0001p000", .str "0001p000"]⟩)] := rfl

end Verif.Props.Bricks
