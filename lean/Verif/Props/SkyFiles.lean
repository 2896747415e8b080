import Verif.Model.SkyFiles
import Verif.Lemmas.Names
import Verif.Lemmas.Blinding
import Verif.Props.FiberV0

/-!
# C99: sky targets written in fewer files are read back
-/

namespace Verif.Props.SkyFiles

open Verif Verif.Model Verif.Model.Fiber Verif.Model.FiberV0 Verif.Model.Names Verif.Lemmas.Blinding Verif.Lemmas.Names

variable {S : Type}

/-! ### Names -/

theorem skyName_inj {b b' : List Char} {i j : ℕ} (h : skyName b i = skyName b' j) : b = b' ∧ i = j := by
  unfold skyName at h
  have hd : ∀ n, '-' ∉ decimal n ++ ".fits".toList := by
    intro n hn
    rcases List.mem_append.1 hn with hn | hn
    · have := decimal_isDigit hn
      revert this; decide
    · revert hn; decide
  have hrev := congrArg List.reverse h
  simp only [List.reverse_append, List.reverse_cons, List.append_assoc, List.singleton_append] at hrev
  have hs := congrArg (split '-') hrev
  have hne : ∀ n, '-' ∉ (".fits".toList).reverse ++ (decimal n).reverse := by
    intro n hn
    apply hd n
    simp only [List.mem_append, List.mem_reverse] at hn ⊢
    tauto
  have key : ∀ n (c : List Char), (".fits".toList).reverse ++ ((decimal n).reverse ++ '-' :: c.reverse) =
      ((".fits".toList).reverse ++ (decimal n).reverse) ++ '-' :: c.reverse := by intro n c; simp
  rw [key, key] at hrev hs
  rw [split_append _ _ _ (hne i), split_append _ _ _ (hne j)] at hs
  have h1 := (List.cons.inj hs).1
  rw [h1] at hrev
  have h2 := (List.append_cancel_left hrev)
  refine ⟨?_, ?_⟩
  · simpa using h2
  · apply decimal_injective
    simpa using List.append_cancel_left h1

theorem skyName_dot (b : List Char) (i : ℕ) : '.' ∈ skyName b i := by
  unfold skyName
  simp

theorem skyName_fits (b : List Char) (i : ℕ) : (skyName b i).drop ((skyName b i).length - 5) = ".fits".toList := by
  unfold skyName
  have : b ++ '-' :: (decimal i ++ ".fits".toList) = (b ++ '-' :: decimal i) ++ ".fits".toList := by simp
  rw [this, List.length_append]
  have : (".fits".toList).length = 5 := rfl
  rw [this, Nat.add_sub_cancel]
  simp

theorem plain_not_fits {b : List Char} (h : '.' ∉ b) : b.drop (b.length - 5) ≠ ".fits".toList := by
  intro e
  apply h
  apply List.mem_of_mem_drop (i := b.length - 5)
  rw [e]
  decide

theorem split_append' (c : Char) : ∀ a l : List Char, split c (a ++ c :: l) = split c a ++ split c l
  | [], l => by simp [split]
  | x :: a, l => by
    simp only [List.cons_append, split, split_append' c a l]
    by_cases hx : x = c
    · rw [if_pos hx, if_pos hx]; rfl
    · rw [if_neg hx, if_neg hx]
      cases h : split c a with
      | nil => exact absurd h (split_ne_nil c a)
      | cons y t => rfl

theorem join_split (c : Char) : ∀ a : List Char, join [c] (split c a) = a
  | [] => rfl
  | x :: a => by
    unfold split
    have ih := join_split c a
    by_cases hx : x = c
    · rw [if_pos hx]
      cases h : split c a with
      | nil => exact absurd h (split_ne_nil c a)
      | cons y t =>
        rw [h] at ih
        simp [join, ih, hx]
    · rw [if_neg hx]
      cases h : split c a with
      | nil => exact absurd h (split_ne_nil c a)
      | cons y t =>
        rw [h] at ih
        simp only
        rw [← ih]
        cases t <;> simp [join]

/-- C99. The base of the name of a file `X-a-b`, such as `skies-hp-12.fits`, in any directory, is `X`. -/
theorem C99_base (dir x a b : List Char) (ha : '-' ∉ a) (hb : '-' ∉ b) (hx : '/' ∉ x) (ha' : '/' ∉ a) (hb' : '/' ∉ b) :
    skyBase (dir ++ '/' :: (x ++ '-' :: (a ++ '-' :: b))) = x ∧ skyBase (x ++ '-' :: (a ++ '-' :: b)) = x := by
  have hsl : '/' ∉ x ++ '-' :: (a ++ '-' :: b) := by
    simp [hx, ha', hb']
  have hj : join ['-'] (split '-' (x ++ '-' :: (a ++ '-' :: b))).dropLast.dropLast = x := by
    rw [split_append', split_append', split_plain _ a ha, split_plain _ b hb, ← List.append_assoc, List.dropLast_concat,
      List.dropLast_concat, join_split]
  unfold skyBase basename
  constructor
  · rw [split_append', split_plain _ _ hsl, List.getLastD_concat, hj]
  · rw [split_plain _ _ hsl]
    exact hj

/-! ### Folders -/

/-- The files that one directory gives: parts, then the bigfile. -/
def entries (nfiles : ℕ) (base : List Char) (rows : List (FiberV0.Sky S)) : Folder S :=
  ((Blinding.splitSizes (Blinding.localSizes rows.length nfiles) rows).zipIdx.map fun x => (skyName base x.2, x.1)) ++ [(base, rows)]

theorem put_fresh {α : Type} (k : List Char) (v : α) (d : List (List Char × α)) (h : k ∉ d.map Prod.fst) : put k v d = d ++ [(k, v)] := by
  induction d with
  | nil => rfl
  | cons x d ih =>
    simp only [List.map_cons, List.mem_cons, not_or] at h
    obtain ⟨k', v'⟩ := x
    rw [put, if_neg (Ne.symm h.1), ih h.2]
    rfl

theorem foldl_put {α : Type} (l : List (List Char × α)) (d : List (List Char × α)) (h : (d.map Prod.fst ++ l.map Prod.fst).Nodup) :
    l.foldl (fun d x => put x.1 x.2 d) d = d ++ l := by
  induction l generalizing d with
  | nil => simp
  | cons x l ih =>
    have hx : x.1 ∉ d.map Prod.fst := by
      intro hm
      rw [List.map_cons, List.nodup_append] at h
      exact h.2.2 _ hm _ (by simp) rfl
    rw [List.foldl_cons, put_fresh _ _ _ hx, ih]
    · simp
    · simpa using h

theorem entries_names (nfiles : ℕ) (base : List Char) (rows : List (FiberV0.Sky S)) : (entries nfiles base rows).map Prod.fst =
    (List.range nfiles).map (skyName base) ++ [base] := by
  unfold entries
  rw [List.map_append, List.map_map]
  congr 1
  have hl : (Blinding.splitSizes (Blinding.localSizes rows.length nfiles) rows).length = nfiles := by
    rw [length_splitSizes]; simp [Blinding.localSizes]
  apply List.ext_getElem
  · simp [hl]
  · intro i h1 h2
    simp

theorem entries_nodup (nfiles : ℕ) {base : List Char} (hb : '.' ∉ base) (rows : List (FiberV0.Sky S)) :
    ((entries nfiles base rows).map Prod.fst).Nodup := by
  rw [entries_names, List.nodup_append]
  refine ⟨(List.nodup_range).map fun i j h => (skyName_inj h).2, by simp, ?_⟩
  intro a ha b hb' e
  simp only [List.mem_map, List.mem_singleton] at ha hb'
  obtain ⟨i, -, rfl⟩ := ha
  subst hb'
  exact hb (e ▸ skyName_dot _ i)

theorem entries_disjoint (n n' : ℕ) {b b' : List Char} (hb : '.' ∉ b) (hb' : '.' ∉ b') (h : b ≠ b') (rows rows' : List (FiberV0.Sky S)) :
    ∀ x ∈ (entries n b rows).map Prod.fst, ∀ y ∈ (entries n' b' rows').map Prod.fst, x ≠ y := by
  rintro x hx y hy rfl
  rw [entries_names] at hx hy
  simp only [List.mem_append, List.mem_map, List.mem_singleton] at hx hy
  rcases hx with ⟨i, -, rfl⟩ | rfl
  · rcases hy with ⟨j, -, e⟩ | e
    · exact h (skyName_inj e).1.symm
    · exact hb' (e ▸ skyName_dot b i)
  · rcases hy with ⟨j, -, e⟩ | e
    · exact hb (e ▸ skyName_dot b' j)
    · exact h e

/-- A directory of sky targets with its files: the first one gives the base of the names. -/
structure Source (S : Type) where
  first : List Char × List (FiberV0.Sky S)
  others : List (List Char × List (FiberV0.Sky S))

/-- Files in the order of `glob`. -/
def Source.files (s : Source S) : List (List Char × List (FiberV0.Sky S)) := s.first :: s.others

/-- Rows of all files. -/
def Source.rows (s : Source S) : List (FiberV0.Sky S) := (s.files.map Prod.snd).flatten

/-- Base of the names. -/
def Source.base (s : Source S) : List Char := skyBase s.first.1

theorem writeFolder_ok (nfiles : ℕ) (folder : Folder S) (s : Source S)
    (h : (folder.map Prod.fst ++ (entries nfiles s.base s.rows).map Prod.fst).Nodup) :
    writeFolder nfiles folder s.files = .ok (folder ++ entries nfiles s.base s.rows) := by
  have e := foldl_put (entries nfiles s.base s.rows) folder h
  rw [← e]
  unfold entries
  rw [List.foldl_append, List.foldl_map]
  rfl

theorem writeAll_ok (nfiles : ℕ) (sources : List (Source S)) (hdot : ∀ s ∈ sources, '.' ∉ s.base)
    (hne : sources.Pairwise fun s s' => s.base ≠ s'.base) (folder : Folder S)
    (hf : ∀ s ∈ sources, ∀ x ∈ folder.map Prod.fst, ∀ y ∈ (entries nfiles s.base s.rows).map Prod.fst, x ≠ y)
    (hnd : (folder.map Prod.fst).Nodup) :
    writeAllSkyTargets nfiles folder (sources.map Source.files) =
      .ok (folder ++ sources.flatMap fun s => entries nfiles s.base s.rows) ∧
    ((folder ++ sources.flatMap fun s => entries nfiles s.base s.rows).map Prod.fst).Nodup := by
  induction sources generalizing folder with
  | nil => simpa [writeAllSkyTargets, pure, Except.pure] using hnd
  | cons s l ih =>
    rw [List.pairwise_cons] at hne
    have h1 : (folder.map Prod.fst ++ (entries nfiles s.base s.rows).map Prod.fst).Nodup :=
      List.nodup_append.2 ⟨hnd, entries_nodup nfiles (hdot s (by simp)) _, hf s (by simp)⟩
    obtain ⟨h2, h3⟩ := ih (fun t ht => hdot t (by simp [ht])) hne.2 (folder ++ entries nfiles s.base s.rows)
      (by
        intro t ht x hx y hy
        rw [List.map_append, List.mem_append] at hx
        rcases hx with hx | hx
        · exact hf t (by simp [ht]) x hx y hy
        · exact entries_disjoint nfiles nfiles (hdot s (by simp)) (hdot t (by simp [ht])) (hne.1 t ht) _ _ x hx y hy)
      (by simpa using h1)
    rw [List.append_assoc] at h2 h3
    refine ⟨?_, ?_⟩
    · unfold writeAllSkyTargets at h2 ⊢
      rw [List.map_cons, List.foldlM_cons, writeFolder_ok nfiles folder s h1]
      exact h2
    · exact h3

theorem joinPath_injective (dirname : List Char) : Function.Injective (joinPath dirname) := by
  intro a b h
  unfold joinPath at h
  split at h
  · exact List.append_cancel_left h
  · exact (List.cons.inj (List.append_cancel_left h)).2

/-- A file of the folder is read. -/
theorem readFrom_mem (dirname : List Char) {folder : Folder S} (hnd : (folder.map Prod.fst).Nodup) {f : List Char × List (FiberV0.Sky S)}
    (hf : f ∈ folder) : readFrom dirname folder (joinPath dirname f.1) = .ok f.2 := by
  unfold readFrom
  induction folder with
  | nil => simp at hf
  | cons x l ih =>
    rw [List.map_cons, List.nodup_cons] at hnd
    rw [List.find?_cons]
    rcases List.mem_cons.1 hf with rfl | hf
    · simp
    · have : joinPath dirname x.1 ≠ joinPath dirname f.1 := fun e =>
        hnd.1 (joinPath_injective _ e ▸ List.mem_map_of_mem hf)
      simp only [this, decide_false]
      exact ih hnd.2 hf

/-- The rows of a file of the folder. -/
def content (folder : Folder S) (name : List Char) : List (FiberV0.Sky S) := (folder.lookup name).getD []

theorem content_mem {folder : Folder S} (hnd : (folder.map Prod.fst).Nodup) {f : List Char × List (FiberV0.Sky S)}
    (hf : f ∈ folder) : content folder f.1 = f.2 := by
  unfold content
  induction folder with
  | nil => simp at hf
  | cons x l ih =>
    rw [List.map_cons, List.nodup_cons] at hnd
    obtain ⟨k, v⟩ := x
    rcases List.mem_cons.1 hf with rfl | hf'
    · simp [List.lookup]
    · have : (f.1 == k) = false := by
        rw [beq_eq_false_iff_ne]
        intro e
        have hm : f.1 ∈ l.map Prod.fst := List.mem_map_of_mem hf'
        exact hnd.1 (e ▸ hm)
      rw [List.lookup, this]
      exact ih hnd.2 hf'

theorem flatMap_content {folder : Folder S} (hnd : (folder.map Prod.fst).Nodup) (p : List Char → Bool) :
    ((folder.map Prod.fst).filter p).flatMap (content folder) = (folder.filter fun f => p f.1).flatMap Prod.snd := by
  rw [List.filter_map, List.flatMap_map]
  apply List.flatMap_congr
  intro f hf
  exact content_mem hnd (List.mem_of_mem_filter hf)

/-- Rows of the FITS files of a directory. -/
theorem entries_fits {nfiles : ℕ} (hn : 0 < nfiles) {base : List Char} (hb : '.' ∉ base) (rows : List (FiberV0.Sky S)) :
    ((entries nfiles base rows).filter fun f => decide (f.1.drop (f.1.length - 5) = ".fits".toList)).flatMap Prod.snd = rows := by
  unfold entries
  rw [List.filter_append, List.filter_eq_self.2, List.filter_eq_nil_iff.2, List.append_nil, List.flatMap_map]
  · have : (fun x : List (FiberV0.Sky S) × ℕ => x.1) = Prod.fst := rfl
    simp only
    rw [List.flatMap_def, List.zipIdx_map_fst]
    exact flatten_splitSizes _ _ (sum_localSizes _ _ hn)
  · intro f hf
    simp only [List.mem_singleton] at hf
    subst hf
    simpa using plain_not_fits hb
  · intro f hf
    simp only [List.mem_map] at hf
    obtain ⟨x, -, rfl⟩ := hf
    simpa using skyName_fits base x.2

theorem entries_plain (nfiles : ℕ) {base : List Char} (hb : '.' ∉ base) (rows : List (FiberV0.Sky S)) :
    ((entries nfiles base rows).filter fun f => ! f.1.contains '.').flatMap Prod.snd = rows := by
  unfold entries
  rw [List.filter_append, List.filter_eq_nil_iff.2, List.nil_append, List.filter_eq_self.2]
  · simp
  · intro f hf
    simp only [List.mem_singleton] at hf
    subst hf
    simpa using hb
  · intro f hf
    simp only [List.mem_map] at hf
    obtain ⟨x, -, rfl⟩ := hf
    simpa using skyName_dot base x.2

/-- C99. Sky targets written into an empty folder and read again as FITS files: exactly the rows of all files of all directories that
lie in the tiles, in whatever order the files of the folder are listed (and in the same order, if files are listed in the order in
which they were written). Names of the directories have different bases, without dots; missing:
a folder with files (`C99_again_violated`) and directories with the same base (`C99_same_base_violated`). -/
theorem C99_fits_partial {nfiles : ℕ} (hn : 0 < nfiles) (sources : List (Source S)) (hdot : ∀ s ∈ sources, '.' ∉ s.base)
    (hne : sources.Pairwise fun s s' => s.base ≠ s'.base) (inTiles : List Tile → ℝ → ℝ → Bool) (tiles : List Tile) (dirname : List Char) :
    ∃ folder : Folder S, writeAllSkyTargets nfiles [] (sources.map Source.files) = .ok folder ∧
      (∀ names, names.Perm (folder.map Prod.fst) → ∃ rows, readSkyTargets inTiles (readFrom dirname folder) .fits dirname names tiles = .ok rows ∧
        rows.Perm ((sources.flatMap Source.rows).filter fun s => inTiles tiles s.ra s.dec)) ∧
      readSkyTargets inTiles (readFrom dirname folder) .fits dirname (folder.map Prod.fst) tiles =
        .ok ((sources.flatMap Source.rows).filter fun s => inTiles tiles s.ra s.dec) := by
  obtain ⟨h1, h2⟩ := writeAll_ok nfiles sources hdot hne [] (by simp) (by simp)
  simp only [List.nil_append] at h1 h2
  refine ⟨_, h1, ?_⟩
  set folder := sources.flatMap fun s => entries nfiles s.base s.rows with hfolder
  have hread : ∀ names, names.Perm (folder.map Prod.fst) →
      readSkyTargets inTiles (readFrom dirname folder) .fits dirname names tiles =
      .ok (((names.filter fun n => decide (n.drop (n.length - 5) = ".fits".toList)).flatMap (content folder)).filter
        fun s => inTiles tiles s.ra s.dec) := by
    intro names hp
    apply FiberV0.C93_read
    intro n hn' _
    have := hp.subset hn'
    obtain ⟨f, hf, rfl⟩ := List.mem_map.1 this
    rw [readFrom_mem dirname h2 hf, content_mem h2 hf]
  have hall : ((folder.map Prod.fst).filter fun n => decide (n.drop (n.length - 5) = ".fits".toList)).flatMap (content folder) =
      sources.flatMap Source.rows := by
    rw [flatMap_content h2, hfolder, List.filter_flatMap, List.flatMap_assoc]
    apply List.flatMap_congr
    intro s hs
    exact entries_fits hn (hdot s hs) _
  constructor
  · intro names hp
    refine ⟨_, hread names hp, ?_⟩
    rw [← hall]
    exact ((hp.filter _).flatMap_right _).filter _
  · rw [hread _ (List.Perm.refl _), hall]

/-- C99. Read again as bigfile, from a folder the path of which has no dot: the same. -/
theorem C99_bigfile_partial (nfiles : ℕ) (sources : List (Source S)) (hdot : ∀ s ∈ sources, '.' ∉ s.base)
    (hne : sources.Pairwise fun s s' => s.base ≠ s'.base) (inTiles : List Tile → ℝ → ℝ → Bool) (tiles : List Tile) {dirname : List Char}
    (hdir : '.' ∉ dirname) :
    ∃ folder : Folder S, writeAllSkyTargets nfiles [] (sources.map Source.files) = .ok folder ∧
      ∀ names, names.Perm (folder.map Prod.fst) →
        ∃ rows, readSkyTargets inTiles (readFrom dirname folder) .bigfile dirname names tiles = .ok rows ∧
        rows.Perm ((sources.flatMap Source.rows).filter fun s => inTiles tiles s.ra s.dec) := by
  obtain ⟨h1, h2⟩ := writeAll_ok nfiles sources hdot hne [] (by simp) (by simp)
  simp only [List.nil_append] at h1 h2
  refine ⟨_, h1, ?_⟩
  set folder := sources.flatMap fun s => entries nfiles s.base s.rows with hfolder
  intro names hp
  have hj : ∀ n, (joinPath dirname n).contains '.' = n.contains '.' := by
    intro n
    unfold joinPath
    rw [Bool.eq_iff_iff]
    split_ifs <;> simp [hdir]
  have hfilter : (names.map (joinPath dirname)).filter (fun n => ! n.contains '.') =
      (names.filter fun n => ! n.contains '.').map (joinPath dirname) := by
    rw [List.filter_map]
    congr 1
    apply List.filter_congr
    intro n _
    simp only [Function.comp, hj]
  have hm : ∀ l : List (List Char), (∀ n ∈ l, n ∈ names) →
      (l.map (joinPath dirname)).mapM (readFrom dirname folder) = .ok (l.map (content folder)) := by
    intro l
    induction l with
    | nil => intro _; rfl
    | cons n l ih =>
      intro h
      obtain ⟨f, hf, rfl⟩ := List.mem_map.1 (hp.subset (h n (by simp)))
      rw [List.map_cons, List.mapM_cons, readFrom_mem dirname h2 hf, ih fun m hm => h m (by simp [hm]), List.map_cons, content_mem h2 hf]
      rfl
  refine ⟨((names.filter fun n => ! n.contains '.').flatMap (content folder)).filter fun s => inTiles tiles s.ra s.dec, ?_, ?_⟩
  · unfold readSkyTargets skyFiles
    simp only [hfilter, Bind.bind, Except.bind, pure, Except.pure]
    rw [hm _ fun n hn' => List.mem_of_mem_filter hn']
    simp only [List.flatMap_def]
  · have hall : ((folder.map Prod.fst).filter fun n => ! n.contains '.').flatMap (content folder) = sources.flatMap Source.rows := by
      rw [flatMap_content h2, hfolder, List.filter_flatMap, List.flatMap_assoc]
      apply List.flatMap_congr
      intro s hs
      exact entries_plain nfiles (hdot s hs) _
    rw [← hall]
    exact ((hp.filter _).flatMap_right _).filter _

/-- C99 fails for two directories with the same base: what comes from the first one is lost. -/
theorem C99_same_base_violated (nfiles : ℕ) (s s' : Source S) (h : s.base = s'.base) (hdot : '.' ∉ s.base) :
    writeAllSkyTargets nfiles [] ([s, s'].map Source.files) = writeAllSkyTargets nfiles [] ([s'].map Source.files) := by
  have hput : ∀ (l l' : Folder S), l.map Prod.fst = l'.map Prod.fst → (l.map Prod.fst).Nodup →
      l'.foldl (fun d x => put x.1 x.2 d) l = l' := by
    have hgen : ∀ (pre l l' : Folder S), l.map Prod.fst = l'.map Prod.fst → ((pre ++ l).map Prod.fst).Nodup →
        l'.foldl (fun d x => put x.1 x.2 d) (pre ++ l) = pre ++ l' := by
      intro pre l l'
      induction l' generalizing pre l with
      | nil =>
        intro e _
        simp only [List.map_nil, List.map_eq_nil_iff] at e
        subst e
        rfl
      | cons x l' ih =>
        intro e hnd
        cases l with
        | nil => simp at e
        | cons y l =>
          simp only [List.map_cons, List.cons.injEq] at e
          have hskip : ∀ pre : Folder S, x.1 ∉ pre.map Prod.fst → put x.1 x.2 (pre ++ y :: l) = pre ++ x :: l := by
            intro pre
            induction pre with
            | nil =>
              intro _
              obtain ⟨k, v⟩ := y
              simp only [List.nil_append, put]
              rw [if_pos e.1]
              simp only [List.cons.injEq, and_true]
              exact Prod.ext e.1 rfl
            | cons z pre ih' =>
              intro hz
              obtain ⟨k, v⟩ := z
              simp only [List.map_cons, List.mem_cons, not_or] at hz
              rw [List.cons_append, put, if_neg (Ne.symm hz.1), ih' hz.2]
              rfl
          have hfresh : x.1 ∉ pre.map Prod.fst := by
            intro hm
            rw [List.map_append, List.nodup_append] at hnd
            exact hnd.2.2 _ hm y.1 (by simp) e.1.symm
          rw [List.foldl_cons, hskip pre hfresh]
          have := ih (pre ++ [x]) l e.2 (by
            simp only [List.map_append, List.map_cons, List.append_assoc, List.singleton_append] at hnd ⊢
            rw [← e.1]; exact hnd)
          simpa using this
    intro l l' e hnd
    exact hgen [] l l' e hnd
  have h1 := writeFolder_ok nfiles [] s (by simpa using entries_nodup nfiles hdot s.rows)
  have h2 := writeFolder_ok nfiles [] s' (by simpa using entries_nodup nfiles (h ▸ hdot) s'.rows)
  unfold writeAllSkyTargets
  simp only [List.map_cons, List.map_nil, List.foldlM_cons, List.foldlM_nil, h1, h2, Bind.bind, Except.bind, List.nil_append]
  have h3 : writeFolder nfiles (entries nfiles s.base s.rows) s'.files = .ok (entries nfiles s'.base s'.rows) := by
    have e := hput (entries nfiles s.base s.rows) (entries nfiles s'.base s'.rows) (by rw [entries_names, entries_names, h])
      (entries_nodup nfiles hdot s.rows)
    rw [← e]
    conv_rhs => unfold entries
    rw [List.foldl_append, List.foldl_map]
    rfl
  rw [h3]

/-- Two directories that meet the hypotheses. -/
example : ∃ s s' : Source Unit, (∀ t ∈ [s, s'], '.' ∉ t.base) ∧ [s, s'].Pairwise (fun s s' => s.base ≠ s'.base) ∧
    s.rows.length = 2 ∧ s'.rows.length = 1 ∧ s.base = "skies".toList ∧ s'.base = "skies-supp".toList :=
  ⟨⟨("/d/skies-hp-1.fits".toList, [⟨1, 0, ()⟩]), [("/d/skies-hp-2.fits".toList, [⟨2, 0, ()⟩])]⟩,
    ⟨("/e/skies-supp-hp-1.fits".toList, [⟨3, 0, ()⟩]), []⟩, by decide, by decide, rfl, rfl, by decide, by decide⟩

/-- C99. A directory without FITS files: an error, whatever was written before. -/
theorem C99_empty (nfiles : ℕ) (folder : Folder S) (dirs : List (List (List Char × List (FiberV0.Sky S)))) :
    writeAllSkyTargets nfiles folder ([] :: dirs) = .error .indexError := rfl

/-- C99 fails for a folder that was written before with more files: its last files are not replaced, and their rows come again. Here
two sky targets, written first in two files, then in one: the second one is read twice. -/
theorem C99_again_violated : ∃ (s : Source Unit) (folder folder' : Folder Unit), '.' ∉ s.base ∧ s.rows.length = 2 ∧
    writeAllSkyTargets 2 [] [s.files] = .ok folder ∧ writeAllSkyTargets 1 folder [s.files] = .ok folder' ∧
    ∃ rows, readSkyTargets (fun _ _ _ => true) (readFrom "sky".toList folder') .fits "sky".toList (folder'.map Prod.fst) [] = .ok rows ∧
      rows.length = 3 := by
  let a : FiberV0.Sky Unit := ⟨1, 0, ()⟩
  let b : FiberV0.Sky Unit := ⟨2, 0, ()⟩
  let s : Source Unit := ⟨("d/skies-hp-1.fits".toList, [a, b]), []⟩
  have hbase : skyBase "d/skies-hp-1.fits".toList = "skies".toList := by decide
  have h0 : skyName "skies".toList 0 = "skies-0.fits".toList := by simp [skyName, decimal]
  have h1 : skyName "skies".toList 1 = "skies-1.fits".toList := by simp [skyName, decimal, digit]
  refine ⟨s, [("skies-0.fits".toList, [a]), ("skies-1.fits".toList, [b]), ("skies".toList, [a, b])],
    [("skies-0.fits".toList, [a, b]), ("skies-1.fits".toList, [b]), ("skies".toList, [a, b])], by decide, rfl, ?_, ?_, [a, b, b], ?_, rfl⟩
  · have : writeAllSkyTargets 2 [] [s.files] =
        .ok (put "skies".toList [a, b] (put (skyName "skies".toList 1) [b] (put (skyName "skies".toList 0) [a] []))) := by
      have hp : Blinding.splitSizes (Blinding.localSizes 2 2) [a, b] = [[a], [b]] := by
        simp [Blinding.localSizes, List.range_succ, Blinding.splitSizes]
      simp only [writeAllSkyTargets, List.foldlM_cons, List.foldlM_nil, writeFolder, Source.files, s, hbase, List.map_cons, List.map_nil,
        List.flatten_cons, List.flatten_nil, List.append_nil, List.length_cons, List.length_nil, Bind.bind, Except.bind]
      rw [hp]
      rfl
    rw [this, h0, h1]
    rfl
  · have : writeAllSkyTargets 1 [("skies-0.fits".toList, [a]), ("skies-1.fits".toList, [b]), ("skies".toList, [a, b])] [s.files] =
        .ok (put "skies".toList [a, b] (put (skyName "skies".toList 0) [a, b]
          [("skies-0.fits".toList, [a]), ("skies-1.fits".toList, [b]), ("skies".toList, [a, b])])) := by
      have hp : Blinding.splitSizes (Blinding.localSizes 2 1) [a, b] = [[a, b]] := by
        simp [Blinding.localSizes, Blinding.splitSizes]
      simp only [writeAllSkyTargets, List.foldlM_cons, List.foldlM_nil, writeFolder, Source.files, s, hbase, List.map_cons, List.map_nil,
        List.flatten_cons, List.flatten_nil, List.append_nil, List.length_cons, List.length_nil, Bind.bind, Except.bind]
      rw [hp]
      rfl
    rw [this, h0]
    rfl
  · rfl

end Verif.Props.SkyFiles
