import Verif.Spec.Bricks
import Verif.Lemmas.Fiber
import Mathlib.Data.List.Nodup

/-! # Lemmas on the model of the reading of brick quantities -/

namespace Verif.Lemmas.Bricks

open Verif Verif.Model Verif.Model.Bricks Verif.Spec.Bricks Verif.Lemmas.Fiber Verif.Model.Fiber

theorem mapM_fun {α β : Type*} {f : α → Except Err β} {g : α → β} {l : List α} (h : ∀ a ∈ l, f a = .ok (g a)) :
    l.mapM f = .ok (l.map g) := by
  induction l with
  | nil => rfl
  | cons a l ih =>
    simp [List.mapM_cons, Bind.bind, Except.bind, pure, Except.pure, h a (by simp), ih fun b hb => h b (by simp [hb])]

/-! ### Conversions -/

theorem convert_typed {s : Survey} {d : Dtype} {v : Val} (h : Typed d v) : convert s d v = .ok v := by
  cases h with
  | int n =>
    simp only [convert, store]
    split_ifs <;> simp
  | float x => rfl
  | nan => rfl
  | str w t h =>
    have : t.toList.take w = t.toList := List.take_of_length_le (by rw [String.length_toList]; exact h)
    simp [convert, this]
  | obj v => cases v <;> rfl

theorem typed_default (d : Default) : Typed d.dtype d.val := by
  cases d with
  | int n => exact .int n
  | float x => exact .float x
  | str t => exact .str _ t (by simp)
  | none => exact .obj _

theorem default_given (d : Default) : d.dtype = (given d).1 ∧ d.val = (given d).2 := by cases d <;> exact ⟨rfl, rfl⟩

theorem store_int_spec (x : ℝ) (n : ℤ) (h0 : |(n : ℝ)| ≤ |x|) (h1 : |x - n| < 1) (hs : 0 ≤ n * x) : store .int x = n := by
  simp only [store]
  rw [abs_lt] at h1
  split_ifs with h
  · have hn : (0 : ℝ) ≤ n := by
      by_contra hn
      push Not at hn
      have hx : x = 0 := by
        by_contra hx
        have hxp : 0 < x := lt_of_le_of_ne h (Ne.symm hx)
        nlinarith [mul_neg_of_neg_of_pos hn hxp]
      rw [hx, abs_zero] at h0
      have := abs_nonpos_iff.mp h0
      linarith
    rw [abs_of_nonneg hn, abs_of_nonneg h] at h0
    have : ⌊x⌋ = n := Int.floor_eq_iff.mpr ⟨h0, by linarith⟩
    rw [this]
  · push Not at h
    have hn : (n : ℝ) ≤ 0 := by
      by_contra hn
      push Not at hn
      nlinarith [mul_neg_of_pos_of_neg hn h]
    rw [abs_of_nonpos hn, abs_of_neg h] at h0
    have : ⌈x⌉ = n := Int.ceil_eq_iff.mpr ⟨by linarith, by linarith⟩
    rw [this]

theorem convert_spec {s : Survey} {d : Dtype} {v w : Val} (h : Converted s d v w) : convert s d v = .ok w := by
  cases h with
  | obj v => cases v <;> rfl
  | float x => rfl
  | nan => rfl
  | trunc x n h0 h1 hs => simp [convert, store_int_spec x n h0 h1 hs]
  | cut w t => rfl

theorem typed_converted {s : Survey} {d : Dtype} {v w : Val} (h : Converted s d v w) : Typed d w := by
  cases h with
  | obj v => exact .obj _
  | float x => exact .float _
  | nan => exact .nan
  | trunc x n _ _ _ => exact .int n
  | cut w t => exact .str _ _ (by simp)

/-! ### Pixels -/

theorem rint_nearest {t : ℝ} {x : ℕ} (h : Nearest t x) : rint t = x := by
  obtain ⟨h, he⟩ := h
  have h1 := Int.floor_le t
  have h2 := Int.lt_floor_add_one t
  rw [abs_le] at h
  have hb : ⌊t⌋ = (x : ℤ) ∨ ⌊t⌋ = (x : ℤ) - 1 := by
    have a1 : (⌊t⌋ : ℝ) < x + 1 := by linarith
    have a2 : (x : ℝ) - 2 < ⌊t⌋ := by linarith
    have a1' : ⌊t⌋ < (x : ℤ) + 1 := by exact_mod_cast a1
    have a2' : (x : ℤ) - 2 < ⌊t⌋ := by exact_mod_cast a2
    omega
  unfold rint
  rcases hb with hb | hb <;> rw [hb] at h1 h2 ⊢ <;> push_cast at h1 h2 ⊢
  · split_ifs with c1 c2 c3
    · rfl
    · linarith
    · rfl
    · exfalso
      have : |t - x| = 1 / 2 := by rw [abs_of_nonneg (by linarith)]; linarith
      exact c3 (by exact_mod_cast he this)
  · split_ifs with c1 c2 c3
    · linarith
    · ring
    · exfalso
      have : |t - x| = 1 / 2 := by rw [abs_of_nonpos (by linarith)]; linarith
      have := he this
      rw [Int.even_sub_one] at c3
      exact c3 (by exact_mod_cast this)
    · ring

theorem wrapIndex_ok {n : ℕ} {i : ℤ} (h0 : 0 ≤ i) (h1 : i < n) : wrapIndex n i = .ok i.toNat := by simp [wrapIndex, h0, h1]

/-- The row of an object. -/
def toRow (s : Survey) (o : Object) : Row := ⟨o.ra, o.dec, s.brickname o.ra o.dec, s.brickid o.ra o.dec, o.index⟩

theorem pixelAt_ok {s : Survey} {img : Image} {o : Object} {x y : ℕ} (h : OnPixel img o x y) :
    pixelAt img (toRow s o) = .ok (img.value y x) := by
  obtain ⟨hw, hh, hx, hy⟩ := h
  have hw' : ((x : ℤ)) < img.width := by exact_mod_cast hw
  have hh' : ((y : ℤ)) < img.height := by exact_mod_cast hh
  simp only [pixelAt, toRow, rint_nearest hx, rint_nearest hy, wrapIndex_ok (Int.natCast_nonneg x) hw',
    wrapIndex_ok (Int.natCast_nonneg y) hh', Bind.bind, Except.bind, pure, Except.pure, Int.toNat_natCast]

/-! ### One object -/

open Classical in
/-- What the code computes for an object if it is alone. -/
noncomputable def single (s : Survey) (ans : Callable → Answer) (o : Object) : Column → Option (List (String × Dtype × Val))
  | .plain name =>
    if name.toLower = "photsys" then some [(name, .str 1, .str (if region s o = "north" then "N" else "S"))]
    else (known [toRow s o] name.toLower).map fun a => [(name, a.dtype, a.vals.headD .uninit)]
  | .file name fn dtype default unknown =>
    match fn with
    | none => none
    | some fn => match fn (region s o) (brick s o) with
      | .error _ => none
      | .ok path => if unknown then none else match oneFile s path [toRow s o] dtype default with
        | .ok a => some [(name, a.dtype, a.vals.headD .uninit)]
        | .error _ => none
  | .call f kwargs =>
    match kwargs with
    | none => none
    | some kwargs => match kwargs.mapM (formatKwarg (region s o)) with
      | .error _ => none
      | .ok kw => some (((ans f).cols (brick s o) kw).map fun h => (h.1, h.2, (ans f).val h.1 o.ra o.dec (brick s o) kw))

theorem region_eq (s : Survey) (o : Object) : regionOf s (toRow s o) = region s o := by
  unfold regionOf region North toRow
  split_ifs <;> rfl

theorem region_north (s : Survey) (o : Object) : region s o = "north" ↔ North s o := by
  unfold region
  split_ifs with h <;> simp [h]

theorem filled_format {reg : String} {a : String × Kwarg} {b : String × Val} (h : Filled reg a b) : formatKwarg reg a = .ok b := by
  cases h with
  | text key f t h => simp [formatKwarg, h, Bind.bind, Except.bind, pure, Except.pure]
  | other key v => rfl

theorem single_of_gives {s : Survey} {ans : Callable → Answer} {o : Object} {col : Column} {q : List (String × Dtype × Val)}
    (h : Gives s ans o col q) : single s ans o col = some q := by
  cases h with
  | north name h hn => simp only [single, if_pos h, if_pos ((region_north s o).2 hn)]
  | south name h hn => simp only [single, if_pos h, if_neg (fun h => hn ((region_north s o).1 h))]
  | ra name h => simp [single, h, known, toRow]
  | dec name h => simp [single, h, known, toRow]
  | brickname name h => simp [single, h, known, toRow, brick]
  | brickid name h => simp [single, h, known, toRow]
  | index name h => simp [single, h, known, toRow]
  | image name fn path img x y default hp hf hx =>
    simp [single, hp, hf, oneFile, pixelAt_ok hx, Bind.bind, Except.bind, pure, Except.pure]
  | imageTyped name fn path img x y default d v hp hf hx hv =>
    simp [single, hp, hf, oneFile, pixelAt_ok hx, convert_spec hv, Bind.bind, Except.bind, pure, Except.pure]
  | absent name fn path default hp hf =>
    simp [single, hp, hf, oneFile, convert_typed (typed_default default), (default_given default).1.symm, (default_given default).2.symm, Bind.bind, Except.bind, pure, Except.pure]
  | absentTyped name fn path default d v hp hf hv =>
    rw [← (default_given default).2] at hv
    simp [single, hp, hf, oneFile, convert_spec hv, Bind.bind, Except.bind, pure, Except.pure]
  | call f kwargs kw hk =>
    have := mapM_of_forall₂ (hk.imp fun _ _ h => filled_format h)
    simp only [single, this]

/-! ### One brick -/

/-- Value of the quantity of some name. -/
def valQ (q : List (String × Dtype × Val)) (n : String) : Val := ((q.find? fun x => decide (x.1 = n)).map fun x => x.2.2).getD .uninit

/-- Columns with given names and types, and values of rows. -/
def tab {α : Type*} (H : List (String × Dtype)) (val : String → α → Val) (rows : List α) : List (String × Arr) :=
  H.map fun h => (h.1, ⟨h.2, rows.map (val h.1)⟩)

theorem valQ_of_mem {q : List (String × Dtype × Val)} (hn : ((headerOf q).map Prod.fst).Nodup) {x : String × Dtype × Val}
    (hx : x ∈ q) : valQ q x.1 = x.2.2 := by
  induction q with
  | nil => simp at hx
  | cons y q ih =>
    simp only [headerOf, List.map_cons, List.nodup_cons] at hn
    unfold valQ
    rw [List.find?_cons]
    rcases List.mem_cons.1 hx with rfl | hx
    · simp
    · have hne : ¬ y.1 = x.1 := by
        intro he
        apply hn.1
        rw [he]
        simp only [List.map_map, List.mem_map]
        exact ⟨x, hx, rfl⟩
      simp only [hne, decide_false]
      exact ih hn.2 hx

theorem valQ_single (n : String) (d : Dtype) (v : Val) : valQ [(n, d, v)] n = v := by simp [valQ]

theorem tab_single {α : Type*} {n : String} {d : Dtype} {val : String → α → Val} {rows : List α} :
    tab [(n, d)] val rows = [(n, ⟨d, rows.map (val n)⟩)] := rfl

theorem known_map (s : Survey) (sub : List Object) (name : String) (a : Object → Arr)
    (h : ∀ o ∈ sub, known [toRow s o] name = some (a o)) (hne : sub ≠ []) :
    ∃ d, known (sub.map (toRow s)) name = some ⟨d, sub.map fun o => (a o).vals.headD .uninit⟩ ∧ ∀ o ∈ sub, (a o).dtype = d := by
  have hc : ∀ (d : Dtype) (f : Row → Val), (∀ o ∈ sub, (⟨d, [f (toRow s o)]⟩ : Arr) = a o) →
      (⟨d, (sub.map (toRow s)).map f⟩ : Arr) = ⟨d, sub.map fun o => (a o).vals.headD .uninit⟩ ∧ ∀ o ∈ sub, (a o).dtype = d := by
    intro d f hf
    constructor
    · rw [List.map_map]
      congr 1
      apply List.map_congr_left
      intro o ho
      rw [← hf o ho]
      rfl
    · intro o ho
      rw [← hf o ho]
  unfold known at h ⊢
  split_ifs at h ⊢
  · obtain ⟨h1, h2⟩ := hc .float (fun r => .num r.ra) (fun o ho => by simpa using h o ho)
    exact ⟨_, congrArg some h1, h2⟩
  · obtain ⟨h1, h2⟩ := hc .float (fun r => .num r.dec) (fun o ho => by simpa using h o ho)
    exact ⟨_, congrArg some h1, h2⟩
  · obtain ⟨h1, h2⟩ := hc (.str 8) (fun r => .str r.brickname) (fun o ho => by simpa using h o ho)
    exact ⟨_, congrArg some h1, h2⟩
  · obtain ⟨h1, h2⟩ := hc .int (fun r => .num r.brickid) (fun o ho => by simpa using h o ho)
    exact ⟨_, congrArg some h1, h2⟩
  · obtain ⟨h1, h2⟩ := hc .int (fun r => .num r.index) (fun o ho => by simpa using h o ho)
    exact ⟨_, congrArg some h1, h2⟩
  · obtain ⟨o, ho⟩ := List.exists_mem_of_ne_nil _ hne
    simp at h
    exact absurd ho (by simp [h])

theorem bind_ok {α β : Type} {x : Except Err α} {f : α → Except Err β} {b : β} (h : (x >>= f) = .ok b) :
    ∃ a, x = .ok a ∧ f a = .ok b := by
  cases x with
  | error e => simp [Bind.bind, Except.bind] at h
  | ok a => exact ⟨a, rfl, h⟩

theorem oneFile_map (s : Survey) (path : String) (dtype : Option Dtype) (default : Default) (sub : List Object) (a : Object → Arr)
    (h : ∀ o ∈ sub, oneFile s path [toRow s o] dtype default = .ok (a o)) (hne : sub ≠ []) :
    ∃ d, oneFile s path (sub.map (toRow s)) dtype default = .ok ⟨d, sub.map fun o => (a o).vals.headD .uninit⟩ ∧
      ∀ o ∈ sub, (a o).dtype = d := by
  unfold oneFile at h ⊢
  cases hf : s.file path with
  | none =>
    simp only [hf] at h ⊢
    obtain ⟨o, ho⟩ := List.exists_mem_of_ne_nil _ hne
    obtain ⟨v, hv, -⟩ := bind_ok (h o ho)
    simp only [hv, Bind.bind, Except.bind, pure, Except.pure, Except.ok.injEq] at h ⊢
    refine ⟨dtype.getD default.dtype, ?_, fun o ho => ?_⟩
    · congr 1
      rw [List.length_map, ← List.map_const']
      apply List.map_congr_left
      intro o ho
      rw [← h o ho]
      rfl
    · rw [← h o ho]
  | some img =>
    simp only [hf] at h ⊢
    have hw : ∀ o ∈ sub, ∃ w, pixelAt img (toRow s o) = .ok w := by
      intro o ho
      obtain ⟨vals, h1, -⟩ := bind_ok (h o ho)
      rw [List.mapM_cons] at h1
      obtain ⟨w, h2, -⟩ := bind_ok h1
      exact ⟨w, h2⟩
    have : Nonempty Val := ⟨.null⟩
    choose! w hw using hw
    have hm : (sub.map (toRow s)).mapM (pixelAt img) = .ok (sub.map w) := by
      rw [List.mapM_map]
      exact mapM_fun fun o ho => hw o ho
    have h1 : ∀ o ∈ sub, [toRow s o].mapM (pixelAt img) = .ok [w o] := fun o ho =>
      mapM_fun (g := fun _ => w o) (l := [toRow s o]) (by intro a ha; rw [List.mem_singleton.1 ha]; exact hw o ho)
    refine ⟨dtype.getD img.dtype, ?_, fun o ho => ?_⟩
    · rw [hm]
      cases dtype with
      | none =>
        simp only [Bind.bind, Except.bind, pure, Except.pure, Except.ok.injEq]
        congr 1
        apply List.map_congr_left
        intro o ho
        have := h o ho
        simp only [h1 o ho, Bind.bind, Except.bind, pure, Except.pure, Except.ok.injEq] at this
        rw [← this]
        rfl
      | some d =>
        have hv : ∀ o ∈ sub, convert s d (w o) = .ok ((a o).vals.headD .uninit) := by
          intro o ho
          have := h o ho
          simp only [h1 o ho, Bind.bind, Except.bind] at this
          cases hc : convert s d (w o) with
          | error e => simp [List.mapM_cons, hc, Bind.bind, Except.bind] at this
          | ok v =>
            simp only [List.mapM_cons, hc, Bind.bind, Except.bind, pure, Except.pure, List.mapM_nil, Except.ok.injEq] at this
            rw [← this]
            rfl
        simp only [Bind.bind, Except.bind, pure, Except.pure, Option.getD_some]
        rw [List.mapM_map, mapM_fun (f := convert s d ∘ w) (g := fun o => (a o).vals.headD .uninit) hv]
    · cases dtype with
      | none =>
        have := h o ho
        simp only [h1 o ho, Bind.bind, Except.bind, pure, Except.pure, Except.ok.injEq] at this
        rw [← this]
      | some d =>
        have := h o ho
        simp only [h1 o ho, Bind.bind, Except.bind] at this
        cases hc : convert s d (w o) with
        | error e => simp [List.mapM_cons, hc, Bind.bind, Except.bind] at this
        | ok v =>
          simp only [List.mapM_cons, hc, Bind.bind, Except.bind, pure, Except.pure, List.mapM_nil, Except.ok.injEq] at this
          rw [← this]

theorem dictSet_new {α : Type*} {n : String} {v : α} {d : List (String × α)} (h : n ∉ d.map Prod.fst) : dictSet n v d = d ++ [(n, v)] := by
  induction d with
  | nil => rfl
  | cons x d ih =>
    simp only [List.map_cons, List.mem_cons, not_or] at h
    simp [dictSet, Ne.symm h.1, ih h.2]

theorem foldl_dictSet {α : Type*} (res d : List (String × α)) (h : (d.map Prod.fst ++ res.map Prod.fst).Nodup) :
    res.foldl (fun d x => dictSet x.1 x.2 d) d = d ++ res := by
  induction res generalizing d with
  | nil => simp
  | cons x res ih =>
    have hx : x.1 ∉ d.map Prod.fst := by
      intro hx
      rw [List.nodup_append] at h
      exact h.2.2 _ hx _ (by simp) rfl
    rw [List.foldl_cons, dictSet_new hx, ih]
    · simp
    · simpa using h

theorem tab_names {α : Type*} (H : List (String × Dtype)) (val : String → α → Val) (rows : List α) :
    (tab H val rows).map Prod.fst = H.map Prod.fst := by simp [tab, Function.comp_def]

/-- One item of `columns` on the rows of a brick. -/
theorem column_eq {s : Survey} {ans : Callable → Answer} {col : Column} {b g : String} {sub : List Object} (hne : sub ≠ [])
    (hb : ∀ o ∈ sub, brick s o = b) (hg : ∀ o ∈ sub, region s o = g)
    (hcall : ∀ f kw, col = .call f kw → Pointwise f (ans f)) {H : List (String × Dtype)} {q : Object → List (String × Dtype × Val)}
    (hq : ∀ o ∈ sub, single s ans o col = some (q o) ∧ headerOf (q o) = H) {tmp : List (String × Arr)}
    (hn : (tmp.map Prod.fst ++ H.map Prod.fst).Nodup) :
    column s b g (sub.map (toRow s)) tmp col = .ok (tmp ++ tab H (fun n o => valQ (q o) n) sub) := by
  obtain ⟨o₀, ho₀⟩ := List.exists_mem_of_ne_nil _ hne
  cases col with
  | plain name =>
    simp only [single] at hq
    simp only [column]
    by_cases hp : name.toLower = "photsys"
    · simp only [if_pos hp] at hq ⊢
      have hH : H = [(name, .str 1)] := by
        rw [← (hq o₀ ho₀).2, ← Option.some.inj (hq o₀ ho₀).1]
        rfl
      subst hH
      rw [dictSet_new]
      · congr 2
        simp only [tab, List.map_cons, List.map_nil, List.map_map]
        congr 3
        apply List.map_congr_left
        intro o ho
        rw [← Option.some.inj (hq o ho).1, valQ_single, hg o ho]
        rfl
      · intro h
        rw [List.nodup_append] at hn
        exact hn.2.2 _ h _ (by simp) rfl
    · simp only [if_neg hp] at hq ⊢
      have ha : ∀ o ∈ sub, ∃ a, known [toRow s o] name.toLower = some a ∧ q o = [(name, a.dtype, a.vals.headD .uninit)] := by
        intro o ho
        have := (hq o ho).1
        rw [Option.map_eq_some_iff] at this
        obtain ⟨a, h1, h2⟩ := this
        exact ⟨a, h1, h2.symm⟩
      have : Nonempty Arr := ⟨⟨.int, []⟩⟩
      choose! a ha using ha
      obtain ⟨d, h1, h2⟩ := known_map s sub name.toLower a (fun o ho => (ha o ho).1) hne
      have hH : H = [(name, d)] := by
        rw [← (hq o₀ ho₀).2, (ha o₀ ho₀).2, ← h2 o₀ ho₀]
        rfl
      subst hH
      rw [h1]
      simp only
      rw [dictSet_new]
      · congr 2
        simp only [tab, List.map_cons, List.map_nil]
        congr 3
        apply List.map_congr_left
        intro o ho
        rw [(ha o ho).2, valQ_single]
      · intro h
        rw [List.nodup_append] at hn
        exact hn.2.2 _ h _ (by simp) rfl
  | file name fn dtype default unknown =>
    cases fn with
    | none => simpa [single] using (hq o₀ ho₀).1
    | some fn =>
      simp only [single] at hq
      simp only [column]
      cases hp : fn g b with
      | error e => simpa [hg o₀ ho₀, hb o₀ ho₀, hp] using (hq o₀ ho₀).1
      | ok path =>
        cases unknown with
        | true => simpa [hg o₀ ho₀, hb o₀ ho₀, hp] using (hq o₀ ho₀).1
        | false =>
          have ha : ∀ o ∈ sub, ∃ a, oneFile s path [toRow s o] dtype default = .ok a ∧ q o = [(name, a.dtype, a.vals.headD .uninit)] := by
            intro o ho
            have := (hq o ho).1
            simp only [hg o ho, hb o ho, hp] at this
            cases hf : oneFile s path [toRow s o] dtype default with
            | error e => simp [hf] at this
            | ok a =>
              simp only [hf] at this
              exact ⟨a, rfl, (Option.some.inj this).symm⟩
          have : Nonempty Arr := ⟨⟨.int, []⟩⟩
          choose! a ha using ha
          obtain ⟨d, h1, h2⟩ := oneFile_map s path dtype default sub a (fun o ho => (ha o ho).1) hne
          have hH : H = [(name, d)] := by
            rw [← (hq o₀ ho₀).2, (ha o₀ ho₀).2, ← h2 o₀ ho₀]
            rfl
          subst hH
          simp only [h1, Bind.bind, Except.bind, pure, Except.pure, Bool.false_eq_true, if_false]
          rw [dictSet_new]
          · congr 2
            simp only [tab, List.map_cons, List.map_nil]
            congr 3
            apply List.map_congr_left
            intro o ho
            rw [(ha o ho).2, valQ_single]
          · intro h
            rw [List.nodup_append] at hn
            exact hn.2.2 _ h _ (by simp) rfl
  | call f kwargs =>
    cases kwargs with
    | none => simpa [single] using (hq o₀ ho₀).1
    | some kwargs =>
      simp only [single] at hq
      simp only [column]
      have hf := hcall f _ rfl
      cases hk : kwargs.mapM (formatKwarg g) with
      | error e => simpa [hg o₀ ho₀, hk] using (hq o₀ ho₀).1
      | ok kw =>
        have hqo : ∀ o ∈ sub, q o = ((ans f).cols b kw).map fun h => (h.1, h.2, (ans f).val h.1 o.ra o.dec b kw) := by
          intro o ho
          have := (hq o ho).1
          simp only [hg o ho, hk, hb o ho] at this
          exact (Option.some.inj this).symm
        have hH : H = (ans f).cols b kw := by
          rw [← (hq o₀ ho₀).2, hqo o₀ ho₀]
          simp [headerOf, Function.comp_def]
        simp only [hf.args, hf.run, Bind.bind, Except.bind, pure, Except.pure, Bool.false_eq_true, if_false]
        have hnH : (H.map Prod.fst).Nodup := (List.nodup_append.1 hn).2.1
        rw [← hH, foldl_dictSet]
        · congr 2
          apply List.map_congr_left
          intro h hh
          congr 2
          rw [List.map_map, List.map_map]
          apply List.map_congr_left
          intro o ho
          have hm : (h.1, h.2, (ans f).val h.1 o.ra o.dec b kw) ∈ q o := by
            rw [hqo o ho, ← hH]
            exact List.mem_map.2 ⟨h, hh, rfl⟩
          have := valQ_of_mem (by rw [(hq o ho).2]; exact hnH) hm
          exact this.symm
        · simpa [Function.comp_def] using hn

theorem oneFile_dtype {s : Survey} {path : String} {rows rows' : List Row} {dtype : Option Dtype} {default : Default} {a a' : Arr}
    (h : oneFile s path rows dtype default = .ok a) (h' : oneFile s path rows' dtype default = .ok a') : a.dtype = a'.dtype := by
  unfold oneFile at h h'
  cases hf : s.file path with
  | none =>
    simp only [hf] at h h'
    obtain ⟨v, -, hv⟩ := bind_ok h
    obtain ⟨v', -, hv'⟩ := bind_ok h'
    simp only [pure, Except.pure, Except.ok.injEq] at hv hv'
    rw [← hv, ← hv']
  | some img =>
    simp only [hf] at h h'
    obtain ⟨v, -, hv⟩ := bind_ok h
    obtain ⟨v', -, hv'⟩ := bind_ok h'
    cases dtype with
    | none =>
      simp only [Bind.bind, Except.bind, pure, Except.pure, Except.ok.injEq] at hv hv'
      rw [← hv, ← hv']
    | some d =>
      simp only at hv hv'
      obtain ⟨w, -, hw⟩ := bind_ok hv
      obtain ⟨w', -, hw'⟩ := bind_ok hv'
      simp only [pure, Except.pure, Except.ok.injEq] at hw hw'
      rw [← hw, ← hw']

theorem known_dtype {r r' : Row} {name : String} {a a' : Arr} (h : known [r] name = some a) (h' : known [r'] name = some a') :
    a.dtype = a'.dtype := by
  unfold known at h h'
  split_ifs at h h' <;> · rw [← Option.some.inj h, ← Option.some.inj h']

/-- Quantities of objects of the same brick have the same names and types. -/
theorem single_header {s : Survey} {ans : Callable → Answer} {o o' : Object} {col : Column} {q q' : List (String × Dtype × Val)}
    (hb : brick s o = brick s o') (hg : region s o = region s o') (h : single s ans o col = some q)
    (h' : single s ans o' col = some q') : headerOf q = headerOf q' := by
  cases col with
  | plain name =>
    simp only [single] at h h'
    by_cases hp : name.toLower = "photsys"
    · simp only [if_pos hp, Option.some.injEq] at h h'
      rw [← h, ← h']
      rfl
    · simp only [if_neg hp, Option.map_eq_some_iff] at h h'
      obtain ⟨a, ha, rfl⟩ := h
      obtain ⟨a', ha', rfl⟩ := h'
      simp [headerOf, known_dtype ha ha']
  | file name fn dtype default unknown =>
    cases fn with
    | none => simp [single] at h
    | some fn =>
      simp only [single] at h h'
      rw [hb, hg] at h
      cases hp : fn (region s o') (brick s o') with
      | error e => simp [hp] at h
      | ok path =>
        cases unknown with
        | true => simp [hp] at h
        | false =>
          simp only [hp, Bool.false_eq_true, if_false] at h h'
          cases hf : oneFile s path [toRow s o] dtype default with
          | error e => simp [hf] at h
          | ok a =>
            cases hf' : oneFile s path [toRow s o'] dtype default with
            | error e => simp [hf'] at h'
            | ok a' =>
              simp only [hf, hf', Option.some.injEq] at h h'
              rw [← h, ← h']
              simp [headerOf, oneFile_dtype hf hf']
  | call f kwargs =>
    cases kwargs with
    | none => simp [single] at h
    | some kwargs =>
      simp only [single] at h h'
      rw [hb, hg] at h
      cases hk : kwargs.mapM (formatKwarg (region s o')) with
      | error e => simp [hk] at h
      | ok kw =>
        simp only [hk, Option.some.injEq] at h h'
        rw [← h, ← h']
        simp [headerOf, Function.comp_def]

/-- All quantities of an object. -/
noncomputable def total (s : Survey) (ans : Callable → Answer) (columns : List Column) (o : Object) : List (String × Dtype × Val) :=
  columns.flatMap fun c => (single s ans o c).getD []

theorem valQ_append_left {q t : List (String × Dtype × Val)} {n : String} (h : n ∈ (headerOf q).map Prod.fst) :
    valQ (q ++ t) n = valQ q n := by
  unfold valQ
  rw [List.find?_append]
  have : (q.find? fun x => decide (x.1 = n)).isSome := by
    rw [List.find?_isSome]
    simp only [headerOf, List.map_map, List.mem_map, Function.comp] at h
    obtain ⟨x, hx, rfl⟩ := h
    exact ⟨x, hx, by simp⟩
  obtain ⟨x, hx⟩ := Option.isSome_iff_exists.1 this
  simp [hx]

theorem valQ_append_right {q t : List (String × Dtype × Val)} {n : String} (h : n ∉ (headerOf q).map Prod.fst) :
    valQ (q ++ t) n = valQ t n := by
  unfold valQ
  rw [List.find?_append]
  have : (q.find? fun x => decide (x.1 = n)) = none := by
    rw [List.find?_eq_none]
    intro x hx hn
    apply h
    simp only [headerOf, List.map_map, List.mem_map, Function.comp]
    exact ⟨x, hx, by simpa using hn⟩
  simp [this]

/-- All items of `columns` on the rows of a brick. -/
theorem columns_eq {s : Survey} {ans : Callable → Answer} {b g : String} {sub : List Object} {o₀ : Object} (ho₀ : o₀ ∈ sub)
    (hb : ∀ o ∈ sub, brick s o = b) (hg : ∀ o ∈ sub, region s o = g) (columns : List Column)
    (hcall : ∀ f kw, .call f kw ∈ columns → Pointwise f (ans f))
    (hq : ∀ o ∈ sub, ∀ c ∈ columns, (single s ans o c).isSome) (tmp : List (String × Arr))
    (hn : (tmp.map Prod.fst ++ (headerOf (total s ans columns o₀)).map Prod.fst).Nodup) :
    columns.foldlM (column s b g (sub.map (toRow s))) tmp =
      .ok (tmp ++ tab (headerOf (total s ans columns o₀)) (fun n o => valQ (total s ans columns o) n) sub) := by
  induction columns generalizing tmp with
  | nil => simp [total, headerOf, tab, pure, Except.pure]
  | cons c cs ih =>
    have hne : sub ≠ [] := List.ne_nil_of_mem ho₀
    have hq' : ∀ o ∈ sub, single s ans o c = some ((single s ans o c).getD []) := by
      intro o ho
      obtain ⟨q, hq⟩ := Option.isSome_iff_exists.1 (hq o ho c (by simp))
      simp [hq]
    have hhead : ∀ o ∈ sub, headerOf ((single s ans o c).getD []) = headerOf ((single s ans o₀ c).getD []) := by
      intro o ho
      exact single_header ((hb o ho).trans (hb o₀ ho₀).symm) ((hg o ho).trans (hg o₀ ho₀).symm) (hq' o ho) (hq' o₀ ho₀)
    have htot : ∀ o, total s ans (c :: cs) o = (single s ans o c).getD [] ++ total s ans cs o := by
      intro o
      simp [total]
    have hhead₀ : headerOf (total s ans (c :: cs) o₀) = headerOf ((single s ans o₀ c).getD []) ++ headerOf (total s ans cs o₀) := by
      rw [htot]
      simp [headerOf]
    rw [hhead₀] at hn ⊢
    rw [List.map_append, ← List.append_assoc] at hn
    rw [List.foldlM_cons, column_eq hne hb hg (fun f kw he => hcall f kw (by simp [he])) (fun o ho => ⟨hq' o ho, hhead o ho⟩)
      (List.nodup_append.1 hn).1]
    simp only [Bind.bind, Except.bind]
    rw [ih (fun f kw he => hcall f kw (by simp [he])) (fun o ho c hc => hq o ho c (by simp [hc])) _
      (by rw [List.map_append, tab_names]; exact hn)]
    rw [List.append_assoc]
    congr 2
    simp only [tab, List.map_append]
    congr 1
    · apply List.map_congr_left
      intro h hh
      congr 2
      apply List.map_congr_left
      intro o ho
      rw [htot, valQ_append_left]
      rw [hhead o ho]
      exact List.mem_map.2 ⟨h, hh, rfl⟩
    · apply List.map_congr_left
      intro h hh
      congr 2
      apply List.map_congr_left
      intro o ho
      rw [htot, valQ_append_right]
      rw [hhead o ho]
      intro hm
      rw [List.append_assoc, List.nodup_append] at hn
      exact (List.nodup_append.1 hn.2.1).2.2 _ hm _ (List.mem_map.2 ⟨h, hh, rfl⟩) rfl

end Verif.Lemmas.Bricks
