import Verif.Model.Alias
import Verif.Props.SubPad

/-!
# C08 and C18: objects do not share state
-/

namespace Verif.Props

open Verif Verif.Model Verif.Model.Alias Verif.Spec

/-! ## C08: isometries -/

/-- Specification: isometries as values. Each statement changes at most the object it is called on, or adds one. -/
noncomputable def isomSpec (l : List Isom) : Alias.Call → List Isom
  | .create => l ++ [Isom.init]
  | .method i op => l.modify i (fun s => (s.step op).1)
  | .zeroAdd i => l ++ l[i]?.toList
  | .add i j => match l[i]?, l[j]? with
    | some a, some b => l ++ [Isom.concatenate [a, b]]
    | _, _ => l
  | .iadd i j => match l[j]? with
    | some b => l.modify i (fun a => Isom.concatenate [a, b])
    | none => l

/-- Every reference is in the heap and no two objects share one. -/
structure Separate (w : World) : Prop where
  bound : ∀ o ∈ w.objs, o.ref < w.heap.length
  nodup : (w.objs.map Obj.ref).Nodup

theorem read_append (w : World) (l : List (V3 ℝ)) (objs : List Obj) {r : ℕ} (h : r < w.heap.length) :
    (⟨objs, w.heap ++ l⟩ : World).read r = w.read r := by
  simp [World.read, List.getElem?_append_left h]

theorem values_push (w : World) (h : Separate w) (s : Isom) : (w.push s).values = w.values ++ [s] := by
  simp only [World.values, World.push, List.map_append, List.map_cons, List.map_nil]
  congr 1
  · apply List.map_congr_left
    intro o ho
    simp only [World.value]
    rw [read_append w _ _ (h.bound o ho)]
  · simp [World.value, World.read]

theorem separate_push (w : World) (h : Separate w) (s : Isom) : Separate (w.push s) where
  bound o ho := by
    simp only [World.push, List.mem_append, List.mem_singleton, List.length_append, List.length_singleton] at ho ⊢
    rcases ho with ho | rfl
    · have := h.bound o ho; omega
    · simp
  nodup := by
    simp only [World.push, List.map_append, List.map_cons, List.map_nil]
    rw [List.nodup_append]
    refine ⟨h.nodup, by simp, ?_⟩
    intro a ha b hb
    simp only [List.mem_singleton] at hb
    rw [List.mem_map] at ha
    obtain ⟨o, ho, rfl⟩ := ha
    have := h.bound o ho
    omega

theorem values_getElem? (w : World) (i : ℕ) : w.values[i]? = w.objs[i]?.map w.value := by
  simp [World.values]

theorem values_rebind (w : World) (h : Separate w) (i : ℕ) (s : Isom) (f : Isom → Isom)
    (hf : ∀ o, w.objs[i]? = some o → f (w.value o) = s) : (w.rebind i s).values = w.values.modify i f := by
  apply List.ext_getElem?
  intro j
  rw [values_getElem?, List.getElem?_modify, values_getElem?]
  simp only [World.rebind, List.getElem?_set]
  by_cases hij : i = j
  · subst hij
    simp only [if_true]
    cases ho : w.objs[i]? with
    | none =>
      have : ¬ i < w.objs.length := by simpa using ho
      simp [this]
    | some o =>
      have hlt : i < w.objs.length := by
        rw [List.getElem?_eq_some_iff] at ho; exact ho.1
      simp only [hlt, if_true, Option.map_some, Option.map_eq_map, hf o ho]
      simp [World.value, World.read]
  · simp only [if_neg hij]
    cases ho : w.objs[j]? with
    | none => simp
    | some o =>
      have := h.bound o (List.mem_of_getElem? ho)
      simp [World.value, read_append w _ _ this]

theorem nodup_refs_inj {w : World} (h : Separate w) {i j : ℕ} {a b : Obj} (hi : w.objs[i]? = some a)
    (hj : w.objs[j]? = some b) (hab : a.ref = b.ref) : i = j := by
  obtain ⟨hi1, hi2⟩ := List.getElem?_eq_some_iff.1 hi
  obtain ⟨hj1, hj2⟩ := List.getElem?_eq_some_iff.1 hj
  have := h.nodup
  rw [List.nodup_iff_injective_getElem] at this
  have := @this ⟨i, by simpa using hi1⟩ ⟨j, by simpa using hj1⟩ (by simp [hi2, hj2, hab])
  simpa using this

theorem separate_set (w : World) (h : Separate w) (i : ℕ) {o o' : Obj} (ho : w.objs[i]? = some o) (hr : o'.ref = o.ref) :
    Separate ⟨w.objs.set i o', w.heap⟩ where
  bound x hx := by
    simp only at hx ⊢
    rcases List.mem_or_eq_of_mem_set hx with hx | rfl
    · exact h.bound x hx
    · rw [hr]; exact h.bound o (List.mem_of_getElem? ho)
  nodup := by
    have : (w.objs.set i o').map Obj.ref = w.objs.map Obj.ref := by
      apply List.ext_getElem?
      intro j
      simp only [List.getElem?_map, List.getElem?_set]
      by_cases hij : i = j
      · subst hij
        obtain ⟨hi1, hi2⟩ := List.getElem?_eq_some_iff.1 ho
        simp [hi1, hr, hi2]
      · simp [hij]
    simp only [this]
    exact h.nodup

theorem separate_rebind (w : World) (h : Separate w) (i : ℕ) (s : Isom) : Separate (w.rebind i s) where
  bound x hx := by
    simp only [World.rebind, List.length_append, List.length_singleton] at hx ⊢
    rcases List.mem_or_eq_of_mem_set hx with hx | rfl
    · have := h.bound x hx; omega
    · simp
  nodup := by
    simp only [World.rebind]
    rw [List.map_set]
    apply List.Nodup.set h.nodup
    intro hm
    rw [List.mem_map] at hm
    obtain ⟨o, ho, hh⟩ := hm
    have := h.bound o ho
    simp only at hh
    omega

theorem values_keep (w : World) (i : ℕ) {o : Obj} (ho : w.objs[i]? = some o) (s : Isom) (f : Isom → Isom)
    (hf : f (w.value o) = s) (ht : s.trans = w.read o.ref) :
    (⟨w.objs.set i ⟨s.rot, o.ref⟩, w.heap⟩ : World).values = w.values.modify i f := by
  apply List.ext_getElem?
  intro j
  rw [values_getElem?, List.getElem?_modify, values_getElem?]
  simp only [List.getElem?_set]
  by_cases hij : i = j
  · subst hij
    obtain ⟨hlt, -⟩ := List.getElem?_eq_some_iff.1 ho
    have : (⟨s.rot, w.read o.ref⟩ : Isom) = s := by rw [← ht]
    simp only [hlt, if_true, ho, Option.map_some, Option.map_eq_map, hf]
    exact congrArg some this
  · simp only [if_neg hij]
    cases ho : w.objs[j]? with
    | none => simp
    | some o => simp [World.value, World.read]

theorem values_inplace (w : World) (h : Separate w) (i : ℕ) {o : Obj} (ho : w.objs[i]? = some o) (s : Isom)
    (f : Isom → Isom) (hf : f (w.value o) = s) (hr : s.rot = o.rot) :
    (⟨w.objs, w.heap.set o.ref s.trans⟩ : World).values = w.values.modify i f := by
  apply List.ext_getElem?
  intro j
  rw [values_getElem?, List.getElem?_modify, values_getElem?]
  have hb := h.bound o (List.mem_of_getElem? ho)
  by_cases hij : i = j
  · subst hij
    have : (⟨o.rot, s.trans⟩ : Isom) = s := by rw [← hr]
    simp only [ho, Option.map_some, Option.map_eq_map, if_true, hf]
    simp [World.value, World.read, hb, this]
  · simp only [if_neg hij]
    cases hj : w.objs[j]? with
    | none => simp
    | some o' =>
      have hne : o.ref ≠ o'.ref := fun he => hij (nodup_refs_inj h ho hj he)
      simp [World.value, World.read, List.getElem?_set_ne hne]

theorem separate_inplace (w : World) (h : Separate w) (r : ℕ) (t : V3 ℝ) : Separate ⟨w.objs, w.heap.set r t⟩ :=
  ⟨fun o ho => by simpa using h.bound o ho, h.nodup⟩

theorem values_modify_none (w : World) (i : ℕ) (f : Isom → Isom) (h : w.objs[i]? = none) : w.values.modify i f = w.values := by
  apply List.ext_getElem?
  intro j
  rw [List.getElem?_modify]
  by_cases hij : i = j
  · subst hij
    rw [values_getElem?, h]; simp
  · simp [hij]

theorem exec_method (w : World) (h : Separate w) (i : ℕ) (op : Isom.Op) :
    (w.call i op).values = w.values.modify i (fun s => (s.step op).1) ∧ Separate (w.call i op) := by
  unfold World.call
  cases ho : w.objs[i]? with
  | none => exact ⟨(values_modify_none w i _ ho).symm, h⟩
  | some o =>
    simp only
    have hre : ∀ o', w.objs[i]? = some o' → (fun s : Isom => (s.step op).1) (w.value o') = ((w.value o).step op).1 := by
      intro o' ho'; rw [ho] at ho'; cases ho'; rfl
    cases op with
    | translation s a f =>
      refine ⟨values_inplace w h i ho _ _ rfl ?_, separate_inplace w h _ _⟩
      simp only [Isom.step, Isom.translation]
      split
      · rfl
      · cases f <;> rfl
    | resetTranslate =>
      exact ⟨values_inplace w h i ho _ _ rfl rfl, separate_inplace w h _ _⟩
    | dot m f =>
      cases f with
      | origin => exact ⟨values_rebind w h i _ _ hre, separate_rebind w h i _⟩
      | current => exact ⟨values_keep w i ho _ _ rfl rfl, separate_set w h i ho rfl⟩
      | other => exact ⟨values_keep w i ho _ _ rfl rfl, separate_set w h i ho rfl⟩
    | rotation t a d f =>
      simp only
      split
      · exact ⟨values_rebind w h i _ _ hre, separate_rebind w h i _⟩
      · refine ⟨?_, h⟩
        next hne =>
        have hsame : ((w.value o).step (.rotation t a d f)).1 = w.value o := by
          simp only [Isom.step, Isom.rotation] at hne ⊢
          split
          · rfl
          · split
            · rfl
            · next hm => simp [Isom.dot] at hne; simp_all
        apply List.ext_getElem?
        intro j
        rw [List.getElem?_modify]
        by_cases hij : i = j
        · subst hij
          simp [values_getElem?, ho, hsame]
        · simp [hij]
    | resetRotation f =>
      cases f with
      | origin => exact ⟨values_rebind w h i _ _ hre, separate_rebind w h i _⟩
      | current => exact ⟨values_keep w i ho _ _ rfl rfl, separate_set w h i ho rfl⟩
      | other => exact ⟨values_keep w i ho _ _ rfl rfl, separate_set w h i ho rfl⟩

/-- A program without `0 + x` (`sum` of a single isometry). -/
def NoZeroAdd (p : List Alias.Call) : Prop := ∀ c ∈ p, ∀ i, c ≠ .zeroAdd i

theorem exec_refines (shallow : Bool) (w : World) (h : Separate w) (c : Alias.Call)
    (hc : shallow = true → ∀ i, c ≠ .zeroAdd i) :
    (w.exec shallow c).values = isomSpec w.values c ∧ Separate (w.exec shallow c) := by
  cases c with
  | create => exact ⟨values_push w h _, separate_push w h _⟩
  | method i op => exact exec_method w h i op
  | zeroAdd i =>
    cases shallow with
    | true => exact absurd rfl (hc rfl i)
    | false =>
      simp only [World.exec, World.copy, isomSpec, values_getElem?]
      cases ho : w.objs[i]? with
      | none => simp [h]
      | some o =>
        simp only [Bool.false_eq_true, if_false, Option.map_some, Option.toList_some]
        exact ⟨values_push w h _, separate_push w h _⟩
  | add i j =>
    simp only [World.exec, isomSpec, values_getElem?]
    cases hi : w.objs[i]? with
    | none => simp [h]
    | some a =>
      cases hj : w.objs[j]? with
      | none => simp [h]
      | some b => exact ⟨values_push w h _, separate_push w h _⟩
  | iadd i j =>
    simp only [World.exec, isomSpec, values_getElem?]
    cases hi : w.objs[i]? with
    | none =>
      cases hj : w.objs[j]? with
      | none => simp [h]
      | some b => exact ⟨(values_modify_none w i _ hi).symm, h⟩
    | some a =>
      cases hj : w.objs[j]? with
      | none => simp [h]
      | some b =>
        refine ⟨values_rebind w h i _ _ ?_, separate_rebind w h i _⟩
        intro o ho
        rw [hi] at ho; cases ho
        rfl

/-- C08: if `copy` gives the copy its own arrays, every program on isometries behaves as if isometries were values:
registering operations on one object never changes another. -/
theorem C08_values (p : List Alias.Call) : (World.run false ⟨[], []⟩ p).values = p.foldl isomSpec [] := by
  suffices ∀ w, Separate w → (World.run false w p).values = p.foldl isomSpec w.values from
    this ⟨[], []⟩ ⟨by simp, by simp⟩
  induction p with
  | nil => intro w _; rfl
  | cons c p ih =>
    intro w h
    obtain ⟨h1, h2⟩ := exec_refines false w h c (by simp)
    rw [World.run, List.foldl_cons, List.foldl_cons, ← h1]
    exact ih _ h2

/-- C08, the part that holds for the shallow `copy` of mpytools: programs that do not use `0 + x` (nor `sum` of one
isometry). Missing: see `C08_zero_add_violated`. -/
theorem C08_values_partial (p : List Alias.Call) (hp : NoZeroAdd p) :
    (World.run true ⟨[], []⟩ p).values = p.foldl isomSpec [] := by
  suffices ∀ w, Separate w → (World.run true w p).values = p.foldl isomSpec w.values from
    this ⟨[], []⟩ ⟨by simp, by simp⟩
  induction p with
  | nil => intro w _; rfl
  | cons c p ih =>
    intro w h
    obtain ⟨h1, h2⟩ := exec_refines true w h c (fun _ => hp c (by simp))
    rw [World.run, List.foldl_cons, List.foldl_cons, ← h1]
    exact ih (fun c hc => hp c (by simp [hc])) _ h2

/-- C08, what the specification says of operands: `x + y` and `0 + x` only add an object, and a method or `+=` on one object
leaves the others alone. -/
theorem C08_spec_operands (l : List Isom) (i j k : ℕ) (op : Isom.Op) (hk : k ≠ i) :
    (k < l.length → (isomSpec l (.add i j))[k]? = l[k]?) ∧ (k < l.length → (isomSpec l (.zeroAdd i))[k]? = l[k]?) ∧
    (isomSpec l (.method i op))[k]? = l[k]? ∧ (isomSpec l (.iadd i j))[k]? = l[k]? := by
  refine ⟨fun h => ?_, fun h => ?_, ?_, ?_⟩
  · simp only [isomSpec]
    split
    · rw [List.getElem?_append_left h]
    · rfl
  · simp only [isomSpec]
    rw [List.getElem?_append_left h]
  · simp only [isomSpec, List.getElem?_modify, if_neg (Ne.symm hk)]
    cases l[k]? <;> rfl
  · simp only [isomSpec]
    split
    · simp only [List.getElem?_modify, if_neg (Ne.symm hk)]
      cases l[k]? <;> rfl
    · rfl

/-- C08 refuted for the shallow `copy`: `x = EuclideanIsometry(); y = 0 + x; y.translation(1.)` also translates `x`. -/
theorem C08_zero_add_violated : ∃ p, (World.run true ⟨[], []⟩ p).values ≠ p.foldl isomSpec [] := by
  refine ⟨[.create, .zeroAdd 0, .method 1 (.translation (.scalar 1) .none .origin)], ?_⟩
  intro h
  have h0 := congrArg (fun l : List Isom => (l[0]?).map (fun s => s.trans.x)) h
  simp [World.run, World.exec, World.push, World.copy, World.call, World.values, World.value, World.read, isomSpec,
    Isom.init, Isom.step, Isom.translation, Isom.shiftVector, V3.const, List.modify] at h0

/-- Witness: a program using every allowed statement. -/
example : NoZeroAdd [.create, .create, .method 0 (.translation (.scalar 1) .none .origin), .add 0 1, .iadd 2 0,
    .method 2 .resetTranslate] := by
  intro c hc i
  simp only [List.mem_cons, List.not_mem_nil, or_false] at hc
  rcases hc with rfl | rfl | rfl | rfl | rfl | rfl <;> simp

/-! ## C18: box catalogs -/

section catalogs
variable {ρ : Type}

/-- A method that returns a new catalog, or raises. -/
def catReturn (l : List (Box ρ)) (i : ℕ) (f : Box ρ → Except Err (Box ρ)) : List (Box ρ) :=
  match l[i]? with
  | none => l
  | some b => match f b with
    | .ok b' => l ++ [b']
    | .error _ => l

/-- Specification: catalogs as values. `translate`, `recenter` and `rotate` change the catalog they are called on;
`copy`, `remap`, `subbox` and `pad` only add a catalog. -/
noncomputable def catSpec (l : List (Box ρ)) : CatWorld.Call → List (Box ρ)
  | .copy i => catReturn l i .ok
  | .move i op => l.modify i (fun b => (b.move op).1)
  | .remap i args => catReturn l i (fun b => b.remap args)
  | .subbox i r u => catReturn l i (fun b => b.subbox r u)
  | .pad i f => catReturn l i (fun b => b.pad f)

/-- References are in the heap. -/
def Bound (w : CatWorld ρ) : Prop := ∀ o ∈ w.objs, o.size < w.heap.length ∧ o.center < w.heap.length

theorem cat_value_append (w : CatWorld ρ) (objs : List (CatObj ρ)) (l : List (V3 ℝ)) {o : CatObj ρ}
    (h : o.size < w.heap.length ∧ o.center < w.heap.length) : (⟨objs, w.heap ++ l⟩ : CatWorld ρ).value o = w.value o := by
  simp [CatWorld.value, List.getElem?_append_left h.1, List.getElem?_append_left h.2]

theorem cat_push (w : CatWorld ρ) (h : Bound w) (b : Box ρ) :
    (w.push b).values = w.values ++ [b] ∧ Bound (w.push b) := by
  constructor
  · simp only [CatWorld.values, CatWorld.push, List.map_append, List.map_cons, List.map_nil]
    congr 1
    · apply List.map_congr_left
      intro o ho
      exact cat_value_append w _ _ (h o ho)
    · simp [CatWorld.value]
  · intro o ho
    simp only [CatWorld.push, List.mem_append, List.mem_singleton, List.length_append, List.length_cons,
      List.length_nil] at ho ⊢
    rcases ho with ho | rfl
    · have := h o ho; omega
    · simp

theorem cat_values_getElem? (w : CatWorld ρ) (i : ℕ) : w.values[i]? = w.objs[i]?.map w.value := by
  simp [CatWorld.values]

theorem cat_rebind (w : CatWorld ρ) (h : Bound w) (i : ℕ) {o : CatObj ρ} (ho : w.objs[i]? = some o) (b : Box ρ)
    (f : Box ρ → Box ρ) (hf : f (w.value o) = b) :
    (w.rebind i b).values = w.values.modify i f ∧ Bound (w.rebind i b) := by
  constructor
  · apply List.ext_getElem?
    intro j
    rw [cat_values_getElem?, List.getElem?_modify, cat_values_getElem?]
    simp only [CatWorld.rebind, List.getElem?_set]
    by_cases hij : i = j
    · subst hij
      obtain ⟨hlt, -⟩ := List.getElem?_eq_some_iff.1 ho
      simp only [hlt, if_true, ho, Option.map_some, Option.map_eq_map, hf]
      simp [CatWorld.value]
    · simp only [if_neg hij]
      cases hj : w.objs[j]? with
      | none => simp
      | some o' => simp [cat_value_append w _ _ (h o' (List.mem_of_getElem? hj))]
  · intro x hx
    simp only [CatWorld.rebind, List.length_append, List.length_cons, List.length_nil] at hx ⊢
    rcases List.mem_or_eq_of_mem_set hx with hx | rfl
    · have := h x hx; omega
    · simp

theorem cat_ret (w : CatWorld ρ) (h : Bound w) (i : ℕ) {o : CatObj ρ} (ho : w.objs[i]? = some o)
    (f : Box ρ → Except Err (Box ρ)) :
    (w.ret (f (w.value o))).values = catReturn w.values i f ∧ Bound (w.ret (f (w.value o))) := by
  simp only [catReturn, cat_values_getElem?, ho, Option.map_some]
  cases hf : f (w.value o) with
  | ok b => exact cat_push w h b
  | error e => exact ⟨rfl, h⟩

theorem move_rejected (b : Box ρ) (op : Box.Move) (h : (b.move op).2 ≠ none) : (b.move op).1 = b := by
  have tr : ∀ s a, (b.translate s a).2 ≠ none → (b.translate s a).1 = b := by
    intro s a h
    unfold Box.translate at h ⊢
    split <;> simp_all
  cases op with
  | translate s a => exact tr s a h
  | recenter => exact tr _ _ h
  | rotate k a =>
    simp only [Box.move, Box.rotate] at h ⊢
    split <;> simp_all

/-- A program without `pad`. -/
def NoPad (p : List CatWorld.Call) : Prop := ∀ c ∈ p, ∀ i f, c ≠ .pad i f

theorem cat_exec (shared : Bool) (w : CatWorld ρ) (h : Bound w) (c : CatWorld.Call)
    (hc : shared = true → ∀ i f, c ≠ .pad i f) :
    (w.exec shared c).values = catSpec w.values c ∧ Bound (w.exec shared c) := by
  have none_ : ∀ i (f : Box ρ → Except Err (Box ρ)), w.objs[i]? = none → w.values = catReturn w.values i f := by
    intro i f hi
    simp [catReturn, cat_values_getElem?, hi]
  cases c with
  | copy i =>
    simp only [CatWorld.exec, catSpec]
    cases ho : w.objs[i]? with
    | none => exact ⟨none_ i _ ho, h⟩
    | some o =>
      simp only [CatWorld.copy]
      cases shared with
      | false =>
        exact cat_ret w h i ho .ok
      | true =>
        simp only [if_true]
        refine ⟨?_, ?_⟩
        · have hv : w.values[i]? = some (w.value o) := by rw [cat_values_getElem?, ho]; rfl
          simp only [catReturn, hv]
          simp only [CatWorld.values, List.map_append, List.map_cons, List.map_nil]
          rfl
        · intro x hx
          simp only [List.mem_append, List.mem_singleton] at hx
          rcases hx with hx | rfl
          · exact h x hx
          · exact h _ (List.mem_of_getElem? ho)
  | move i op =>
    simp only [CatWorld.exec, catSpec]
    cases ho : w.objs[i]? with
    | none =>
      refine ⟨?_, h⟩
      apply List.ext_getElem?
      intro j
      rw [List.getElem?_modify]
      by_cases hij : i = j
      · subst hij
        simp [cat_values_getElem?, ho]
      · simp [hij]
    | some o =>
      simp only
      split
      · exact cat_rebind w h i ho _ _ rfl
      · next hne =>
        refine ⟨?_, h⟩
        apply List.ext_getElem?
        intro j
        rw [List.getElem?_modify]
        by_cases hij : i = j
        · subst hij
          simp [cat_values_getElem?, ho, move_rejected _ _ hne]
        · simp [hij]
  | remap i args =>
    simp only [CatWorld.exec, catSpec]
    cases ho : w.objs[i]? with
    | none => exact ⟨none_ i _ ho, h⟩
    | some o => exact cat_ret w h i ho (fun b => b.remap args)
  | subbox i r u =>
    simp only [CatWorld.exec, catSpec]
    cases ho : w.objs[i]? with
    | none => exact ⟨none_ i _ ho, h⟩
    | some o => exact cat_ret w h i ho (fun b => b.subbox r u)
  | pad i f =>
    cases shared with
    | true => exact absurd rfl (hc rfl i f)
    | false =>
      simp only [CatWorld.exec, catSpec]
      cases ho : w.objs[i]? with
      | none => exact ⟨none_ i _ ho, h⟩
      | some o =>
        simp only [CatWorld.pad, Bool.false_eq_true, if_false]
        exact cat_ret w h i ho (fun b => b.pad f)

/-- The catalogs `l`, each with its own arrays. -/
def initWorld (l : List (Box ρ)) : CatWorld ρ := l.foldl CatWorld.push ⟨[], []⟩

theorem initWorld_values (l : List (Box ρ)) : (initWorld l).values = l ∧ Bound (initWorld l) := by
  have : ∀ (l : List (Box ρ)) (w : CatWorld ρ), Bound w →
      (l.foldl CatWorld.push w).values = w.values ++ l ∧ Bound (l.foldl CatWorld.push w) := by
    intro l
    induction l with
    | nil => intro w hw; simp [hw]
    | cons b l ih =>
      intro w hw
      obtain ⟨h1, h2⟩ := cat_push w hw b
      obtain ⟨h3, h4⟩ := ih _ h2
      refine ⟨?_, h4⟩
      rw [List.foldl_cons, h3, h1]
      simp
  have := this l ⟨[], []⟩ (by intro o ho; simp at ho)
  simpa [initWorld, CatWorld.values] using this

theorem cat_run (shared : Bool) (w : CatWorld ρ) (h : Bound w) (p : List CatWorld.Call)
    (hp : shared = true → NoPad p) : (w.run shared p).values = p.foldl catSpec w.values := by
  induction p generalizing w with
  | nil => rfl
  | cons c p ih =>
    obtain ⟨h1, h2⟩ := cat_exec shared w h c (fun hs i f => hp hs c (by simp) i f)
    rw [CatWorld.run, List.foldl_cons, List.foldl_cons, ← h1]
    exact ih _ h2 (fun hs c hc => hp hs c (by simp [hc]))

/-- C18: if `copy` gives the copy its own `_boxsize` array, every program on box catalogs behaves as if catalogs were
values: `copy`, `remap`, `subbox` and `pad` never change the catalog they are called on, nor any other. -/
theorem C18_values (l : List (Box ρ)) (p : List CatWorld.Call) :
    ((initWorld l).run false p).values = p.foldl catSpec l := by
  obtain ⟨h1, h2⟩ := initWorld_values l
  rw [cat_run false _ h2 p (by simp), h1]

/-- C18: if `copy` shares the arrays, this still holds for programs without `pad`. -/
theorem C18_shared_partial (l : List (Box ρ)) (p : List CatWorld.Call) (hp : NoPad p) :
    ((initWorld l).run true p).values = p.foldl catSpec l := by
  obtain ⟨h1, h2⟩ := initWorld_values l
  rw [cat_run true _ h2 p (fun _ => hp), h1]

/-- C18, what the specification says: the catalogs that exist before a call returning a catalog are still there, the
same, after. -/
theorem C18_spec_inputs (l : List (Box ρ)) (i : ℕ) (args : Box.RemapArgs) (r : Box.Ranges) (u : Bool) (f : V3 ℝ) :
    l <+: catSpec l (.copy i) ∧ l <+: catSpec l (.remap i args) ∧ l <+: catSpec l (.subbox i r u) ∧
      l <+: catSpec l (.pad i f) := by
  have : ∀ g, l <+: catReturn l i g := by
    intro g
    unfold catReturn
    split
    · exact List.prefix_refl l
    · split
      · exact List.prefix_append l _
      · exact List.prefix_refl l
  exact ⟨this .ok, this (fun b => b.remap args), this (fun b => b.subbox r u), this (fun b => b.pad f)⟩

end catalogs

/-- C18 refuted if `copy` shares the arrays: `pad(2)` doubles the box size of the catalog it is called on. -/
theorem C18_shared_pad_violated : ∃ (l : List (Box Unit)) (p : List CatWorld.Call),
    ((initWorld l).run true p).values[0]? ≠ l[0]? ∧ p = [.pad 0 ⟨2, 2, 2⟩] := by
  refine ⟨[⟨⟨1, 1, 1⟩, 0, []⟩], _, ?_, rfl⟩
  intro h
  have hs : Box.padShifts 2 = [-1, 0, 1] := padShifts_medium (by norm_num) (by norm_num)
  simp [initWorld, CatWorld.push, CatWorld.run, CatWorld.exec, CatWorld.pad, CatWorld.value, hs, Box.padBroadcast,
    CatWorld.values, bind, Except.bind, pure, Except.pure] at h
  have := congrArg V3.x h
  norm_num at this

end Verif.Props
