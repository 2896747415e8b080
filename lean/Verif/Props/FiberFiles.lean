import Verif.Model.FiberFiles
import Verif.Lemmas.Names
import Verif.Props.Regions
import Mathlib.Tactic.NormNum
import Mathlib.Data.Nat.Digits.Lemmas

/-! # C82, C83: tiles, files and stuck positioners of fiber assignment -/

namespace Verif.Props

open Verif Verif.Model Verif.Model.Fiber Verif.Model.Names Verif.Lemmas.Names

/-! ### Tiles -/

/-- A tile to be treated: in the release, of the program, of a pass below `npasses`. -/
def InRelease {E : Type} (observed : List ℕ) (program : String) (npasses : ℤ) (t : OpsTile E) : Prop :=
  t.id ∈ observed ∧ t.program = program.toUpper ∧ t.pass < npasses

open Classical in
/-- **C82.** `build_tiles_for_fa` raises exactly for an unknown program; otherwise it returns, in the order of the table, the tiles of
the release, of the program and of a pass below `npasses`, with the observing conditions of the program. -/
theorem C82_tiles {E : Type} (conditions : String → Option ℕ) (ops : List (OpsTile E)) (observed : List ℕ) (program : String) (npasses : ℤ) :
    (buildTiles conditions ops observed program npasses = .error .keyError ↔ conditions program.toUpper = none) ∧
    ∀ c, conditions program.toUpper = some c → ∃ l, buildTiles conditions ops observed program npasses = .ok l ∧
      l.map Prod.fst = ops.filter (fun t => decide (InRelease observed program npasses t)) ∧ ∀ x ∈ l, x.2 = c := by
  unfold buildTiles
  refine ⟨?_, fun c hc => ?_⟩
  · rcases h : conditions program.toUpper with _ | c <;> simp
  · rw [hc]
    refine ⟨_, rfl, ?_, ?_⟩
    · rw [List.map_map]
      have : (Prod.fst ∘ fun t : OpsTile E => (t, c)) = id := rfl
      rw [this, List.map_id]
      apply List.filter_congr
      intro t _
      rw [Bool.eq_iff_iff]
      rw [decide_eq_true_eq]
      simp [InRelease, and_assoc]
    · intro x hx
      obtain ⟨t, _, rfl⟩ := List.mem_map.1 hx
      rfl

/-- **C82.** Each of these tiles is treated in one pass, and only one, of `apply_fiber_assignment` (passes are numbered from 0). -/
theorem C82_passes {E : Type} {conditions : String → Option ℕ} {ops : List (OpsTile E)} {observed : List ℕ} {program : String} {npasses : ℕ}
    {l : List (OpsTile E × ℕ)} (h : buildTiles conditions ops observed program npasses = .ok l) (h0 : ∀ t ∈ ops, 0 ≤ t.pass)
    {x : OpsTile E × ℕ} (hx : x ∈ l) : ∃! p : ℕ, p ∈ List.range npasses ∧ x.1.pass = p := by
  unfold buildTiles at h
  rcases hc : conditions program.toUpper with _ | c
  · simp [hc] at h
  · simp only [hc, Except.ok.injEq] at h
    subst h
    obtain ⟨t, ht, rfl⟩ := List.mem_map.1 hx
    rw [List.mem_filter] at ht
    have h1 := h0 t ht.1
    have h2 : t.pass < npasses := by
      have := ht.2
      simp only [Bool.and_eq_true, decide_eq_true_eq] at this
      exact this.2
    refine ⟨t.pass.toNat, ⟨List.mem_range.2 (by omega), (Int.toNat_of_nonneg h1).symm⟩, ?_⟩
    rintro p ⟨_, hp⟩
    show p = t.pass.toNat
    have : t.pass = (p : ℤ) := hp
    omega

example : ∃ l, buildTiles (E := Unit) (fun s => if s = "DARK" then some 1 else none)
    [⟨5, "DARK", 0, ()⟩, ⟨6, "BRIGHT", 0, ()⟩, ⟨7, "DARK", 7, ()⟩, ⟨8, "DARK", 6, ()⟩, ⟨9, "DARK", 1, ()⟩] [5, 6, 7, 8] "dark" 7 = .ok l ∧
    l.map (fun x => (x.1.id, x.2)) = [(5, 1), (8, 1)] := by
  have e : "dark".toUpper = "DARK" := Regions.upper_eq (by decide)
  unfold buildTiles
  rw [e]
  exact ⟨_, rfl, by decide⟩

/-! ### Names of files -/

theorem value_cons (c : Char) : ∀ l : List Char, value (c :: l) = (c.toNat - 48) * 10 ^ l.length + value l := by
  have h : ∀ (l : List Char) (a : ℕ), l.foldl (fun a c => 10 * a + (c.toNat - 48)) a = a * 10 ^ l.length + value l := by
    intro l
    induction l with
    | nil => intro a; simp [value]
    | cons d l ih =>
      intro a
      unfold value
      rw [List.foldl_cons, List.foldl_cons, ih, ih, List.length_cons, pow_succ]
      ring
  intro l
  unfold value
  rw [List.foldl_cons, h, Nat.mul_zero, Nat.zero_add]
  rfl

theorem isDigit_bounds {c : Char} (h : c.isDigit = true) : 48 ≤ c.toNat ∧ c.toNat ≤ 57 := by
  unfold Char.isDigit at h
  simp only [Bool.and_eq_true, decide_eq_true_eq] at h
  exact ⟨h.1, h.2⟩

theorem value_lt : ∀ l : List Char, (∀ c ∈ l, c.isDigit = true) → value l < 10 ^ l.length
  | [], _ => by simp [value]
  | c :: l, h => by
    have ih := value_lt l fun x hx => h x (List.mem_cons_of_mem _ hx)
    have hc := isDigit_bounds (h c List.mem_cons_self)
    rw [value_cons, List.length_cons, pow_succ]
    have : (c.toNat - 48) * 10 ^ l.length ≤ 9 * 10 ^ l.length := Nat.mul_le_mul_right _ (by omega)
    omega

theorem eq_of_value : ∀ a b : List Char, (∀ c ∈ a, c.isDigit = true) → (∀ c ∈ b, c.isDigit = true) → a.length = b.length →
    value a = value b → a = b
  | [], [], _, _, _, _ => rfl
  | [], _ :: _, _, _, h, _ => by simp at h
  | _ :: _, [], _, _, h, _ => by simp at h
  | c :: a, d :: b, ha, hb, hl, hv => by
    simp only [List.length_cons, Nat.add_right_cancel_iff] at hl
    have hc := isDigit_bounds (ha c List.mem_cons_self)
    have hd := isDigit_bounds (hb d List.mem_cons_self)
    have la := value_lt a fun x hx => ha x (List.mem_cons_of_mem _ hx)
    have lb := value_lt b fun x hx => hb x (List.mem_cons_of_mem _ hx)
    rw [value_cons, value_cons, hl] at hv
    rw [hl] at la
    have e1 : c.toNat - 48 = d.toNat - 48 := by
      have h1 : ((c.toNat - 48) * 10 ^ b.length + value a) / 10 ^ b.length = c.toNat - 48 := by
        rw [Nat.add_comm, Nat.add_mul_div_right _ _ (by positivity), Nat.div_eq_of_lt la, Nat.zero_add]
      have h2 : ((d.toNat - 48) * 10 ^ b.length + value b) / 10 ^ b.length = d.toNat - 48 := by
        rw [Nat.add_comm, Nat.add_mul_div_right _ _ (by positivity), Nat.div_eq_of_lt lb, Nat.zero_add]
      rw [← h1, hv, h2]
    have e2 : value a = value b := by rw [e1] at hv; omega
    have e3 : c = d := by
      apply Char.ext
      apply UInt32.toNat_inj.1
      show c.toNat = d.toNat
      omega
    rw [e3, eq_of_value a b (fun x hx => ha x (List.mem_cons_of_mem _ hx)) (fun x hx => hb x (List.mem_cons_of_mem _ hx)) hl e2]

theorem value_append : ∀ a b : List Char, value (a ++ b) = value a * 10 ^ b.length + value b
  | [], b => by simp [value]
  | c :: a, b => by
    rw [List.cons_append, value_cons, value_append a b, value_cons, List.length_append, pow_add]
    ring

theorem length_padded_eq {w n : ℕ} (h : n < 10 ^ w) (hw : 0 < w) : (padded w n).length = w := by
  rw [length_padded]
  apply max_eq_left
  unfold decimal
  split_ifs with h0
  · exact hw
  · rw [List.length_reverse, List.length_map]
    exact (Nat.digits_length_le_iff (by norm_num) n).2 h

theorem padded_split {n : ℕ} (h : n < 10 ^ 6) : padded 6 n = padded 3 (n / 1000) ++ padded 3 (n % 1000) := by
  have h1 : n / 1000 < 10 ^ 3 := by norm_num at h ⊢; omega
  have h2 : n % 1000 < 10 ^ 3 := by norm_num; omega
  have l1 := length_padded_eq h1 (by norm_num)
  have l2 := length_padded_eq h2 (by norm_num)
  apply eq_of_value
  · exact fun c hc => padded_isDigit hc
  · intro c hc
    rcases List.mem_append.1 hc with hc | hc <;> exact padded_isDigit hc
  · rw [length_padded_eq h (by norm_num), List.length_append, l1, l2]
  · rw [value_append, value_padded, value_padded, value_padded, l2]
    norm_num
    omega

/-- **C82.** For tile identifiers of at most six digits, the files are `sss/ssssss-sky.fits` and `sss/fiberassign-ssssss.fits.gz`, with
the identifier on six digits, in the directory of the thousands of the identifier, on three digits. -/
theorem C82_paths {n : ℕ} (h : n < 10 ^ 6) :
    (∃ a, a.length = 6 ∧ (∀ c ∈ a, c.isDigit = true) ∧ value a = n ∧ ∃ d, d.length = 3 ∧ (∀ c ∈ d, c.isDigit = true) ∧ value d = n / 1000 ∧
      skyFile n = "/dvs_ro/cfs/cdirs/desi/survey/fiberassign/main/".toList ++ d ++ '/' :: a ++ "-sky.fits".toList ∧
      assignFile n = "/dvs_ro/cfs/cdirs/desi/target/fiberassign/tiles/trunk/".toList ++ d ++ "/fiberassign-".toList ++ a ++
        ".fits.gz".toList) := by
  have h1 : n / 1000 < 10 ^ 3 := by norm_num at h ⊢; omega
  have l1 := length_padded_eq h1 (by norm_num)
  have e : (padded 6 n).take 3 = padded 3 (n / 1000) := by
    rw [padded_split h]
    rw [List.take_append_of_le_length (by omega), List.take_of_length_le (by omega)]
  refine ⟨padded 6 n, length_padded_eq h (by norm_num), fun c hc => padded_isDigit hc, value_padded 6 n, padded 3 (n / 1000), l1,
    fun c hc => padded_isDigit hc, value_padded _ _, ?_, ?_⟩
  · unfold skyFile tileFile
    rw [e]
    simp only [List.append_assoc, List.cons_append]
    rfl
  · unfold assignFile tileFile
    rw [e]

theorem tileFile_injective {a b c : List Char} {n m : ℕ} (hb : ∀ x, b.head? = some x → x.isDigit = false) (hb0 : b ≠ [])
    (hc : ∀ x, c.head? = some x → x.isDigit = false) (hc0 : c ≠ []) (h : tileFile a b c n = tileFile a b c m) : n = m := by
  have key : ∀ (p q r s : List Char), (∀ x ∈ p, x.isDigit = true) → (∀ x ∈ q, x.isDigit = true) →
      (∀ x, r.head? = some x → x.isDigit = false) → r ≠ [] → (∀ x, s.head? = some x → x.isDigit = false) → s ≠ [] →
      p ++ r = q ++ s → p = q ∧ r = s := by
    intro p
    induction p with
    | nil =>
      intro q r s _ hq hr hr0 _ _ e
      rcases q with _ | ⟨x, q⟩
      · exact ⟨rfl, e⟩
      · exfalso
        rw [List.nil_append, List.cons_append] at e
        have := hr x (by rw [e]; rfl)
        rw [hq x List.mem_cons_self] at this
        exact absurd this (by simp)
    | cons y p ih =>
      intro q r s hp hq hr hr0 hs hs0 e
      rcases q with _ | ⟨x, q⟩
      · exfalso
        rw [List.nil_append, List.cons_append] at e
        have := hs y (by rw [← e]; rfl)
        rw [hp y List.mem_cons_self] at this
        exact absurd this (by simp)
      · rw [List.cons_append, List.cons_append, List.cons.injEq] at e
        obtain ⟨rfl, e⟩ := e
        obtain ⟨rfl, rfl⟩ := ih q r s (fun z hz => hp z (List.mem_cons_of_mem _ hz)) (fun z hz => hq z (List.mem_cons_of_mem _ hz)) hr hr0
          hs hs0 e
        exact ⟨rfl, rfl⟩
  unfold tileFile at h
  simp only [List.append_assoc] at h
  have h := List.append_cancel_left h
  have headApp : ∀ (u v : List Char), u ≠ [] → (∀ x, u.head? = some x → x.isDigit = false) →
      (∀ x, (u ++ v).head? = some x → x.isDigit = false) := by
    intro u v hu hx x e
    rcases u with _ | ⟨y, u⟩
    · exact absurd rfl hu
    · exact hx x e
  obtain ⟨_, h⟩ := key _ _ _ _ (fun x hx => padded_isDigit (List.mem_of_mem_take hx)) (fun x hx => padded_isDigit (List.mem_of_mem_take hx))
    (headApp b _ hb0 hb) (by simp [hb0]) (headApp b _ hb0 hb) (by simp [hb0]) h
  have h := List.append_cancel_left h
  obtain ⟨h, _⟩ := key _ _ _ _ (fun x hx => padded_isDigit hx) (fun x hx => padded_isDigit hx) hc hc0 hc hc0 h
  exact padded_injective 6 h

/-- **C82.** Two tiles never share a file. -/
theorem C82_distinct : Function.Injective skyFile ∧ Function.Injective assignFile := by
  refine ⟨fun n m h => ?_, fun n m h => ?_⟩
  · exact tileFile_injective (by decide) (by decide) (by decide) (by decide) h
  · exact tileFile_injective (by decide) (by decide) (by decide) (by decide) h

/-- **C82.** `read_sky_targets` returns the rows of the files of the tiles, one tile after the other, and raises if one of them cannot
be read. -/
theorem C82_sky {ρ : Type} (read : List Char → Except Err (List ρ)) (tiles : List ℕ) (rows : List ρ) :
    readSkyTargets read tiles = .ok rows ↔
      ∃ parts, List.Forall₂ (fun t p => read (skyFile t) = .ok p) tiles parts ∧ rows = parts.flatten := by
  unfold readSkyTargets
  have h : ∀ (l : List ℕ) (parts : List (List ρ)), (l.map skyFile).mapM read = .ok parts ↔
      List.Forall₂ (fun t p => read (skyFile t) = .ok p) l parts := by
    intro l
    induction l with
    | nil => intro parts; rcases parts with _ | ⟨p, parts⟩ <;> simp [pure, Except.pure]
    | cons t l ih =>
      intro parts
      rw [List.map_cons, List.mapM_cons]
      rcases hr : read (skyFile t) with e | p
      · rcases parts with _ | ⟨q, parts⟩ <;> simp [bind, Except.bind, hr]
      · rcases hm : (l.map skyFile).mapM read with e | ps
        · rcases parts with _ | ⟨q, parts⟩
          · simp [bind, Except.bind]
          · have := ih parts
            simp [bind, Except.bind, hr, ← this, hm]
        · rcases parts with _ | ⟨q, parts⟩
          · simp [bind, Except.bind, pure, Except.pure]
          · have := ih parts
            simp [bind, Except.bind, pure, Except.pure, hr, ← this, hm]
  rcases hm : (tiles.map skyFile).mapM read with e | ps
  · constructor
    · intro h'; cases h'
    · rintro ⟨parts, hp, _⟩
      rw [(h tiles parts).2 hp] at hm
      cases hm
  · constructor
    · intro h'
      refine ⟨ps, (h tiles ps).1 hm, ?_⟩
      simpa [bind, Except.bind, pure, Except.pure] using h'.symm
    · rintro ⟨parts, hp, rfl⟩
      rw [(h tiles parts).2 hp] at hm
      cases hm
      rfl

example : skyFile 1234 = "/dvs_ro/cfs/cdirs/desi/survey/fiberassign/main/001/001234-sky.fits".toList := by
  have e : decimal 1234 = ['1', '2', '3', '4'] := by
    unfold decimal
    norm_num
    decide
  unfold skyFile tileFile padded
  rw [e]
  decide

/-! ### Stuck positioners -/

/-- The last element of a list with a property. -/
def lastSuch {α : Type*} (p : α → Bool) (l : List α) : Option α := l.reverse.find? p

/-- A positioner is stuck, and not broken. -/
def Stuck (i j : ℕ) (r : FiberRow) : Prop := r.status.testBit i = true ∧ r.status.testBit j = false

instance (i j : ℕ) (r : FiberRow) : Decidable (Stuck i j r) := by unfold Stuck; infer_instance

theorem stuck_bits {i j : ℕ} (hij : i ≠ j) (s : ℕ) :
    s &&& (2 ^ i ||| 2 ^ j) = 2 ^ i ↔ s.testBit i = true ∧ s.testBit j = false := by
  constructor
  · intro h
    have hi := congrArg (fun x => x.testBit i) h
    have hj := congrArg (fun x => x.testBit j) h
    simp only [Nat.testBit_and, Nat.testBit_or, Nat.testBit_two_pow] at hi hj
    have hji : ¬j = i := fun e => hij e.symm
    simp_all
  · rintro ⟨hi, hj⟩
    apply Nat.eq_of_testBit_eq
    intro k
    simp only [Nat.testBit_and, Nat.testBit_or, Nat.testBit_two_pow]
    by_cases h1 : i = k
    · subst h1; simp [hi]
    · by_cases h2 : j = k
      · subst h2; simp [hj, h1]
      · simp [h1, h2]

theorem sky_bit (k x : ℕ) : 0 < x &&& 2 ^ k ↔ x.testBit k = true := by
  constructor
  · intro h
    by_contra hx
    have : x &&& 2 ^ k = 0 := by
      apply Nat.eq_of_testBit_eq
      intro m
      simp only [Nat.testBit_and, Nat.testBit_two_pow, Nat.zero_testBit]
      by_cases e : k = m
      · subst e; simpa using hx
      · simp [e]
    omega
  · intro h
    rcases Nat.eq_zero_or_pos (x &&& 2 ^ k) with h0 | h0
    · have := congrArg (fun x => x.testBit k) h0
      simp [Nat.testBit_and, Nat.testBit_two_pow, h] at this
    · exact h0

theorem foldl_map_put {γ : Type*} (key : γ → ℤ) (v : γ → Bool) (l : List γ) (d : List (ℤ × Bool)) :
    l.foldl (fun d r => put (key r) (v r) d) d = (l.map fun r => (key r, v r)).foldl (fun d x => put x.1 x.2 d) d := by
  rw [List.foldl_map]

theorem lastSuch_map {γ : Type*} (key : γ → ℤ) (v : γ → Bool) (l : List γ) (loc : ℤ) :
    (((l.map fun r => (key r, v r)).reverse.find? fun x => decide (x.1 = loc)).map Prod.snd) =
      (lastSuch (fun r => decide (key r = loc)) l).map v := by
  unfold lastSuch
  rw [← List.map_reverse, List.find?_map, Option.map_map]
  rfl

/-- **C83.** For one file, the locations are in increasing order, each once. A location of SKY_MONITOR has whether its target is a sky
target; any other location is there exactly if its positioner is stuck and not broken, with whether it is on a sky position. (If a
location is repeated, the last one counts.) -/
theorem C83_file {i j k : ℕ} (hij : i ≠ j) (f : AssignData) :
    ((stuckFile (2 ^ i) (2 ^ j) (2 ^ k) f).map Prod.fst).Pairwise (· < ·) ∧
    ∀ loc, (stuckFile (2 ^ i) (2 ^ j) (2 ^ k) f).lookup loc =
      match lastSuch (fun r => decide (r.1 = loc)) f.monitors with
      | some r => some (r.2.testBit k)
      | none => (lastSuch (fun r => decide (Stuck i j r ∧ r.loc = loc)) f.fibers).map fun r => decide (r.objtype = "SKY") := by
  have hsel : (f.fibers.filter fun r => decide (r.status &&& (2 ^ i ||| 2 ^ j) = 2 ^ i)) = f.fibers.filter fun r => decide (Stuck i j r) := by
    apply List.filter_congr
    intro r _
    simp only [stuck_bits hij, Stuck]
  have hmon : ∀ r : ℤ × ℕ, decide (0 < r.2 &&& 2 ^ k) = r.2.testBit k := fun r => by
    rcases hb : r.2.testBit k with _ | _
    · simp only [decide_eq_false_iff_not, sky_bit, hb]; simp
    · simp only [decide_eq_true_eq, sky_bit, hb]
  unfold stuckFile
  simp only [hsel, hmon]
  rw [foldl_map_put (fun r : FiberRow => r.loc) (fun r => decide (r.objtype = "SKY")), foldl_map_put (fun r : ℤ × ℕ => r.1) fun r => r.2.testBit k]
  set d1 := ((f.fibers.filter fun r => decide (Stuck i j r)).map fun r => (r.loc, decide (r.objtype = "SKY"))).foldl
    (fun d x => put x.1 x.2 d) [] with hd1
  set d2 := (f.monitors.map fun r => (r.1, r.2.testBit k)).foldl (fun d x => put x.1 x.2 d) d1 with hd2
  have n1 : (d1.map Prod.fst).Nodup := nodup_foldl _ _ (by simp)
  have n2 : (d2.map Prod.fst).Nodup := nodup_foldl _ _ n1
  have hp := List.mergeSort_perm d2 fun a b => decide (a.1 ≤ b.1)
  refine ⟨?_, fun loc => ?_⟩
  · have hs : (d2.mergeSort fun a b => decide (a.1 ≤ b.1)).Pairwise fun a b => a.1 ≤ b.1 := by
      have := List.pairwise_mergeSort (le := fun a b : ℤ × Bool => decide (a.1 ≤ b.1)) (fun a b c h1 h2 => by simp at *; omega)
        (fun a b => by simp; omega) d2
      exact this.imp fun h => by simpa using h
    rw [List.pairwise_map]
    have hn : ((d2.mergeSort fun a b => decide (a.1 ≤ b.1)).map Prod.fst).Nodup := ((hp.map Prod.fst).nodup_iff).2 n2
    rw [List.Nodup, List.pairwise_map] at hn
    exact (hs.and hn).imp fun h => lt_of_le_of_ne h.1 h.2
  · rw [lookup_perm hp (((hp.map Prod.fst).nodup_iff).2 n2) loc, hd2, lookup_foldl, lastSuch_map (fun r : ℤ × ℕ => r.1), hd1, lookup_foldl,
      lastSuch_map (fun r : FiberRow => r.loc)]
    have e : lastSuch (fun r : FiberRow => decide (r.loc = loc)) (f.fibers.filter fun r => decide (Stuck i j r)) =
        lastSuch (fun r => decide (Stuck i j r ∧ r.loc = loc)) f.fibers := by
      unfold lastSuch
      rw [← List.filter_reverse, List.find?_filter]
      congr 1
      funext r
      simp
    rw [e]
    generalize lastSuch (fun r : ℤ × ℕ => decide (r.1 = loc)) f.monitors = o
    cases o <;> simp

theorem no_comma (n : ℕ) : ',' ∉ assignFile n := by
  unfold assignFile tileFile
  simp only [List.mem_append, not_or]
  refine ⟨⟨⟨⟨by decide, fun h => ?_⟩, by decide⟩, fun h => ?_⟩, by decide⟩
  · exact absurd (padded_isDigit (List.mem_of_mem_take h)) (by decide)
  · exact absurd (padded_isDigit h) (by decide)

/-- **C83.** For at least one tile, `stuck_on_sky_from_fafns(fafns_for_tiles(tiles))` reads the file of each tile, in order, raising the
error of the first that cannot be read. If all are read, it has one entry for each tile of the headers, made from the last file with
this tile, and no other. -/
theorem C83_tiles (stuck broken sky : ℕ) (read : List Char → Except Err AssignData) {tiles : List ℕ} (h : tiles ≠ []) :
    (∀ e, stuckOnSky stuck broken sky read (fafnsForTiles tiles) = .error e ↔
      ∃ pre t post, tiles = pre ++ t :: post ∧ (∀ s ∈ pre, ∃ f, read (assignFile s) = .ok f) ∧ read (assignFile t) = .error e) ∧
    ∀ data : List AssignData, List.Forall₂ (fun t f => read (assignFile t) = .ok f) tiles data →
      ∃ d, stuckOnSky stuck broken sky read (fafnsForTiles tiles) = .ok d ∧ (d.map Prod.fst).Nodup ∧
        ∀ t, d.lookup t = (lastSuch (fun f => decide (f.tileid = t)) data).map (stuckFile stuck broken sky) := by
  have hs : split ',' (fafnsForTiles tiles) = tiles.map assignFile := by
    unfold fafnsForTiles
    apply split_join
    · simpa using h
    · intro a ha
      obtain ⟨n, _, rfl⟩ := List.mem_map.1 ha
      exact no_comma n
  unfold stuckOnSky
  rw [hs]
  clear hs h
  refine ⟨?_, ?_⟩
  · intro e
    generalize ([] : List (ℤ × List (ℤ × Bool))) = d
    induction tiles generalizing d with
    | nil => simp [List.foldlM, pure, Except.pure]
    | cons t l ih =>
      rw [List.map_cons, List.foldlM_cons]
      rcases hr : read (assignFile t) with e' | f
      · simp only [bind, Except.bind, Except.error.injEq]
        constructor
        · rintro rfl
          exact ⟨[], t, l, rfl, by simp, hr⟩
        · rintro ⟨pre, t', post, he, hp, ht⟩
          rcases pre with _ | ⟨s, pre⟩
          · simp only [List.nil_append, List.cons.injEq] at he
            rw [← he.1, hr] at ht
            exact Except.error.inj ht
          · simp only [List.cons_append, List.cons.injEq] at he
            obtain ⟨f, hf⟩ := hp s List.mem_cons_self
            rw [← he.1, hr] at hf
            cases hf
      · simp only [bind, Except.bind, pure, Except.pure]
        have ih' := ih (put f.tileid (stuckFile stuck broken sky f) d)
        simp only [bind, Except.bind, pure, Except.pure] at ih'
        rw [ih']
        constructor
        · rintro ⟨pre, t', post, rfl, hp, ht⟩
          refine ⟨t :: pre, t', post, rfl, ?_, ht⟩
          intro s hs
          rcases List.mem_cons.1 hs with rfl | hs
          · exact ⟨f, hr⟩
          · exact hp s hs
        · rintro ⟨pre, t', post, he, hp, ht⟩
          rcases pre with _ | ⟨s, pre⟩
          · simp only [List.nil_append, List.cons.injEq] at he
            rw [← he.1, hr] at ht
            cases ht
          · simp only [List.cons_append, List.cons.injEq] at he
            exact ⟨pre, t', post, he.2, fun x hx => hp x (List.mem_cons_of_mem _ hx), ht⟩
  · intro data hd
    have key : ∀ (tiles : List ℕ) (data : List AssignData), List.Forall₂ (fun t f => read (assignFile t) = .ok f) tiles data →
        ∀ d : List (ℤ × List (ℤ × Bool)), (tiles.map assignFile).foldlM (fun d fn => do
          let f ← read fn
          return put f.tileid (stuckFile stuck broken sky f) d) d =
        .ok ((data.map fun f => (f.tileid, stuckFile stuck broken sky f)).foldl (fun d x => put x.1 x.2 d) d) := by
      intro tiles data hd
      induction hd with
      | nil => intro d; rfl
      | @cons t f l data hr _ ih =>
        intro d
        rw [List.map_cons, List.foldlM_cons, List.map_cons, List.foldl_cons, hr]
        exact ih _
    refine ⟨_, key tiles data hd [], nodup_foldl _ _ (by simp), fun t => ?_⟩
    rw [lookup_foldl, ← List.map_reverse, List.find?_map, Option.map_map]
    unfold lastSuch
    simp [List.lookup, Function.comp_def]

/-- **C83.** In particular, with the file of each tile giving that tile, and distinct tiles, every tile has the table of its file. -/
theorem C83_each (stuck broken sky : ℕ) (read : List Char → Except Err AssignData) {tiles : List ℕ} (h : tiles ≠ [])
    (file : ℕ → AssignData) (hr : ∀ t ∈ tiles, read (assignFile t) = .ok (file t) ∧ (file t).tileid = t) :
    ∃ d, stuckOnSky stuck broken sky read (fafnsForTiles tiles) = .ok d ∧
      ∀ t : ℕ, d.lookup (t : ℤ) = if t ∈ tiles then some (stuckFile stuck broken sky (file t)) else none := by
  obtain ⟨d, hd, _, hl⟩ := (C83_tiles stuck broken sky read h).2 (tiles.map file) (by
    rw [List.forall₂_map_right_iff]
    exact List.forall₂_same.2 fun t ht => (hr t ht).1)
  refine ⟨d, hd, fun t => ?_⟩
  rw [hl]
  unfold lastSuch
  rw [← List.map_reverse, List.find?_map]
  rcases hf : tiles.reverse.find? ((fun f : AssignData => decide (f.tileid = (t : ℤ))) ∘ file) with _ | s
  · rw [List.find?_eq_none] at hf
    have : t ∉ tiles := fun ht => by
      have := hf t (List.mem_reverse.2 ht)
      simp [(hr t ht).2] at this
    simp [this]
  · have h1 := List.mem_reverse.1 (List.mem_of_find?_eq_some hf)
    have h2 := List.find?_some hf
    simp only [Function.comp_apply, decide_eq_true_eq, (hr s h1).2, Nat.cast_inj] at h2
    subst h2
    simp [h1]

/-- **C83.** Without any tile, the file with the empty name is read. -/
theorem C83_none (stuck broken sky : ℕ) (read : List Char → Except Err AssignData) {e : Err} (h : read [] = .error e) :
    stuckOnSky stuck broken sky read (fafnsForTiles []) = .error e := by
  unfold stuckOnSky fafnsForTiles
  simp [join, split, List.foldlM, h, bind, Except.bind]

/-- One stuck positioner on sky, one stuck and broken, one that works; two monitors, one off sky. -/
example : ∃ d, d = stuckFile (2 ^ 1) (2 ^ 2) (2 ^ 2)
      ⟨7, [⟨12, 2, "SKY"⟩, ⟨10, 6, "SKY"⟩, ⟨11, 0, "TGT"⟩, ⟨9, 3, "TGT"⟩], [(30, 4), (2, 1)]⟩ ∧
    ([2, 9, 10, 11, 12, 30] : List ℤ).map (fun k => d.lookup k) = [some false, some false, none, none, some true, some true] := by
  refine ⟨_, rfl, ?_⟩
  simp only [List.map_cons, List.map_nil, (C83_file (i := 1) (j := 2) (by decide) _).2]
  decide

/-! ### Observing conditions -/

/-- **C82.** Each tile is given to `fiberassign` with the date of the options, else its own date, else the middle of the survey; with
the angle of the options, else the angle of the field at its position and date; and with the hour angle of the options, else zero. -/
theorem C82_conditions {τ : Type} (survey : τ) (rotation : ℝ → ℝ → τ → ℝ) (obsdate : Option τ) (fieldrot ha : Option ℝ)
    (column : Option (List τ)) (tiles : List Tile) (hc : ∀ l, column = some l → l.length = tiles.length) :
    (convertTiles survey rotation obsdate fieldrot ha column tiles).map (·.tile) = tiles ∧
    ∀ (n : ℕ) (x : ObsTile τ), (convertTiles survey rotation obsdate fieldrot ha column tiles)[n]? = some x →
      some x.date = obsdate.or ((match column with | some l => l[n]? | none => none).or (some survey)) ∧
      x.theta = fieldrot.getD (rotation x.tile.ra x.tile.dec x.date) ∧ x.ha = ha.getD 0 := by
  have ld : (obsDates survey obsdate column tiles.length).length = tiles.length := by
    unfold obsDates
    cases obsdate <;> cases column <;> simp_all
  have gd : ∀ n < tiles.length, (obsDates survey obsdate column tiles.length)[n]? =
      obsdate.or ((match column with | some l => l[n]? | none => none).or (some survey)) := by
    intro n hn
    unfold obsDates
    cases obsdate with
    | some d => simp [List.getElem?_replicate, hn]
    | none =>
      cases column with
      | some l =>
        have : n < l.length := by rw [hc l rfl]; exact hn
        simp [List.getElem?_eq_getElem this]
      | none => simp [List.getElem?_replicate, hn]
  have lh : (obsHas ha tiles.length).length = tiles.length := by unfold obsHas; cases ha <;> simp
  have lt : (obsThetas rotation fieldrot (obsDates survey obsdate column tiles.length) tiles).length = tiles.length := by
    unfold obsThetas
    cases fieldrot <;> simp [ld]
  unfold convertTiles
  simp only
  generalize obsDates survey obsdate column tiles.length = dates at ld gd lt
  refine ⟨?_, fun n x hx => ?_⟩
  · apply List.ext_getElem
    · simp [ld, lt, lh]
    · intro n h1 h2; simp
  · rw [List.getElem?_map, Option.map_eq_some_iff] at hx
    obtain ⟨⟨⟨⟨t, d⟩, th⟩, h⟩, hp, rfl⟩ := hx
    rw [List.getElem?_zip_eq_some, List.getElem?_zip_eq_some, List.getElem?_zip_eq_some] at hp
    obtain ⟨⟨⟨h1, h2⟩, h3⟩, h4⟩ := hp
    simp only at h1 h2 h3 h4 ⊢
    refine ⟨?_, ?_, ?_⟩
    · rw [← gd n (List.getElem?_eq_some_iff.1 h1).1, h2]
    · unfold obsThetas at h3
      cases fieldrot with
      | none =>
        simp only [List.getElem?_map, Option.map_eq_some_iff, List.getElem?_zip_eq_some] at h3
        obtain ⟨⟨t', d'⟩, ⟨hq1, hq2⟩, hq⟩ := h3
        simp only at hq1 hq2
        rw [h1] at hq1
        rw [h2] at hq2
        cases hq1
        cases hq2
        exact hq.symm
      | some y => exact List.eq_of_mem_replicate (List.mem_of_getElem? h3)
    · unfold obsHas at h4
      cases ha with
      | none => exact List.eq_of_mem_replicate (List.mem_of_getElem? h4)
      | some y => exact List.eq_of_mem_replicate (List.mem_of_getElem? h4)

/-- Two tiles with their own dates. -/
example : (convertTiles (0 : ℝ) (fun ra dec t => ra + dec + t) none none (some 3) (some [5, 7]) [⟨1, 0, 10, 20, ⟩, ⟨2, 0, 30, 40⟩]).map
    (fun x => (x.tile.id, x.date, x.theta, x.ha)) = [(1, 5, 35, 3), (2, 7, 77, 3)] := by
  norm_num [convertTiles, obsDates, obsThetas, obsHas, List.replicate]

end Verif.Props
