import Verif.Model.Names
import Mathlib.Data.List.Nodup
import Mathlib.Tactic.IntervalCases
import Mathlib.Tactic.Ring

/-! # File names and dictionaries -/

namespace Verif.Lemmas.Names

open Verif.Model.Names

/-- The number that digits stand for. -/
def value (l : List Char) : ℕ := l.foldl (fun a c => 10 * a + (c.toNat - 48)) 0

theorem digit_value {d : ℕ} (h : d < 10) : (digit d).toNat - 48 = d := by
  unfold digit
  interval_cases d <;> rfl

theorem digit_isDigit {d : ℕ} (h : d < 10) : (digit d).isDigit = true := by
  unfold digit
  interval_cases d <;> rfl

theorem value_digits : ∀ l : List ℕ, (∀ d ∈ l, d < 10) → value ((l.map digit).reverse) = Nat.ofDigits 10 l
  | [], _ => rfl
  | d :: l, h => by
    have ih := value_digits l fun x hx => h x (List.mem_cons_of_mem _ hx)
    unfold value at ih ⊢
    rw [List.map_cons, List.reverse_cons, List.foldl_append, ih]
    simp only [List.foldl_cons, List.foldl_nil, Nat.ofDigits_cons, digit_value (h d List.mem_cons_self)]
    push_cast
    ring

theorem value_decimal (n : ℕ) : value (decimal n) = n := by
  unfold decimal
  split_ifs with h
  · subst h; rfl
  · rw [value_digits _ fun d hd => Nat.digits_lt_base (by norm_num) hd, Nat.ofDigits_digits]

theorem value_zeros (l : List Char) : ∀ k : ℕ, value (List.replicate k '0' ++ l) = value l
  | 0 => rfl
  | k + 1 => by
    have ih := value_zeros l k
    unfold value at ih ⊢
    rw [List.replicate_succ, List.cons_append, List.foldl_cons]
    exact ih

theorem value_padded (w n : ℕ) : value (padded w n) = n := by
  unfold padded; rw [value_zeros, value_decimal]

theorem decimal_injective : Function.Injective decimal := fun a b h => by
  rw [← value_decimal a, h, value_decimal]

theorem padded_injective (w : ℕ) : Function.Injective (padded w) := fun a b h => by
  rw [← value_padded w a, h, value_padded]

theorem decimal_isDigit {n : ℕ} {c : Char} (h : c ∈ decimal n) : c.isDigit = true := by
  unfold decimal at h
  split_ifs at h with hn
  · rw [List.mem_singleton.1 h]; rfl
  · rw [List.mem_reverse, List.mem_map] at h
    obtain ⟨d, hd, rfl⟩ := h
    exact digit_isDigit (Nat.digits_lt_base (by norm_num) hd)

theorem padded_isDigit {w n : ℕ} {c : Char} (h : c ∈ padded w n) : c.isDigit = true := by
  unfold padded at h
  rcases List.mem_append.1 h with h | h
  · rw [List.eq_of_mem_replicate h]; rfl
  · exact decimal_isDigit h

theorem decimal_ne_nil (n : ℕ) : decimal n ≠ [] := by
  unfold decimal
  split_ifs with h
  · simp
  · simpa [Nat.digits_ne_nil_iff_ne_zero] using h

theorem length_padded (w n : ℕ) : (padded w n).length = max w (decimal n).length := by
  unfold padded
  rw [List.length_append, List.length_replicate]
  omega

/-! ### Splitting -/

theorem split_ne_nil (c : Char) : ∀ l, split c l ≠ []
  | [] => by simp [split]
  | a :: l => by
    unfold split
    split_ifs
    · simp
    · split <;> simp

theorem split_plain (c : Char) : ∀ l : List Char, c ∉ l → split c l = [l]
  | [], _ => rfl
  | a :: l, h => by
    have ha : a ≠ c := fun e => h (e ▸ List.mem_cons_self)
    unfold split
    rw [if_neg ha, split_plain c l fun hl => h (List.mem_cons_of_mem _ hl)]

theorem split_append (c : Char) : ∀ a l : List Char, c ∉ a → split c (a ++ c :: l) = a :: split c l
  | [], l, _ => by simp [split]
  | x :: a, l, h => by
    have hx : x ≠ c := fun e => h (e ▸ List.mem_cons_self)
    rw [List.cons_append]
    conv_lhs => unfold split
    rw [if_neg hx, split_append c a l fun hl => h (List.mem_cons_of_mem _ hl)]

theorem split_join (c : Char) : ∀ l : List (List Char), l ≠ [] → (∀ a ∈ l, c ∉ a) → split c (join [c] l) = l
  | [], h, _ => absurd rfl h
  | [a], _, h => split_plain c a (h a List.mem_cons_self)
  | a :: b :: l, _, h => by
    have ih := split_join c (b :: l) (by simp) fun x hx => h x (List.mem_cons_of_mem _ hx)
    have e : join [c] (a :: b :: l) = a ++ c :: join [c] (b :: l) := by simp [join]
    rw [e, split_append c a _ (h a List.mem_cons_self), ih]

theorem join_injective (c : Char) {l l' : List (List Char)} (h : join [c] l = join [c] l') (h0 : l ≠ []) (h0' : l' ≠ [])
    (hl : ∀ a ∈ l, c ∉ a) (hl' : ∀ a ∈ l', c ∉ a) : l = l' := by
  rw [← split_join c l h0 hl, h, split_join c l' h0' hl']

/-! ### Dictionaries -/

variable {κ α : Type*} [DecidableEq κ]

theorem lookup_put (k k' : κ) (v : α) : ∀ d : List (κ × α), (put k v d).lookup k' = if k' = k then some v else d.lookup k'
  | [] => by
    by_cases h : k' = k
    · subst h; simp [put, List.lookup]
    · have : (k' == k) = false := by simpa using h
      simp [put, List.lookup, h, this]
  | (a, b) :: d => by
    unfold put
    by_cases ha : a = k
    · subst ha
      by_cases h : k' = a
      · subst h; simp [List.lookup]
      · have : (k' == a) = false := by simpa using h
        simp [List.lookup, h, this]
    · rw [if_neg ha, List.lookup_cons, List.lookup_cons, lookup_put k k' v d]
      by_cases h : k' = a
      · subst h; simp [ha]
      · have : (k' == a) = false := by simpa using h
        simp [this]

theorem keys_put (k : κ) (v : α) : ∀ d : List (κ × α), (put k v d).map Prod.fst = if k ∈ d.map Prod.fst then d.map Prod.fst else d.map Prod.fst ++ [k]
  | [] => by simp [put]
  | (a, b) :: d => by
    unfold put
    by_cases ha : a = k
    · subst ha; simp
    · rw [if_neg ha, List.map_cons, keys_put k v d]
      have : k ≠ a := fun e => ha e.symm
      simp only [List.map_cons, List.mem_cons, this, false_or]
      split_ifs <;> simp

theorem nodup_put (k : κ) (v : α) (d : List (κ × α)) (h : (d.map Prod.fst).Nodup) : ((put k v d).map Prod.fst).Nodup := by
  rw [keys_put]
  split_ifs with hk
  · exact h
  · exact List.Nodup.append h (List.nodup_singleton k) (by simpa [List.disjoint_singleton] using hk)

theorem lookup_foldl (k : κ) : ∀ (items : List (κ × α)) (d : List (κ × α)),
    (items.foldl (fun d x => put x.1 x.2 d) d).lookup k = ((items.reverse.find? fun x => decide (x.1 = k)).map Prod.snd).or (d.lookup k)
  | [], d => by simp
  | x :: items, d => by
    rw [List.foldl_cons, lookup_foldl k items, lookup_put, List.reverse_cons, List.find?_append]
    by_cases h : k = x.1
    · subst h
      rcases hf : items.reverse.find? fun y => decide (y.1 = x.1) with _ | y <;> simp
    · have h' : ¬x.1 = k := fun e => h e.symm
      rcases hf : items.reverse.find? fun y => decide (y.1 = k) with _ | y <;> simp [h, h']

theorem nodup_foldl : ∀ (items : List (κ × α)) (d : List (κ × α)), (d.map Prod.fst).Nodup →
    ((items.foldl (fun d x => put x.1 x.2 d) d).map Prod.fst).Nodup
  | [], _, h => h
  | x :: items, d, h => nodup_foldl items _ (nodup_put x.1 x.2 d h)

theorem mem_keys_foldl (k : κ) : ∀ (items : List (κ × α)) (d : List (κ × α)),
    k ∈ (items.foldl (fun d x => put x.1 x.2 d) d).map Prod.fst ↔ k ∈ items.map Prod.fst ∨ k ∈ d.map Prod.fst
  | [], d => by simp
  | x :: items, d => by
    rw [List.foldl_cons, mem_keys_foldl k items, keys_put, List.map_cons, List.mem_cons]
    split_ifs with h
    · constructor
      · rintro (h1 | h1)
        · exact .inl (.inr h1)
        · exact .inr h1
      · rintro ((rfl | h1) | h1)
        · exact .inr h
        · exact .inl h1
        · exact .inr h1
    · rw [List.mem_append, List.mem_singleton]
      tauto

theorem lookup_eq_some {k : κ} {v : α} : ∀ {d : List (κ × α)}, (d.map Prod.fst).Nodup → (d.lookup k = some v ↔ (k, v) ∈ d)
  | [], _ => by simp [List.lookup]
  | (a, b) :: d, h => by
    rw [List.map_cons, List.nodup_cons] at h
    rw [List.lookup_cons]
    by_cases e : k = a
    · subst e
      simp only [BEq.rfl, List.mem_cons, Prod.mk.injEq, true_and, Option.some.injEq]
      constructor
      · exact fun e => .inl e.symm
      · rintro (e | hm)
        · exact e.symm
        · exact absurd (List.mem_map.2 ⟨_, hm, rfl⟩) h.1
    · have : (k == a) = false := by simpa using e
      rw [this]
      simp only [List.mem_cons, Prod.mk.injEq, e, false_and, false_or]
      exact lookup_eq_some h.2

theorem lookup_perm {d d' : List (κ × α)} (h : d.Perm d') (hd : (d.map Prod.fst).Nodup) (k : κ) : d.lookup k = d'.lookup k := by
  have hd' : (d'.map Prod.fst).Nodup := (h.map Prod.fst).nodup_iff.1 hd
  apply Option.ext
  intro v
  rw [lookup_eq_some hd, lookup_eq_some hd', h.mem_iff]

end Verif.Lemmas.Names
