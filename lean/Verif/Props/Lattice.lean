import Verif.Props.Remap
import Mathlib.Data.List.Nodup
import Mathlib.Data.List.Sort
import Mathlib.Tactic.IntervalCases

/-!
# C14, C15: lattice vectors, greatest common divisor and coprime triples
-/

namespace Verif.Props
open Verif Verif.Model Verif.Model.Remap

/-! ## C15 -/

theorem gcdLoop_eq (a b : ℕ) : gcdLoop a b = Nat.gcd a b := by
  induction b using Nat.strong_induction_on generalizing a with
  | _ b ih =>
    rw [gcdLoop]
    split
    · next h => rw [h, Nat.gcd_zero_right]
    · next h =>
      rw [ih _ (Nat.mod_lt _ (Nat.pos_of_ne_zero h)), Nat.gcd_comm b, ← Nat.gcd_rec, Nat.gcd_comm]

theorem gcd2_eq (a b : ℤ) : gcd2 a b = Int.gcd a b := by
  unfold gcd2
  rw [gcdLoop_eq, Int.gcd_def]
  congr 2 <;> split <;> omega

/-- C15: for two arguments or more, `gcd` terminates without error and returns the non-negative integer whose divisors
are exactly the common divisors of the arguments. -/
theorem C15_gcd (l : List ℤ) (hl : 2 ≤ l.length) :
    ∃ g, gcd l = .ok g ∧ 0 ≤ g ∧ ∀ d : ℤ, d ∣ g ↔ ∀ a ∈ l, d ∣ a := by
  induction l with
  | nil => simp at hl
  | cons a l ih =>
    match l, ih, hl with
    | [b], _, _ =>
      refine ⟨gcd2 a b, rfl, by rw [gcd2_eq]; positivity, fun d => ?_⟩
      rw [gcd2_eq, Int.dvd_coe_gcd_iff]
      simp
    | b :: c :: l, ih, _ =>
      obtain ⟨g, hg, h0, hd⟩ := ih (by simp)
      refine ⟨gcd2 a g, by rw [Remap.gcd, hg], by rw [gcd2_eq]; positivity, fun d => ?_⟩
      rw [gcd2_eq, Int.dvd_coe_gcd_iff, hd]
      simp

/-- C15: one argument is returned as it is (also when negative); without argument there is an error. -/
theorem C15_gcd_short (a : ℤ) : gcd [a] = .ok a ∧ gcd [] = .error .indexError := ⟨rfl, rfl⟩

/-- C15: the result is the greatest common divisor of `Mathlib` for two arguments. -/
theorem C15_gcd_pair (a b : ℤ) : gcd [a, b] = .ok (Int.gcd a b) := by rw [Remap.gcd, gcd2_eq]

/-- The only common divisors of three integers are the units. -/
def Coprime3 (i j k : ℤ) : Prop := ∀ d : ℤ, d ∣ i → d ∣ j → d ∣ k → d ∣ 1

theorem gcd_eq_one_iff (l : List ℤ) (hl : 2 ≤ l.length) :
    gcd l = .ok 1 ↔ ∀ d : ℤ, (∀ a ∈ l, d ∣ a) → d ∣ 1 := by
  obtain ⟨g, hg, h0, hd⟩ := C15_gcd l hl
  rw [hg]
  constructor
  · intro h d hda
    rw [Except.ok.injEq] at h
    rw [← h]; exact (hd d).2 hda
  · intro h
    have := h g ((hd g).1 dvd_rfl)
    rw [Except.ok.injEq]
    exact Int.eq_one_of_dvd_one h0 this

theorem mem_added_aux (range : List ℤ) (t : List ℤ) :
    t ∈ coprimeAdded range ↔ ∃ i ∈ range, ∃ j ∈ range, ∃ k ∈ range, Coprime3 i j k ∧ t = sort3 i j k := by
  simp only [coprimeAdded, List.mem_flatMap]
  constructor
  · rintro ⟨i, hi, j, hj, h⟩
    refine ⟨i, hi, j, hj, ?_⟩
    split at h
    · next hg =>
      obtain ⟨k, hk, rfl⟩ := List.mem_map.1 h
      rw [gcd_eq_one_iff _ (by simp)] at hg
      exact ⟨k, hk, fun d h1 h2 _ => hg d (by simp [h1, h2]), rfl⟩
    · obtain ⟨k, hk, rfl⟩ := List.mem_map.1 h
      obtain ⟨hk, hg⟩ := List.mem_filter.1 hk
      rw [decide_eq_true_eq, gcd_eq_one_iff _ (by simp)] at hg
      exact ⟨k, hk, fun d h1 h2 h3 => hg d (by simp [h1, h2, h3]), rfl⟩
  · rintro ⟨i, hi, j, hj, k, hk, hc, rfl⟩
    refine ⟨i, hi, j, hj, ?_⟩
    split
    · exact List.mem_map.2 ⟨k, hk, rfl⟩
    · refine List.mem_map.2 ⟨k, List.mem_filter.2 ⟨hk, ?_⟩, rfl⟩
      rw [decide_eq_true_eq, gcd_eq_one_iff _ (by simp)]
      intro d hd
      exact hc d (hd i (by simp)) (hd j (by simp)) (hd k (by simp))

theorem sort3_perm (i j k : ℤ) : (sort3 i j k).Perm [i, j, k] := List.mergeSort_perm _ _

theorem sort3_sorted (i j k : ℤ) : (sort3 i j k).Pairwise (· ≤ ·) := by
  have := List.pairwise_mergeSort (le := fun a b : ℤ => decide (a ≤ b)) (by intro a b c; simp; omega)
    (by intro a b; simp; omega) [i, j, k]
  simpa [sort3] using this

/-- C15: `coprime_triples(range)` is the set of sorted triples of elements of `range` without common divisor. -/
theorem C15_coprime_triples (range : List ℤ) (t : List ℤ) :
    t ∈ coprimeAdded range ↔ ∃ i j k, t = [i, j, k] ∧ i ≤ j ∧ j ≤ k ∧ i ∈ range ∧ j ∈ range ∧ k ∈ range ∧
      Coprime3 i j k := by
  rw [mem_added_aux]
  constructor
  · rintro ⟨i, hi, j, hj, k, hk, hc, rfl⟩
    have hp := sort3_perm i j k
    have hs := sort3_sorted i j k
    obtain ⟨a, b, c, hl⟩ : ∃ a b c, sort3 i j k = [a, b, c] := by
      have := hp.length_eq
      match h : sort3 i j k, this with
      | [a, b, c], _ => exact ⟨a, b, c, rfl⟩
    rw [hl] at hp hs ⊢
    have hm : ∀ x, x ∈ [a, b, c] ↔ x ∈ [i, j, k] := fun x => hp.mem_iff
    have hr : ∀ x ∈ [a, b, c], x ∈ range := by
      intro x hx
      have := (hm x).1 hx
      simp only [List.mem_cons, List.not_mem_nil, or_false] at this
      rcases this with rfl | rfl | rfl <;> assumption
    simp only [List.pairwise_cons, List.mem_cons, List.not_mem_nil, or_false, forall_eq_or_imp, forall_eq] at hs
    refine ⟨a, b, c, rfl, hs.1.1, hs.2.1, hr a (by simp), hr b (by simp), hr c (by simp), ?_⟩
    intro d h1 h2 h3
    have hd : ∀ x ∈ [i, j, k], d ∣ x := by
      intro x hx
      have := (hm x).2 hx
      simp only [List.mem_cons, List.not_mem_nil, or_false] at this
      rcases this with rfl | rfl | rfl <;> assumption
    exact hc d (hd i (by simp)) (hd j (by simp)) (hd k (by simp))
  · rintro ⟨i, j, k, rfl, hij, hjk, hi, hj, hk, hc⟩
    refine ⟨i, hi, j, hj, k, hk, hc, ?_⟩
    refine ((sort3_perm i j k).eq_of_pairwise' (r := (· ≤ ·)) (sort3_sorted i j k) ?_).symm
    simp only [List.pairwise_cons, List.mem_cons, List.not_mem_nil, or_false, forall_eq_or_imp, forall_eq]
    refine ⟨⟨hij, hij.trans hjk⟩, hjk, by simp⟩

example : ([-3, 2, 6] : List ℤ) ∈ coprimeAdded [6, -3, 2] :=
  (C15_coprime_triples _ _).2 ⟨-3, 2, 6, rfl, by norm_num, by norm_num, by simp, by simp, by simp, by
    intro d h1 h2 _
    have := Int.dvd_add h1 (Dvd.dvd.mul_left h2 2)
    simpa using this⟩

/-! ## C14 -/

/-- The list in which python goes through the set `coprime_triples(range(-maxint, maxint + 1))`: each element once, in
any order. -/
def IterationOf (maxint : ℕ) (coprimes : List (List ℤ)) : Prop :=
  coprimes.Nodup ∧ ∀ t, t ∈ coprimes ↔ t ∈ coprimeAdded (arange (-maxint) (maxint + 1))

/-- All entries between -maxint and maxint. -/
def Bounded (maxint : ℕ) (v : V3 ℤ) : Prop :=
  (-maxint ≤ v.x ∧ v.x ≤ maxint) ∧ (-maxint ≤ v.y ∧ v.y ≤ maxint) ∧ (-maxint ≤ v.z ∧ v.z ≤ maxint)

theorem mem_triplets {maxint : ℕ} {coprimes : List (List ℤ)} (h : IterationOf maxint coprimes) (v : V3 ℤ) :
    v ∈ coprimes.flatMap permutations3 ↔ Bounded maxint v ∧ Coprime3 v.x v.y v.z := by
  simp only [List.mem_flatMap, h.2, C15_coprime_triples]
  constructor
  · rintro ⟨t, ⟨i, j, k, rfl, hij, hjk, hi, hj, hk, hc⟩, hv⟩
    rw [mem_arange] at hi hj hk
    simp only [permutations3, List.mem_cons, List.not_mem_nil, or_false] at hv
    rcases hv with rfl | rfl | rfl | rfl | rfl | rfl <;>
      exact ⟨by simp only [Bounded]; omega,
        fun d h1 h2 h3 => hc d (by assumption) (by assumption) (by assumption)⟩
  · rintro ⟨⟨⟨hx, hx'⟩, ⟨hy, hy'⟩, ⟨hz, hz'⟩⟩, hc⟩
    obtain ⟨x, y, z⟩ := v
    simp only at *
    have hX : x ∈ arange (-maxint) (maxint + 1) := by rw [mem_arange]; omega
    have hY : y ∈ arange (-maxint) (maxint + 1) := by rw [mem_arange]; omega
    have hZ : z ∈ arange (-maxint) (maxint + 1) := by rw [mem_arange]; omega
    rcases le_total x y with h1 | h1 <;> rcases le_total y z with h2 | h2 <;> rcases le_total x z with h3 | h3
    · exact ⟨_, ⟨x, y, z, rfl, h1, h2, hX, hY, hZ, fun d a b c => hc d (by assumption) (by assumption) (by assumption)⟩, by simp [permutations3]⟩
    · exact ⟨_, ⟨x, y, z, rfl, h1, h2, hX, hY, hZ, fun d a b c => hc d (by assumption) (by assumption) (by assumption)⟩, by simp [permutations3]⟩
    · exact ⟨_, ⟨x, z, y, rfl, h3, h2, hX, hZ, hY, fun d a b c => hc d (by assumption) (by assumption) (by assumption)⟩, by simp [permutations3]⟩
    · exact ⟨_, ⟨z, x, y, rfl, h3, h1, hZ, hX, hY, fun d a b c => hc d (by assumption) (by assumption) (by assumption)⟩, by simp [permutations3]⟩
    · exact ⟨_, ⟨y, x, z, rfl, h1, h3, hY, hX, hZ, fun d a b c => hc d (by assumption) (by assumption) (by assumption)⟩, by simp [permutations3]⟩
    · exact ⟨_, ⟨y, z, x, rfl, h2, h3, hY, hZ, hX, fun d a b c => hc d (by assumption) (by assumption) (by assumption)⟩, by simp [permutations3]⟩
    · exact ⟨_, ⟨z, y, x, rfl, h2, h1, hZ, hY, hX, fun d a b c => hc d (by assumption) (by assumption) (by assumption)⟩, by simp [permutations3]⟩
    · exact ⟨_, ⟨z, y, x, rfl, h2, h1, hZ, hY, hX, fun d a b c => hc d (by assumption) (by assumption) (by assumption)⟩, by simp [permutations3]⟩

/-- Rows of a matrix of determinant 1 are coprime. -/
theorem coprime_of_det {a b c : V3 ℤ} (h : det3 a b c = 1) :
    Coprime3 a.x a.y a.z ∧ Coprime3 b.x b.y b.z ∧ Coprime3 c.x c.y c.z := by
  refine ⟨?_, ?_, ?_⟩ <;> rintro d ⟨p, hp⟩ ⟨q, hq⟩ ⟨r, hr⟩ <;> rw [← h] <;> simp only [det3, hp, hq, hr]
  · exact ⟨p * (b.y * c.z - b.z * c.y) + q * (b.z * c.x - b.x * c.z) + r * (b.x * c.y - b.y * c.x), by ring⟩
  · exact ⟨a.x * (q * c.z - r * c.y) + a.y * (r * c.x - p * c.z) + a.z * (p * c.y - q * c.x), by ring⟩
  · exact ⟨a.x * (b.y * r - b.z * q) + a.y * (b.z * p - b.x * r) + a.z * (b.x * q - b.y * p), by ring⟩

/-- At most `maxcomb` entries, and at least one. -/
def limit {β : Type*} (maxcomb : Option ℕ) (l : List β) : List β :=
  match maxcomb with
  | none => l
  | some m => l.take (max 1 m)

theorem limit_ne_nil {β : Type*} (m : Option ℕ) (l : List β) : limit m l = [] ↔ l = [] := by
  cases m with
  | none => rfl
  | some m => simp [limit, List.take_eq_nil_iff]

section fold
variable {κ : Type*}
local notation "L3" => V3 ℤ × V3 ℤ × V3 ℤ

theorem addEntry_keys (m : Option ℕ) (d : Dict κ (List L3)) (b : κ) (u : L3) :
    (b ∈ d.map Prod.fst → (addEntry m d b u).map Prod.fst = d.map Prod.fst) ∧
    (b ∉ d.map Prod.fst → (addEntry m d b u) = d ++ [(b, [u])]) := by
  induction d with
  | nil => simp [addEntry]
  | cons e d ih =>
    obtain ⟨k, l⟩ := e
    by_cases h : k = b
    · simp only [addEntry, h, if_true, List.map_cons, List.mem_cons, true_or, not_true_eq_false, false_imp_iff,
        and_true, forall_const]
      split <;> simp
    · have h' : b ≠ k := fun h2 => h h2.symm
      simp only [addEntry, h, if_false, List.map_cons, List.mem_cons, h', false_or, List.cons.injEq, true_and,
        List.cons_append]
      exact ih

theorem mem_addEntry (m : Option ℕ) (d : Dict κ (List L3)) (hd : (d.map Prod.fst).Nodup) (b : κ) (u : L3) (k : κ)
    (l : List L3) :
    (k, l) ∈ addEntry m d b u ↔ (k ≠ b ∧ (k, l) ∈ d) ∨ (k = b ∧ b ∉ d.map Prod.fst ∧ l = [u]) ∨
      (k = b ∧ ∃ l0, (b, l0) ∈ d ∧
        (((m = none ∨ ∃ m', m = some m' ∧ l0.length < m') ∧ l = l0 ++ [u]) ∨
          (¬ (m = none ∨ ∃ m', m = some m' ∧ l0.length < m') ∧ l = l0))) := by
  induction d with
  | nil => simp [addEntry]
  | cons e d ih =>
    obtain ⟨k', l'⟩ := e
    simp only [List.map_cons, List.nodup_cons] at hd
    have hnot : ∀ l, (k', l) ∉ d := fun l hl => hd.1 (List.mem_map.2 ⟨_, hl, rfl⟩)
    by_cases h : k' = b
    · subst h
      by_cases hk : k = k'
      · subst hk
        simp only [addEntry, if_true]
        split
        · next hr =>
          simp only [List.mem_cons, Prod.mk.injEq, true_and, hnot, or_false, ne_eq, not_true_eq_false, false_and,
            List.map_cons, true_or, false_or, exists_eq_left, hr, and_false, or_false]
        · next hr =>
          simp only [List.mem_cons, Prod.mk.injEq, true_and, hnot, or_false, ne_eq, not_true_eq_false, false_and,
            List.map_cons, true_or, false_or, exists_eq_left, hr, not_false_eq_true]
      · simp only [addEntry, if_true]
        split <;> simp [hk]
    · have h' : b ≠ k' := fun h2 => h h2.symm
      simp only [addEntry, h, if_false, List.mem_cons, ih hd.2, List.map_cons, Prod.mk.injEq, h', false_and, false_or]
      by_cases hk : k = b
      · subst hk; simp [h']
      · simp [hk]

open Classical in
/-- Result of the loop: keys are distinct; under each key, the elements of the list with this key, in order, limited. -/
theorem fold_spec (m : Option ℕ) (P : L3 → Prop) (key : L3 → κ) (us : List L3) :
    let d := us.foldl (fun d u => if P u then addEntry m d (key u) u else d) ([] : Dict κ (List L3))
    (d.map Prod.fst).Nodup ∧ ∀ k l, (k, l) ∈ d ↔
      l ≠ [] ∧ l = limit m (us.filter fun u => decide (P u ∧ key u = k)) := by
  induction us using List.reverseRecOn with
  | nil => simp [limit]; cases m <;> simp
  | append_singleton us u ih =>
    obtain ⟨ih1, ih2⟩ := ih
    simp only [List.foldl_append, List.foldl_cons, List.foldl_nil, List.filter_append]
    generalize us.foldl (fun d u => if P u then addEntry m d (key u) u else d) ([] : Dict κ (List L3)) = d at *
    have hkeys : ∀ k, k ∈ d.map Prod.fst ↔ (us.filter fun u => decide (P u ∧ key u = k)) ≠ [] := by
      intro k
      simp only [List.mem_map, Prod.exists, exists_and_right, exists_eq_right, ih2]
      constructor
      · rintro ⟨l, hl, h⟩; rwa [h, ne_eq, limit_ne_nil] at hl
      · intro h; exact ⟨limit m _, by rwa [ne_eq, limit_ne_nil], rfl⟩
    by_cases hP : P u
    · rw [if_pos hP]
      refine ⟨?_, ?_⟩
      · by_cases hb : key u ∈ d.map Prod.fst
        · rw [(addEntry_keys m d (key u) u).1 hb]; exact ih1
        · rw [(addEntry_keys m d (key u) u).2 hb, List.map_append, List.nodup_append]
          refine ⟨ih1, by simp, ?_⟩
          simp only [List.map_cons, List.map_nil, List.mem_cons, List.not_mem_nil, or_false]
          rintro a ha b rfl rfl
          exact hb ha
      · intro k l
        rw [mem_addEntry m d ih1]
        by_cases hk : k = key u
        · subst hk
          have hf : (List.filter (fun v => decide (P v ∧ key v = key u)) [u]) = [u] := by simp [hP]
          rw [hf]
          simp only [ne_eq, not_true_eq_false, false_and, true_and, false_or, hkeys, ih2]
          generalize us.filter (fun v => decide (P v ∧ key v = key u)) = f
          cases m with
          | none =>
            simp only [limit, true_or, true_and, not_true_eq_false, false_and, or_false]
            by_cases hf : f = []
            · subst hf; simp; rintro rfl; simp
            · simp [hf]
              rintro rfl; simp
          | some m =>
            simp only [limit, reduceCtorEq, false_or, Option.some.injEq, exists_eq_left']
            by_cases hf : f = []
            · subst hf
              have : List.take (max 1 m) [u] = [u] := List.take_of_length_le (by simp)
              simp [this]
              rintro rfl; simp
            · have hlen : 0 < f.length := List.length_pos_iff.2 hf
              have ht : f.take (max 1 m) ≠ [] := by simp [List.take_eq_nil_iff, hf]
              simp only [hf, not_false_eq_true, not_true_eq_false, false_and, false_or]
              constructor
              · rintro ⟨l0, ⟨_, rfl⟩, ⟨h1, rfl⟩ | ⟨h1, rfl⟩⟩
                · have hfm : f.length < m := by
                    rw [List.length_take] at h1; omega
                  refine ⟨by simp, ?_⟩
                  rw [List.take_of_length_le (by omega), List.take_of_length_le (by simp; omega)]
                · refine ⟨ht, ?_⟩
                  rw [List.length_take] at h1
                  rw [List.take_append_of_le_length (by omega)]
              · rintro ⟨_, rfl⟩
                refine ⟨_, ⟨ht, rfl⟩, ?_⟩
                rw [List.length_take]
                by_cases hfm : f.length < m
                · left
                  refine ⟨by omega, ?_⟩
                  rw [List.take_of_length_le (by simp; omega), List.take_of_length_le (by omega)]
                · right
                  refine ⟨by omega, ?_⟩
                  rw [List.take_append_of_le_length (by omega)]
        · have hf : (List.filter (fun v => decide (P v ∧ key v = k)) [u]) = [] := by
            have : key u ≠ k := fun h => hk h.symm
            simp [this]
          rw [hf]
          simp [hk, ih2]
    · rw [if_neg hP]
      refine ⟨ih1, fun k l => ?_⟩
      have hf : (List.filter (fun v => decide (P v ∧ key v = k)) [u]) = [] := by simp [hP]
      rw [hf, List.append_nil, ih2]

end fold

/-- Sizes in the requested ranges; missing ranges are unconstraining. -/
def InRanges (ranges : List Range) (s : V3 ℝ) : Prop :=
  (∀ r, ranges[0]? = some r → r.has s.x) ∧ (∀ r, ranges[1]? = some r → r.has s.y) ∧
    (∀ r, ranges[2]? = some r → r.has s.z)

/-- The triples listed: bounded entries, determinant 1, size of the remapped box in the ranges. -/
def Listed (maxint : ℕ) (L : V3 ℝ) (ranges : List Range) (u : V3 ℤ × V3 ℤ × V3 ℤ) : Prop :=
  Bounded maxint u.1 ∧ Bounded maxint u.2.1 ∧ Bounded maxint u.2.2 ∧ Spec.triple (toReal u.1) (toReal u.2.1) (toReal u.2.2) = 1 ∧
    ∃ c, Cuboid.init (toReal u.1) (toReal u.2.1) (toReal u.2.2) L = .ok c ∧ InRanges ranges c.cuboidsize

/-- The key of a triple: the size of the remapped box, in decreasing order if `sort`. -/
def HasKey (L : V3 ℝ) (sort : Bool) (u : V3 ℤ × V3 ℤ × V3 ℤ) (k : List ℝ) : Prop :=
  ∃ c, Cuboid.init (toReal u.1) (toReal u.2.1) (toReal u.2.2) L = .ok c ∧
    if sort then k.Pairwise (· ≥ ·) ∧ k.Perm c.cuboidsize.toList else k = c.cuboidsize.toList

theorem keyOf_iff (sort : Bool) (s : V3 ℝ) (k : List ℝ) :
    keyOf sort s = k ↔ if sort then k.Pairwise (· ≥ ·) ∧ k.Perm s.toList else k = s.toList := by
  cases sort with
  | false => simp [keyOf]; exact eq_comm
  | true =>
    simp only [keyOf, if_true]
    have hs : (s.toList.mergeSort fun a b => decide (b ≤ a)).Pairwise (· ≥ ·) := by
      have := List.pairwise_mergeSort (le := fun a b : ℝ => decide (b ≤ a))
        (by intro a b c; simp; exact fun h1 h2 => h2.trans h1) (by intro a b; simp; exact le_total b a) s.toList
      simpa using this
    have hp := List.mergeSort_perm s.toList fun a b => decide (b ≤ a)
    constructor
    · rintro rfl; exact ⟨hs, hp⟩
    · rintro ⟨h1, h2⟩
      exact (hp.trans h2.symm).eq_of_pairwise' (r := (· ≥ ·)) hs h1

theorem sizesOf_eq {u : V3 ℤ × V3 ℤ × V3 ℤ} {L : V3 ℝ} {c : Cuboid} (hL : PosBox L)
    (h : Cuboid.init (toReal u.1) (toReal u.2.1) (toReal u.2.2) L = .ok c) : sizesOf L u = c.cuboidsize := by
  have hm : Made u.1 u.2.1 u.2.2 L c := ⟨h, hL⟩
  obtain ⟨-, -, -, -, -, -, -, -, -, he⟩ := hm.elim
  rw [C12_sizes hm]
  simp only [sizesOf, ← he]
  have : ∀ e : V3 ℝ, V3.emul e L = V3.emul L e := fun e => by ext <;> simp [mul_comm]
  simp [this]

theorem fillRanges_iff (ranges : List Range) (s : V3 ℝ) (h0 : 0 ≤ s.y ∧ 0 ≤ s.z) :
    (∀ r ∈ fillRanges ranges, r.1.has s.x ∧ r.2.1.has s.y ∧ r.2.2.has s.z) ↔ InRanges ranges s := by
  match ranges with
  | [] => simp [fillRanges, InRanges]
  | [a] => simp [fillRanges, InRanges, Range.has, h0]
  | [a, b] => simp [fillRanges, InRanges, Range.has, h0]
  | a :: b :: c :: l => simp [fillRanges, InRanges]

/-- All the triples tried by the loop. -/
noncomputable def tried (coprimes : List (List ℤ)) (L : V3 ℝ) (ranges : List Range) :
    List (V3 ℤ × V3 ℤ × V3 ℤ) :=
  open Classical in
  let triplets := coprimes.flatMap permutations3
  (triplets.filter fun e => decide (∀ r ∈ fillRanges ranges, r.1.has (V3.emul (toReal e) L).norm)).flatMap
    fun a => triplets.flatMap fun b => triplets.map fun c => (a, b, c)

/-- The condition on the determinant and on the last two sizes. -/
def Kept (L : V3 ℝ) (ranges : List Range) (u : V3 ℤ × V3 ℤ × V3 ℤ) : Prop :=
  det3 u.1 u.2.1 u.2.2 = 1 ∧ ∀ r ∈ fillRanges ranges, r.2.1.has (sizesOf L u).y ∧ r.2.2.has (sizesOf L u).z

open Classical in
/-- The triples kept, of key `k`. -/
noncomputable def chosen (coprimes : List (List ℤ)) (L : V3 ℝ) (ranges : List Range) (sort : Bool) (k : List ℝ) :
    List (V3 ℤ × V3 ℤ × V3 ℤ) :=
  (tried coprimes L ranges).filter fun u => decide (Kept L ranges u ∧ keyOf sort (sizesOf L u) = k)

theorem mem_chosen {coprimes : List (List ℤ)} {L : V3 ℝ} {ranges : List Range} {sort : Bool} {k : List ℝ}
    {u : V3 ℤ × V3 ℤ × V3 ℤ} : u ∈ chosen coprimes L ranges sort k ↔
      u ∈ tried coprimes L ranges ∧ Kept L ranges u ∧ keyOf sort (sizesOf L u) = k := by
  simp [chosen, List.mem_filter]

open Classical in
theorem generate_spec (coprimes : List (List ℤ)) (maxcomb : Option ℕ) (L : V3 ℝ) (ranges : List Range) (sort : Bool) :
    let d := generateLatticeVectors coprimes maxcomb L ranges sort
    (d.map Prod.fst).Nodup ∧ ∀ k l, (k, l) ∈ d ↔ l ≠ [] ∧
      l = limit maxcomb (chosen coprimes L ranges sort k) := by
  have h := fold_spec maxcomb (Kept L ranges) (fun u => keyOf sort (sizesOf L u)) (tried coprimes L ranges)
  have he : generateLatticeVectors coprimes maxcomb L ranges sort =
      (tried coprimes L ranges).foldl (fun d u => if Kept L ranges u then addEntry maxcomb d (keyOf sort (sizesOf L u)) u
        else d) [] := by
    unfold generateLatticeVectors tried
    simp only
    congr 1
    funext d u
    by_cases h1 : det3 u.1 u.2.1 u.2.2 = 1
    · simp only [h1, if_true, Kept, true_and]
    · simp only [h1, if_false, Kept, false_and]
  intro d
  rw [show d = _ from he]
  refine ⟨h.1, fun k l => ?_⟩
  have := h.2 k l
  rw [this]
  constructor <;> rintro ⟨h1, h2⟩ <;> refine ⟨h1, ?_⟩ <;> rw [h2] <;> congr 1 <;> unfold chosen <;> congr 1 <;> funext u <;> congr 1

theorem kept_iff {maxint : ℕ} {coprimes : List (List ℤ)} (hi : IterationOf maxint coprimes) {L : V3 ℝ} (hL : PosBox L)
    (ranges : List Range) (sort : Bool) (u : V3 ℤ × V3 ℤ × V3 ℤ) (k : List ℝ) :
    (u ∈ tried coprimes L ranges ∧ Kept L ranges u ∧ keyOf sort (sizesOf L u) = k) ↔
      Listed maxint L ranges u ∧ HasKey L sort u k := by
  obtain ⟨a, b, c⟩ := u
  have hdet : Spec.triple (toReal a) (toReal b) (toReal c) = 1 ↔ det3 a b c = 1 := by
    rw [show Spec.triple (toReal a) (toReal b) (toReal c) = det3 (toReal a) (toReal b) (toReal c) from rfl, det3_cast]
    norm_cast
  have hmem : (a, b, c) ∈ tried coprimes L ranges ↔
      ((Bounded maxint a ∧ Coprime3 a.x a.y a.z) ∧ ∀ r ∈ fillRanges ranges, r.1.has (sizesOf L (a, b, c)).x) ∧
      (Bounded maxint b ∧ Coprime3 b.x b.y b.z) ∧ (Bounded maxint c ∧ Coprime3 c.x c.y c.z) := by
    simp only [tried, List.mem_flatMap, List.mem_map, Prod.mk.injEq, List.mem_filter, decide_eq_true_eq]
    rw [← mem_triplets hi a, ← mem_triplets hi b, ← mem_triplets hi c]
    constructor
    · rintro ⟨a', ha', b', hb', c', hc', rfl, rfl, rfl⟩
      exact ⟨⟨List.mem_flatMap.2 ha'.1, ha'.2⟩, List.mem_flatMap.2 hb', List.mem_flatMap.2 hc'⟩
    · rintro ⟨ha, hb, hc⟩
      exact ⟨a, ⟨List.mem_flatMap.1 ha.1, ha.2⟩, b, List.mem_flatMap.1 hb, c, List.mem_flatMap.1 hc, rfl, rfl, rfl⟩
  rw [hmem]
  simp only [Listed, HasKey, Kept, hdet]
  constructor
  · rintro ⟨⟨⟨⟨ba, ca⟩, ra⟩, ⟨bb, cb⟩, ⟨bc, cc⟩⟩, ⟨hd, hr⟩, hk⟩
    obtain ⟨cu, hcu⟩ := (C10_init a b c L).1 hd
    have hs := sizesOf_eq (u := (a, b, c)) hL hcu
    have h0 : 0 ≤ cu.cuboidsize.y ∧ 0 ≤ cu.cuboidsize.z := by
      rw [← hs]; exact ⟨V3.norm_nonneg _, V3.norm_nonneg _⟩
    rw [hs] at ra hr hk
    refine ⟨⟨ba, bb, bc, hd, cu, hcu, (fillRanges_iff ranges _ h0).1 fun r h => ⟨ra r h, hr r h⟩⟩, cu, hcu, ?_⟩
    exact (keyOf_iff sort _ _).1 hk
  · rintro ⟨⟨ba, bb, bc, hd, cu, hcu, hr⟩, cu', hcu', hk⟩
    have hs := sizesOf_eq (u := (a, b, c)) hL hcu
    have hcc : cu' = cu := by rw [hcu] at hcu'; exact (Except.ok.inj hcu').symm
    subst hcc
    have h0 : 0 ≤ cu'.cuboidsize.y ∧ 0 ≤ cu'.cuboidsize.z := by
      rw [← hs]; exact ⟨V3.norm_nonneg _, V3.norm_nonneg _⟩
    obtain ⟨c1, c2, c3⟩ := coprime_of_det hd
    rw [hs]
    have := (fillRanges_iff ranges _ h0).2 hr
    exact ⟨⟨⟨⟨ba, c1⟩, fun r h => (this r h).1⟩, ⟨bb, c2⟩, ⟨bc, c3⟩⟩, ⟨hd, fun r h => (this r h).2⟩,
      (keyOf_iff sort _ _).2 hk⟩

/-- C14: soundness and completeness without `maxcomb`: under the key `k` are exactly the triples of integer vectors with
entries in [-maxint, maxint] and determinant 1, with size of the remapped box in the ranges and equal to the key.
Keys are distinct and every key has a triple. -/
theorem C14_exact {maxint : ℕ} {coprimes : List (List ℤ)} (hi : IterationOf maxint coprimes) {L : V3 ℝ} (hL : PosBox L)
    (ranges : List Range) (sort : Bool) :
    let d := generateLatticeVectors coprimes none L ranges sort
    (d.map Prod.fst).Nodup ∧ (∀ k l, (k, l) ∈ d → l ≠ []) ∧
      ∀ u k, (∃ l, (k, l) ∈ d ∧ u ∈ l) ↔ Listed maxint L ranges u ∧ HasKey L sort u k := by
  have h := generate_spec coprimes none L ranges sort
  refine ⟨h.1, fun k l hkl => ((h.2 k l).1 hkl).1, fun u k => ?_⟩
  rw [← kept_iff hi hL]
  simp only [h.2, limit]
  constructor
  · rintro ⟨l, ⟨-, hl⟩, hu⟩
    rw [hl] at hu
    exact mem_chosen.1 hu
  · rintro ⟨hu, hk⟩
    have := mem_chosen.2 ⟨hu, hk⟩
    exact ⟨_, ⟨List.ne_nil_of_mem this, rfl⟩, this⟩

/-- C14: with `maxcomb`, the same keys, and under each key the first `maxcomb` triples listed without it, but never
fewer than one. -/
theorem C14_maxcomb {coprimes : List (List ℤ)} (L : V3 ℝ) (ranges : List Range) (sort : Bool) (m : ℕ)
    (k : List ℝ) (l : List (V3 ℤ × V3 ℤ × V3 ℤ)) :
    (k, l) ∈ generateLatticeVectors coprimes (some m) L ranges sort ↔
      ∃ l0, (k, l0) ∈ generateLatticeVectors coprimes none L ranges sort ∧ l = l0.take (max 1 m) := by
  rw [(generate_spec coprimes (some m) L ranges sort).2]
  simp only [(generate_spec coprimes none L ranges sort).2, limit]
  constructor
  · rintro ⟨hl, rfl⟩
    refine ⟨_, ⟨?_, rfl⟩, rfl⟩
    intro h0
    rw [h0] at hl
    simp at hl
  · rintro ⟨l0, ⟨h0, rfl⟩, rfl⟩
    exact ⟨by simp [List.take_eq_nil_iff, h0], rfl⟩

/-- C14: at most `maxcomb` triples per key, for `maxcomb` at least 1. -/
theorem C14_maxcomb_bound_partial {coprimes : List (List ℤ)} (L : V3 ℝ) (ranges : List Range) (sort : Bool) (m : ℕ)
    (hm : 1 ≤ m) (k : List ℝ) (l : List (V3 ℤ × V3 ℤ × V3 ℤ))
    (h : (k, l) ∈ generateLatticeVectors coprimes (some m) L ranges sort) : l.length ≤ m := by
  obtain ⟨l0, -, rfl⟩ := (C14_maxcomb L ranges sort m k l).1 h
  rw [List.length_take]; omega

/-- The iteration order used by examples. -/
theorem iterationOf_exists (maxint : ℕ) : ∃ coprimes, IterationOf maxint coprimes :=
  ⟨(coprimeAdded (arange (-maxint) (maxint + 1))).dedup, List.nodup_dedup _, fun _ => List.mem_dedup⟩

/-- The identity lattice is listed for any box, if `maxint` is at least 1. -/
theorem identity_listed (maxint : ℕ) (h1 : 1 ≤ maxint) (L : V3 ℝ) :
    Listed maxint L [] (⟨1, 0, 0⟩, ⟨0, 1, 0⟩, ⟨0, 0, 1⟩) := by
  obtain ⟨c, hc⟩ := (C10_init ⟨1, 0, 0⟩ ⟨0, 1, 0⟩ ⟨0, 0, 1⟩ L).1 (by decide)
  refine ⟨?_, ?_, ?_, ?_, c, hc, by simp [InRanges]⟩
  · simp only [Bounded]; omega
  · simp only [Bounded]; omega
  · simp only [Bounded]; omega
  · norm_num [Spec.triple, toReal]

/-- C14 is violated with `maxcomb=0`: one triple is listed nevertheless. -/
theorem C14_maxcomb_zero_violated {coprimes : List (List ℤ)} (hi : IterationOf 1 coprimes) :
    ∃ k l, (k, l) ∈ generateLatticeVectors coprimes (some 0) ⟨1, 1, 1⟩ [] false ∧ ¬ l.length ≤ 0 := by
  have hL : PosBox ⟨1, 1, 1⟩ := by norm_num [PosBox]
  have hli := identity_listed 1 le_rfl ⟨1, 1, 1⟩
  obtain ⟨-, -, -, -, c, hc, -⟩ := id hli
  obtain ⟨-, hne, h⟩ := C14_exact hi hL [] false
  obtain ⟨l, hl, hu⟩ := (h _ c.cuboidsize.toList).2 ⟨hli, c, hc, by simp⟩
  refine ⟨_, _, (C14_maxcomb _ _ _ _ _ _).2 ⟨l, hl, rfl⟩, ?_⟩
  have := List.length_pos_iff.2 (hne _ _ hl)
  rw [List.length_take]; omega

/-- C14 is violated as for "each triple once": `itertools.permutations` of a coprime triple with equal entries repeats
vectors, so that the identity lattice is listed several times. -/
theorem C14_once_violated {coprimes : List (List ℤ)} (hi : IterationOf 1 coprimes) :
    ∃ k l, (k, l) ∈ generateLatticeVectors coprimes none ⟨1, 1, 1⟩ [] false ∧ ¬ l.Nodup := by
  have hL : PosBox ⟨1, 1, 1⟩ := by norm_num [PosBox]
  have hli := identity_listed 1 le_rfl ⟨1, 1, 1⟩
  obtain ⟨-, -, -, -, c, hc, -⟩ := id hli
  obtain ⟨-, -, h⟩ := C14_exact hi hL [] false
  obtain ⟨l, hl, hu⟩ := (h _ c.cuboidsize.toList).2 ⟨hli, c, hc, by simp⟩
  refine ⟨_, l, hl, ?_⟩
  have hk := (kept_iff hi hL [] false _ _).2 ⟨hli, c, hc, rfl⟩
  obtain ⟨hne, hl⟩ := ((generate_spec _ _ _ _ _).2 _ _).1 hl
  simp only [limit] at hl
  have hmem : [0, 0, 1] ∈ coprimes := by
    rw [hi.2, C15_coprime_triples]
    refine ⟨0, 0, 1, rfl, by norm_num, by norm_num, ?_, ?_, ?_, fun d _ _ h => h⟩ <;> rw [mem_arange] <;> norm_num
  have hsub : [(⟨1, 0, 0⟩ : V3 ℤ), ⟨1, 0, 0⟩].Sublist (coprimes.flatMap permutations3) := by
    obtain ⟨s, t, rfl⟩ := List.append_of_mem hmem
    rw [List.flatMap_append, List.flatMap_cons]
    refine List.Sublist.trans ?_ (List.sublist_append_right _ _)
    refine List.Sublist.trans ?_ (List.sublist_append_left _ _)
    simp only [permutations3]
    exact .cons _ (.cons _ (.cons _ (.cons _ (List.Sublist.refl _))))
  have hb : ∀ v : V3 ℤ, Bounded 1 v → Coprime3 v.x v.y v.z → v ∈ coprimes.flatMap permutations3 :=
    fun v h1 h2 => (mem_triplets hi v).2 ⟨h1, h2⟩
  have hy := hb ⟨0, 1, 0⟩ (by simp [Bounded]) (fun d _ h _ => h)
  have hz := hb ⟨0, 0, 1⟩ (by simp [Bounded]) (fun d _ _ h => h)
  have hin : ((⟨1, 0, 0⟩, ⟨0, 1, 0⟩, ⟨0, 0, 1⟩) : V3 ℤ × V3 ℤ × V3 ℤ) ∈
      (coprimes.flatMap permutations3).flatMap fun b => (coprimes.flatMap permutations3).map fun c =>
        ((⟨1, 0, 0⟩ : V3 ℤ), b, c) :=
    List.mem_flatMap.2 ⟨_, hy, List.mem_map.2 ⟨_, hz, rfl⟩⟩
  have htr : [((⟨1, 0, 0⟩, ⟨0, 1, 0⟩, ⟨0, 0, 1⟩) : V3 ℤ × V3 ℤ × V3 ℤ), (⟨1, 0, 0⟩, ⟨0, 1, 0⟩, ⟨0, 0, 1⟩)].Sublist
      (tried coprimes ⟨1, 1, 1⟩ []) := by
    have hft : tried coprimes ⟨1, 1, 1⟩ [] = (coprimes.flatMap permutations3).flatMap fun a =>
        (coprimes.flatMap permutations3).flatMap fun b => (coprimes.flatMap permutations3).map fun c => (a, b, c) := by
      unfold tried
      simp only
      congr 1
      rw [List.filter_eq_self]; intro a _; simp [fillRanges]
    rw [hft]
    refine List.Sublist.trans ?_ (hsub.flatMap _)
    simp only [List.flatMap_cons, List.flatMap_nil, List.append_nil]
    exact (List.singleton_sublist.2 hin).append (List.singleton_sublist.2 hin)
  intro hnd
  rw [hl, chosen] at hnd
  have := (htr.filter _).nodup hnd
  rw [List.filter_cons_of_pos (by simpa using hk.2), List.filter_cons_of_pos (by simpa using hk.2)] at this
  simp at this

example : ∃ coprimes, IterationOf 2 coprimes := iterationOf_exists 2

end Verif.Props
