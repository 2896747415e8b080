import Verif.Lemmas.RoundedKeys
import Verif.Props.Script

/-!
# C117, C75: lists of lattice vectors with rounding errors
-/

namespace Verif.Props.RoundedLattice

open Verif Verif.Model Verif.Spec Verif.Model.RoundedRemap
open Verif.Model.Remap (Cuboid det3 toReal keyOf sizesOf fillRanges permutations3 addEntry)
open Verif.Model.Script (pickLattice remapWith L3)

variable (F : Fmt)

/-- The triples listed: bounded entries, determinant 1, computed size of the remapped box in the ranges. -/
def ListedF (maxint : ℕ) (L : V3 ℝ) (ranges : List Remap.Range) (u : L3) : Prop :=
  Bounded maxint u.1 ∧ Bounded maxint u.2.1 ∧ Bounded maxint u.2.2 ∧ Spec.triple (toReal u.1) (toReal u.2.1) (toReal u.2.2) = 1 ∧
    InRanges ranges (sizesOfF F L u)

/-- The key of a triple: the computed size of the remapped box, in decreasing order if `sort`. -/
def HasKeyF (L : V3 ℝ) (sort : Bool) (u : L3) (k : List ℝ) : Prop :=
  if sort then k.Pairwise (· ≥ ·) ∧ k.Perm (sizesOfF F L u).toList else k = (sizesOfF F L u).toList

/-- All the triples tried by the loop. -/
noncomputable def triedF (coprimes : List (List ℤ)) (L : V3 ℝ) (ranges : List Remap.Range) : List L3 :=
  open Classical in
  let triplets := coprimes.flatMap permutations3
  (triplets.filter fun e => decide (∀ r ∈ fillRanges ranges, r.1.has (normF F (emulF F (toReal e) L)))).flatMap
    fun a => triplets.flatMap fun b => triplets.map fun c => (a, b, c)

/-- The condition on the determinant and on the last two sizes. -/
def KeptF (L : V3 ℝ) (ranges : List Remap.Range) (u : L3) : Prop :=
  det3 u.1 u.2.1 u.2.2 = 1 ∧ ∀ r ∈ fillRanges ranges, r.2.1.has (sizesOfF F L u).y ∧ r.2.2.has (sizesOfF F L u).z

open Classical in
/-- The triples kept, of key `k`. -/
noncomputable def chosenF (coprimes : List (List ℤ)) (L : V3 ℝ) (ranges : List Remap.Range) (sort : Bool) (k : List ℝ) : List L3 :=
  (triedF F coprimes L ranges).filter fun u => decide (KeptF F L ranges u ∧ keyOf sort (sizesOfF F L u) = k)

variable {F}

theorem mem_chosenF {coprimes : List (List ℤ)} {L : V3 ℝ} {ranges : List Remap.Range} {sort : Bool} {k : List ℝ} {u : L3} :
    u ∈ chosenF F coprimes L ranges sort k ↔
      u ∈ triedF F coprimes L ranges ∧ KeptF F L ranges u ∧ keyOf sort (sizesOfF F L u) = k := by
  simp [chosenF, List.mem_filter]

open Classical in
theorem generateF_spec (coprimes : List (List ℤ)) (maxcomb : Option ℕ) (L : V3 ℝ) (ranges : List Remap.Range) (sort : Bool) :
    let d := generateLatticeVectorsF F coprimes maxcomb L ranges sort
    (d.map Prod.fst).Nodup ∧ ∀ k l, (k, l) ∈ d ↔ l ≠ [] ∧ l = limit maxcomb (chosenF F coprimes L ranges sort k) := by
  have h := fold_spec maxcomb (KeptF F L ranges) (fun u => keyOf sort (sizesOfF F L u)) (triedF F coprimes L ranges)
  have he : generateLatticeVectorsF F coprimes maxcomb L ranges sort =
      (triedF F coprimes L ranges).foldl (fun d u => if KeptF F L ranges u then addEntry maxcomb d (keyOf sort (sizesOfF F L u)) u
        else d) [] := by
    unfold generateLatticeVectorsF triedF
    simp only
    congr 1
    funext d u
    by_cases h1 : det3 u.1 u.2.1 u.2.2 = 1
    · simp only [h1, if_true, KeptF, true_and]
    · simp only [h1, if_false, KeptF, false_and]
  intro d
  rw [show d = _ from he]
  refine ⟨h.1, fun k l => ?_⟩
  rw [h.2 k l]
  constructor <;> rintro ⟨h1, h2⟩ <;> refine ⟨h1, ?_⟩ <;> rw [h2] <;> congr 1 <;> unfold chosenF <;> congr 1 <;> funext u <;> congr 1

theorem normF_nonneg (v : V3 ℝ) : 0 ≤ normF F v := Fmt.rnd_nonneg (Real.sqrt_nonneg _)

theorem keptF_iff {maxint : ℕ} {coprimes : List (List ℤ)} (hi : IterationOf maxint coprimes) (L : V3 ℝ) (ranges : List Remap.Range)
    (sort : Bool) (u : L3) (k : List ℝ) :
    (u ∈ triedF F coprimes L ranges ∧ KeptF F L ranges u ∧ keyOf sort (sizesOfF F L u) = k) ↔
      ListedF F maxint L ranges u ∧ HasKeyF F L sort u k := by
  obtain ⟨a, b, c⟩ := u
  have hdet : Spec.triple (toReal a) (toReal b) (toReal c) = 1 ↔ det3 a b c = 1 := by
    rw [show Spec.triple (toReal a) (toReal b) (toReal c) = det3 (toReal a) (toReal b) (toReal c) from rfl, det3_cast]
    norm_cast
  have hmem : (a, b, c) ∈ triedF F coprimes L ranges ↔
      ((Bounded maxint a ∧ Coprime3 a.x a.y a.z) ∧ ∀ r ∈ fillRanges ranges, r.1.has (sizesOfF F L (a, b, c)).x) ∧
      (Bounded maxint b ∧ Coprime3 b.x b.y b.z) ∧ (Bounded maxint c ∧ Coprime3 c.x c.y c.z) := by
    simp only [triedF, List.mem_flatMap, List.mem_map, Prod.mk.injEq, List.mem_filter, decide_eq_true_eq]
    rw [← mem_triplets hi a, ← mem_triplets hi b, ← mem_triplets hi c]
    constructor
    · rintro ⟨a', ha', b', hb', c', hc', rfl, rfl, rfl⟩
      exact ⟨⟨List.mem_flatMap.2 ha'.1, ha'.2⟩, List.mem_flatMap.2 hb', List.mem_flatMap.2 hc'⟩
    · rintro ⟨ha, hb, hc⟩
      exact ⟨a, ⟨List.mem_flatMap.1 ha.1, ha.2⟩, b, List.mem_flatMap.1 hb, c, List.mem_flatMap.1 hc, rfl, rfl, rfl⟩
  have h0 : 0 ≤ (sizesOfF F L (a, b, c)).y ∧ 0 ≤ (sizesOfF F L (a, b, c)).z := ⟨normF_nonneg _, normF_nonneg _⟩
  rw [hmem, keyOf_iff]
  simp only [ListedF, HasKeyF, KeptF, hdet, ← fillRanges_iff ranges _ h0]
  constructor
  · rintro ⟨⟨⟨⟨ba, ca⟩, ra⟩, ⟨bb, cb⟩, ⟨bc, cc⟩⟩, ⟨hd, hr⟩, hk⟩
    exact ⟨⟨ba, bb, bc, hd, fun r h => ⟨ra r h, hr r h⟩⟩, hk⟩
  · rintro ⟨⟨ba, bb, bc, hd, hr⟩, hk⟩
    obtain ⟨c1, c2, c3⟩ := coprime_of_det hd
    exact ⟨⟨⟨⟨ba, c1⟩, fun r h => (hr r h).1⟩, ⟨bb, c2⟩, ⟨bc, c3⟩⟩, ⟨hd, fun r h => (hr r h).2⟩, hk⟩

/-- C117. With any rounding, the triples listed without `maxcomb` are exactly those with entries in [-maxint, maxint],
determinant 1 and computed size in the ranges, each under its computed size; keys are distinct and every key has a triple. -/
theorem C117_exact (F : Fmt) {maxint : ℕ} {coprimes : List (List ℤ)} (hi : IterationOf maxint coprimes) (L : V3 ℝ)
    (ranges : List Remap.Range) (sort : Bool) :
    let d := generateLatticeVectorsF F coprimes none L ranges sort
    (d.map Prod.fst).Nodup ∧ (∀ k l, (k, l) ∈ d → l ≠ []) ∧
      ∀ u k, (∃ l, (k, l) ∈ d ∧ u ∈ l) ↔ ListedF F maxint L ranges u ∧ HasKeyF F L sort u k := by
  have h := generateF_spec (F := F) coprimes none L ranges sort
  refine ⟨h.1, fun k l hkl => ((h.2 k l).1 hkl).1, fun u k => ?_⟩
  rw [← keptF_iff hi]
  simp only [h.2, limit]
  constructor
  · rintro ⟨l, ⟨-, hl⟩, hu⟩
    rw [hl] at hu
    exact mem_chosenF.1 hu
  · rintro ⟨hu, hk⟩
    have := mem_chosenF.2 ⟨hu, hk⟩
    exact ⟨_, ⟨List.ne_nil_of_mem this, rfl⟩, this⟩

/-- C117: with `maxcomb`, the same keys, and under each key the first `maxcomb` triples listed without it, but never fewer than one. -/
theorem C117_maxcomb (F : Fmt) {coprimes : List (List ℤ)} (L : V3 ℝ) (ranges : List Remap.Range) (sort : Bool) (m : ℕ) (k : List ℝ)
    (l : List L3) :
    (k, l) ∈ generateLatticeVectorsF F coprimes (some m) L ranges sort ↔
      ∃ l0, (k, l0) ∈ generateLatticeVectorsF F coprimes none L ranges sort ∧ l = l0.take (max 1 m) := by
  rw [(generateF_spec coprimes (some m) L ranges sort).2]
  simp only [(generateF_spec coprimes none L ranges sort).2, limit]
  constructor
  · rintro ⟨hl, rfl⟩
    refine ⟨_, ⟨?_, rfl⟩, rfl⟩
    intro h0
    rw [h0] at hl
    simp at hl
  · rintro ⟨l0, ⟨h0, rfl⟩, rfl⟩
    refine ⟨?_, rfl⟩
    rw [ne_eq, List.take_eq_nil_iff]
    simp [h0]

/-! ## The script -/

theorem float64 (m : ℤ) (h : |m| ≤ 2 ^ 53) : binary64.IsFloat m := ⟨m, 0, h, by norm_num [binary64], by norm_num⟩

theorem abs_rnd_ge {c x : ℝ} (hc : F.IsFloat c) (h : c ≤ |x|) : c ≤ |F.rnd x| := by
  rcases le_total 0 x with hx | hx
  · rw [abs_of_nonneg hx] at h
    exact (Fmt.le_rnd hc h).trans (le_abs_self _)
  · rw [abs_of_nonpos hx] at h
    have := Fmt.le_rnd hc h
    rw [Fmt.rnd_neg] at this
    exact this.trans (neg_le_abs _)

/-- A vector with a long component is long. -/
theorem normF_ge {w : V3 ℝ} (h : 5001 ≤ |w.x| ∨ 5001 ≤ |w.y| ∨ 5001 ≤ |w.z|) : 5001 ≤ normF binary64 w := by
  have sq : ∀ t : ℝ, 5001 ≤ |t| → 25010001 ≤ binary64.rnd (t * t) := by
    intro t ht
    refine Fmt.le_rnd (by exact_mod_cast float64 25010001 (by norm_num)) ?_
    have := mul_self_le_mul_self (by norm_num) ht
    rw [abs_mul_abs_self] at this
    linarith
  have hx := Fmt.rnd_nonneg (F := binary64) (mul_self_nonneg w.x)
  have hy := Fmt.rnd_nonneg (F := binary64) (mul_self_nonneg w.y)
  have hz := Fmt.rnd_nonneg (F := binary64) (mul_self_nonneg w.z)
  have h1 : binary64.rnd (w.x * w.x) ≤ binary64.rnd (binary64.rnd (w.x * w.x) + binary64.rnd (w.y * w.y)) :=
    Fmt.le_rnd (Fmt.rnd_isFloat _) (by linarith)
  have h2 : binary64.rnd (w.y * w.y) ≤ binary64.rnd (binary64.rnd (w.x * w.x) + binary64.rnd (w.y * w.y)) :=
    Fmt.le_rnd (Fmt.rnd_isFloat _) (by linarith)
  have h3 : 25010001 ≤ dotF binary64 w w := by
    refine Fmt.le_rnd (by exact_mod_cast float64 25010001 (by norm_num)) ?_
    rcases h with h | h | h
    · have := sq _ h; linarith
    · have := sq _ h; linarith
    · have := sq _ h; linarith
  refine Fmt.le_rnd (by exact_mod_cast float64 5001 (by norm_num)) (Real.le_sqrt_of_sq_le ?_)
  linarith

theorem rnd_int {n : ℤ} (h : |n| ≤ 2 ^ 53) : binary64.rnd (n : ℝ) = n := Fmt.rnd_exact (float64 n h)

theorem dotF_int {a b : V3 ℤ} (ha : Bounded 1 a) (hb : Bounded 1 b) : dotF binary64 (toReal a) (toReal b) = dotInt a b := by
  obtain ⟨⟨a1, a2⟩, ⟨a3, a4⟩, ⟨a5, a6⟩⟩ := ha
  obtain ⟨⟨b1, b2⟩, ⟨b3, b4⟩, ⟨b5, b6⟩⟩ := hb
  have p : ∀ x y : ℤ, -(1 : ℕ) ≤ x → x ≤ (1 : ℕ) → -(1 : ℕ) ≤ y → y ≤ (1 : ℕ) → -1 ≤ x * y ∧ x * y ≤ 1 := by
    intro x y h1 h2 h3 h4
    push_cast at *
    constructor <;> nlinarith
  obtain ⟨p1, p2⟩ := p _ _ a1 a2 b1 b2
  obtain ⟨p3, p4⟩ := p _ _ a3 a4 b3 b4
  obtain ⟨p5, p6⟩ := p _ _ a5 a6 b5 b6
  have small : ∀ n : ℤ, -3 ≤ n → n ≤ 3 → |n| ≤ 2 ^ 53 := by
    intro n h1 h2
    rw [abs_le]
    constructor <;> linarith
  have e1 := rnd_int (small (a.x * b.x) (by linarith) (by linarith))
  have e2 := rnd_int (small (a.y * b.y) (by linarith) (by linarith))
  have e3 := rnd_int (small (a.z * b.z) (by linarith) (by linarith))
  have e4 := rnd_int (small (a.x * b.x + a.y * b.y) (by linarith) (by linarith))
  have e5 := rnd_int (small (a.x * b.x + a.y * b.y + a.z * b.z) (by linarith) (by linarith))
  push_cast at e1 e2 e3 e4 e5
  simp only [dotF, toReal, dotInt]
  push_cast
  rw [e1, e2, e3, e4, e5]

/-- The first vector is a diagonal of the cube. -/
theorem first_vector {a : V3 ℤ} (ha : Bounded 1 a) (h : 8000 ≤ normF binary64 (emulF binary64 (toReal a) (V3.const 5500))) :
    |a.x| = 1 ∧ |a.y| = 1 ∧ |a.z| = 1 := by
  obtain ⟨⟨a1, a2⟩, ⟨a3, a4⟩, ⟨a5, a6⟩⟩ := ha
  have i5500 : binary64.IsFloat 5500 := by exact_mod_cast float64 5500 (by norm_num)
  have q : ∀ n : ℤ, -(1 : ℕ) ≤ n → n ≤ (1 : ℕ) → 0 ≤ binary64.rnd (binary64.rnd ((n : ℝ) * 5500) * binary64.rnd ((n : ℝ) * 5500)) ∧
      binary64.rnd (binary64.rnd ((n : ℝ) * 5500) * binary64.rnd ((n : ℝ) * 5500)) ≤ 30250000 ∧
      (|n| ≠ 1 → binary64.rnd (binary64.rnd ((n : ℝ) * 5500) * binary64.rnd ((n : ℝ) * 5500)) = 0) := by
    intro n h1 h2
    have e : binary64.rnd ((n : ℝ) * 5500) = n * 5500 := by
      have := rnd_int (n := n * 5500) (by push_cast at *; rw [abs_le]; constructor <;> linarith)
      exact_mod_cast this
    rw [e]
    have h1' : (-1 : ℝ) ≤ n := by exact_mod_cast h1
    have h2' : (n : ℝ) ≤ 1 := by exact_mod_cast h2
    refine ⟨Fmt.rnd_nonneg (mul_self_nonneg _), Fmt.rnd_le (by exact_mod_cast float64 30250000 (by norm_num)) (by nlinarith), ?_⟩
    intro hn
    have : n = 0 := by
      push_cast at h1 h2
      by_contra h
      apply hn
      have : n = -1 ∨ n = 1 := by omega
      rcases this with rfl | rfl <;> rfl
    simp [this, Fmt.rnd_zero]
  obtain ⟨x0, x1, x2⟩ := q a.x a1 a2
  obtain ⟨y0, y1, y2⟩ := q a.y a3 a4
  obtain ⟨z0, z1, z2⟩ := q a.z a5 a6
  simp only [normF, dotF, emulF, toReal, V3.const] at h
  set X := binary64.rnd (binary64.rnd ((a.x : ℝ) * 5500) * binary64.rnd ((a.x : ℝ) * 5500))
  set Y := binary64.rnd (binary64.rnd ((a.y : ℝ) * 5500) * binary64.rnd ((a.y : ℝ) * 5500))
  set Z := binary64.rnd (binary64.rnd ((a.z : ℝ) * 5500) * binary64.rnd ((a.z : ℝ) * 5500))
  have big : 63000000 < X + Y + Z := by
    by_contra hs
    rw [not_lt] at hs
    have s1 : binary64.rnd (X + Y) ≤ X + Y + 100 := by
      have := abs_le.1 (Fmt.rnd_err_all (F := binary64) (X + Y))
      rw [abs_of_nonneg (by linarith)] at this
      have hu : binary64.u = 1 / 2 ^ 53 := rfl
      have he : (2 : ℝ) ^ binary64.emin ≤ 1 := zpow_le_one_of_nonpos₀ (by norm_num) (by norm_num [binary64])
      rw [hu] at this
      linarith
    have s2 : binary64.rnd (binary64.rnd (X + Y) + Z) ≤ 63000100 :=
      Fmt.rnd_le (by exact_mod_cast float64 63000100 (by norm_num)) (by linarith)
    have s3 : binary64.rnd (Real.sqrt (binary64.rnd (binary64.rnd (X + Y) + Z))) ≤ 7999 :=
      Fmt.rnd_le (by exact_mod_cast float64 7999 (by norm_num)) ((Real.sqrt_le_left (by norm_num)).2 (by linarith))
    linarith
  refine ⟨?_, ?_, ?_⟩
  · by_contra hn; have := x2 hn; linarith
  · by_contra hn; have := y2 hn; linarith
  · by_contra hn; have := z2 hn; linarith

/-- The component of the second vector, computed with a coefficient close to d / 3. -/
theorem component {a b d : ℤ} (ha : |a| = 1) (hd : |d| ≤ 3) (h : 9 ≤ (3 * b - d * a) ^ 2) :
    5001 ≤ |binary64.rnd (binary64.rnd ((b : ℝ) + binary64.rnd (binary64.rnd (-(d : ℝ) / 3) * (a : ℝ))) * 5500)| := by
  have hd' : |(d : ℝ)| ≤ 3 := by exact_mod_cast hd
  have err : |binary64.rnd (-(d : ℝ) / 3) - -(d : ℝ) / 3| ≤ 1 / 128 := by
    have := Fmt.rnd_err_all (F := binary64) (-(d : ℝ) / 3)
    have hu : binary64.u = 1 / 2 ^ 53 := rfl
    have he : (2 : ℝ) ^ binary64.emin ≤ 1 / 128 := by
      calc (2 : ℝ) ^ binary64.emin ≤ 2 ^ (-7 : ℤ) := zpow_le_zpow_right₀ (by norm_num) (by norm_num [binary64])
        _ = 1 / 128 := by norm_num
    have hq : |-(d : ℝ) / 3| ≤ 1 := by rw [abs_div, abs_neg, abs_of_pos (by norm_num : (0 : ℝ) < 3)]; linarith
    rw [hu] at this
    linarith
  set al := binary64.rnd (-(d : ℝ) / 3) with hal
  have hf : binary64.rnd (al * (a : ℝ)) = al * a := by
    have hfl : binary64.IsFloat al := Fmt.rnd_isFloat _
    rcases (abs_eq (by norm_num)).1 ha with rfl | rfl
    · push_cast; rw [mul_one, Fmt.rnd_exact hfl]
    · push_cast; rw [mul_neg, mul_one, Fmt.rnd_exact (Fmt.isFloat_neg hfl)]
  rw [hf]
  have ha' : |(a : ℝ)| = 1 := by exact_mod_cast ha
  have t1 : 1 ≤ |(b : ℝ) + -(d : ℝ) / 3 * a| := by
    have h9 : (9 : ℝ) ≤ (3 * b - d * a) ^ 2 := by exact_mod_cast h
    have : (3 : ℝ) ≤ |(3 * b - d * a : ℝ)| := by
      have := sq_le_sq.1 (show (3 : ℝ) ^ 2 ≤ (3 * b - d * a) ^ 2 by linarith)
      rwa [abs_of_pos (by norm_num : (0 : ℝ) < 3)] at this
    have e : (b : ℝ) + -(d : ℝ) / 3 * a = (3 * b - d * a) / 3 := by ring
    rw [e, abs_div, abs_of_pos (by norm_num : (0 : ℝ) < 3)]
    linarith
  have t2 : 127 / 128 ≤ |(b : ℝ) + al * a| := by
    have e : (b : ℝ) + -(d : ℝ) / 3 * a = (b + al * a) - (al - -(d : ℝ) / 3) * a := by ring
    have := abs_sub ((b : ℝ) + al * a) ((al - -(d : ℝ) / 3) * a)
    rw [← e, abs_mul, ha', mul_one] at this
    linarith
  have t3 : 127 / 128 ≤ |binary64.rnd ((b : ℝ) + al * a)| :=
    abs_rnd_ge ⟨127, -7, by norm_num [binary64], by norm_num [binary64], by norm_num⟩ t2
  refine abs_rnd_ge (by exact_mod_cast float64 5001 (by norm_num)) ?_
  rw [abs_mul, abs_of_pos (by norm_num : (0 : ℝ) < 5500)]
  linarith

/-- The second vectors with first a diagonal of the cube. -/
theorem second_cases {a b c : V3 ℤ} (ha : |a.x| = 1 ∧ |a.y| = 1 ∧ |a.z| = 1) (hb : Bounded 1 b) (hd : det3 a b c = 1) :
    3 * sqInt b - dotInt a b ^ 2 = 2 ∨ 9 ≤ (3 * b.x - dotInt a b * a.x) ^ 2 ∨ 9 ≤ (3 * b.y - dotInt a b * a.y) ^ 2 ∨
      9 ≤ (3 * b.z - dotInt a b * a.z) ^ 2 := by
  obtain ⟨a1, a2, a3⟩ := a
  obtain ⟨b1, b2, b3⟩ := b
  obtain ⟨c1, c2, c3⟩ := c
  obtain ⟨hx, hy, hz⟩ := ha
  obtain ⟨⟨p1, p2⟩, ⟨p3, p4⟩, ⟨p5, p6⟩⟩ := hb
  simp only [det3, sqInt, dotInt] at *
  push_cast at *
  rcases (abs_eq (by norm_num)).1 hx with rfl | rfl <;> rcases (abs_eq (by norm_num)).1 hy with rfl | rfl <;>
    rcases (abs_eq (by norm_num)).1 hz with rfl | rfl <;> interval_cases b1 <;> interval_cases b2 <;> interval_cases b3 <;>
    first
    | (left; norm_num; done)
    | (right; left; norm_num; done)
    | (right; right; left; norm_num; done)
    | (right; right; right; norm_num; done)
    | (exfalso; omega)

/-- A triple with the sides the script asks for, in exact arithmetic. -/
theorem listed_of {u : L3} (h1 : Bounded 1 u.1) (h2 : Bounded 1 u.2.1) (h3 : Bounded 1 u.2.2) (hd : det3 u.1 u.2.1 u.2.2 = 1)
    (s1 : sqInt u.1 = 3) (s2 : 3 * sqInt u.2.1 - dotInt u.1 u.2.1 ^ 2 = 2) : Listed 1 (V3.const 5500) scriptRanges u := by
  obtain ⟨c, hc⟩ := (C10_init u.1 u.2.1 u.2.2 (V3.const 5500)).1 hd
  have hm : Made u.1 u.2.1 u.2.2 (V3.const 5500) c := ⟨hc, by norm_num [PosBox, V3.const]⟩
  refine ⟨h1, h2, h3, ?_, c, hc, ?_⟩
  · rw [show Spec.triple (toReal u.1) (toReal u.2.1) (toReal u.2.2) = det3 (toReal u.1) (toReal u.2.1) (toReal u.2.2) from rfl,
      det3_cast, hd]
    norm_num
  rw [script_sides hm s1 s2]
  have lo : ∀ {x a : ℝ}, 0 ≤ a → a ^ 2 ≤ x → a ≤ Real.sqrt x := fun ha h => Real.le_sqrt_of_sq_le h
  have hi : ∀ {x a : ℝ}, 0 ≤ a → x ≤ a ^ 2 → Real.sqrt x ≤ a := fun ha h => (Real.sqrt_le_left ha).2 h
  have a1 := lo (x := 3) (a := 16 / 11) (by norm_num) (by norm_num)
  have a2 := hi (x := 3) (a := 20 / 11) (by norm_num) (by norm_num)
  have a3 := lo (x := 2 / 3) (a := 8 / 11) (by norm_num) (by norm_num)
  have a4 := hi (x := 2 / 3) (a := 10 / 11) (by norm_num) (by norm_num)
  have a5 := lo (x := 1 / 2) (a := 4 / 11) (by norm_num) (by norm_num)
  have a6 := hi (x := 1 / 2) (a := 8 / 11) (by norm_num) (by norm_num)
  refine ⟨?_, ?_, ?_⟩ <;> intro r h <;> simp [scriptRanges] at h <;> subst h <;>
    simp only [Remap.Range.has, Option.mem_def, Option.some.injEq, forall_eq'] <;> constructor <;> linarith

/-- What double precision accepts, exact arithmetic accepts. -/
theorem listed_of_rounded {u : L3} (h : ListedF binary64 1 (V3.const 5500) scriptRanges u) :
    Listed 1 (V3.const 5500) scriptRanges u := by
  obtain ⟨h1, h2, h3, hd, r1, r2, -⟩ := h
  have hd' : det3 u.1 u.2.1 u.2.2 = 1 := by
    rw [show Spec.triple (toReal u.1) (toReal u.2.1) (toReal u.2.2) = det3 (toReal u.1) (toReal u.2.1) (toReal u.2.2)
      from rfl, det3_cast] at hd
    exact_mod_cast hd
  have f1 := first_vector h1 (r1 _ rfl).1
  have r2 := (r2 _ rfl).2 5000 rfl
  have s1 : sqInt u.1 = 3 := by
    obtain ⟨x, y, z⟩ := f1
    have sq : ∀ n : ℤ, |n| = 1 → n * n = 1 := fun n hn => by rw [← abs_mul_abs_self, hn]; norm_num
    simp only [sqInt, sq _ x, sq _ y, sq _ z]
    norm_num
  refine listed_of h1 h2 h3 hd' s1 ?_
  rcases second_cases f1 h2 hd' with h | h
  · exact h
  · exfalso
    have hal : alphaF binary64 (toReal u.1) (toReal u.2.1) = binary64.rnd (-(dotInt u.1 u.2.1 : ℝ) / 3) := by
      have : dotInt u.1 u.1 = 3 := s1
      unfold alphaF
      rw [dotF_int h1 h2, dotF_int h1 h1, this]
      norm_num
    obtain ⟨⟨b1, b2⟩, ⟨b3, b4⟩, ⟨b5, b6⟩⟩ := h2
    push_cast at b1 b2 b3 b4 b5 b6
    have hdot : |dotInt u.1 u.2.1| ≤ 3 := by
      have p : ∀ x y : ℤ, |x| = 1 → |y| ≤ 1 → |x * y| ≤ 1 := fun x y h1 h2 => by rw [abs_mul, h1, one_mul]; exact h2
      have q1 := p _ _ f1.1 (abs_le.2 ⟨b1, b2⟩)
      have q2 := p _ _ f1.2.1 (abs_le.2 ⟨b3, b4⟩)
      have q3 := p _ _ f1.2.2 (abs_le.2 ⟨b5, b6⟩)
      have t1 := abs_add_le (u.1.x * u.2.1.x + u.1.y * u.2.1.y) (u.1.z * u.2.1.z)
      have t2 := abs_add_le (u.1.x * u.2.1.x) (u.1.y * u.2.1.y)
      simp only [dotInt]
      linarith
    have hn : 5001 ≤ (sizesOfF binary64 (V3.const 5500) u).y := by
      simp only [sizesOfF, orthogonalizeF, hal]
      apply normF_ge
      simp only [emulF, addF, smulF, toReal, V3.const]
      rcases h with h | h | h
      · exact Or.inl (component f1.1 hdot h)
      · exact Or.inr (Or.inl (component f1.2.1 hdot h))
      · exact Or.inr (Or.inr (component f1.2.2 hdot h))
    linarith

theorem listed0 : ListedF binary64 1 (V3.const 5500) scriptRanges (⟨1, 1, 1⟩, ⟨0, 1, 1⟩, ⟨0, 0, 1⟩) := by
  refine ⟨by simp [Bounded], by simp [Bounded], by simp [Bounded], by norm_num [Spec.triple, toReal], ?_⟩
  rw [key0_sizes]
  norm_num [InRanges, scriptRanges, Remap.Range.has]

theorem listed1 : ListedF binary64 1 (V3.const 5500) scriptRanges (⟨1, 1, 1⟩, ⟨0, 1, 0⟩, ⟨-1, 1, 0⟩) := by
  refine ⟨by simp [Bounded], by simp [Bounded], by simp [Bounded], by norm_num [Spec.triple, toReal], ?_⟩
  rw [key1_sizes]
  norm_num [InRanges, scriptRanges, Remap.Range.has]

theorem sizes_ne : (sizesOfF binary64 (V3.const 5500) (⟨1, 1, 1⟩, ⟨0, 1, 1⟩, ⟨0, 0, 1⟩)).z ≠
    (sizesOfF binary64 (V3.const 5500) (⟨1, 1, 1⟩, ⟨0, 1, 0⟩, ⟨-1, 1, 0⟩)).z := by
  rw [key0_sizes, key1_sizes]
  norm_num

/-- C117 fails for "one entry per size of the remapped box": in double precision two triples giving boxes of the same size are
listed under two keys. -/
theorem C117_same_size_violated {coprimes : List (List ℤ)} (hi : IterationOf 1 coprimes) :
    ∃ (u v : L3) (k l : List ℝ) (lu lv : List L3) (c c' : Cuboid),
      (k, lu) ∈ generateLatticeVectorsF binary64 coprimes none (V3.const 5500) scriptRanges false ∧ u ∈ lu ∧
      (l, lv) ∈ generateLatticeVectorsF binary64 coprimes none (V3.const 5500) scriptRanges false ∧ v ∈ lv ∧ k ≠ l ∧
      Cuboid.init (toReal u.1) (toReal u.2.1) (toReal u.2.2) (V3.const 5500) = .ok c ∧
      Cuboid.init (toReal v.1) (toReal v.2.1) (toReal v.2.2) (V3.const 5500) = .ok c' ∧ c.cuboidsize = c'.cuboidsize := by
  have hL : PosBox (V3.const 5500) := by norm_num [PosBox, V3.const]
  obtain ⟨-, -, hx⟩ := C117_exact binary64 hi (V3.const 5500) scriptRanges false
  obtain ⟨lu, k1, k2⟩ := (hx _ (sizesOfF binary64 (V3.const 5500) (⟨1, 1, 1⟩, ⟨0, 1, 1⟩, ⟨0, 0, 1⟩)).toList).2
    ⟨listed0, by simp [HasKeyF]⟩
  obtain ⟨lv, k3, k4⟩ := (hx _ (sizesOfF binary64 (V3.const 5500) (⟨1, 1, 1⟩, ⟨0, 1, 0⟩, ⟨-1, 1, 0⟩)).toList).2
    ⟨listed1, by simp [HasKeyF]⟩
  obtain ⟨-, -, -, -, c, hc, -⟩ := id (listed_of_rounded listed0)
  obtain ⟨-, -, -, -, c', hc', -⟩ := id (listed_of_rounded listed1)
  refine ⟨_, _, _, _, lu, lv, c, c', k1, k2, k3, k4, ?_, hc, hc', ?_⟩
  · intro h
    simp only [V3.toList, List.cons.injEq] at h
    exact sizes_ne h.2.2.1
  · rw [script_norms (listed_of_rounded listed0) (L := 5500) (c := c) ⟨hc, hL⟩,
      script_norms (listed_of_rounded listed1) (L := 5500) (c := c') ⟨hc', hL⟩]

/-- C75, with the rounding errors of double precision: whatever the order in which python goes through the set of coprime triples,
the dictionary has at least two keys, the script finds its vectors, and they are among those that give the sides it asks for (sides for
which `C75_remap_partial` says what the script does to the catalog). -/
theorem C75_rounded {coprimes : List (List ℤ)} (hi : IterationOf 1 coprimes) :
    2 ≤ (scriptLatticeF binary64 coprimes).length ∧
      ∃ u, pickLattice (scriptLatticeF binary64 coprimes) = .ok u ∧ Listed 1 (V3.const 5500) scriptRanges u := by
  have hg := generateF_spec (F := binary64) coprimes (some 1) (V3.const 5500) scriptRanges false
  have hmem : ∀ u : L3, ListedF binary64 1 (V3.const 5500) scriptRanges u →
      ((sizesOfF binary64 (V3.const 5500) u).toList, limit (some 1) (chosenF binary64 coprimes (V3.const 5500) scriptRanges false
        (sizesOfF binary64 (V3.const 5500) u).toList)) ∈ scriptLatticeF binary64 coprimes := by
    intro u hu
    have hk := (keptF_iff hi (V3.const 5500) scriptRanges false u (sizesOfF binary64 (V3.const 5500) u).toList).2
      ⟨hu, by simp [HasKeyF]⟩
    exact (hg.2 _ _).2 ⟨by rw [ne_eq, limit_ne_nil]; exact List.ne_nil_of_mem (mem_chosenF.2 hk), rfl⟩
  have hne : (sizesOfF binary64 (V3.const 5500) (⟨1, 1, 1⟩, ⟨0, 1, 1⟩, ⟨0, 0, 1⟩)).toList ≠
      (sizesOfF binary64 (V3.const 5500) (⟨1, 1, 1⟩, ⟨0, 1, 0⟩, ⟨-1, 1, 0⟩)).toList := by
    intro h
    simp only [V3.toList, List.cons.injEq] at h
    exact sizes_ne h.2.2.1
  have m0 := hmem _ listed0
  have m1 := hmem _ listed1
  have hlen : 2 ≤ (scriptLatticeF binary64 coprimes).length := by
    match hs : scriptLatticeF binary64 coprimes with
    | [] => rw [hs] at m0; simp at m0
    | [e] =>
      rw [hs] at m0 m1
      simp only [List.mem_singleton] at m0 m1
      exact absurd (congrArg Prod.fst (m0.trans m1.symm)) hne
    | a :: b :: l => simp
  refine ⟨hlen, ?_⟩
  match hs : scriptLatticeF binary64 coprimes with
  | [] => rw [hs] at hlen; simp at hlen
  | [e] => rw [hs] at hlen; simp at hlen
  | a :: (k, l) :: rest =>
    obtain ⟨hl0, hl⟩ := (hg.2 k l).1 (show (k, l) ∈ scriptLatticeF binary64 coprimes by rw [hs]; simp)
    match l with
    | [] => exact absurd rfl hl0
    | u :: l' =>
      refine ⟨u, (C75_pick _ _).2 ⟨a, k, l', rest, rfl⟩, ?_⟩
      have hu : u ∈ chosenF binary64 coprimes (V3.const 5500) scriptRanges false k := by
        have : u ∈ limit (some 1) (chosenF binary64 coprimes (V3.const 5500) scriptRanges false k) := by rw [← hl]; simp
        exact List.mem_of_mem_take this
      exact listed_of_rounded ((keptF_iff hi _ _ _ _ _).1 (mem_chosenF.1 hu)).1

/-- There is an order. -/
example : ∃ coprimes, IterationOf 1 coprimes ∧ 2 ≤ (scriptLatticeF binary64 coprimes).length := by
  obtain ⟨c, hc⟩ := iterationOf_exists 1
  exact ⟨c, hc, (C75_rounded hc).1⟩

end Verif.Props.RoundedLattice
