import Verif.Lemmas.Interp

/-!
# C36: redshift density histogram
-/

namespace Verif.Props
open Verif Verif.Model

/-- The `i`-th bin: closed on the left, open on the right, but for the last bin which is closed. -/
def InBin (edges : List ℝ) (i : ℕ) (z : ℝ) : Prop :=
  ∃ a b, edges[i]? = some a ∧ edges[i + 1]? = some b ∧ a ≤ z ∧ (z < b ∨ (i + 2 = edges.length ∧ z ≤ b))

/-- Sum of the weights of the objects satisfying `P`. -/
noncomputable def weightOf (P : ℝ → Prop) (rows : List (ℝ × ℝ)) : ℝ :=
  open Classical in ((rows.filter fun r => decide (P r.1)).map (·.2)).sum

/-- The choices of bins covered by the property: default (any positive width), or a positive number of bins. -/
def AutoBins : Bins → Prop
  | .scott dx => 0 < dx
  | .number n => 1 ≤ n
  | .edges _ => False

theorem weightOf_cons (P : ℝ → Prop) (r : ℝ × ℝ) (rows : List (ℝ × ℝ)) :
    weightOf P (r :: rows) = (open Classical in if P r.1 then r.2 else 0) + weightOf P rows := by
  classical
  unfold weightOf
  rw [List.filter_cons]
  by_cases h : P r.1 <;> simp [h]

theorem weightOf_append (P : ℝ → Prop) (r s : List (ℝ × ℝ)) : weightOf P (r ++ s) = weightOf P r + weightOf P s := by
  simp [weightOf, List.filter_append]

theorem weightOf_perm (P : ℝ → Prop) {r s : List (ℝ × ℝ)} (h : r.Perm s) : weightOf P r = weightOf P s := by
  unfold weightOf
  exact ((h.filter _).map _).sum_eq

theorem weightOf_congr {P Q : ℝ → Prop} {rows : List (ℝ × ℝ)} (h : ∀ r ∈ rows, P r.1 ↔ Q r.1) :
    weightOf P rows = weightOf Q rows := by
  induction rows with
  | nil => rfl
  | cons a l ih =>
    rw [weightOf_cons, weightOf_cons, ih fun r hr => h r (List.mem_cons_of_mem _ hr)]
    have := h a (by simp)
    by_cases hp : P a.1
    · rw [if_pos hp, if_pos (this.1 hp)]
    · rw [if_neg hp, if_neg fun hq => hp (this.2 hq)]

theorem weightOf_true {P : ℝ → Prop} {rows : List (ℝ × ℝ)} (h : ∀ r ∈ rows, P r.1) :
    weightOf P rows = (rows.map (·.2)).sum := by
  unfold weightOf
  rw [List.filter_eq_self.2 (by simpa using h)]

theorem weightOf_split {P Q R : ℝ → Prop} {rows : List (ℝ × ℝ)} (h : ∀ z, R z ↔ P z ∨ Q z) (hd : ∀ z, ¬ (P z ∧ Q z)) :
    weightOf P rows + weightOf Q rows = weightOf R rows := by
  induction rows with
  | nil => simp [weightOf]
  | cons a l ih =>
    rw [weightOf_cons, weightOf_cons, weightOf_cons, ← ih]
    have h1 := h a.1
    have h2 := hd a.1
    by_cases hp : P a.1
    · rw [if_pos hp, if_neg fun hq => h2 ⟨hp, hq⟩, if_pos (h1.2 (Or.inl hp))]; ring
    · by_cases hq : Q a.1
      · rw [if_neg hp, if_pos hq, if_pos (h1.2 (Or.inr hq))]; ring
      · rw [if_neg hp, if_neg hq, if_neg fun hr => (h1.1 hr).elim hp hq]; ring

theorem histogram_two (a b : ℝ) (rows : List (ℝ × ℝ)) :
    histogram [a, b] rows = [weightOf (fun z => a ≤ z ∧ z ≤ b) rows] := by
  simp only [histogram, weightOf]
  congr
  funext r
  congr

theorem histogram_cons (a b c : ℝ) (l : List ℝ) (rows : List (ℝ × ℝ)) :
    histogram (a :: b :: c :: l) rows = weightOf (fun z => a ≤ z ∧ z < b) rows :: histogram (b :: c :: l) rows := by
  rw [histogram]
  · simp only [weightOf]
    congr
    funext r
    congr
  · intro h; simp at h

theorem histogram_length (edges : List ℝ) (rows : List (ℝ × ℝ)) : (histogram edges rows).length = edges.length - 1 := by
  induction edges with
  | nil => rfl
  | cons a l ih =>
    match l with
    | [] => rfl
    | [b] => rfl
    | b :: c :: l =>
      rw [histogram_cons, List.length_cons, ih]
      simp

/-- The `i`-th entry of the histogram is the weight in the `i`-th bin. -/
theorem histogram_get (edges : List ℝ) (rows : List (ℝ × ℝ)) (i : ℕ) (hi : i + 1 < edges.length) :
    (histogram edges rows)[i]? = some (weightOf (InBin edges i) rows) := by
  induction edges generalizing i with
  | nil => simp at hi
  | cons a l ih =>
    match l with
    | [] => simp at hi
    | [b] =>
      have : i = 0 := by simpa using hi
      subst this
      rw [histogram_two]
      simp only [List.getElem?_cons_zero, Option.some.injEq]
      apply weightOf_congr
      intro r _
      constructor
      · rintro ⟨h1, h2⟩
        exact ⟨a, b, rfl, rfl, h1, Or.inr ⟨rfl, h2⟩⟩
      · rintro ⟨a', b', ha, hb, h1, h2⟩
        simp at ha hb
        subst ha hb
        exact ⟨h1, h2.elim le_of_lt (·.2)⟩
    | b :: c :: l =>
      rw [histogram_cons]
      cases i with
      | zero =>
        simp only [List.getElem?_cons_zero, Option.some.injEq]
        apply weightOf_congr
        intro r _
        constructor
        · rintro ⟨h1, h2⟩
          exact ⟨a, b, rfl, rfl, h1, Or.inl h2⟩
        · rintro ⟨a', b', ha, hb, h1, h2⟩
          simp at ha hb
          subst ha hb
          refine ⟨h1, h2.elim id fun h => ?_⟩
          have := h.1
          simp at this
      | succ i =>
        rw [List.getElem?_cons_succ, ih i (by simpa using hi)]
        congr 1
        apply weightOf_congr
        intro r _
        unfold InBin
        simp only [List.getElem?_cons_succ, List.length_cons]
        constructor
        · rintro ⟨a', b', ha, hb, h1, h2⟩
          refine ⟨a', b', ha, hb, h1, h2.imp id fun h => ⟨by omega, h.2⟩⟩
        · rintro ⟨a', b', ha, hb, h1, h2⟩
          refine ⟨a', b', ha, hb, h1, h2.imp id fun h => ⟨by omega, h.2⟩⟩

/-- All weights between the first and the last edge are counted once. -/
theorem histogram_sum {a : ℝ} {l : List ℝ} (hl : l ≠ []) (hs : (a :: l).Pairwise (· ≤ ·)) (rows : List (ℝ × ℝ)) :
    (histogram (a :: l) rows).sum = weightOf (fun z => a ≤ z ∧ z ≤ (a :: l).getLast (by simp)) rows := by
  induction l generalizing a with
  | nil => simp at hl
  | cons b l ih =>
    cases l with
    | nil => simp [histogram_two]
    | cons c l =>
      rw [histogram_cons, List.sum_cons, ih (by simp) (List.pairwise_cons.1 hs).2]
      have hab : a ≤ b := (List.pairwise_cons.1 hs).1 b (by simp)
      have hlast : (a :: b :: c :: l).getLast (by simp) = (b :: c :: l).getLast (by simp) := List.getLast_cons (by simp)
      have hbl : b ≤ (b :: c :: l).getLast (by simp) := by
        rw [List.getLast_cons (by simp)]
        exact (List.pairwise_cons.1 (List.pairwise_cons.1 hs).2).1 _ (List.getLast_mem _)
      simp only [hlast]
      apply weightOf_split
      · intro z
        constructor
        · rintro ⟨h1, h2⟩
          rcases lt_or_ge z b with h | h
          · exact Or.inl ⟨h1, h⟩
          · exact Or.inr ⟨h, h2⟩
        · rintro (⟨h1, h2⟩ | ⟨h1, h2⟩)
          · exact ⟨h1, h2.le.trans hbl⟩
          · exact ⟨hab.trans h1, h2⟩
      · rintro z ⟨⟨-, h1⟩, h2, -⟩
        linarith

theorem histogram_append (edges : List ℝ) (r s : List (ℝ × ℝ)) :
    histogram edges (r ++ s) = List.zipWith (· + ·) (histogram edges r) (histogram edges s) := by
  induction edges with
  | nil => rfl
  | cons a l ih =>
    match l with
    | [] => rfl
    | [b] => simp [histogram_two, weightOf_append]
    | b :: c :: l =>
      rw [histogram_cons, histogram_cons, histogram_cons, weightOf_append, ih]
      rfl

theorem histogram_perm (edges : List ℝ) {r s : List (ℝ × ℝ)} (h : r.Perm s) : histogram edges r = histogram edges s := by
  induction edges with
  | nil => rfl
  | cons a l ih =>
    match l with
    | [] => rfl
    | [b] => rw [histogram_two, histogram_two, weightOf_perm _ h]
    | b :: c :: l => rw [histogram_cons, histogram_cons, weightOf_perm _ h, ih]

theorem histogram_nil (edges : List ℝ) : histogram edges [] = List.replicate (edges.length - 1) 0 := by
  induction edges with
  | nil => rfl
  | cons a l ih =>
    match l with
    | [] => rfl
    | [b] => simp [histogram_two, weightOf]
    | b :: c :: l =>
      rw [histogram_cons, ih]
      simp [weightOf, List.replicate_succ]

/-- Counts summed over ranks are the counts of the concatenated sample. -/
theorem reduceSum_histogram (edges : List ℝ) (rows : List (List (ℝ × ℝ))) :
    reduceSum (edges.length - 1) (rows.map (histogram edges)) = histogram edges rows.flatten := by
  unfold reduceSum
  have key : ∀ (r : List (ℝ × ℝ)), (rows.map (histogram edges)).foldl (List.zipWith (· + ·)) (histogram edges r) =
      histogram edges (r ++ rows.flatten) := by
    induction rows with
    | nil => simp
    | cons a l ih =>
      intro r
      rw [List.map_cons, List.foldl_cons, ← histogram_append, ih]
      simp
  rw [← histogram_nil, key]
  rfl

theorem extremes_spec {zs : List ℝ} {lo hi : ℝ} (h : extremes zs = .ok (lo, hi)) :
    lo ∈ zs ∧ hi ∈ zs ∧ ∀ z ∈ zs, lo ≤ z ∧ z ≤ hi := by
  cases zs with
  | nil => simp [extremes] at h
  | cons z l =>
    simp only [extremes, Except.ok.injEq, Prod.mk.injEq] at h
    obtain ⟨rfl, rfl⟩ := h
    exact ⟨(foldl_min_spec z l).1, (foldl_max_spec z l).1, fun x hx => ⟨(foldl_min_spec z l).2 x hx, (foldl_max_spec z l).2 x hx⟩⟩

theorem extremes_perm {zs zs' : List ℝ} (h : zs.Perm zs') : extremes zs = extremes zs' := by
  cases zs with
  | nil => rw [List.nil_perm.1 h]
  | cons z l =>
    cases zs' with
    | nil => exact absurd (List.nil_perm.1 h.symm) (by simp)
    | cons z' l' =>
      have e := extremes_spec (zs := z :: l) rfl
      have e' := extremes_spec (zs := z' :: l') rfl
      simp only [extremes, Except.ok.injEq, Prod.mk.injEq]
      exact ⟨le_antisymm (e.2.2 _ (h.mem_iff.2 e'.1)).1 (e'.2.2 _ (h.mem_iff.1 e.1)).1,
        le_antisymm (e'.2.2 _ (h.mem_iff.1 e.2.1)).2 (e.2.2 _ (h.mem_iff.2 e'.2.1)).2⟩

/-- Automatic edges: at least two, never decreasing, starting at the lowest redshift and ending at the highest or above. -/
theorem binEdges_auto {bins : Bins} (hb : AutoBins bins) {zs : List ℝ} {edges : List ℝ} (h : binEdges bins zs = .ok edges) :
    ∃ a l, edges = a :: l ∧ ∃ hl : l ≠ [], edges.Pairwise (· ≤ ·) ∧ ∀ z ∈ zs, a ≤ z ∧ z ≤ l.getLast hl := by
  cases bins with
  | edges l => exact hb.elim
  | scott dx =>
    simp only [AutoBins] at hb
    unfold binEdges at h
    cases he : extremes zs with
    | error e => rw [he] at h; simp [bind, Except.bind] at h
    | ok p =>
      obtain ⟨lo, hi⟩ := p
      rw [he] at h
      simp only [bind, Except.bind, Except.ok.injEq] at h
      obtain ⟨hlo, -, hall⟩ := extremes_spec he
      obtain ⟨n, hn⟩ : ∃ n : ℕ, max 1 ⌈(hi - lo) / dx⌉ = (n : ℤ) + 1 :=
        ⟨(max 1 ⌈(hi - lo) / dx⌉ - 1).toNat, by have := le_max_left 1 ⌈(hi - lo) / dx⌉; omega⟩
      rw [hn, show ((n : ℤ) + 1 + 1).toNat = n + 1 + 1 by omega] at h
      have hle : (hi - lo) / dx ≤ (n : ℝ) + 1 := by
        have h1 := Int.le_ceil ((hi - lo) / dx)
        have h2 : ⌈(hi - lo) / dx⌉ ≤ (n : ℤ) + 1 := hn ▸ le_max_right _ _
        have h3 : (⌈(hi - lo) / dx⌉ : ℝ) ≤ ((n : ℤ) + 1 : ℤ) := by exact_mod_cast h2
        push_cast at h3
        linarith
      rw [div_le_iff₀ hb] at hle
      rw [List.range_succ_eq_map, List.map_cons] at h
      refine ⟨_, _, h.symm, by simp, ?_, ?_⟩
      · rw [← h, ← List.map_cons (f := fun k : ℕ => lo + dx * k), ← List.range_succ_eq_map, List.pairwise_map]
        refine (List.pairwise_lt_range).imp ?_
        intro a b hab
        have : (a : ℝ) ≤ b := by exact_mod_cast hab.le
        nlinarith
      · intro z hz
        obtain ⟨h1, h2⟩ := hall z hz
        refine ⟨by simpa using h1, ?_⟩
        simp only [List.range_succ, List.map_append, List.map_cons, List.map_nil, List.getLast_append_singleton]
        push_cast
        linarith
  | number n =>
    simp only [AutoBins] at hb
    unfold binEdges at h
    cases he : extremes zs with
    | error e => rw [he] at h; simp [bind, Except.bind] at h
    | ok p =>
      obtain ⟨lo, hi⟩ := p
      rw [he] at h
      simp only [bind, Except.bind] at h
      rw [if_neg (by omega)] at h
      simp only [Except.ok.injEq] at h
      obtain ⟨hlo, -, hall⟩ := extremes_spec he
      have hlh := (hall lo hlo).2
      obtain ⟨m, rfl⟩ : ∃ m, n = m + 1 := ⟨n - 1, by omega⟩
      have hm : (0 : ℝ) < (m : ℝ) + 1 := by positivity
      rw [List.range_succ_eq_map, List.map_cons] at h
      refine ⟨_, _, h.symm, by simp, ?_, ?_⟩
      · rw [← h, ← List.map_cons (f := fun k : ℕ => lo + (hi - lo) * k / ((m + 1 : ℕ) : ℝ)), ← List.range_succ_eq_map,
          List.pairwise_map]
        refine (List.pairwise_lt_range).imp ?_
        intro a b hab
        have : (a : ℝ) ≤ b := by exact_mod_cast hab.le
        have : (hi - lo) * a ≤ (hi - lo) * b := mul_le_mul_of_nonneg_left this (by linarith)
        have := div_le_div_of_nonneg_right this hm.le
        push_cast
        linarith
      · intro z hz
        obtain ⟨h1, h2⟩ := hall z hz
        refine ⟨by simpa using h1, ?_⟩
        simp only [List.range_succ, List.map_append, List.map_cons, List.map_nil, List.getLast_append_singleton]
        push_cast
        rw [mul_div_assoc, div_self hm.ne']
        linarith

theorem redshiftDensity_ok {rows : List (List (ℝ × ℝ))} {bins : Bins} {fsky : Option ℝ} {distance : Option (ℝ → ℝ)}
    {edges counts nbar : List ℝ} (h : redshiftDensity rows bins fsky distance = .ok (edges, counts, nbar)) :
    binEdges bins (rows.flatten.map (·.1)) = .ok edges ∧ counts = histogram edges rows.flatten ∧
      nbar = List.zipWith (· / ·) counts (shellVolumes fsky (edgeDistances distance edges)) := by
  unfold redshiftDensity at h
  cases he : binEdges bins (rows.flatten.map (·.1)) with
  | error e => rw [he] at h; simp [bind, Except.bind] at h
  | ok ed =>
    rw [he] at h
    simp only [bind, Except.bind, Except.ok.injEq, Prod.mk.injEq, reduceSum_histogram] at h
    obtain ⟨rfl, rfl, rfl⟩ := h
    exact ⟨rfl, rfl, rfl⟩

/-- C36. Every object falls in exactly one bin. -/
theorem C36_one_bin {rows : List (List (ℝ × ℝ))} {bins : Bins} (hb : AutoBins bins) {fsky : Option ℝ}
    {distance : Option (ℝ → ℝ)} {edges counts nbar : List ℝ}
    (h : redshiftDensity rows bins fsky distance = .ok (edges, counts, nbar)) {rank : List (ℝ × ℝ)} (hr : rank ∈ rows)
    {z w : ℝ} (hz : (z, w) ∈ rank) : ∃! i, InBin edges i z := by
  obtain ⟨he, -, -⟩ := redshiftDensity_ok h
  obtain ⟨a, l, rfl, hl, hs, hall⟩ := binEdges_auto hb he
  have hz' := hall z (List.mem_map.2 ⟨(z, w), List.mem_flatten.2 ⟨rank, hr, hz⟩, rfl⟩)
  -- existence
  have hex : ∃ i, InBin (a :: l) i z := by
    clear he hall h hr
    induction l generalizing a with
    | nil => simp at hl
    | cons b l ih =>
      cases l with
      | nil => exact ⟨0, a, b, rfl, rfl, hz'.1, Or.inr ⟨rfl, hz'.2⟩⟩
      | cons c l =>
        rcases lt_or_ge z b with hzb | hzb
        · exact ⟨0, a, b, rfl, rfl, hz'.1, Or.inl hzb⟩
        · rw [List.getLast_cons (by simp)] at hz'
          obtain ⟨i, a', b', h1, h2, h3, h4⟩ := ih (a := b) (by simp) (List.pairwise_cons.1 hs).2 ⟨hzb, hz'.2⟩
          exact ⟨i + 1, a', b', by simpa using h1, by simpa using h2, h3, h4.imp id fun h => ⟨by simpa using h.1, h.2⟩⟩
  obtain ⟨i, hi⟩ := hex
  refine ⟨i, hi, ?_⟩
  intro j hj
  have key : ∀ {i j : ℕ}, InBin (a :: l) i z → InBin (a :: l) j z → ¬ i < j := by
    rintro i j ⟨p, q, hp, hq, h1, h2⟩ ⟨p', q', hp', hq', h1', h2'⟩ hij
    obtain ⟨hj1, rfl⟩ := List.getElem?_eq_some_iff.1 hp'
    obtain ⟨hj2, -⟩ := List.getElem?_eq_some_iff.1 hq'
    obtain ⟨hi1, rfl⟩ := List.getElem?_eq_some_iff.1 hq
    have hle : (a :: l)[i + 1] ≤ (a :: l)[j] := by
      rcases (Nat.succ_le_of_lt hij).lt_or_eq with hlt | heq
      · exact List.pairwise_iff_getElem.1 hs _ _ hi1 hj1 hlt
      · subst heq; exact le_rfl
    rcases h2 with h2 | ⟨h2, -⟩
    · linarith
    · omega
  rcases lt_trichotomy i j with h' | h' | h'
  · exact (key hi hj h').elim
  · exact h'.symm
  · exact (key hj hi h').elim

/-- C36. The counts are the summed weights in each bin, all ranks together; one count per bin. -/
theorem C36_counts {rows : List (List (ℝ × ℝ))} {bins : Bins} {fsky : Option ℝ}
    {distance : Option (ℝ → ℝ)} {edges counts nbar : List ℝ}
    (h : redshiftDensity rows bins fsky distance = .ok (edges, counts, nbar)) :
    counts.length = edges.length - 1 ∧
    ∀ i, i + 1 < edges.length → counts[i]? = some (weightOf (InBin edges i) rows.flatten) := by
  obtain ⟨-, rfl, -⟩ := redshiftDensity_ok h
  exact ⟨histogram_length _ _, histogram_get _ _⟩

/-- C36. No weight is lost: the counts add up to the total weight. -/
theorem C36_total {rows : List (List (ℝ × ℝ))} {bins : Bins} (hb : AutoBins bins) {fsky : Option ℝ}
    {distance : Option (ℝ → ℝ)} {edges counts nbar : List ℝ}
    (h : redshiftDensity rows bins fsky distance = .ok (edges, counts, nbar)) :
    counts.sum = (rows.flatten.map (·.2)).sum := by
  obtain ⟨he, rfl, -⟩ := redshiftDensity_ok h
  obtain ⟨a, l, rfl, hl, hs, hall⟩ := binEdges_auto hb he
  rw [histogram_sum hl hs]
  apply weightOf_true
  intro r hr
  have := hall r.1 (List.mem_map_of_mem hr)
  rw [List.getLast_cons hl]
  exact this

/-- Volume of the shells between consecutive edges, for a fraction `fsky` of the sky. -/
noncomputable def shellVolume (fsky : ℝ) (d : ℝ → ℝ) (a b : ℝ) : ℝ := fsky * (4 / 3 * Real.pi * d b ^ 3 - 4 / 3 * Real.pi * d a ^ 3)

theorem zipWith_div_mul : ∀ {c v : List ℝ}, c.length = v.length → (∀ x ∈ v, x ≠ 0) →
    List.zipWith (· * ·) (List.zipWith (· / ·) c v) v = c
  | [], [], _, _ => rfl
  | a :: c, b :: v, h, hv => by
    simp only [List.zipWith_cons_cons, List.cons.injEq]
    exact ⟨div_mul_cancel₀ a (hv b (by simp)), zipWith_div_mul (by simpa using h) fun x hx => hv x (by simp [hx])⟩
  | [], _ :: _, h, _ => by simp at h
  | _ :: _, [], h, _ => by simp at h

/-- C36. The density times the volume of the shells adds up to the total weight, if no shell is empty. -/
theorem C36_volume {rows : List (List (ℝ × ℝ))} {bins : Bins} (hb : AutoBins bins) {fsky : ℝ} {d : ℝ → ℝ}
    {edges counts nbar : List ℝ} (h : redshiftDensity rows bins (some fsky) (some d) = .ok (edges, counts, nbar))
    (hv : ∀ (i : ℕ) a b, edges[i]? = some a → edges[i + 1]? = some b → shellVolume fsky d a b ≠ 0) :
    (List.zipWith (fun n e => n * shellVolume fsky d e.1 e.2) nbar (List.zip edges edges.tail)).sum =
      (rows.flatten.map (·.2)).sum := by
  rw [← C36_total hb h]
  have hc := (C36_counts h).1
  obtain ⟨-, -, hn⟩ := redshiftDensity_ok h
  have hvol : shellVolumes (some fsky) (edges.map d) = (List.zip edges edges.tail).map fun e => shellVolume fsky d e.1 e.2 := by
    unfold shellVolumes
    rw [← List.map_tail, List.zip_map, List.map_map]
    apply List.map_congr_left
    intro e _
    simp only [Function.comp, Prod.map, shellVolume]
    ring
  rw [show edgeDistances (some d) edges = edges.map d from rfl, hvol] at hn
  have e1 : List.zipWith (fun n e => n * shellVolume fsky d e.1 e.2) nbar (List.zip edges edges.tail) =
      List.zipWith (· * ·) nbar ((List.zip edges edges.tail).map fun e => shellVolume fsky d e.1 e.2) := by
    rw [List.zipWith_map_right]
  rw [e1, hn, zipWith_div_mul]
  · rw [hc]; simp
  · intro x hx
    obtain ⟨e, he, rfl⟩ := List.mem_map.1 hx
    obtain ⟨i, hi⟩ := List.mem_iff_getElem?.1 he
    rw [List.getElem?_zip_eq_some] at hi
    exact hv i e.1 e.2 hi.1 (by simpa using hi.2)

/-- C36. Without volume normalisation the density is the counts. -/
theorem C36_no_volume {rows : List (List (ℝ × ℝ))} {bins : Bins} {d : Option (ℝ → ℝ)} {edges counts nbar : List ℝ}
    (h : redshiftDensity rows bins none d = .ok (edges, counts, nbar)) : nbar = counts := by
  have hc := (C36_counts h).1
  obtain ⟨-, -, hn⟩ := redshiftDensity_ok h
  have hlen : (edgeDistances d edges).length = edges.length := by cases d <;> simp [edgeDistances]
  have hv : ∀ l : List ℝ, shellVolumes none l = List.replicate (l.length - 1) 1 := by
    intro l
    simp [shellVolumes]
  rw [hn, hv, hlen, ← hc]
  clear hn h hc
  induction counts with
  | nil => rfl
  | cons a l ih => simp [List.replicate_succ, ih]

/-- C36. The order of the objects and their distribution over ranks do not matter. -/
theorem C36_ranks {rows rows' : List (List (ℝ × ℝ))} (hp : rows.flatten.Perm rows'.flatten) (bins : Bins) (fsky : Option ℝ)
    (distance : Option (ℝ → ℝ)) : redshiftDensity rows bins fsky distance = redshiftDensity rows' bins fsky distance := by
  have he : binEdges bins (rows.flatten.map (·.1)) = binEdges bins (rows'.flatten.map (·.1)) := by
    unfold binEdges
    rw [extremes_perm (hp.map (·.1))]
  unfold redshiftDensity
  rw [he]
  cases binEdges bins (rows'.flatten.map (·.1)) with
  | error e => rfl
  | ok edges =>
    simp only [bind, Except.bind, reduceSum_histogram]
    rw [histogram_perm edges hp]

/-- C36. Automatic bins are available as soon as there is an object. -/
theorem C36_defined {rows : List (List (ℝ × ℝ))} {bins : Bins} (fsky : Option ℝ) (distance : Option (ℝ → ℝ))
    (h : rows.flatten ≠ []) : ∃ r, redshiftDensity rows bins fsky distance = .ok r := by
  unfold redshiftDensity
  have : ∃ e, binEdges bins (rows.flatten.map (·.1)) = .ok e := by
    cases hf : rows.flatten with
    | nil => exact absurd hf h
    | cons a l =>
      cases bins with
      | edges l => exact ⟨_, rfl⟩
      | scott dx => exact ⟨_, rfl⟩
      | number n =>
        simp only [binEdges, extremes, List.map_cons, bind, Except.bind]
        split
        · exact ⟨_, rfl⟩
        · exact ⟨_, rfl⟩
  obtain ⟨e, he⟩ := this
  rw [he]
  exact ⟨_, rfl⟩

/-- C36. With edges given by the user, the objects between the first and the last edge are counted, the others left out. -/
theorem C36_edges {rows : List (List (ℝ × ℝ))} {a : ℝ} {l : List ℝ} (hl : l ≠ []) (hs : (a :: l).Pairwise (· ≤ ·))
    (fsky : Option ℝ) (distance : Option (ℝ → ℝ)) : ∃ counts nbar,
      redshiftDensity rows (.edges (a :: l)) fsky distance = .ok (a :: l, counts, nbar) ∧
      counts.sum = weightOf (fun z => a ≤ z ∧ z ≤ (a :: l).getLast (by simp)) rows.flatten := by
  refine ⟨_, _, rfl, ?_⟩
  rw [reduceSum_histogram, histogram_sum hl hs]

/-- The lowest and highest redshifts delimit the bins. -/
theorem C36_limits {rows : List (List (ℝ × ℝ))} {bins : Bins} (hb : AutoBins bins) {fsky : Option ℝ}
    {distance : Option (ℝ → ℝ)} {edges counts nbar : List ℝ}
    (h : redshiftDensity rows bins fsky distance = .ok (edges, counts, nbar)) :
    ∃ a b, edges.head? = some a ∧ edges.getLast? = some b ∧ ∀ r ∈ rows.flatten, a ≤ r.1 ∧ r.1 ≤ b := by
  obtain ⟨he, -, -⟩ := redshiftDensity_ok h
  obtain ⟨a, l, rfl, hl, hs, hall⟩ := binEdges_auto hb he
  refine ⟨a, l.getLast hl, rfl, ?_, fun r hr => hall r.1 (List.mem_map_of_mem hr)⟩
  rw [List.getLast?_eq_getLast_of_ne_nil (by simp), List.getLast_cons hl]

/-- C36. An integer number of bins gives that many bins of equal width, from the lowest to the highest redshift. -/
theorem C36_equal_width {rows : List (List (ℝ × ℝ))} {n : ℕ} (hn : 1 ≤ n) {fsky : Option ℝ}
    {distance : Option (ℝ → ℝ)} {edges counts nbar : List ℝ}
    (h : redshiftDensity rows (.number n) fsky distance = .ok (edges, counts, nbar)) :
    ∃ lo hi, lo ∈ rows.flatten.map (·.1) ∧ hi ∈ rows.flatten.map (·.1) ∧ (∀ r ∈ rows.flatten, lo ≤ r.1 ∧ r.1 ≤ hi) ∧
      edges.length = n + 1 ∧ ∀ k, k ≤ n → edges[k]? = some (lo + (hi - lo) * k / n) := by
  obtain ⟨he, -, -⟩ := redshiftDensity_ok h
  unfold binEdges at he
  cases hx : extremes (rows.flatten.map (·.1)) with
  | error e => rw [hx] at he; simp [bind, Except.bind] at he
  | ok p =>
    obtain ⟨lo, hi⟩ := p
    rw [hx] at he
    simp only [bind, Except.bind] at he
    rw [if_neg (by omega)] at he
    simp only [Except.ok.injEq] at he
    obtain ⟨h1, h2, h3⟩ := extremes_spec hx
    refine ⟨lo, hi, h1, h2, fun r hr => h3 r.1 (List.mem_map_of_mem hr), ?_, ?_⟩
    · rw [← he]; simp
    · intro k hk
      rw [← he, List.getElem?_map, List.getElem?_range (by omega)]
      rfl

/-- C36. Default bins have the width of the rule, from the lowest redshift, and there are no more of them than needed. -/
theorem C36_default_width {rows : List (List (ℝ × ℝ))} {dx : ℝ} (hdx : 0 < dx) {fsky : Option ℝ}
    {distance : Option (ℝ → ℝ)} {edges counts nbar : List ℝ}
    (h : redshiftDensity rows (.scott dx) fsky distance = .ok (edges, counts, nbar)) :
    ∃ lo hi, ∃ n : ℕ, lo ∈ rows.flatten.map (·.1) ∧ hi ∈ rows.flatten.map (·.1) ∧
      (∀ r ∈ rows.flatten, lo ≤ r.1 ∧ r.1 ≤ hi) ∧ 1 ≤ n ∧ edges.length = n + 1 ∧
      (∀ k, k ≤ n → edges[k]? = some (lo + dx * k)) ∧ (n = 1 ∨ lo + dx * (n - 1) < hi) := by
  obtain ⟨he, -, -⟩ := redshiftDensity_ok h
  unfold binEdges at he
  cases hx : extremes (rows.flatten.map (·.1)) with
  | error e => rw [hx] at he; simp [bind, Except.bind] at he
  | ok p =>
    obtain ⟨lo, hi⟩ := p
    rw [hx] at he
    simp only [bind, Except.bind, Except.ok.injEq] at he
    obtain ⟨h1, h2, h3⟩ := extremes_spec hx
    obtain ⟨n, hn⟩ : ∃ n : ℕ, max 1 ⌈(hi - lo) / dx⌉ = (n : ℤ) + 1 :=
      ⟨(max 1 ⌈(hi - lo) / dx⌉ - 1).toNat, by have := le_max_left 1 ⌈(hi - lo) / dx⌉; omega⟩
    rw [hn, show ((n : ℤ) + 1 + 1).toNat = n + 1 + 1 by omega] at he
    refine ⟨lo, hi, n + 1, h1, h2, fun r hr => h3 r.1 (List.mem_map_of_mem hr), by omega, ?_, ?_, ?_⟩
    · rw [← he]; simp
    · intro k hk
      rw [← he, List.getElem?_map, List.getElem?_range (by omega)]
      rfl
    · rcases max_choice 1 ⌈(hi - lo) / dx⌉ with hm | hm
      · left; rw [hm] at hn; omega
      · right
        rw [hm] at hn
        have hlt := Int.ceil_lt_add_one ((hi - lo) / dx)
        rw [hn] at hlt
        push_cast at hlt ⊢
        have : (n : ℝ) < (hi - lo) / dx := by linarith
        rw [lt_div_iff₀ hdx] at this
        linarith

/-- C36. Default bins, a strictly increasing distance: the density times the volume of the shells adds up to the total weight. -/
theorem C36_volume_default {rows : List (List (ℝ × ℝ))} {dx : ℝ} (hdx : 0 < dx) {fsky : ℝ} (hf : fsky ≠ 0) {d : ℝ → ℝ}
    (hd : StrictMono d) {edges counts nbar : List ℝ}
    (h : redshiftDensity rows (.scott dx) (some fsky) (some d) = .ok (edges, counts, nbar)) :
    (List.zipWith (fun n e => n * shellVolume fsky d e.1 e.2) nbar (List.zip edges edges.tail)).sum =
      (rows.flatten.map (·.2)).sum := by
  apply C36_volume (bins := .scott dx) hdx h
  obtain ⟨lo, hi, n, -, -, -, -, hlen, hk, -⟩ := C36_default_width hdx h
  intro i a b ha hb
  have hi' : i + 1 ≤ n := by
    obtain ⟨hlt, -⟩ := List.getElem?_eq_some_iff.1 hb
    omega
  rw [hk i (by omega)] at ha
  rw [hk (i + 1) hi'] at hb
  simp only [Option.some.injEq] at ha hb
  have hab : a < b := by
    rw [← ha, ← hb]
    push_cast
    linarith
  have hcube : d a ^ 3 < d b ^ 3 := (Odd.strictMono_pow (by decide : Odd 3)) (hd hab)
  unfold shellVolume
  apply mul_ne_zero hf
  have := Real.pi_pos
  nlinarith

/-- Two ranks, an object on an edge and one on the last edge. -/
example : ∃ r, redshiftDensity [[((1 : ℝ), (2 : ℝ)), (3, 1)], [(2, 1)]] (.number 2) (some 1) (some fun z => z) = .ok r ∧
    AutoBins (.number 2) :=
  ⟨_, (C36_defined (bins := .number 2) (some 1) _ (by simp)).choose_spec, by simp [AutoBins]⟩

end Verif.Props
