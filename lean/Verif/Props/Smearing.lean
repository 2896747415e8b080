import Verif.Model.Smearing

/-!
# C58: redshift smearings
-/

namespace Verif.Props
open Verif Verif.Model

/-- Sum of the tabulated probability density over the rows after the first one, up to row `i`. -/
def massUpTo {nz : ℕ} (rows : List (ℝ × (Fin nz → ℝ))) (i : ℕ) (z : Fin nz) : ℝ :=
  (((rows.take (i + 1)).tail).map fun r => r.2 z).sum

theorem cumsum_length {nz : ℕ} (s : Fin nz → ℝ) (rows : List (Fin nz → ℝ)) : (cumsum s rows).length = rows.length := by
  induction rows generalizing s with
  | nil => rfl
  | cons r l ih => simp [cumsum, ih]

theorem cumsum_get {nz : ℕ} (s : Fin nz → ℝ) (rows : List (Fin nz → ℝ)) (i : ℕ) (hi : i < rows.length) :
    (cumsum s rows)[i]? = some fun z => s z + ((rows.take (i + 1)).map (· z)).sum := by
  induction rows generalizing s i with
  | nil => simp at hi
  | cons r l ih =>
    cases i with
    | zero => simp [cumsum]
    | succ i =>
      rw [cumsum, List.getElem?_cons_succ, ih _ i (by simpa using hi)]
      congr 1
      funext z
      simp
      ring

/-- The cumulative sum minus its first row. -/
theorem cumsum_diff {nz : ℕ} {rows : List (ℝ × (Fin nz → ℝ))} {i : ℕ} (hi : i < rows.length) {c0 : Fin nz → ℝ}
    (h0 : (cumsum (fun _ => 0) (rows.map (·.2))).head? = some c0) : ∃ c,
    (cumsum (fun _ => 0) (rows.map (·.2)))[i]? = some c ∧ ∀ z, c z - c0 z = massUpTo rows i z := by
  refine ⟨_, cumsum_get _ _ i (by simpa using hi), ?_⟩
  intro z
  cases rows with
  | nil => simp at hi
  | cons r l =>
    simp only [List.map_cons, cumsum, List.head?_cons, Option.some.injEq] at h0
    rw [← h0]
    simp [massUpTo, Function.comp_def, List.map_take]

/-- What a successful tabulation is. -/
theorem tabulatedCdf_ok {nz : ℕ} {rows : List (ℝ × (Fin nz → ℝ))} {t : SmearTable nz} (h : tabulatedCdf rows = .ok t) :
    ∃ r0 r1 inner, rows.head? = some r0 ∧ rows.getLast? = some r1 ∧ t = (r0.1, fun _ => 0) :: inner ++ [(r1.1, fun _ => 1)] ∧
      (∀ z, massUpTo rows (rows.length - 1) z ≠ 0) ∧
      inner.Sublist ((List.range rows.length).map fun i => ((rows.map (·.1))[i]?.getD 0,
        fun z => massUpTo rows i z / massUpTo rows (rows.length - 1) z)) ∧
      (∀ r, r ∈ inner ↔ (∀ z, 0 < r.2 z ∧ r.2 z < 1) ∧ ∃ i, (rows.map (·.1))[i]? = some r.1 ∧
        ∀ z, r.2 z = massUpTo rows i z / massUpTo rows (rows.length - 1) z) := by
  classical
  unfold tabulatedCdf at h
  simp only at h
  split at h
  · rename_i c0 c1 r0 r1 hc0 hc1 hr0 hr1
    split at h
    · simp at h
    · rename_i hz
      push Not at hz
      simp only [Except.ok.injEq] at h
      have hlen : (cumsum (fun _ => 0) (rows.map (·.2))).length = rows.length := by rw [cumsum_length]; simp
      have hpos : 0 < rows.length := by
        cases rows with
        | nil => simp at hr0
        | cons a l => simp
      have hmass : ∀ z, c1 z - c0 z = massUpTo rows (rows.length - 1) z := by
        obtain ⟨c, hc, hcd⟩ := cumsum_diff (i := rows.length - 1) (by omega) hc0
        rw [List.getLast?_eq_getElem?, hlen, hc] at hc1
        simp only [Option.some.injEq] at hc1
        rw [← hc1]; exact hcd
      have htab : List.zip (rows.map (·.1)) ((cumsum (fun _ => 0) (rows.map (·.2))).map (normalizeCdf c0 c1)) =
          (List.range rows.length).map fun i => ((rows.map (·.1))[i]?.getD 0,
            fun z => massUpTo rows i z / massUpTo rows (rows.length - 1) z) := by
        apply List.ext_getElem?
        intro i
        by_cases hi : i < rows.length
        · obtain ⟨c, hc, hcd⟩ := cumsum_diff hi hc0
          have e1 : (rows.map (·.1))[i]? = some (rows[i].1) := by simp [hi]
          have : (List.zip (rows.map (·.1)) ((cumsum (fun _ => 0) (rows.map (·.2))).map (normalizeCdf c0 c1)))[i]? =
              some (rows[i].1, normalizeCdf c0 c1 c) := by
            rw [List.getElem?_zip_eq_some]
            exact ⟨e1, by rw [List.getElem?_map, hc]; rfl⟩
          rw [this, List.getElem?_map, List.getElem?_range hi, Option.map_some, e1]
          simp only [Option.getD_some, Option.some.injEq, Prod.mk.injEq, true_and]
          funext z
          simp only [normalizeCdf, hcd, hmass]
        · rw [List.getElem?_eq_none (by simp; omega), List.getElem?_eq_none (by simp; omega)]
      rw [htab] at h
      refine ⟨r0, r1, _, hr0, hr1, h.symm, fun z => by rw [← hmass]; exact hz z, List.filter_sublist, ?_⟩
      intro r
      rw [List.mem_filter, decide_eq_true_eq, and_comm]
      apply and_congr_right
      intro _
      rw [List.mem_map]
      constructor
      · rintro ⟨i, hi, rfl⟩
        rw [List.mem_range] at hi
        exact ⟨i, by simp [hi], fun z => rfl⟩
      · rintro ⟨i, hi, hr⟩
        have hlt : i < rows.length := by
          have := (List.getElem?_eq_some_iff.1 hi).1
          simpa using this
        refine ⟨i, List.mem_range.2 hlt, ?_⟩
        rw [hi]
        simp only [Option.getD_some]
        ext1
        · rfl
        · funext z
          exact (hr z).symm
  · simp at h

theorem massUpTo_mono {nz : ℕ} {rows : List (ℝ × (Fin nz → ℝ))} (h : ∀ r ∈ rows, ∀ z, 0 ≤ r.2 z) (z : Fin nz) {i j : ℕ}
    (hij : i ≤ j) : massUpTo rows i z ≤ massUpTo rows j z := by
  unfold massUpTo
  cases rows with
  | nil => simp
  | cons a l =>
    simp only [List.take_succ_cons, List.tail_cons]
    have : l.take j = l.take i ++ (l.drop i).take (j - i) := by
      rw [← List.take_add]
      congr 1
      omega
    rw [this, List.map_append, List.sum_append]
    have : 0 ≤ (((l.drop i).take (j - i)).map fun r => r.2 z).sum := by
      apply List.sum_nonneg
      intro x hx
      obtain ⟨r, hr, rfl⟩ := List.mem_map.1 hx
      exact h r (List.mem_cons_of_mem _ (List.mem_of_mem_drop (List.mem_of_mem_take hr))) z
    linarith

/-- C58. The tabulated cdf is non-decreasing from 0 to 1 at every redshift, and is within [0, 1], for every non-negative pdf. -/
theorem C58_cdf {nz : ℕ} {rows : List (ℝ × (Fin nz → ℝ))} (hpdf : ∀ r ∈ rows, ∀ z, 0 ≤ r.2 z) {t : SmearTable nz}
    (h : tabulatedCdf rows = .ok t) (z : Fin nz) :
    (t.column z).Pairwise (fun r r' => r.2 ≤ r'.2) ∧ (∀ r ∈ t.column z, 0 ≤ r.2 ∧ r.2 ≤ 1) ∧
    (t.column z).head?.map (·.2) = some 0 ∧ (t.column z).getLast?.map (·.2) = some 1 := by
  obtain ⟨r0, r1, inner, -, -, rfl, hm, hsub, hin⟩ := tabulatedCdf_ok h
  have hb : ∀ r ∈ inner, 0 ≤ r.2 z ∧ r.2 z ≤ 1 := fun r hr => ⟨(((hin r).1 hr).1 z).1.le, (((hin r).1 hr).1 z).2.le⟩
  have hpw : inner.Pairwise fun r r' => r.2 z ≤ r'.2 z := by
    refine List.Pairwise.sublist hsub ?_
    rw [List.pairwise_map]
    refine List.pairwise_lt_range.imp ?_
    intro i j hij
    have hnn : 0 ≤ massUpTo rows (rows.length - 1) z := by
      have h0 : massUpTo rows 0 z = 0 := by
        unfold massUpTo
        cases rows <;> simp
      rw [← h0]
      exact massUpTo_mono hpdf z (Nat.zero_le _)
    exact div_le_div_of_nonneg_right (massUpTo_mono hpdf z hij.le) hnn
  refine ⟨?_, ?_, ?_, ?_⟩
  · unfold SmearTable.column
    rw [List.pairwise_map]
    rw [List.cons_append, List.pairwise_cons]
    constructor
    · intro r hr
      rcases List.mem_append.1 hr with hr | hr
      · exact (hb r hr).1
      · simp only [List.mem_singleton] at hr
        rw [hr]; exact zero_le_one
    · rw [List.pairwise_append]
      refine ⟨hpw, List.pairwise_singleton .., ?_⟩
      intro a ha b hb'
      simp only [List.mem_singleton] at hb'
      rw [hb']
      exact (hb a ha).2
  · intro r hr
    unfold SmearTable.column at hr
    obtain ⟨s, hs, rfl⟩ := List.mem_map.1 hr
    rcases List.mem_append.1 hs with hs | hs
    · rcases List.mem_cons.1 hs with hs | hs
      · rw [hs]; exact ⟨le_rfl, zero_le_one⟩
      · exact hb s hs
    · simp only [List.mem_singleton] at hs
      rw [hs]; exact ⟨zero_le_one, le_rfl⟩
  · rfl
  · unfold SmearTable.column
    rw [List.map_append, show List.map (fun r : ℝ × (Fin nz → ℝ) => (r.1, r.2 z)) [(r1.1, fun _ => 1)] = [(r1.1, 1)] from rfl,
      List.getLast?_concat]
    rfl

/-- C58. The ends of the table are those of the input errors; the rows between are the input errors whose cumulative
probability is strictly between 0 and 1 at all redshifts, with that cumulative probability, in the same order. -/
theorem C58_rows {nz : ℕ} {rows : List (ℝ × (Fin nz → ℝ))} {t : SmearTable nz} (h : tabulatedCdf rows = .ok t) :
    ∃ r0 r1 inner, rows.head? = some r0 ∧ rows.getLast? = some r1 ∧ t = (r0.1, fun _ => 0) :: inner ++ [(r1.1, fun _ => 1)] ∧
      (inner.map (·.1)).Sublist (rows.map (·.1)) ∧
      (∀ r, r ∈ inner ↔ (∀ z, 0 < r.2 z ∧ r.2 z < 1) ∧ ∃ i, (rows.map (·.1))[i]? = some r.1 ∧
        ∀ z, r.2 z = massUpTo rows i z / massUpTo rows (rows.length - 1) z) := by
  obtain ⟨r0, r1, inner, h0, h1, h2, -, hsub, hin⟩ := tabulatedCdf_ok h
  refine ⟨r0, r1, inner, h0, h1, h2, ?_, hin⟩
  have := hsub.map (·.1)
  rw [List.map_map] at this
  convert this using 1
  apply List.ext_getElem?
  intro i
  rw [List.getElem?_map, List.getElem?_map]
  by_cases hi : i < rows.length
  · rw [List.getElem?_range hi]
    simp [hi]
  · rw [List.getElem?_eq_none (by omega), List.getElem?_eq_none (by simp; omega)]
    rfl

/-- C58. Accepted exactly if, at every redshift, some error after the first has a non-zero probability in total. -/
theorem C58_accepted {nz : ℕ} {rows : List (ℝ × (Fin nz → ℝ))} (hr : rows ≠ []) :
    (∃ t, tabulatedCdf rows = .ok t) ↔ ∀ z, massUpTo rows (rows.length - 1) z ≠ 0 := by
  constructor
  · rintro ⟨t, h⟩
    obtain ⟨r0, r1, inner, -, -, -, hm, -⟩ := tabulatedCdf_ok h
    exact hm
  · intro hm
    cases hd : tabulatedCdf rows with
    | ok t => exact ⟨t, rfl⟩
    | error e =>
      exfalso
      unfold tabulatedCdf at hd
      simp only at hd
      have hlen : (cumsum (fun _ => 0) (rows.map (·.2))).length = rows.length := by rw [cumsum_length]; simp
      have hpos : 0 < rows.length := List.length_pos_of_ne_nil hr
      have hne : cumsum (fun _ => 0) (rows.map (·.2)) ≠ [] := by
        intro h0
        rw [h0] at hlen
        simp at hlen
        omega
      obtain ⟨c0, hc0⟩ : ∃ c, (cumsum (fun _ => 0) (rows.map (·.2))).head? = some c := ⟨_, List.head?_eq_some_head hne⟩
      obtain ⟨r0, hr0⟩ : ∃ c, rows.head? = some c := ⟨_, List.head?_eq_some_head hr⟩
      obtain ⟨r1, hr1⟩ : ∃ c, rows.getLast? = some c := ⟨_, List.getLast?_eq_getLast_of_ne_nil hr⟩
      obtain ⟨c, hc, hcd⟩ := cumsum_diff (i := rows.length - 1) (by omega) hc0
      have hc1 : (cumsum (fun _ => 0) (rows.map (·.2))).getLast? = some c := by rw [List.getLast?_eq_getElem?, hlen, hc]
      rw [hc0, hc1, hr0, hr1] at hd
      simp only at hd
      rw [if_neg (by push Not; intro z; rw [hcd]; exact hm z)] at hd
      simp at hd

/-! ### Percent point function -/

/-- A spline goes through its nodes. -/
def Interpolates (spline : List (ℝ × ℝ) → ℝ → ℝ) : Prop :=
  ∀ nodes, 4 ≤ nodes.length → (nodes.map (·.1)).Pairwise (· < ·) → ∀ p ∈ nodes, spline nodes p.1 = p.2

/-- C58 (partial). Increasing errors: the tabulated ppf is within the range of errors, from one end to the other. Missing:
decreasing errors, see `C58_decreasing_violated`. -/
theorem C58_ppf_partial {spline : List (ℝ × ℝ) → ℝ → ℝ} (hs : Interpolates spline) {column : List (ℝ × ℝ)} {d0 d1 : ℝ × ℝ}
    (h0 : column.head? = some d0) (h1 : column.getLast? = some d1) (hd : d0.1 ≤ d1.1) {ppf : List ℝ}
    (h : ppfColumn spline column = .ok ppf) : ppf.length = column.length ∧ (∀ x ∈ ppf, d0.1 ≤ x ∧ x ≤ d1.1) ∧
      ppf.head? = some d0.1 ∧ ppf.getLast? = some d1.1 := by
  classical
  unfold ppfColumn at h
  rw [h0, h1] at h
  simp only at h
  split at h
  · rename_i hn
    simp only [Except.ok.injEq] at h
    have hin := hs _ hn.1 hn.2
    have e0 := hin (0, d0.1) (by simp)
    have e1 := hin (1, d1.1) (by simp)
    simp only at e0 e1
    have hlen2 : 2 ≤ column.length := by
      by_contra hc
      -- a single row cannot give four nodes
      have : ((column.map fun p => (p.2, p.1)).filter fun p => decide ((1e-12 : ℝ) < p.1 ∧ p.1 < 1 - 1e-12)).length ≤
          column.length := (List.length_filter_le _ _).trans (by simp)
      have h4 := hn.1
      simp only [List.cons_append, List.length_cons, List.length_append, List.length_nil] at h4
      omega
    refine ⟨by rw [← h]; simp [linspace], ?_, ?_, ?_⟩
    · intro x hx
      rw [← h] at hx
      obtain ⟨u, -, rfl⟩ := List.mem_map.1 hx
      unfold npClip
      exact ⟨le_min (le_max_right _ _) hd, min_le_right _ _⟩
    · rw [← h, List.head?_map]
      have : (linspace 0 1 column.length).head? = some 0 := by
        unfold linspace
        rw [List.head?_map, List.head?_range, if_neg (by omega)]
        simp
      rw [this, Option.map_some, e0]
      simp [npClip, hd]
    · rw [← h, List.getLast?_map]
      have : (linspace 0 1 column.length).getLast? = some 1 := by
        obtain ⟨m, hm⟩ : ∃ m, column.length = m + 2 := ⟨column.length - 2, by omega⟩
        unfold linspace
        rw [List.getLast?_map, List.getLast?_range, if_neg (by omega), hm]
        simp only [Option.map_some, Option.some.injEq]
        push_cast
        have : (m : ℝ) + 2 - 1 ≠ 0 := by have : (0 : ℝ) ≤ m := Nat.cast_nonneg m; linarith
        field_simp
        ring
      rw [this, Option.map_some, e1]
      simp [npClip, hd]
  · simp at h

/-- C58, violated. Decreasing errors (as are those used for supports bounded from below): the bounds of the clipping are in the
wrong order, and the tabulated ppf is the last error, whatever the distribution. -/
theorem C58_decreasing_violated {spline : List (ℝ × ℝ) → ℝ → ℝ} {column : List (ℝ × ℝ)} {d0 d1 : ℝ × ℝ}
    (h0 : column.head? = some d0) (h1 : column.getLast? = some d1) (hd : d1.1 < d0.1) {ppf : List ℝ}
    (h : ppfColumn spline column = .ok ppf) : ∀ x ∈ ppf, x = d1.1 := by
  classical
  unfold ppfColumn at h
  rw [h0, h1] at h
  simp only at h
  split at h
  · simp only [Except.ok.injEq] at h
    intro x hx
    rw [← h] at hx
    obtain ⟨u, -, rfl⟩ := List.mem_map.1 hx
    unfold npClip
    exact min_eq_right (hd.le.trans (le_max_right _ _))
  · simp at h

/-- A column whose cumulative probabilities are all 0 or 1 is rejected. -/
theorem ppfColumn_degenerate (spline : List (ℝ × ℝ) → ℝ → ℝ) {column : List (ℝ × ℝ)} (hne : column ≠ [])
    (h : ∀ p ∈ column, p.2 = 0 ∨ p.2 = 1) : ppfColumn spline column = .error .valueError := by
  classical
  obtain ⟨d0, h0⟩ : ∃ c, column.head? = some c := ⟨_, List.head?_eq_some_head hne⟩
  obtain ⟨d1, h1⟩ : ∃ c, column.getLast? = some c := ⟨_, List.getLast?_eq_getLast_of_ne_nil hne⟩
  unfold ppfColumn
  rw [h0, h1]
  simp only
  have he : ((column.map fun p => (p.2, p.1)).filter fun p => decide ((1e-12 : ℝ) < p.1 ∧ p.1 < 1 - 1e-12)) = [] := by
    rw [List.filter_eq_nil_iff]
    intro p hp
    obtain ⟨q, hq, rfl⟩ := List.mem_map.1 hp
    rcases h q hq with h' | h' <;> simp only [h'] <;> norm_num
  rw [he, if_neg]
  simp

/-- C58, violated. A non-negative pdf that vanishes between two errors (a distribution with two separate parts) is accepted by the
tabulation, but then rejected: the cumulative probability is not strictly increasing. -/
theorem C58_gap_violated {spline : List (ℝ × ℝ) → ℝ → ℝ} {column : List (ℝ × ℝ)} {i j : ℕ} {p q : ℝ × ℝ} (hij : i < j)
    (hp : column[i]? = some p) (hq : column[j]? = some q) (he : p.2 = q.2) (h0 : 1e-12 < p.2) (h1 : p.2 < 1 - 1e-12) :
    ppfColumn spline column = .error .valueError := by
  classical
  have hne : column ≠ [] := by rintro rfl; simp at hp
  obtain ⟨d0, hd0⟩ : ∃ c, column.head? = some c := ⟨_, List.head?_eq_some_head hne⟩
  obtain ⟨d1, hd1⟩ : ∃ c, column.getLast? = some c := ⟨_, List.getLast?_eq_getLast_of_ne_nil hne⟩
  unfold ppfColumn
  rw [hd0, hd1]
  simp only
  rw [if_neg]
  rintro ⟨-, hpw⟩
  rw [List.cons_append, List.map_cons, List.pairwise_cons, List.map_append, List.pairwise_append] at hpw
  have hin := hpw.2.1
  -- both entries are kept by the filter
  have hsub : [(p.2, p.1), (q.2, q.1)].Sublist
      ((column.map fun p => (p.2, p.1)).filter fun p => decide ((1e-12 : ℝ) < p.1 ∧ p.1 < 1 - 1e-12)) := by
    have h2 : [p, q].Sublist column := by
      obtain ⟨hi', rfl⟩ := List.getElem?_eq_some_iff.1 hp
      obtain ⟨hj', rfl⟩ := List.getElem?_eq_some_iff.1 hq
      have e : column = column.take j ++ column.drop j := (List.take_append_drop j column).symm
      have s1 : [column[i]].Sublist (column.take j) := by
        rw [List.singleton_sublist]
        exact List.mem_iff_getElem.2 ⟨i, by simp; omega, by simp⟩
      have s2 : [column[j]].Sublist (column.drop j) := by
        rw [List.singleton_sublist]
        exact List.mem_iff_getElem.2 ⟨0, by simp; omega, by simp⟩
      have := s1.append s2
      rw [← e] at this
      exact this
    have h3 := (h2.map fun p : ℝ × ℝ => (p.2, p.1)).filter fun p => decide ((1e-12 : ℝ) < p.1 ∧ p.1 < 1 - 1e-12)
    rwa [List.filter_eq_self.2] at h3
    intro r hr
    simp only [List.map_cons, List.map_nil, List.mem_cons, List.not_mem_nil, or_false] at hr
    rcases hr with rfl | rfl
    · simpa using ⟨h0, h1⟩
    · simpa [← he] using ⟨h0, h1⟩
  have := hin.sublist (hsub.map (·.1))
  simp [he] at this

/-! ### Supports -/

theorem linspace_get (a b : ℝ) (n k : ℕ) (hk : k < n) : (linspace a b n)[k]? = some (a + (b - a) * k / (n - 1)) := by
  unfold linspace
  rw [List.getElem?_map, List.getElem?_range hk]
  rfl

theorem linspace_length (a b : ℝ) (n : ℕ) : (linspace a b n).length = n := by simp [linspace]

theorem frac_lt {n i j : ℕ} (hn : 2 ≤ n) (hij : i < j) : (i : ℝ) / ((n : ℝ) - 1) < j / ((n : ℝ) - 1) := by
  have h1 : (0 : ℝ) < (n : ℝ) - 1 := by have : (2 : ℝ) ≤ n := by exact_mod_cast hn
                                        linarith
  exact div_lt_div_of_pos_right (by exact_mod_cast hij) h1

theorem frac_bounds {n k : ℕ} (hn : 2 ≤ n) (hk : k < n) : 0 ≤ (k : ℝ) / ((n : ℝ) - 1) ∧ (k : ℝ) / ((n : ℝ) - 1) ≤ 1 ∧
    ((k : ℝ) / ((n : ℝ) - 1) = 0 ↔ k = 0) ∧ ((k : ℝ) / ((n : ℝ) - 1) = 1 ↔ k + 1 = n) := by
  have h1 : (0 : ℝ) < (n : ℝ) - 1 := by have : (2 : ℝ) ≤ n := by exact_mod_cast hn
                                        linarith
  have h2 : (k : ℝ) + 1 ≤ n := by exact_mod_cast hk
  refine ⟨by positivity, by rw [div_le_one h1]; linarith, ?_, ?_⟩
  · rw [div_eq_zero_iff]
    constructor
    · rintro (h | h)
      · exact_mod_cast h
      · linarith
    · rintro rfl; left; simp
  · rw [div_eq_one_iff_eq h1.ne']
    constructor
    · intro h
      have : (k : ℝ) + 1 = n := by linarith
      exact_mod_cast this
    · intro h
      have : (k : ℝ) + 1 = n := by exact_mod_cast h
      linarith

/-- Supports handled correctly: all but those bounded from below only. -/
def Handled : Support → Prop
  | .above _ => False
  | .finite a b => a < b
  | _ => True

/-- C58 (partial). The points where the distribution is tabulated are the errors mapped to the support, for finite supports,
supports bounded from above and the whole line. Missing: supports bounded from below, see `C58_above_violated`. -/
theorem C58_points_partial {s : Support} (hs : Handled s) {scale : ℝ} (h0 : 0 < scale) {n : ℕ} (hn : 2 ≤ n) :
    s.points scale n = (s.grid scale n).map (s.transform scale) := by
  apply List.ext_getElem?
  intro k
  unfold Support.points
  rw [List.getElem?_mapIdx, List.getElem?_map]
  cases s with
  | above a => exact hs.elim
  | finite a b => rfl
  | infinite =>
    simp only [Support.grid]
    by_cases hk : k < n
    · obtain ⟨-, -, f0, f1⟩ := frac_bounds hn hk
      rw [linspace_get _ _ _ _ hk]
      simp only [Option.map_some, Option.some.injEq, sub_zero, one_mul, zero_add]
      by_cases e0 : k = 0
      · rw [if_pos e0]
        simp only [Support.transform, f0.2 e0, mul_zero, zero_sub, npArctanh, if_true]
        exact (EReal.coe_mul_bot_of_pos h0).symm
      · rw [if_neg e0]
        by_cases e1 : k + 1 = n
        · rw [if_pos e1]
          simp only [Support.transform, f1.2 e1, npArctanh]
          rw [if_neg (by norm_num), if_pos (by norm_num)]
          exact (EReal.coe_mul_top_of_pos h0).symm
        · rw [if_neg e1]
    · rw [List.getElem?_eq_none (by simp [linspace_length]; omega)]
      rfl
  | below b =>
    simp only [Support.grid]
    by_cases hk : k < n
    · rw [linspace_get _ _ _ _ hk]
      simp only [Option.map_some, Option.some.injEq, sub_zero, zero_add]
      by_cases e0 : k = 0
      · rw [if_pos e0]
        simp only [Support.transform, e0, npLog]
        simp only [Nat.cast_zero, mul_zero, zero_div, if_true]
        exact (EReal.coe_mul_bot_of_pos h0).symm
      · rw [if_neg e0]
    · rw [List.getElem?_eq_none (by simp [linspace_length]; omega)]
      rfl

/-- C58 (partial). These points are strictly increasing, from the lower end of the support to the upper one. -/
theorem C58_support_partial {s : Support} (hs : Handled s) {scale : ℝ} (h0 : 0 < scale) {n : ℕ} (hn : 2 ≤ n) :
    (s.points scale n).length = n ∧ (s.points scale n).head? = some s.ends.1 ∧
    (s.points scale n).getLast? = some s.ends.2 ∧ (s.points scale n).Pairwise (· < ·) := by
  have hlen : (s.points scale n).length = n := by
    unfold Support.points Support.grid
    cases s <;> simp [linspace_length]
  have hget : ∀ k, k < n → ∃ x, (s.points scale n)[k]? = some x ∧ (s.grid scale n)[k]?.map (s.transform scale) = some x := by
    intro k hk
    refine ⟨(s.points scale n)[k]'(by omega), List.getElem?_eq_getElem _, ?_⟩
    rw [← List.getElem?_map, ← C58_points_partial hs h0 hn]
    exact List.getElem?_eq_getElem _
  -- values
  have key : ∀ k, k < n → (s.points scale n)[k]? = some (match s with
      | .finite a b => ((a + (b - a) * (k / ((n : ℝ) - 1)) : ℝ) : EReal)
      | .infinite => if k = 0 then ⊥ else if k + 1 = n then ⊤ else
          ((scale * (Real.log ((k / ((n : ℝ) - 1)) / (1 - k / ((n : ℝ) - 1))) / 2) : ℝ) : EReal)
      | .below b => if k = 0 then ⊥ else ((b + scale * Real.log (k / ((n : ℝ) - 1)) : ℝ) : EReal)
      | .above _ => ⊤) := by
    intro k hk
    obtain ⟨f0, f1, f2, f3⟩ := frac_bounds hn hk
    unfold Support.points
    rw [List.getElem?_mapIdx]
    cases s with
    | above a => exact hs.elim
    | finite a b =>
      simp only [Support.grid]
      rw [linspace_get _ _ _ _ hk, mul_div_assoc]
      rfl
    | infinite =>
      simp only [Support.grid]
      rw [linspace_get _ _ _ _ hk]
      simp only [Option.map_some, Option.some.injEq, sub_zero, one_mul, zero_add]
      by_cases e0 : k = 0
      · rw [if_pos e0, if_pos e0]
      · rw [if_neg e0, if_neg e0]
        by_cases e1 : k + 1 = n
        · rw [if_pos e1, if_pos e1]
        · rw [if_neg e1, if_neg e1]
          have g0 : (k : ℝ) / ((n : ℝ) - 1) ≠ 0 := fun h => e0 (f2.1 h)
          have g1 : (k : ℝ) / ((n : ℝ) - 1) ≠ 1 := fun h => e1 (f3.1 h)
          generalize (k : ℝ) / ((n : ℝ) - 1) = x at *
          simp only [Support.transform, npArctanh]
          rw [if_neg (by intro h; apply g0; linarith), if_neg (by intro h; apply g1; linarith)]
          rw [show (1 + (2 * x - 1)) / (1 - (2 * x - 1)) = x / (1 - x) by
            rw [show 1 + (2 * x - 1) = 2 * x by ring, show 1 - (2 * x - 1) = 2 * (1 - x) by ring]
            exact mul_div_mul_left _ _ two_ne_zero]
          push_cast
          rfl
    | below b =>
      simp only [Support.grid]
      rw [linspace_get _ _ _ _ hk]
      simp only [Option.map_some, Option.some.injEq, sub_zero, zero_add]
      by_cases e0 : k = 0
      · rw [if_pos e0, if_pos e0]
      · rw [if_neg e0, if_neg e0]
        have g0 : (k : ℝ) / ((n : ℝ) - 1) ≠ 0 := fun h => e0 (f2.1 h)
        rw [mul_div_assoc]
        generalize (k : ℝ) / ((n : ℝ) - 1) = x at *
        simp only [Support.transform, npLog]
        rw [if_neg (mul_ne_zero (Real.exp_pos _).ne' g0), Real.log_mul (Real.exp_pos _).ne' g0, Real.log_exp, ← EReal.coe_mul]
        congr 1
        field_simp
  refine ⟨hlen, ?_, ?_, ?_⟩
  · rw [List.head?_eq_getElem?, key 0 (by omega)]
    cases s with
    | above a => exact hs.elim
    | finite a b => simp [Support.ends]
    | infinite => simp [Support.ends]
    | below b => simp [Support.ends]
  · rw [List.getLast?_eq_getElem?, hlen, key (n - 1) (by omega)]
    have hf := (frac_bounds hn (show n - 1 < n by omega)).2.2.2.2 (by omega)
    cases s with
    | above a => exact hs.elim
    | finite a b => simp only [hf, Support.ends]; congr 2; ring
    | infinite => simp only [Support.ends]; rw [if_neg (by omega), if_pos (by omega)]
    | below b => simp only [hf, Support.ends]; rw [if_neg (by omega)]; simp
  · rw [List.pairwise_iff_getElem]
    intro i j hi hj hij
    rw [hlen] at hi hj
    have ei := key i hi
    have ej := key j hj
    rw [List.getElem?_eq_getElem (by omega)] at ei ej
    simp only [Option.some.injEq] at ei ej
    rw [ei, ej]
    have hlt := frac_lt hn hij
    obtain ⟨a0, a1, a2, a3⟩ := frac_bounds hn hi
    obtain ⟨b0, b1, b2, b3⟩ := frac_bounds hn hj
    cases s with
    | above a => exact hs.elim
    | finite a b =>
      have hs' : a < b := hs
      simp only [EReal.coe_lt_coe_iff]
      have := mul_lt_mul_of_pos_left hlt (sub_pos.2 hs')
      linarith
    | infinite =>
      simp only
      rw [if_neg (show ¬ j = 0 by omega)]
      by_cases ei0 : i = 0
      · rw [if_pos ei0]
        by_cases ej1 : j + 1 = n
        · rw [if_pos ej1]; exact bot_lt_top
        · rw [if_neg ej1]; exact EReal.bot_lt_coe _
      · rw [if_neg ei0, if_neg (show ¬ i + 1 = n by omega)]
        by_cases ej1 : j + 1 = n
        · rw [if_pos ej1]; exact EReal.coe_lt_top _
        · rw [if_neg ej1, EReal.coe_lt_coe_iff]
          have g1 : (i : ℝ) / ((n : ℝ) - 1) ≠ 0 := fun h => ei0 (a2.1 h)
          have g2 : (j : ℝ) / ((n : ℝ) - 1) ≠ 1 := fun h => ej1 (b3.1 h)
          generalize (i : ℝ) / ((n : ℝ) - 1) = x at *
          generalize (j : ℝ) / ((n : ℝ) - 1) = y at *
          have hx : 0 < x := lt_of_le_of_ne a0 (Ne.symm g1)
          have hy : y < 1 := lt_of_le_of_ne b1 g2
          have : x / (1 - x) < y / (1 - y) := by
            rw [div_lt_div_iff₀ (by linarith) (by linarith)]
            nlinarith
          have := Real.log_lt_log (div_pos hx (by linarith)) this
          have := mul_lt_mul_of_pos_left this h0
          linarith
    | below b =>
      simp only
      rw [if_neg (show ¬ j = 0 by omega)]
      by_cases ei0 : i = 0
      · rw [if_pos ei0]; exact EReal.bot_lt_coe _
      · rw [if_neg ei0, EReal.coe_lt_coe_iff]
        have g1 : (i : ℝ) / ((n : ℝ) - 1) ≠ 0 := fun h => ei0 (a2.1 h)
        have := Real.log_lt_log (lt_of_le_of_ne a0 (Ne.symm g1)) hlt
        have := mul_lt_mul_of_pos_left this h0
        linarith

theorem above_points {a scale : ℝ} {n k : ℕ} (hk : k < n) : ((Support.above a).points scale n)[k]? =
    some (if k = 0 then (Support.above a).transform scale (Real.exp (-a / scale)) else ⊤) := by
  unfold Support.points
  rw [List.getElem?_mapIdx]
  simp only [Support.grid]
  rw [linspace_get _ _ _ _ hk]
  by_cases h : k = 0
  · subst h; simp
  · simp [h]

/-- C58, violated. For supports bounded from below only, all points but the first are infinite, so that the smearing is rejected
for every distribution (`cdf` is 0 at the lower end and 1 at infinity), instead of being tabulated over its support. -/
theorem C58_above_violated {a scale : ℝ} (h0 : 0 < scale) {n : ℕ} (hn : 2 ≤ n) (spline : List (ℝ × ℝ) → ℝ → ℝ) (cdf : EReal → ℝ)
    (ha : cdf a = 0) (ht : cdf ⊤ = 1) :
    (∀ k, 1 ≤ k → k < n → ((Support.above a).points scale n)[k]? = some ⊤) ∧
    ppfColumn spline (List.zip ((Support.above a).grid scale n) (((Support.above a).points scale n).map cdf)) = .error .valueError := by
  constructor
  · intro k h1 hk
    rw [above_points hk, if_neg (by omega)]
  · have hlen : ((Support.above a).points scale n).length = n := by
      unfold Support.points Support.grid
      simp [linspace_length]
    apply ppfColumn_degenerate
    · intro h
      have := congrArg List.length h
      simp [hlen, Support.grid, linspace_length] at this
      omega
    · intro p hp
      have hp' := (List.of_mem_zip (a := p.1) (b := p.2) hp).2
      obtain ⟨u, hu, hup⟩ := List.mem_map.1 hp'
      obtain ⟨k, hk⟩ := List.mem_iff_getElem?.1 hu
      have hkn : k < n := hlen ▸ (List.getElem?_eq_some_iff.1 hk).1
      rw [above_points hkn] at hk
      simp only [Option.some.injEq] at hk
      rw [← hup, ← hk]
      by_cases hk0 : k = 0
      · left
        rw [if_pos hk0, ← ha]
        congr 1
        simp only [Support.transform, npLog]
        rw [if_neg (Real.exp_pos _).ne', Real.log_exp, ← EReal.coe_mul, ← EReal.coe_neg]
        congr 1
        field_simp
      · right
        rw [if_neg hk0, ht]

/-- C58, violated. Supports bounded from above with different bounds at different redshifts: all points of the first redshift are
minus infinity, so that the smearing is rejected for every distribution. -/
theorem C58_below2d_violated {b scale : ℝ} {n : ℕ} (hn : 1 ≤ n) (spline : List (ℝ × ℝ) → ℝ → ℝ) (cdf : EReal → ℝ)
    (hb : cdf ⊥ = 0) : (∀ u ∈ (Support.below b).points2d scale n 0, u = ⊥) ∧
    ppfColumn spline (List.zip ((Support.below b).grid scale n) (((Support.below b).points2d scale n 0).map cdf)) =
      .error .valueError := by
  have hall : ∀ u ∈ (Support.below b).points2d scale n 0, u = ⊥ := by
    intro u hu
    unfold Support.points2d at hu
    obtain ⟨x, -, rfl⟩ := List.mem_map.1 hu
    rfl
  refine ⟨hall, ?_⟩
  apply ppfColumn_degenerate
  · intro h
    have := congrArg List.length h
    simp [Support.points2d, Support.grid, linspace_length] at this
    omega
  · intro p hp
    obtain ⟨u, hu, hup⟩ := List.mem_map.1 (List.of_mem_zip (a := p.1) (b := p.2) hp).2
    left
    rw [← hup, hall u hu, hb]

/-- C58, violated. Supports bounded from below with different bounds: when accepted, the ppf of the first redshift is infinite
everywhere, whatever the distribution. -/
theorem C58_above2d_violated {a scale : ℝ} (h0 : 0 < scale) {n : ℕ} (hn : 2 ≤ n) (spline : List (ℝ × ℝ) → ℝ → ℝ)
    (cdf : EReal → ℝ) {ppf : List ℝ}
    (h : ppfColumn spline (List.zip ((Support.above a).grid scale n) (((Support.above a).points2d scale n 0).map cdf)) = .ok ppf) :
    ∀ x ∈ ppf, (Support.above a).transform scale x = ⊤ := by
  have hlen : ((Support.above a).points2d scale n 0).length = n := by simp [Support.points2d, Support.grid, linspace_length]
  set col := List.zip ((Support.above a).grid scale n) (((Support.above a).points2d scale n 0).map cdf) with hcol
  have hcl : col.length = n := by rw [hcol]; simp [hlen, Support.grid, linspace_length]
  have hget : ∀ k, k < n → ∃ y, col[k]? = some (Real.exp (-a / scale) + (0 - Real.exp (-a / scale)) * k / ((n : ℝ) - 1), y) := by
    intro k hk
    have hk' : k < (((Support.above a).points2d scale n 0).map cdf).length := by simpa [hlen] using hk
    refine ⟨(((Support.above a).points2d scale n 0).map cdf)[k], ?_⟩
    rw [hcol, List.getElem?_zip_eq_some]
    exact ⟨linspace_get _ _ _ _ hk, List.getElem?_eq_getElem hk'⟩
  obtain ⟨y0, e0⟩ := hget 0 (by omega)
  obtain ⟨y1, e1⟩ := hget (n - 1) (by omega)
  have hf := (frac_bounds hn (show n - 1 < n by omega)).2.2.2.2 (by omega)
  have d1 : col.getLast? = some (0, y1) := by
    rw [List.getLast?_eq_getElem?, hcl, e1, mul_div_assoc, hf]
    simp
  have d0 : col.head? = some (Real.exp (-a / scale), y0) := by
    rw [List.head?_eq_getElem?, e0]
    simp
  intro x hx
  rw [C58_decreasing_violated d0 d1 (Real.exp_pos _) h x hx]
  simp only [Support.transform, npLog, if_true]
  rw [EReal.coe_mul_bot_of_pos h0]
  rfl

/-! ### Averages -/

/-- Value of a table. -/
def SmearTable.val {nz : ℕ} (t : SmearTable nz) (k : ℕ) (z : Fin nz) : ℝ := (t[k]?.map (·.2 z)).getD 0

theorem zipWith_mean {τ : Type} (f : τ → ℝ) (lo hi : ℝ) : ∀ (ts : List τ) (ws : List ℝ), ts.length = ws.length →
    (∀ w ∈ ws, 0 ≤ w) → (∀ t ∈ ts, lo ≤ f t ∧ f t ≤ hi) →
    lo * ws.sum ≤ (List.zipWith (fun t w => f t * w) ts ws).sum ∧ (List.zipWith (fun t w => f t * w) ts ws).sum ≤ hi * ws.sum
  | [], [], _, _, _ => by simp
  | t :: ts, w :: ws, hl, hw, ht => by
    obtain ⟨h1, h2⟩ := zipWith_mean f lo hi ts ws (by simpa using hl) (fun x hx => hw x (by simp [hx]))
      (fun x hx => ht x (by simp [hx]))
    obtain ⟨h3, h4⟩ := ht t (by simp)
    have := hw w (by simp)
    simp only [List.zipWith_cons_cons, List.sum_cons]
    constructor <;> nlinarith
  | [], _ :: _, hl, _, _ => by simp at hl
  | _ :: _, [], hl, _, _ => by simp at hl

theorem averageCdf_ok {nz : ℕ} {tables : List (SmearTable nz)} {weights : Option (List (Fin nz → ℝ))} {t : SmearTable nz}
    (h : averageCdf tables weights = .ok t) :
    ∃ w, w = weights.getD (tables.map fun _ => fun _ => 1) ∧ (∀ z, (w.map (· z)).sum ≠ 0) ∧
    (∀ t' ∈ tables, t'.map (·.1) = t.map (·.1)) ∧
    ∀ k z, k < t.length → SmearTable.val t k z = (List.zipWith (fun (t' : SmearTable nz) w' => SmearTable.val t' k z * w') tables
        (w.map fun w' => w' z / (w.map (· z)).sum)).sum := by
  unfold averageCdf at h
  cases tables with
  | nil => simp at h
  | cons t0 ts =>
    simp only at h
    split at h
    · simp at h
    · rename_i hdz
      split at h
      · simp at h
      · rename_i hz
        push Not at hdz hz
        simp only [Except.ok.injEq] at h
        have e1 : t.map (·.1) = t0.map (·.1) := by
          rw [← h]
          exact List.map_fst_zip (by simp)
        have el : t.length = t0.length := by
          have := congrArg List.length e1
          simpa using this
        refine ⟨_, rfl, hz, fun t' ht' => by rw [e1]; exact hdz t' ht', ?_⟩
        intro k z hk
        have hk0 : k < t0.length := by omega
        unfold SmearTable.val
        have : t[k]? = some ((t0.map (·.1))[k]'(by simpa using hk0), fun z =>
            (List.zipWith (fun (t' : SmearTable nz) w' => ((t'[k]?.map (·.2 z)).getD 0) *
              (w' z / (((weights.getD ((t0 :: ts).map fun _ => fun _ => 1)).map (· z)).sum))) (t0 :: ts)
              (weights.getD ((t0 :: ts).map fun _ => fun _ => 1))).sum) := by
          rw [← h, List.getElem?_zip_eq_some]
          refine ⟨List.getElem?_eq_getElem _, ?_⟩
          rw [List.getElem?_map, List.getElem?_range hk0]
          rfl
        rw [this, List.zipWith_map_right]
        rfl

/-- C58. The average has the errors of the averaged smearings, and its cdf is their weighted mean. -/
theorem C58_average_value {nz : ℕ} {tables : List (SmearTable nz)} {weights : List (Fin nz → ℝ)} {t : SmearTable nz}
    (h : averageCdf tables (some weights) = .ok t) : (∀ t' ∈ tables, t'.map (·.1) = t.map (·.1)) ∧
    ∀ k z, k < t.length → SmearTable.val t k z * (weights.map (· z)).sum =
      (List.zipWith (fun (t' : SmearTable nz) w => SmearTable.val t' k z * w z) tables weights).sum := by
  obtain ⟨w, hwd, hz, hdz, hv⟩ := averageCdf_ok h
  rw [Option.getD_some] at hwd
  subst hwd
  refine ⟨hdz, ?_⟩
  intro k z hk
  rw [hv k z hk]
  have hne := hz z
  rw [List.zipWith_map_right]
  generalize (w.map (· z)).sum = W at hne ⊢
  clear hv hdz h hz
  induction tables generalizing w with
  | nil => simp
  | cons a l ih =>
    cases w with
    | nil => simp
    | cons b m =>
      simp only [List.zipWith_cons_cons, List.sum_cons]
      rw [add_mul, ih]
      congr 1
      field_simp

/-- C58. Averages are between the extremes of the averaged smearings, at every error and redshift. -/
theorem C58_average_between {nz : ℕ} {tables : List (SmearTable nz)} {weights : Option (List (Fin nz → ℝ))}
    (hw : ∀ ws, weights = some ws → ws.length = tables.length ∧ ∀ w ∈ ws, ∀ z, 0 ≤ w z) {t : SmearTable nz}
    (h : averageCdf tables weights = .ok t) {k : ℕ} (hk : k < t.length) (z : Fin nz) {lo hi : ℝ}
    (hb : ∀ t' ∈ tables, lo ≤ SmearTable.val t' k z ∧ SmearTable.val t' k z ≤ hi) :
    lo ≤ SmearTable.val t k z ∧ SmearTable.val t k z ≤ hi := by
  obtain ⟨w, hwd, hz, hdz, hv⟩ := averageCdf_ok h
  have hw' : w.length = tables.length ∧ ∀ w' ∈ w, ∀ z, 0 ≤ w' z := by
    cases weights with
    | none =>
      rw [hwd]
      refine ⟨by simp, ?_⟩
      intro w' h' z
      simp only [Option.getD_none, List.mem_map] at h'
      obtain ⟨_, -, rfl⟩ := h'
      exact zero_le_one
    | some ws => rw [hwd]; exact hw ws rfl
  have hnn : 0 ≤ (w.map (· z)).sum := by
    apply List.sum_nonneg
    intro x hx
    obtain ⟨y, hy, rfl⟩ := List.mem_map.1 hx
    exact hw'.2 y hy z
  have hone : (w.map fun w' => w' z / (w.map (· z)).sum).sum = 1 := by
    simp only [div_eq_mul_inv]
    rw [List.sum_map_mul_right, mul_inv_cancel₀ (hz z)]
  obtain ⟨h1, h2⟩ := zipWith_mean (fun t' : SmearTable nz => SmearTable.val t' k z) lo hi tables
    (w.map fun w' => w' z / (w.map (· z)).sum) (by simp [hw'.1]) (by
      intro x hx
      obtain ⟨y, hy, rfl⟩ := List.mem_map.1 hx
      exact div_nonneg (hw'.2 y hy z) hnn) hb
  rw [hone, mul_one] at h1 h2
  rw [hv k z hk]
  exact ⟨h1, h2⟩

theorem zipWith_le {τ : Type} (f g : τ → ℝ) : ∀ (ts : List τ) (ws : List ℝ), (∀ w ∈ ws, 0 ≤ w) → (∀ t ∈ ts, f t ≤ g t) →
    (List.zipWith (fun t w => f t * w) ts ws).sum ≤ (List.zipWith (fun t w => g t * w) ts ws).sum
  | t :: ts, w :: ws, hw, ht => by
    have ih := zipWith_le f g ts ws (fun x hx => hw x (by simp [hx])) (fun x hx => ht x (by simp [hx]))
    have := mul_le_mul_of_nonneg_right (ht t (by simp)) (hw w (by simp))
    simp only [List.zipWith_cons_cons, List.sum_cons]
    linarith
  | [], _, _, _ => by simp
  | _ :: _, [], _, _ => by simp

/-- C58. Averages of cdfs are cdfs: non-decreasing along the errors, at every redshift (the ends, equal for all averaged
smearings, are kept, by `C58_average_between`). -/
theorem C58_average_monotone {nz : ℕ} {tables : List (SmearTable nz)} {weights : Option (List (Fin nz → ℝ))}
    (hw : ∀ ws, weights = some ws → ws.length = tables.length ∧ ∀ w ∈ ws, ∀ z, 0 ≤ w z) {t : SmearTable nz}
    (h : averageCdf tables weights = .ok t) (z : Fin nz) {j k : ℕ} (hj : j < k) (hk : k < t.length)
    (hmono : ∀ t' ∈ tables, SmearTable.val t' j z ≤ SmearTable.val t' k z) : SmearTable.val t j z ≤ SmearTable.val t k z := by
  obtain ⟨w, hwd, hz, hdz, hv⟩ := averageCdf_ok h
  have hw' : ∀ w' ∈ w, ∀ z, 0 ≤ w' z := by
    cases weights with
    | none =>
      rw [hwd]
      intro w' h' z
      simp only [Option.getD_none, List.mem_map] at h'
      obtain ⟨_, -, rfl⟩ := h'
      exact zero_le_one
    | some ws => rw [hwd]; exact (hw ws rfl).2
  rw [hv j z (by omega), hv k z hk]
  apply zipWith_le _ _ _ _ _ hmono
  intro x hx
  obtain ⟨y, hy, rfl⟩ := List.mem_map.1 hx
  apply div_nonneg (hw' y hy z)
  apply List.sum_nonneg
  intro x hx
  obtain ⟨y', hy', rfl⟩ := List.mem_map.1 hx
  exact hw' y' hy' z

/-- C58. Smearings with different errors are not averaged. -/
theorem C58_average_rejects {nz : ℕ} {t0 t1 : SmearTable nz} {ts : List (SmearTable nz)} (h1 : t1 ∈ ts)
    (h : t1.map (·.1) ≠ t0.map (·.1)) (weights : Option (List (Fin nz → ℝ))) :
    averageCdf (t0 :: ts) weights = .error .valueError := by
  unfold averageCdf
  simp only
  rw [if_pos ⟨t1, by simp [h1], h⟩]

/-- A triangular pdf at two redshifts, and an average with weights that depend on redshift. -/
example : ∃ t, tabulatedCdf ([(-1, fun _ => 1), (0, fun _ => 2), (1, fun _ => 1)] : List (ℝ × (Fin 2 → ℝ))) = .ok t :=
  (C58_accepted (by simp)).2 (by intro z; norm_num [massUpTo])

example : ∃ t, averageCdf ([[(-1, fun _ => 0), (1, fun _ => 1)], [(-1, fun _ => 0), (1, fun _ => 1)]] : List (SmearTable 2))
    (some [fun z => z + 1, fun _ => 2]) = .ok t := by
  unfold averageCdf
  simp only
  rw [if_neg (by simp), if_neg]
  · exact ⟨_, rfl⟩
  · push Not
    intro z
    have : (0 : ℝ) ≤ z := by positivity
    simp
    linarith

/-- A support bounded from above. -/
example : Handled (.below 3) := trivial

end Verif.Props
