import Verif.Props.SmearSample
import Verif.Props.SplineValues

/-!
# C126: sampled redshift errors for all draws

Values of both cubic splines of redshift smearings, between tabulated probabilities.
-/

namespace Verif.Props.SmearSpline

open Verif Verif.Spec Verif.Model Verif.Model.Smear Verif.Props Verif.Props.SmearSample Verif.Props.SplineValues Verif.Lemmas.CubicSpline Polynomial

variable {nz : ℕ} {S : Spline}

/-! ### Nodes of both splines -/

theorem pairwise_linspace {n : ℕ} (hn : 2 ≤ n) : (linspace 0 1 n).Pairwise (· < ·) := by
  unfold linspace
  rw [List.pairwise_map]
  refine List.pairwise_lt_range.imp fun h => ?_
  have := frac_lt hn h
  rw [zero_add, zero_add, sub_zero, one_mul, one_mul]
  exact this

/-- Nodes of the spline in the probability, at one redshift. -/
theorem table_accepted {values : List ℝ} (h : 4 ≤ values.length) : Spline.Accepted 3 (List.zip (linspace 0 1 values.length) values) := by
  refine ⟨by norm_num, by rw [List.length_zip, linspace_length, min_self]; omega, ?_⟩
  rw [List.map_fst_zip (by rw [linspace_length])]
  exact pairwise_linspace (by omega)

theorem table_node {values : List ℝ} {k : ℕ} (hk : k < values.length) :
    nodeX (List.zip (linspace 0 1 values.length) values) k = k / ((values.length : ℝ) - 1) ∧
      nodeY (List.zip (linspace 0 1 values.length) values) k = values.getD k 0 := by
  have h : (List.zip (linspace 0 1 values.length) values)[k]? = some ((k : ℝ) / ((values.length : ℝ) - 1), values.getD k 0) := by
    rw [List.zip, List.getElem?_zipWith, linspace_get _ _ _ _ hk, List.getElem?_eq_getElem hk]
    simp only [Option.some.injEq, Prod.mk.injEq]
    refine ⟨by ring, ?_⟩
    rw [List.getD_eq_getElem?_getD, List.getElem?_eq_getElem hk]
    rfl
  exact node_of_get h

theorem through (hS : SplinePieces S) : Through (tableSpline S) := by
  intro l hl k x hx
  have hk : k < l.length := (List.getElem?_eq_some_iff.1 hx).1
  have hn : (0 : ℝ) < (l.length : ℝ) - 1 := by
    have : (4 : ℝ) ≤ l.length := by exact_mod_cast hl
    linarith
  have hk1 : (k : ℝ) ≤ (l.length : ℝ) - 1 := by
    have : (k : ℝ) + 1 ≤ l.length := by exact_mod_cast hk
    linarith
  unfold tableSpline
  rw [clip_inside (by positivity) ((div_le_one hn).2 hk1)]
  refine hS.through (table_accepted hl) ((k : ℝ) / ((l.length : ℝ) - 1), x) (List.mem_of_getElem? (i := k) ?_)
  rw [List.zip, List.getElem?_zipWith, linspace_get _ _ _ _ hk, hx]
  simp only [Option.some.injEq, Prod.mk.injEq, and_true]
  ring

theorem interpolates (hS : SplinePieces S) : Interpolates (columnSpline S) := fun nodes h4 hp p hm =>
  hS.through ⟨by norm_num, by omega, hp⟩ p hm

/-! ### Errors are determined by the table -/

theorem setInterp_congr {f g : List (ℝ × ℝ) → ℝ → ℝ} {z : Fin nz → ℝ} {columns : Fin nz → List (ℝ × ℝ)}
    (h : ∀ j, ppfColumn f (columns j) = ppfColumn g (columns j)) : setInterp f z columns = setInterp g z columns := by
  have ok : ∀ {f g : List (ℝ × ℝ) → ℝ → ℝ} {p}, (∀ j, ppfColumn f (columns j) = ppfColumn g (columns j)) →
      setInterp f z columns = .ok p → setInterp g z columns = .ok p := by
    intro f g p h hp
    obtain ⟨h1, h2, h3, h4⟩ := setInterp_ok hp
    obtain ⟨p', hp'⟩ := setInterp_defined (fun j => ⟨p j, (h j).symm.trans (h1 j)⟩) h2 h3 h4
    rw [hp']
    congr 1
    funext j
    have := (setInterp_ok hp').1 j
    rw [← h j, h1 j] at this
    injection this with e
    exact e.symm
  have err : ∀ {f : List (ℝ × ℝ) → ℝ → ℝ} {e}, setInterp f z columns = .error e → e = .valueError := by
    intro f e he
    unfold setInterp at he
    split at he
    · cases he
    · cases he
      rfl
  cases hf : setInterp f z columns with
  | ok p => exact (ok h hf).symm
  | error e =>
    cases hg : setInterp g z columns with
    | ok p => rw [ok (fun j => (h j).symm) hg] at hf; cases hf
    | error e' => rw [err hf, err hg]

/-- C126. The percent points, hence the errors sampled, are determined by the table, for all probabilities and redshifts. -/
theorem C126_unique {S' : Spline} (hS : SplinePieces S) (hS' : SplinePieces S') {z : Fin nz → ℝ} {columns : Fin nz → List (ℝ × ℝ)} :
    setInterp (columnSpline S) z columns = setInterp (columnSpline S') z columns ∧
      ∀ s : Smear nz, Made (columnSpline S) s → ∀ u w, s.error (tableSpline S) u w = s.error (tableSpline S') u w := by
  have hcol : ∀ c, ppfColumn (columnSpline S) c = ppfColumn (columnSpline S') c := by
    classical
    intro c
    unfold ppfColumn
    cases c.head? with
    | none => rfl
    | some d0 =>
      cases c.getLast? with
      | none => rfl
      | some d1 =>
        simp only
        split
        · rename_i hn
          have : ∀ u, columnSpline S _ u = columnSpline S' _ u := fun u =>
            C118_unique hS hS' (.inr rfl) ⟨by norm_num, by have := hn.1; omega, hn.2⟩ u
          simp only [this]
        · rfl
  refine ⟨setInterp_congr fun j => hcol _, fun s hs u w => ?_⟩
  obtain ⟨-, -, -, hl, h4⟩ := made_facts hs
  have : ∀ j, tableSpline S (s.ppf j) u = tableSpline S' (s.ppf j) u := fun j =>
    C118_unique hS hS' (.inr rfl) (table_accepted (by rw [hl]; exact h4)) _
  unfold Smear.error Smear.quantile
  simp only [this]

/-! ### Percent points that are polynomials -/

/-- C126. If the percent points of the distribution at redshift `j` are a polynomial of degree 3 or less, errors at this redshift are exactly
these percent points, for all draws. -/
theorem C126_cubic (hS : SplinePieces S) {s : Smear nz} (hs : Made (columnSpline S) s) {j : Fin nz} {q : ℝ[X]} (hq : q.natDegree ≤ 3)
    (ht : ∀ r ∈ s.table.column j, r.1 = q.eval r.2) {d0 d1 : ℝ × ℝ} (h0 : (s.table.column j).head? = some d0)
    (h1 : (s.table.column j).getLast? = some d1) (c0 : d0.2 = 0) (c1 : d1.2 = 1)
    (hr : ∀ u, 0 ≤ u → u ≤ 1 → d0.1 ≤ q.eval u ∧ q.eval u ≤ d1.1) {u : ℝ} (hu0 : 0 ≤ u) (hu1 : u ≤ 1) :
    s.error (tableSpline S) u (s.z j) = s.dztransform (s.z j) (s.support (q.eval u)) := by
  classical
  obtain ⟨-, -, hcol, hl, h4⟩ := made_facts hs
  have hcol := hcol j
  have hclen : (s.table.column j).length = s.table.length := by simp [SmearTable.column]
  unfold ppfColumn at hcol
  rw [h0, h1] at hcol
  simp only at hcol
  split at hcol
  · rename_i hn
    simp only [Except.ok.injEq] at hcol
    set nodes := (0, d0.1) ::
        ((s.table.column j).map fun p => (p.2, p.1)).filter (fun p => decide ((1e-12 : ℝ) < p.1 ∧ p.1 < 1 - 1e-12)) ++ [(1, d1.1)] with hnodes
    have hval : ∀ v, 0 ≤ v → v ≤ 1 → npClip (columnSpline S nodes v) d0.1 d1.1 = q.eval v := by
      intro v hv0 hv1
      have e := (polynomial_value hS (nodes := nodes)
        ⟨by norm_num, by have := hn.1; omega, hn.2⟩ hq ?_ (a := (0, d0.1)) (b := (1, d1.1)) rfl (by rw [hnodes, List.getLast?_concat]; rfl) hv0 hv1).1
      · rw [columnSpline, e, clip_inside (hr v hv0 hv1).1 (hr v hv0 hv1).2]
      · intro p hp
        rw [hnodes] at hp
        rcases List.mem_append.1 hp with hp | hp
        · rcases List.mem_cons.1 hp with rfl | hp
          · have := ht d0 (List.mem_of_mem_head? h0)
            rw [c0] at this
            exact this
          · obtain ⟨r, hr', rfl⟩ := List.mem_map.1 (List.mem_of_mem_filter hp)
            exact ht r hr'
        · obtain rfl := List.mem_singleton.1 hp
          have := ht d1 (List.mem_of_mem_getLast? h1)
          rw [c1] at this
          exact this
    have hlj : (s.ppf j).length = s.table.length := hl j
    have hn' : (0 : ℝ) < ((s.ppf j).length : ℝ) - 1 := by
      have : (4 : ℝ) ≤ (s.ppf j).length := by exact_mod_cast hlj ▸ h4
      linarith
    have hnode : ∀ p ∈ List.zip (linspace 0 1 (s.ppf j).length) (s.ppf j), p.2 = q.eval p.1 := by
      intro p hp
      obtain ⟨k, hk⟩ := List.getElem?_of_mem hp
      have hkl : k < (s.ppf j).length := by
        have := (List.getElem?_eq_some_iff.1 hk).1
        rw [List.length_zip, linspace_length, min_self] at this
        exact this
      have hk1 : (k : ℝ) ≤ ((s.ppf j).length : ℝ) - 1 := by
        have : (k : ℝ) + 1 ≤ (s.ppf j).length := by exact_mod_cast hkl
        linarith
      rw [List.zip, List.getElem?_zipWith, linspace_get _ _ _ _ hkl, ← hcol, List.getElem?_map, linspace_get _ _ _ _ (by
        rw [hclen, ← hlj]; exact hkl)] at hk
      simp only [Option.map_some, Option.some.injEq] at hk
      rw [← hk]
      simp only
      rw [hcol, hclen, ← hlj]
      have e : (0 : ℝ) + (1 - 0) * k / (((s.ppf j).length : ℝ) - 1) = k / (((s.ppf j).length : ℝ) - 1) := by ring
      rw [e]
      exact hval _ (by positivity) ((div_le_one hn').2 hk1)
    unfold Smear.error
    rw [C96_redshift hs]
    unfold tableSpline
    rw [clip_inside hu0 hu1]
    have hlen0 : 4 ≤ (s.ppf j).length := by rw [hlj]; exact h4
    have ha : (List.zip (linspace 0 1 (s.ppf j).length) (s.ppf j)).head? = some (0, (s.ppf j).getD 0 0) := by
      rw [List.head?_eq_getElem?, List.zip, List.getElem?_zipWith, linspace_get _ _ _ _ (by omega),
        List.getElem?_eq_getElem (by omega : 0 < (s.ppf j).length)]
      simp [List.getD_eq_getElem?_getD, List.getElem?_eq_getElem (by omega : 0 < (s.ppf j).length)]
    have hb : (List.zip (linspace 0 1 (s.ppf j).length) (s.ppf j)).getLast? =
        some (1, (s.ppf j).getD ((s.ppf j).length - 1) 0) := by
      rw [List.getLast?_eq_getElem?, List.length_zip, linspace_length, min_self, List.zip, List.getElem?_zipWith,
        linspace_get _ _ _ _ (by omega), List.getElem?_eq_getElem (by omega : (s.ppf j).length - 1 < (s.ppf j).length)]
      simp only [Option.some.injEq, Prod.mk.injEq]
      rw [Nat.cast_sub (by omega)]
      refine ⟨by simp only [Nat.cast_one]; field_simp; ring, ?_⟩
      simp [List.getD_eq_getElem?_getD, List.getElem?_eq_getElem (by omega : (s.ppf j).length - 1 < (s.ppf j).length)]
    rw [(polynomial_value hS (table_accepted hlen0) hq hnode ha hb hu0 hu1).1]
  · cases hcol

/-! ### All redshifts -/

/-- Bounds at the redshifts of the table are bounds at all redshifts. -/
theorem quantile_bounds {spline : List (ℝ × ℝ) → ℝ → ℝ} {s : Smear nz} (h : Made spline s) (cubic : List ℝ → ℝ → ℝ) {u lo hi : ℝ}
    (hb : ∀ j, lo ≤ cubic (s.ppf j) u ∧ cubic (s.ppf j) u ≤ hi) (w : ℝ) : lo ≤ s.quantile cubic u w ∧ s.quantile cubic u w ≤ hi := by
  obtain ⟨h2, hz, -⟩ := made_facts h
  by_cases h0 : w ≤ s.z ⟨0, by omega⟩
  · rw [C96_outside h cubic u w (j := ⟨0, by omega⟩) (.inl ⟨rfl, h0⟩)]
    exact hb _
  by_cases h1 : s.z ⟨nz - 1, by omega⟩ ≤ w
  · rw [C96_outside h cubic u w (j := ⟨nz - 1, by omega⟩) (.inr ⟨by simp only; omega, h1⟩)]
    exact hb _
  push Not at h0 h1
  let x : ℕ → ℝ := fun i => if hi : i < nz then s.z ⟨i, hi⟩ else 0
  have hx : ∀ i (hi : i < nz), x i = s.z ⟨i, hi⟩ := fun i hi => dif_pos hi
  obtain ⟨i, hin, b1, b2⟩ := exists_interval (x := x) (n := nz - 1) (by omega) (z := w) (by rw [hx 0 (by omega)]; exact h0.le)
    (by rw [hx (nz - 1) (by omega)]; exact h1.le)
  rw [hx i (by omega)] at b1
  rw [hx (i + 1) (by omega)] at b2
  have e := C96_between h cubic u w (i := ⟨i, by omega⟩) (j := ⟨i + 1, by omega⟩) rfl b1 b2
  have hlt := hz ⟨i, by omega⟩ ⟨i + 1, by omega⟩ (Fin.mk_lt_mk.2 (by omega))
  obtain ⟨l1, u1⟩ := hb ⟨i, by omega⟩
  obtain ⟨l2, u2⟩ := hb ⟨i + 1, by omega⟩
  constructor
  · have : lo * (s.z ⟨i + 1, by omega⟩ - s.z ⟨i, by omega⟩) ≤ s.quantile cubic u w * (s.z ⟨i + 1, by omega⟩ - s.z ⟨i, by omega⟩) := by
      rw [e]
      nlinarith
    exact le_of_mul_le_mul_right this (by linarith)
  · have : s.quantile cubic u w * (s.z ⟨i + 1, by omega⟩ - s.z ⟨i, by omega⟩) ≤ hi * (s.z ⟨i + 1, by omega⟩ - s.z ⟨i, by omega⟩) := by
      rw [e]
      nlinarith
    exact le_of_mul_le_mul_right this (by linarith)

/-- C126 (partial). The percent points at all draws and redshifts are in the range of errors, to within 5/8 of the largest second difference of
the percent points tabulated. Missing: in the range, see `C126_range_violated`. -/
theorem C126_range_partial (hS : SplinePieces S) {s : Smear nz} (hs : Made (columnSpline S) s) {d0 d1 : ℝ × (Fin nz → ℝ)}
    (h0 : s.table.head? = some d0) (h1 : s.table.getLast? = some d1) (hd : d0.1 ≤ d1.1) {D : ℝ}
    (hD : ∀ j k, k + 2 < s.table.length → |(s.ppf j).getD (k + 2) 0 - 2 * (s.ppf j).getD (k + 1) 0 + (s.ppf j).getD k 0| ≤ D)
    {u : ℝ} (hu0 : 0 ≤ u) (hu1 : u ≤ 1) (w : ℝ) :
    d0.1 - 5 / 8 * D ≤ s.quantile (tableSpline S) u w ∧ s.quantile (tableSpline S) u w ≤ d1.1 + 5 / 8 * D := by
  obtain ⟨-, -, hcol, hl, h4⟩ := made_facts hs
  refine quantile_bounds hs _ (fun j => ?_) w
  have hlen : 4 ≤ (s.ppf j).length := by rw [hl]; exact h4
  have hacc := table_accepted hlen
  have hzl : (List.zip (linspace 0 1 (s.ppf j).length) (s.ppf j)).length = (s.ppf j).length := by
    rw [List.length_zip, linspace_length, min_self]
  have hn : (0 : ℝ) < ((s.ppf j).length : ℝ) - 1 := by
    have : (4 : ℝ) ≤ (s.ppf j).length := by exact_mod_cast hlen
    linarith
  have hrange := (C58_ppf_partial (interpolates hS) (d0 := (d0.1, d0.2 j)) (d1 := (d1.1, d1.2 j))
    (by rw [SmearTable.column, List.head?_map, h0]; rfl) (by rw [SmearTable.column, List.getLast?_map, h1]; rfl) hd (hcol j)).2.1
  have hy : ∀ k < (s.ppf j).length, d0.1 ≤ (s.ppf j).getD k 0 ∧ (s.ppf j).getD k 0 ≤ d1.1 := by
    intro k hk
    rw [List.getD_eq_getElem?_getD, List.getElem?_eq_getElem hk]
    exact hrange _ (List.getElem_mem hk)
  obtain ⟨p, hp, hv⟩ := hS.cubic hacc
  have e0 : nodeX (List.zip (linspace 0 1 (s.ppf j).length) (s.ppf j)) 0 = 0 := by
    rw [(table_node (by omega)).1]; simp
  have e1 : nodeX (List.zip (linspace 0 1 (s.ppf j).length) (s.ppf j)) ((s.ppf j).length - 1) = 1 := by
    rw [(table_node (by omega)).1, Nat.cast_sub (by omega), Nat.cast_one, div_self hn.ne']
  obtain ⟨i, hi, b1, b2⟩ := exists_interval (x := nodeX (List.zip (linspace 0 1 (s.ppf j).length) (s.ppf j))) (n := (s.ppf j).length - 1) (by omega) (z := u) (by rw [e0]; exact hu0) (by rw [e1]; exact hu1)
  have hgap := gap_le (d := 1 / (((s.ppf j).length : ℝ) - 1)) (by rw [hzl]; omega) (by positivity) (fun k hk => by
    rw [hzl] at hk
    rw [(table_node (by omega)).1, (table_node (by omega)).1]
    push_cast
    ring) hp (D := D) (fun k hk => by
    rw [hzl] at hk
    rw [(table_node (by omega)).2, (table_node (by omega)).2, (table_node (by omega)).2]
    exact hD j k (by rw [← hl j]; omega)) (i := i) (by rw [hzl]; exact hi) b1 b2
  have hval := (hv i (by rw [hzl]; omega) u b1 b2).1
  unfold tableSpline
  rw [clip_inside hu0 hu1, hval]
  obtain ⟨l1, u1⟩ := hy i (by omega)
  obtain ⟨l2, u2⟩ := hy (i + 1) (by omega)
  rw [← (table_node (by omega)).2] at l1 u1 l2 u2
  have hlt := nodeX_lt hacc.2.2 (i := i) (j := i + 1) (by omega) (by rw [hzl]; omega)
  revert hgap b1 b2 hlt l1 u1 l2 u2
  generalize nodeX _ i = x0
  generalize nodeX _ (i + 1) = x1
  generalize nodeY _ i = y0
  generalize nodeY _ (i + 1) = y1
  intro b1 b2 hgap l1 u1 l2 u2 hlt
  have hseg : d0.1 ≤ y0 + (y1 - y0) * (u - x0) / (x1 - x0) ∧ y0 + (y1 - y0) * (u - x0) / (x1 - x0) ≤ d1.1 := by
    have hpos : 0 < x1 - x0 := by linarith
    have e : y0 + (y1 - y0) * (u - x0) / (x1 - x0) = (y0 * (x1 - u) + y1 * (u - x0)) / (x1 - x0) := by
      field_simp
      ring
    rw [e, le_div_iff₀ hpos, div_le_iff₀ hpos]
    constructor <;> nlinarith
  have := abs_le.1 hgap
  constructor <;> linarith [this.1, this.2, hseg.1, hseg.2]

/-! ### Uniform errors -/

/-- C126. Errors uniform between `a` and `b` at all redshifts: the draw `u` gives the error `a + (b - a) * u`, at all redshifts. -/
theorem C126_uniform (hS : SplinePieces S) {a b : ℝ} (hab : a < b) {q0 : ℝ → EReal} {cdf : Fin nz → EReal → ℝ}
    (hcdf : ∀ j (x : ℝ), a ≤ x → x ≤ b → cdf j x = (x - a) / (b - a)) {scale : DzScale} {n : ℕ} {z : Fin nz → ℝ} {f : ℝ → EReal → EReal}
    {s : Smear nz} (h : rvs (columnSpline S) (.finite a b) q0 cdf scale n z f = .ok s) {u : ℝ} (hu0 : 0 ≤ u) (hu1 : u ≤ 1) (w : ℝ) :
    s.error (tableSpline S) u w = f w ((a + (b - a) * u : ℝ)) := by
  have hmade : Made (columnSpline S) s := .inr (.inl ⟨_, _, _, _, _, _, _, h⟩)
  obtain ⟨h2, hz, hcol, hlen, h4⟩ := made_facts hmade
  have hst : s.dztransform = f ∧ s.support = (fun x : ℝ => (x : EReal)) ∧
      s.table = List.zip (linspace a b n) (((linspace a b n).map fun x : ℝ => (x : EReal)).map fun x => fun j => cdf j x) := by
    unfold rvs at h
    obtain ⟨p, hp, h⟩ := bind_ok' h
    cases h
    exact ⟨rfl, rfl, rfl⟩
  obtain ⟨e2, e3, e4⟩ := hst
  have hn' : s.table.length = n := by rw [e4]; simp [linspace_length]
  rw [hn'] at h4
  have hn0 : (0 : ℝ) < (n : ℝ) - 1 := by
    have : (4 : ℝ) ≤ n := by exact_mod_cast h4
    linarith
  have hba : (0 : ℝ) < b - a := by linarith
  have hcget : ∀ j, ∀ i < n, (s.table.column j)[i]? = some (a + (b - a) * (i / ((n : ℝ) - 1)), (i : ℝ) / ((n : ℝ) - 1)) := by
    intro j i hi
    have hi1 : (i : ℝ) / ((n : ℝ) - 1) ≤ 1 := by
      rw [div_le_one hn0]
      have : (i : ℝ) + 1 ≤ n := by exact_mod_cast hi
      linarith
    have hi0 : 0 ≤ (i : ℝ) / ((n : ℝ) - 1) := by positivity
    rw [SmearTable.column, e4, List.getElem?_map, List.zip, List.getElem?_zipWith, List.getElem?_map, List.getElem?_map,
      linspace_get _ _ _ _ hi, mul_div_assoc]
    simp only [Option.map_some, Option.some.injEq, Prod.mk.injEq, true_and]
    rw [hcdf j _ (by nlinarith) (by nlinarith)]
    field_simp
    ring
  have hq : ∀ j, tableSpline S (s.ppf j) u = a + (b - a) * u := by
    intro j
    have hcl : (s.table.column j).length = n := by simp [SmearTable.column, hn']
    have hmade' : ∃ s', Made (columnSpline S) s' ∧ s'.z = s.z ∧ s'.table = s.table ∧ s'.ppf = s.ppf ∧ s'.support = s.support ∧
        s'.dztransform = fun _ x => x := by
      have h' := h
      unfold rvs at h'
      obtain ⟨p, hp, h'⟩ := bind_ok' h'
      cases h'
      refine ⟨⟨z, _, p, fun x => x, fun _ x => x⟩, .inr (.inl ⟨.finite a b, q0, cdf, scale, n, z, fun _ x => x, ?_⟩), rfl, rfl, rfl, rfl, rfl⟩
      unfold rvs
      simp only [hp]
      rfl
    obtain ⟨s', m', z', t', p', sup', f'⟩ := hmade'
    have key := C126_cubic hS m' (j := j) (q := C a + C (b - a) * X) (by compute_degree; norm_num) (by
      intro r hr
      rw [t'] at hr
      obtain ⟨i, hi⟩ := List.getElem?_of_mem hr
      have hin : i < n := by rw [← hcl]; exact (List.getElem?_eq_some_iff.1 hi).1
      rw [hcget j i hin] at hi
      cases hi
      simp) (d0 := (a, 0)) (d1 := (b, 1)) (by
        rw [t', List.head?_eq_getElem?, hcget j 0 (by omega)]; simp) (by
        rw [t', List.getLast?_eq_getElem?, hcl, hcget j (n - 1) (by omega), Nat.cast_sub (by omega), Nat.cast_one, div_self hn0.ne']
        simp) rfl rfl (by
        intro v hv0 hv1
        simp only [eval_add, eval_C, eval_mul, eval_X]
        constructor <;> nlinarith) hu0 hu1
    rw [Smear.error, C96_redshift m', p', f', sup', e3] at key
    simp only [eval_add, eval_C, eval_mul, eval_X] at key
    exact_mod_cast key
  have := quantile_bounds hmade (tableSpline S) (u := u) (lo := a + (b - a) * u) (hi := a + (b - a) * u)
    (fun j => by rw [hq j]; exact ⟨le_rfl, le_rfl⟩) w
  rw [Smear.error, e2, e3, le_antisymm this.2 this.1]

theorem linspace_four : linspace 0 1 4 = [0, 1 / 3, 2 / 3, 1] := by
  simp only [linspace, List.range_succ_eq_map, List.range_zero, List.map_cons, List.map_nil]
  norm_num

/-- Uniform errors at two redshifts are accepted. -/
example (S : Spline) (q0 : ℝ → EReal) : ∃ s : Smear 2, rvs (columnSpline S) (.finite 0 1) q0 (fun _ x => x.toReal) (.number 1) 4
    (fun j => (j.val : ℝ)) (fun _ x => x) = .ok s := by
  classical
  have hcol : ∀ j : Fin 2, SmearTable.column (List.zip (rvsGrid (.finite 0 1) q0 (.number 1) 4).1
      ((rvsGrid (.finite 0 1) q0 (.number 1) 4).2.1.map fun x => fun _ : Fin 2 => x.toReal)) j = [(0, 0), (1 / 3, 1 / 3), (2 / 3, 2 / 3), (1, 1)] := by
    intro j
    simp only [rvsGrid, linspace_four, List.map_cons, List.map_nil, List.zip_cons_cons, List.zip_nil_right, SmearTable.column,
      EReal.toReal_coe]
  have hp : ∃ p, ppfColumn (columnSpline S) [(0, 0), (1 / 3, 1 / 3), (2 / 3, 2 / 3), (1, 1)] = .ok p := by
    have hf : (([((0 : ℝ), (0 : ℝ)), (1 / 3, 1 / 3), (2 / 3, 2 / 3), (1, 1)].map fun p => (p.2, p.1)).filter
        fun p => decide ((1e-12 : ℝ) < p.1 ∧ p.1 < 1 - 1e-12)) = [(1 / 3, 1 / 3), (2 / 3, 2 / 3)] := by
      simp only [List.map_cons, List.map_nil, List.filter_cons, List.filter_nil]
      norm_num
    unfold ppfColumn
    simp only [List.head?_cons, List.getLast?_cons_cons, List.getLast?_singleton]
    rw [hf, if_pos ⟨by simp, by simp; norm_num⟩]
    exact ⟨_, rfl⟩
  obtain ⟨q, hq⟩ := setInterp_defined (spline := columnSpline S) (z := fun j : Fin 2 => (j.val : ℝ))
    (columns := SmearTable.column (List.zip (rvsGrid (.finite 0 1) q0 (.number 1) 4).1
      ((rvsGrid (.finite 0 1) q0 (.number 1) 4).2.1.map fun x => fun _ : Fin 2 => x.toReal)))
    (fun j => by rw [hcol]; exact hp) le_rfl (fun j => by rw [hcol]; simp) (fun i j hij => by exact_mod_cast hij)
  unfold rvs
  simp only [hq]
  exact ⟨_, rfl⟩

/-! ### Errors outside of the support -/

/-- Tabulated values and cumulative probabilities of the distribution of density `4 * x ^ 3` between 0 and 1. -/
noncomputable def fourth : List (ℝ × ℝ) := [(0, 0), (1 / 3, 1 / 81), (2 / 3, 16 / 81), (1, 1)]

/-- The cubic through the values of `fourth`, as a function of the probability. -/
noncomputable def fourthCubic : ℝ[X] := C 27 * X - C (5103 / 40) * (X * (X - C (1 / 81))) + C (6561 / 52) * (X * (X - C (1 / 81)) * (X - C (16 / 81)))

theorem fourth_ppf (hS : SplinePieces S) : ppfColumn (columnSpline S) fourth = .ok [0, 0, 0, 1] := by
  classical
  have hf : ((fourth.map fun p => (p.2, p.1)).filter fun p => decide ((1e-12 : ℝ) < p.1 ∧ p.1 < 1 - 1e-12)) =
      [(1 / 81, 1 / 3), (16 / 81, 2 / 3)] := by
    simp only [fourth, List.map_cons, List.map_nil, List.filter_cons, List.filter_nil]
    norm_num
  have hacc : Spline.Accepted 3 [((0 : ℝ), (0 : ℝ)), (1 / 81, 1 / 3), (16 / 81, 2 / 3), (1, 1)] := by
    refine ⟨by norm_num, by norm_num, ?_⟩
    simp only [List.map_cons, List.map_nil, List.pairwise_cons, List.mem_cons, List.not_mem_nil, or_false]
    norm_num
  have hv : ∀ v, 0 ≤ v → v ≤ 1 → columnSpline S [((0 : ℝ), (0 : ℝ)), (1 / 81, 1 / 3), (16 / 81, 2 / 3), (1, 1)] v = fourthCubic.eval v := by
    intro v h0 h1
    refine (polynomial_value hS hacc (q := fourthCubic) ?_ ?_ (a := (0, 0)) (b := (1, 1)) rfl rfl h0 h1).1
    · unfold fourthCubic
      compute_degree
    · intro p hp
      simp only [List.mem_cons, List.not_mem_nil, or_false] at hp
      rcases hp with rfl | rfl | rfl | rfl <;> simp [fourthCubic] <;> norm_num
  unfold ppfColumn
  have e0 : fourth.head? = some (0, 0) := rfl
  have e1 : fourth.getLast? = some (1, 1) := rfl
  rw [e0, e1]
  simp only
  rw [hf, if_pos ⟨by simp, by simpa using hacc.2.2⟩]
  have hl : fourth.length = 4 := rfl
  rw [hl, linspace_four]
  simp only [List.map_cons, List.map_nil, List.cons_append, List.nil_append]
  rw [hv 0 (by norm_num) (by norm_num), hv (1 / 3) (by norm_num) (by norm_num), hv (2 / 3) (by norm_num) (by norm_num),
    hv 1 (by norm_num) (by norm_num)]
  simp only [fourthCubic, eval_add, eval_sub, eval_mul, eval_C, eval_X, npClip]
  norm_num

/-- C126 is violated. The errors of density `4 * x ^ 3` between 0 and 1, tabulated at four values, are accepted, but a draw of 1/2 gives a
negative error, at all redshifts, below the error that a draw of 1/3 gives. -/
theorem C126_range_violated (hS : SplinePieces S) (q0 : ℝ → EReal) (scale : DzScale) : ∃ s : Smear 2,
    rvs (columnSpline S) (.finite 0 1) q0 (fun _ x => x.toReal ^ 4) scale 4 (fun j => (j.val : ℝ)) (fun _ x => x) = .ok s ∧
      ∀ w, s.error (tableSpline S) (1 / 3) w = (0 : ℝ) ∧ s.error (tableSpline S) (1 / 2) w = (-1 / 16 : ℝ) := by
  have hgrid : rvsGrid (.finite 0 1) q0 scale 4 = ((linspace 0 1 4, (linspace 0 1 4).map (fun x : ℝ => (x : EReal)), fun x : ℝ => (x : EReal)) :
    List ℝ × List EReal × (ℝ → EReal)) := rfl
  set t : SmearTable 2 := List.zip (rvsGrid (.finite 0 1) q0 scale 4).1
    ((rvsGrid (.finite 0 1) q0 scale 4).2.1.map fun x => fun _ : Fin 2 => x.toReal ^ 4) with ht
  have hcol : ∀ j, SmearTable.column t j = fourth := by
    intro j
    rw [ht, hgrid]
    simp only [linspace_four, List.map_cons, List.map_nil, List.zip_cons_cons, List.zip_nil_right, SmearTable.column, EReal.toReal_coe,
      fourth]
    norm_num
  obtain ⟨p, hp⟩ := setInterp_defined (spline := columnSpline S) (z := fun j : Fin 2 => (j.val : ℝ)) (columns := t.column)
    (fun j => ⟨_, by rw [hcol]; exact fourth_ppf hS⟩) le_rfl (fun j => by rw [hcol]; simp [fourth])
    (fun i j hij => by exact_mod_cast hij)
  have hpj : ∀ j, p j = [0, 0, 0, 1] := by
    intro j
    have := (setInterp_ok hp).1 j
    rw [hcol, fourth_ppf hS] at this
    injection this with e
    exact e.symm
  have hr : rvs (columnSpline S) (.finite 0 1) q0 (fun _ x => x.toReal ^ 4) scale 4 (fun j : Fin 2 => (j.val : ℝ)) (fun _ x => x) =
      .ok ⟨fun j => (j.val : ℝ), t, p, fun x => x, fun _ x => x⟩ := by
    unfold rvs
    simp only [← ht]
    rw [hp]
    rfl
  refine ⟨_, hr, fun w => ?_⟩
  have hmade := (Or.inr (Or.inl ⟨_, _, _, _, _, _, _, hr⟩) : Made (columnSpline S) _)
  have hv : ∀ v, 0 ≤ v → v ≤ 1 → tableSpline S [0, 0, 0, 1] v = 9 / 2 * (v * (v - 1 / 3) * (v - 2 / 3)) := by
    intro v h0 h1
    unfold tableSpline
    rw [clip_inside h0 h1]
    have e := (polynomial_value hS (table_accepted (values := [0, 0, 0, 1]) (by simp))
      (q := C (9 / 2) * (X * (X - C (1 / 3)) * (X - C (2 / 3)))) (by compute_degree) ?_ (a := (0, 0)) (b := (1, 1)) ?_ ?_ h0 h1).1
    · rw [e]
      simp
    · have : List.zip (linspace 0 1 [(0 : ℝ), 0, 0, 1].length) [0, 0, 0, 1] = [((0 : ℝ), (0 : ℝ)), (1 / 3, 0), (2 / 3, 0), (1, 1)] := by
        rw [show [(0 : ℝ), 0, 0, 1].length = 4 from rfl, linspace_four]
        rfl
      rw [this]
      intro p hp
      simp only [List.mem_cons, List.not_mem_nil, or_false] at hp
      rcases hp with rfl | rfl | rfl | rfl <;> simp <;> norm_num
    · rw [show [(0 : ℝ), 0, 0, 1].length = 4 from rfl, linspace_four]
      rfl
    · rw [show [(0 : ℝ), 0, 0, 1].length = 4 from rfl, linspace_four]
      rfl
  have key : ∀ v, 0 ≤ v → v ≤ 1 → Smear.quantile (tableSpline S) ⟨fun j => (j.val : ℝ), t, p, fun x => x, fun _ x => x⟩ v w =
      9 / 2 * (v * (v - 1 / 3) * (v - 2 / 3)) := by
    intro v h0 h1
    have := quantile_bounds hmade (tableSpline S) (u := v) (lo := 9 / 2 * (v * (v - 1 / 3) * (v - 2 / 3)))
      (hi := 9 / 2 * (v * (v - 1 / 3) * (v - 2 / 3))) (fun j => by
        have : tableSpline S (p j) v = 9 / 2 * (v * (v - 1 / 3) * (v - 2 / 3)) := by rw [hpj j, hv v h0 h1]
        exact ⟨this.ge, this.le⟩) w
    exact le_antisymm this.2 this.1
  constructor
  · show ((Smear.quantile (tableSpline S) _ (1 / 3) w : ℝ) : EReal) = _
    rw [key _ (by norm_num) (by norm_num)]
    norm_num
  · show ((Smear.quantile (tableSpline S) _ (1 / 2) w : ℝ) : EReal) = _
    rw [key _ (by norm_num) (by norm_num)]
    norm_num

end Verif.Props.SmearSpline
