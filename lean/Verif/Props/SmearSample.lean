import Verif.Model.SmearSample
import Verif.Lemmas.Interp
import Verif.Props.Smearing

/-!
# C96, C97: samples and averages of redshift smearings
-/

namespace Verif.Props.SmearSample

open Verif Verif.Model Verif.Props Verif.Model.Smear

variable {nz : ℕ}

/-! ### Specification -/

/-- Assumption on the cubic spline of scipy: it goes through the values, given at equal distances between 0 and 1. -/
def Through (cubic : List ℝ → ℝ → ℝ) : Prop :=
  ∀ l : List ℝ, 4 ≤ l.length → ∀ (k : ℕ) (x : ℝ), l[k]? = some x → cubic l (k / (l.length - 1)) = x

/-- A smearing made by one of the constructors. -/
def Made (spline : List (ℝ × ℝ) → ℝ → ℝ) (s : Smear nz) : Prop :=
  (∃ rows z f, tabulated spline rows z f = .ok s) ∨ (∃ sup q0 cdf scale n z f, rvs spline sup q0 cdf scale n z f = .ok s) ∨
    ∃ others w, average spline others w = .ok s

/-! ### Auxiliary facts -/

theorem setInterp_ok {spline : List (ℝ × ℝ) → ℝ → ℝ} {z : Fin nz → ℝ} {columns : Fin nz → List (ℝ × ℝ)} {p : Fin nz → List ℝ}
    (h : setInterp spline z columns = .ok p) : (∀ j, ppfColumn spline (columns j) = .ok (p j)) ∧ 2 ≤ nz ∧
      (∀ j, 4 ≤ (columns j).length) ∧ ∀ i j : Fin nz, i < j → z i < z j := by
  unfold setInterp at h
  split at h
  · rename_i hc
    cases h
    exact ⟨fun j => (hc.1 j).choose_spec, hc.2⟩
  · cases h

theorem setInterp_defined {spline : List (ℝ × ℝ) → ℝ → ℝ} {z : Fin nz → ℝ} {columns : Fin nz → List (ℝ × ℝ)}
    (h1 : ∀ j, ∃ p, ppfColumn spline (columns j) = .ok p) (h2 : 2 ≤ nz) (h3 : ∀ j, 4 ≤ (columns j).length)
    (h4 : ∀ i j : Fin nz, i < j → z i < z j) : ∃ p, setInterp spline z columns = .ok p := by
  unfold setInterp
  rw [dif_pos ⟨h1, h2, h3, h4⟩]
  exact ⟨_, rfl⟩

theorem bind_ok' {α β : Type} {x : Except Err α} {f : α → Except Err β} {b : β} (h : (x >>= f) = .ok b) :
    ∃ a, x = .ok a ∧ f a = .ok b := by
  cases x with
  | error e => simp [bind, Except.bind] at h
  | ok a => exact ⟨a, rfl, h⟩

theorem ppfColumn_length {spline : List (ℝ × ℝ) → ℝ → ℝ} {c : List (ℝ × ℝ)} {p : List ℝ} (h : ppfColumn spline c = .ok p) :
    p.length = c.length := by
  classical
  unfold ppfColumn at h
  split at h
  · simp only at h
    split at h
    · simp only [Except.ok.injEq] at h
      subst h
      rw [List.length_map, linspace_length]
    · cases h
  · cases h

/-- What all smearings satisfy. -/
theorem made_ok {spline : List (ℝ × ℝ) → ℝ → ℝ} {s : Smear nz} (h : Made spline s) :
    setInterp spline s.z s.table.column = .ok s.ppf := by
  rcases h with ⟨rows, z, f, h⟩ | ⟨sup, q0, cdf, scale, n, z, f, h⟩ | ⟨others, w, h⟩
  · obtain ⟨t, -, h⟩ := bind_ok' h
    obtain ⟨p, hp, h⟩ := bind_ok' h
    cases h
    exact hp
  · unfold rvs at h
    obtain ⟨p, hp, h⟩ := bind_ok' h
    cases h
    exact hp
  · unfold average at h
    split at h
    · cases h
    · simp only at h
      split at h
      · cases h
      · split at h
        · cases h
        · split at h
          · cases h
          · obtain ⟨t, -, h⟩ := bind_ok' h
            obtain ⟨p, hp, h⟩ := bind_ok' h
            cases h
            exact hp

theorem made_facts {spline : List (ℝ × ℝ) → ℝ → ℝ} {s : Smear nz} (h : Made spline s) : 2 ≤ nz ∧
    (∀ i j : Fin nz, i < j → s.z i < s.z j) ∧ (∀ j, ppfColumn spline (s.table.column j) = .ok (s.ppf j)) ∧
    (∀ j, (s.ppf j).length = s.table.length) ∧ 4 ≤ s.table.length := by
  obtain ⟨h1, h2, h3, h4⟩ := setInterp_ok (made_ok h)
  have hl : ∀ j, (s.table.column j).length = s.table.length := fun j => by simp [SmearTable.column]
  refine ⟨h2, h4, h1, fun j => ?_, ?_⟩
  · rw [ppfColumn_length (h1 j), hl]
  · have := h3 ⟨0, by omega⟩
    rwa [hl] at this

theorem nodes_inc {s : Smear nz} (hz : ∀ i j : Fin nz, i < j → s.z i < s.z j) (f : Fin nz → ℝ) :
    Inc ((List.finRange nz).map fun j => (s.z j, f j)) := by
  unfold Inc
  rw [List.map_map, List.pairwise_map]
  exact (List.pairwise_lt_finRange nz).imp fun h => hz _ _ h

theorem quantile_eq {spline : List (ℝ × ℝ) → ℝ → ℝ} {s : Smear nz} (h : Made spline s) (cubic : List ℝ → ℝ → ℝ) {u z y : ℝ}
    {a b : Fin nz} (ha : a.val = 0) (hb : b.val + 1 = nz)
    (hseg : OnSegment ((List.finRange nz).map fun j => (s.z j, cubic (s.ppf j) u)) (npClip z (s.z a) (s.z b)) y) :
    s.quantile cubic u z = y := by
  obtain ⟨h2, hz, -⟩ := made_facts h
  have hhead : ((List.finRange nz).map fun j => (s.z j, cubic (s.ppf j) u)).head? = some (s.z a, cubic (s.ppf a) u) := by
    rw [List.head?_eq_getElem?, List.getElem?_map, List.getElem?_eq_getElem (by simp; omega)]
    simp only [Option.map_some, List.getElem_finRange]
    rw [show (Fin.cast (List.length_finRange) ⟨0, by simp; omega⟩ : Fin nz) = a from Fin.ext ha.symm]
  have hlast : ((List.finRange nz).map fun j => (s.z j, cubic (s.ppf j) u)).getLast? = some (s.z b, cubic (s.ppf b) u) := by
    rw [List.getLast?_eq_getElem?, List.getElem?_map, List.getElem?_eq_getElem (by simp; omega)]
    simp only [Option.map_some, List.getElem_finRange]
    rw [show (Fin.cast (List.length_finRange) ⟨((List.finRange nz).map fun j => (s.z j, cubic (s.ppf j) u)).length - 1,
      by simp; omega⟩ : Fin nz) = b from Fin.ext (by simp; omega)]
  unfold quantile
  simp only
  rw [hhead, hlast]
  simp only
  rw [onSegment_linInterp (nodes_inc hz _) hseg]
  rfl

theorem clip_inside {x lo hi : ℝ} (h1 : lo ≤ x) (h2 : x ≤ hi) : npClip x lo hi = x := by
  rw [npClip, max_eq_left h1, min_eq_left h2]

theorem z_mono {s : Smear nz} (hz : ∀ i j : Fin nz, i < j → s.z i < s.z j) {i j : Fin nz} (h : i ≤ j) : s.z i ≤ s.z j := by
  rcases h.lt_or_eq with h | rfl
  · exact (hz _ _ h).le
  · exact le_rfl

theorem mem_nodes (s : Smear nz) (cubic : List ℝ → ℝ → ℝ) (u : ℝ) (j : Fin nz) :
    (s.z j, cubic (s.ppf j) u) ∈ (List.finRange nz).map fun j => (s.z j, cubic (s.ppf j) u) :=
  List.mem_map_of_mem (List.mem_finRange j)

/-! ### C96 -/

/-- C96. At a redshift of the table the percent point is that of the redshift. -/
theorem C96_redshift {spline : List (ℝ × ℝ) → ℝ → ℝ} {s : Smear nz} (h : Made spline s) (cubic : List ℝ → ℝ → ℝ) (u : ℝ)
    (j : Fin nz) : s.quantile cubic u (s.z j) = cubic (s.ppf j) u := by
  obtain ⟨h2, hz, -⟩ := made_facts h
  refine quantile_eq h cubic (a := ⟨0, by omega⟩) (b := ⟨nz - 1, by omega⟩) rfl (by simp; omega) ?_
  rw [clip_inside (z_mono hz (Fin.mk_le_of_le_val (by simp))) (z_mono hz (Fin.le_def.2 (by simp; omega)))]
  exact onSegment_node (nodes_inc hz _) (by simp; omega) (mem_nodes s cubic u j)

/-- C96. Redshifts outside of the table take the percent points of its ends. -/
theorem C96_outside {spline : List (ℝ × ℝ) → ℝ → ℝ} {s : Smear nz} (h : Made spline s) (cubic : List ℝ → ℝ → ℝ) (u z : ℝ)
    {j : Fin nz} (hj : j.val = 0 ∧ z ≤ s.z j ∨ j.val + 1 = nz ∧ s.z j ≤ z) : s.quantile cubic u z = cubic (s.ppf j) u := by
  obtain ⟨h2, hz, -⟩ := made_facts h
  refine quantile_eq h cubic (a := ⟨0, by omega⟩) (b := ⟨nz - 1, by omega⟩) rfl (by simp; omega) ?_
  have hle : s.z ⟨0, by omega⟩ ≤ s.z ⟨nz - 1, by omega⟩ := z_mono hz (Fin.le_def.2 (by simp))
  have hc : npClip z (s.z ⟨0, by omega⟩) (s.z ⟨nz - 1, by omega⟩) = s.z j := by
    rcases hj with ⟨h0, hzj⟩ | ⟨h1, hzj⟩
    · have e : (⟨0, by omega⟩ : Fin nz) = j := Fin.ext h0.symm
      rw [e] at hle ⊢
      rw [npClip, max_eq_right hzj, min_eq_left hle]
    · have e : (⟨nz - 1, by omega⟩ : Fin nz) = j := Fin.ext (by simp; omega)
      rw [e] at hle ⊢
      rw [npClip, min_eq_right (le_trans hzj (le_max_left _ _))]
  rw [hc]
  exact onSegment_node (nodes_inc hz _) (by simp; omega) (mem_nodes s cubic u j)

/-- C96. Between two consecutive redshifts of the table percent points are interpolated linearly. -/
theorem C96_between {spline : List (ℝ × ℝ) → ℝ → ℝ} {s : Smear nz} (h : Made spline s) (cubic : List ℝ → ℝ → ℝ) (u z : ℝ)
    {i j : Fin nz} (hij : i.val + 1 = j.val) (hi : s.z i ≤ z) (hj : z ≤ s.z j) :
    s.quantile cubic u z * (s.z j - s.z i) = cubic (s.ppf i) u * (s.z j - z) + cubic (s.ppf j) u * (z - s.z i) := by
  obtain ⟨h2, hz, -⟩ := made_facts h
  have hlt := hz i j (Fin.lt_def.2 (by omega))
  have hq : s.quantile cubic u z = cubic (s.ppf i) u + (z - s.z i) / (s.z j - s.z i) * (cubic (s.ppf j) u - cubic (s.ppf i) u) := by
    refine quantile_eq h cubic (a := ⟨0, by omega⟩) (b := ⟨nz - 1, by omega⟩) rfl (by simp; omega) ?_
    rw [clip_inside (le_trans (z_mono hz (Fin.mk_le_of_le_val (by simp))) hi)
      (le_trans hj (z_mono hz (Fin.le_def.2 (by simp; omega))))]
    have hsplit : ∃ l r, (List.finRange nz) = l ++ i :: j :: r := by
      refine ⟨(List.finRange nz).take i, (List.finRange nz).drop (j + 1), ?_⟩
      have e1 : (List.finRange nz).drop i = i :: (List.finRange nz).drop (i + 1) := by
        rw [List.drop_eq_getElem_cons (by simp)]
        simp
      have e2 : (List.finRange nz).drop j = j :: (List.finRange nz).drop (j + 1) := by
        rw [List.drop_eq_getElem_cons (by simp)]
        simp
      rw [← e2, ← hij, ← e1, List.take_append_drop]
    obtain ⟨l, r, hs⟩ := hsplit
    rw [hs]
    refine ⟨l.map fun j => (s.z j, cubic (s.ppf j) u), (s.z i, cubic (s.ppf i) u), (s.z j, cubic (s.ppf j) u),
      r.map fun j => (s.z j, cubic (s.ppf j) u), ?_, hi, hj, rfl⟩
    · simp
  rw [hq]
  have : s.z j - s.z i ≠ 0 := by linarith
  field_simp
  ring

/-- C96. The error is obtained from the percent point: transformed to the support, then with the transform given by the user at the
redshift of the object. At a redshift and a probability of the tables it is the tabulated percent point. -/
theorem C96_error {spline : List (ℝ × ℝ) → ℝ → ℝ} {s : Smear nz} (h : Made spline s) {cubic : List ℝ → ℝ → ℝ} (hc : Through cubic) :
    (∀ u z, s.error cubic u z = s.dztransform z (s.support (s.quantile cubic u z))) ∧
    ∀ (j : Fin nz) (k : ℕ) (x : ℝ), (s.ppf j)[k]? = some x →
      s.error cubic (k / ((s.table.length : ℝ) - 1)) (s.z j) = s.dztransform (s.z j) (s.support x) := by
  obtain ⟨h2, hz, -, hl, h4⟩ := made_facts h
  refine ⟨fun u z => rfl, fun j k x hx => ?_⟩
  unfold Smear.error
  rw [C96_redshift h, ← hl j, hc _ (by rw [hl j]; exact h4) k x hx]

theorem mapIdx_append' {α β : Type} (f : ℕ → α → β) (l m : List α) :
    (l ++ m).mapIdx f = l.mapIdx f ++ m.mapIdx fun i => f (l.length + i) := by
  rw [List.mapIdx_append]
  congr 1
  apply congrArg (fun g => List.mapIdx g m)
  funext i
  rw [Nat.add_comm]

theorem sample_append (cubic : List ℝ → ℝ → ℝ) (s : Smear nz) (draws : ℕ → ℝ) (ranks : List (List ℝ)) (l : List ℝ) :
    s.sample cubic draws (ranks ++ [l]) = s.sample cubic draws ranks ++
      [l.mapIdx fun i z => s.error cubic (draws ((ranks.map List.length).sum + i)) z] := by
  unfold Smear.sample
  rw [List.length_append, List.length_singleton, List.range_succ, List.map_append]
  congr 1
  · apply List.map_congr_left
    intro r hr
    have hr := List.mem_range.1 hr
    rw [List.getD_eq_getElem?_getD, List.getElem?_append_left hr, ← List.getD_eq_getElem?_getD, List.take_append_of_le_length hr.le]
  · simp

/-- C96. Each rank obtains one error per redshift. All errors are those of the objects in the order of ranks, each with its own
draw: they do not depend on the distribution of the objects over ranks. -/
theorem C96_sample (cubic : List ℝ → ℝ → ℝ) (s : Smear nz) (draws : ℕ → ℝ) (ranks : List (List ℝ)) :
    (s.sample cubic draws ranks).map List.length = ranks.map List.length ∧
    (s.sample cubic draws ranks).flatten = ranks.flatten.mapIdx fun i z => s.error cubic (draws i) z := by
  induction ranks using List.reverseRecOn with
  | nil => exact ⟨rfl, rfl⟩
  | append_singleton ranks l ih =>
    rw [sample_append]
    constructor
    · rw [List.map_append, ih.1]; simp
    · rw [List.flatten_append, ih.2, List.flatten_append, mapIdx_append', List.length_flatten]
      simp

/-- C96. Constructors: tables of the distribution. -/
theorem C96_tabulated {spline : List (ℝ × ℝ) → ℝ → ℝ} {rows : List (ℝ × (Fin nz → ℝ))} {z : Fin nz → ℝ} {f : ℝ → EReal → EReal}
    {s : Smear nz} (h : tabulated spline rows z f = .ok s) : tabulatedCdf rows = .ok s.table ∧ s.z = z ∧ s.dztransform = f ∧
      ∀ x : ℝ, s.support x = x := by
  obtain ⟨t, ht, h⟩ := bind_ok' h
  obtain ⟨p, hp, h⟩ := bind_ok' h
  cases h
  exact ⟨ht, rfl, rfl, fun _ => rfl⟩

/-- C96. Constructors: distributions of the same support. The table gives, at each redshift, the cumulative probability of the
distribution at the error transformed to the support. -/
theorem C96_rvs {spline : List (ℝ × ℝ) → ℝ → ℝ} {sup : Support} (hs : Handled sup) {q0 : ℝ → EReal} {cdf : Fin nz → EReal → ℝ}
    {scale : DzScale} (h0 : ∀ x, scale = .number x → 0 < x) {n : ℕ} (hn : 2 ≤ n) {z : Fin nz → ℝ} {f : ℝ → EReal → EReal}
    {s : Smear nz} (h : rvs spline sup q0 cdf scale n z f = .ok s) :
    s.z = z ∧ s.dztransform = f ∧ s.table.length = n ∧ ∀ r ∈ s.table, ∀ j, r.2 j = cdf j (s.support r.1) := by
  unfold rvs at h
  obtain ⟨p, hp, h⟩ := bind_ok' h
  cases h
  have key : (rvsGrid sup q0 scale n).2.1 = (rvsGrid sup q0 scale n).1.map (rvsGrid sup q0 scale n).2.2 ∧
      (rvsGrid sup q0 scale n).1.length = n := by
    cases sup with
    | above a => exact hs.elim
    | finite a b => exact ⟨rfl, linspace_length _ _ _⟩
    | infinite =>
      cases scale with
      | ppf => exact ⟨rfl, linspace_length _ _ _⟩
      | number x => exact ⟨C58_points_partial hs (h0 x rfl) hn, linspace_length _ _ _⟩
    | below b =>
      cases scale with
      | ppf => exact ⟨rfl, linspace_length _ _ _⟩
      | number x => exact ⟨C58_points_partial hs (h0 x rfl) hn, linspace_length _ _ _⟩
  refine ⟨rfl, rfl, ?_, ?_⟩
  · simp only
    rw [List.length_zip, List.length_map, key.1, List.length_map, key.2, min_self]
  · intro r hr j
    simp only at hr
    rw [key.1] at hr
    obtain ⟨k, hk⟩ := List.getElem?_of_mem hr
    rw [List.zip, List.getElem?_zipWith, List.getElem?_map, List.getElem?_map] at hk
    cases hx : (rvsGrid sup q0 scale n).1[k]? with
    | none => rw [hx] at hk; simp at hk
    | some x =>
      rw [hx] at hk
      simp only [Option.map_some, Option.some.injEq] at hk
      rw [← hk]

/-- A percent point is exact if its probability is in the table. -/
theorem ppfColumn_exact {spline : List (ℝ × ℝ) → ℝ → ℝ} (hs : Interpolates spline) {column : List (ℝ × ℝ)} {p : List ℝ}
    (h : ppfColumn spline column = .ok p) {k : ℕ} (hk : k < column.length) {d c : ℝ} (hm : (d, c) ∈ column)
    (hc : c = k / (column.length - 1)) (h0 : 1e-12 < c) (h1 : c < 1 - 1e-12) {d0 d1 : ℝ × ℝ} (hh : column.head? = some d0)
    (hl : column.getLast? = some d1) (hd0 : d0.1 ≤ d) (hd1 : d ≤ d1.1) : p[k]? = some d := by
  classical
  unfold ppfColumn at h
  rw [hh, hl] at h
  simp only at h
  split at h
  · rename_i hn
    cases h
    rw [List.getElem?_map, linspace_get _ _ _ _ hk]
    simp only [Option.map_some, Option.some.injEq]
    rw [show (0 : ℝ) + (1 - 0) * k / (column.length - 1) = c by rw [hc]; ring]
    have := hs _ hn.1 hn.2 (c, d) (by
      apply List.mem_append_left
      apply List.mem_cons_of_mem
      rw [List.mem_filter]
      exact ⟨List.mem_map.2 ⟨(d, c), hm, rfl⟩, by simp only [decide_eq_true_eq]; exact ⟨h0, h1⟩⟩)
    rw [this, clip_inside hd0 hd1]
  · cases h

/-- C96. With the percent points of the first distribution as scale ('ppf'), errors at the first redshift are exactly the percent
points of this distribution, at all probabilities of the table. -/
theorem C96_ppf_scale {spline : List (ℝ × ℝ) → ℝ → ℝ} (hs : Interpolates spline) {cubic : List ℝ → ℝ → ℝ} (hc : Through cubic)
    {sup : Support} (hsup : ∀ a b, sup ≠ .finite a b) {q0 : ℝ → EReal} {cdf : Fin nz → EReal → ℝ} {n : ℕ} (hn : n ≤ 10 ^ 12)
    {z : Fin nz → ℝ} {f : ℝ → EReal → EReal} {s : Smear nz} (h : rvs spline sup q0 cdf .ppf n z f = .ok s) {j : Fin nz}
    (hq : ∀ x, 0 ≤ x → x ≤ 1 → cdf j (q0 x) = x) {k : ℕ} (hk : k < n) :
    s.error cubic (k / ((n : ℝ) - 1)) (z j) = f (z j) (q0 (k / ((n : ℝ) - 1))) := by
  have hmade : Made spline s := Or.inr (Or.inl ⟨_, _, _, _, _, _, _, h⟩)
  obtain ⟨h2, hz, hcol, hlen, h4⟩ := made_facts hmade
  have hgrid : rvsGrid sup q0 .ppf n = (linspace 0 1 n, (linspace 0 1 n).map q0, q0) := by
    cases sup with
    | finite a b => exact absurd rfl (hsup a b)
    | infinite => rfl
    | below b => rfl
    | above a => rfl
  have hst : s.z = z ∧ s.dztransform = f ∧ s.support = q0 ∧
      s.table = List.zip (linspace 0 1 n) (((linspace 0 1 n).map q0).map fun x => fun j => cdf j x) := by
    unfold rvs at h
    rw [hgrid] at h
    obtain ⟨p, hp, h⟩ := bind_ok' h
    cases h
    exact ⟨rfl, rfl, rfl, rfl⟩
  obtain ⟨e1, e2, e3, e4⟩ := hst
  have hn' : s.table.length = n := by rw [e4]; simp [linspace_length]
  rw [hn'] at h4
  have hn0 : (0 : ℝ) < (n : ℝ) - 1 := by
    have : (4 : ℝ) ≤ n := by exact_mod_cast h4
    linarith
  have hcget : ∀ i < n, (s.table.column j)[i]? = some ((i : ℝ) / ((n : ℝ) - 1), (i : ℝ) / ((n : ℝ) - 1)) := by
    intro i hi
    have hx : (0 : ℝ) + (1 - 0) * i / ((n : ℝ) - 1) = i / ((n : ℝ) - 1) := by ring
    have hi1 : (i : ℝ) ≤ (n : ℝ) - 1 := by
      have : (i : ℝ) + 1 ≤ n := by exact_mod_cast hi
      linarith
    rw [SmearTable.column, e4, List.getElem?_map, List.zip, List.getElem?_zipWith, List.getElem?_map, List.getElem?_map,
      linspace_get _ _ _ _ hi, hx]
    simp only [Option.map_some, Option.some.injEq, Prod.mk.injEq, true_and]
    exact hq _ (by positivity) ((div_le_one hn0).2 hi1)
  have hcl : (s.table.column j).length = n := by simp [SmearTable.column, hn']
  have hhead : (s.table.column j).head? = some (0, 0) := by
    rw [List.head?_eq_getElem?, hcget 0 (by omega)]; simp
  have hlast : (s.table.column j).getLast? = some (1, 1) := by
    rw [List.getLast?_eq_getElem?, hcl, hcget (n - 1) (by omega), Nat.cast_sub (by omega)]
    simp only [Nat.cast_one, div_self hn0.ne']
  have hp : (s.ppf j)[k]? = some (k / ((n : ℝ) - 1)) := by
    obtain ⟨-, hrange, hfirst, hend⟩ := C58_ppf_partial hs hhead hlast (by norm_num) (hcol j)
    by_cases hk0 : k = 0
    · subst hk0
      rw [List.head?_eq_getElem?] at hfirst
      rw [hfirst]; simp
    · by_cases hk1 : k = n - 1
      · subst hk1
        rw [List.getLast?_eq_getElem?, hlen j, hn'] at hend
        rw [hend, Nat.cast_sub (by omega)]
        simp only [Nat.cast_one, div_self hn0.ne']
      · have hnb : (n : ℝ) ≤ 10 ^ 12 := by exact_mod_cast hn
        have hk2 : (1 : ℝ) ≤ k := by exact_mod_cast Nat.pos_of_ne_zero hk0
        have hk3 : (k : ℝ) ≤ (n : ℝ) - 2 := by
          have : k + 2 ≤ n := by omega
          have : (k : ℝ) + 2 ≤ n := by exact_mod_cast this
          linarith
        have hsmall : (1e-12 : ℝ) < 1 / ((n : ℝ) - 1) := by
          rw [lt_div_iff₀ hn0]
          norm_num
          linarith
        have hlo : 1 / ((n : ℝ) - 1) ≤ k / ((n : ℝ) - 1) := by gcongr
        have hhi : (k : ℝ) / ((n : ℝ) - 1) ≤ 1 - 1 / ((n : ℝ) - 1) := by
          rw [div_le_iff₀ hn0, sub_mul, div_mul_cancel₀ _ hn0.ne']
          linarith
        exact ppfColumn_exact hs (hcol j) (by rw [hcl]; exact hk) (List.mem_of_getElem? (hcget k hk)) (by rw [hcl])
          (by linarith) (by linarith) hhead hlast (by simp only; positivity) (by simp only; linarith)
  have := (C96_error hmade hc).2 j k _ hp
  rw [hn', e1, e2, e3] at this
  exact this

/-- C96 is violated: errors in two dimensions, as documented: refused for more than two redshifts; for two redshifts the percent
points of the first redshift are all equal to its last error, whatever the distribution. -/
theorem C96_errors2d_violated (spline : List (ℝ × ℝ) → ℝ → ℝ) (rows : List ((Fin nz → ℝ) × (Fin nz → ℝ))) (z : Fin nz → ℝ) :
    (2 < nz → tabulated2d spline rows z = .error .valueError) ∧
    ∀ p, tabulated2d spline rows z = .ok p → nz = 2 ∧ ∀ j : Fin nz, j.val = 0 → ∀ r, rows.getLast? = some r → ∀ x ∈ p j, x = r.1 j := by
  refine ⟨fun h => ?_, fun p hp => ?_⟩
  · unfold tabulated2d
    rw [dif_neg (by omega)]
  · unfold tabulated2d at hp
    split at hp
    · rename_i h2
      refine ⟨h2, ?_⟩
      subst h2
      intro j hj r hr x hx
      obtain rfl : j = 0 := Fin.ext hj
      split at hp
      · rename_i c0 c1 r0 r1 hc0 hc1 hr0 hr1
        rw [hr1] at hr
        injection hr with hr
        subst hr
        split at hp
        · cases hp
        · obtain ⟨hcol, -, hl4, -⟩ := setInterp_ok hp
          have hcol := hcol 0
          have hl4 := hl4 0
          generalize hcc : List.zip _ _ = col at hcol hl4
          have hall : ∀ q ∈ col, q.1 = r1.1 0 := by
            intro q hq
            rw [← hcc] at hq
            have := (List.of_mem_zip hq).1
            unfold padErrors2 at this
            rw [if_pos (by rfl)] at this
            exact (List.mem_replicate.1 this).2
          have hne : col ≠ [] := by rintro rfl; simp at hl4
          unfold ppfColumn at hcol
          rw [List.head?_eq_some_head hne, List.getLast?_eq_some_getLast hne] at hcol
          simp only at hcol
          split at hcol
          · injection hcol with hcol
            rw [← hcol] at hx
            obtain ⟨u, -, rfl⟩ := List.mem_map.1 hx
            rw [hall _ (List.head_mem hne), hall _ (List.getLast_mem hne), npClip]
            exact min_eq_right (le_max_right _ _)
          · cases hcol
      · cases hp
    · cases hp

/-! ### C97 -/

theorem average_ok {spline : List (ℝ × ℝ) → ℝ → ℝ} {s0 : Smear nz} {l : List (Smear nz)} {w : Option (List (Fin nz → ℝ))}
    {s : Smear nz} (h : average spline (s0 :: l) w = .ok s) :
    (∀ s' ∈ l, s'.table.map (·.1) = s0.table.map (·.1)) ∧
    (∀ s' ∈ l, ∀ x ∈ (s0.table.map (·.1)).tail.dropLast, s'.support x = s0.support x) ∧
    (∀ s' ∈ l, ∀ j, ∀ x ∈ s0.table.map (·.1), s'.dztransform (s0.z j) (x : ℝ) = s0.dztransform (s0.z j) (x : ℝ)) ∧
    averageCdf ((s0 :: l).map fun s => s.table) w = .ok s.table ∧ setInterp spline s0.z s.table.column = .ok s.ppf ∧
    s.z = s0.z ∧ s.support = s0.support ∧ s.dztransform = s0.dztransform := by
  unfold average at h
  simp only at h
  split at h
  · cases h
  · rename_i h1
    split at h
    · cases h
    · rename_i h2
      split at h
      · cases h
      · rename_i h3
        obtain ⟨t, ht, h⟩ := bind_ok' h
        obtain ⟨p, hp, h⟩ := bind_ok' h
        cases h
        push Not at h1 h2 h3
        exact ⟨fun s hs => h1 s (List.mem_cons_of_mem _ hs), fun s hs => h2 s (List.mem_cons_of_mem _ hs),
          fun s hs => h3 s (List.mem_cons_of_mem _ hs), ht, hp, rfl, rfl, rfl⟩

/-- C97. The average has the redshifts, errors and transforms of the first smearing, and its cumulative distribution is the
weighted mean of the cumulative distributions, at every error and redshift of the table. -/
theorem C97_average_partial {spline : List (ℝ × ℝ) → ℝ → ℝ} {s0 : Smear nz} {l : List (Smear nz)} {w : List (Fin nz → ℝ)}
    {s : Smear nz} (h : average spline (s0 :: l) (some w) = .ok s) :
    s.z = s0.z ∧ s.support = s0.support ∧ s.dztransform = s0.dztransform ∧ (∀ s' ∈ s0 :: l, s'.table.map (·.1) = s.table.map (·.1)) ∧
    ∀ k j, k < s.table.length → SmearTable.val s.table k j * (w.map (· j)).sum =
      (List.zipWith (fun (s' : Smear nz) w => SmearTable.val s'.table k j * w j) (s0 :: l) w).sum := by
  obtain ⟨-, -, -, ht, -, e1, e2, e3⟩ := average_ok h
  obtain ⟨h1, h2⟩ := C58_average_value ht
  refine ⟨e1, e2, e3, fun s' hs' => h1 _ (List.mem_map_of_mem hs'), fun k j hk => ?_⟩
  rw [h2 k j hk, List.zipWith_map_left]

/-- C97. Smearings with other errors, or with another transform to the support at errors of the table, are refused. -/
theorem C97_refused {spline : List (ℝ × ℝ) → ℝ → ℝ} {s0 s1 : Smear nz} {l : List (Smear nz)} (hs : s1 ∈ l)
    (w : Option (List (Fin nz → ℝ)))
    (h : s1.table.map (·.1) ≠ s0.table.map (·.1) ∨ (∃ x ∈ (s0.table.map (·.1)).tail.dropLast, s1.support x ≠ s0.support x) ∨
      ∃ j, ∃ x ∈ s0.table.map (·.1), s1.dztransform (s0.z j) (x : ℝ) ≠ s0.dztransform (s0.z j) (x : ℝ)) :
    average spline (s0 :: l) w = .error .valueError := by
  have hm : s1 ∈ s0 :: l := List.mem_cons_of_mem _ hs
  unfold average
  simp only
  by_cases h1 : ∃ s ∈ s0 :: l, s.table.map (·.1) ≠ s0.table.map (·.1)
  · rw [if_pos h1]
  · rw [if_neg h1]
    by_cases h2 : ∃ s ∈ s0 :: l, ∃ x ∈ (s0.table.map (·.1)).tail.dropLast, s.support x ≠ s0.support x
    · rw [if_pos h2]
    · rw [if_neg h2, if_pos]
      rcases h with h | h | h
      · exact absurd ⟨s1, hm, h⟩ h1
      · exact absurd ⟨s1, hm, h⟩ h2
      · exact ⟨s1, hm, h⟩

theorem average_congr {spline : List (ℝ × ℝ) → ℝ → ℝ} {s0 : Smear nz} {l l' : List (Smear nz)} (w : Option (List (Fin nz → ℝ)))
    (h : List.Forall₂ (fun a b : Smear nz => a.table = b.table ∧ a.support = b.support ∧
      ∀ j, ∀ x ∈ s0.table.map (·.1), a.dztransform (s0.z j) (x : ℝ) = b.dztransform (s0.z j) (x : ℝ)) l l') :
    average spline (s0 :: l) w = average spline (s0 :: l') w := by
  have hall : ∀ P : Smear nz → Prop, (∀ a b : Smear nz, a.table = b.table → a.support = b.support →
      (∀ j, ∀ x ∈ s0.table.map (·.1), a.dztransform (s0.z j) (x : ℝ) = b.dztransform (s0.z j) (x : ℝ)) → (P a ↔ P b)) →
      ((∃ s ∈ s0 :: l, P s) ↔ ∃ s ∈ s0 :: l', P s) := by
    intro P hP
    rw [List.exists_mem_cons_iff, List.exists_mem_cons_iff]
    apply or_congr Iff.rfl
    induction h with
    | nil => rfl
    | cons hab _ ih =>
      rw [List.exists_mem_cons_iff, List.exists_mem_cons_iff, hP _ _ hab.1 hab.2.1 hab.2.2]
      exact or_congr Iff.rfl ih
  have ht : (s0 :: l).map (fun s => s.table) = (s0 :: l').map fun s => s.table := by
    rw [List.map_cons, List.map_cons]
    congr 1
    clear hall
    induction h with
    | nil => rfl
    | cons hab _ ih => rw [List.map_cons, List.map_cons, hab.1, ih]
  unfold average
  simp only
  rw [ht]
  have e1 := hall (fun a => a.table.map (·.1) ≠ s0.table.map (·.1)) fun a b h1 h2 h3 => by simp only [h1]
  have e2 := hall (fun a => ∃ x ∈ (s0.table.map (·.1)).tail.dropLast, a.support x ≠ s0.support x) fun a b h1 h2 h3 => by simp only [h2]
  have e3 := hall (fun a => ∃ j, ∃ x ∈ s0.table.map (·.1), a.dztransform (s0.z j) (x : ℝ) ≠ s0.dztransform (s0.z j) (x : ℝ))
    fun a b h1 h2 h3 => by
      constructor
      · rintro ⟨j, x, hx, h⟩; exact ⟨j, x, hx, by rw [← h3 j x hx]; exact h⟩
      · rintro ⟨j, x, hx, h⟩; exact ⟨j, x, hx, by rw [h3 j x hx]; exact h⟩
  simp only at e1 e2 e3
  simp only [e1, e2, e3]

/-- C97 is violated: the redshifts of the averaged smearings are not compared: a smearing given at any other redshifts is averaged as
if it were given at those of the first. -/
theorem C97_redshifts_violated (spline : List (ℝ × ℝ) → ℝ → ℝ) (s0 s1 : Smear nz) (l : List (Smear nz))
    (w : Option (List (Fin nz → ℝ))) (z' : Fin nz → ℝ) :
    average spline (s0 :: s1 :: l) w = average spline (s0 :: { s1 with z := z' } :: l) w :=
  average_congr w (.cons ⟨rfl, rfl, fun _ _ _ => rfl⟩ (List.forall₂_same.2 fun _ _ => ⟨rfl, rfl, fun _ _ _ => rfl⟩))

/-- C97 is violated: output transforms are compared at the numbers of the table, before they are transformed to the support: another
output transform `f` which is the same at these numbers only is accepted, and not used. -/
theorem C97_transform_violated (spline : List (ℝ × ℝ) → ℝ → ℝ) (s0 s1 : Smear nz) (l : List (Smear nz))
    (w : Option (List (Fin nz → ℝ))) (f : ℝ → EReal → EReal)
    (hf : ∀ j, ∀ x ∈ s0.table.map (·.1), f (s0.z j) (x : ℝ) = s1.dztransform (s0.z j) (x : ℝ)) :
    average spline (s0 :: s1 :: l) w = average spline (s0 :: { s1 with dztransform := f } :: l) w :=
  average_congr w (.cons ⟨rfl, rfl, fun j x hx => (hf j x hx).symm⟩ (List.forall₂_same.2 fun _ _ => ⟨rfl, rfl, fun _ _ _ => rfl⟩))

/-! ### Examples -/

/-- There are splines as assumed. -/
theorem exists_through : ∃ cubic, Through cubic := by
  classical
  refine ⟨fun l u => if h : ∃ k : ℕ, k < l.length ∧ u = k / (l.length - 1) then l.getD h.choose 0 else 0, ?_⟩
  intro l hl k x hx
  have hk : k < l.length := (List.getElem?_eq_some_iff.1 hx).1
  have h : ∃ i : ℕ, i < l.length ∧ (k : ℝ) / (l.length - 1) = i / (l.length - 1) := ⟨k, hk, rfl⟩
  have hn : (l.length : ℝ) - 1 ≠ 0 := by
    have : (4 : ℝ) ≤ l.length := by exact_mod_cast hl
    linarith
  simp only
  rw [dif_pos h]
  have he := h.choose_spec.2
  rw [div_left_inj' hn] at he
  have he : k = h.choose := by exact_mod_cast he
  rw [← he, List.getD_eq_getElem?_getD, hx]
  rfl

/-- A smearing: six errors, three redshifts, the uniform distribution between 0 and 1 with its percent points as scale. -/
theorem exists_made (spline : List (ℝ × ℝ) → ℝ → ℝ) (f : ℝ → EReal → EReal) : ∃ s : Smear 3,
    rvs spline .infinite (fun x => x) (fun _ e => e.toReal) .ppf 6 (fun j => j) f = .ok s := by
  have hl : linspace 0 1 6 = [0, 1 / 5, 2 / 5, 3 / 5, 4 / 5, 1] := by
    norm_num [linspace, List.range_succ]
  obtain ⟨p, hp⟩ := setInterp_defined (spline := spline) (z := fun j : Fin 3 => (j : ℝ))
    (columns := fun _ => [((0 : ℝ), (0 : ℝ)), (1 / 5, 1 / 5), (2 / 5, 2 / 5), (3 / 5, 3 / 5), (4 / 5, 4 / 5), (1, 1)])
    (fun j => by
      unfold ppfColumn
      simp only [List.head?_cons, List.getLast?_cons_cons, List.getLast?_singleton]
      rw [if_pos (by norm_num [List.filter_cons])]
      exact ⟨_, rfl⟩)
    (by norm_num) (fun _ => by simp) (fun i j h => by exact_mod_cast h)
  unfold rvs
  simp only [rvsGrid, hl]
  have : SmearTable.column (List.zip [(0 : ℝ), 1 / 5, 2 / 5, 3 / 5, 4 / 5, 1]
      (([(0 : ℝ), 1 / 5, 2 / 5, 3 / 5, 4 / 5, 1].map fun x : ℝ => (x : EReal)).map fun x => fun _ : Fin 3 => x.toReal)) = fun _ =>
      [((0 : ℝ), (0 : ℝ)), (1 / 5, 1 / 5), (2 / 5, 2 / 5), (3 / 5, 3 / 5), (4 / 5, 4 / 5), (1, 1)] := by
    funext j
    simp only [SmearTable.column, List.map_cons, List.map_nil, List.zip_cons_cons, List.zip_nil_right, EReal.toReal_coe]
  rw [this, hp]
  exact ⟨_, rfl⟩

/-- Its median error at its second redshift. -/
example {spline : List (ℝ × ℝ) → ℝ → ℝ} (hs : Interpolates spline) {cubic : List ℝ → ℝ → ℝ} (hc : Through cubic) :
    ∃ s : Smear 3, Made spline s ∧ s.error cubic (2 / 5) 1 = ((2 / 5 : ℝ) : EReal) := by
  obtain ⟨s, h⟩ := exists_made spline fun _ x => x
  refine ⟨s, Or.inr (Or.inl ⟨_, _, _, _, _, _, _, h⟩), ?_⟩
  have := C96_ppf_scale hs hc (by simp) (by norm_num) h (j := 1) (fun x _ _ => EReal.toReal_coe x) (k := 2) (by norm_num)
  norm_num at this ⊢
  exact this

theorem averageCdf_same {t : SmearTable nz} : averageCdf [t, t] none = .ok t := by
  unfold averageCdf
  simp only [Option.getD_none, List.map_cons, List.map_nil, List.sum_cons, List.sum_nil]
  rw [if_neg (by simp), if_neg (by norm_num)]
  congr 1
  apply List.ext_getElem?
  intro k
  rw [List.zip, List.getElem?_zipWith, List.getElem?_map, List.getElem?_map]
  by_cases hk : k < t.length
  · rw [List.getElem?_range hk, List.getElem?_eq_getElem hk]
    simp only [Option.map_some, Option.some.injEq]
    refine Prod.ext rfl ?_
    funext z
    simp only [List.zipWith_cons_cons, List.zipWith_nil_left, List.getElem?_eq_getElem hk, Option.map_some, Option.getD_some,
      List.sum_cons, List.sum_nil]
    ring
  · rw [List.getElem?_eq_none (l := t) (by omega)]
    rfl

/-- Two equal smearings are averaged, also if the second is said to be given at other redshifts, or has another output transform which
agrees at numbers between 0 and 1. -/
example (spline : List (ℝ × ℝ) → ℝ → ℝ) (z' : Fin 3 → ℝ) : ∃ s0 s1 s : Smear 3, Made spline s0 ∧ s1.z = z' ∧
    s1.dztransform 0 2 ≠ s0.dztransform 0 2 ∧ average spline [s0, s1] none = .ok s := by
  obtain ⟨s, h⟩ := exists_made spline fun _ x => x
  have hm : Made spline s := Or.inr (Or.inl ⟨_, _, _, _, _, _, _, h⟩)
  have hst : s.table.map (·.1) = linspace 0 1 6 ∧ s.dztransform = fun _ x => x := by
    unfold rvs at h
    obtain ⟨p, hp, h⟩ := bind_ok' h
    cases h
    refine ⟨?_, rfl⟩
    simp only [rvsGrid]
    rw [List.map_fst_zip]
    simp
  have hset : setInterp spline s.z s.table.column = .ok s.ppf := by
    unfold rvs at h
    obtain ⟨p, hp, h⟩ := bind_ok' h
    cases h
    exact hp
  refine ⟨s, { s with z := z', dztransform := fun _ x => min x 1 }, s, hm, rfl, ?_, ?_⟩
  · rw [hst.2]
    simp only
    rw [min_eq_right (by exact_mod_cast (by norm_num : (1 : ℝ) ≤ 2))]
    exact_mod_cast (by norm_num : (1 : ℝ) ≠ 2)
  · have e1 := C97_transform_violated spline s s [] none (fun _ x => min x 1) (by
      intro j x hx
      rw [hst.2]
      rw [hst.1] at hx
      obtain ⟨k, hk⟩ := List.getElem?_of_mem hx
      have hk6 : k < 6 := by have := (List.getElem?_eq_some_iff.1 hk).1; rwa [linspace_length] at this
      rw [linspace_get _ _ _ _ hk6] at hk
      injection hk with hk
      have : (k : ℝ) ≤ 5 := by exact_mod_cast (by omega : k ≤ 5)
      have : x ≤ 1 := by rw [← hk]; norm_num; linarith
      exact min_eq_left (by exact_mod_cast this))
    have e2 := C97_redshifts_violated spline s { s with dztransform := fun _ x => min x 1 } [] none z'
    rw [← e2, ← e1]
    unfold average
    simp only [List.map_cons, List.map_nil, averageCdf_same]
    rw [if_neg (by simp), if_neg (by simp), if_neg (by simp)]
    show (setInterp spline s.z s.table.column >>= _) = _
    rw [hset]
    rfl

end Verif.Props.SmearSample
