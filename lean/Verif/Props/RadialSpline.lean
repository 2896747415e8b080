import Verif.Spec.Spline
import Mathlib.Tactic.FieldSimp

/-!
# C29: tabulated radial selection with splines of order at least two (the default is three)
-/

namespace Verif.Props
open Verif Verif.Model Verif.Spec

/-! ### The assumptions on splines can be met -/

theorem quadratic_unique {nodes : List (ℝ × ℝ)} (hn : 2 < nodes.length) (hp : (nodes.map fun p => p.1).Pairwise (· < ·))
    {a b c a' b' c' : ℝ} (h : ∀ p ∈ nodes, p.2 = a * p.1 ^ 2 + b * p.1 + c)
    (h' : ∀ p ∈ nodes, p.2 = a' * p.1 ^ 2 + b' * p.1 + c') : a = a' ∧ b = b' ∧ c = c' := by
  match nodes, hn, hp with
  | p :: q :: r :: l, _, hp =>
    simp only [List.map_cons, List.pairwise_cons, List.mem_cons, forall_eq_or_imp] at hp
    obtain ⟨⟨h1, h2, -⟩, ⟨h3, -⟩, -⟩ := hp
    have e1 := (h p (by simp)).symm.trans (h' p (by simp))
    have e2 := (h q (by simp)).symm.trans (h' q (by simp))
    have e3 := (h r (by simp)).symm.trans (h' r (by simp))
    have f1 : (p.1 - q.1) * ((a - a') * (p.1 + q.1) + (b - b')) = 0 := by linear_combination e1 - e2
    have f2 : (q.1 - r.1) * ((a - a') * (q.1 + r.1) + (b - b')) = 0 := by linear_combination e2 - e3
    have g1 : (a - a') * (p.1 + q.1) + (b - b') = 0 := by
      rcases mul_eq_zero.1 f1 with h | h
      · linarith
      · exact h
    have g2 : (a - a') * (q.1 + r.1) + (b - b') = 0 := by
      rcases mul_eq_zero.1 f2 with h | h
      · linarith
      · exact h
    have k : (p.1 - r.1) * (a - a') = 0 := by linear_combination g1 - g2
    have ha : a = a' := by
      rcases mul_eq_zero.1 k with h | h
      · linarith
      · linarith
    subst ha
    have hb : b = b' := by simp at g1; linarith
    subst hb
    refine ⟨rfl, rfl, by linarith⟩

/-- The coefficients of a polynomial of degree 2 through the nodes. -/
def OnQuadratic (nodes : List (ℝ × ℝ)) (q : ℝ × ℝ × ℝ) : Prop := ∀ p ∈ nodes, p.2 = q.1 * p.1 ^ 2 + q.2.1 * p.1 + q.2.2

/-- Strictly between (or at) the first and last node. -/
def InNodes (nodes : List (ℝ × ℝ)) (z : ℝ) : Prop := ∃ a ∈ nodes.head?, ∃ b ∈ nodes.getLast?, a.1 ≤ z ∧ z ≤ b.1

theorem fst_mono {nodes : List (ℝ × ℝ)} (hp : (nodes.map fun p => p.1).Pairwise (· < ·)) {p : ℝ × ℝ} (h : p ∈ nodes) :
    InNodes nodes p.1 := by
  match nodes, h with
  | a :: l, h =>
    obtain ⟨b, hb⟩ : ∃ b, (a :: l).getLast? = some b := ⟨_, List.getLast?_eq_some_getLast (by simp)⟩
    refine ⟨a, by simp, b, hb, ?_, ?_⟩
    · simp only [List.map_cons, List.pairwise_cons, List.mem_map, forall_exists_index, and_imp, forall_apply_eq_imp_iff₂] at hp
      rcases List.mem_cons.1 h with rfl | h
      · exact le_rfl
      · exact (hp.1 p h).le
    · rw [List.getLast?_eq_some_iff] at hb
      obtain ⟨ys, hys⟩ := hb
      rw [hys] at h hp
      rw [List.map_append, List.pairwise_append] at hp
      rcases List.mem_append.1 h with h | h
      · exact (hp.2.2 p.1 (List.mem_map.2 ⟨p, h, rfl⟩) b.1 (by simp)).le
      · rw [List.mem_singleton.1 h]

theorem fst_inj {nodes : List (ℝ × ℝ)} (hp : (nodes.map fun p => p.1).Pairwise (· < ·)) {p q : ℝ × ℝ} (h : p ∈ nodes)
    (h' : q ∈ nodes) (he : p.1 = q.1) : p = q := by
  have hnd : (nodes.map fun p => p.1).Nodup := hp.imp fun h => h.ne
  exact List.inj_on_of_nodup_map hnd h h' he

/-- Some functions satisfy the assumptions on splines. -/
theorem splineOk_exists : ∃ S, SplineOk S := by
  classical
  let quad (nodes : List (ℝ × ℝ)) : Option (ℝ × ℝ × ℝ) :=
    if h : ∃ q, OnQuadratic nodes q then some h.choose else none
  let value (k : ℕ) (nodes : List (ℝ × ℝ)) (z : ℝ) : ℝ :=
    if InNodes nodes z then
      if h : ∃ p ∈ nodes, p.1 = z then h.choose.2
      else match quad nodes with
        | some q => q.1 * z ^ 2 + q.2.1 * z + q.2.2
        | none => 0
    else 0
  let d1 (k : ℕ) (nodes : List (ℝ × ℝ)) (z : ℝ) : ℝ :=
    if InNodes nodes z then
      match quad nodes with
        | some q => 2 * q.1 * z + q.2.1
        | none => 0
    else 0
  let d2 (k : ℕ) (nodes : List (ℝ × ℝ)) (z : ℝ) : ℝ :=
    if InNodes nodes z then
      match quad nodes with
        | some q => 2 * q.1
        | none => 0
    else 0
  have hthrough : ∀ {k nodes}, Spline.Accepted k nodes → ∀ p ∈ nodes, value k nodes p.1 = p.2 := by
    intro k nodes hacc p hp
    have h1 := fst_mono hacc.2.2 hp
    have h2 : ∃ q ∈ nodes, q.1 = p.1 := ⟨p, hp, rfl⟩
    simp only [value, if_pos h1, dif_pos h2]
    rw [fst_inj hacc.2.2 h2.choose_spec.1 hp h2.choose_spec.2]
  refine ⟨⟨value, d1, d2⟩, hthrough, ?_, ?_⟩
  · intro k nodes hacc a ha b hb z hz
    have : ¬ InNodes nodes z := by
      rintro ⟨a', ha', b', hb', h1, h2⟩
      rw [Option.mem_unique ha' ha] at h1
      rw [Option.mem_unique hb' hb] at h2
      rcases hz with hz | hz <;> linarith
    simp only [value, d1, d2, if_neg this, and_self]
  · intro k nodes hacc hk c2 c1 c0 hq a ha b hb z h1 h2
    have hin : InNodes nodes z := ⟨a, ha, b, hb, h1, h2⟩
    have hex : ∃ q, OnQuadratic nodes q := ⟨(c2, c1, c0), hq⟩
    have hquad : quad nodes = some (c2, c1, c0) := by
      have := hex.choose_spec
      obtain ⟨e1, e2, e3⟩ := quadratic_unique (by have := hacc.2.1; omega) hacc.2.2 this hq
      simp only [quad, dif_pos hex, Option.some.injEq]
      ext
      · exact e1
      · exact e2
      · exact e3
    refine ⟨?_, ?_, ?_⟩
    · simp only [value, if_pos hin, hquad]
      split
      · rename_i h
        have := hq _ h.choose_spec.1
        rw [this, h.choose_spec.2]
      · rfl
    · simp only [d1, if_pos hin, hquad]
    · simp only [d2, if_pos hin, hquad]

/-! ### Probabilities -/

/-- Ends of the fine grid. -/
theorem fineGrid_spec {k : ℕ} {nodes : List (ℝ × ℝ)} {a b : ℝ × ℝ} (ha : nodes.head? = some a) (hb : nodes.getLast? = some b)
    (hab : a.1 ≤ b.1) (hN : 2 ≤ nodes.length * k) :
    (Spline.fineGrid k nodes).head? = some a.1 ∧ b.1 ∈ Spline.fineGrid k nodes ∧
      ∀ z ∈ Spline.fineGrid k nodes, a.1 ≤ z ∧ z ≤ b.1 := by
  unfold Spline.fineGrid
  rw [ha, hb]
  generalize nodes.length * k = N at hN
  have hN1 : (0 : ℝ) < (N : ℝ) - 1 := by
    have : (2 : ℝ) ≤ N := by exact_mod_cast hN
    linarith
  refine ⟨?_, ?_, ?_⟩
  · obtain ⟨n, rfl⟩ : ∃ n, N = n + 1 := ⟨N - 1, by omega⟩
    simp [List.range_succ_eq_map]
  · refine List.mem_map.2 ⟨N - 1, by simp; omega, ?_⟩
    rw [Nat.cast_sub (by omega)]
    push_cast
    field_simp
    ring
  · intro z hz
    obtain ⟨i, hi, rfl⟩ := List.mem_map.1 hz
    have hi' : (i : ℝ) ≤ (N : ℝ) - 1 := by
      have := List.mem_range.1 hi
      have : i + 1 ≤ N := this
      have : ((i + 1 : ℕ) : ℝ) ≤ N := by exact_mod_cast this
      push_cast at this; linarith
    have h0 : 0 ≤ (b.1 - a.1) * i / ((N : ℝ) - 1) := by
      have : 0 ≤ b.1 - a.1 := by linarith
      positivity
    have h1 : (b.1 - a.1) * i / ((N : ℝ) - 1) ≤ b.1 - a.1 := by
      rw [div_le_iff₀ hN1]
      exact mul_le_mul_of_nonneg_left hi' (by linarith)
    exact ⟨by linarith, by linarith⟩

theorem accepted_map {k : ℕ} {nodes : List (ℝ × ℝ)} (h : Spline.Accepted k nodes) (f : ℝ × ℝ → ℝ) :
    Spline.Accepted k (nodes.map fun p => (p.1, f p)) := by
  obtain ⟨h1, h2, h3⟩ := h
  exact ⟨h1, by simpa using h2, by simpa [List.map_map, Function.comp_def] using h3⟩

theorem splineInit_ok {S : Spline} {order : ℕ} {nodes : List (ℝ × ℝ)} {zrange : Option Model.Range} {norm : Option ℝ} {t : SplineMask}
    (h : SplineMask.Init S order nodes zrange norm (.ok t)) : Spline.Accepted order nodes ∧ (∀ p ∈ nodes, 0 ≤ p.2) ∧
      ∃ a b, nodes.head? = some a ∧ nodes.getLast? = some b ∧ a.1 ≤ t.zrange.1 ∧ t.zrange.2 ≤ b.1 ∧
        t.order = order ∧ t.nodes = nodes ∧ t.zrange = zrange.getD (a.1, b.1) ∧
        ((∃ c, norm = some c ∧ t.norm = c) ∨ (norm = none ∧ S.DefaultNorm order nodes t.zrange (.ok t.norm))) := by
  unfold SplineMask.Init at h
  split at h
  · cases h
  · rename_i hneg
    split at h
    · rename_i a b ha hb
      split at h
      · rename_i hr
        unfold SplineMask.Prepare at h
        split at h
        · rename_i hacc
          refine ⟨hacc, fun p hp => le_of_not_gt fun hlt => hneg ⟨p, hp, hlt⟩, a, b, ha, hb, ?_⟩
          cases norm with
          | some c =>
            simp only [Except.ok.injEq] at h
            subst h
            exact ⟨hr.1, hr.2, rfl, rfl, rfl, Or.inl ⟨c, rfl, rfl⟩⟩
          | none =>
            obtain ⟨n, h1, h2⟩ := h
            cases n with
            | error e => simp [Except.map] at h2
            | ok c =>
              simp only [Except.map, Except.ok.injEq] at h2
              subst h2
              exact ⟨hr.1, hr.2, rfl, rfl, rfl, Or.inr ⟨rfl, h1⟩⟩
        · cases h
      · cases h
    · cases h

/-- C29: a mask of any interpolation order at least 2, once built, selects with probability `min(norm * nbar, 1)` at each node
of the requested range, and nothing outside of this range; without `norm`, the norm is positive and `norm` times the spline
through `nbar` is at most 1 on the fine grid, `order` times as many points as nodes, and `norm * nbar` at most 1 at both ends
of the table. -/
theorem C29_spline_partial {S : Spline} (hS : SplineOk S) {order : ℕ} {nodes : List (ℝ × ℝ)} {zrange : Option Model.Range}
    {norm : Option ℝ} {t : SplineMask} (h : SplineMask.Init S order nodes zrange norm (.ok t)) :
    (∀ z, ¬ (t.zrange.1 ≤ z ∧ z ≤ t.zrange.2) → t.prob S z = 0) ∧
    (∀ p ∈ nodes, t.zrange.1 ≤ p.1 → p.1 ≤ t.zrange.2 → t.prob S p.1 = min (t.norm * p.2) 1) ∧
    (∀ c, norm = some c → t.norm = c) ∧
    (norm = none → 0 < t.norm ∧ (∀ z ∈ Spline.fineGrid order nodes, t.norm * S.value order nodes z ≤ 1) ∧
      (∀ a ∈ nodes.head?, t.norm * a.2 ≤ 1) ∧ ∀ b ∈ nodes.getLast?, t.norm * b.2 ≤ 1) := by
  obtain ⟨hacc, hpos, a, b, ha, hb, h1, h2, h3, h4, h5, h6⟩ := splineInit_ok h
  refine ⟨fun z hz => ?_, fun p hp hl hu => ?_, ?_, ?_⟩
  · simp only [SplineMask.prob, if_neg hz]
  · simp only [SplineMask.prob, if_pos (And.intro hl hu), h3, h4]
    exact hS.through (accepted_map hacc _) (p.1, min (t.norm * p.2) 1) (List.mem_map.2 ⟨p, hp, rfl⟩)
  · rintro c rfl
    rcases h6 with ⟨c', h7, h8⟩ | ⟨h7, -⟩
    · cases h7; exact h8
    · cases h7
  · rintro rfl
    rcases h6 with ⟨c', h7, -⟩ | ⟨-, x0, hx, m, -, hm⟩
    · cases h7
    · split at hm
      · cases hm
      · rename_i hz
        split at hm
        · cases hm
        · rename_i h0
          simp only [Except.ok.injEq] at hm
          have ham : a ∈ nodes := List.mem_of_mem_head? ha
          have hbm : b ∈ nodes := List.mem_of_mem_getLast? hb
          have hab : a.1 ≤ b.1 := by
            obtain ⟨a', ha', b', hb', h1, -⟩ := fst_mono hacc.2.2 hbm
            rw [Option.mem_unique ha' ha] at h1; exact h1
          have hN : 2 ≤ nodes.length * order := by
            have h3 := hacc.2.1
            have h4 := hacc.1.1
            calc 2 ≤ 2 * 1 := by norm_num
              _ ≤ nodes.length * order := Nat.mul_le_mul (by omega) h4
          obtain ⟨g1, g2, -⟩ := fineGrid_spec ha hb hab hN
          have hle : ∀ z ∈ Spline.fineGrid order nodes, S.value order nodes z ≤ m :=
            fun z hzm => le_of_not_gt fun hlt => hz ⟨z, hzm, hlt⟩
          have hva := hle _ (List.mem_of_mem_head? g1)
          have hvb := hle _ g2
          rw [hS.through hacc a ham] at hva
          rw [hS.through hacc b hbm] at hvb
          have hm0 : 0 < m := lt_of_le_of_ne ((hpos a ham).trans hva) (Ne.symm h0)
          rw [hm]
          refine ⟨one_div_pos.2 hm0, fun z hzm => ?_, fun a' ha' => ?_, fun b' hb' => ?_⟩
          · rw [one_div, inv_mul_le_iff₀ hm0, mul_one]
            exact hle z hzm
          · rw [Option.mem_unique ha' ha, one_div, inv_mul_le_iff₀ hm0, mul_one]
            exact hva
          · rw [Option.mem_unique hb' hb, one_div, inv_mul_le_iff₀ hm0, mul_one]
            exact hvb

/-! ### The search of the maximum -/

theorem loop_nan {S : Spline} {k : ℕ} {nodes : List (ℝ × ℝ)} {prec : ℝ} {x y r : Option ℝ}
    (h : S.Loop k nodes prec x y r) : y ≠ none := by
  induction h with
  | stop hc =>
    obtain ⟨a, b, -, rfl, -⟩ := hc
    simp
  | next _ hs _ ih =>
    intro h0
    subst h0
    exact ih hs

/-- The result of the search is a number at which the criterion held. -/
theorem argmax_spec (f : ℝ → ℝ) {l : List ℝ} {x : ℝ} (h : Spline.argmax f l = some x) : x ∈ l ∧ ∀ y ∈ l, f y ≤ f x := by
  induction l generalizing x with
  | nil => simp [Spline.argmax] at h
  | cons a l ih =>
    rw [Spline.argmax] at h
    split at h
    · rename_i hn
      cases h
      have : l = [] := by
        cases l with
        | nil => rfl
        | cons b l =>
          rw [Spline.argmax] at hn
          split at hn
          · cases hn
          · split at hn <;> cases hn
      subst this
      simp
    · rename_i b hb
      obtain ⟨h1, h2⟩ := ih hb
      split at h
      · rename_i hlt
        cases h
        refine ⟨by simp [h1], fun y hy => ?_⟩
        rcases List.mem_cons.1 hy with rfl | hy
        · exact hlt.le
        · exact h2 y hy
      · rename_i hlt
        cases h
        refine ⟨by simp, fun y hy => ?_⟩
        rcases List.mem_cons.1 hy with rfl | hy
        · exact le_rfl
        · exact (h2 y hy).trans (not_lt.1 hlt)

theorem minOn_ge {f : ℝ → ℝ} {l : List ℝ} {m : ℝ} (hl : l ≠ []) (h : ∀ x ∈ l, m ≤ f x) : m ≤ Spline.minOn f l := by
  cases l with
  | nil => exact absurd rfl hl
  | cons a l =>
    rw [Spline.minOn]
    have : ∀ (l : List ℝ) (c : ℝ), m ≤ c → (∀ x ∈ l, m ≤ f x) → m ≤ l.foldl (fun m x => min m (f x)) c := by
      intro l
      induction l with
      | nil => intro c hc _; simpa using hc
      | cons b l ih =>
        intro c hc hb
        rw [List.foldl_cons]
        exact ih _ (le_min hc (hb b (by simp))) fun x hx => hb x (by simp [hx])
    exact this l _ (h a (by simp)) fun x hx => h x (by simp [hx])

/-- C29 fails for tables on a parabola whose vertex is outside of the table, without `norm`, for any interpolation order at
least 2 (the default included): unless the parabola takes its maximum over the table, up to a millionth of its amplitude, at the
point `w` of the redshift range nearest to the vertex, or almost vanishes there, the search of the maximum leaves the table,
divides zero by zero, and `TabulatedRadialMask(z, nbar, zrange)` never returns, nor raises. -/
theorem C29_spline_hang_violated {S : Spline} (hS : SplineOk S) {order : ℕ} (ho : 2 ≤ order) {nodes : List (ℝ × ℝ)}
    (hacc : Spline.Accepted order nodes) {c2 c1 c0 v : ℝ} (h2 : c2 ≠ 0) {a b : ℝ × ℝ} (ha : nodes.head? = some a)
    (hb : nodes.getLast? = some b) (hq : ∀ p ∈ nodes, p.2 = c2 * p.1 ^ 2 + c1 * p.1 + c0) (hpos : ∀ p ∈ nodes, 0 ≤ p.2)
    (hvc : 2 * c2 * v + c1 = 0) (hv : v < a.1 ∨ b.1 < v) {zrange : Option Model.Range} {l u w : ℝ}
    (hlu : zrange.getD (a.1, b.1) = (l, u)) (hla : a.1 ≤ l) (hl : l ≤ u) (hub : u ≤ b.1) (hw : w = min (max v l) u)
    (hmax : |b.2 - a.2| / 10 ^ 6 ≤ max a.2 b.2 - (c2 * w ^ 2 + c1 * w + c0))
    (hzero : |b.2 - a.2| / 10 ^ 6 ≤ c2 * w ^ 2 + c1 * w + c0)
    (hclose : 1 / 10 ^ 8 + 1 / 10 ^ 5 * |a.2| < |b.2 - a.2|) :
    ¬ ∃ result, SplineMask.Init S order nodes zrange none result := by
  have ham : a ∈ nodes := List.mem_of_mem_head? ha
  have hbm : b ∈ nodes := List.mem_of_mem_getLast? hb
  have hab : a.1 ≤ b.1 := hla.trans (hl.trans hub)
  have hN : 2 ≤ nodes.length * order := by
    have h3 := hacc.2.1
    calc 2 ≤ 2 * 2 := by norm_num
      _ ≤ nodes.length * order := Nat.mul_le_mul (by omega) ho
  obtain ⟨g1, g2, g3⟩ := fineGrid_spec ha hb hab hN
  have g4 : a.1 ∈ Spline.fineGrid order nodes := List.mem_of_mem_head? g1
  set f : ℝ → ℝ := fun z => c2 * z ^ 2 + c1 * z + c0 with hf
  have hfa : f a.1 = a.2 := (hq a ham).symm
  have hfb : f b.1 = b.2 := (hq b hbm).symm
  have hin : ∀ z, a.1 ≤ z → z ≤ b.1 → S.value order nodes z = f z ∧ S.d1 order nodes z = 2 * c2 * z + c1 ∧
      S.d2 order nodes z = 2 * c2 := fun z h1 h3 => hS.quadratic hacc ho c2 c1 c0 hq a ha b hb z h1 h3
  have hout := hS.outside hacc a ha b hb v hv
  have hbetween : ∀ x, a.1 ≤ x → x ≤ b.1 → min a.2 b.2 ≤ f x ∧ f x ≤ max a.2 b.2 := by
    intro x hx1 hx2
    have e1 : f x - a.2 = c2 * ((x - a.1) * ((x - v) + (a.1 - v))) := by rw [← hfa]; simp only [hf]; linear_combination (x - a.1) * hvc
    have e2 : b.2 - f x = c2 * ((b.1 - x) * ((x - v) + (b.1 - v))) := by rw [← hfb]; simp only [hf]; linear_combination (b.1 - x) * hvc
    rcases hv with hv | hv
    · have p1 : 0 ≤ (x - a.1) * ((x - v) + (a.1 - v)) := mul_nonneg (by linarith) (by linarith)
      have p2 : 0 ≤ (b.1 - x) * ((x - v) + (b.1 - v)) := mul_nonneg (by linarith) (by linarith)
      rcases le_total 0 c2 with hc | hc
      · have q1 := mul_nonneg hc p1
        have q2 := mul_nonneg hc p2
        exact ⟨(min_le_left _ _).trans (by linarith), le_max_of_le_right (by linarith)⟩
      · have q1 := mul_nonpos_of_nonpos_of_nonneg hc p1
        have q2 := mul_nonpos_of_nonpos_of_nonneg hc p2
        exact ⟨(min_le_right _ _).trans (by linarith), le_max_of_le_left (by linarith)⟩
    · have p1 : (x - a.1) * ((x - v) + (a.1 - v)) ≤ 0 := mul_nonpos_of_nonneg_of_nonpos (by linarith) (by linarith)
      have p2 : (b.1 - x) * ((x - v) + (b.1 - v)) ≤ 0 := mul_nonpos_of_nonneg_of_nonpos (by linarith) (by linarith)
      rcases le_total 0 c2 with hc | hc
      · have q1 := mul_nonpos_of_nonneg_of_nonpos hc p1
        have q2 := mul_nonpos_of_nonneg_of_nonpos hc p2
        exact ⟨(min_le_right _ _).trans (by linarith), le_max_of_le_left (by linarith)⟩
      · have q1 := mul_nonneg_of_nonpos_of_nonpos hc p1
        have q2 := mul_nonneg_of_nonpos_of_nonpos hc p2
        exact ⟨(min_le_left _ _).trans (by linarith), le_max_of_le_right (by linarith)⟩
  have hamp : max a.2 b.2 - min a.2 b.2 = |b.2 - a.2| := by rw [max_sub_min_eq_abs, abs_sub_comm]
  rintro ⟨result, h⟩
  unfold SplineMask.Init at h
  have hneg : ¬ ∃ p ∈ nodes, p.2 < 0 := by
    rintro ⟨p, hp, hlt⟩
    exact absurd (hpos p hp) (not_le.2 hlt)
  rw [if_neg hneg, ha, hb] at h
  simp only [hlu] at h
  rw [if_pos ⟨hla, hub⟩] at h
  unfold SplineMask.Prepare at h
  rw [if_pos hacc] at h
  obtain ⟨n, ⟨x0, hx0, m, hm, -⟩, -⟩ := h
  obtain ⟨hx0m, hx0max⟩ := argmax_spec _ hx0
  obtain ⟨x0a, x0b⟩ := g3 x0 hx0m
  have hfx0 : f x0 = max a.2 b.2 := by
    have e1 := hx0max _ g4
    have e2 := hx0max _ g2
    rw [(hin x0 x0a x0b).1, (hin a.1 le_rfl hab).1, hfa] at e1
    rw [(hin x0 x0a x0b).1, (hin b.1 hab le_rfl).1, hfb] at e2
    exact le_antisymm (hbetween x0 x0a x0b).2 (max_le e1 e2)
  have hnc : ¬ Spline.AllClose (S.value order nodes) (Spline.fineGrid order nodes) := by
    intro hcl
    have := hcl a.1 g1 b.1 g2
    rw [(hin b.1 hab le_rfl).1, (hin a.1 le_rfl hab).1, hfa, hfb] at this
    linarith
  rw [if_neg hnc] at hm
  obtain ⟨r, ⟨y, hy, hloop⟩, -⟩ := hm
  have hmin : min a.2 b.2 ≤ Spline.minOn (S.value order nodes) (Spline.fineGrid order nodes) := by
    refine minOn_ge (fun h0 => ?_) fun x hx => ?_
    · rw [h0] at g2; simp at g2
    · obtain ⟨h5, h6⟩ := g3 x hx
      rw [(hin x h5 h6).1]
      exact (hbetween x h5 h6).1
  set prec := 1 / 10 ^ 6 * (S.value order nodes x0 - Spline.minOn (S.value order nodes) (Spline.fineGrid order nodes)) with hprec
  have hprec' : prec ≤ |b.2 - a.2| / 10 ^ 6 := by
    rw [hprec, (hin x0 x0a x0b).1, hfx0]
    generalize Spline.minOn (S.value order nodes) (Spline.fineGrid order nodes) = q at hmin
    rw [← hamp]
    norm_num
    linarith
  have h20 : (2 : ℝ) * c2 ≠ 0 := mul_ne_zero two_ne_zero h2
  have hstep : ∀ z, a.1 ≤ z → z ≤ b.1 → ∀ x, S.Step order nodes (some z) x → x = some v := by
    intro z h5 h6 x hx
    simp only [Spline.Step] at hx
    rw [(hin z h5 h6).2.2, (hin z h5 h6).2.1, if_pos h20] at hx
    rw [hx]
    congr 1
    rw [sub_eq_iff_eq_add, ← sub_eq_iff_eq_add', eq_div_iff h20]
    linear_combination - hvc
  have hy' := hstep x0 x0a x0b y hy
  subst hy'
  have hclip : Spline.clip (l, u) (some v) = some w := by simp only [Spline.clip, Option.map_some, hw]
  have hwl : l ≤ w := by rw [hw]; exact le_min (le_max_right _ _) hl
  have hwu : w ≤ u := by rw [hw]; exact min_le_right _ _
  rw [hclip] at hloop
  cases hloop with
  | stop hc =>
    obtain ⟨x, x', e1, e2, hc⟩ := hc
    cases e1; cases e2
    rw [(hin w (hla.trans hwl) (hwu.trans hub)).1, (hin x0 x0a x0b).1, hfx0, abs_sub_comm] at hc
    have := (le_abs_self _).trans_lt hc
    linarith
  | next _ hs hloop =>
    have e := hstep w (hla.trans hwl) (hwu.trans hub) _ hs
    subst e
    cases hloop with
    | stop hc =>
      obtain ⟨x, x', e1, e2, hc⟩ := hc
      cases e1; cases e2
      rw [hout.1, (hin w (hla.trans hwl) (hwu.trans hub)).1, zero_sub, abs_neg] at hc
      have := (le_abs_self _).trans_lt hc
      linarith
    | next _ hs hloop =>
      simp only [Spline.Step] at hs
      rw [hout.2.2, hout.2.1] at hs
      simp only [ne_eq, not_true_eq_false, if_false, if_true] at hs
      exact loop_nan hloop hs

/-- The table z = 1, 2, 3, 4 with nbar = z², and default arguments. -/
example {S : Spline} (hS : SplineOk S) :
    ¬ ∃ result, SplineMask.Init S 3 [(1, 1), (2, 4), (3, 9), (4, 16)] none none result := by
  refine C29_spline_hang_violated hS (by norm_num) (c2 := 1) (c1 := 0) (c0 := 0) (v := 0) (a := (1, 1)) (b := (4, 16))
    ⟨by norm_num, by simp, ?_⟩ (by norm_num) rfl rfl ?_ ?_ (by norm_num) (by norm_num) (l := 1) (u := 4) (w := 1) rfl
    (by norm_num) (by norm_num) (by norm_num) (by norm_num) (by norm_num) (by norm_num) (by norm_num)
  · norm_num
  · intro p hp
    simp only [List.mem_cons, List.not_mem_nil, or_false] at hp
    rcases hp with rfl | rfl | rfl | rfl <;> norm_num
  · intro p hp
    simp only [List.mem_cons, List.not_mem_nil, or_false] at hp
    rcases hp with rfl | rfl | rfl | rfl <;> norm_num

/-- The table z = 1, 2, 3, 4 with nbar = 25 - (z - 5)², and a range that ends before the table. -/
example {S : Spline} (hS : SplineOk S) :
    ¬ ∃ result, SplineMask.Init S 2 [(1, 9), (2, 16), (3, 21), (4, 24)] (some (1, 3)) none result := by
  refine C29_spline_hang_violated hS (by norm_num) (c2 := -1) (c1 := 10) (c0 := 0) (v := 5) (a := (1, 9)) (b := (4, 24))
    ⟨by norm_num, by simp, ?_⟩ (by norm_num) rfl rfl ?_ ?_ (by norm_num) (by norm_num) (l := 1) (u := 3) (w := 3) rfl
    (by norm_num) (by norm_num) (by norm_num) (by norm_num) (by norm_num) (by norm_num) (by norm_num)
  · norm_num
  · intro p hp
    simp only [List.mem_cons, List.not_mem_nil, or_false] at hp
    rcases hp with rfl | rfl | rfl | rfl <;> norm_num
  · intro p hp
    simp only [List.mem_cons, List.not_mem_nil, or_false] at hp
    rcases hp with rfl | rfl | rfl | rfl <;> norm_num

theorem minOn_le {f : ℝ → ℝ} {l : List ℝ} {x : ℝ} (hx : x ∈ l) : Spline.minOn f l ≤ f x := by
  have key : ∀ (l : List ℝ) (c : ℝ), l.foldl (fun m x => min m (f x)) c ≤ c ∧
      ∀ x ∈ l, l.foldl (fun m x => min m (f x)) c ≤ f x := by
    intro l
    induction l with
    | nil => intro c; simp
    | cons b l ih =>
      intro c
      rw [List.foldl_cons]
      obtain ⟨h1, h2⟩ := ih (min c (f b))
      refine ⟨h1.trans (min_le_left _ _), fun x hx => ?_⟩
      rcases List.mem_cons.1 hx with rfl | hx
      · exact h1.trans (min_le_right _ _)
      · exact h2 x hx
  cases l with
  | nil => simp at hx
  | cons a l =>
    rw [Spline.minOn]
    obtain ⟨h1, h2⟩ := key l (f a)
    rcases List.mem_cons.1 hx with rfl | hx
    · exact h1
    · exact h2 x hx

theorem argmax_some (f : ℝ → ℝ) {l : List ℝ} (h : l ≠ []) : ∃ x, Spline.argmax f l = some x := by
  cases l with
  | nil => exact absurd rfl h
  | cons a l =>
    rw [Spline.argmax]
    split
    · exact ⟨_, rfl⟩
    · split <;> exact ⟨_, rfl⟩

/-- C29: a table on a concave parabola whose ends differ is accepted, with default `norm` and range and any interpolation order
at least 2; the only possible result is a mask whose `norm` is positive and such that `norm` times the density is at most
`1 + 10⁻⁶` everywhere in the table, the probability 1 being reached up to this precision. -/
theorem C29_spline_concave {S : Spline} (hS : SplineOk S) {order : ℕ} (ho : 2 ≤ order) {nodes : List (ℝ × ℝ)}
    (hacc : Spline.Accepted order nodes) {c2 c1 c0 : ℝ} (h2 : c2 < 0) {a b : ℝ × ℝ} (ha : nodes.head? = some a)
    (hb : nodes.getLast? = some b) (hq : ∀ p ∈ nodes, p.2 = c2 * p.1 ^ 2 + c1 * p.1 + c0) (hpos : ∀ p ∈ nodes, 0 ≤ p.2)
    (hclose : 1 / 10 ^ 8 + 1 / 10 ^ 5 * |a.2| < |b.2 - a.2|) :
    (∃ t, SplineMask.Init S order nodes none none (.ok t)) ∧
    ∀ result, SplineMask.Init S order nodes none none result → ∃ t, result = .ok t ∧ 0 < t.norm ∧ t.zrange = (a.1, b.1) ∧
      (∀ z, a.1 ≤ z → z ≤ b.1 → t.norm * (c2 * z ^ 2 + c1 * z + c0) ≤ 1 + 1 / 10 ^ 6) ∧
      (∃ z, a.1 ≤ z ∧ z ≤ b.1 ∧ t.norm * (c2 * z ^ 2 + c1 * z + c0) = 1) := by
  have ham : a ∈ nodes := List.mem_of_mem_head? ha
  have hbm : b ∈ nodes := List.mem_of_mem_getLast? hb
  have hab : a.1 ≤ b.1 := by
    obtain ⟨a', ha', b', hb', h1, -⟩ := fst_mono hacc.2.2 hbm
    rw [Option.mem_unique ha' ha] at h1; exact h1
  have hN : 2 ≤ nodes.length * order := by
    have h3 := hacc.2.1
    calc 2 ≤ 2 * 2 := by norm_num
      _ ≤ nodes.length * order := Nat.mul_le_mul (by omega) ho
  obtain ⟨g1, g2, g3⟩ := fineGrid_spec ha hb hab hN
  have g4 : a.1 ∈ Spline.fineGrid order nodes := List.mem_of_mem_head? g1
  set f : ℝ → ℝ := fun z => c2 * z ^ 2 + c1 * z + c0 with hf
  have hfa : f a.1 = a.2 := (hq a ham).symm
  have hfb : f b.1 = b.2 := (hq b hbm).symm
  have hin : ∀ z, a.1 ≤ z → z ≤ b.1 → S.value order nodes z = f z ∧ S.d1 order nodes z = 2 * c2 * z + c1 ∧
      S.d2 order nodes z = 2 * c2 := fun z h1 h3 => hS.quadratic hacc ho c2 c1 c0 hq a ha b hb z h1 h3
  have hnc : ¬ Spline.AllClose (S.value order nodes) (Spline.fineGrid order nodes) := by
    intro hcl
    have := hcl a.1 g1 b.1 g2
    rw [(hin b.1 hab le_rfl).1, (hin a.1 le_rfl hab).1, hfa, hfb] at this
    linarith
  have hne : b.2 ≠ a.2 := by
    intro h
    rw [h, sub_self, abs_zero] at hclose
    have := abs_nonneg a.2
    linarith
  obtain ⟨x0, hx0⟩ := argmax_some (S.value order nodes) (l := Spline.fineGrid order nodes) (by intro h; rw [h] at g2; simp at g2)
  obtain ⟨hx0m, hx0max⟩ := argmax_spec _ hx0
  obtain ⟨x0a, x0b⟩ := g3 x0 hx0m
  have hmax : ∀ y ∈ Spline.fineGrid order nodes, f y ≤ f x0 := by
    intro y hy
    have := hx0max y hy
    rwa [(hin x0 x0a x0b).1, (hin y (g3 y hy).1 (g3 y hy).2).1] at this
  have h2n : c2 ≠ 0 := h2.ne
  have h20 : (2 : ℝ) * c2 ≠ 0 := by
    have := h2.ne
    simpa using this
  set v := -c1 / (2 * c2) with hv
  have hvc : c1 = -(2 * c2 * v) := by rw [hv]; field_simp
  have hfv : ∀ y w, f y - f w = c2 * ((y - v) ^ 2 - (w - v) ^ 2) := by
    intro y w; simp only [hf]; rw [hvc]; ring
  set w := min (max v a.1) b.1 with hw
  have hwa : a.1 ≤ w := le_min (le_max_right _ _) hab
  have hwb : w ≤ b.1 := min_le_right _ _
  have hwmax : ∀ y, a.1 ≤ y → y ≤ b.1 → f y ≤ f w := by
    intro y hy1 hy2
    have h5 : (w - v) ^ 2 ≤ (y - v) ^ 2 := by
      rcases le_total v a.1 with h | h
      · have : w = a.1 := by rw [hw, max_eq_right h, min_eq_left hab]
        rw [this]; nlinarith
      · rcases le_total v b.1 with h' | h'
        · have : w = v := by rw [hw, max_eq_left h, min_eq_left h']
          rw [this]; nlinarith [sq_nonneg (y - v)]
        · have : w = b.1 := by rw [hw, max_eq_left h, min_eq_right h']
          rw [this]; nlinarith
    have h6 := hfv y w
    nlinarith
  have hwv : f x0 < f w → w = v := by
    intro hlt
    rcases le_total v a.1 with h | h
    · have : w = a.1 := by rw [hw, max_eq_right h, min_eq_left hab]
      rw [this] at hlt
      exact absurd (hmax _ g4) (not_le.2 hlt)
    · rcases le_total v b.1 with h' | h'
      · rw [hw, max_eq_left h, min_eq_left h']
      · have : w = b.1 := by rw [hw, max_eq_left h, min_eq_right h']
        rw [this] at hlt
        exact absurd (hmax _ g2) (not_le.2 hlt)
  have hfx0 : 0 < f x0 := by
    have e1 := hmax _ g4
    have e2 := hmax _ g2
    rw [hfa] at e1
    rw [hfb] at e2
    have := hpos a ham
    have := hpos b hbm
    rcases lt_or_gt_of_ne hne with h | h <;> linarith
  have hmin0 : 0 ≤ Spline.minOn (S.value order nodes) (Spline.fineGrid order nodes) := by
    refine minOn_ge (fun h0 => ?_) fun x hx => ?_
    · rw [h0] at g2; simp at g2
    · obtain ⟨h5, h6⟩ := g3 x hx
      rw [(hin x h5 h6).1]
      -- concave: above the chord
      have h7 : (b.1 - a.1) * f x = (b.1 - x) * a.2 + (x - a.1) * b.2 - c2 * (b.1 - a.1) * (x - a.1) * (b.1 - x) := by
        rw [← hfa, ← hfb]; simp only [hf]; ring
      rcases hab.eq_or_lt with h8 | h8
      · have : x = a.1 := by linarith
        rw [this, hfa]; exact hpos a ham
      · have h9 : 0 ≤ (b.1 - x) * a.2 := mul_nonneg (by linarith) (hpos a ham)
        have h10 : 0 ≤ (x - a.1) * b.2 := mul_nonneg (by linarith) (hpos b hbm)
        have h11 : 0 ≤ -c2 * (b.1 - a.1) * (x - a.1) * (b.1 - x) :=
          mul_nonneg (mul_nonneg (mul_nonneg (by linarith) (by linarith)) (by linarith)) (by linarith)
        have h12 : 0 ≤ (b.1 - a.1) * f x := by rw [h7]; linarith
        exact nonneg_of_mul_nonneg_right h12 (by linarith)
  have hminlt : Spline.minOn (S.value order nodes) (Spline.fineGrid order nodes) < f x0 := by
    have e1 := minOn_le (f := S.value order nodes) g4
    have e2 := minOn_le (f := S.value order nodes) g2
    rw [(hin a.1 le_rfl hab).1, hfa] at e1
    rw [(hin b.1 hab le_rfl).1, hfb] at e2
    have e3 := hmax _ g4
    have e4 := hmax _ g2
    rw [hfa] at e3
    rw [hfb] at e4
    rcases lt_or_gt_of_ne hne with h | h <;> linarith
  have hstep : ∀ z, a.1 ≤ z → z ≤ b.1 → ∀ w, S.Step order nodes (some z) w ↔ w = some v := by
    intro z h5 h6 w
    simp only [Spline.Step]
    rw [(hin z h5 h6).2.2, (hin z h5 h6).2.1, if_pos h20]
    have : z - (2 * c2 * z + c1) / (2 * c2) = v := by rw [hv]; field_simp; ring
    rw [this]
  have hneg : ¬ ∃ p ∈ nodes, p.2 < 0 := by
    rintro ⟨p, hp, hlt⟩
    exact absurd (hpos p hp) (not_le.2 hlt)
  have hclip : Spline.clip (a.1, b.1) (some v) = some w := by simp only [Spline.clip, Option.map_some, hw]
  set prec := 1 / 10 ^ 6 * (S.value order nodes x0 - Spline.minOn (S.value order nodes) (Spline.fineGrid order nodes)) with hprec
  have hprec0 : 0 < prec := by
    rw [hprec, (hin x0 x0a x0b).1]
    have : 0 < f x0 - Spline.minOn (S.value order nodes) (Spline.fineGrid order nodes) := by linarith
    positivity
  have hprec1 : prec ≤ 1 / 10 ^ 6 * f x0 := by
    rw [hprec, (hin x0 x0a x0b).1]
    generalize Spline.minOn (S.value order nodes) (Spline.fineGrid order nodes) = q at hmin0
    exact mul_le_mul_of_nonneg_left (by linarith) (by norm_num)
  have hloop : ∀ r, S.Loop order nodes prec (some x0) (some w) r →
      ∃ z, r = some z ∧ a.1 ≤ z ∧ z ≤ b.1 ∧ f x0 ≤ f z ∧ f w ≤ f z + prec := by
    intro r hl
    cases hl with
    | stop hc =>
      obtain ⟨x, x', e1, e2, hc⟩ := hc
      cases e1; cases e2
      rw [(hin w hwa hwb).1, (hin x0 x0a x0b).1] at hc
      exact ⟨x0, rfl, x0a, x0b, le_rfl, by linarith [le_abs_self (f w - f x0)]⟩
    | next hnc hs hl =>
      rw [hstep w hwa hwb] at hs
      subst hs
      have hlt : f x0 < f w := by
        by_contra h
        refine hnc ⟨x0, w, rfl, rfl, ?_⟩
        rw [(hin w hwa hwb).1, (hin x0 x0a x0b).1, le_antisymm (not_lt.1 h) (hwmax x0 x0a x0b)]
        simpa using hprec0
      rw [← hwv hlt] at hl
      cases hl with
      | stop hc => exact ⟨w, rfl, hwa, hwb, hlt.le, by linarith⟩
      | next hnc hs hl =>
        exact absurd ⟨w, w, rfl, rfl, by simpa using hprec0⟩ hnc
  have hlex : ∃ r, S.Loop order nodes prec (some x0) (some w) r := by
    by_cases hc : S.Crit order nodes prec (some x0) (some w)
    · exact ⟨_, .stop hc⟩
    · have hlt : f x0 < f w := by
        by_contra h
        refine hc ⟨x0, w, rfl, rfl, ?_⟩
        rw [(hin w hwa hwb).1, (hin x0 x0a x0b).1, le_antisymm (not_lt.1 h) (hwmax x0 x0a x0b)]
        simpa using hprec0
      have hs : S.Step order nodes (some w) (some w) := by rw [hstep w hwa hwb, hwv hlt]
      exact ⟨_, .next hc hs (.stop ⟨w, w, rfl, rfl, by simpa using hprec0⟩)⟩
  have hzr : ∀ z, a.1 ≤ z → z ≤ b.1 → f x0 ≤ f z → ¬ ∃ y ∈ Spline.fineGrid order nodes, S.value order nodes z < S.value order nodes y := by
    rintro z h5 h6 h7 ⟨y, hy, hlt⟩
    rw [(hin z h5 h6).1, (hin y (g3 y hy).1 (g3 y hy).2).1] at hlt
    linarith [hmax y hy]
  constructor
  · obtain ⟨r, hl⟩ := hlex
    obtain ⟨z, rfl, h5, h6, h7, -⟩ := hloop r hl
    have hz0 : S.value order nodes z ≠ 0 := by rw [(hin z h5 h6).1]; linarith
    refine ⟨⟨order, nodes, (a.1, b.1), 1 / S.value order nodes z⟩, ?_⟩
    unfold SplineMask.Init
    rw [if_neg hneg, ha, hb]
    simp only [Option.getD_none, le_refl, and_self, if_true]
    unfold SplineMask.Prepare
    rw [if_pos hacc]
    refine ⟨.ok (1 / S.value order nodes z), ⟨x0, hx0, S.value order nodes z, ?_, ?_⟩, rfl⟩
    · rw [if_neg hnc]
      refine ⟨z, ⟨some v, (hstep x0 x0a x0b _).2 rfl, ?_⟩, rfl⟩
      rw [hclip]
      exact hl
    · rw [if_neg (hzr z h5 h6 h7), if_neg hz0]
  · intro result h
    unfold SplineMask.Init at h
    rw [if_neg hneg, ha, hb] at h
    simp only [Option.getD_none, le_refl, and_self, if_true] at h
    unfold SplineMask.Prepare at h
    rw [if_pos hacc] at h
    obtain ⟨n, ⟨x1, hx1, m, hm, hn⟩, hr⟩ := h
    rw [hx0] at hx1
    cases hx1
    rw [if_neg hnc] at hm
    obtain ⟨r, ⟨y, hy, hl⟩, rfl⟩ := hm
    rw [hstep x0 x0a x0b] at hy
    subst hy
    rw [hclip] at hl
    obtain ⟨z, he, h5, h6, h7, h8⟩ := hloop _ hl
    cases he
    have hz0 : 0 < S.value order nodes r := by rw [(hin r h5 h6).1]; linarith
    rw [if_neg (hzr r h5 h6 h7), if_neg hz0.ne'] at hn
    subst hn
    refine ⟨_, hr, one_div_pos.2 hz0, rfl, fun y hy1 hy2 => ?_, r, h5, h6, ?_⟩
    · change 1 / S.value order nodes r * f y ≤ _
      rw [(hin r h5 h6).1] at hz0 ⊢
      rw [one_div, inv_mul_le_iff₀ hz0]
      have := hwmax y hy1 hy2
      nlinarith
    · change 1 / S.value order nodes r * f r = 1
      rw [(hin r h5 h6).1] at hz0 ⊢
      field_simp

/-- The table z = 1, 2, 3, 4, nbar = 5 - (z - 3)². -/
example {S : Spline} (hS : SplineOk S) :
    ∃ t, SplineMask.Init S 3 [(1, 1), (2, 4), (3, 5), (4, 4)] none none (.ok t) := by
  refine (C29_spline_concave hS (by norm_num) (c2 := -1) (c1 := 6) (c0 := -4) (a := (1, 1)) (b := (4, 4))
    ⟨by norm_num, by simp, ?_⟩ (by norm_num) rfl rfl ?_ ?_ (by norm_num)).1
  · norm_num
  · intro p hp
    simp only [List.mem_cons, List.not_mem_nil, or_false] at hp
    rcases hp with rfl | rfl | rfl | rfl <;> norm_num
  · intro p hp
    simp only [List.mem_cons, List.not_mem_nil, or_false] at hp
    rcases hp with rfl | rfl | rfl | rfl <;> norm_num

end Verif.Props
