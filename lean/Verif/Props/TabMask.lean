import Verif.Lemmas.Interp

/-!
# C29: tabulated radial mask
-/

namespace Verif.Props
open Verif Verif.Model

/-- Value of the density table at `z`: linear interpolation. -/
noncomputable def density (nodes : List (ℝ × ℝ)) (z : ℝ) : ℝ := (linInterp nodes z).getD 0

/-- A table: at least two redshifts, strictly increasing, non-negative densities. -/
structure Table (nodes : List (ℝ × ℝ)) : Prop where
  inc : Inc nodes
  two : 2 ≤ nodes.length
  nonneg : ∀ p ∈ nodes, 0 ≤ p.2

/-- `zrange` is within the table. -/
def WithinTable (nodes : List (ℝ × ℝ)) (zrange : Range) : Prop :=
  ∃ a b, nodes.head? = some a ∧ nodes.getLast? = some b ∧ a.1 ≤ zrange.1 ∧ zrange.2 ≤ b.1

theorem Table.cons {nodes : List (ℝ × ℝ)} (h : Table nodes) : ∃ a l, nodes = a :: l ∧ l ≠ [] := by
  cases nodes with
  | nil => have := h.two; simp at this
  | cons a l => exact ⟨a, l, rfl, by rintro rfl; have := h.two; simp at this⟩

/-- The table has a value everywhere within the range. -/
theorem density_onSegment {nodes : List (ℝ × ℝ)} (h : Table nodes) {zrange : Range} (hw : WithinTable nodes zrange) {z : ℝ}
    (h1 : zrange.1 ≤ z) (h2 : z ≤ zrange.2) : linInterp nodes z = some (density nodes z) ∧ OnSegment nodes z (density nodes z) := by
  obtain ⟨a, l, rfl, hl⟩ := h.cons
  obtain ⟨a', b, ha, hb, h3, h4⟩ := hw
  simp only [List.head?_cons, Option.some.injEq] at ha
  subst ha
  rw [List.getLast?_eq_getLast_of_ne_nil (by simp)] at hb
  simp only [Option.some.injEq] at hb
  obtain ⟨y, hy⟩ := linInterp_isSome (a := a) (x := z) hl (h3.trans h1) (by rw [hb]; exact h2.trans h4)
  have : density (a :: l) z = y := by simp [density, hy]
  rw [this]
  exact ⟨hy, linInterp_onSegment hy⟩

theorem probNodes_inc {nodes : List (ℝ × ℝ)} (h : Inc nodes) (c : ℝ) : Inc (TabMask.probNodes c nodes) := by
  unfold Inc TabMask.probNodes at *
  rw [List.map_map]
  exact h

/-- Value of the interpolated probability, from the segment of the table. -/
theorem probNodes_onSegment {nodes : List (ℝ × ℝ)} (h : Inc nodes) (c : ℝ) {l r : List (ℝ × ℝ)} {p q : ℝ × ℝ}
    (e : nodes = l ++ p :: q :: r) {z : ℝ} (h1 : p.1 ≤ z) (h2 : z ≤ q.1) :
    linInterp (TabMask.probNodes c nodes) z =
      some (min (c * p.2) 1 + (z - p.1) / (q.1 - p.1) * (min (c * q.2) 1 - min (c * p.2) 1)) := by
  apply onSegment_linInterp (probNodes_inc h c)
  subst e
  exact ⟨_, (p.1, min (c * p.2) 1), (q.1, min (c * q.2) 1), _, by simp [TabMask.probNodes]; rfl, h1, h2, rfl⟩

theorem splineArgs_ok {nodes : List (ℝ × ℝ)} {u : Unit} (h : splineArgs nodes = .ok u) : 2 ≤ nodes.length ∧ Inc nodes := by
  unfold splineArgs at h
  split at h
  · assumption
  · simp at h

/-- What a successful initialisation implies. -/
theorem init_ok {nodes : List (ℝ × ℝ)} {zrange : Option Range} {norm : Option ℝ} {t : TabMask}
    (h : TabMask.init nodes zrange norm = .ok t) :
    Table nodes ∧ t.nodes = nodes ∧ WithinTable nodes t.zrange ∧ (∀ r, zrange = some r → t.zrange = r) ∧
    (∀ c, norm = some c → t.norm = c) ∧ (norm = none → TabMask.defaultNorm nodes t.zrange = .ok t.norm) ∧
    (zrange = none → ∃ a b, nodes.head? = some a ∧ nodes.getLast? = some b ∧ t.zrange = (a.1, b.1)) := by
  unfold TabMask.init at h
  split at h
  · simp at h
  · rename_i hneg
    push Not at hneg
    split at h
    · rename_i a b ha hb
      simp only at h
      split at h
      · rename_i hr
        unfold TabMask.prepare at h
        cases hs : splineArgs nodes with
        | error e => rw [hs] at h; simp [bind, Except.bind] at h
        | ok u =>
          rw [hs] at h
          simp only [bind, Except.bind] at h
          obtain ⟨h2, hi⟩ := splineArgs_ok hs
          cases norm with
          | some c =>
            simp only [Except.ok.injEq] at h
            subst h
            refine ⟨⟨hi, h2, hneg⟩, rfl, ⟨a, b, ha, hb, hr.1, hr.2⟩, ?_, by simp, by simp, ?_⟩
            · rintro r rfl; rfl
            · rintro rfl; exact ⟨a, b, ha, hb, rfl⟩
          | none =>
            simp only at h
            cases hd : TabMask.defaultNorm nodes (zrange.getD (a.1, b.1)) with
            | error e => rw [hd] at h; simp at h
            | ok c =>
              rw [hd] at h
              simp only [Except.ok.injEq] at h
              subst h
              refine ⟨⟨hi, h2, hneg⟩, rfl, ⟨a, b, ha, hb, hr.1, hr.2⟩, ?_, by simp, fun _ => hd, ?_⟩
              · rintro r rfl; rfl
              · rintro rfl; exact ⟨a, b, ha, hb, rfl⟩
      · simp at h
    · simp at h

/-- The default normalisation is the inverse of the highest density in the range, reached there. -/
theorem defaultNorm_ok {nodes : List (ℝ × ℝ)} (ht : Table nodes) {zrange : Range} (hw : WithinTable nodes zrange) {c : ℝ}
    (h : TabMask.defaultNorm nodes zrange = .ok c) :
    zrange.1 ≤ zrange.2 ∧ 0 < c ∧ (∃ z, zrange.1 ≤ z ∧ z ≤ zrange.2 ∧ c * density nodes z = 1) ∧
      (∀ p ∈ nodes, zrange.1 ≤ p.1 → p.1 ≤ zrange.2 → c * p.2 ≤ 1) ∧
      c * density nodes zrange.1 ≤ 1 ∧ c * density nodes zrange.2 ≤ 1 := by
  classical
  unfold TabMask.defaultNorm at h
  split at h
  · simp at h
  · rename_i y l hyl
    simp only at h
    set F := nodes.filter fun p => decide (zrange.1 ≤ p.1 ∧ p.1 ≤ zrange.2) with hF
    have hFmem : ∀ p, p ∈ F ↔ p ∈ nodes ∧ zrange.1 ≤ p.1 ∧ p.1 ≤ zrange.2 := by intro p; simp [hF]
    have hyF : ∀ v ∈ y :: l, ∃ p ∈ F, p.2 = v := by
      intro v hv
      rw [← hyl] at hv
      exact List.mem_map.1 hv
    obtain ⟨p0, hp0, -⟩ := hyF y (by simp)
    have hr : zrange.1 ≤ zrange.2 := ((hFmem p0).1 hp0).2.1.trans ((hFmem p0).1 hp0).2.2
    set M := max (max (l.foldl max y) ((linInterp nodes zrange.1).getD 0)) ((linInterp nodes zrange.2).getD 0) with hM
    split at h
    · simp at h
    · rename_i hm0
      simp only [Except.ok.injEq] at h
      -- attained
      have hatt : ∃ z, zrange.1 ≤ z ∧ z ≤ zrange.2 ∧ density nodes z = M := by
        rcases max_choice (max (l.foldl max y) ((linInterp nodes zrange.1).getD 0)) ((linInterp nodes zrange.2).getD 0) with
          h' | h'
        · rcases max_choice (l.foldl max y) ((linInterp nodes zrange.1).getD 0) with h'' | h''
          · obtain ⟨p, hp, hpv⟩ := hyF _ (foldl_max_spec y l).1
            obtain ⟨hpn, hp1, hp2⟩ := (hFmem p).1 hp
            refine ⟨p.1, hp1, hp2, ?_⟩
            have := (linInterp_iff ht.inc).2 (onSegment_node ht.inc ht.two hpn)
            rw [density, this, hM, h', h'', Option.getD_some, hpv]
          · exact ⟨zrange.1, le_rfl, hr, by rw [hM, h', h'']; rfl⟩
        · exact ⟨zrange.2, hr, le_rfl, by rw [hM, h']; rfl⟩
      have hnn : ∀ z, zrange.1 ≤ z → z ≤ zrange.2 → 0 ≤ density nodes z := by
        intro z h1 h2
        obtain ⟨-, hseg⟩ := density_onSegment ht hw h1 h2
        obtain ⟨B, hB⟩ : ∃ B, ∀ p ∈ nodes, p.2 ≤ B := by
          cases hn : nodes with
          | nil => exact ⟨0, by simp⟩
          | cons a l' =>
            refine ⟨(l'.map (·.2)).foldl max a.2, fun p hp => (foldl_max_spec a.2 (l'.map (·.2))).2 _ ?_⟩
            rw [← List.map_cons (f := fun x : ℝ × ℝ => x.2)]
            exact List.mem_map_of_mem hp
        exact (onSegment_bounds ht.inc hseg fun p hp => ⟨ht.nonneg p hp, hB p hp⟩).1
      obtain ⟨zm, hz1, hz2, hzm⟩ := hatt
      have hMpos : 0 < M := lt_of_le_of_ne (hzm ▸ hnn zm hz1 hz2) (Ne.symm hm0)
      have hc : 0 < c := by rw [← h]; exact one_div_pos.2 hMpos
      have hcM : c * M = 1 := by rw [← h]; field_simp
      have hle : ∀ v, v ≤ M → c * v ≤ 1 := fun v hv => hcM ▸ mul_le_mul_of_nonneg_left hv hc.le
      refine ⟨hr, hc, ⟨zm, hz1, hz2, by rw [hzm, hcM]⟩, ?_, ?_, ?_⟩
      · intro p hp h1 h2
        apply hle
        have : p.2 ∈ y :: l := by rw [← hyl]; exact List.mem_map_of_mem ((hFmem p).2 ⟨hp, h1, h2⟩)
        exact ((foldl_max_spec y l).2 _ this).trans ((le_max_left _ _).trans (le_max_left _ _))
      · exact hle _ ((le_max_right _ _).trans (le_max_left _ _))
      · exact hle _ (le_max_right _ _)

/-- C29. Tables with a negative density are rejected. -/
theorem C29_negative {nodes : List (ℝ × ℝ)} {p : ℝ × ℝ} (hp : p ∈ nodes) (h : p.2 < 0) (zrange : Option Range) (norm : Option ℝ) :
    TabMask.init nodes zrange norm = .error .valueError := by
  unfold TabMask.init
  rw [if_pos ⟨p, hp, h⟩]

/-- C29. Ranges beyond the table are rejected. -/
theorem C29_beyond {nodes : List (ℝ × ℝ)} {a b : ℝ × ℝ} (ha : nodes.head? = some a) (hb : nodes.getLast? = some b) {r : Range}
    (h : r.1 < a.1 ∨ b.1 < r.2) (norm : Option ℝ) : TabMask.init nodes (some r) norm = .error .valueError := by
  unfold TabMask.init
  split
  · rfl
  · rw [ha, hb]
    simp only [Option.getD_some]
    rw [if_neg]
    rintro ⟨h1, h2⟩
    rcases h with h | h <;> linarith

/-- C29. The probability is within [0, 1] and null outside of the range, whatever the (non-negative) normalisation. -/
theorem C29_probability {nodes : List (ℝ × ℝ)} {zrange : Option Range} {norm : Option ℝ} (hn : ∀ c, norm = some c → 0 ≤ c)
    {t : TabMask} (h : TabMask.init nodes zrange norm = .ok t) (z : ℝ) :
    0 ≤ t.prob z ∧ t.prob z ≤ 1 ∧ (z < t.zrange.1 ∨ t.zrange.2 < z → t.prob z = 0) := by
  obtain ⟨ht, hnodes, hw, -, hc, hd, -⟩ := init_ok h
  have hpos : 0 ≤ t.norm := by
    cases norm with
    | some c => rw [hc c rfl]; exact hn c rfl
    | none => exact (defaultNorm_ok ht hw (hd rfl)).2.1.le
  by_cases hz : t.zrange.1 ≤ z ∧ z ≤ t.zrange.2
  · unfold TabMask.prob
    rw [if_pos hz, hnodes]
    obtain ⟨-, l, p, q, r, e, h1, h2, -⟩ := density_onSegment ht hw hz.1 hz.2
    rw [probNodes_onSegment ht.inc t.norm e h1 h2]
    obtain ⟨w0, w1⟩ := seg_weight h1 h2 (by have := ht.inc; rw [e] at this; exact this.seg)
    have hp := mul_nonneg hpos (ht.nonneg p (by rw [e]; simp))
    have hq := mul_nonneg hpos (ht.nonneg q (by rw [e]; simp))
    have a1 : 0 ≤ min (t.norm * p.2) 1 := le_min hp zero_le_one
    have a2 := min_le_right (t.norm * p.2) 1
    have b1 : 0 ≤ min (t.norm * q.2) 1 := le_min hq zero_le_one
    have b2 := min_le_right (t.norm * q.2) 1
    generalize min (t.norm * p.2) 1 = u at *
    generalize min (t.norm * q.2) 1 = v at *
    generalize (z - p.1) / (q.1 - p.1) = w at *
    simp only [Option.getD_some]
    refine ⟨by nlinarith, by nlinarith, ?_⟩
    rintro (h | h) <;> linarith [hz.1, hz.2]
  · unfold TabMask.prob
    rw [if_neg hz]
    simp

/-- The probability is the scaled density as soon as the scaled density does not exceed 1 at the nodes around. -/
theorem tabProb_eq {nodes : List (ℝ × ℝ)} (ht : Table nodes) {t : TabMask} (hnodes : t.nodes = nodes) (hw : WithinTable nodes t.zrange)
    {z : ℝ} (h1 : t.zrange.1 ≤ z) (h2 : z ≤ t.zrange.2)
    (hc : ∀ l p q r, nodes = l ++ p :: q :: r → p.1 ≤ z → z ≤ q.1 →
      (t.norm * p.2 ≤ 1 ∨ z = q.1) ∧ (t.norm * q.2 ≤ 1 ∨ z = p.1)) : t.prob z = t.norm * density nodes z := by
  unfold TabMask.prob
  rw [if_pos ⟨h1, h2⟩, hnodes]
  obtain ⟨-, l, p, q, r, e, h3, h4, h5⟩ := density_onSegment ht hw h1 h2
  rw [probNodes_onSegment ht.inc t.norm e h3 h4, h5, Option.getD_some]
  have hpq : p.1 < q.1 := by have := ht.inc; rw [e] at this; exact this.seg
  have hne : q.1 - p.1 ≠ 0 := by linarith
  obtain ⟨hp, hq⟩ := hc l p q r e h3 h4
  rcases hp with hp | hp
  · rcases hq with hq | hq
    · rw [min_eq_left hp, min_eq_left hq]; ring
    · rw [hq, min_eq_left hp]; simp
  · rcases hq with hq | hq
    · rw [hp, min_eq_left hq, div_self hne]; ring
    · exfalso; linarith

/-- C29 (partial). Default normalisation, when no tabulated density is above the highest density of the range: the probability
is proportional to the density within the range, and reaches 1 there. Missing: tables with higher densities outside of the
range, see `C29_clipped_violated`; ranges without any node, see `C29_narrow_violated`. -/
theorem C29_proportional_partial {nodes : List (ℝ × ℝ)} {zrange : Option Range} {t : TabMask}
    (h : TabMask.init nodes zrange none = .ok t)
    (hmax : ∀ p ∈ nodes, ∃ z, t.zrange.1 ≤ z ∧ z ≤ t.zrange.2 ∧ p.2 ≤ density nodes z) :
    ∃ c, 0 < c ∧ (∀ z, t.zrange.1 ≤ z → z ≤ t.zrange.2 → t.prob z = c * density nodes z) ∧
      ∃ z, t.zrange.1 ≤ z ∧ z ≤ t.zrange.2 ∧ t.prob z = 1 := by
  obtain ⟨ht, hnodes, hw, -, -, hd, -⟩ := init_ok h
  obtain ⟨hr, hc, ⟨zm, hz1, hz2, hzm⟩, hin, he1, he2⟩ := defaultNorm_ok ht hw (hd rfl)
  -- the density within the range, scaled, is at most 1 if all nodes are: take the highest node
  have hall : ∀ p ∈ nodes, t.norm * p.2 ≤ 1 := by
    -- highest node
    obtain ⟨pm, hpm, hpmax⟩ : ∃ pm ∈ nodes, ∀ p ∈ nodes, p.2 ≤ pm.2 := by
      obtain ⟨a, l, rfl, -⟩ := ht.cons
      obtain ⟨hm, hM⟩ := foldl_max_spec a.2 (l.map (·.2))
      rw [← List.map_cons (f := fun x : ℝ × ℝ => x.2)] at hm hM
      obtain ⟨pm, hpm, hpe⟩ := List.mem_map.1 hm
      exact ⟨pm, hpm, fun p hp => hpe ▸ hM _ (List.mem_map_of_mem hp)⟩
    obtain ⟨z, h1, h2, h3⟩ := hmax pm hpm
    -- z is on a segment, whose ends are lower than pm: so the density at z is that of pm
    obtain ⟨-, hseg⟩ := density_onSegment ht hw h1 h2
    have hle := (onSegment_bounds ht.inc hseg fun p hp => ⟨ht.nonneg p hp, hpmax p hp⟩).2
    have heq : density nodes z = pm.2 := le_antisymm hle h3
    have hone : t.norm * pm.2 ≤ 1 := by
      obtain ⟨l, p, q, r, e, hs1, hs2, hs3⟩ := hseg
      have hpq : p.1 < q.1 := by have := ht.inc; rw [e] at this; exact this.seg
      have hp := hpmax p (by rw [e]; simp)
      have hq := hpmax q (by rw [e]; simp)
      have hpos : 0 < q.1 - p.1 := by linarith
      -- either an end of the segment in the range has the value, or the segment is constant
      rw [heq] at hs3
      by_cases hzp : t.zrange.1 ≤ p.1
      · by_cases hzq : q.1 ≤ t.zrange.2
        · have hp' := hin p (by rw [e]; simp) hzp (by linarith)
          have hq' := hin q (by rw [e]; simp) (by linarith) hzq
          obtain ⟨w0, w1⟩ := seg_weight hs1 hs2 hpq
          rw [hs3]
          have : t.norm * (p.2 + (z - p.1) / (q.1 - p.1) * (q.2 - p.2)) =
            (1 - (z - p.1) / (q.1 - p.1)) * (t.norm * p.2) + (z - p.1) / (q.1 - p.1) * (t.norm * q.2) := by ring
          rw [this]
          generalize (z - p.1) / (q.1 - p.1) = w at *
          nlinarith
        · -- q beyond the range
          push Not at hzq
          have hp' := hin p (by rw [e]; simp) hzp (by linarith)
          have hzlt : z < q.1 := by linarith
          -- p has the highest value
          have : p.2 = pm.2 := by
            have hw1 : (z - p.1) / (q.1 - p.1) < 1 := by rw [div_lt_one hpos]; linarith
            obtain ⟨w0, -⟩ := seg_weight hs1 hs2 hpq
            generalize (z - p.1) / (q.1 - p.1) = w at *
            by_contra hne
            have : p.2 < pm.2 := lt_of_le_of_ne hp hne
            nlinarith
          rw [← this]; exact hp'
      · push Not at hzp
        by_cases hzq : q.1 ≤ t.zrange.2
        · have hq' := hin q (by rw [e]; simp) (by linarith) hzq
          have hzlt : p.1 < z := by linarith
          have : q.2 = pm.2 := by
            have hw1 : 0 < (z - p.1) / (q.1 - p.1) := div_pos (by linarith) hpos
            obtain ⟨-, w1⟩ := seg_weight hs1 hs2 hpq
            generalize (z - p.1) / (q.1 - p.1) = w at *
            by_contra hne
            have : q.2 < pm.2 := lt_of_le_of_ne hq hne
            nlinarith
          rw [← this]; exact hq'
        · push Not at hzq
          -- the segment contains the range, strictly: constant
          have hw0 : 0 < (z - p.1) / (q.1 - p.1) := div_pos (by linarith) hpos
          have hw1 : (z - p.1) / (q.1 - p.1) < 1 := by rw [div_lt_one hpos]; linarith
          have hpe : p.2 = pm.2 := by
            generalize (z - p.1) / (q.1 - p.1) = w at *
            by_contra hne
            have : p.2 < pm.2 := lt_of_le_of_ne hp hne
            nlinarith
          have hqe : q.2 = pm.2 := by
            generalize (z - p.1) / (q.1 - p.1) = w at *
            by_contra hne
            have : q.2 < pm.2 := lt_of_le_of_ne hq hne
            nlinarith
          have hz1' : density nodes t.zrange.1 = pm.2 := by
            have : OnSegment nodes t.zrange.1 pm.2 := ⟨l, p, q, r, e, hzp.le, by linarith, by rw [hpe, hqe]; ring⟩
            rw [density, onSegment_linInterp ht.inc this]; rfl
          rw [← hz1']; exact he1
    intro p hp
    exact (mul_le_mul_of_nonneg_left (hpmax p hp) hc.le).trans hone
  have key : ∀ z, t.zrange.1 ≤ z → z ≤ t.zrange.2 → t.prob z = t.norm * density nodes z := by
    intro z h1 h2
    apply tabProb_eq ht hnodes hw h1 h2
    intro l p q r e _ _
    exact ⟨Or.inl (hall p (by rw [e]; simp)), Or.inl (hall q (by rw [e]; simp))⟩
  exact ⟨t.norm, hc, key, zm, hz1, hz2, by rw [key zm hz1 hz2, hzm]⟩

/-- C29 (partial). Default normalisation, when the limits of the range are tabulated redshifts: the probability is proportional
to the density within the range, and reaches 1 there, whatever the density outside. Same parts are missing. -/
theorem C29_proportional_nodes_partial {nodes : List (ℝ × ℝ)} {zrange : Option Range} {t : TabMask}
    (h : TabMask.init nodes zrange none = .ok t) (hlo : t.zrange.1 ∈ nodes.map (·.1)) (hhi : t.zrange.2 ∈ nodes.map (·.1)) :
    ∃ c, 0 < c ∧ (∀ z, t.zrange.1 ≤ z → z ≤ t.zrange.2 → t.prob z = c * density nodes z) ∧
      ∃ z, t.zrange.1 ≤ z ∧ z ≤ t.zrange.2 ∧ t.prob z = 1 := by
  obtain ⟨ht, hnodes, hw, -, -, hd, -⟩ := init_ok h
  obtain ⟨hr, hc, ⟨zm, hz1, hz2, hzm⟩, hin, he1, he2⟩ := defaultNorm_ok ht hw (hd rfl)
  have hsplit : ∀ {l r p q} {x : ℝ}, nodes = l ++ p :: q :: r → x ∈ nodes.map (·.1) → x ≤ p.1 ∨ q.1 ≤ x := by
    intro l r p q x e hx
    have hi := ht.inc
    unfold Inc at hi
    rw [e] at hx hi
    simp only [List.map_append, List.map_cons, List.mem_append, List.mem_cons] at hx hi
    obtain ⟨-, h2, h3⟩ := List.pairwise_append.1 hi
    rcases hx with hx | hx | hx | hx
    · exact Or.inl (h3 x hx p.1 (by simp)).le
    · exact Or.inl hx.le
    · exact Or.inr hx.ge
    · exact Or.inr ((List.pairwise_cons.1 (List.pairwise_cons.1 h2).2).1 x hx).le
  have key : ∀ z, t.zrange.1 ≤ z → z ≤ t.zrange.2 → t.prob z = t.norm * density nodes z := by
    intro z h1 h2
    apply tabProb_eq ht hnodes hw h1 h2
    intro l p q r e hp hq
    constructor
    · rcases hsplit e hlo with hx | hx
      · exact Or.inl (hin p (by rw [e]; simp) hx (hp.trans h2))
      · exact Or.inr (le_antisymm hq (hx.trans h1))
    · rcases hsplit e hhi with hx | hx
      · exact Or.inr (le_antisymm (h2.trans hx) hp)
      · exact Or.inl (hin q (by rw [e]; simp) (h1.trans hq) hx)
  exact ⟨t.norm, hc, key, zm, hz1, hz2, by rw [key zm hz1 hz2, hzm]⟩

/-- C29. Over the whole table (default range). -/
theorem C29_whole_table {nodes : List (ℝ × ℝ)} {t : TabMask} (h : TabMask.init nodes none none = .ok t) :
    ∃ c, 0 < c ∧ (∀ z, t.zrange.1 ≤ z → z ≤ t.zrange.2 → t.prob z = c * density nodes z) ∧
      (∃ z, t.zrange.1 ≤ z ∧ z ≤ t.zrange.2 ∧ t.prob z = 1) ∧ ∀ p ∈ nodes, t.zrange.1 ≤ p.1 ∧ p.1 ≤ t.zrange.2 := by
  obtain ⟨ht, -, -, -, -, -, hz⟩ := init_ok h
  obtain ⟨a, b, ha, hb, hr⟩ := hz rfl
  have h1 : t.zrange.1 ∈ nodes.map (·.1) := by rw [hr]; exact List.mem_map.2 ⟨a, List.mem_of_head? ha, rfl⟩
  have h2 : t.zrange.2 ∈ nodes.map (·.1) := by rw [hr]; exact List.mem_map.2 ⟨b, List.mem_of_getLast? hb, rfl⟩
  obtain ⟨c, h3, h4, h5⟩ := C29_proportional_nodes_partial h h1 h2
  refine ⟨c, h3, h4, h5, ?_⟩
  intro p hp
  have hseg := onSegment_node ht.inc ht.two hp
  obtain ⟨a', l, rfl, hl⟩ := ht.cons
  obtain ⟨e1, e2⟩ := onSegment_range ht.inc hseg
  simp only [List.head?_cons, Option.some.injEq] at ha
  rw [List.getLast?_eq_getLast_of_ne_nil (by simp)] at hb
  simp only [Option.some.injEq] at hb
  subst ha
  rw [hb] at e2
  rw [hr]
  exact ⟨e1, e2⟩

/-- C29. A table with a positive density at a node of the range gives a mask. -/
theorem C29_defined {nodes : List (ℝ × ℝ)} (ht : Table nodes) {zrange : Range} (hw : WithinTable nodes zrange) {p : ℝ × ℝ}
    (hp : p ∈ nodes) (h1 : zrange.1 ≤ p.1) (h2 : p.1 ≤ zrange.2) (hpos : 0 < p.2) :
    ∃ t, TabMask.init nodes (some zrange) none = .ok t ∧ t.zrange = zrange ∧ t.nodes = nodes := by
  classical
  have hd : ∃ c, TabMask.defaultNorm nodes zrange = .ok c := by
    unfold TabMask.defaultNorm
    have hmem : p.2 ∈ (nodes.filter fun p => decide (zrange.1 ≤ p.1 ∧ p.1 ≤ zrange.2)).map (·.2) :=
      List.mem_map_of_mem (by simp [hp, h1, h2])
    split
    · rename_i he
      rw [List.map_eq_nil_iff] at he
      have : p ∈ nodes.filter fun p => decide (zrange.1 ≤ p.1 ∧ p.1 ≤ zrange.2) := by simp [hp, h1, h2]
      rw [he] at this
      simp at this
    · rename_i y l he
      simp only
      rw [if_neg]
      · exact ⟨_, rfl⟩
      · have : p.2 ∈ y :: l := by
          rw [← he]
          exact List.mem_map_of_mem (by simp [hp, h1, h2])
        have := (foldl_max_spec y l).2 _ this
        intro h0
        have := this.trans ((le_max_left _ _).trans (le_max_left _ _)) |>.trans_eq h0
        linarith
  obtain ⟨c, hc⟩ := hd
  obtain ⟨a, b, ha, hb, h3, h4⟩ := hw
  refine ⟨⟨nodes, zrange, c⟩, ?_, rfl, rfl⟩
  unfold TabMask.init
  rw [if_neg (by push Not; exact ht.nonneg), ha, hb]
  simp only [Option.getD_some]
  rw [if_pos ⟨h3, h4⟩]
  unfold TabMask.prepare splineArgs
  rw [if_pos ⟨ht.two, ht.inc⟩]
  simp only [bind, Except.bind, hc]

/-- A survey table with a peak, and a range with both limits in the table. -/
example : ∃ t, TabMask.init [(0, 0), (1, 2), (2, 1), (3, 4)] (some (1, 2)) none = .ok t ∧ t.zrange.1 ∈
    ([(0, 0), (1, 2), (2, 1), (3, 4)] : List (ℝ × ℝ)).map (·.1) := by
  have ht : Table [((0 : ℝ), (0 : ℝ)), (1, 2), (2, 1), (3, 4)] :=
    ⟨by unfold Inc; norm_num, by simp, by intro p hp; simp at hp; rcases hp with rfl | rfl | rfl | rfl <;> norm_num⟩
  obtain ⟨t, h, hr, -⟩ := C29_defined ht (zrange := (1, 2)) ⟨(0, 0), (3, 4), rfl, rfl, by norm_num, by norm_num⟩ (p := (1, 2))
    (by simp) (by norm_num) (by norm_num) (by norm_num)
  exact ⟨t, h, by rw [hr]; simp⟩

theorem clippedTable : Table [((0 : ℝ), (3 : ℝ)), (1, 1), (2, 1)] :=
  ⟨by unfold Inc; norm_num, by simp, by intro p hp; simp at hp; rcases hp with rfl | rfl | rfl <;> norm_num⟩

/-- C29, violated. The range starts between a node with a high density and the next one: the probability at the outer node is
clipped to 1 before interpolation, so that the probability never reaches 1 within the range, and is not proportional to the
density: at the limit of the range the density is twice that at `z = 1`, the probability 1.5 times. -/
theorem C29_clipped_violated : ∃ t, TabMask.init [(0, 3), (1, 1), (2, 1)] (some (1 / 2, 2)) none = .ok t ∧
    (∀ z, t.prob z < 1) ∧ density t.nodes (1 / 2) = 2 * density t.nodes 1 ∧ t.prob (1 / 2) = 3 / 2 * t.prob 1 ∧
    0 < t.prob 1 := by
  have hw : WithinTable [((0 : ℝ), (3 : ℝ)), (1, 1), (2, 1)] (1 / 2, 2) := ⟨(0, 3), (2, 1), rfl, rfl, by norm_num, by norm_num⟩
  obtain ⟨t, h, hr, hn⟩ := C29_defined clippedTable hw (p := (1, 1)) (by simp) (by norm_num) (by norm_num) (by norm_num)
  obtain ⟨ht, -, -, -, -, hd, -⟩ := init_ok h
  have d1 : density [((0 : ℝ), (3 : ℝ)), (1, 1), (2, 1)] (1 / 2) = 2 := by
    rw [density, onSegment_linInterp ht.inc ⟨[], (0, 3), (1, 1), [(2, 1)], rfl, by norm_num, by norm_num, rfl⟩]
    norm_num
  have d2 : density [((0 : ℝ), (3 : ℝ)), (1, 1), (2, 1)] 2 = 1 := by
    rw [density, onSegment_linInterp ht.inc ⟨[(0, 3)], (1, 1), (2, 1), [], rfl, by norm_num, by norm_num, rfl⟩]
    norm_num
  have d3 : density [((0 : ℝ), (3 : ℝ)), (1, 1), (2, 1)] 1 = 1 := by
    rw [density, onSegment_linInterp ht.inc ⟨[(0, 3)], (1, 1), (2, 1), [], rfl, by norm_num, by norm_num, rfl⟩]
    norm_num
  have hnorm : t.norm = 1 / 2 := by
    have hd' := hd rfl
    rw [hr] at hd'
    obtain ⟨-, hpos, ⟨z, h1, h2, h3⟩, hin, he1, he2⟩ := defaultNorm_ok ht hw hd'
    simp only at h1 h2 he1
    rw [d1] at he1
    obtain ⟨-, hseg⟩ := density_onSegment ht hw h1 h2
    -- the density within the range is at most 2
    have hle : density [((0 : ℝ), (3 : ℝ)), (1, 1), (2, 1)] z ≤ 2 := by
      rcases le_total z 1 with hz | hz
      · rw [density, onSegment_linInterp ht.inc ⟨[], (0, 3), (1, 1), [(2, 1)], rfl, by linarith, by simpa using hz, rfl⟩]
        norm_num
        linarith
      · rw [density, onSegment_linInterp ht.inc ⟨[(0, 3)], (1, 1), (2, 1), [], rfl, by simpa using hz, by simpa using h2, rfl⟩]
        norm_num
    nlinarith
  have p1 : ∀ z, 1 / 2 ≤ z → z ≤ 1 → t.prob z = 1 - z / 2 := by
    intro z h1 h2
    unfold TabMask.prob
    rw [hr, if_pos ⟨h1, h2.trans (by norm_num)⟩, hn, probNodes_onSegment ht.inc t.norm (l := []) (p := (0, 3)) (q := (1, 1))
      (r := [(2, 1)]) rfl (by simp; linarith) (by simpa using h2), hnorm, Option.getD_some]
    norm_num
    ring
  have p2 : ∀ z, 1 ≤ z → z ≤ 2 → t.prob z = 1 / 2 := by
    intro z h1 h2
    unfold TabMask.prob
    rw [hr, if_pos ⟨by simp; linarith, h2⟩, hn, probNodes_onSegment ht.inc t.norm (l := [(0, 3)]) (p := (1, 1)) (q := (2, 1))
      (r := []) rfl (by simpa using h1) (by simpa using h2), hnorm, Option.getD_some]
    norm_num
  refine ⟨t, h, ?_, by rw [hn, d1, d3]; norm_num, by rw [p1 _ (by norm_num) (by norm_num), p2 1 (by norm_num) (by norm_num)]; norm_num,
    by rw [p2 1 (by norm_num) (by norm_num)]; norm_num⟩
  intro z
  by_cases hz : t.zrange.1 ≤ z ∧ z ≤ t.zrange.2
  · rw [hr] at hz
    rcases le_total z 1 with h1 | h1
    · rw [p1 z hz.1 h1]; have := hz.1; simp only at this; linarith
    · rw [p2 z h1 hz.2]; norm_num
  · unfold TabMask.prob
    rw [if_neg hz]; norm_num

/-- C29, violated. A range strictly between two nodes is rejected, although it is within the table and the density is positive. -/
theorem C29_narrow_violated : WithinTable [((0 : ℝ), (3 : ℝ)), (1, 1), (2, 1)] (1 / 4, 3 / 4) ∧
    TabMask.init [(0, 3), (1, 1), (2, 1)] (some (1 / 4, 3 / 4)) none = .error .valueError := by
  refine ⟨⟨(0, 3), (2, 1), rfl, rfl, by norm_num, by norm_num⟩, ?_⟩
  unfold TabMask.init
  rw [if_neg (by push Not; exact clippedTable.nonneg)]
  simp only [List.head?_cons, List.getLast?_cons_cons, List.getLast?_singleton, Option.getD_some]
  rw [if_pos (by norm_num)]
  unfold TabMask.prepare splineArgs TabMask.defaultNorm
  rw [if_pos ⟨clippedTable.two, clippedTable.inc⟩]
  norm_num [bind, Except.bind]

/-- C29, violated for the default cubic interpolation: a non-negative table for which the probability is negative within the
range, whatever the (positive) normalisation. -/
theorem C29_cubic_violated (norm : ℝ) (h : 0 < norm) : TabMask.cubicProb (0, 0) (1, 1) (2, 0) (3, 0) (0, 3) norm (5 / 2) < 0 := by
  unfold TabMask.cubicProb TabMask.cubicInterp
  have : 0 < min norm 1 := lt_min h one_pos
  rw [if_pos (by norm_num)]
  norm_num
  linarith

end Verif.Props
