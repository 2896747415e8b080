import Verif.Model.RadialScript
import Verif.Props.RadialSpline
import Verif.Props.Sampling

/-!
# C77: matching the redshift distribution of a file
-/

namespace Verif.Props
open Verif Verif.Model Verif.Model.Script Verif.Spec

/-- Middle of a redshift bin. -/
noncomputable def binCentre (r : NzRow) : ℝ := (r.1 + r.2.1) / 2

/-- Number of objects of a bin divided by the (relative) comoving volume of the bin. -/
noncomputable def binDensity (distance : ℝ → ℝ) (r : NzRow) : ℝ := r.2.2 / (distance r.2.1 ^ 3 - distance r.1 ^ 3)

/-- Each bin starts where the one before ends. -/
def Contiguous (table : List NzRow) : Prop := table.IsChain fun r r' => r.2.1 = r'.1

/-- Rows whose draw is at most the probability at their redshift, in order. -/
noncomputable def drawnRows {ρ : Type} (p : ℝ → ℝ) (rows : List (ℝ × ρ)) (draws : List ℝ) : List (ℝ × ρ) :=
  open Classical in ((rows.zip draws).filter fun x => decide (x.2 ≤ p x.1.1)).map fun x => x.1

theorem pick_maskCall {ρ : Type} (p : ℝ → ℝ) (rows : List (ℝ × ρ)) (draws : List ℝ) :
    pick rows (maskCall (rows.map fun r => p r.1) draws) = drawnRows p rows draws := by
  induction rows generalizing draws with
  | nil => simp [pick, drawnRows]
  | cons r rows ih =>
    cases draws with
    | nil => simp [pick, drawnRows, maskCall]
    | cons u draws =>
      have := ih draws
      simp only [pick, drawnRows, maskCall, List.map_cons, List.zipWith_cons_cons, List.zip_cons_cons] at this ⊢
      by_cases h : u ≤ p r.1
      · rw [List.filter_cons_of_pos (by simpa using h), List.filter_cons_of_pos (by simpa using h)]
        simp only [List.map_cons, List.cons.injEq, true_and]
        exact this
      · rw [List.filter_cons_of_neg (by simpa using h), List.filter_cons_of_neg (by simpa using h)]
        exact this

theorem shells_contiguous (distance : ℝ → ℝ) {table : List NzRow} (hc : Contiguous table) {z : ℝ}
    (hz : ∀ r ∈ table.head?, r.1 = z) :
    TabMask.shells ((z :: table.map fun r => r.2.1).map distance) =
      table.map fun r => distance r.2.1 ^ 3 - distance r.1 ^ 3 := by
  induction table generalizing z with
  | nil => rfl
  | cons r table ih =>
    have hr : r.1 = z := hz r rfl
    have h1 : Contiguous table := List.IsChain.tail hc
    have h2 : ∀ r' ∈ table.head?, r'.1 = r.2.1 := by
      intro r' hr'
      cases table with
      | nil => simp at hr'
      | cons r'' table =>
        simp only [List.head?_cons, Option.mem_def, Option.some.injEq] at hr'
        subst hr'
        exact ((List.isChain_cons_cons.1 hc).1).symm
    have := ih h1 h2
    simp only [TabMask.shells, List.map_cons, List.tail_cons, List.zip_cons_cons] at this ⊢
    rw [this, hr]

/-- The nodes of the mask for contiguous bins. -/
theorem nzNodes_contiguous (distance : ℝ → ℝ) {table : List NzRow} (hc : Contiguous table) (h2 : 2 ≤ table.length)
    (hv : ∀ r ∈ table, distance r.2.1 ^ 3 - distance r.1 ^ 3 ≠ 0) :
    nzNodes distance table = .ok (table.map fun r => (binCentre r, binDensity distance r)) := by
  match table, h2 with
  | row :: row' :: rest, _ =>
    unfold nzNodes
    simp only
    rw [shells_contiguous distance hc (by simp), if_neg]
    · congr 1
      generalize row :: row' :: rest = t
      induction t with
      | nil => rfl
      | cons r t ih =>
        simp only [List.map_cons, List.zipWith_cons_cons, ih]
        rfl
    · intro h0
      obtain ⟨r, hr, h0⟩ := List.mem_map.1 h0
      exact hv r hr h0

/-- Conversely, accepted tables have two bins of non-null volumes. -/
theorem nzNodes_ok {distance : ℝ → ℝ} {table : List NzRow} (hc : Contiguous table) {nodes : List (ℝ × ℝ)}
    (h : nzNodes distance table = .ok nodes) : 2 ≤ table.length ∧
      (∀ r ∈ table, distance r.2.1 ^ 3 - distance r.1 ^ 3 ≠ 0) ∧
      nodes = table.map fun r => (binCentre r, binDensity distance r) := by
  have key : 2 ≤ table.length ∧ ∀ r ∈ table, distance r.2.1 ^ 3 - distance r.1 ^ 3 ≠ 0 := by
    match table, h with
    | row :: row' :: rest, h =>
      refine ⟨by simp, ?_⟩
      unfold nzNodes at h
      simp only at h
      rw [shells_contiguous distance hc (by simp)] at h
      split at h
      · cases h
      · rename_i h0
        intro r hr he
        exact h0 (List.mem_map.2 ⟨r, hr, he⟩)
  refine ⟨key.1, key.2, ?_⟩
  rw [nzNodes_contiguous distance hc key.1 key.2] at h
  exact (Except.ok.inj h).symm

/-- Probabilities of the mask. -/
theorem nzMask_prob {S : Spline} (hS : SplineOk S) {distance : ℝ → ℝ} {table : List NzRow} (hc : Contiguous table) {zmin zmax : ℝ}
    {t : SplineMask} (hm : NzMask S distance table zmin zmax (.ok t)) : 0 < t.norm ∧
      (∀ r ∈ table, zmin ≤ binCentre r → binCentre r ≤ zmax →
        t.prob S (binCentre r) = min (t.norm * binDensity distance r) 1) ∧
      (∀ r ∈ table, 0 ≤ binDensity distance r) ∧
      (∀ z, z < zmin ∨ zmax < z → t.prob S z = 0) ∧
      (∀ r ∈ table.head?, t.norm * binDensity distance r ≤ 1 ∧ binCentre r ≤ zmin) ∧
      (∀ r ∈ table.getLast?, t.norm * binDensity distance r ≤ 1 ∧ zmax ≤ binCentre r) := by
  unfold NzMask at hm
  cases hn : nzNodes distance table with
  | error e => simp [hn] at hm
  | ok nodes =>
    rw [hn] at hm
    simp only at hm
    obtain ⟨-, -, hnodes⟩ := nzNodes_ok hc hn
    obtain ⟨hacc, hpos, a, b, ha, hb, hza, hzb, ho, hno, hzr, -⟩ := splineInit_ok hm
    obtain ⟨h1, h2, -, h3⟩ := C29_spline_partial hS hm
    obtain ⟨h3, -, h4, h5⟩ := h3 rfl
    have hzr' : t.zrange = (zmin, zmax) := hzr
    rw [hzr'] at h1 h2 hza hzb
    simp only at h1 h2 hza hzb
    have hmem : ∀ r ∈ table, (binCentre r, binDensity distance r) ∈ nodes := by
      intro r hr; rw [hnodes]; exact List.mem_map.2 ⟨r, hr, rfl⟩
    refine ⟨h3, fun r hr => h2 _ (hmem r hr), fun r hr => hpos _ (hmem r hr), fun z hz => h1 z ?_,
      fun r hr => ?_, fun r hr => ?_⟩
    · rintro ⟨e1, e2⟩
      rcases hz with hz | hz <;> linarith
    · have : nodes.head? = some (binCentre r, binDensity distance r) := by
        rw [hnodes, List.head?_map, Option.mem_def.1 hr]; rfl
      have e := this.symm.trans ha
      cases e
      exact ⟨h4 _ this, hza⟩
    · have : nodes.getLast? = some (binCentre r, binDensity distance r) := by
        rw [hnodes, List.getLast?_map, Option.mem_def.1 hr]; rfl
      have e := this.symm.trans hb
      cases e
      exact ⟨h5 _ this, hzb⟩

/-- C77: for contiguous bins, whatever the catalog, `apply_radial_mask` returns, in order, exactly the rows whose draw is at
most the probability of their redshift, smeared if requested; at the centre of each bin inside the range this probability
is the density of the bin up to a constant, at most one; it is null outside of the range. The constant is positive and such that
the first and the last bins have a probability at most one. -/
theorem C77_selected_partial {ρ : Type} {S : Spline} (hS : SplineOk S) {distance : ℝ → ℝ} {table : List NzRow}
    (hc : Contiguous table) {zmin zmax : ℝ} {smear : Option (List ℝ → Except Err (List ℝ))} {draws : List ℝ}
    {cutsky out after : List (ℝ × ρ)} (h : ApplyRadialMask S distance table zmin zmax smear draws cutsky (.ok out) after) :
    ∃ (p : ℝ → ℝ) (norm : ℝ), 0 < norm ∧
      (∀ r ∈ table, zmin ≤ binCentre r → binCentre r ≤ zmax → p (binCentre r) = min (norm * binDensity distance r) 1) ∧
      (∀ r ∈ table, 0 ≤ binDensity distance r) ∧
      (∀ z, z < zmin ∨ zmax < z → p z = 0) ∧
      (∀ r ∈ table.head?, norm * binDensity distance r ≤ 1 ∧ binCentre r ≤ zmin) ∧
      (∀ r ∈ table.getLast?, norm * binDensity distance r ≤ 1 ∧ zmax ≤ binCentre r) ∧
      out = drawnRows p after draws ∧
      (smear = none → after = cutsky) ∧
      (∀ f, smear = some f → ∃ dz, f (cutsky.map fun r => r.1) = .ok dz ∧
        after = List.zipWith (fun r d => (r.1 + d, r.2)) cutsky dz) := by
  obtain ⟨mask, hm, h⟩ := h
  cases mask with
  | error e => simp at h
  | ok t =>
    obtain ⟨p1, p2, p3, p4, p5, p6⟩ := nzMask_prob hS hc hm
    refine ⟨t.prob S, t.norm, p1, p2, p3, p4, p5, p6, ?_⟩
    cases smear with
    | none =>
      simp only [Except.ok.injEq] at h
      obtain ⟨rfl, rfl⟩ := h
      exact ⟨pick_maskCall _ _ _, fun _ => rfl, fun f hf => by cases hf⟩
    | some f =>
      simp only at h
      cases hf : f (cutsky.map fun r => r.1) with
      | error e => rw [hf] at h; simp at h
      | ok dz =>
        rw [hf] at h
        simp only [Except.ok.injEq] at h
        obtain ⟨rfl, rfl⟩ := h
        refine ⟨pick_maskCall _ _ _, fun h => (by cases h), fun f' hf' => ?_⟩
        cases hf'
        exact ⟨dz, hf, rfl⟩

/-- C77 fails with the default arguments `zmin=0., zmax=6.`: a table whose first bin is centred above 0, or the last below 6,
such as the one in the repository, is always refused. -/
theorem C77_default_range_violated {ρ : Type} {S : Spline} {distance : ℝ → ℝ} {table : List NzRow}
    (hc : Contiguous table) (h2 : 2 ≤ table.length) (hv : ∀ r ∈ table, distance r.2.1 ^ 3 - distance r.1 ^ 3 ≠ 0)
    (hr : (∃ r ∈ table.head?, 0 < binCentre r) ∨ ∃ r ∈ table.getLast?, binCentre r < 6)
    (smear : Option (List ℝ → Except Err (List ℝ))) (draws : List ℝ) (cutsky : List (ℝ × ρ))
    (result : Except Err (List (ℝ × ρ))) (after : List (ℝ × ρ)) :
    ApplyRadialMask S distance table 0 6 smear draws cutsky result after ↔ result = .error .valueError ∧ after = cutsky := by
  have key : ∀ m, NzMask S distance table 0 6 m ↔ m = .error .valueError := by
    intro m
    unfold NzMask
    rw [nzNodes_contiguous distance hc h2 hv]
    simp only
    unfold SplineMask.Init
    split
    · rfl
    · rw [List.head?_map, List.getLast?_map]
      have hne : table ≠ [] := by rintro rfl; simp at h2
      rw [List.head?_eq_some_head hne, List.getLast?_eq_some_getLast hne] at hr ⊢
      simp only [Option.map_some, Option.getD_some]
      rw [if_neg]
      rintro ⟨e1, e2⟩
      rcases hr with ⟨r, hr, h⟩ | ⟨r, hr, h⟩
      · cases hr; linarith
      · cases hr; linarith
  constructor
  · rintro ⟨m, hm, h⟩
    rw [key] at hm
    subst hm
    exact h
  · rintro ⟨rfl, rfl⟩
    exact ⟨_, (key _).2 rfl, rfl, rfl⟩

/-- The first and last rows of `desi/nz_qso_final.dat`, with distances proportional to redshift, are enough. -/
example : ∃ table : List NzRow, Contiguous table ∧ 2 ≤ table.length ∧ (∀ r ∈ table, (id r.2.1 : ℝ) ^ 3 - id r.1 ^ 3 ≠ 0) ∧
    ∃ r ∈ table.head?, 0 < binCentre r := by
  refine ⟨[(0.05, 0.1, 0.0729), (0.1, 0.15, 0.069)], ?_, by simp, ?_, (0.05, 0.1, 0.0729), rfl, ?_⟩
  · simp [Contiguous]
  · intro r hr
    simp only [List.mem_cons, List.not_mem_nil, or_false] at hr
    rcases hr with rfl | rfl <;> norm_num
  · norm_num [binCentre]

/-- C77 fails if there is a gap between two bins: the volume of the gap is counted in the next bin. With constant density
and bins (0, 1), (2, 3), (3, 4) the density of the second bin is 19/26 instead of 1. -/
theorem C77_gap_violated : ∃ table : List NzRow, (∀ r ∈ table, binDensity id r = 1) ∧
    nzNodes id table = .ok [(1 / 2, 1), (5 / 2, 19 / 26), (7 / 2, 1)] := by
  refine ⟨[(0, 1, 1), (2, 3, 19), (3, 4, 37)], ?_, ?_⟩
  · intro r hr
    simp only [List.mem_cons, List.not_mem_nil, or_false] at hr
    rcases hr with rfl | rfl | rfl <;> norm_num [binDensity]
  · unfold nzNodes
    simp only
    rw [if_neg]
    · norm_num [TabMask.shells]
    · norm_num [TabMask.shells]

/-- C77 fails for the claim that as many objects as possible are kept: the largest probability inside of the range may be
lower than one, as the maximum is searched over the whole table. Here the range holds the first two bins, and at most three
quarters of the objects are kept at any of their centres. -/
theorem C77_max_violated {S : Spline} (hS : SplineOk S) : ∃ table : List NzRow, Contiguous table ∧
    (∃ t, NzMask S id table 1 2 (.ok t)) ∧ ∀ t, NzMask S id table 1 2 (.ok t) →
      ∀ r ∈ table, 1 ≤ binCentre r → binCentre r ≤ 2 → t.prob S (binCentre r) ≤ 3 / 4 := by
  have hc : Contiguous [(1 / 2, 3 / 2, 0), (3 / 2, 5 / 2, 147 / 4), (5 / 2, 7 / 2, 109)] := by simp [Contiguous]
  have hv : ∀ r ∈ ([(1 / 2, 3 / 2, 0), (3 / 2, 5 / 2, 147 / 4), (5 / 2, 7 / 2, 109)] : List NzRow),
      id r.2.1 ^ 3 - id r.1 ^ 3 ≠ 0 := by
    intro r hr
    simp only [List.mem_cons, List.not_mem_nil, or_false] at hr
    rcases hr with rfl | rfl | rfl <;> norm_num
  have hn : nzNodes id [(1 / 2, 3 / 2, 0), (3 / 2, 5 / 2, 147 / 4), (5 / 2, 7 / 2, 109)] = .ok [(1, 0), (2, 3), (3, 4)] := by
    rw [nzNodes_contiguous id hc (by simp) hv]
    norm_num [binCentre, binDensity]
  have hacc : Spline.Accepted 2 [((1 : ℝ), (0 : ℝ)), (2, 3), (3, 4)] := ⟨by norm_num, by simp, by norm_num⟩
  have hq : ∀ p ∈ [((1 : ℝ), (0 : ℝ)), (2, 3), (3, 4)], p.2 = -1 * p.1 ^ 2 + 6 * p.1 + -5 := by
    intro p hp
    simp only [List.mem_cons, List.not_mem_nil, or_false] at hp
    rcases hp with rfl | rfl | rfl <;> norm_num
  have hin := fun z => hS.quadratic hacc le_rfl (-1) 6 (-5) hq (1, 0) rfl (3, 4) rfl z
  obtain ⟨g1, g2, g3⟩ := fineGrid_spec (k := 2) (nodes := [((1 : ℝ), (0 : ℝ)), (2, 3), (3, 4)]) (a := (1, 0)) (b := (3, 4)) rfl
    rfl (by norm_num) (by simp)
  refine ⟨_, hc, ?_, ?_⟩
  · unfold NzMask
    rw [hn]
    simp only
    refine ⟨⟨2, [(1, 0), (2, 3), (3, 4)], (1, 2), 1 / 4⟩, ?_⟩
    unfold SplineMask.Init
    rw [if_neg (by
      rintro ⟨p, hp, h⟩
      simp only [List.mem_cons, List.not_mem_nil, or_false] at hp
      rcases hp with rfl | rfl | rfl <;> norm_num at h)]
    simp only [List.head?_cons, List.getLast?_cons_cons, List.getLast?_singleton, Option.getD_some]
    rw [if_pos (by norm_num)]
    unfold SplineMask.Prepare
    rw [if_pos hacc]
    obtain ⟨x0, hx0⟩ := argmax_some (S.value 2 [(1, 0), (2, 3), (3, 4)])
      (l := Spline.fineGrid 2 [((1 : ℝ), (0 : ℝ)), (2, 3), (3, 4)]) (by intro h; rw [h] at g2; simp at g2)
    obtain ⟨hm, hmax⟩ := argmax_spec _ hx0
    have h3 : x0 = 3 := by
      obtain ⟨e1, e2⟩ := g3 x0 hm
      have := hmax 3 g2
      rw [(hin x0 e1 e2).1, (hin 3 (by norm_num) (by norm_num)).1] at this
      have hsq : (x0 - 3) ^ 2 ≤ 0 := by nlinarith
      have := pow_eq_zero_iff (n := 2) (by norm_num) |>.1 (le_antisymm hsq (sq_nonneg _))
      linarith
    subst h3
    have hv3 := hin 3 (by norm_num) (by norm_num)
    have hv2 := hin 2 (by norm_num) (by norm_num)
    have hs3 : S.Step 2 [(1, 0), (2, 3), (3, 4)] (some 3) (some 3) := by
      simp only [Spline.Step]
      rw [hv3.2.2, hv3.2.1, if_pos (by norm_num)]
      norm_num
    have hs2 : S.Step 2 [(1, 0), (2, 3), (3, 4)] (some 2) (some 3) := by
      simp only [Spline.Step]
      rw [hv2.2.2, hv2.2.1, if_pos (by norm_num)]
      norm_num
    have hval3 : S.value 2 [(1, 0), (2, 3), (3, 4)] 3 = 4 := by rw [hv3.1]; norm_num
    have hval2 : S.value 2 [(1, 0), (2, 3), (3, 4)] 2 = 3 := by rw [hv2.1]; norm_num
    have hval1 : S.value 2 [(1, 0), (2, 3), (3, 4)] 1 = 0 := by rw [(hin 1 (by norm_num) (by norm_num)).1]; norm_num
    have hnc : ¬ Spline.AllClose (S.value 2 [(1, 0), (2, 3), (3, 4)]) (Spline.fineGrid 2 [(1, 0), (2, 3), (3, 4)]) := by
      intro hcl
      have := hcl 1 g1 3 g2
      rw [hval3, hval1] at this
      norm_num at this
    have hmin0 : 0 ≤ Spline.minOn (S.value 2 [(1, 0), (2, 3), (3, 4)]) (Spline.fineGrid 2 [(1, 0), (2, 3), (3, 4)]) := by
      refine minOn_ge (fun h0 => ?_) fun x hx => ?_
      · rw [h0] at g2; simp at g2
      · obtain ⟨h5, h6⟩ := g3 x hx
        simp only at h5 h6
        rw [(hin x h5 h6).1]
        nlinarith
    have hmin1 := minOn_le (f := S.value 2 [(1, 0), (2, 3), (3, 4)]) (List.mem_of_mem_head? g1)
    simp only at hmin1
    rw [hval1] at hmin1
    have hmin := le_antisymm hmin1 hmin0
    refine ⟨.ok (1 / 4), ⟨3, hx0, 4, ?_, ?_⟩, rfl⟩
    · rw [if_neg hnc, hval3, hmin]
      refine ⟨3, ⟨some 3, hs3, ?_⟩, hval3.symm⟩
      have : Spline.clip (1, 2) (some 3) = some 2 := by norm_num [Spline.clip]
      rw [this]
      refine .next ?_ hs2 (.next ?_ hs3 (.stop ⟨3, 3, rfl, rfl, by norm_num⟩))
      · rintro ⟨x, y, e1, e2, h⟩
        cases e1; cases e2
        rw [hval2, hval3] at h
        norm_num at h
      · rintro ⟨x, y, e1, e2, h⟩
        cases e1; cases e2
        rw [hval2, hval3] at h
        norm_num at h
    · rw [if_neg, if_neg (by norm_num)]
      rintro ⟨z, hz, hlt⟩
      have := hmax z hz
      rw [hval3] at this
      linarith
  · intro t ht r hr h1 h2
    unfold NzMask at ht
    rw [hn] at ht
    simp only at ht
    obtain ⟨-, -, a, b, ha, hb, -, -, -, -, hzr, -⟩ := splineInit_ok ht
    obtain ⟨k1, k2, -, k3⟩ := C29_spline_partial hS ht
    obtain ⟨k3, -, -, k4⟩ := k3 rfl
    have k5 := k4 (3, 4) rfl
    simp only at k5
    have hzr' : t.zrange = (1, 2) := hzr
    rw [hzr'] at k2
    simp only [List.mem_cons, List.not_mem_nil, or_false] at hr
    rcases hr with rfl | rfl | rfl
    · have e : binCentre (1 / 2, 3 / 2, 0) = 1 := by norm_num [binCentre]
      rw [e, k2 (1, 0) (by simp) (by norm_num) (by norm_num)]
      exact (min_le_left _ _).trans (by norm_num)
    · have e : binCentre (3 / 2, 5 / 2, 147 / 4) = 2 := by norm_num [binCentre]
      rw [e, k2 (2, 3) (by simp) (by norm_num) (by norm_num)]
      exact (min_le_left _ _).trans (by simp only; linarith)
    · norm_num [binCentre] at h2

/-- C77 fails for some tables and ranges narrower than the table: `apply_radial_mask` never returns, nor raises, whatever the
catalog. Here bins centred on 1, 2, 3, 4 with densities 9, 16, 21, 24 and the range from 1 to 3. -/
theorem C77_hang_violated {ρ : Type} {S : Spline} (hS : SplineOk S) : ∃ table : List NzRow, Contiguous table ∧
    (∀ r ∈ table, 0 < binDensity id r) ∧
    ∀ (smear : Option (List ℝ → Except Err (List ℝ))) (draws : List ℝ) (cutsky : List (ℝ × ρ)),
      ¬ ∃ result after, ApplyRadialMask S id table 1 3 smear draws cutsky result after := by
  have hc : Contiguous [(1 / 2, 3 / 2, 117 / 4), (3 / 2, 5 / 2, 196), (5 / 2, 7 / 2, 2289 / 4), (7 / 2, 9 / 2, 1158)] := by
    simp [Contiguous]
  refine ⟨_, hc, ?_, ?_⟩
  · intro r hr
    simp only [List.mem_cons, List.not_mem_nil, or_false] at hr
    rcases hr with rfl | rfl | rfl | rfl <;> norm_num [binDensity]
  · rintro smear draws cutsky ⟨result, after, mask, hm, -⟩
    unfold NzMask at hm
    rw [nzNodes_contiguous id hc (by simp) (by
      intro r hr
      simp only [List.mem_cons, List.not_mem_nil, or_false] at hr
      rcases hr with rfl | rfl | rfl | rfl <;> norm_num)] at hm
    have e : ([(1 / 2, 3 / 2, 117 / 4), (3 / 2, 5 / 2, 196), (5 / 2, 7 / 2, 2289 / 4), (7 / 2, 9 / 2, 1158)] : List NzRow).map
        (fun r => (binCentre r, binDensity id r)) = [(1, 9), (2, 16), (3, 21), (4, 24)] := by
      norm_num [binCentre, binDensity]
    rw [e] at hm
    simp only at hm
    refine C29_spline_hang_violated hS le_rfl (c2 := -1) (c1 := 10) (c0 := 0) (v := 5) (a := (1, 9)) (b := (4, 24))
      ⟨by norm_num, by simp, by norm_num⟩ (by norm_num) rfl rfl ?_ ?_ (by norm_num) (by norm_num) (l := 1) (u := 3) (w := 3) rfl
      (by norm_num) (by norm_num) (by norm_num) (by norm_num) (by norm_num) (by norm_num) (by norm_num) ⟨mask, hm⟩
    · intro p hp
      simp only [List.mem_cons, List.not_mem_nil, or_false] at hp
      rcases hp with rfl | rfl | rfl | rfl <;> norm_num
    · intro p hp
      simp only [List.mem_cons, List.not_mem_nil, or_false] at hp
      rcases hp with rfl | rfl | rfl | rfl <;> norm_num

/-- C77: rejected tables. An empty file, one line, a negative number of objects in a bin of positive volume. -/
theorem C77_rejected {ρ : Type} {S : Spline} {distance : ℝ → ℝ} {table : List NzRow} {zmin zmax : ℝ}
    {smear : Option (List ℝ → Except Err (List ℝ))} {draws : List ℝ} {cutsky after : List (ℝ × ρ)}
    {result : Except Err (List (ℝ × ρ))} (h : ApplyRadialMask S distance table zmin zmax smear draws cutsky result after) :
    (table = [] → result = .error .valueError ∧ after = cutsky) ∧
    (table.length = 1 → result = .error .indexError ∧ after = cutsky) ∧
    (Contiguous table → 2 ≤ table.length → (∀ r ∈ table, distance r.2.1 ^ 3 - distance r.1 ^ 3 ≠ 0) →
      (∃ r ∈ table, binDensity distance r < 0) → result = .error .valueError ∧ after = cutsky) := by
  obtain ⟨m, hm, h⟩ := h
  refine ⟨?_, ?_, ?_⟩
  · rintro rfl
    simp only [NzMask, nzNodes] at hm
    subst hm
    exact h
  · intro hl
    obtain ⟨r, rfl⟩ := List.length_eq_one_iff.1 hl
    simp only [NzMask, nzNodes] at hm
    subst hm
    exact h
  · rintro hc h2 hv ⟨r, hr, hneg⟩
    unfold NzMask at hm
    rw [nzNodes_contiguous distance hc h2 hv] at hm
    simp only at hm
    unfold SplineMask.Init at hm
    rw [if_pos ⟨_, List.mem_map.2 ⟨r, hr, rfl⟩, hneg⟩] at hm
    subst hm
    exact h

/-- C77 fails for the catalog of the caller: with smearing, its column 'Z' is overwritten. -/
theorem C77_caller_violated {S : Spline} (hS : SplineOk S) : ∃ (table : List NzRow) (dz : List ℝ)
    (cutsky after : List (ℝ × Unit)) (out : List (ℝ × Unit)),
    ApplyRadialMask S id table 1 2 (some fun _ => .ok dz) [0] cutsky (.ok out) after ∧ after ≠ cutsky := by
  obtain ⟨table, -, ⟨t, ht⟩, -⟩ := C77_max_violated hS
  refine ⟨table, [1], [(1, ())], [(2, ())], _, ⟨.ok t, ht, rfl, ?_⟩, ?_⟩
  · norm_num
  · norm_num

/-- C77: `generate_redshifts` returns the requested number of redshifts on each rank, and they are inside of the range. The
draws of the selection are positive (a null draw keeps redshifts of null probability, see C26). -/
theorem C77_generated_partial {S : Spline} {distance redshift : ℝ → ℝ} {table : List NzRow} {zmin zmax : ℝ}
    {sizes : List ℕ} (hs : 0 < sizes.sum) {u hidden : ℕ → ℕ → ℝ} (hh : ∀ i j, 0 < hidden i j) {result : Except Err (List (List ℝ))}
    (h : GenerateRedshifts S distance redshift table zmin zmax sizes u hidden result) :
    (∃ e, result = .error e ∧ NzMask S distance table zmin zmax (.error e)) ∨
    ∃ (out : List (List ℝ)) (t : SplineMask), result = .ok out ∧ NzMask S distance table zmin zmax (.ok t) ∧
      out.map List.length = sizes ∧
      ∀ o ∈ out, ∀ z ∈ o, (zmin ≤ z ∧ z ≤ zmax) ∧
        ∃ i j, z = redshift (radialCandidate (distance zmin) (distance zmax) (u i j)) ∧ hidden i j ≤ t.prob S z := by
  obtain ⟨m, hm, h⟩ := h
  cases m with
  | error e => exact Or.inl ⟨e, h, hm⟩
  | ok t =>
    obtain ⟨n, hstop, h⟩ := h
    obtain ⟨out, ho, hl⟩ := C30_size_partial _ _ sizes n hs hstop
    refine Or.inr ⟨out, t, h.trans ho, hm, hl, fun o hoo z hz => ?_⟩
    obtain ⟨i, -, j, -, ha, rfl⟩ := C30_accepted _ _ ho o hoo z hz
    have ha' := of_decide_eq_true ha
    have hz0 : t.zrange = (zmin, zmax) := by
      unfold NzMask at hm
      cases hn : nzNodes distance table with
      | error e => simp [hn] at hm
      | ok nodes =>
        rw [hn] at hm
        obtain ⟨-, -, a, b, -, -, -, -, -, -, hzr, -⟩ := splineInit_ok hm
        exact hzr
    have hin : zmin ≤ redshift (radialCandidate (distance t.zrange.1) (distance t.zrange.2) (u i j)) ∧
        redshift (radialCandidate (distance t.zrange.1) (distance t.zrange.2) (u i j)) ≤ zmax := by
      by_contra hcon
      have : t.prob S (redshift (radialCandidate (distance t.zrange.1) (distance t.zrange.2) (u i j))) = 0 := by
        rw [SplineMask.prob, if_neg]
        rw [hz0] at hcon ⊢
        exact hcon
      have h0 := hh i j
      linarith
    rw [hz0] at ha' hin ⊢
    exact ⟨hin, i, j, rfl, ha'⟩

end Verif.Props
