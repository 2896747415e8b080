import Verif.Spec.Draws
import Verif.Props.RandomCall
import Verif.Props.Chance

/-!
# C102: random catalogs are uniform

With independent uniform draws, the positions of random boxes are independent and uniform in the box, and those of random cutskies
are independent, uniform on the sphere within the ranges of RA and Dec and uniform in volume within the range of distances.
-/

namespace Verif.Props.UniformRandoms

open Verif Verif.Model Verif.Spec Verif.Props Verif.Model.RandomCall Verif.Lemmas.Blinding MeasureTheory ProbabilityTheory

variable {Ω : Type*} [MeasurableSpace Ω] {μ : Measure Ω}

/-- The chance that a uniform draw, scaled by `L`, lies between `x` and `y`. -/
theorem uniform_between {X : Ω → ℝ} (h : IsUniform μ X) {L x y : ℝ} (hL : 0 < L) (h0 : 0 ≤ x) (hy : y ≤ L) :
    μ {ω | x ≤ L * X ω ∧ L * X ω < y} = ENNReal.ofReal ((y - x) / L) := by
  have hset : {ω | x ≤ L * X ω ∧ L * X ω < y} = {ω | X ω ∈ Set.Ico (x / L) (y / L)} := by
    ext ω
    simp only [Set.mem_ofPred_eq, Set.mem_Ico, div_le_iff₀ hL, lt_div_iff₀ hL, mul_comm]
  rw [hset, h.2 _ measurableSet_Ico, Set.inter_eq_left.2, Real.volume_Ico, sub_div]
  intro t ht
  have : y / L ≤ 1 := (div_le_one hL).2 hy
  exact ⟨(div_nonneg h0 hL.le).trans ht.1, ht.2.trans_le this⟩

/-- Uniform draws are in (0, 1), almost surely. -/
theorem uniform_inside [IsProbabilityMeasure μ] {X : Ω → ℝ} (h : IsUniform μ X) : ∀ᵐ ω ∂μ, 0 < X ω ∧ X ω < 1 := by
  have : μ {ω | X ω ∈ Set.Ioo 0 1} = 1 := by
    rw [h.2 _ measurableSet_Ioo, Set.inter_eq_left.2 Set.Ioo_subset_Ico_self]
    simp
  have hm : MeasurableSet {ω | X ω ∈ Set.Ioo (0 : ℝ) 1} := h.1 measurableSet_Ioo
  exact (mem_ae_iff_prob_eq_one hm).2 this

/-- The chance that several independent uniform draws, scaled, lie each in their interval. -/
theorem uniform_all {ι : Type} [Fintype ι] [IsProbabilityMeasure μ] {X : ι → Ω → ℝ} (h : AreUniform μ X) {L x y : ι → ℝ} (hL : ∀ i, 0 < L i)
    (h0 : ∀ i, 0 ≤ x i) (hy : ∀ i, y i ≤ L i) :
    μ {ω | ∀ i, x i ≤ L i * X i ω ∧ L i * X i ω < y i} = ∏ i, ENNReal.ofReal ((y i - x i) / L i) := by
  have hset : {ω | ∀ i, x i ≤ L i * X i ω ∧ L i * X i ω < y i} =
      ⋂ i ∈ (Finset.univ : Finset ι), X i ⁻¹' {t | x i ≤ L i * t ∧ L i * t < y i} := by
    ext ω; simp
  rw [hset, (iIndepFun_iff_measure_inter_preimage_eq_mul.1 h.2) Finset.univ]
  · apply Finset.prod_congr rfl
    intro i _
    exact uniform_between (h.1 i) (hL i) (h0 i) (hy i)
  · intro i _
    have : Measurable fun t : ℝ => L i * t := by fun_prop
    exact (measurableSet_le measurable_const this).inter (measurableSet_lt this measurable_const)

/-! ## Boxes -/

/-- A point in a cell: from its lower corner to its upper corner. -/
def InCell (lo hi p : V3 ℝ) : Prop := (lo.x ≤ p.x ∧ p.x < hi.x) ∧ (lo.y ≤ p.y ∧ p.y < hi.y) ∧ (lo.z ≤ p.z ∧ p.z < hi.z)

/-- A cell within the box of size `L` and centre `c`. -/
def CellInside (L c lo hi : V3 ℝ) : Prop :=
  (c.x - L.x / 2 ≤ lo.x ∧ lo.x ≤ hi.x ∧ hi.x ≤ c.x + L.x / 2) ∧ (c.y - L.y / 2 ≤ lo.y ∧ lo.y ≤ hi.y ∧ hi.y ≤ c.y + L.y / 2) ∧
    (c.z - L.z / 2 ≤ lo.z ∧ lo.z ≤ hi.z ∧ hi.z ≤ c.z + L.z / 2)

/-- Volume of a cell. -/
def cellVolume (lo hi : V3 ℝ) : ℝ := (hi.x - lo.x) * (hi.y - lo.y) * (hi.z - lo.z)

/-- C102. The points of a random box are independent and uniform: the chance that the first one lies in a cell, the second one in
another one and so on is the product of the parts of the volume of the box in these cells. -/
theorem C102_box [IsProbabilityMeasure μ] (L c : V3 ℝ) (hL : 0 < L.x ∧ 0 < L.y ∧ 0 < L.z) (n : ℕ) (nbar : Option ℝ) {nranks : ℕ}
    (hr : 0 < nranks) {U : ℕ × Fin 3 → Ω → ℝ} (hU : AreUniform μ U) (lo hi : ℕ → V3 ℝ) (hcell : ∀ k, CellInside L c (lo k) (hi k)) :
    μ {ω | ∃ out, randomBox (some L) c (some n) none nbar nranks
        (fun i => ⟨U (i, 0) ω - 1 / 2, U (i, 1) ω - 1 / 2, U (i, 2) ω - 1 / 2⟩) = .ok out ∧ out.flatten.length = n ∧
        ∀ k < n, ∃ p, out.flatten[k]? = some p ∧ InCell (lo k) (hi k) p} =
      ∏ k ∈ Finset.range n, ENNReal.ofReal (cellVolume (lo k) (hi k) / (L.x * L.y * L.z)) := by
  set side : Fin 3 → ℝ := ![L.x, L.y, L.z] with hside
  set off : Fin 3 → ℝ := ![c.x - L.x / 2, c.y - L.y / 2, c.z - L.z / 2] with hoff
  set a : Fin n × Fin 3 → ℝ := fun q => ![(lo q.1).x, (lo q.1).y, (lo q.1).z] q.2 - off q.2 with ha
  set b : Fin n × Fin 3 → ℝ := fun q => ![(hi q.1).x, (hi q.1).y, (hi q.1).z] q.2 - off q.2 with hb
  have hset : {ω | ∃ out, randomBox (some L) c (some n) none nbar nranks
        (fun i => ⟨U (i, 0) ω - 1 / 2, U (i, 1) ω - 1 / 2, U (i, 2) ω - 1 / 2⟩) = .ok out ∧ out.flatten.length = n ∧
        ∀ k < n, ∃ p, out.flatten[k]? = some p ∧ InCell (lo k) (hi k) p} =
      {ω | ∀ q : Fin n × Fin 3, a q ≤ side q.2 * U (q.1, q.2) ω ∧ side q.2 * U (q.1, q.2) ω < b q} := by
    ext ω
    obtain ⟨out, h1, h2, h3, h4⟩ := C35_box_csize L c n nbar hr
      (fun i => ⟨U (i, 0) ω - 1 / 2, U (i, 1) ω - 1 / 2, U (i, 2) ω - 1 / 2⟩)
    simp only [Set.mem_ofPred_eq, h1, Except.ok.injEq, exists_eq_left', h3, true_and]
    rw [h4]
    constructor
    · intro h
      rintro ⟨k, j⟩
      obtain ⟨p, hp, hin⟩ := h k k.2
      simp only [List.getElem?_map, List.getElem?_range k.2, Option.map_some, Option.some.injEq] at hp
      subst hp
      obtain ⟨⟨p1, p2⟩, ⟨p3, p4⟩, p5, p6⟩ := hin
      fin_cases j <;> simp [a, b, side, off] <;> constructor <;> linarith
    · intro h k hk
      refine ⟨⟨L.x * (U (k, 0) ω - 1 / 2) + c.x, L.y * (U (k, 1) ω - 1 / 2) + c.y, L.z * (U (k, 2) ω - 1 / 2) + c.z⟩,
        by simp only [List.getElem?_map, List.getElem?_range hk, Option.map_some], ?_⟩
      have q0 := h (⟨k, hk⟩, 0)
      have q1 := h (⟨k, hk⟩, 1)
      have q2 := h (⟨k, hk⟩, 2)
      simp [a, b, side, off] at q0 q1 q2
      refine ⟨⟨?_, ?_⟩, ⟨?_, ?_⟩, ?_, ?_⟩ <;> simp only <;> linarith
  have hV : AreUniform μ fun (q : Fin n × Fin 3) => U (q.1, q.2) :=
    ⟨fun q => hU.1 _, hU.2.precomp (g := fun q : Fin n × Fin 3 => ((q.1 : ℕ), q.2)) fun q q' h => by
      simp only [Prod.mk.injEq] at h
      exact Prod.ext (Fin.ext h.1) h.2⟩
  rw [hset, uniform_all hV (L := fun q => side q.2) (x := a) (y := b)]
  · rw [Fintype.prod_prod_type, Finset.prod_range]
    apply Finset.prod_congr rfl
    intro k _
    obtain ⟨⟨p1, p2, p3⟩, ⟨p4, p5, p6⟩, p7, p8, p9⟩ := hcell k
    rw [Fin.prod_univ_three]
    simp only [a, b, side, off, Matrix.cons_val_zero, Matrix.cons_val_one, Matrix.cons_val, sub_sub_sub_cancel_right]
    rw [← ENNReal.ofReal_mul (div_nonneg (by linarith) hL.1.le), ← ENNReal.ofReal_mul (by
      exact mul_nonneg (div_nonneg (by linarith) hL.1.le) (div_nonneg (by linarith) hL.2.1.le))]
    congr 1
    unfold cellVolume
    have := hL.1.ne'; have := hL.2.1.ne'; have := hL.2.2.ne'
    field_simp
  · rintro ⟨k, j⟩
    fin_cases j <;> simp [side, hL]
  · rintro ⟨k, j⟩
    obtain ⟨⟨p1, p2, p3⟩, ⟨p4, p5, p6⟩, p7, p8, p9⟩ := hcell k
    fin_cases j <;> simp [a, off] <;> linarith
  · rintro ⟨k, j⟩
    obtain ⟨⟨p1, p2, p3⟩, ⟨p4, p5, p6⟩, p7, p8, p9⟩ := hcell k
    fin_cases j <;> simp [b, off, side] <;> linarith

/-! ## Cutskies -/

/-- Ranges of RA for which the mask keeps all its candidates: plain ones, and the default (0, 360). -/
def FairRange (r : Range) : Prop := PlainRange r ∨ r = (0, 360)

theorem wrap_zero_full : wrapAngle 0 = 0 ∧ wrapAngle 360 = 0 := by
  have key : ∀ a : ℝ, ∀ m : ℤ, a = 360 * m → wrapAngle a = 0 := by
    intro a m ha
    obtain ⟨h0, h1, k, hk⟩ := wrap_deg a
    have h2 : (0 : ℝ) ≤ ((m + k : ℤ) : ℝ) * 360 := by push_cast; linarith
    have h3 : ((m + k : ℤ) : ℝ) * 360 < 360 := by push_cast; linarith
    have h4 : (0 : ℝ) ≤ ((m + k : ℤ) : ℝ) := by linarith
    have h5 : ((m + k : ℤ) : ℝ) < 1 := by linarith
    have h6 : 0 ≤ m + k := by exact_mod_cast h4
    have h7 : m + k < 1 := by exact_mod_cast h5
    have h8 : m + k = 0 := by omega
    have : (m : ℝ) + k = 0 := by exact_mod_cast h8
    rw [hk]
    linarith
  exact ⟨key 0 0 (by norm_num), key 360 1 (by norm_num)⟩

theorem full_rarange : angularRarange (some (0, 360)) = (0, 360) := by
  unfold angularRarange
  simp only [wrap_zero_full.1, wrap_zero_full.2]
  norm_num

/-- The RA of candidates. -/
theorem candidate_ra {r : Range} (d : Option Range) (h : FairRange r) (u v : ℝ) :
    ∃ k : ℤ, (angularCandidate (some r) d u v).1 = r.1 + raWidth r * u + k * 360 := by
  rcases h with h | rfl
  · obtain ⟨k, hk, -⟩ := C35_ra_uniform_partial d h u v
    exact ⟨k, hk⟩
  · refine ⟨-⌊360 * u / 360⌋, ?_⟩
    simp only [angularCandidate, full_rarange, raWidth]
    norm_num [pmod]
    ring

/-- Candidates are all kept. -/
theorem candidate_kept {r d : Range} (h : FairRange r) (hd : -90 ≤ d.1 ∧ d.1 ≤ d.2 ∧ d.2 ≤ 90) {u v : ℝ} (hu : 0 ≤ u ∧ u < 1)
    (hv : 0 ≤ v ∧ v < 1) :
    uniformAngularProb 1 (some r) (some d) (angularCandidate (some r) (some d) u v).1
      (some (angularCandidate (some r) (some d) u v).2) = 1 := by
  rcases h with h | rfl
  · exact C35_candidates_accepted_partial h hd hu hv
  · have h1 := (C35_dec_uniform (some (0, 360)) hd (u := u) ⟨hv.1, hv.2.le⟩).2
    obtain ⟨a0, a1, -⟩ := wrap_deg (angularCandidate (some (0, 360)) (some d) u v).1
    unfold uniformAngularProb
    rw [if_pos, clip01_eq zero_le_one le_rfl]
    simp only [maskRanges, full_rarange, angularDecrange, Option.getD_some]
    rw [if_pos (by norm_num)]
    simp only [Bool.and_eq_true, decide_eq_true_eq]
    exact ⟨⟨a0, a1.le⟩, decide_eq_true h1.1, decide_eq_true h1.2⟩

/-- Rows of the catalog, for draws in (0, 1). -/
theorem cutsky_rows (position : String) {rarange decrange drange : Range} {n : ℕ} (hn : 0 < n)
    (nbar : Option ℝ) {nranks : ℕ} (hr : 0 < nranks) {uv : ℕ → ℕ → ℝ × ℝ} {w h1 h2 : ℕ → ℕ → ℝ} (hp : FairRange rarange)
    (hd : -90 ≤ decrange.1 ∧ decrange.1 ≤ decrange.2 ∧ decrange.2 ≤ 90) (hdr : 0 ≤ drange.1 ∧ drange.1 ≤ drange.2)
    (huv : ∀ t i, (0 < (uv t i).1 ∧ (uv t i).1 < 1) ∧ (0 < (uv t i).2 ∧ (uv t i).2 < 1))
    (hw : Draws w) (hh1 : Draws h1) (hh2 : Draws h2) :
    StopsAfter (fun t i => angularCandidate (some rarange) (some decrange) (uv t i).1 (uv t i).2) (angularDecisions rarange decrange
      (fun t i => angularCandidate (some rarange) (some decrange) (uv t i).1 (uv t i).2) h1) (Blinding.localSizes n nranks) 1 ∧
    StopsAfter (fun t i => radialCandidate drange.1 drange.2 (w t i)) (radialDecisions drange
      (fun t i => radialCandidate drange.1 drange.2 (w t i)) h2) (Blinding.localSizes n nranks) 1 ∧
    ∃ out, randomCutsky position rarange decrange (some drange) (some n) none nbar nranks uv w h1 h2 1 1 = .ok out ∧
      out.map List.length = Blinding.localSizes n nranks ∧
      out.flatten = (List.range n).map fun i => randomCutskyRow position
        (angularCandidate (some rarange) (some decrange) (uv 0 i).1 (uv 0 i).2).1
        (angularCandidate (some rarange) (some decrange) (uv 0 i).1 (uv 0 i).2).2 (radialCandidate drange.1 drange.2 (w 0 i)) := by
  have hs := sum_localSizes n nranks hr
  have hs0 : 0 < (Blinding.localSizes n nranks).sum := by rw [hs]; exact hn
  have acc1 : ∀ t i, angularDecisions rarange decrange
      (fun t i => angularCandidate (some rarange) (some decrange) (uv t i).1 (uv t i).2) h1 t i = true := fun t i => by
    simp only [angularDecisions, decide_eq_true_eq,
      candidate_kept hp hd ⟨(huv t i).1.1.le, (huv t i).1.2⟩ ⟨(huv t i).2.1.le, (huv t i).2.2⟩]
    exact (hh1 t i).2.le
  have acc2 : ∀ t i, radialDecisions drange (fun t i => radialCandidate drange.1 drange.2 (w t i)) h2 t i = true := fun t i => by
    have hr := C35_radial_uniform hdr.1 hdr.2 ⟨(hw t i).1.le, (hw t i).2.le⟩
    simp only [radialDecisions, decide_eq_true_eq, (C28_radial 1 drange _).1 hr.2, clip01_eq zero_le_one le_rfl]
    exact (hh2 t i).2.le
  obtain ⟨s1, radec, hra, hf1⟩ := C31_all_accepted_partial (fun t i => angularCandidate (some rarange) (some decrange) (uv t i).1 (uv t i).2)
    _ hs0 (fun i _ => acc1 0 i)
  obtain ⟨s2, dist, hdi, hf2⟩ := C31_all_accepted_partial (fun t i => radialCandidate drange.1 drange.2 (w t i)) _ hs0 (fun i _ => acc2 0 i)
  obtain ⟨radec', hra', hl1⟩ := C30_size_partial _ _ _ 1 hs0 s1
  obtain ⟨dist', hdi', hl2⟩ := C30_size_partial _ _ _ 1 hs0 s2
  rw [hra] at hra'
  rw [hdi] at hdi'
  cases hra'
  cases hdi'
  refine ⟨s1, s2, List.zipWith (List.zipWith fun a d => randomCutskyRow position a.1 a.2 d) radec dist, ?_, ?_⟩
  · simp only [randomCutsky, sizeArgument, totalSize, Option.isSome_none, Bool.false_eq_true, if_false, bind, Except.bind]
    rw [if_neg (by omega)]
    simp only [Int.toNat_natCast, randomCutskyCatalog, randomDistances, hra, hdi, bind, Except.bind]
  · have hz : ∀ (a : List (List (ℝ × ℝ))) (b : List (List ℝ)), a.map List.length = b.map List.length →
        (List.zipWith (List.zipWith fun a d => randomCutskyRow position a.1 a.2 d) a b).map List.length = a.map List.length ∧
        (List.zipWith (List.zipWith fun a d => randomCutskyRow position a.1 a.2 d) a b).flatten =
          List.zipWith (fun a d => randomCutskyRow position a.1 a.2 d) a.flatten b.flatten := by
      intro a
      induction a with
      | nil => simp
      | cons x a ih =>
        intro b hb
        cases b with
        | nil => simp at hb
        | cons y b =>
          simp only [List.map_cons, List.cons.injEq] at hb
          refine ⟨by simp [(ih b hb.2).1, hb.1], ?_⟩
          simp only [List.zipWith_cons_cons, List.flatten_cons, (ih b hb.2).2]
          rw [List.zipWith_append hb.1]
    have := hz radec dist (hl1.trans hl2.symm)
    refine ⟨this.1.trans hl1, ?_⟩
    rw [this.2, hf1, hf2, hs]
    apply List.ext_getElem
    · simp
    · intro k q1 q2
      simp

/-- `ra` lies on the arc from `x` to `y` degrees eastwards of `r0`, up to full turns. -/
def OnArc (r0 x y ra : ℝ) : Prop := ∃ m : ℤ, r0 + x ≤ ra + 360 * m ∧ ra + 360 * m < r0 + y

theorem width_le {r : Range} (h : FairRange r) : raWidth r ≤ 360 := by
  rcases h with h | rfl
  · unfold raWidth
    obtain ⟨h1, h2, -⟩ := h
    split <;> linarith
  · norm_num [raWidth]

theorem onArc_iff {r : Range} (h : FairRange r) (d : Option Range) {u v x y : ℝ} (hu : 0 < u ∧ u < 1) (hx : 0 ≤ x) (hy : y ≤ raWidth r)
    (hw : 0 < raWidth r) :
    OnArc r.1 x y (angularCandidate (some r) d u v).1 ↔ x ≤ raWidth r * u ∧ raWidth r * u < y := by
  obtain ⟨k, hk⟩ := candidate_ra d h u v
  have hwl := width_le h
  have a0 : 0 < raWidth r * u := mul_pos hw hu.1
  have a1 : raWidth r * u < raWidth r := by nlinarith [hu.2]
  unfold OnArc
  rw [hk]
  constructor
  · rintro ⟨m, h1, h2⟩
    have hkm : k + m = 0 := by
      have b1 : ((k + m : ℤ) : ℝ) * 360 < 360 := by push_cast; linarith
      have b2 : -360 < ((k + m : ℤ) : ℝ) * 360 := by push_cast; linarith
      have c1 : ((k + m : ℤ) : ℝ) < 1 := by linarith
      have c2 : (-1 : ℝ) < ((k + m : ℤ) : ℝ) := by linarith
      have d1 : k + m < 1 := by exact_mod_cast c1
      have d2 : -1 < k + m := by exact_mod_cast c2
      omega
    have : (k : ℝ) + m = 0 := by exact_mod_cast hkm
    constructor <;> linarith
  · rintro ⟨h1, h2⟩
    refine ⟨-k, ?_, ?_⟩ <;> push_cast <;> linarith

theorem sin_lt_iff {a b : ℝ} (ha : -90 ≤ a ∧ a ≤ 90) (hb : -90 ≤ b ∧ b ≤ 90) : Real.sin (rad a) < Real.sin (rad b) ↔ a < b := by
  have hpi := Real.pi_pos
  have m : ∀ x : ℝ, -90 ≤ x ∧ x ≤ 90 → rad x ∈ Set.Icc (-(Real.pi / 2)) (Real.pi / 2) := by
    intro x hx
    unfold rad
    constructor <;> nlinarith [hx.1, hx.2]
  rw [Real.strictMonoOn_sin.lt_iff_lt (m a ha) (m b hb)]
  unfold rad
  exact mul_lt_mul_iff_left₀ (by positivity)

theorem dec_iff (r : Option Range) {d : Range} (hd : -90 ≤ d.1 ∧ d.1 ≤ d.2 ∧ d.2 ≤ 90) {u v x y : ℝ} (hv : 0 < v ∧ v < 1)
    (hx : d.1 ≤ x ∧ x ≤ d.2) (hy : d.1 ≤ y ∧ y ≤ d.2) :
    (x ≤ (angularCandidate r (some d) u v).2 ∧ (angularCandidate r (some d) u v).2 < y) ↔
      Real.sin (rad x) - Real.sin (rad d.1) ≤ (Real.sin (rad d.2) - Real.sin (rad d.1)) * v ∧
        (Real.sin (rad d.2) - Real.sin (rad d.1)) * v < Real.sin (rad y) - Real.sin (rad d.1) := by
  obtain ⟨h1, h2⟩ := C35_dec_uniform r hd (u := u) ⟨hv.1.le, hv.2.le⟩
  have hb : -90 ≤ (angularCandidate r (some d) u v).2 ∧ (angularCandidate r (some d) u v).2 ≤ 90 :=
    ⟨hd.1.trans h2.1, h2.2.trans hd.2.2⟩
  have e1 := sin_lt_iff hb (b := x) ⟨hd.1.trans hx.1, hx.2.trans hd.2.2⟩
  have e2 := sin_lt_iff hb (b := y) ⟨hd.1.trans hy.1, hy.2.trans hd.2.2⟩
  rw [h1] at e1 e2
  rw [← not_lt, ← e1, ← e2, not_lt]
  constructor
  · rintro ⟨a, b⟩; constructor <;> linarith
  · rintro ⟨a, b⟩; constructor <;> linarith

theorem dist_iff {a b u x y : ℝ} (ha : 0 ≤ a) (hab : a ≤ b) (hu : 0 < u ∧ u < 1) (hx : a ≤ x) (hy : a ≤ y) :
    (x ≤ radialCandidate a b u ∧ radialCandidate a b u < y) ↔ x ^ 3 - a ^ 3 ≤ (b ^ 3 - a ^ 3) * u ∧ (b ^ 3 - a ^ 3) * u < y ^ 3 - a ^ 3 := by
  obtain ⟨h1, h2, -⟩ := C35_radial_uniform ha hab ⟨hu.1.le, hu.2.le⟩
  have e1 := pow_lt_pow_iff_left₀ (ha.trans h2) (ha.trans hx) (n := 3) (by norm_num)
  have e2 := pow_lt_pow_iff_left₀ (ha.trans h2) (ha.trans hy) (n := 3) (by norm_num)
  rw [h1] at e1 e2
  rw [← not_lt, ← e1, ← e2, not_lt]
  constructor
  · rintro ⟨a, b⟩; constructor <;> linarith
  · rintro ⟨a, b⟩; constructor <;> linarith

/-- C102. The points of a random cutsky are independent of each other, with independent direction and distance, uniform on the sphere
and in volume: the chance that the first point lies in some part of the ranges of RA, Dec and distance, the second one in another part and
so on is the product of the parts of the solid angle and of the volume. Both samplings end after one round. -/
theorem C102_cutsky_partial [IsProbabilityMeasure μ] (position : String) {r d D : Range} {n : ℕ} (hn : 0 < n) (nbar : Option ℝ) {nranks : ℕ}
    (hr : 0 < nranks) (hp : FairRange r) (hW : 0 < raWidth r) (hd : -90 ≤ d.1 ∧ d.1 < d.2 ∧ d.2 ≤ 90) (hD : 0 ≤ D.1 ∧ D.1 < D.2)
    {U : (ℕ × ℕ) × Fin 5 → Ω → ℝ} (hU : AreUniform μ U) (ras decs dists : ℕ → ℝ × ℝ)
    (h1 : ∀ k, 0 ≤ (ras k).1 ∧ (ras k).1 ≤ (ras k).2 ∧ (ras k).2 ≤ raWidth r)
    (h2 : ∀ k, d.1 ≤ (decs k).1 ∧ (decs k).1 ≤ (decs k).2 ∧ (decs k).2 ≤ d.2)
    (h3 : ∀ k, D.1 ≤ (dists k).1 ∧ (dists k).1 ≤ (dists k).2 ∧ (dists k).2 ≤ D.2) :
    μ {ω | ∃ out, randomCutsky position r d (some D) (some n) none nbar nranks (fun t i => (U ((t, i), 0) ω, U ((t, i), 1) ω))
        (fun t i => U ((t, i), 2) ω) (fun t i => U ((t, i), 3) ω) (fun t i => U ((t, i), 4) ω) 1 1 = .ok out ∧
        out.map List.length = Blinding.localSizes n nranks ∧
        ∀ k < n, ∃ ra dec dist, out.flatten[k]? = some [("RA", .inl ra), ("DEC", .inl dec), ("Distance", .inl dist),
            ("Position", .inr (skyPoint dist ra dec))] ∧
          OnArc r.1 (ras k).1 (ras k).2 ra ∧ ((decs k).1 ≤ dec ∧ dec < (decs k).2) ∧ ((dists k).1 ≤ dist ∧ dist < (dists k).2)} =
      ∏ k ∈ Finset.range n, ENNReal.ofReal (((ras k).2 - (ras k).1) * (Real.sin (rad (decs k).2) - Real.sin (rad (decs k).1)) /
          (raWidth r * (Real.sin (rad d.2) - Real.sin (rad d.1))) * (((dists k).2 ^ 3 - (dists k).1 ^ 3) / (D.2 ^ 3 - D.1 ^ 3))) := by
  set S : ℝ := Real.sin (rad d.2) - Real.sin (rad d.1) with hS
  have hSpos : 0 < S := sub_pos.2 ((sin_lt_iff ⟨hd.1, hd.2.1.le.trans hd.2.2⟩ ⟨hd.1.trans hd.2.1.le, hd.2.2⟩).2 hd.2.1)
  have hV : 0 < D.2 ^ 3 - D.1 ^ 3 := sub_pos.2 (pow_lt_pow_left₀ hD.2 hD.1 (by norm_num))
  have hsin : ∀ a b : ℝ, -90 ≤ a → a ≤ b → b ≤ 90 → Real.sin (rad a) ≤ Real.sin (rad b) := by
    intro a b ha hab hb
    rcases eq_or_lt_of_le hab with rfl | hab
    · exact le_rfl
    · exact ((sin_lt_iff ⟨ha, hab.le.trans hb⟩ ⟨ha.trans hab.le, hb⟩).2 hab).le
  set L : Fin 3 → ℝ := ![raWidth r, S, D.2 ^ 3 - D.1 ^ 3] with hL
  set a : Fin n × Fin 3 → ℝ := fun q => ![(ras q.1).1, Real.sin (rad (decs q.1).1) - Real.sin (rad d.1), (dists q.1).1 ^ 3 - D.1 ^ 3] q.2 with ha
  set b : Fin n × Fin 3 → ℝ := fun q => ![(ras q.1).2, Real.sin (rad (decs q.1).2) - Real.sin (rad d.1), (dists q.1).2 ^ 3 - D.1 ^ 3] q.2 with hb
  set e : Fin 3 → Fin 5 := ![0, 1, 2] with he
  have hae : ∀ᵐ ω ∂μ, ∀ s, 0 < U s ω ∧ U s ω < 1 := ae_all_iff.2 fun s => uniform_inside (hU.1 s)
  have hset : {ω | ∃ out, randomCutsky position r d (some D) (some n) none nbar nranks (fun t i => (U ((t, i), 0) ω, U ((t, i), 1) ω))
        (fun t i => U ((t, i), 2) ω) (fun t i => U ((t, i), 3) ω) (fun t i => U ((t, i), 4) ω) 1 1 = .ok out ∧
        out.map List.length = Blinding.localSizes n nranks ∧
        ∀ k < n, ∃ ra dec dist, out.flatten[k]? = some [("RA", .inl ra), ("DEC", .inl dec), ("Distance", .inl dist),
            ("Position", .inr (skyPoint dist ra dec))] ∧
          OnArc r.1 (ras k).1 (ras k).2 ra ∧ ((decs k).1 ≤ dec ∧ dec < (decs k).2) ∧ ((dists k).1 ≤ dist ∧ dist < (dists k).2)} =ᵐ[μ]
      {ω | ∀ q : Fin n × Fin 3, a q ≤ L q.2 * U ((0, q.1), e q.2) ω ∧ L q.2 * U ((0, q.1), e q.2) ω < b q} := by
    rw [Filter.eventuallyEq_set]
    filter_upwards [hae] with ω hω
    obtain ⟨-, -, out, ho, hl, hf⟩ := cutsky_rows position (rarange := r) (decrange := d) (drange := D) hn nbar hr
      (uv := fun t i => (U ((t, i), 0) ω, U ((t, i), 1) ω)) (w := fun t i => U ((t, i), 2) ω) (h1 := fun t i => U ((t, i), 3) ω)
      (h2 := fun t i => U ((t, i), 4) ω) hp ⟨hd.1, hd.2.1.le, hd.2.2⟩ ⟨hD.1, hD.2.le⟩ (fun t i => ⟨hω _, hω _⟩) (fun t i => hω _)
      (fun t i => hω _) (fun t i => hω _)
    have hrow : ∀ k < n, ∀ ra dec dist, out.flatten[k]? = some [("RA", .inl ra), ("DEC", .inl dec), ("Distance", .inl dist),
            ("Position", .inr (skyPoint dist ra dec))] ↔
          ra = (angularCandidate (some r) (some d) (U ((0, k), 0) ω) (U ((0, k), 1) ω)).1 ∧
          dec = (angularCandidate (some r) (some d) (U ((0, k), 0) ω) (U ((0, k), 1) ω)).2 ∧
          dist = radialCandidate D.1 D.2 (U ((0, k), 2) ω) := by
      intro k hk ra dec dist
      rw [hf]
      simp only [List.getElem?_map, List.getElem?_range hk, Option.map_some, Option.some.injEq, randomCutskyRow]
      constructor
      · intro h
        simp only [List.cons.injEq, Prod.mk.injEq, Sum.inl.injEq, true_and] at h
        exact ⟨h.1.symm, h.2.1.symm, h.2.2.1.symm⟩
      · rintro ⟨rfl, rfl, rfl⟩
        simp only [List.cons.injEq, Prod.mk.injEq, true_and, and_true, Sum.inr.injEq]
        ext <;> simp [skyToCartesian, Num.val, Num.kind, Kind.join, store, conversion, skyPoint, rad]
    have hiff : ∀ k < n, (∃ ra dec dist, out.flatten[k]? = some [("RA", .inl ra), ("DEC", .inl dec), ("Distance", .inl dist),
            ("Position", .inr (skyPoint dist ra dec))] ∧
          OnArc r.1 (ras k).1 (ras k).2 ra ∧ ((decs k).1 ≤ dec ∧ dec < (decs k).2) ∧ ((dists k).1 ≤ dist ∧ dist < (dists k).2)) ↔
        ((ras k).1 ≤ raWidth r * U ((0, k), 0) ω ∧ raWidth r * U ((0, k), 0) ω < (ras k).2) ∧
        (Real.sin (rad (decs k).1) - Real.sin (rad d.1) ≤ S * U ((0, k), 1) ω ∧
          S * U ((0, k), 1) ω < Real.sin (rad (decs k).2) - Real.sin (rad d.1)) ∧
        ((dists k).1 ^ 3 - D.1 ^ 3 ≤ (D.2 ^ 3 - D.1 ^ 3) * U ((0, k), 2) ω ∧
          (D.2 ^ 3 - D.1 ^ 3) * U ((0, k), 2) ω < (dists k).2 ^ 3 - D.1 ^ 3) := by
      intro k hk
      rw [← onArc_iff hp (some d) (v := U ((0, k), 1) ω) (hω _) (h1 k).1 (h1 k).2.2 hW,
        ← dec_iff (some r) ⟨hd.1, hd.2.1.le, hd.2.2⟩ (u := U ((0, k), 0) ω) (hω _) ⟨(h2 k).1, (h2 k).2.1.trans (h2 k).2.2⟩
          ⟨(h2 k).1.trans (h2 k).2.1, (h2 k).2.2⟩,
        ← dist_iff hD.1 hD.2.le (hω _) (h3 k).1 ((h3 k).1.trans (h3 k).2.1)]
      simp only [hrow k hk]
      constructor
      · rintro ⟨ra, dec, dist, ⟨rfl, rfl, rfl⟩, h⟩
        exact h
      · intro h
        exact ⟨_, _, _, ⟨rfl, rfl, rfl⟩, h⟩
    simp only [ho, Except.ok.injEq, exists_eq_left', hl, true_and]
    constructor
    · intro h
      rintro ⟨k, j⟩
      obtain ⟨p1, p2, p3⟩ := (hiff k k.2).1 (h k k.2)
      fin_cases j
      · exact p1
      · exact p2
      · exact p3
    · intro h k hk
      exact (hiff k hk).2 ⟨h (⟨k, hk⟩, 0), h (⟨k, hk⟩, 1), h (⟨k, hk⟩, 2)⟩
  have hVU : AreUniform μ fun (q : Fin n × Fin 3) => U ((0, q.1), e q.2) := by
    refine ⟨fun q => hU.1 _, hU.2.precomp (g := fun q : Fin n × Fin 3 => ((0, (q.1 : ℕ)), e q.2)) fun q q' h => ?_⟩
    simp only [Prod.mk.injEq, true_and] at h
    refine Prod.ext (Fin.ext h.1) ?_
    have := h.2
    generalize q.2 = j at this
    generalize q'.2 = j' at this
    revert this
    revert j j'
    decide
  rw [measure_congr hset, uniform_all hVU (L := fun q => L q.2) (x := a) (y := b)]
  · rw [Fintype.prod_prod_type, Finset.prod_range]
    apply Finset.prod_congr rfl
    intro k _
    rw [Fin.prod_univ_three]
    simp only [a, b, L, Matrix.cons_val_zero, Matrix.cons_val_one, Matrix.cons_val, sub_sub_sub_cancel_right]
    have q1 : 0 ≤ ((ras k).2 - (ras k).1) / raWidth r := div_nonneg (by linarith [(h1 k).2.1]) hW.le
    have q2 : 0 ≤ (Real.sin (rad (decs k).2) - Real.sin (rad (decs k).1)) / S :=
      div_nonneg (sub_nonneg.2 (hsin _ _ (hd.1.trans (h2 k).1) (h2 k).2.1 ((h2 k).2.2.trans hd.2.2))) hSpos.le
    rw [← ENNReal.ofReal_mul q1, ← ENNReal.ofReal_mul (mul_nonneg q1 q2)]
    congr 1
    field_simp
  · rintro ⟨k, j⟩
    fin_cases j
    · exact hW
    · exact hSpos
    · exact hV
  · rintro ⟨k, j⟩
    fin_cases j
    · exact (h1 k).1
    · exact sub_nonneg.2 (hsin _ _ hd.1 (h2 k).1 ((h2 k).2.1.trans ((h2 k).2.2.trans hd.2.2)))
    · exact sub_nonneg.2 (pow_le_pow_left₀ hD.1 (h3 k).1 3)
  · rintro ⟨k, j⟩
    fin_cases j
    · exact (h1 k).2.2
    · exact sub_le_sub_right (hsin _ _ (hd.1.trans ((h2 k).1.trans (h2 k).2.1)) (h2 k).2.2 hd.2.2) _
    · exact sub_le_sub_right (pow_le_pow_left₀ (hD.1.trans ((h3 k).1.trans (h3 k).2.1)) (h3 k).2.2 3) _

/-- C102 fails for ranges that go through RA 0 given as (-60, 40): no point has an RA between 0 and 40, which is 40% of the range,
whatever the numbers of rounds. -/
theorem C102_crossing_violated [IsProbabilityMeasure μ] (position : String) (d : Range) (D : Option Range) (n nranks n1 n2 : ℕ)
    (nbar : Option ℝ) {U : (ℕ × ℕ) × Fin 5 → Ω → ℝ} (hU : AreUniform μ U) :
    μ {ω | ∃ out, randomCutsky position (-60, 40) d D (some n) none nbar nranks (fun t i => (U ((t, i), 0) ω, U ((t, i), 1) ω))
        (fun t i => U ((t, i), 2) ω) (fun t i => U ((t, i), 3) ω) (fun t i => U ((t, i), 4) ω) n1 n2 = .ok out ∧
        ∃ row ∈ out.flatten, ∀ ra, ("RA", Sum.inl ra) ∈ row → 0 ≤ ra ∧ ra < 40} = 0 := by
  have hae : ∀ᵐ ω ∂μ, ∀ s, 0 < U s ω ∧ U s ω < 1 := ae_all_iff.2 fun s => uniform_inside (hU.1 s)
  rw [← nonpos_iff_eq_zero, ← (ae_iff.1 hae)]
  apply measure_mono
  rintro ω ⟨out, ho, row, hrow, hra⟩ hω
  simp only [randomCutsky, sizeArgument, totalSize, Option.isSome_none, Bool.false_eq_true, if_false, bind, Except.bind] at ho
  rw [if_neg (by omega)] at ho
  obtain ⟨rank, hrank, hr⟩ := List.mem_flatten.1 hrow
  obtain ⟨ra, hm, h1, -⟩ := C35_crossing_violated (fun t i => hω _) ho rank hrank row hr
  have := (hra ra hm).2
  linarith

/-- C102, not vacuous: independent uniform draws exist; half of the points of a random box of side 2 are expected in one half of it. -/
example : ∃ (Ω : Type) (_ : MeasurableSpace Ω) (μ : Measure Ω) (_ : IsProbabilityMeasure μ) (U : ℕ × Fin 3 → Ω → ℝ), AreUniform μ U ∧
    μ {ω | ∃ out, randomBox (some ⟨2, 2, 2⟩) ⟨0, 0, 0⟩ (some 3) none none 2
        (fun i => ⟨U (i, 0) ω - 1 / 2, U (i, 1) ω - 1 / 2, U (i, 2) ω - 1 / 2⟩) = .ok out ∧ out.flatten.length = 3 ∧
        ∀ k < 3, ∃ p, out.flatten[k]? = some p ∧ InCell ⟨-1, -1, -1⟩ ⟨0, 1, 1⟩ p} = ENNReal.ofReal (1 / 2) ^ 3 := by
  obtain ⟨Ω, _, μ, _, U, hU⟩ := exists_areUniform (ℕ × Fin 3)
  refine ⟨Ω, _, μ, ‹_›, U, hU, ?_⟩
  rw [C102_box ⟨2, 2, 2⟩ ⟨0, 0, 0⟩ (by norm_num) 3 none (by norm_num) hU (fun _ => ⟨-1, -1, -1⟩) (fun _ => ⟨0, 1, 1⟩)
    (fun _ => by norm_num [CellInside])]
  simp only [Finset.prod_const, Finset.card_range]
  norm_num [cellVolume]

/-- Ranges of `C102_cutsky_partial`: the whole sky, and 100 degrees through RA 0. -/
example : FairRange (0, 360) ∧ raWidth (0, 360) = 360 ∧ FairRange (300, 40) ∧ raWidth (300, 40) = 100 := by
  refine ⟨Or.inr rfl, by norm_num [raWidth], Or.inl ⟨by norm_num, by norm_num, fun h => ?_⟩, by norm_num [raWidth]⟩
  norm_num at h

end Verif.Props.UniformRandoms
