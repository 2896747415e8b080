import Verif.Props.Sampling
import Verif.Props.Box
import Verif.Props.CutskyLayout

/-!
# C35: random catalogs
-/

namespace Verif.Props
open Verif Verif.Model Verif.Spec

/-- C35: the size is `csize` if given; else an integer within one half of `nbar * volume`. -/
theorem C35_size (nbar volume : ℝ) (h : 0 ≤ nbar * volume) :
    (∀ n : ℕ, catalogSize (some n) nbar volume = n) ∧ 0 ≤ catalogSize none nbar volume ∧
      |(catalogSize none nbar volume : ℝ) - nbar * volume| ≤ 1 / 2 := by
  have h0 : 0 ≤ nbar * volume + 1 / 2 := by linarith
  have e : catalogSize none nbar volume = ⌊nbar * volume + 1 / 2⌋ := by simp only [catalogSize, trunc, if_pos h0]
  refine ⟨fun n => rfl, ?_, ?_⟩
  · rw [e]; exact Int.floor_nonneg.2 h0
  · rw [e, abs_le]
    have h1 := Int.floor_le (nbar * volume + 1 / 2)
    have h2 := Int.lt_floor_add_one (nbar * volume + 1 / 2)
    constructor <;> linarith

/-- C35: all positions of `RandomBoxCatalog` are in the box. -/
theorem C35_box_inside (L c : V3 ℝ) (hL : NonnegSize L) (sizes : List ℕ) (u : ℕ → V3 ℝ)
    (hu : ∀ i, (-(1 / 2) ≤ (u i).x ∧ (u i).x < 1 / 2) ∧ (-(1 / 2) ≤ (u i).y ∧ (u i).y < 1 / 2) ∧
      (-(1 / 2) ≤ (u i).z ∧ (u i).z < 1 / 2)) :
    ∀ rank ∈ randomBoxCatalog L c sizes u, ∀ p ∈ rank, Inside L c p := by
  have key : ∀ l x : ℝ, 0 ≤ l → -(1 / 2) ≤ x → x < 1 / 2 → |l * x| ≤ l / 2 := by
    intro l x h0 h1 h2
    rw [abs_mul, abs_of_nonneg h0]
    have : |x| ≤ 1 / 2 := abs_le.2 ⟨h1, h2.le⟩
    nlinarith
  intro rank hr p hp
  simp only [randomBoxCatalog, List.mem_map] at hr
  obtain ⟨r, -, rfl⟩ := hr
  obtain ⟨i, -, rfl⟩ := List.mem_map.1 hp
  obtain ⟨⟨a, b⟩, ⟨c', d⟩, e, f⟩ := hu ((sizes.take r).sum + i)
  simp only [Inside, randomBoxPosition, V3.emul, V3.add_x, V3.add_y, V3.add_z, add_sub_cancel_right]
  exact ⟨key _ _ hL.1 a b, key _ _ hL.2.1 c' d, key _ _ hL.2.2 e f⟩

/-- C35: each rank has its number of positions, and all of them together, in order, do not depend on the ranks. -/
theorem C35_box_ranks (L c : V3 ℝ) (sizes : List ℕ) (u : ℕ → V3 ℝ) :
    (randomBoxCatalog L c sizes u).map List.length = sizes ∧ (randomBoxCatalog L c sizes u).flatten =
      (List.range sizes.sum).map fun i =>
        (⟨L.x * (u i).x + c.x, L.y * (u i).y + c.y, L.z * (u i).z + c.z⟩ : V3 ℝ) := by
  constructor
  · apply List.ext_getElem
    · simp [randomBoxCatalog]
    · intro r h1 h2
      simp [randomBoxCatalog, List.getElem?_eq_getElem h2]
  · rw [← flatMap_indices sizes, List.map_flatMap, randomBoxCatalog, ← List.flatMap_def]
    apply List.flatMap_congr
    intro r _
    rw [List.map_map]
    rfl

/-- C35: every point strictly inside the box can be drawn. -/
theorem C35_box_reached (L c p : V3 ℝ) (hL : 0 < L.x ∧ 0 < L.y ∧ 0 < L.z)
    (hp : |p.x - c.x| < L.x / 2 ∧ |p.y - c.y| < L.y / 2 ∧ |p.z - c.z| < L.z / 2) :
    ∃ u : V3 ℝ, (-(1 / 2) < u.x ∧ u.x < 1 / 2) ∧ (-(1 / 2) < u.y ∧ u.y < 1 / 2) ∧ (-(1 / 2) < u.z ∧ u.z < 1 / 2) ∧
      randomBoxPosition L c u = p := by
  have key : ∀ l a : ℝ, 0 < l → |a| < l / 2 → -(1 / 2) < a / l ∧ a / l < 1 / 2 := by
    intro l a hl h
    rw [abs_lt] at h
    rw [lt_div_iff₀ hl, div_lt_iff₀ hl]
    constructor <;> linarith
  refine ⟨⟨(p.x - c.x) / L.x, (p.y - c.y) / L.y, (p.z - c.z) / L.z⟩, key _ _ hL.1 hp.1, key _ _ hL.2.1 hp.2.1,
    key _ _ hL.2.2 hp.2.2, ?_⟩
  have := hL.1.ne'; have := hL.2.1.ne'; have := hL.2.2.ne'
  ext <;> simp [randomBoxPosition, V3.emul] <;> field_simp <;> ring

/-! ### Candidates of the angular and radial masks -/

/-- C35: the sine of the declination of candidates is uniform between its values at the ends of the range, the declination
being in the range. -/
theorem C35_dec_uniform (r : Option Range) {d : Range} (hd : -90 ≤ d.1 ∧ d.1 ≤ d.2 ∧ d.2 ≤ 90) {u v : ℝ}
    (hv : 0 ≤ v ∧ v ≤ 1) :
    Real.sin (rad (angularCandidate r (some d) u v).2) =
        Real.sin (rad d.1) + (Real.sin (rad d.2) - Real.sin (rad d.1)) * v ∧
      InRange d (angularCandidate r (some d) u v).2 := by
  have hpi := Real.pi_pos
  have hc : (0 : ℝ) < Real.pi / 180 := by positivity
  have e1 : ∀ x : ℝ, x * Real.pi / 180 = rad x := fun x => by unfold rad; ring
  have b1 : -(Real.pi / 2) ≤ rad d.1 := by unfold rad; nlinarith [hd.1]
  have b2 : rad d.2 ≤ Real.pi / 2 := by unfold rad; nlinarith [hd.2.2]
  have b3 : rad d.1 ≤ rad d.2 := by unfold rad; nlinarith [hd.2.1]
  have hs : Real.sin (rad d.1) ≤ Real.sin (rad d.2) := Real.sin_le_sin_of_le_of_le_pi_div_two b1 b2 b3
  set s := Real.sin (rad d.1) + (Real.sin (rad d.2) - Real.sin (rad d.1)) * v with hsdef
  have s1 : Real.sin (rad d.1) ≤ s := by nlinarith [hv.1]
  have s2 : s ≤ Real.sin (rad d.2) := by nlinarith [hv.2]
  have hval : (angularCandidate r (some d) u v).2 = Real.arcsin s / (Real.pi / 180) := by
    simp only [angularCandidate, angularDecrange, Option.getD_some, e1, hsdef]
  have hrad : rad (Real.arcsin s / (Real.pi / 180)) = Real.arcsin s := div_mul_cancel₀ _ hc.ne'
  rw [hval, hrad]
  refine ⟨Real.sin_arcsin ((Real.neg_one_le_sin _).trans s1) (s2.trans (Real.sin_le_one _)), ?_, ?_⟩
  · rw [le_div_iff₀ hc]
    change rad d.1 ≤ _
    rw [← Real.arcsin_sin b1 (b3.trans b2)]
    exact Real.monotone_arcsin s1
  · rw [div_le_iff₀ hc]
    change _ ≤ rad d.2
    rw [← Real.arcsin_sin (b1.trans b3) b2]
    exact Real.monotone_arcsin s2

/-- C35, partial: for plain ranges the RA of candidates is uniform along the arc: `u` of the way from the first bound,
eastwards, up to full turns, and in [0, 360). -/
theorem C35_ra_uniform_partial {r : Range} (d : Option Range) (h : PlainRange r) (u v : ℝ) :
    ∃ k : ℤ, (angularCandidate (some r) d u v).1 = r.1 + raWidth r * u + k * 360 ∧
      0 ≤ (angularCandidate (some r) d u v).1 ∧ (angularCandidate (some r) d u v).1 < 360 := by
  have hm := pmod_range (show (0 : ℝ) < 360 by norm_num)
  obtain ⟨a0, a1, k, hk⟩ := wrap_deg r.1
  obtain ⟨b0, b1, l, hl⟩ := wrap_deg r.2
  have hw := raWidth_wrap h.1 h.2.1
  have hp := angularRarange_plain h
  by_cases hc : wrapAngle r.2 < wrapAngle r.1
  · have e : (angularCandidate (some r) d u v).1 =
        pmod (wrapAngle r.1 - 360 + (wrapAngle r.2 - (wrapAngle r.1 - 360)) * u) 360 := by
      simp only [angularCandidate, hp, if_pos hc]
    have hw' : raWidth r = wrapAngle r.2 - (wrapAngle r.1 - 360) := by
      rw [← hw]; unfold raWidth; simp only [if_neg (not_le.2 hc)]; ring
    rw [e, ← hw']
    refine ⟨k - 1 - ⌊(wrapAngle r.1 - 360 + raWidth r * u) / 360⌋, ?_, (hm _).1, (hm _).2⟩
    rw [pmod]
    push_cast
    linarith
  · have e : (angularCandidate (some r) d u v).1 =
        pmod (wrapAngle r.1 + (wrapAngle r.2 - wrapAngle r.1) * u) 360 := by
      simp only [angularCandidate, hp, if_neg hc]
    have hw' : raWidth r = wrapAngle r.2 - wrapAngle r.1 := by
      rw [← hw]; unfold raWidth; simp only [if_pos (not_lt.1 hc)]
    rw [e, ← hw']
    refine ⟨k - ⌊(wrapAngle r.1 + raWidth r * u) / 360⌋, ?_, (hm _).1, (hm _).2⟩
    rw [pmod]
    push_cast
    linarith

/-- C35: candidates are all accepted, for plain ranges, whatever the draws of the mask, so that one round is enough. -/
theorem C35_candidates_accepted_partial {r d : Range} (h : PlainRange r) (hd : -90 ≤ d.1 ∧ d.1 ≤ d.2 ∧ d.2 ≤ 90) {u v : ℝ}
    (hu : 0 ≤ u ∧ u < 1) (hv : 0 ≤ v ∧ v < 1) :
    uniformAngularProb 1 (some r) (some d) (angularCandidate (some r) (some d) u v).1
      (some (angularCandidate (some r) (some d) u v).2) = 1 := by
  have h1 := (C35_dec_uniform (some r) hd (u := u) ⟨hv.1, hv.2.le⟩).2
  obtain ⟨k, hk, -⟩ := C35_ra_uniform_partial (some d) h u v
  have hw : 0 ≤ raWidth r := by
    unfold raWidth; split
    · linarith
    · have := h.1; linarith
  rw [(C28_angular_partial 1 d h _ _).1 ⟨⟨-k, ?_, ?_⟩, h1⟩, clip01_eq zero_le_one le_rfl]
  · rw [hk]; push_cast; nlinarith [hu.1]
  · rw [hk]; push_cast; nlinarith [hu.2]

/-- C35: the cube of the distance of candidates is uniform, so that their density in volume is. -/
theorem C35_radial_uniform {a b u : ℝ} (ha : 0 ≤ a) (hab : a ≤ b) (hu : 0 ≤ u ∧ u ≤ 1) :
    radialCandidate a b u ^ 3 = a ^ 3 + (b ^ 3 - a ^ 3) * u ∧ a ≤ radialCandidate a b u ∧ radialCandidate a b u ≤ b := by
  have h3 : a ^ 3 ≤ b ^ 3 := by gcongr
  have h0 : 0 ≤ a ^ 3 := by positivity
  have hx0 : a ^ 3 ≤ a ^ 3 + (b ^ 3 - a ^ 3) * u := by nlinarith [hu.1]
  have hx1 : a ^ 3 + (b ^ 3 - a ^ 3) * u ≤ b ^ 3 := by nlinarith [hu.2]
  have e : radialCandidate a b u ^ 3 = a ^ 3 + (b ^ 3 - a ^ 3) * u := by
    unfold radialCandidate
    rw [← Real.rpow_natCast, ← Real.rpow_mul (h0.trans hx0)]
    norm_num
  have hr : 0 ≤ radialCandidate a b u := Real.rpow_nonneg (h0.trans hx0) _
  refine ⟨e, ?_, ?_⟩
  · by_contra hc
    have : radialCandidate a b u ^ 3 < a ^ 3 := pow_lt_pow_left₀ (not_le.1 hc) hr (by norm_num)
    linarith
  · by_contra hc
    have : b ^ 3 < radialCandidate a b u ^ 3 := pow_lt_pow_left₀ (not_le.1 hc) (ha.trans hab) (by norm_num)
    linarith

/-! ### `RandomCutskyCatalog` -/

/-- Draws in (0, 1). -/
def Draws (h : ℕ → ℕ → ℝ) : Prop := ∀ t i, 0 < h t i ∧ h t i < 1

/-- What C35 says of a row of the catalog: its columns, in range and consistent with each other. -/
def RowOk (rarange decrange : Range) (drange : Option Range) (row : List (String × (ℝ ⊕ V3 ℝ))) : Prop :=
  ∃ ra dec dist : ℝ, row = [("RA", .inl ra), ("DEC", .inl dec), ("Distance", .inl dist),
      ("Position", .inr (skyPoint dist ra dec))] ∧ InRa rarange ra ∧ InRange decrange dec ∧
    match drange with
    | none => dist = 1
    | some d => InRange d dist

theorem angular_in_range {r d : Range} (h : PlainRange r) {cand : ℕ → ℕ → ℝ × ℝ} {hid : ℕ → ℕ → ℝ} (hh : Draws hid) {t i : ℕ}
    (ha : angularDecisions r d cand hid t i = true) : InRa r (cand t i).1 ∧ InRange d (cand t i).2 := by
  by_contra hc
  have := (C28_angular_partial 1 d h (cand t i).1 (cand t i).2).2 hc
  simp only [angularDecisions, decide_eq_true_eq, this] at ha
  exact absurd ha (not_le.2 (hh t i).1)

theorem radial_in_range {d : Range} {cand : ℕ → ℕ → ℝ} {hid : ℕ → ℕ → ℝ} (hh : Draws hid) {t i : ℕ}
    (ha : radialDecisions d cand hid t i = true) : InRange d (cand t i) := by
  by_contra hc
  have := (C28_radial 1 d (cand t i)).2 hc
  simp only [radialDecisions, decide_eq_true_eq, this] at ha
  exact absurd ha (not_le.2 (hh t i).1)

theorem mem_zipWith {α β γ : Type} {f : α → β → γ} {l : List α} {m : List β} {x : γ} (h : x ∈ List.zipWith f l m) :
    ∃ a ∈ l, ∃ b ∈ m, x = f a b := by
  induction l generalizing m with
  | nil => simp at h
  | cons a l ih =>
    cases m with
    | nil => simp at h
    | cons b m =>
      rw [List.zipWith_cons_cons, List.mem_cons] at h
      rcases h with rfl | h
      · exact ⟨a, by simp, b, by simp, rfl⟩
      · obtain ⟨a', h1, b', h2, h3⟩ := ih h
        exact ⟨a', by simp [h1], b', by simp [h2], h3⟩

/-- C35, partial: all rows of `RandomCutskyCatalog` are in the ranges, with a consistent column 'Position', for plain RA
ranges (draws of the mask not exactly zero, see C26). -/
theorem C35_cutsky_rows_partial {position : String} {rarange decrange : Range} {drange : Option Range} {sizes : List ℕ}
    {uv : ℕ → ℕ → ℝ × ℝ} {w h1 h2 : ℕ → ℕ → ℝ} {n1 n2 : ℕ} {out : List (List (List (String × (ℝ ⊕ V3 ℝ))))}
    (hp : PlainRange rarange) (hh1 : Draws h1) (hh2 : Draws h2)
    (h : randomCutskyCatalog position rarange decrange drange sizes uv w h1 h2 n1 n2 = .ok out) :
    ∀ rank ∈ out, ∀ row ∈ rank, RowOk rarange decrange drange row := by
  unfold randomCutskyCatalog at h
  simp only [bind, Except.bind] at h
  split at h
  · simp at h
  rename_i radec hra
  split at h
  · simp at h
  rename_i dist hdist
  simp only [Except.ok.injEq] at h
  subst h
  intro rank hrank row hrow
  obtain ⟨la, hla, ld, hld, rfl⟩ := mem_zipWith hrank
  obtain ⟨a, hal, d, hdl, rfl⟩ := mem_zipWith hrow
  obtain ⟨t, -, i, -, hacc, rfl⟩ := C30_accepted _ _ hra la hla a hal
  obtain ⟨r1, r2⟩ := angular_in_range hp hh1 hacc
  refine ⟨_, _, d, ?_, r1, r2, ?_⟩
  · simp only [randomCutskyRow, List.cons.injEq, Prod.mk.injEq, true_and, and_true, Sum.inr.injEq]
    ext <;> simp [skyToCartesian, Num.val, Num.kind, Kind.join, store, conversion, skyPoint, rad]
  · cases drange with
    | none =>
      simp only [randomDistances, Except.ok.injEq] at hdist
      subst hdist
      obtain ⟨l, -, rfl⟩ := List.mem_map.1 hld
      obtain ⟨x, -, rfl⟩ := List.mem_map.1 hdl
      rfl
    | some dr =>
      simp only [randomDistances] at hdist
      obtain ⟨t, -, i, -, hacc, rfl⟩ := C30_accepted _ _ hdist ld hld d hdl
      exact radial_in_range hh2 hacc

/-- C35, partial: for plain RA ranges, and at least one point requested, both samplings end after one round and each rank has
its number of rows. -/
theorem C35_cutsky_size_partial (position : String) {rarange decrange : Range} {drange : Option Range} {sizes : List ℕ}
    {uv : ℕ → ℕ → ℝ × ℝ} {w h1 h2 : ℕ → ℕ → ℝ} (hp : PlainRange rarange)
    (hd : -90 ≤ decrange.1 ∧ decrange.1 ≤ decrange.2 ∧ decrange.2 ≤ 90)
    (hdr : ∀ d, drange = some d → 0 ≤ d.1 ∧ d.1 ≤ d.2) (hs : 0 < sizes.sum)
    (huv : ∀ t i, (0 ≤ (uv t i).1 ∧ (uv t i).1 < 1) ∧ (0 ≤ (uv t i).2 ∧ (uv t i).2 < 1))
    (hw : ∀ t i, 0 ≤ w t i ∧ w t i < 1) (hh1 : Draws h1) (hh2 : Draws h2) :
    ∃ out, randomCutskyCatalog position rarange decrange drange sizes uv w h1 h2 1 1 = .ok out ∧
      out.map List.length = sizes := by
  have acc1 : ∀ t i, angularDecisions rarange decrange
      (fun t i => angularCandidate (some rarange) (some decrange) (uv t i).1 (uv t i).2) h1 t i = true := fun t i => by
    simp only [angularDecisions, decide_eq_true_eq,
      C35_candidates_accepted_partial hp hd (huv t i).1 (huv t i).2]
    exact (hh1 t i).2.le
  have stop1 := (C31_all_accepted_partial (fun t i => angularCandidate (some rarange) (some decrange) (uv t i).1 (uv t i).2)
    _ hs (fun i _ => acc1 0 i)).1
  obtain ⟨radec, hra, hlen⟩ := C30_size_partial _ _ sizes 1 hs stop1
  have hdist : ∃ dist, randomDistances drange sizes w h2 1 radec = .ok dist ∧ dist.map List.length = sizes := by
    cases drange with
    | none =>
      refine ⟨_, rfl, ?_⟩
      rw [List.map_map, ← hlen]
      congr 1
      funext l
      simp
    | some d =>
      have acc2 : ∀ t i, radialDecisions d (fun t i => radialCandidate d.1 d.2 (w t i)) h2 t i = true := fun t i => by
        obtain ⟨d0, d1⟩ := hdr d rfl
        have hr := C35_radial_uniform d0 d1 ⟨(hw t i).1, (hw t i).2.le⟩
        simp only [radialDecisions, decide_eq_true_eq, (C28_radial 1 d _).1 hr.2, clip01_eq zero_le_one le_rfl]
        exact (hh2 t i).2.le
      have stop2 := (C31_all_accepted_partial (fun t i => radialCandidate d.1 d.2 (w t i)) _ hs (fun i _ => acc2 0 i)).1
      exact C30_size_partial _ _ sizes 1 hs stop2
  obtain ⟨dist, hdi, hlen'⟩ := hdist
  refine ⟨List.zipWith (List.zipWith fun a d => randomCutskyRow position a.1 a.2 d) radec dist,
    by simp only [randomCutskyCatalog, hra, hdi, bind, Except.bind], ?_⟩
  have hz : ∀ (a : List (List (ℝ × ℝ))) (b : List (List ℝ)), a.map List.length = b.map List.length →
      (List.zipWith (List.zipWith fun a d => randomCutskyRow position a.1 a.2 d) a b).map List.length =
        a.map List.length := by
    intro a
    induction a with
    | nil => simp
    | cons x a ih =>
      intro b hb
      cases b with
      | nil => simp at hb
      | cons y b =>
        simp only [List.map_cons, List.cons.injEq] at hb
        simp [ih b hb.2, hb.1]
  rw [hz _ _ (hlen.trans hlen'.symm), hlen]

/-- C35 fails: the position column is not under the requested name. -/
theorem C35_position_violated (ra dec dist : ℝ) : ∀ c ∈ randomCutskyRow "XYZ" ra dec dist, c.1 ≠ "XYZ" := by
  simp [randomCutskyRow]

/-- C35 fails: for the range (300, 40), the number of points derived from a density is negative. -/
theorem C35_wrapped_size_violated (nbar : ℝ) (h : 1 ≤ nbar) :
    catalogSize none nbar (radecboxArea (300, 40) (-90, 90)) < 0 ∧ 0 < radecboxArea (300, 400) (-90, 90) := by
  have hpi := Real.pi_pos
  have hpi4 := Real.pi_le_four
  have e1 : Real.sin (90 * (Real.pi / 180)) = 1 := by rw [← Real.sin_pi_div_two]; congr 1; ring
  have e2 : Real.sin (-90 * (Real.pi / 180)) = -1 := by rw [neg_mul, Real.sin_neg, e1]
  have hq : 45 ≤ 180 / Real.pi := by rw [le_div_iff₀ hpi]; linarith
  have a1 : radecboxArea (300, 40) (-90, 90) = -(520 * (180 / Real.pi)) := by
    simp only [radecboxArea, rad2deg, deg2rad, e1, e2]; ring
  have a2 : radecboxArea (300, 400) (-90, 90) = 200 * (180 / Real.pi) := by
    simp only [radecboxArea, rad2deg, deg2rad, e1, e2]; ring
  rw [a1, a2]
  refine ⟨?_, by linarith⟩
  have hneg : nbar * -(520 * (180 / Real.pi)) + 1 / 2 ≤ -1 := by nlinarith
  have h0 : ¬ 0 ≤ nbar * -(520 * (180 / Real.pi)) + 1 / 2 := by linarith
  simp only [catalogSize, trunc, if_neg h0]
  have : ⌈nbar * -(520 * (180 / Real.pi)) + 1 / 2⌉ ≤ -1 := Int.ceil_le.2 (by push_cast; exact hneg)
  omega

/-- C35 fails: for the range (-60, 40), all points have an RA between 300 and 360, none between 0 and 40. -/
theorem C35_crossing_violated {position : String} {decrange : Range} {drange : Option Range} {sizes : List ℕ}
    {uv : ℕ → ℕ → ℝ × ℝ} {w h1 h2 : ℕ → ℕ → ℝ} {n1 n2 : ℕ} {out : List (List (List (String × (ℝ ⊕ V3 ℝ))))}
    (hh1 : Draws h1)
    (h : randomCutskyCatalog position (-60, 40) decrange drange sizes uv w h1 h2 n1 n2 = .ok out) :
    ∀ rank ∈ out, ∀ row ∈ rank, ∃ ra, ("RA", Sum.inl ra) ∈ row ∧ 300 ≤ ra ∧ ra < 360 := by
  have w0 : wrapAngle (-60) = 300 := C23_wrap_unique true (by norm_num) (by norm_num [turn]) 1 (by norm_num [turn])
  have w1 : wrapAngle 40 = 40 := C23_wrap_unique true (by norm_num) (by norm_num [turn]) 0 (by simp)
  have hc : (-60 : ℝ) < 40 ∧ wrapAngle 40 ≤ wrapAngle (-60) := by rw [w0, w1]; norm_num
  unfold randomCutskyCatalog at h
  simp only [bind, Except.bind] at h
  split at h
  · simp at h
  rename_i radec hra
  split at h
  · simp at h
  simp only [Except.ok.injEq] at h
  subst h
  intro rank hrank row hrow
  obtain ⟨la, hla, ld, hld, rfl⟩ := mem_zipWith hrank
  obtain ⟨a, hal, d, hdl, rfl⟩ := mem_zipWith hrow
  obtain ⟨t, -, i, -, hacc, rfl⟩ := C30_accepted _ _ hra la hla a hal
  have hm := pmod_range (show (0 : ℝ) < 360 by norm_num)
  have hlt : (angularCandidate (some (-60, 40)) (some decrange) (uv t i).1 (uv t i).2).1 < 360 := (hm _).2
  have hge : 0 ≤ (angularCandidate (some (-60, 40)) (some decrange) (uv t i).1 (uv t i).2).1 := (hm _).1
  refine ⟨_, by simp only [randomCutskyRow, List.mem_cons, true_or], ?_, hlt⟩
  simp only [angularDecisions, decide_eq_true_eq] at hacc
  rw [C28_crossing_partial 1 decrange hc.1 hc.2] at hacc
  by_contra hn
  rw [if_neg] at hacc
  · exact absurd hacc (not_le.2 (hh1 t i).1)
  · rintro ⟨hx, -⟩
    have hwr : wrapAngle (angularCandidate (some (-60, 40)) (some decrange) (uv t i).1 (uv t i).2).1 =
        (angularCandidate (some (-60, 40)) (some decrange) (uv t i).1 (uv t i).2).1 :=
      C23_wrap_unique true hge (by simpa [turn] using hlt) 0 (by simp)
    rw [hwr, w0] at hx
    exact hn hx

/-- Non-vacuity: a plain range, with a distance range, two ranks. -/
example : ∃ out, randomCutskyCatalog "Position" (300, 40) (-10, 20) (some (1, 2)) [2, 1] (fun _ _ => (1 / 2, 1 / 4))
    (fun _ _ => 1 / 3) (fun _ _ => 1 / 2) (fun _ _ => 1 / 2) 1 1 = .ok out ∧ out.map List.length = [2, 1] :=
  C35_cutsky_size_partial _ ⟨by norm_num, by norm_num, by norm_num⟩ (by norm_num)
    (by rintro d ⟨⟩; norm_num) (by norm_num) (fun _ _ => by norm_num) (fun _ _ => by norm_num) (fun _ _ => by norm_num)
    (fun _ _ => by norm_num)

end Verif.Props
