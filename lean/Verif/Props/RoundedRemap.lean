import Verif.Props.Remap
import Verif.Props.Rounded
import Verif.Lemmas.RoundedGap

/-!
# C114: cuboid remapping with rounding errors
-/

namespace Verif.Props

open Verif Verif.Model Verif.Model.Remap Verif.Model.RoundedRemap

namespace RoundedRemap

variable {F : Fmt}

/-- Position of the unit cube. -/
def InUnit (p : V3 ℝ) : Prop := (0 ≤ p.x ∧ p.x ≤ 1) ∧ (0 ≤ p.y ∧ p.y ≤ 1) ∧ (0 ≤ p.z ∧ p.z ≤ 1)

/-- C114: `transform` raises `CuboidError` as soon as one position is in no cell, and only then. -/
theorem C114_error (c : Cuboid) (ps : List (V3 ℝ)) :
    transformF F c ps false = .error .cuboidError ↔ ∃ p ∈ ps, ∀ d ∈ c.cells, ¬ isinF F d (edivF F p c.boxsize) := by
  unfold transformF
  simp only [Bool.false_eq_true, if_false]
  split_ifs with h
  · simp only [false_iff]
    rintro ⟨p, hp, hn⟩
    rw [List.all_eq_true] at h
    have := h _ (List.mem_map.2 ⟨p, hp, rfl⟩)
    obtain ⟨d, hd, hi⟩ := applyCellsF_found.1 this
    exact hn d hd hi
  · simp only [true_iff]
    by_contra hn
    push Not at hn
    apply h
    rw [List.all_eq_true]
    intro s hs
    obtain ⟨p, hp, rfl⟩ := List.mem_map.1 hs
    exact applyCellsF_found.2 (hn p hp)

/-- C114: leaving out the faces with the unit cube above and the tiles below a face is harmless, whatever the rounding errors:
a position of the unit cube found in a cell is accepted by the six faces of the cuboid in the tile of the cell; conversely, if it is
strictly above the six faces of a tile, a cell is made for the tile, where it is found, unless all faces have the cube above. -/
theorem C114_pruning (e1 e2 e3 p : V3 ℝ) (hp : InUnit p) :
    (∀ c ∈ keptCellsF F e1 e2 e3, isinF F c p ↔ ∀ f ∈ tileFacesF F e1 e2 e3 c.ipos, 0 ≤ testF F f p) ∧
    ∀ i ∈ tilesF F e1 e2 e3, (∀ f ∈ tileFacesF F e1 e2 e3 i, 0 < testF F f p) →
      (∃ c ∈ keptCellsF F e1 e2 e3, c.ipos = i ∧ isinF F c p) ∨
      ∀ q, InUnit q → ∀ f ∈ tileFacesF F e1 e2 e3 i, 0 ≤ testF F f q := by
  obtain ⟨hx, hy, hz⟩ := hp
  have key : ∀ c ∈ keptCellsF F e1 e2 e3, isinF F c p ↔ ∀ f ∈ tileFacesF F e1 e2 e3 c.ipos, 0 ≤ testF F f p := by
    intro c hc
    obtain ⟨-, -, hs⟩ := mem_keptCellsF.1 hc
    exact scanFacesF_accepts hx hy hz _ _ hs
  refine ⟨key, fun i hi h => ?_⟩
  rcases hs : scanFacesF F (tileFacesF F e1 e2 e3 i) with _ | gs
  · obtain ⟨f, hf, hle⟩ := scanFacesF_none hx hy hz _ hs
    exact absurd (h f hf) (not_lt.2 hle)
  · rcases gs with _ | ⟨g, gs⟩
    · right
      rintro q ⟨qx, qy, qz⟩
      exact (scanFacesF_accepts qx qy qz _ _ hs).1 (by simp)
    · left
      have hc : (⟨i, g :: gs⟩ : Cell) ∈ keptCellsF F e1 e2 e3 := mem_keptCellsF.2 ⟨hi, by simp, hs⟩
      exact ⟨_, hc, rfl, (key _ hc).2 fun f hf => (h f hf).le⟩

/-- Sum of the absolute values of the products. -/
def absDot (u v : V3 ℝ) : ℝ := |u.x * v.x| + |u.y * v.y| + |u.z * v.z|

theorem dotF_err (u v : V3 ℝ) : |dotF F u v - V3.dot u v| ≤ 4 * F.u * absDot u v + 4 * 2 ^ F.emin := by
  unfold dotF V3.dot absDot
  generalize u.x * v.x = a
  generalize u.y * v.y = b
  generalize u.z * v.z = c
  have hu := Fmt.u_pos (F := F)
  have hu4 := Fmt.u_le (F := F)
  have hη := Fmt.two_zpow_pos F.emin
  have ea := Fmt.rnd_err_all (F := F) a
  have eb := Fmt.rnd_err_all (F := F) b
  have ec := Fmt.rnd_err_all (F := F) c
  set a' := F.rnd a
  set b' := F.rnd b
  set c' := F.rnd c
  have es := Fmt.rnd_err_all (F := F) (a' + b')
  set s := F.rnd (a' + b')
  have et := Fmt.rnd_err_all (F := F) (s + c')
  set t := F.rnd (s + c')
  set η := (2 : ℝ) ^ F.emin
  have bd : ∀ x y d : ℝ, |x - y| ≤ d → |x| ≤ |y| + d := by
    intro x y d h
    have := abs_sub_abs_le_abs_sub x y
    linarith
  have A := bd _ _ _ ea
  have B := bd _ _ _ eb
  have C := bd _ _ _ ec
  have S0 := abs_add_le a' b'
  have S := bd _ _ _ es
  have T0 := abs_add_le s c'
  have tri : |t - (a + b + c)| ≤ |t - (s + c')| + |s - (a' + b')| + |a' - a| + |b' - b| + |c' - c| := by
    have e : t - (a + b + c) = (t - (s + c')) + (s - (a' + b')) + (a' - a) + (b' - b) + (c' - c) := by ring
    rw [e]
    refine (abs_add_le _ _).trans (add_le_add_left ((abs_add_le _ _).trans (add_le_add_left ((abs_add_le _ _).trans
      (add_le_add_left (abs_add_le _ _) _)) _)) _)
  have ha := abs_nonneg a
  have hb := abs_nonneg b
  have hc := abs_nonneg c
  set w := F.u
  have mA : w * |a'| ≤ w * (|a| + (w * |a| + η / 2)) := mul_le_mul_of_nonneg_left A hu.le
  have mB : w * |b'| ≤ w * (|b| + (w * |b| + η / 2)) := mul_le_mul_of_nonneg_left B hu.le
  have mC : w * |c'| ≤ w * (|c| + (w * |c| + η / 2)) := mul_le_mul_of_nonneg_left C hu.le
  have mS0 : w * |a' + b'| ≤ w * |a'| + w * |b'| := by rw [← mul_add]; exact mul_le_mul_of_nonneg_left S0 hu.le
  have mS : w * |s| ≤ w * (|a' + b'| + (w * |a' + b'| + η / 2)) := mul_le_mul_of_nonneg_left S hu.le
  have mT : w * |s + c'| ≤ w * |s| + w * |c'| := by rw [← mul_add]; exact mul_le_mul_of_nonneg_left T0 hu.le
  have q : ∀ x, 0 ≤ x → w * x ≤ x / 4 := fun x hx => by nlinarith
  have q1 := q (w * |a|) (by positivity)
  have q2 := q (w * |b|) (by positivity)
  have q3 := q (w * |c|) (by positivity)
  have q4 := q η hη.le
  have q5 := q (w * |a' + b'|) (by positivity)
  have q6 := q (w * (w * |a|)) (by positivity)
  have q7 := q (w * (w * |b|)) (by positivity)
  have q8 := q (w * η) (by positivity)
  ring_nf at *
  nlinarith

/-- C114: a face decides as in exact arithmetic for positions farther from it than four rounding errors. -/
theorem C114_margin (f : Plane) (p : V3 ℝ) :
    (4 * F.u * absDot f.n p + 4 * 2 ^ F.emin ≤ f.test p → 0 ≤ testF F f p) ∧
    (testF F f p < 0 → f.test p < 4 * F.u * absDot f.n p + 4 * 2 ^ F.emin) ∧
    (f.test p < -(4 * F.u * absDot f.n p + 4 * 2 ^ F.emin) → testF F f p ≤ 0) := by
  have h := abs_le.1 (dotF_err (F := F) f.n p)
  unfold Plane.test testF
  have pos : ∀ x : ℝ, 0 ≤ x → 0 ≤ F.rnd x := fun x hx => Fmt.rnd_nonneg hx
  refine ⟨fun hm => pos _ (by linarith [h.1]), fun hn => ?_, fun hm => ?_⟩
  · by_contra hc
    exact absurd (pos (dotF F f.n p + f.d) (by linarith [h.1, not_lt.1 hc])) (not_le.2 hn)
  · have := pos (-(dotF F f.n p + f.d)) (by linarith [h.2])
    rw [Fmt.rnd_neg] at this
    linarith

/-- With rounding errors, `transform` returns for all positions of the box, as in exact arithmetic (`C10_total`). -/
def NoGap (F : Fmt) : Prop :=
  ∀ (u1 u2 u3 : V3 ℤ) (L : V3 ℝ) (c : Cuboid) (p : V3 ℝ), PosBox L → F.IsFloat L.x → F.IsFloat L.y → F.IsFloat L.z →
    initF F u1 u2 u3 L = .ok c → F.IsFloat p.x → F.IsFloat p.y → F.IsFloat p.z → InBox L p → ∃ q, transformF F c [p] false = .ok q

/-- Cells of lattice vectors (2, 1, 0), (1, 1, 0), (0, 0, 1): none has the position. -/
theorem gap_cells (z : ℝ) (hz : 0 ≤ z ∧ z ≤ 1) (c : Cell)
    (hc : c ∈ keptCellsF binary64 ⟨2, 1, 0⟩ ⟨-(900719925474099 / 2 ^ 52), 3602879701896397 / 2 ^ 53, 0⟩ ⟨0, 0, 1⟩) :
    ¬ isinF binary64 c ⟨1 / 2 ^ 2, 9007199254740989 / 2 ^ 56, z⟩ := by
  have hp : InUnit ⟨1 / 2 ^ 2, 9007199254740989 / 2 ^ 56, z⟩ := ⟨by norm_num, by norm_num, hz⟩
  rw [(C114_pruning _ _ _ _ hp).1 c hc]
  have ht := (mem_keptCellsF.1 hc).1
  intro h
  rcases gap_tiles _ ht with e | e | e | e | e | e <;> rw [e] at h <;>
    simp only [tileFacesF, gap_shift, gap_unit1, gap_unit2, gap_unit3, List.mem_cons, List.not_mem_nil, or_false, forall_eq_or_imp,
      forall_eq, Int.cast_neg, Int.cast_one, Int.cast_zero, neg_neg, neg_zero] at h
  · exact absurd h.1 (not_le.2 (gap_test0 z))
  · exact absurd h.2.2.2.1 (not_le.2 (gap_test1 z))
  · exact absurd h.2.2.1 (not_le.2 (gap_test2 z))
  · exact absurd h.2.2.2.1 (not_le.2 (gap_test3 z))
  · exact absurd h.2.2.1 (not_le.2 (gap_test4 z))
  · exact absurd h.2.2.2.1 (not_le.2 (gap_test5 z))

/-- C114, what happens instead: rounding errors leave gaps between cells. In double precision, with lattice vectors (2, 1, 0), (1, 1, 0),
(0, 0, 1) and the default box, every catalog with a position (1/4, 1/8 - 3/2^56, z) raises `CuboidError`, whatever z in [0, 1]; in exact
arithmetic all catalogs in the box are remapped. -/
theorem C114_gap_violated :
    (∃ c, initF binary64 ⟨2, 1, 0⟩ ⟨1, 1, 0⟩ ⟨0, 0, 1⟩ ⟨1, 1, 1⟩ = .ok c ∧
      ∀ z, binary64.IsFloat z → 0 ≤ z → z ≤ 1 → ∀ ps, (⟨1 / 4, 1 / 8 - 3 / 2 ^ 56, z⟩ : V3 ℝ) ∈ ps →
        transformF binary64 c ps false = .error .cuboidError) ∧
    (∃ c, Cuboid.init (toReal ⟨2, 1, 0⟩) (toReal ⟨1, 1, 0⟩) (toReal ⟨0, 0, 1⟩) ⟨1, 1, 1⟩ = .ok c ∧
      ∀ ps, (∀ p ∈ ps, InBox ⟨1, 1, 1⟩ p) → ∃ qs, c.transform ps false = .ok qs) ∧
    ¬ NoGap binary64 := by
  have init : ∃ c, initF binary64 ⟨2, 1, 0⟩ ⟨1, 1, 0⟩ ⟨0, 0, 1⟩ ⟨1, 1, 1⟩ = .ok c ∧
      ∀ z, binary64.IsFloat z → 0 ≤ z → z ≤ 1 → ∀ ps, (⟨1 / 4, 1 / 8 - 3 / 2 ^ 56, z⟩ : V3 ℝ) ∈ ps →
        transformF binary64 c ps false = .error .cuboidError := by
    unfold initF
    rw [if_neg (by norm_num [det3])]
    have e1 : toReal ⟨2, 1, 0⟩ = ⟨2, 1, 0⟩ := by simp [toReal]
    have e2 : toReal ⟨1, 1, 0⟩ = ⟨1, 1, 0⟩ := by simp [toReal]
    have e3 : toReal ⟨0, 0, 1⟩ = ⟨0, 0, 1⟩ := by simp [toReal]
    rw [e1, e2, e3, gap_orthogonalize]
    refine ⟨_, rfl, fun z hz h0 h1 ps hps => (C114_error _ _).2 ⟨_, hps, ?_⟩⟩
    have hy : binary64.IsFloat (9007199254740989 / 2 ^ 56) :=
      ⟨9007199254740989, -56, by norm_num [binary64], by norm_num [binary64], by norm_num⟩
    have hx : binary64.IsFloat (1 / 2 ^ 2) := ⟨1, -2, by norm_num [binary64], by norm_num [binary64], by norm_num⟩
    have hp : edivF binary64 ⟨1 / 4, 1 / 8 - 3 / 2 ^ 56, z⟩ ⟨1, 1, 1⟩ = ⟨1 / 2 ^ 2, 9007199254740989 / 2 ^ 56, z⟩ := by
      unfold edivF
      simp only [div_one]
      rw [show (1 / 4 : ℝ) = 1 / 2 ^ 2 by norm_num, show (1 / 8 - 3 / 2 ^ 56 : ℝ) = 9007199254740989 / 2 ^ 56 by norm_num,
        Fmt.rnd_exact hx, Fmt.rnd_exact hy, Fmt.rnd_exact hz]
    simp only
    rw [hp]
    intro d hd
    unfold makeCellsF at hd
    rcases hk : keptCellsF binary64 ⟨2, 1, 0⟩ ⟨-(900719925474099 / 2 ^ 52), 3602879701896397 / 2 ^ 53, 0⟩ ⟨0, 0, 1⟩ with _ | ⟨c, cs⟩
    · exfalso
      rcases (C114_pruning (F := binary64) ⟨2, 1, 0⟩ ⟨-(900719925474099 / 2 ^ 52), 3602879701896397 / 2 ^ 53, 0⟩ ⟨0, 0, 1⟩
        ⟨1 / 2 ^ 2, 1 / 2 ^ 1, 1 / 2 ^ 1⟩ (by norm_num [InUnit])).2 _ gap_tile (by
          simp only [tileFacesF, gap_shift, gap_unit1, gap_unit2, gap_unit3, List.mem_cons, List.not_mem_nil, or_false,
            forall_eq_or_imp, forall_eq, Int.cast_zero, neg_zero]
          exact ⟨gap_inside0, gap_inside1, gap_inside2, gap_inside3, gap_inside4, gap_inside5⟩) with h | h
      · obtain ⟨c, hc, -⟩ := h
        rw [hk] at hc
        simp at hc
      · have := h ⟨1 / 2 ^ 2, 9007199254740989 / 2 ^ 56, z⟩ ⟨by norm_num, by norm_num, h0, h1⟩
        simp only [tileFacesF, gap_shift, gap_unit1, gap_unit2, gap_unit3, List.mem_cons, List.not_mem_nil, or_false,
          forall_eq_or_imp, forall_eq, Int.cast_zero, neg_zero] at this
        exact absurd this.2.2.1 (not_le.2 (gap_test2 z))
    · rw [hk] at hd
      exact gap_cells z ⟨h0, h1⟩ d (hk ▸ hd)
  refine ⟨init, ?_, ?_⟩
  · obtain ⟨c, hc⟩ := (C10_init ⟨2, 1, 0⟩ ⟨1, 1, 0⟩ ⟨0, 0, 1⟩ ⟨1, 1, 1⟩).1 (by norm_num [det3])
    refine ⟨c, hc, fun ps hps => ?_⟩
    obtain ⟨qs, hq, -⟩ := C10_total ⟨hc, by norm_num [PosBox]⟩ ps hps
    exact ⟨qs, hq⟩
  · intro h
    obtain ⟨c, hc, hg⟩ := init
    have f1 : binary64.IsFloat 1 := ⟨1, 0, by norm_num [binary64], by norm_num [binary64], by norm_num⟩
    have f0 : binary64.IsFloat 0 := ⟨0, 0, by norm_num [binary64], by norm_num [binary64], by norm_num⟩
    have hy : binary64.IsFloat (1 / 8 - 3 / 2 ^ 56) :=
      ⟨9007199254740989, -56, by norm_num [binary64], by norm_num [binary64], by norm_num⟩
    have hx : binary64.IsFloat (1 / 4) := ⟨1, -2, by norm_num [binary64], by norm_num [binary64], by norm_num⟩
    obtain ⟨q, hq⟩ := h ⟨2, 1, 0⟩ ⟨1, 1, 0⟩ ⟨0, 0, 1⟩ ⟨1, 1, 1⟩ c ⟨1 / 4, 1 / 8 - 3 / 2 ^ 56, 0⟩ (by norm_num [PosBox]) f1 f1 f1 hc
      hx hy f0 (by norm_num [InBox])
    rw [hg 0 f0 le_rfl zero_le_one _ (List.mem_singleton.2 rfl)] at hq
    cases hq

theorem one_float : F.IsFloat 1 := by
  refine ⟨1, 0, ?_, ?_, by norm_num⟩
  · rw [abs_one]
    exact one_le_pow₀ (by norm_num)
  · have := F.he
    omega

theorem rnd_one : F.rnd 1 = 1 := Fmt.rnd_exact one_float

theorem rnd_neg_one : F.rnd (-1) = -1 := by rw [Fmt.rnd_neg, rnd_one]

/-- Cells of the identity: one, without faces. -/
theorem identity_cells : makeCellsF F ⟨1, 0, 0⟩ ⟨0, 1, 0⟩ ⟨0, 0, 1⟩ = [⟨0, []⟩] := by
  have hu1 : unitF F ⟨1, 0, 0⟩ = ⟨1, 0, 0⟩ := by simp [unitF, normF, dotF, Fmt.rnd_zero, rnd_one]
  have hu2 : unitF F ⟨0, 1, 0⟩ = ⟨0, 1, 0⟩ := by simp [unitF, normF, dotF, Fmt.rnd_zero, rnd_one]
  have hu3 : unitF F ⟨0, 0, 1⟩ = ⟨0, 0, 1⟩ := by simp [unitF, normF, dotF, Fmt.rnd_zero, rnd_one]
  have hv : verticesF F ⟨1, 0, 0⟩ ⟨0, 1, 0⟩ ⟨0, 0, 1⟩ =
      [0, ⟨0, 0, 1⟩, ⟨0, 1, 0⟩, ⟨0, 1, 1⟩, ⟨1, 0, 0⟩, ⟨1, 0, 1⟩, ⟨1, 1, 0⟩, ⟨1, 1, 1⟩] := by
    simp [verticesF, addF, Fmt.rnd_zero, rnd_one]
  have ht : tilesF F ⟨1, 0, 0⟩ ⟨0, 1, 0⟩ ⟨0, 0, 1⟩ = [⟨0, 0, 0⟩] := by
    unfold tilesF tileRangeF
    rw [hv]
    simp [minOf, maxOf, arange]
  have h0 : -toReal ⟨0, 0, 0⟩ = ⟨0, 0, 0⟩ := by
    have := gap_shift 0 0
    simpa using this
  have hk : keptCellsF F ⟨1, 0, 0⟩ ⟨0, 1, 0⟩ ⟨0, 0, 1⟩ = [] := by
    unfold keptCellsF
    rw [ht]
    have : scanFacesF F (tileFacesF F ⟨1, 0, 0⟩ ⟨0, 1, 0⟩ ⟨0, 0, 1⟩ ⟨0, 0, 0⟩) = some [] := by
      unfold tileFacesF
      rw [hu1, hu2, hu3, h0]
      simp [scanFacesF, testUnitCubeF, unitCube, testF, planeF, dotF, addF, Fmt.rnd_zero, rnd_one, rnd_neg_one]
    simp [this]
  unfold makeCellsF
  rw [hk]

/-- C114: without remapping (the default lattice vectors), no position of any box is refused, in any precision: each coordinate is divided
by the side of the box and multiplied by it, and is within two rounding errors of the input. -/
theorem C114_identity_partial (L : V3 ℝ) (hL : PosBox L) (fx : F.IsFloat L.x) (fy : F.IsFloat L.y) (fz : F.IsFloat L.z)
    (tx : F.tiny ≤ L.x ^ 2) (ty : F.tiny ≤ L.y ^ 2) (tz : F.tiny ≤ L.z ^ 2) :
    ∃ c, initF F ⟨1, 0, 0⟩ ⟨0, 1, 0⟩ ⟨0, 0, 1⟩ L = .ok c ∧ ∀ ps, transformF F c ps false =
      .ok (ps.map fun p => ⟨F.rnd (F.rnd (p.x / L.x) * L.x), F.rnd (F.rnd (p.y / L.y) * L.y), F.rnd (F.rnd (p.z / L.z) * L.z)⟩) := by
  unfold initF
  rw [if_neg (by norm_num [det3])]
  have e1 : toReal ⟨1, 0, 0⟩ = ⟨1, 0, 0⟩ := by simp [toReal]
  have e2 : toReal ⟨0, 1, 0⟩ = ⟨0, 1, 0⟩ := by simp [toReal]
  have e3 : toReal ⟨0, 0, 1⟩ = ⟨0, 0, 1⟩ := by simp [toReal]
  have ho : orthogonalizeF F ⟨1, 0, 0⟩ ⟨0, 1, 0⟩ ⟨0, 0, 1⟩ = (⟨1, 0, 0⟩, ⟨0, 1, 0⟩, ⟨0, 0, 1⟩) := by
    simp [orthogonalizeF, alphaF, betaF, gammaF, dotF, addF, smulF, Fmt.rnd_zero, rnd_one]
  have hu1 : unitF F ⟨1, 0, 0⟩ = ⟨1, 0, 0⟩ := by simp [unitF, normF, dotF, Fmt.rnd_zero, rnd_one]
  have hu2 : unitF F ⟨0, 1, 0⟩ = ⟨0, 1, 0⟩ := by simp [unitF, normF, dotF, Fmt.rnd_zero, rnd_one]
  have hu3 : unitF F ⟨0, 0, 1⟩ = ⟨0, 0, 1⟩ := by simp [unitF, normF, dotF, Fmt.rnd_zero, rnd_one]
  rw [e1, e2, e3, ho]
  refine ⟨_, rfl, fun ps => ?_⟩
  have sx := Rounded.sqrt_sq fx (.inl tx)
  have sy := Rounded.sqrt_sq fy (.inl ty)
  have sz := Rounded.sqrt_sq fz (.inl tz)
  rw [abs_of_pos hL.1] at sx
  rw [abs_of_pos hL.2.1] at sy
  rw [abs_of_pos hL.2.2] at sz
  rw [sq] at sx sy sz
  have r1 : normF F (emulF F L ⟨1, 0, 0⟩) = L.x := by
    simp [normF, emulF, dotF, Fmt.rnd_zero, Fmt.rnd_idem, Fmt.rnd_exact fx, sx]
  have r2 : normF F (emulF F L ⟨0, 1, 0⟩) = L.y := by
    simp [normF, emulF, dotF, Fmt.rnd_zero, Fmt.rnd_idem, Fmt.rnd_exact fy, sy]
  have r3 : normF F (emulF F L ⟨0, 0, 1⟩) = L.z := by
    simp [normF, emulF, dotF, Fmt.rnd_zero, Fmt.rnd_idem, Fmt.rnd_exact fz, sz]
  have step : ∀ p : V3 ℝ, applyCellsF F [⟨0, []⟩] (edivF F p L) = (edivF F p L, true) := by
    intro p
    simp [applyCellsF, cellStepF, isinF, addF, edivF, toReal, Fmt.rnd_idem]
  simp only [transformF, identity_cells, hu1, hu2, hu3, r1, r2, r3, step]
  simp [projectF, emulF, edivF, dotF, Fmt.rnd_zero, Fmt.rnd_idem]

/-- C114: the error of these coordinates. -/
theorem C114_identity_accuracy (L x : ℝ) (hL : 0 < L) (h1 : F.tiny ≤ |x / L|) (h2 : F.tiny ≤ |F.rnd (x / L) * L|) :
    |F.rnd (F.rnd (x / L) * L) - x| ≤ (2 * F.u + F.u ^ 2) * |x| := by
  have a := Fmt.rnd_err h1
  have b := Fmt.rnd_err h2
  have hu := Fmt.u_pos (F := F)
  have a' : |F.rnd (x / L) * L - x| ≤ F.u * |x| := by
    have e : F.rnd (x / L) * L - x = (F.rnd (x / L) - x / L) * L := by field_simp
    rw [e, abs_mul, abs_of_pos hL]
    calc _ ≤ F.u * |x / L| * L := mul_le_mul_of_nonneg_right a hL.le
      _ = F.u * |x| := by rw [abs_div, abs_of_pos hL]; field_simp
  have c : |F.rnd (x / L) * L| ≤ |x| + F.u * |x| := by
    have := abs_sub_abs_le_abs_sub (F.rnd (x / L) * L) x
    linarith
  have d := mul_le_mul_of_nonneg_left c hu.le
  have t := abs_sub_le (F.rnd (F.rnd (x / L) * L)) (F.rnd (x / L) * L) x
  nlinarith

/-- Coordinate 3 in a box of side 1000. -/
example : |binary64.rnd (binary64.rnd (3 / 1000) * 1000) - 3| ≤ (2 * binary64.u + binary64.u ^ 2) * |3| := by
  have t : binary64.tiny ≤ 1 / 2 ^ 9 := by
    rw [show (1 / 2 ^ 9 : ℝ) = 2 ^ (-9 : ℤ) by norm_num]
    exact zpow_le_zpow_right₀ (by norm_num) (by norm_num [binary64])
  have f : binary64.IsFloat (1 / 2 ^ 9) := ⟨1, -9, by norm_num [binary64], by norm_num [binary64], by norm_num⟩
  have h : (1 / 2 ^ 9 : ℝ) ≤ binary64.rnd (3 / 1000) := Fmt.le_rnd f (by norm_num)
  refine C114_identity_accuracy 1000 3 (by norm_num) ?_ ?_
  · rw [abs_of_pos (by norm_num)]
    linarith
  · rw [abs_of_pos (by linarith)]
    linarith

/-- A box of side 1000 in single precision. -/
example : ∃ c, initF binary32 ⟨1, 0, 0⟩ ⟨0, 1, 0⟩ ⟨0, 0, 1⟩ ⟨1000, 1000, 1000⟩ = .ok c ∧
    ∃ qs, transformF binary32 c [⟨1000, 0, 1⟩, ⟨3, 500, 1⟩] false = .ok qs := by
  have h : binary32.IsFloat 1000 := ⟨1000, 0, by norm_num [binary32], by norm_num [binary32], by norm_num⟩
  have t : binary32.tiny ≤ 1000 ^ 2 := by
    have : binary32.tiny ≤ 1 := by
      unfold Fmt.tiny
      norm_num [binary32]
    linarith
  obtain ⟨c, hc, hq⟩ := C114_identity_partial (F := binary32) ⟨1000, 1000, 1000⟩ (by norm_num [PosBox]) h h h t t t
  exact ⟨c, hc, _, hq _⟩

end RoundedRemap

end Verif.Props
