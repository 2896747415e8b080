import Verif.Model.RoundedRemap

/-!
# Facts about remapping with rounding errors
-/

namespace Verif.Model.RoundedRemap

open Verif Verif.Model Verif.Model.Remap

variable {F : Fmt}

/-- Rounded tests of planes grow with each product. -/
theorem testF_mono {pl : Plane} {p q : V3 ℝ} (hx : pl.n.x * p.x ≤ pl.n.x * q.x) (hy : pl.n.y * p.y ≤ pl.n.y * q.y)
    (hz : pl.n.z * p.z ≤ pl.n.z * q.z) : testF F pl p ≤ testF F pl q := by
  unfold testF dotF
  exact Fmt.rnd_mono (add_le_add_left (Fmt.rnd_mono (add_le_add (Fmt.rnd_mono (add_le_add (Fmt.rnd_mono hx) (Fmt.rnd_mono hy)))
    (Fmt.rnd_mono hz))) _)

theorem corner (n x : ℝ) (h0 : 0 ≤ x) (h1 : x ≤ 1) : ∃ a b : ℝ, (a = 0 ∨ a = 1) ∧ (b = 0 ∨ b = 1) ∧ n * a ≤ n * x ∧ n * x ≤ n * b := by
  rcases le_total 0 n with hn | hn
  · exact ⟨0, 1, .inl rfl, .inr rfl, by nlinarith, by nlinarith⟩
  · exact ⟨1, 0, .inr rfl, .inl rfl, by nlinarith, by nlinarith⟩

theorem mem_unitCube {a b c : ℝ} (ha : a = 0 ∨ a = 1) (hb : b = 0 ∨ b = 1) (hc : c = 0 ∨ c = 1) : (⟨a, b, c⟩ : V3 ℝ) ∈ unitCube := by
  unfold unitCube
  rcases ha with rfl | rfl <;> rcases hb with rfl | rfl <;> rcases hc with rfl | rfl <;> simp

/-- Tests of positions in the unit cube lie between those of two corners. -/
theorem testF_corners (pl : Plane) {p : V3 ℝ} (hx : 0 ≤ p.x ∧ p.x ≤ 1) (hy : 0 ≤ p.y ∧ p.y ≤ 1) (hz : 0 ≤ p.z ∧ p.z ≤ 1) :
    ∃ a ∈ unitCube, ∃ b ∈ unitCube, testF F pl a ≤ testF F pl p ∧ testF F pl p ≤ testF F pl b := by
  obtain ⟨a1, b1, ha1, hb1, h1, h1'⟩ := corner pl.n.x p.x hx.1 hx.2
  obtain ⟨a2, b2, ha2, hb2, h2, h2'⟩ := corner pl.n.y p.y hy.1 hy.2
  obtain ⟨a3, b3, ha3, hb3, h3, h3'⟩ := corner pl.n.z p.z hz.1 hz.2
  exact ⟨⟨a1, a2, a3⟩, mem_unitCube ha1 ha2 ha3, ⟨b1, b2, b3⟩, mem_unitCube hb1 hb2 hb3, testF_mono h1 h2 h3, testF_mono h1' h2' h3'⟩

/-- A face that rejects a position of the unit cube does not have the cube above it. -/
theorem not_above {pl : Plane} {p : V3 ℝ} (hx : 0 ≤ p.x ∧ p.x ≤ 1) (hy : 0 ≤ p.y ∧ p.y ≤ 1) (hz : 0 ≤ p.z ∧ p.z ≤ 1)
    (h : testF F pl p < 0) : testUnitCubeF F pl ≠ 1 := by
  obtain ⟨a, ha, -, -, hle, -⟩ := testF_corners (F := F) pl hx hy hz
  have hb : ∃ t ∈ unitCube.map (testF F pl), t < 0 := ⟨_, List.mem_map.2 ⟨a, ha, rfl⟩, hle.trans_lt h⟩
  unfold testUnitCubeF
  simp only [if_pos hb]
  split_ifs <;> omega

/-- A face with the cube above accepts all its positions. -/
theorem above_accepts {pl : Plane} {p : V3 ℝ} (hx : 0 ≤ p.x ∧ p.x ≤ 1) (hy : 0 ≤ p.y ∧ p.y ≤ 1) (hz : 0 ≤ p.z ∧ p.z ≤ 1)
    (h : testUnitCubeF F pl = 1) : 0 ≤ testF F pl p := by
  by_contra hn
  exact not_above hx hy hz (not_le.1 hn) h

/-- A face with the cube below accepts none of its positions, except on the face. -/
theorem below_rejects {pl : Plane} {p : V3 ℝ} (hx : 0 ≤ p.x ∧ p.x ≤ 1) (hy : 0 ≤ p.y ∧ p.y ≤ 1) (hz : 0 ≤ p.z ∧ p.z ≤ 1)
    (h : testUnitCubeF F pl ≠ 1) (h0 : testUnitCubeF F pl ≠ 0) : testF F pl p ≤ 0 := by
  obtain ⟨-, -, b, hb, -, hle⟩ := testF_corners (F := F) pl hx hy hz
  by_contra hn
  have ha : ∃ t ∈ unitCube.map (testF F pl), 0 < t := ⟨_, List.mem_map.2 ⟨b, hb, rfl⟩, (not_le.1 hn).trans_le hle⟩
  unfold testUnitCubeF at h h0
  simp only [if_pos ha] at h h0
  split_ifs at h h0 <;> simp at h h0

/-- Faces kept from a list: they are among those of the list, and accept a position of the unit cube only if all faces do. -/
theorem scanFacesF_accepts {p : V3 ℝ} (hx : 0 ≤ p.x ∧ p.x ≤ 1) (hy : 0 ≤ p.y ∧ p.y ≤ 1) (hz : 0 ≤ p.z ∧ p.z ≤ 1) :
    ∀ (fs gs : List Plane), scanFacesF F fs = some gs → ((∀ g ∈ gs, 0 ≤ testF F g p) ↔ ∀ f ∈ fs, 0 ≤ testF F f p)
  | [], gs, h => by
    simp only [scanFacesF, Option.some.injEq] at h
    subst h
    simp
  | f :: fs, gs, h => by
    unfold scanFacesF at h
    split_ifs at h with h1 h2
    · rw [scanFacesF_accepts hx hy hz fs gs h]
      have := above_accepts hx hy hz h1
      simp [this]
    · obtain ⟨gs', hg, rfl⟩ := Option.map_eq_some_iff.1 h
      have := scanFacesF_accepts hx hy hz fs gs' hg
      simp [this]

theorem scanFacesF_none {p : V3 ℝ} (hx : 0 ≤ p.x ∧ p.x ≤ 1) (hy : 0 ≤ p.y ∧ p.y ≤ 1) (hz : 0 ≤ p.z ∧ p.z ≤ 1) :
    ∀ (fs : List Plane), scanFacesF F fs = none → ∃ f ∈ fs, testF F f p ≤ 0
  | [], h => by simp [scanFacesF] at h
  | f :: fs, h => by
    unfold scanFacesF at h
    split_ifs at h with h1 h2
    · obtain ⟨g, hg, hle⟩ := scanFacesF_none hx hy hz fs h
      exact ⟨g, List.mem_cons_of_mem _ hg, hle⟩
    · simp only [Option.map_eq_none_iff] at h
      obtain ⟨g, hg, hle⟩ := scanFacesF_none hx hy hz fs h
      exact ⟨g, List.mem_cons_of_mem _ hg, hle⟩
    · exact ⟨f, List.mem_cons_self .., below_rejects hx hy hz h1 h2⟩

theorem mem_keptCellsF {e1 e2 e3 : V3 ℝ} {c : Cell} :
    c ∈ keptCellsF F e1 e2 e3 ↔ c.ipos ∈ tilesF F e1 e2 e3 ∧ c.faces ≠ [] ∧ scanFacesF F (tileFacesF F e1 e2 e3 c.ipos) = some c.faces := by
  unfold keptCellsF
  rw [List.mem_filterMap]
  constructor
  · rintro ⟨i, hi, h⟩
    split at h
    · cases h
    · cases h
    · rename_i f fs hs
      cases h
      exact ⟨hi, by simp, hs⟩
  · rintro ⟨hi, hne, hs⟩
    refine ⟨c.ipos, hi, ?_⟩
    rw [hs]
    rcases hc : c.faces with _ | ⟨f, fs⟩
    · exact absurd hc hne
    · simp only [Option.some.injEq]
      cases c
      simp_all

/-- A position in no cell is not moved. -/
theorem applyCellsF_none {cells : List Cell} {p : V3 ℝ} (h : ∀ c ∈ cells, ¬ isinF F c p) : applyCellsF F cells p = (p, false) := by
  unfold applyCellsF
  induction cells with
  | nil => rfl
  | cons c cs ih =>
    rw [List.foldl_cons]
    have : cellStepF F (p, false) c = (p, false) := by
      unfold cellStepF
      rw [if_neg (h c (List.mem_cons_self ..))]
    rw [this]
    exact ih fun d hd => h d (List.mem_cons_of_mem _ hd)

theorem cellStepF_true (cells : List Cell) (s : V3 ℝ × Bool) (h : s.2 = true) : (cells.foldl (cellStepF F) s).2 = true := by
  induction cells generalizing s with
  | nil => exact h
  | cons c cs ih =>
    rw [List.foldl_cons]
    apply ih
    unfold cellStepF
    split_ifs <;> simp [h]

/-- A position is found if and only if it is in some cell. -/
theorem applyCellsF_found {cells : List Cell} {p : V3 ℝ} : (applyCellsF F cells p).2 = true ↔ ∃ c ∈ cells, isinF F c p := by
  constructor
  · intro h
    by_contra hn
    push Not at hn
    rw [applyCellsF_none hn] at h
    simp at h
  · intro h
    unfold applyCellsF
    induction cells with
    | nil => simp at h
    | cons c cs ih =>
      rw [List.foldl_cons]
      by_cases hc : isinF F c p
      · apply cellStepF_true
        unfold cellStepF
        rw [if_pos hc]
      · have : cellStepF F (p, false) c = (p, false) := by
          unfold cellStepF
          rw [if_neg hc]
        rw [this]
        apply ih
        obtain ⟨d, hd, hi⟩ := h
        rcases List.mem_cons.1 hd with rfl | hd
        · exact absurd hi hc
        · exact ⟨d, hd, hi⟩

end Verif.Model.RoundedRemap
