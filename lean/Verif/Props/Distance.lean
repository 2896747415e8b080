import Verif.Lemmas.Interp

/-!
# C37: distance to redshift
-/

namespace Verif.Props
open Verif Verif.Model

/-- Entries of the redshift grid but the first: `10^(-8)` up to `zmax`, in equal ratios. -/
theorem zgrid_strict {zmax : ℝ} {nz : ℕ} (hz : 1e-8 < zmax) (hn : 2 ≤ nz) : (zgrid zmax nz).Pairwise (· < ·) := by
  have hlog : (0 : ℝ) < Real.logb 10 zmax + 8 := by
    have : Real.logb 10 (1e-8) < Real.logb 10 zmax := Real.logb_lt_logb (by norm_num) (by norm_num) hz
    have h2 : Real.logb 10 (1e-8 : ℝ) = -8 := by
      rw [show (1e-8 : ℝ) = 10 ^ (-8 : ℝ) by norm_num [Real.rpow_neg]]
      exact Real.logb_rpow (by norm_num) (by norm_num)
    linarith
  have hn1 : (0 : ℝ) < (nz : ℝ) - 1 := by
    have : (2 : ℝ) ≤ nz := by exact_mod_cast hn
    linarith
  unfold zgrid
  rw [List.pairwise_cons]
  constructor
  · intro y hy
    obtain ⟨k, -, rfl⟩ := List.mem_map.1 hy
    exact Real.rpow_pos_of_pos (by norm_num) _
  · rw [List.pairwise_map]
    refine List.Pairwise.imp ?_ (List.pairwise_lt_range (n := nz))
    intro a b hab
    apply Real.rpow_lt_rpow_of_exponent_lt (by norm_num)
    have : (a : ℝ) < b := by exact_mod_cast hab
    have := mul_lt_mul_of_pos_left this hlog
    have := div_lt_div_of_pos_right this hn1
    linarith

theorem zgrid_last {zmax : ℝ} {nz : ℕ} (hz : 1e-8 < zmax) (hn : 2 ≤ nz) (h : zgrid zmax nz ≠ []) :
    (zgrid zmax nz).getLast h = zmax := by
  obtain ⟨m, rfl⟩ : ∃ m, nz = m + 1 := ⟨nz - 1, by omega⟩
  have hm : (m : ℝ) ≠ 0 := by
    have : 1 ≤ m := by omega
    positivity
  have hz0 : 0 < zmax := lt_trans (by norm_num) hz
  simp only [zgrid, List.range_succ, List.map_append, List.map_cons, List.map_nil]
  rw [List.getLast_cons (by simp), List.getLast_append_singleton]
  rw [show -8 + (Real.logb 10 zmax + 8) * (m : ℝ) / (((m + 1 : ℕ) : ℝ) - 1) = Real.logb 10 zmax by
    push_cast
    rw [add_sub_cancel_right]
    field_simp
    ring]
  exact Real.rpow_logb (by norm_num) (by norm_num) hz0

theorem zgrid_length (zmax : ℝ) (nz : ℕ) : (zgrid zmax nz).length = nz + 1 := by simp [zgrid]

theorem zgrid_nonneg {zmax : ℝ} {nz : ℕ} {z : ℝ} (h : z ∈ zgrid zmax nz) : 0 ≤ z := by
  unfold zgrid at h
  rcases List.mem_cons.1 h with rfl | h
  · exact le_rfl
  · obtain ⟨k, -, rfl⟩ := List.mem_map.1 h
    exact Real.rpow_nonneg (by norm_num) _

theorem distanceNodes_inc {distance : ℝ → ℝ} (hd : StrictMonoOn distance (Set.Ici 0)) {zmax : ℝ} {nz : ℕ}
    (hz : 1e-8 < zmax) (hn : 2 ≤ nz) : Inc (distanceNodes distance zmax nz) := by
  unfold Inc distanceNodes
  rw [List.map_map, List.pairwise_map]
  refine List.Pairwise.imp_of_mem ?_ (zgrid_strict hz hn)
  intro a b ha hb hab
  exact hd (zgrid_nonneg ha) (zgrid_nonneg hb) hab

theorem distanceToRedshift_eq {distance : ℝ → ℝ} (hd : StrictMonoOn distance (Set.Ici 0)) {zmax : ℝ} {nz : ℕ}
    (hz : 1e-8 < zmax) (hn : 2 ≤ nz) (x : ℝ) :
    distanceToRedshift distance zmax nz x = match linInterp (distanceNodes distance zmax nz) x with
      | some z => .ok z
      | none => .error .valueError := by
  have hi := distanceNodes_inc hd hz hn
  unfold distanceToRedshift splineArgs
  rw [if_pos ⟨by simp [distanceNodes, zgrid_length]; omega, hi⟩]
  rfl

/-- The nodes. -/
theorem distanceNodes_cons (distance : ℝ → ℝ) (zmax : ℝ) (nz : ℕ) : ∃ l, distanceNodes distance zmax nz =
    (distance 0, 0) :: l ∧ l.length = nz := ⟨_, rfl, by simp⟩

theorem distanceNodes_last {distance : ℝ → ℝ} {zmax : ℝ} {nz : ℕ} (hz : 1e-8 < zmax) (hn : 2 ≤ nz)
    (h : distanceNodes distance zmax nz ≠ []) : (distanceNodes distance zmax nz).getLast h = (distance zmax, zmax) := by
  unfold distanceNodes
  rw [List.getLast_map (h := by simpa [distanceNodes] using h), zgrid_last hz hn]

/-- C37. The grid starts at zero, ends at `zmax` and is strictly increasing. -/
theorem C37_grid {zmax : ℝ} {nz : ℕ} (hz : 1e-8 < zmax) (hn : 2 ≤ nz) :
    (zgrid zmax nz).length = nz + 1 ∧ (zgrid zmax nz).Pairwise (· < ·) ∧ (zgrid zmax nz)[0]? = some 0 ∧
      (zgrid zmax nz)[1]? = some (1e-8 : ℝ) ∧ (zgrid zmax nz)[nz]? = some zmax := by
  refine ⟨zgrid_length _ _, zgrid_strict hz hn, rfl, ?_, ?_⟩
  · obtain ⟨m, rfl⟩ : ∃ m, nz = m + 1 := ⟨nz - 1, by omega⟩
    have h : (zgrid zmax (m + 1))[1]? = some ((10 : ℝ) ^ (-8 + (Real.logb 10 zmax + 8) * (0 : ℕ) / ((m + 1 : ℕ) - 1))) := by
      simp [zgrid, List.range_succ_eq_map]
    rw [h]
    norm_num [Real.rpow_neg]
  · have hne : zgrid zmax nz ≠ [] := by simp [zgrid]
    have := zgrid_last hz hn hne
    rw [List.getLast_eq_getElem] at this
    rw [List.getElem?_eq_getElem (by simp [zgrid_length])]
    simp only [zgrid_length, Nat.add_sub_cancel] at this
    rw [this]

/-- C37. The relation is inverted exactly at the tabulated redshifts. -/
theorem C37_nodes {distance : ℝ → ℝ} (hd : StrictMonoOn distance (Set.Ici 0)) {zmax : ℝ} {nz : ℕ}
    (hz : 1e-8 < zmax) (hn : 2 ≤ nz) {z : ℝ} (h : z ∈ zgrid zmax nz) :
    distanceToRedshift distance zmax nz (distance z) = .ok z := by
  have hi := distanceNodes_inc hd hz hn
  rw [distanceToRedshift_eq hd hz hn]
  have hm : (distance z, z) ∈ distanceNodes distance zmax nz := List.mem_map.2 ⟨z, h, rfl⟩
  have := (linInterp_iff hi).2 (onSegment_node hi (by simp [distanceNodes, zgrid_length]; omega) hm)
  simp only at this
  rw [this]

/-- C37. A value is returned exactly for distances within the tabulated range; other distances raise. -/
theorem C37_raises {distance : ℝ → ℝ} (hd : StrictMonoOn distance (Set.Ici 0)) {zmax : ℝ} {nz : ℕ}
    (hz : 1e-8 < zmax) (hn : 2 ≤ nz) (x : ℝ) :
    (distance 0 ≤ x ∧ x ≤ distance zmax → ∃ z, distanceToRedshift distance zmax nz x = .ok z) ∧
    (x < distance 0 ∨ distance zmax < x → distanceToRedshift distance zmax nz x = .error .valueError) := by
  have hi := distanceNodes_inc hd hz hn
  have hlast := distanceNodes_last (distance := distance) hz hn
  rw [distanceToRedshift_eq hd hz hn]
  obtain ⟨l, hl, hlen⟩ := distanceNodes_cons distance zmax nz
  rw [hl] at hi ⊢
  have hlast' : ((distance 0, (0 : ℝ)) :: l).getLast (by simp) = (distance zmax, zmax) := by
    rw [← hlast (by simp [hl])]
    simp only [hl]
  have hne : l ≠ [] := by rintro rfl; simp at hlen; omega
  constructor
  · rintro ⟨h0, h1⟩
    obtain ⟨y, hy⟩ := linInterp_isSome (a := (distance 0, (0 : ℝ))) (x := x) hne h0 (by rw [hlast']; exact h1)
    exact ⟨y, by rw [hy]⟩
  · intro h
    rw [(linInterp_eq_none hne hi).2 (by rw [hlast']; exact h)]

/-- C37. The result is on the straight line between neighbouring nodes of the table; the true redshift is between the same
nodes. -/
theorem C37_between {distance : ℝ → ℝ} (hd : StrictMonoOn distance (Set.Ici 0)) {zmax : ℝ} {nz : ℕ}
    (hz : 1e-8 < zmax) (hn : 2 ≤ nz) {x z : ℝ} (h : distanceToRedshift distance zmax nz x = .ok z) :
    ∃ (k : ℕ) (a b : ℝ), (zgrid zmax nz)[k]? = some a ∧ (zgrid zmax nz)[k + 1]? = some b ∧
      distance a ≤ x ∧ x ≤ distance b ∧ a ≤ z ∧ z ≤ b ∧
      (z - a) * (distance b - distance a) = (x - distance a) * (b - a) ∧
      ∀ t, 0 ≤ t → distance t = x → a ≤ t ∧ t ≤ b := by
  have hi := distanceNodes_inc hd hz hn
  rw [distanceToRedshift_eq hd hz hn] at h
  split at h
  · rename_i y hy
    simp only [Except.ok.injEq] at h
    subst h
    obtain ⟨l, p, q, r, e, h1, h2, h3⟩ := linInterp_onSegment hy
    have hp : (distanceNodes distance zmax nz)[l.length]? = some p := by rw [e]; simp
    have hq : (distanceNodes distance zmax nz)[l.length + 1]? = some q := by rw [e]; simp
    unfold distanceNodes at hp hq
    rw [List.getElem?_map, Option.map_eq_some_iff] at hp hq
    obtain ⟨a, ha, rfl⟩ := hp
    obtain ⟨b, hb, rfl⟩ := hq
    have hab : distance a < distance b := by rw [e] at hi; exact hi.seg
    have ha0 := zgrid_nonneg (List.mem_of_getElem? ha)
    have hb0 := zgrid_nonneg (List.mem_of_getElem? hb)
    have hab' : a < b := (hd.lt_iff_lt ha0 hb0).1 hab
    simp only at h1 h2 h3
    obtain ⟨w0, w1⟩ := seg_weight h1 h2 hab
    refine ⟨l.length, a, b, ha, hb, h1, h2, ?_, ?_, ?_, ?_⟩
    · rw [h3]; nlinarith
    · rw [h3]; nlinarith
    · rw [h3]
      have : distance b - distance a ≠ 0 := by linarith
      field_simp
      ring
    · intro t ht htx
      rw [← htx] at h1 h2
      exact ⟨(hd.le_iff_le ha0 ht).1 h1, (hd.le_iff_le ht hb0).1 h2⟩
  · simp at h

/-- C37. Strictly increasing: objects keep their order along the line of sight. -/
theorem C37_monotone {distance : ℝ → ℝ} (hd : StrictMonoOn distance (Set.Ici 0)) {zmax : ℝ} {nz : ℕ}
    (hz : 1e-8 < zmax) (hn : 2 ≤ nz) {x x' z z' : ℝ} (h : distanceToRedshift distance zmax nz x = .ok z)
    (h' : distanceToRedshift distance zmax nz x' = .ok z') (hx : x < x') : z < z' := by
  obtain ⟨k, a, b, ha, hb, h1, h2, h3, h4, h5, -⟩ := C37_between hd hz hn h
  obtain ⟨k', a', b', ha', hb', h1', h2', h3', h4', h5', -⟩ := C37_between hd hz hn h'
  have hs := zgrid_strict hz hn
  have key : ∀ {i j : ℕ} {u v : ℝ}, (zgrid zmax nz)[i]? = some u → (zgrid zmax nz)[j]? = some v → i < j → u < v := by
    intro i j u v hu hv hij
    obtain ⟨hi', rfl⟩ := List.getElem?_eq_some_iff.1 hu
    obtain ⟨hj', rfl⟩ := List.getElem?_eq_some_iff.1 hv
    exact List.pairwise_iff_getElem.1 hs i j hi' hj' hij
  have ha0 := zgrid_nonneg (List.mem_of_getElem? ha)
  have hb0 := zgrid_nonneg (List.mem_of_getElem? hb)
  have ha0' := zgrid_nonneg (List.mem_of_getElem? ha')
  have hb0' := zgrid_nonneg (List.mem_of_getElem? hb')
  have hab := key ha hb (Nat.lt_succ_self k)
  have hab' := key ha' hb' (Nat.lt_succ_self k')
  have dab := hd ha0 hb0 hab
  have dab' := hd ha0' hb0' hab'
  rcases lt_trichotomy k k' with hk | hk | hk
  · -- b ≤ a'
    have hba : b ≤ a' := by
      rcases (Nat.succ_le_of_lt hk).lt_or_eq with hk' | hk'
      · exact (key hb ha' hk').le
      · rw [← hk'] at ha'
        rw [Nat.succ_eq_add_one, hb] at ha'
        simp at ha'; exact ha'.le
    rcases (h4.trans hba).trans h3' |>.lt_or_eq with hlt | heq
    · exact hlt
    · exfalso
      have e1 : z = b := by linarith
      have e2 : z' = a' := by linarith
      have e3 : b = a' := by linarith
      subst e3
      rw [e1] at h5
      rw [e2] at h5'
      have : x = distance b := by
        have : (b - a) * (distance b - x) = 0 := by linarith
        rcases mul_eq_zero.1 this with h0 | h0 <;> linarith
      have : x' = distance b := by
        have : (x' - distance b) * (b' - b) = 0 := by linarith
        rcases mul_eq_zero.1 this with h0 | h0 <;> linarith
      linarith
  · subst hk
    rw [ha] at ha'; rw [hb] at hb'
    simp only [Option.some.injEq] at ha' hb'
    subst ha' hb'
    by_contra hc
    have h6 : (z' - z) * (distance b - distance a) = (x' - x) * (b - a) := by linarith
    have : 0 < (x' - x) * (b - a) := mul_pos (by linarith) (by linarith)
    have : (z' - z) * (distance b - distance a) ≤ 0 := mul_nonpos_of_nonpos_of_nonneg (by linarith) (by linarith)
    linarith
  · exfalso
    have hba : b' ≤ a := by
      rcases (Nat.succ_le_of_lt hk).lt_or_eq with hk' | hk'
      · exact (key hb' ha hk').le
      · rw [← hk'] at ha
        rw [Nat.succ_eq_add_one, hb'] at ha
        simp at ha; exact ha.le
    have := hd.monotoneOn hb0' ha0 hba
    linarith

/-- C37. With the identity as distance the redshift is the distance. -/
theorem C37_identity {zmax : ℝ} {nz : ℕ} (hz : 1e-8 < zmax) (hn : 2 ≤ nz) {x : ℝ} (h0 : 0 ≤ x) (h1 : x ≤ zmax) :
    distanceToRedshift (fun x => x) zmax nz x = .ok x := by
  have hd : StrictMonoOn (fun x : ℝ => x) (Set.Ici 0) := fun a _ b _ h => h
  obtain ⟨z, hz'⟩ := (C37_raises hd hz hn x).1 ⟨h0, h1⟩
  obtain ⟨k, a, b, ha, hb, -, -, -, -, h5, -⟩ := C37_between hd hz hn hz'
  have hs := zgrid_strict hz hn
  have hab : a < b := by
    obtain ⟨hi', rfl⟩ := List.getElem?_eq_some_iff.1 ha
    obtain ⟨hj', rfl⟩ := List.getElem?_eq_some_iff.1 hb
    exact List.pairwise_iff_getElem.1 hs k (k + 1) hi' hj' (Nat.lt_succ_self k)
  rw [hz']
  congr 1
  have : (z - x) * (b - a) = 0 := by linarith
  rcases mul_eq_zero.1 this with h | h <;> linarith

/-- C37. A relation that is not increasing along the table is rejected. -/
theorem C37_rejects {distance : ℝ → ℝ} {zmax : ℝ} {nz k : ℕ} {a b : ℝ} (ha : (zgrid zmax nz)[k]? = some a)
    (hb : (zgrid zmax nz)[k + 1]? = some b) (h : distance b ≤ distance a) (x : ℝ) :
    distanceToRedshift distance zmax nz x = .error .valueError := by
  unfold distanceToRedshift splineArgs
  rw [if_neg]
  · rfl
  · rintro ⟨-, hp⟩
    unfold distanceNodes at hp
    rw [List.map_map, List.pairwise_map] at hp
    obtain ⟨hi', rfl⟩ := List.getElem?_eq_some_iff.1 ha
    obtain ⟨hj', rfl⟩ := List.getElem?_eq_some_iff.1 hb
    have := List.pairwise_iff_getElem.1 hp k (k + 1) hi' hj' (Nat.lt_succ_self k)
    simp only [Function.comp] at this
    linarith

/-- A decelerating expansion history up to redshift 100 with the default number of nodes, and a distance within the table. -/
example : StrictMonoOn (fun z : ℝ => 6000 * (1 - 1 / (1 + z))) (Set.Ici 0) ∧ (1e-8 : ℝ) < 100 ∧ 2 ≤ 2048 ∧
    (fun z : ℝ => 6000 * (1 - 1 / (1 + z))) 0 ≤ 1500 ∧ (1500 : ℝ) ≤ (fun z : ℝ => 6000 * (1 - 1 / (1 + z))) 100 := by
  refine ⟨?_, by norm_num, by norm_num, by norm_num, by norm_num⟩
  intro a ha b hb hab
  simp only [Set.mem_Ici] at ha hb
  have : 1 / (1 + b) < 1 / (1 + a) := one_div_lt_one_div_of_lt (by linarith) (by linarith)
  simp only
  linarith

end Verif.Props
