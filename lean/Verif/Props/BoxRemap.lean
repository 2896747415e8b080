import Verif.Props.SubPad
import Verif.Props.Rsd

/-!
# C65: remapping of box catalogs
-/

namespace Verif.Props

open Verif Verif.Model Verif.Spec
open Remap (Cuboid det3 toReal)

variable {ρ : Type}

/-- Point in the box, upper faces excluded. -/
def InsideHalfOpen (size center p : V3 ℝ) : Prop :=
  (center.x - size.x / 2 ≤ p.x ∧ p.x < center.x + size.x / 2) ∧
  (center.y - size.y / 2 ≤ p.y ∧ p.y < center.y + size.y / 2) ∧
  (center.z - size.z / 2 ≤ p.z ∧ p.z < center.z + size.z / 2)

/-- C65: `remap(u1, u2, u3)` with integer lattice vectors of determinant 1 works on every catalog whose particles are in
the box; it keeps the centre, the number and order of rows and the other columns; all positions go through one map that is
one-to-one on the box (upper faces excluded), velocities through one map that keeps their norm; for a cubic box the
volume is unchanged and separations are those of some periodic image. -/
theorem C65_remap (b : Box ρ) (hb : PosBox b.boxsize) (v1 v2 v3 : V3 ℤ) (hdet : det3 v1 v2 v3 = 1)
    (hin : ∀ r ∈ b.rows, Inside b.boxsize b.boxcenter r.pos ∧ ∀ v ∈ r.vecs, Inside b.boxsize b.boxcenter v) :
    ∃ b' g h, b.remap (.vectors (toReal v1) (toReal v2) (toReal v3)) = .ok b' ∧ b'.boxcenter = b.boxcenter ∧
      b'.rows = b.rows.map (rowMap g h) ∧ (∀ v : V3 ℝ, (h v).norm = v.norm) ∧
      (∀ p q, InsideHalfOpen b.boxsize b.boxcenter p → InsideHalfOpen b.boxsize b.boxcenter q → g p = g q → p = q) ∧
      ∀ L, b.boxsize = ⟨L, L, L⟩ → b'.boxsize.x * b'.boxsize.y * b'.boxsize.z = L * L * L ∧
        ∀ p q, Inside b.boxsize b.boxcenter p → Inside b.boxsize b.boxcenter q →
          ∃ k : V3 ℤ, Spec.dist (g p) (g q) = Spec.dist p (q + L • toReal k) := by
  obtain ⟨c, hc⟩ := (C10_init v1 v2 v3 b.boxsize).1 hdet
  have hm : Made v1 v2 v3 b.boxsize c := ⟨hc, hb⟩
  set off := b.lower with hoff
  set noff : V3 ℝ := Box.lower (⟨c.cuboidsize, b.boxcenter, b.rows⟩ : Box ρ) with hnoff
  have inbox : ∀ p, Inside b.boxsize b.boxcenter p → InBox b.boxsize (p - off) := by
    intro p hp
    rw [inside_iff_edges] at hp
    obtain ⟨⟨_, _⟩, ⟨_, _⟩, _, _⟩ := hp
    simp only [InBox, hoff, Box.lower, V3.sub_x, V3.sub_y, V3.sub_z]
    refine ⟨⟨?_, ?_⟩, ⟨?_, ?_⟩, ?_, ?_⟩ <;> linarith
  have inhalf : ∀ p, InsideHalfOpen b.boxsize b.boxcenter p → InHalfOpenBox b.boxsize (p - off) := by
    intro p hp
    obtain ⟨⟨_, _⟩, ⟨_, _⟩, _, _⟩ := hp
    simp only [InHalfOpenBox, hoff, Box.lower, V3.sub_x, V3.sub_y, V3.sub_z]
    refine ⟨⟨?_, ?_⟩, ⟨?_, ?_⟩, ?_, ?_⟩ <;> linarith
  have halfin : ∀ p, InsideHalfOpen b.boxsize b.boxcenter p → Inside b.boxsize b.boxcenter p := by
    intro p hp
    rw [inside_iff_edges]
    obtain ⟨⟨a1, a2⟩, ⟨a3, a4⟩, a5, a6⟩ := hp
    exact ⟨⟨a1, a2.le⟩, ⟨a3, a4.le⟩, a5, a6.le⟩
  have one : ∀ p, ∃ q, Inside b.boxsize b.boxcenter p → c.transform [p - off] false = .ok [q] := by
    intro p
    by_cases hp : Inside b.boxsize b.boxcenter p
    · obtain ⟨qs, h1, h2⟩ := C10_total hm [p - off] (by simpa using inbox p hp)
      match qs, h2 with
      | [q], _ => exact ⟨q, fun _ => h1⟩
    · exact ⟨0, fun h => absurd h hp⟩
  choose g0 hg0 using one
  have hpos : ∀ p, Inside b.boxsize b.boxcenter p → Box.remapPos c off noff p = .ok (g0 p + noff) := by
    intro p hp
    simp only [Box.remapPos, hg0 p hp, bind, Except.bind]
  have hrow : ∀ r ∈ b.rows, Box.remapRow c off noff r = .ok (rowMap (fun p => g0 p + noff) c.project r) := by
    intro r hr
    obtain ⟨h1, h2⟩ := hin r hr
    have hv := mapM_ok (Box.remapPos c off noff) (fun p => g0 p + noff) r.vecs (fun v hv => hpos v (h2 v hv))
    simp only [Box.remapRow, hpos _ h1, hv, bind, Except.bind, pure, Except.pure]
    rfl
  have hrows := mapM_ok (Box.remapRow c off noff) _ b.rows hrow
  refine ⟨⟨c.cuboidsize, b.boxcenter, b.rows.map (rowMap (fun p => g0 p + noff) c.project)⟩,
    fun p => g0 p + noff, c.project, ?_, rfl, rfl, ?_, ?_, ?_⟩
  · simp only [Box.remap, Box.remapCuboid, hc]
    simp only [bind, Except.bind]
    rw [hrows]
    rfl
  · intro v
    obtain ⟨w, hw, hn⟩ := C64_velocity_norm hm v
    simp only [Cuboid.transform, if_true, List.map_cons, List.map_nil, Except.ok.injEq, List.cons.injEq, and_true] at hw
    rw [hw, hn]
  · intro p q hp hq heq
    have heq : g0 p = g0 q := by simpa using heq
    have ip := (C10_inverse hm _ _ (hg0 p (halfin p hp))).2 (by simpa using inhalf p hp)
    have iq := (C10_inverse hm _ _ (hg0 q (halfin q hq))).2 (by simpa using inhalf q hq)
    simp only [List.map_cons, List.map_nil, List.cons.injEq, and_true] at ip iq
    rw [heq] at ip
    have := ip.symm.trans iq
    exact sub_left_inj.1 this
  · intro L hL
    have hm' : Made v1 v2 v3 (V3.const L) c := by
      have : V3.const L = b.boxsize := by rw [hL]; rfl
      rw [this]; exact hm
    refine ⟨C12_volume_partial hm', fun p q hp hq => ?_⟩
    have tp := hg0 p hp
    have tq := hg0 q hq
    have tpq : c.transform [p - off, q - off] false = .ok [g0 p, g0 q] := by
      simp only [Cuboid.transform, Bool.false_eq_true, if_false, List.map_cons, List.map_nil, List.all_cons, List.all_nil,
        Bool.and_true] at tp tq ⊢
      split at tp
      · split at tq
        · rename_i h1 h2
          simp only [Except.ok.injEq, List.cons.injEq, and_true] at tp tq
          simp only [h1, h2, Bool.and_self, if_true, tp, tq]
        · cases tq
      · cases tp
    obtain ⟨k, hk⟩ := C12_separation_partial hm' tpq
    refine ⟨k, ?_⟩
    have e1 : Spec.dist (g0 p + noff) (g0 q + noff) = Spec.dist (g0 p) (g0 q) := by
      simp [Spec.dist]
    have e2 : Spec.dist (p - off) (q - off + L • toReal k) = Spec.dist p (q + L • toReal k) := by
      simp only [Spec.dist, V3.sub_x, V3.sub_y, V3.sub_z, V3.add_x, V3.add_y, V3.add_z]
      congr 1
      ring
    simp only [e1, hk, e2]

/-- C65: rejected arguments. -/
theorem C65_rejected (b : Box ρ) :
    b.remap .nothing = .error .valueError ∧
    (∀ v1 v2 v3 : V3 ℤ, det3 v1 v2 v3 ≠ 1 →
      b.remap (.vectors (toReal v1) (toReal v2) (toReal v3)) = .error .valueError) ∧
    ∀ u, b.remap (.single u) = .error .nameError := by
  refine ⟨rfl, fun v1 v2 v3 h => ?_, fun _ => rfl⟩
  simp only [Box.remap, Box.remapCuboid, (C10_init v1 v2 v3 b.boxsize).2 h, bind, Except.bind]

/-- C65 refuted when a `Cuboid` built for another box is passed: nothing checks its box size; the returned catalog claims
a box 64 times larger, and the particle at the centre of the box is not at the centre any more although the lattice is the
identity. -/
theorem C65_foreign_cuboid_violated : ∃ (b b' : Box Unit) (c : Cuboid), PosBox b.boxsize ∧
    Made ⟨1, 0, 0⟩ ⟨0, 1, 0⟩ ⟨0, 0, 1⟩ ⟨4, 4, 4⟩ c ∧ b.rows.map Row.pos = [b.boxcenter] ∧
    b.remap (.cuboid c) = .ok b' ∧ b'.rows.map Row.pos ≠ [b'.boxcenter] ∧
    b'.boxsize.x * b'.boxsize.y * b'.boxsize.z = 64 * (b.boxsize.x * b.boxsize.y * b.boxsize.z) := by
  obtain ⟨c, hc⟩ := (C10_init ⟨1, 0, 0⟩ ⟨0, 1, 0⟩ ⟨0, 0, 1⟩ ⟨4, 4, 4⟩).1 (by decide)
  have hm : Made ⟨1, 0, 0⟩ ⟨0, 1, 0⟩ ⟨0, 0, 1⟩ ⟨4, 4, 4⟩ c := ⟨hc, by norm_num [PosBox]⟩
  obtain ⟨hsz, htr⟩ := C11_identity_partial hm
  have ht := htr [⟨1 / 2, 1 / 2, 1 / 2⟩] (by norm_num [InBox])
  have e : (0 : V3 ℝ) - ⟨0 - 1 / 2, 0 - 1 / 2, 0 - 1 / 2⟩ = ⟨1 / 2, 1 / 2, 1 / 2⟩ := by ext <;> norm_num
  refine ⟨⟨⟨1, 1, 1⟩, 0, [⟨0, 0, [], [], ()⟩]⟩, ⟨c.cuboidsize, 0, [⟨⟨1 / 2, 1 / 2, 1 / 2⟩ + ⟨0 - 4 / 2, 0 - 4 / 2, 0 - 4 / 2⟩, c.project 0, [], [], ()⟩]⟩, c,
    by norm_num [PosBox], hm, by simp, ?_, ?_, ?_⟩
  · simp only [Box.remap, Box.remapCuboid, bind, Except.bind, Box.lower, V3.zero_x, V3.zero_y, V3.zero_z, hsz,
      List.mapM_cons, List.mapM_nil, Box.remapRow, Box.remapPos, e, ht, pure, Except.pure, List.map_nil]
  · intro h
    simp only [List.map_cons, List.map_nil, List.cons.injEq, and_true] at h
    have := congrArg V3.x h
    norm_num at this
  · rw [hsz]; norm_num

/-- Witness: an off-centre box with distinct sides, a non-trivial lattice, a particle on a face. -/
example : ∃ (b : Box Unit) (v1 v2 v3 : V3 ℤ), PosBox b.boxsize ∧ det3 v1 v2 v3 = 1 ∧ b.rows ≠ [] ∧
    ∀ r ∈ b.rows, Inside b.boxsize b.boxcenter r.pos ∧ ∀ v ∈ r.vecs, Inside b.boxsize b.boxcenter v := by
  refine ⟨⟨⟨1, 2, 3⟩, ⟨5, 5, 5⟩, [⟨⟨5, 4, 5⟩, 0, [⟨5, 5, 5⟩], [], ()⟩]⟩, ⟨1, 1, 0⟩, ⟨0, 1, 0⟩, ⟨0, 0, 1⟩, by norm_num [PosBox],
    by decide, by simp, ?_⟩
  intro r hr
  simp only [List.mem_singleton] at hr
  subst hr
  norm_num [Inside, abs_of_nonneg]

end Verif.Props
