import Verif.Model.Script
import Verif.Props.BoxRemap
import Verif.Props.Lattice
import Verif.Props.CutskyLayout
import Verif.Props.CutskyRows

/-!
# C75, C76: the steps of the script that makes a cut-sky catalog from a cubic box
-/

namespace Verif.Props

open Verif Verif.Model Verif.Spec
open Verif.Model.Remap (Cuboid det3 toReal generateLatticeVectors keyOf sizesOf orthogonalize)
open Verif.Model.Script

variable {ρ : Type}

/-! ## C75 -/

/-- The ranges the script asks for the sides of the remapped box, for a cubic box of side 5500. -/
def scriptRanges : List Remap.Range := [⟨8000, some 10000⟩, ⟨4000, some 5000⟩, ⟨2000, some 4000⟩]

theorem norm_scaled {L : ℝ} (hL : 0 < L) (e : V3 ℝ) : (V3.emul (V3.const L) e).norm = L * e.norm := by
  have : (V3.emul (V3.const L) e).norm ^ 2 = (L * e.norm) ^ 2 := by
    rw [V3.norm_sq, mul_pow, V3.norm_sq]; simp; ring
  exact (sq_eq_sq₀ (V3.norm_nonneg _) (mul_nonneg hL.le (V3.norm_nonneg _))).1 this

/-- Squared length of an integer vector. -/
def sqInt (u : V3 ℤ) : ℤ := u.x * u.x + u.y * u.y + u.z * u.z

/-- Scalar product of integer vectors. -/
def dotInt (u v : V3 ℤ) : ℤ := u.x * v.x + u.y * v.y + u.z * v.z

theorem made_first {v1 v2 v3 : V3 ℤ} {L : V3 ℝ} {c : Cuboid} (hm : Made v1 v2 v3 L c) : c.e1.norm ^ 2 = sqInt v1 := by
  obtain ⟨-, -, -, -, -, -, -, -, -, he⟩ := hm.elim
  simp only [Remap.orthogonalize, Prod.mk.injEq] at he
  rw [V3.norm_sq, he.1, sqInt]; push_cast; simp [toReal]; ring

theorem made_second {v1 v2 v3 : V3 ℤ} {L : V3 ℝ} {c : Cuboid} (hm : Made v1 v2 v3 L c) (h : sqInt v1 = 3) :
    3 * c.e2.norm ^ 2 = ((3 * sqInt v2 - dotInt v1 v2 ^ 2 : ℤ) : ℝ) := by
  obtain ⟨-, -, -, -, -, -, -, -, -, he⟩ := hm.elim
  simp only [Remap.orthogonalize, Prod.mk.injEq] at he
  have h3 : ((v1.x : ℝ) * v1.x + v1.y * v1.y + v1.z * v1.z) = 3 := by
    unfold sqInt at h; exact_mod_cast h
  have hss : V3.dot (toReal v1) (toReal v1) = 3 := by simpa [V3.dot, toReal] using h3
  rw [V3.norm_sq, he.2.1, hss, sqInt, dotInt]
  push_cast
  simp only [V3.dot, toReal, V3.add_x, V3.add_y, V3.add_z, V3.smul_x, V3.smul_y, V3.smul_z]
  linear_combination (1 / 3 * ((v1.x : ℝ) * v2.x + v1.y * v2.y + v1.z * v2.z) ^ 2) * h3

/-- Sides of the remapped box for the shape the script looks for. -/
theorem script_sides {v1 v2 v3 : V3 ℤ} {L : ℝ} {c : Cuboid} (hm : Made v1 v2 v3 (V3.const L) c) (h1 : sqInt v1 = 3)
    (h2 : 3 * sqInt v2 - dotInt v1 v2 ^ 2 = 2) :
    c.cuboidsize = ⟨L * Real.sqrt 3, L * Real.sqrt (2 / 3), L * Real.sqrt (1 / 2)⟩ := by
  obtain ⟨hd, B, -⟩ := hm.elim
  have hL : 0 < L := hm.2.1
  have n1 : c.e1.norm ^ 2 = 3 := by rw [made_first hm, h1]; norm_num
  have n2 : c.e2.norm ^ 2 = 2 / 3 := by
    have := made_second hm h1
    rw [h2] at this; push_cast at this; linarith
  have n3 : c.e3.norm ^ 2 = 1 / 2 := by
    have : c.e1.norm ^ 2 * c.e2.norm ^ 2 * c.e3.norm ^ 2 = 1 := by
      rw [← mul_pow, ← mul_pow, Remap.prod_norms B hd]; norm_num
    rw [n1, n2] at this; linarith
  rw [C12_sizes hm, norm_scaled hL, norm_scaled hL, norm_scaled hL, ← n3, ← n2, ← n1, Real.sqrt_sq (V3.norm_nonneg _),
    Real.sqrt_sq (V3.norm_nonneg _), Real.sqrt_sq (V3.norm_nonneg _)]

/-- What the lattice vectors accepted by the script have in common: sides √3, √(2/3) and √(1/2) times that of the box. -/
theorem script_norms {u : L3} (h : Listed 1 (V3.const 5500) scriptRanges u) {L : ℝ} {c : Cuboid}
    (hm : Made u.1 u.2.1 u.2.2 (V3.const L) c) :
    c.cuboidsize = ⟨L * Real.sqrt 3, L * Real.sqrt (2 / 3), L * Real.sqrt (1 / 2)⟩ := by
  obtain ⟨-, -, -, -, c0, hc0, hr⟩ := h
  have hm0 : Made u.1 u.2.1 u.2.2 (V3.const 5500) c0 := ⟨hc0, by norm_num [PosBox, V3.const]⟩
  rw [C12_sizes hm0, norm_scaled (by norm_num), norm_scaled (by norm_num), norm_scaled (by norm_num)] at hr
  obtain ⟨r1, r2, -⟩ := hr
  have r1 := r1 _ rfl
  have r2 := r2 _ rfl
  simp only [Remap.Range.has, Option.mem_def, Option.some.injEq, forall_eq'] at r1 r2
  have n1 := made_first hm0
  have g1 := V3.norm_nonneg c0.e1
  have k1 : sqInt u.1 = 3 := by
    have a : (2 : ℝ) < sqInt u.1 := by rw [← n1]; nlinarith
    have b : (sqInt u.1 : ℝ) < 4 := by rw [← n1]; nlinarith
    have a' : (2 : ℤ) < sqInt u.1 := by exact_mod_cast a
    have b' : sqInt u.1 < (4 : ℤ) := by exact_mod_cast b
    omega
  have n2 := made_second hm0 k1
  have g2 := V3.norm_nonneg c0.e2
  have k2 : 3 * sqInt u.2.1 - dotInt u.1 u.2.1 ^ 2 = 2 := by
    have a : (1 : ℝ) < ((3 * sqInt u.2.1 - dotInt u.1 u.2.1 ^ 2 : ℤ) : ℝ) := by rw [← n2]; nlinarith
    have b : ((3 * sqInt u.2.1 - dotInt u.1 u.2.1 ^ 2 : ℤ) : ℝ) < 3 := by rw [← n2]; nlinarith
    have a' : (1 : ℤ) < 3 * sqInt u.2.1 - dotInt u.1 u.2.1 ^ 2 := by exact_mod_cast a
    have b' : 3 * sqInt u.2.1 - dotInt u.1 u.2.1 ^ 2 < (3 : ℤ) := by exact_mod_cast b
    omega
  exact script_sides hm k1 k2

/-- C75 fails: with exact arithmetic all the lattices the script accepts give the same box size, which makes one key in
the dictionary; the script takes the second key, and `remap_the_box` raises `IndexError` on every catalog, in whatever
order python goes through the set of coprime triples. Which lattices appear under a second key is decided by rounding
errors. -/
theorem C75_single_size_violated {coprimes : List (List ℤ)} (hi : IterationOf 1 coprimes) (b : Box ρ) :
    (scriptLattice coprimes).length ≤ 1 ∧ remapTheBox coprimes b = .error .indexError := by
  have hL : PosBox (V3.const 5500) := by norm_num [PosBox, V3.const]
  have hg := generate_spec coprimes (some 1) (V3.const 5500) scriptRanges false
  have hkey : ∀ e ∈ scriptLattice coprimes,
      e.1 = [5500 * Real.sqrt 3, 5500 * Real.sqrt (2 / 3), 5500 * Real.sqrt (1 / 2)] := by
    rintro ⟨k, l⟩ he
    obtain ⟨hne, hl⟩ := (hg.2 k l).1 he
    have hc : Props.chosen coprimes (V3.const 5500) scriptRanges false k ≠ [] := by
      intro h0; rw [h0] at hl; exact hne (by rw [hl]; simp [limit])
    obtain ⟨u, hu⟩ := List.exists_mem_of_ne_nil _ hc
    obtain ⟨hlist, c, hc, hk⟩ := (kept_iff hi hL scriptRanges false u k).1 (mem_chosen.1 hu)
    have := script_norms hlist (L := 5500) (c := c) ⟨hc, hL⟩
    simp only [Bool.false_eq_true, if_false] at hk
    rw [hk, this]
    rfl
  have hlen : (scriptLattice coprimes).length ≤ 1 := by
    have hnd : ((scriptLattice coprimes).map Prod.fst).Nodup := hg.1
    match hs : scriptLattice coprimes with
    | [] => simp
    | [_] => simp
    | a :: b :: l =>
      rw [hs] at hnd hkey
      simp only [List.map_cons, List.nodup_cons, List.mem_cons, not_or] at hnd
      have := (hkey a (by simp)).trans (hkey b (by simp)).symm
      exact absurd this hnd.1.1
  refine ⟨hlen, ?_⟩
  have : (scriptLattice coprimes)[1]? = none := by rw [List.getElem?_eq_none_iff]; exact hlen
  simp only [remapTheBox, pickLattice, this, bind, Except.bind]

/-- (x, y, z) → (z, x, y), the axes of the remapped box as the script orders them. -/
def depthFirst (p : V3 ℝ) : V3 ℝ := ⟨p.z, p.x, p.y⟩

theorem remap_size {b b' : Box ρ} {u1 u2 u3 : V3 ℝ} (h : b.remap (.vectors u1 u2 u3) = .ok b') :
    ∃ c, Cuboid.init u1 u2 u3 b.boxsize = .ok c ∧ b'.boxsize = c.cuboidsize := by
  simp only [Box.remap, Box.remapCuboid, bind, Except.bind] at h
  split at h
  · cases h
  · rename_i c hc
    refine ⟨c, hc, ?_⟩
    split at h
    · cases h
    · simp only [pure, Except.pure, Except.ok.injEq] at h
      rw [← h]

theorem rotate_yx (b : Box ρ) : ∃ b1, b.rotate 1 (.str "y") = (b1, none) ∧
    b1.rotate 1 (.str "x") = (⟨⟨|b.boxsize.z|, |b.boxsize.x|, |b.boxsize.y|⟩, depthFirst b.boxcenter,
      b.rows.map (rowMap depthFirst depthFirst)⟩, none) := by
  have h1 : ((1 : ℤ) : ℝ) * Real.pi / 2 = Real.pi / 2 := by push_cast; ring
  have hy : ∀ p : V3 ℝ, rodrigues ⟨0, 1, 0⟩ (Real.pi / 2) p = ⟨p.z, p.y, -p.x⟩ := by
    intro p; rw [rodrigues_y]; simp
  have hx : ∀ p : V3 ℝ, rodrigues ⟨1, 0, 0⟩ (Real.pi / 2) p = ⟨p.x, -p.z, p.y⟩ := by
    intro p; rw [rodrigues_x]; simp
  refine ⟨_, C09_rotate b 1 AxisMeans.y, ?_⟩
  rw [C09_rotate _ 1 AxisMeans.x, h1]
  have e : (rowMap (rodrigues ⟨1, 0, 0⟩ (Real.pi / 2)) (rodrigues ⟨1, 0, 0⟩ (Real.pi / 2)) : Row ρ → Row ρ) ∘
      rowMap (rodrigues ⟨0, 1, 0⟩ (Real.pi / 2)) (rodrigues ⟨0, 1, 0⟩ (Real.pi / 2)) = rowMap depthFirst depthFirst := by
    rw [rowMap_comp_fun]
    have : (fun p => rodrigues ⟨1, 0, 0⟩ (Real.pi / 2) (rodrigues ⟨0, 1, 0⟩ (Real.pi / 2) p)) = depthFirst := by
      funext p; rw [hx, hy]; simp [depthFirst]
    rw [this]
  simp only [List.map_map, e, hx, hy, V3.map, depthFirst, neg_neg, abs_neg, abs_abs]

/-- C75, what holds with any lattice the script can accept: for a cubic box of side L with all particles inside, the
returned box has side L/√2 along the line of sight x, then L√3 and L√(2/3); the volume is that of
the input; the centre goes to the same centre with axes permuted; the number and order of rows and the other columns are
kept; velocities keep their norm; positions go through one map, one-to-one on the box, and separations are those of some
periodic image. -/
theorem C75_remap_partial {u : L3} (hu : Listed 1 (V3.const 5500) scriptRanges u) (b : Box ρ) {L : ℝ} (hL : 0 < L)
    (hb : b.boxsize = ⟨L, L, L⟩)
    (hin : ∀ r ∈ b.rows, Inside b.boxsize b.boxcenter r.pos ∧ ∀ v ∈ r.vecs, Inside b.boxsize b.boxcenter v) :
    ∃ b' g h, remapWith u b = .ok b' ∧
      b'.boxsize = ⟨L * Real.sqrt (1 / 2), L * Real.sqrt 3, L * Real.sqrt (2 / 3)⟩ ∧
      b'.boxcenter = ⟨b.boxcenter.z, b.boxcenter.x, b.boxcenter.y⟩ ∧
      b'.rows = b.rows.map (rowMap g h) ∧ (∀ v : V3 ℝ, (h v).norm = v.norm) ∧
      (∀ p q, InsideHalfOpen b.boxsize b.boxcenter p → InsideHalfOpen b.boxsize b.boxcenter q → g p = g q → p = q) ∧
      b'.boxsize.x * b'.boxsize.y * b'.boxsize.z = L * L * L ∧
      ∀ p q, Inside b.boxsize b.boxcenter p → Inside b.boxsize b.boxcenter q →
        ∃ k : V3 ℤ, Spec.dist (g p) (g q) = Spec.dist p (q + L • toReal k) := by
  have hpos : PosBox b.boxsize := by rw [hb]; exact ⟨hL, hL, hL⟩
  have hdet : det3 u.1 u.2.1 u.2.2 = 1 := by
    have := hu.2.2.2.1
    rw [show Spec.triple (toReal u.1) (toReal u.2.1) (toReal u.2.2) = det3 (toReal u.1) (toReal u.2.1) (toReal u.2.2)
      from rfl, det3_cast] at this
    exact_mod_cast this
  obtain ⟨b1, g, h, h1, h2, h3, h4, h5, h6⟩ := C65_remap b hpos u.1 u.2.1 u.2.2 hdet hin
  obtain ⟨h7, h8⟩ := h6 L hb
  obtain ⟨c, hc, hs⟩ := remap_size h1
  have hconst : b.boxsize = V3.const L := by rw [hb]; rfl
  have hm : Made u.1 u.2.1 u.2.2 (V3.const L) c := by rw [← hconst]; exact ⟨hc, hpos⟩
  have hsz := script_norms hu hm
  obtain ⟨b2, r1, r2⟩ := rotate_yx b1
  have hd : ∀ p q, Spec.dist (depthFirst p) (depthFirst q) = Spec.dist p q := by
    intro p q; simp only [Spec.dist, depthFirst]; congr 1; ring
  have hnn : ∀ x : ℝ, |L * Real.sqrt x| = L * Real.sqrt x := fun x => abs_of_nonneg (mul_nonneg hL.le (Real.sqrt_nonneg _))
  have hsize : (⟨|b1.boxsize.z|, |b1.boxsize.x|, |b1.boxsize.y|⟩ : V3 ℝ) =
      ⟨L * Real.sqrt (1 / 2), L * Real.sqrt 3, L * Real.sqrt (2 / 3)⟩ := by
    rw [hs, hsz]; simp only [hnn]
  refine ⟨⟨⟨|b1.boxsize.z|, |b1.boxsize.x|, |b1.boxsize.y|⟩, depthFirst b1.boxcenter,
      b1.rows.map (rowMap depthFirst depthFirst)⟩, fun p => depthFirst (g p), fun v => depthFirst (h v), ?_, hsize,
    ?_, ?_, ?_, ?_, ?_, ?_⟩
  · simp only [remapWith, h1, bind, Except.bind, r1, r2]
  · rw [h2]; rfl
  · simp only [h3, List.map_map, rowMap_comp_fun]
  · intro v
    rw [← h4 v]
    have : (depthFirst (h v)).norm ^ 2 = (h v).norm ^ 2 := by
      rw [V3.norm_sq, V3.norm_sq]; simp only [depthFirst]; ring
    exact (sq_eq_sq₀ (V3.norm_nonneg _) (V3.norm_nonneg _)).1 this
  · intro p q hp hq e
    refine h5 p q hp hq ?_
    simp only [depthFirst, V3.mk.injEq] at e
    ext
    · exact e.2.1
    · exact e.2.2
    · exact e.1
  · rw [← h7, hs, hsz]
    simp only [hnn]; ring
  · intro p q hp hq
    obtain ⟨k, hk⟩ := h8 p q hp hq
    exact ⟨k, by simp only [hd, hk]⟩

/-- A lattice the script accepts. -/
theorem script_listed : Listed 1 (V3.const 5500) scriptRanges (⟨1, 1, 1⟩, ⟨0, 1, 0⟩, ⟨0, 0, 1⟩) := by
  obtain ⟨c, hc⟩ := (C10_init ⟨1, 1, 1⟩ ⟨0, 1, 0⟩ ⟨0, 0, 1⟩ (V3.const 5500)).1 (by decide)
  have hm : Made ⟨1, 1, 1⟩ ⟨0, 1, 0⟩ ⟨0, 0, 1⟩ (V3.const 5500) c := ⟨hc, by norm_num [PosBox, V3.const]⟩
  refine ⟨by simp [Bounded], by simp [Bounded], by simp [Bounded], by norm_num [Spec.triple, toReal], c, hc, ?_⟩
  rw [script_sides hm (by decide) (by decide)]
  have lo : ∀ {x a : ℝ}, 0 ≤ a → a ^ 2 ≤ x → a ≤ Real.sqrt x := fun ha h => Real.le_sqrt_of_sq_le h
  have hi : ∀ {x a : ℝ}, 0 ≤ a → x ≤ a ^ 2 → Real.sqrt x ≤ a := fun ha h => (Real.sqrt_le_left ha).2 h
  have a1 := lo (x := 3) (a := 16 / 11) (by norm_num) (by norm_num)
  have a2 := hi (x := 3) (a := 20 / 11) (by norm_num) (by norm_num)
  have a3 := lo (x := 2 / 3) (a := 8 / 11) (by norm_num) (by norm_num)
  have a4 := hi (x := 2 / 3) (a := 10 / 11) (by norm_num) (by norm_num)
  have a5 := lo (x := 1 / 2) (a := 4 / 11) (by norm_num) (by norm_num)
  have a6 := hi (x := 1 / 2) (a := 8 / 11) (by norm_num) (by norm_num)
  refine ⟨?_, ?_, ?_⟩ <;> intro r h <;> simp [scriptRanges] at h <;> subst h <;>
    simp only [Remap.Range.has, Option.mem_def, Option.some.injEq, forall_eq'] <;> constructor <;> linarith

/-- C75: which vectors the script takes from a dictionary with any keys (in floating point two lattices may have keys that differ by
rounding): the first set of vectors of the second key, and no other. -/
theorem C75_pick {κ : Type} (lattice : Remap.Dict κ (List L3)) (u : L3) :
    pickLattice lattice = .ok u ↔ ∃ first k l rest, lattice = first :: (k, u :: l) :: rest := by
  unfold pickLattice
  match lattice with
  | [] => simp
  | [a] => simp
  | a :: (k, []) :: rest => simp
  | a :: (k, v :: l) :: rest => simp [eq_comm]

/-- C75: the ranges of the script are met by some lattice, so that the dictionary has exactly one key. -/
theorem C75_one_key {coprimes : List (List ℤ)} (hi : IterationOf 1 coprimes) :
    ∃ l, l ≠ [] ∧ scriptLattice coprimes =
      [([5500 * Real.sqrt 3, 5500 * Real.sqrt (2 / 3), 5500 * Real.sqrt (1 / 2)], l)] := by
  have hL : PosBox (V3.const 5500) := by norm_num [PosBox, V3.const]
  have hg := generate_spec coprimes (some 1) (V3.const 5500) scriptRanges false
  obtain ⟨-, -, -, -, c, hc, -⟩ := id script_listed
  have hs := script_norms script_listed (L := 5500) (c := c) ⟨hc, hL⟩
  have hk := (kept_iff hi hL scriptRanges false _ c.cuboidsize.toList).2 ⟨script_listed, c, hc, by simp⟩
  have hmem : (c.cuboidsize.toList, limit (some 1) (Props.chosen coprimes (V3.const 5500) scriptRanges false
      c.cuboidsize.toList)) ∈ scriptLattice coprimes :=
    (hg.2 _ _).2 ⟨by rw [ne_eq, limit_ne_nil]; exact List.ne_nil_of_mem (mem_chosen.2 hk), rfl⟩
  have hne := ((hg.2 _ _).1 hmem).1
  have hlen := (C75_single_size_violated (ρ := Unit) hi ⟨0, 0, []⟩).1
  refine ⟨_, hne, ?_⟩
  match hsl : scriptLattice coprimes, hlen with
  | [], _ => rw [hsl] at hmem; simp at hmem
  | [e], _ =>
    rw [hsl] at hmem
    simp only [List.mem_singleton] at hmem
    rw [← hmem, hs]
    rfl

/-- The hypotheses of `C75_remap_partial` are met by a box with a particle. -/
example : ∃ b' g h, remapWith (⟨1, 1, 1⟩, ⟨0, 1, 0⟩, ⟨0, 0, 1⟩) (⟨⟨2, 2, 2⟩, ⟨1, 2, 3⟩,
    [⟨⟨1, 2, 3⟩, ⟨1, 0, 0⟩, [], [], ()⟩]⟩ : Box Unit) = .ok b' ∧ b'.boxcenter = ⟨3, 1, 2⟩ ∧
    b'.rows = [rowMap g h ⟨⟨1, 2, 3⟩, ⟨1, 0, 0⟩, [], [], ()⟩] := by
  obtain ⟨b', g, h, h1, -, h2, h3, -⟩ := C75_remap_partial script_listed (⟨⟨2, 2, 2⟩, ⟨1, 2, 3⟩,
    [⟨⟨1, 2, 3⟩, ⟨1, 0, 0⟩, [], [], ()⟩]⟩ : Box Unit) (L := 2) (by norm_num) rfl (by simp [Inside])
  exact ⟨b', g, h, h1, h2, h3⟩

/-! ## C76 -/

/-- C76 fails: `cartesian_to_sky` has no keyword `wrap`, and `apply_rsd_and_cutsky` never returns a catalog; it raises
`TypeError` whenever the same steps without the keyword would return one. -/
theorem C76_keyword_violated (b : Box ρ) (dmin dmax f ra0 dec0 : ℝ) :
    ∃ e, applyRsdAndCutsky b dmin dmax f ra0 dec0 = .error e ∧
      ((∃ out, rsdAndCutsky [] b dmin dmax f ra0 dec0 = .ok out) → e = .typeError) := by
  unfold applyRsdAndCutsky rsdAndCutsky
  simp only [bind, Except.bind]
  cases boxToCutsky b.boxsize dmax dmin with
  | error e => exact ⟨e, rfl, by simp⟩
  | ok x =>
    simp only
    cases isometryForCutsky b x.1 (x.2.1.1 + ra0, x.2.1.2 + ra0) (x.2.2.1 + dec0, x.2.2.2 + dec0) (.all none) (.all none)
      (some 1) with
    | error e => exact ⟨e, rfl, by simp⟩
    | ok iso =>
      cases iso with
      | many l => exact ⟨_, rfl, by simp⟩
      | one iso =>
        simp only
        cases rsdPosition (.const f) .none
          (((cutskyFromIsometry b iso none none none).map fun r => r.row).map fun r => r.pos)
          (((cutskyFromIsometry b iso none none none).map fun r => r.row).map fun r => r.vel) with
        | error e => exact ⟨e, rfl, by simp⟩
        | ok rsd => exact ⟨.typeError, by simp [cartesianToSkyCall], fun _ => rfl⟩

/-- Distance at which the centre of the box is put: half way between the maximum distance and the near face of the
smallest box around the survey. -/
noncomputable def scriptDistance (dmin dmax A δ : ℝ) : ℝ :=
  (dmax + dmin * min (Real.cos (rad A)) (Real.cos (rad δ))) / 2

/-- What `apply_rsd_and_cutsky` promises of one row: its vectors are moved by `T` and `R`, its redshift-space position is
the moved one displaced along the line of sight by `f` times the radial velocity, and the three sky columns are the
distance, RA in [0, 360) and Dec of the redshift-space position. -/
def SurveyRowOf (T R : V3 ℝ → V3 ℝ) (f : ℝ) (r : Row ρ) (o : SurveyRow ρ) : Prop :=
  o.row = rowMap T R r ∧
  o.rsdPosition = T r.pos + (f * (V3.dot (R r.vel) (T r.pos) / V3.dot (T r.pos) (T r.pos))) • T r.pos ∧
  (o.rsdPosition ≠ 0 → ∃ dec, o.sky.dec = some dec ∧ o.rsdPosition = skyPoint o.sky.dist o.sky.ra dec ∧ 0 < o.sky.dist ∧
    (0 ≤ o.sky.ra ∧ o.sky.ra < 360) ∧ (-90 ≤ dec ∧ dec ≤ 90))

/-- C76, what holds without the keyword `wrap`: all the rows are kept in order; the box is moved rigidly so that its centre
is seen in the direction (center_ra, center_dec), with its x axis along the line of sight, y to the East and z to the North;
the redshift-space position and the sky columns are those of the row. -/
theorem C76_rows_partial (b : Box ρ) {dmin dmax f ra0 dec0 D A δ : ℝ}
    (hr : boxToCutsky b.boxsize dmax dmin = .ok ((D, dmax), (-A, A), (-δ, δ))) (hA : 0 ≤ A) (hA' : A < 180) (hδ : 0 ≤ δ)
    (h0 : ∀ r ∈ b.rows, r.pos ≠ b.boxcenter - ⟨scriptDistance D dmax A δ, 0, 0⟩) :
    ∃ T R : V3 ℝ → V3 ℝ, ∃ out,
      (∀ p, surveyAxes ra0 dec0 (T p) = p - b.boxcenter + ⟨scriptDistance D dmax A δ, 0, 0⟩) ∧
      (∀ v, surveyAxes ra0 dec0 (R v) = v) ∧
      T b.boxcenter = skyPoint (scriptDistance D dmax A δ) ra0 dec0 ∧
      rsdAndCutsky [] b dmin dmax f ra0 dec0 = .ok out ∧ List.Forall₂ (SurveyRowOf T R f) b.rows out := by
  set s := scriptDistance D dmax A δ with hs
  set rr : ℝ × ℝ := (-A + ra0, A + ra0) with hrr
  set dcr : ℝ × ℝ := (-δ + dec0, δ + dec0) with hdcr
  have hw : raWidth rr = 2 * A := by
    simp only [raWidth, hrr]
    rw [if_pos (by linarith)]; ring
  have w0 : 0 ≤ raWidth rr := by rw [hw]; linarith
  have w1 : raWidth rr < 360 := by rw [hw]; linarith
  have hc1 : rr.1 + raWidth rr / 2 = ra0 := by rw [hw]; simp only [hrr]; ring
  have hc2 : (dcr.1 + dcr.2) / 2 = dec0 := by simp only [hdcr]; ring
  have hbx := cutskyBoxsize_eq (dr := (D, dmax)) w0 w1 (show dcr.1 ≤ dcr.2 by simp only [hdcr]; linarith)
  have hsx : dmax - (cutskyBoxsize (D, dmax) rr dcr).x / 2 = s := by
    rw [hbx, hs, scriptDistance, hw]
    simp only [hdcr]
    rw [show 2 * A / 2 = A by ring, show (δ + dec0 - (-δ + dec0)) / 2 = δ by ring]
    ring
  set origin := cutskyIsometry (D, dmax) rr dcr with horigin
  set iso := shiftedIsometry b.boxcenter origin with hiso
  have hT : ∀ p, surveyAxes ra0 dec0 (iso.transform p false) = p - b.boxcenter + ⟨s, 0, 0⟩ := by
    intro p
    have h1 := (cutskyIsometry_iff (dr := (D, dmax)) (dcr := dcr) w0 w1 (p - b.boxcenter) _).1 rfl
    rw [hc1, hc2, hsx] at h1
    rw [hiso, shiftedIsometry_transform]
    rw [← horigin] at h1
    exact (eq_add_of_sub_eq h1.symm)
  have hlin : ∀ p q : V3 ℝ, surveyAxes ra0 dec0 (p - q) = surveyAxes ra0 dec0 p - surveyAxes ra0 dec0 q := by
    intro p q; ext <;> simp [surveyAxes] <;> ring
  have hR : ∀ v, surveyAxes ra0 dec0 (iso.rot.mulVec v) = v := by
    intro v
    have e : iso.rot.mulVec v = iso.transform v false - iso.transform 0 false := by
      simp only [Isom.transform]
      ext <;> simp [M3.mulVec] <;> ring
    rw [e, hlin, hT, hT]
    ext <;> simp
  have hTm : ∀ p, iso.transform p false = iso.rot.mulVec p + iso.trans := by
    intro p; simp [Isom.transform]
  have hne : ∀ r ∈ b.rows, iso.transform r.pos false ≠ 0 := by
    intro r hrm h
    apply h0 r hrm
    have := hT r.pos
    rw [h] at this
    have z : surveyAxes ra0 dec0 0 = 0 := by ext <;> simp [surveyAxes]
    rw [z] at this
    have e1 := congrArg V3.x this
    have e2 := congrArg V3.y this
    have e3 := congrArg V3.z this
    simp at e1 e2 e3
    ext <;> simp <;> linarith
  have hdata : (cutskyFromIsometry b iso none none none).map (fun r => r.row) =
      b.rows.map (rowMap (fun p => iso.transform p false) fun v => iso.rot.mulVec v) := by
    simp only [cutskyFromIsometry, List.map_map]
    refine List.map_congr_left fun r _ => ?_
    simp only [Function.comp, C34_row, hTm]
  have hrsd : rsdPosition (.const f) .none
      ((b.rows.map (rowMap (fun p => iso.transform p false) fun v => iso.rot.mulVec v)).map fun r => r.pos)
      ((b.rows.map (rowMap (fun p => iso.transform p false) fun v => iso.rot.mulVec v)).map fun r => r.vel) =
      .ok (b.rows.map fun r => iso.transform r.pos false + (f * (V3.dot (iso.rot.mulVec r.vel) (iso.transform r.pos false) /
        V3.dot (iso.transform r.pos false) (iso.transform r.pos false))) • iso.transform r.pos false) := by
    rw [C25_local f _ _ (by
      intro p hp
      simp only [List.map_map, List.mem_map, Function.comp] at hp
      obtain ⟨r, hr1, rfl⟩ := hp
      exact hne r hr1)]
    simp only [List.map_map, List.zipWith_map, List.zipWith_self]
    rfl
  refine ⟨fun p => iso.transform p false, fun v => iso.rot.mulVec v, b.rows.map fun r =>
    let q := iso.transform r.pos false + (f * (V3.dot (iso.rot.mulVec r.vel) (iso.transform r.pos false) /
        V3.dot (iso.transform r.pos false) (iso.transform r.pos false))) • iso.transform r.pos false
    ⟨rowMap (fun p => iso.transform p false) (fun v => iso.rot.mulVec v) r, q, cartesianToSky q true⟩, hT, hR, ?_, ?_, ?_⟩
  · have := C19_centre (dr := (D, dmax)) (dcr := dcr) w0 w1 b.boxcenter
    unfold surveyCentre at this
    rw [hc1, hc2] at this
    have e : dmax - (cutskyToBox (D, dmax) rr dcr).1.x / 2 = s := hsx
    simp only [e] at this
    exact this
  · unfold rsdAndCutsky
    simp only [hr, bind, Except.bind]
    have hi : isometryForCutsky b (D, dmax) rr dcr (.all none) (.all none) (some 1) = .ok (.one iso) := by
      simp [isometryForCutsky, cutskyToBox, hiso, horigin]
    rw [hi]
    simp only [hdata, hrsd]
    simp only [cartesianToSkyCall, List.all_nil, if_true, List.map_map]
    congr 1
    simp [List.zip_map', List.zipWith_map, List.zipWith_self]
  · rw [List.forall₂_map_right_iff, List.forall₂_same]
    intro r _
    refine ⟨rfl, rfl, fun hq => ?_⟩
    obtain ⟨dec, hd, hs⟩ := C22_from_cartesian hq true
    have hr := C23_ranges (iso.transform r.pos false + (f * (V3.dot (iso.rot.mulVec r.vel) (iso.transform r.pos false) /
        V3.dot (iso.transform r.pos false) (iso.transform r.pos false))) • iso.transform r.pos false) true
    refine ⟨dec, hd, ?_, V3.norm_pos hq, ?_, ?_⟩
    · conv_lhs => rw [← hs]
      ext <;> simp [skyToCartesian, Num.val, Num.kind, Kind.join, store, conversion, skyPoint, rad]
    · simpa [turn] using (⟨hr.2.1, hr.2.2.1⟩ : _ ∧ _)
    · have := hr.2.2.2.2 dec hd
      norm_num [turn] at this
      exact this

/-- A unit box with maximum distance 1: the ranges are those of the theorem, and a particle at the centre is moved. -/
example : ∃ T R : V3 ℝ → V3 ℝ, ∃ out, T 0 = skyPoint (1 / 2) 20 10 ∧
    rsdAndCutsky [] (⟨⟨1, 1, 1⟩, 0, [⟨0, ⟨1, 0, 0⟩, [], [], ()⟩]⟩ : Box Unit) 0 1 2 20 10 = .ok out ∧
    List.Forall₂ (SurveyRowOf T R 2) [⟨0, ⟨1, 0, 0⟩, [], [], ()⟩] out := by
  have ha : Real.arcsin (1 / 2) = Real.pi / 6 := by
    rw [← Real.sin_pi_div_six, Real.arcsin_sin] <;> linarith [Real.pi_pos]
  have hd : Real.pi / 6 / (Real.pi / 180) = 30 := by
    have := Real.pi_ne_zero
    field_simp; norm_num
  have hb : boxToCutsky ⟨1, 1, 1⟩ 1 0 = .ok ((0, 1), (-30, 30), (-30, 30)) := by
    norm_num [boxToCutsky, halfOpenings, npArcsin, bind, Except.bind, rad2deg, ha]
  obtain ⟨T, R, out, -, -, h1, h2, h3⟩ := C76_rows_partial (⟨⟨1, 1, 1⟩, 0, [⟨0, ⟨1, 0, 0⟩, [], [], ()⟩]⟩ : Box Unit)
    (f := 2) (ra0 := 20) (dec0 := 10) hb (by norm_num) (by norm_num) (by norm_num) (by
      intro r hr h
      simp only [List.mem_singleton] at hr
      subst hr
      have := congrArg V3.x h
      norm_num [scriptDistance] at this)
  refine ⟨T, R, out, ?_, h2, h3⟩
  rw [h1]; norm_num [scriptDistance]

end Verif.Props
