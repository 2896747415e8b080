import Verif.Model.RandomCall
import Verif.Props.RandomCat
import Verif.Lemmas.Blinding

/-!
# C35: constructors of random catalogs with all their arguments
-/

namespace Verif.Props
open Verif Verif.Model Verif.Model.RandomCall Verif.Spec Verif.Lemmas.Blinding

/-- C35. The deprecated argument `size` is `csize`; both together are rejected; so are calls with neither a size nor a density. -/
theorem C35_size_keyword (L : Option (V3 ℝ)) (c : V3 ℝ) (nbar : Option ℝ) (nranks : ℕ) (u : ℕ → V3 ℝ) (position : String)
    (rarange decrange : Range) (drange : Option Range) (uv : ℕ → ℕ → ℝ × ℝ) (w h1 h2 : ℕ → ℕ → ℝ) (n1 n2 : ℕ) :
    (∀ n, randomBox L c none (some n) nbar nranks u = randomBox L c (some n) none nbar nranks u) ∧
    (∀ n m, randomBox L c (some m) (some n) nbar nranks u = .error .typeError) ∧
    (∀ V, L = some V → randomBox L c none none none nranks u = .error .typeError) ∧
    (∀ n, randomCutsky position rarange decrange drange none (some n) nbar nranks uv w h1 h2 n1 n2 =
      randomCutsky position rarange decrange drange (some n) none nbar nranks uv w h1 h2 n1 n2) ∧
    (∀ n m, randomCutsky position rarange decrange drange (some m) (some n) nbar nranks uv w h1 h2 n1 n2 = .error .typeError) ∧
    randomCutsky position rarange decrange drange none none none nranks uv w h1 h2 n1 n2 = .error .typeError := by
  refine ⟨fun n => rfl, fun n m => rfl, ?_, fun n => rfl, fun n m => rfl, rfl⟩
  rintro V rfl
  rfl

/-- C35. A box without size is rejected. -/
theorem C35_box_without_size (c : V3 ℝ) (csize : Option ℕ) (nbar : Option ℝ) (nranks : ℕ) (u : ℕ → V3 ℝ) :
    randomBox none c csize none nbar nranks u = .error .valueError := by
  cases csize <;> rfl

/-- C35. A box of `csize` points: as many points, on any number of ranks, all together the first ones of the stream of the seed. -/
theorem C35_box_csize (L c : V3 ℝ) (n : ℕ) (nbar : Option ℝ) {nranks : ℕ} (hr : 0 < nranks) (u : ℕ → V3 ℝ) :
    ∃ out, randomBox (some L) c (some n) none nbar nranks u = .ok out ∧ out.length = nranks ∧ out.flatten.length = n ∧
      out.flatten = (List.range n).map fun i => (⟨L.x * (u i).x + c.x, L.y * (u i).y + c.y, L.z * (u i).z + c.z⟩ : V3 ℝ) := by
  refine ⟨randomBoxCatalog L c (Blinding.localSizes n nranks) u, ?_, ?_, ?_⟩
  · simp only [randomBox, sizeArgument, totalSize, Option.isSome_none, Bool.false_eq_true, if_false, bind, Except.bind]
    rw [if_neg (by omega)]
    rfl
  · have := congrArg List.length (C35_box_ranks L c (Blinding.localSizes n nranks) u).1
    simpa [Blinding.localSizes] using this
  · have h := (C35_box_ranks L c (Blinding.localSizes n nranks) u).2
    rw [sum_localSizes n nranks hr] at h
    rw [h]
    simp

/-- C35. A box of given density, for sides and density that are not negative: the nearest integer to the density times the volume,
inside the box. -/
theorem C35_box_nbar (L c : V3 ℝ) (hL : NonnegSize L) {d : ℝ} (hd : 0 ≤ d) {nranks : ℕ} (hr : 0 < nranks) (u : ℕ → V3 ℝ)
    (hu : ∀ i, (-(1 / 2) ≤ (u i).x ∧ (u i).x < 1 / 2) ∧ (-(1 / 2) ≤ (u i).y ∧ (u i).y < 1 / 2) ∧
      (-(1 / 2) ≤ (u i).z ∧ (u i).z < 1 / 2)) :
    ∃ out, randomBox (some L) c none none (some d) nranks u = .ok out ∧ out.length = nranks ∧
      |(out.flatten.length : ℝ) - d * (L.x * L.y * L.z)| ≤ 1 / 2 ∧ ∀ rank ∈ out, ∀ p ∈ rank, Inside L c p := by
  have hv : 0 ≤ d * (L.x * L.y * L.z) := mul_nonneg hd (mul_nonneg (mul_nonneg hL.1 hL.2.1) hL.2.2)
  obtain ⟨-, h0, hn⟩ := C35_size d (L.x * L.y * L.z) hv
  obtain ⟨n, hn'⟩ := Int.eq_ofNat_of_zero_le h0
  obtain ⟨out, h, hl, hc, -⟩ := C35_box_csize L c n (some d) hr u
  have hcall : randomBox (some L) c none none (some d) nranks u = .ok (randomBoxCatalog L c (Blinding.localSizes n nranks) u) := by
    simp only [randomBox, sizeArgument, totalSize, Option.isSome_none, Bool.false_eq_true, if_false, bind, Except.bind, hn']
    rw [if_neg (by omega)]
    rfl
  have hcall' : randomBox (some L) c (some n) none (some d) nranks u =
      .ok (randomBoxCatalog L c (Blinding.localSizes n nranks) u) := by
    simp only [randomBox, sizeArgument, totalSize, Option.isSome_none, Bool.false_eq_true, if_false, bind, Except.bind]
    rw [if_neg (by omega)]
    rfl
  rw [hcall'] at h
  cases h
  refine ⟨_, hcall, hl, ?_, C35_box_inside L c hL _ u hu⟩
  rw [hc]
  rw [hn'] at hn
  exact_mod_cast hn

/-- C35, partial. A cutsky of `csize ≥ 1` points in a plain RA range: as many rows, on any number of ranks, all in the ranges. -/
theorem C35_cutsky_csize_partial (position : String) {rarange decrange : Range} {drange : Option Range} {n : ℕ} (hn : 0 < n)
    (nbar : Option ℝ) {nranks : ℕ} (hr : 0 < nranks) {uv : ℕ → ℕ → ℝ × ℝ} {w h1 h2 : ℕ → ℕ → ℝ} (hp : PlainRange rarange)
    (hd : -90 ≤ decrange.1 ∧ decrange.1 ≤ decrange.2 ∧ decrange.2 ≤ 90)
    (hdr : ∀ d, drange = some d → 0 ≤ d.1 ∧ d.1 ≤ d.2)
    (huv : ∀ t i, (0 ≤ (uv t i).1 ∧ (uv t i).1 < 1) ∧ (0 ≤ (uv t i).2 ∧ (uv t i).2 < 1))
    (hw : ∀ t i, 0 ≤ w t i ∧ w t i < 1) (hh1 : Draws h1) (hh2 : Draws h2) :
    ∃ out, randomCutsky position rarange decrange drange (some n) none nbar nranks uv w h1 h2 1 1 = .ok out ∧
      out.length = nranks ∧ out.flatten.length = n ∧ ∀ rank ∈ out, ∀ row ∈ rank, RowOk rarange decrange drange row := by
  have hs := sum_localSizes n nranks hr
  obtain ⟨out, h, hl⟩ := C35_cutsky_size_partial position (rarange := rarange) (decrange := decrange) (drange := drange)
    (sizes := Blinding.localSizes n nranks) hp hd hdr (by rw [hs]; exact hn) huv hw hh1 hh2
  refine ⟨out, ?_, ?_, ?_, C35_cutsky_rows_partial hp hh1 hh2 h⟩
  · simp only [randomCutsky, sizeArgument, totalSize, Option.isSome_none, Bool.false_eq_true, if_false, bind, Except.bind]
    rw [if_neg (by omega)]
    exact h
  · have := congrArg List.length hl
    simpa [Blinding.localSizes] using this
  · rw [List.length_flatten, hl, hs]

/-- C35, partial. A cutsky of given density in a plain RA range, if this makes at least one point: the nearest integer to the density
times the area of the ranges. -/
theorem C35_cutsky_nbar_partial (position : String) {rarange decrange : Range} {drange : Option Range} {d : ℝ}
    (ha : 1 ≤ d * radecboxArea rarange decrange) {nranks : ℕ} (hr : 0 < nranks) {uv : ℕ → ℕ → ℝ × ℝ} {w h1 h2 : ℕ → ℕ → ℝ}
    (hp : PlainRange rarange) (hd : -90 ≤ decrange.1 ∧ decrange.1 ≤ decrange.2 ∧ decrange.2 ≤ 90)
    (hdr : ∀ d, drange = some d → 0 ≤ d.1 ∧ d.1 ≤ d.2)
    (huv : ∀ t i, (0 ≤ (uv t i).1 ∧ (uv t i).1 < 1) ∧ (0 ≤ (uv t i).2 ∧ (uv t i).2 < 1))
    (hw : ∀ t i, 0 ≤ w t i ∧ w t i < 1) (hh1 : Draws h1) (hh2 : Draws h2) :
    ∃ out, randomCutsky position rarange decrange drange none none (some d) nranks uv w h1 h2 1 1 = .ok out ∧
      out.length = nranks ∧ |(out.flatten.length : ℝ) - d * radecboxArea rarange decrange| ≤ 1 / 2 ∧
      ∀ rank ∈ out, ∀ row ∈ rank, RowOk rarange decrange drange row := by
  obtain ⟨-, h0, hn⟩ := C35_size d (radecboxArea rarange decrange) (by linarith)
  obtain ⟨n, hn'⟩ := Int.eq_ofNat_of_zero_le h0
  rw [hn'] at hn
  have hpos : 0 < n := by
    rw [Nat.pos_iff_ne_zero]
    rintro rfl
    rw [abs_le] at hn
    have := hn.1
    push_cast at this
    linarith
  obtain ⟨out, h, hl, hc, hrow⟩ := C35_cutsky_csize_partial position (n := n) hpos (some d) hr hp hd hdr huv hw hh1 hh2
  refine ⟨out, ?_, hl, ?_, hrow⟩
  · rw [← h]
    simp only [randomCutsky, sizeArgument, totalSize, Option.isSome_none, Bool.false_eq_true, if_false, bind, Except.bind, hn']
  · rw [hc]
    exact_mod_cast hn

/-- C35 fails. A density over the range (300, 40), which `UniformAngularMask` accepts as the 100 degrees through RA 0, raises. -/
theorem C35_wrapped_violated (position : String) (drange : Option Range) {nbar : ℝ} (h : 1 ≤ nbar) (nranks : ℕ)
    (uv : ℕ → ℕ → ℝ × ℝ) (w h1 h2 : ℕ → ℕ → ℝ) (n1 n2 : ℕ) :
    randomCutsky position (300, 40) (-90, 90) drange none none (some nbar) nranks uv w h1 h2 n1 n2 = .error .valueError := by
  simp only [randomCutsky, sizeArgument, totalSize, Option.isSome_none, Bool.false_eq_true, if_false, bind, Except.bind]
  rw [if_pos (C35_wrapped_size_violated nbar h).1]

/-- Seven points in a box of sides 1, 2, 3 on two ranks. -/
example : ∃ out, randomBox (some ⟨1, 2, 3⟩) ⟨0, 0, 0⟩ none (some 7) none 2 (fun _ => ⟨0, 1 / 4, -1 / 4⟩) = .ok out ∧
    out.length = 2 ∧ out.flatten.length = 7 := by
  obtain ⟨out, h, h1, h2, -⟩ := C35_box_csize ⟨1, 2, 3⟩ ⟨0, 0, 0⟩ 7 none (nranks := 2) (by norm_num) (fun _ => ⟨0, 1 / 4, -1 / 4⟩)
  exact ⟨out, h, h1, h2⟩

end Verif.Props
