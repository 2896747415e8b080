import Verif.Model.RadialDensity
import Verif.Spec.Spline
import Verif.Props.RedshiftDensity
import Verif.Lemmas.Blinding
import Mathlib.Analysis.Real.Pi.Bounds

/-!
# C95: interpolated redshift density
-/

namespace Verif.Props.DensityInterp

open Verif Verif.Model Verif.Model.DensityInterp Verif.Spec Verif.Props

/-! ### Specification -/

/-- The sample: the objects of all ranks, or those of the root. -/
def sample (mpiroot : Option ℕ) (rows : List (List (ℝ × ℝ))) : List (ℝ × ℝ) :=
  match mpiroot with
  | none => rows.flatten
  | some r => rows.getD r []

/-- Volume between redshifts `a` and `b`: 1 if the sky fraction is `None`. -/
noncomputable def volume (fsky : Option ℝ) (distance : Option (ℝ → ℝ)) (a b : ℝ) : ℝ :=
  match fsky with
  | none => 1
  | some f => shellVolume f (distance.getD id) a b

/-- `lo` and `hi` are the lowest and the highest redshifts of the sample. -/
structure Extent (l : List (ℝ × ℝ)) (lo hi : ℝ) : Prop where
  lo_mem : lo ∈ l.map (·.1)
  hi_mem : hi ∈ l.map (·.1)
  bounds : ∀ r ∈ l, lo ≤ r.1 ∧ r.1 ≤ hi

/-- `v` is the variance of the redshifts, with weights: `w` is the sum of weights, `m` the mean redshift; `w - (∑ w²) / w` is the
number of degrees of freedom. -/
def IsWeightedVariance (l : List (ℝ × ℝ)) (v : ℝ) : Prop :=
  ∃ w m f, w = (l.map (·.2)).sum ∧ w ≠ 0 ∧ m * w = (l.map fun r => r.2 * r.1).sum ∧
    (w - f) * w = (l.map fun r => r.2 ^ 2).sum ∧ f ≠ 0 ∧ v * f = (l.map fun r => r.2 * (r.1 - m) ^ 2).sum

/-- `v` is the unbiased variance of the redshifts of a sample of at least two objects. -/
def IsVariance (zs : List ℝ) (v : ℝ) : Prop :=
  2 ≤ zs.length ∧ v = (zs.map fun z => (z - zs.sum / zs.length) ^ 2).sum / (zs.length - 1)

/-- All weights are 1. -/
def Unweighted (l : List (ℝ × ℝ)) : Prop := ∀ r ∈ l, r.2 = 1

/-- Width of Scott's rule for `n` objects of variance `v`: the standard deviation times `(24 √π / n) ^ (1 / 3)`. -/
def IsScott (n : ℕ) (v dx : ℝ) : Prop := 0 ≤ dx ∧ dx ^ 6 * n ^ 2 = v ^ 3 * (24 ^ 2 * Real.pi)

/-! ### Auxiliary facts -/

theorem flatten_inputRows {mpiroot : Option ℕ} {rows : List (List (ℝ × ℝ))} (h : ∀ r, mpiroot = some r → r < rows.length) :
    (inputRows mpiroot rows).flatten = sample mpiroot rows := by
  cases mpiroot with
  | none => rfl
  | some r =>
    have := h r rfl
    exact Lemmas.Blinding.flatten_splitSizes _ _ (Lemmas.Blinding.sum_localSizes _ _ (by omega))

theorem length_shellVolumes (fsky : Option ℝ) (l : List ℝ) : (shellVolumes fsky l).length = l.length - 1 := by
  simp [shellVolumes]

theorem length_edgeDistances (distance : Option (ℝ → ℝ)) (l : List ℝ) : (edgeDistances distance l).length = l.length := by
  cases distance <;> simp [edgeDistances]

theorem length_centers (l : List ℝ) : (centers l).length = l.length - 1 := by simp [centers]

theorem centers_get (l : List ℝ) (i : ℕ) (a b : ℝ) (ha : l[i]? = some a) (hb : l[i + 1]? = some b) :
    (centers l)[i]? = some ((a + b) / 2) := by
  simp [centers, List.zip, List.getElem?_zipWith, ha, hb]

theorem shellVolumes_get (fsky : Option ℝ) (distance : Option (ℝ → ℝ)) (l : List ℝ) (i : ℕ) (a b : ℝ) (ha : l[i]? = some a)
    (hb : l[i + 1]? = some b) : (shellVolumes fsky (edgeDistances distance l))[i]? = some (volume fsky distance a b) := by
  cases fsky <;> cases distance <;>
    simp [shellVolumes, edgeDistances, List.zip, List.getElem?_zipWith, ha, hb, volume, shellVolume] <;> ring

theorem init_ok {size : ℕ} {mpiroot : Option ℕ} {rows : List (List (ℝ × ℝ))} {bins : BinsArg} {fsky : Option ℝ}
    {distance : Option (ℝ → ℝ)} {order : ℕ} {s : State} (h : init size mpiroot rows bins fsky distance order = .ok s) :
    ∃ b counts nbar, chooseBins size (inputRows mpiroot rows).flatten bins = .ok b ∧
      redshiftDensity (inputRows mpiroot rows) b fsky distance = .ok (s.edges, counts, nbar) ∧
      s.nodes = List.zip (centers s.edges) nbar ∧ s.order = order ∧ Spline.Accepted order s.nodes ∧
      s.edges.Pairwise (· ≤ ·) ∧ 0 ∉ shellVolumes fsky (edgeDistances distance s.edges) := by
  unfold init at h
  dsimp only at h
  cases hb : chooseBins size (inputRows mpiroot rows).flatten bins with
  | error e => rw [hb] at h; simp [bind, Except.bind] at h
  | ok b =>
    rw [hb] at h
    simp only [bind, Except.bind] at h
    cases hr : redshiftDensity (inputRows mpiroot rows) b fsky distance with
    | error e => rw [hr] at h; simp at h
    | ok t =>
      obtain ⟨edges, counts, nbar⟩ := t
      rw [hr] at h
      simp only at h
      by_cases hp : edges.Pairwise (· ≤ ·)
      · rw [if_neg (not_not.2 hp)] at h
        by_cases ha : Spline.Accepted order (List.zip (centers edges) nbar)
        · rw [if_neg (not_not.2 ha)] at h
          by_cases hv : 0 ∈ shellVolumes fsky (edgeDistances distance edges)
          · rw [if_pos hv] at h; simp at h
          · rw [if_neg hv] at h
            injection h with h
            subst h
            exact ⟨b, counts, nbar, rfl, hr, rfl, rfl, ha, hp, hv⟩
        · rw [if_pos ha] at h; simp at h
      · rw [if_pos hp] at h; simp at h

theorem init_eq {size : ℕ} {mpiroot : Option ℕ} {rows : List (List (ℝ × ℝ))} {bins : BinsArg} {fsky : Option ℝ}
    {distance : Option (ℝ → ℝ)} {order : ℕ} {b : Bins} {edges counts nbar : List ℝ}
    (hb : chooseBins size (inputRows mpiroot rows).flatten bins = .ok b)
    (hr : redshiftDensity (inputRows mpiroot rows) b fsky distance = .ok (edges, counts, nbar))
    (hp : edges.Pairwise (· ≤ ·)) (ha : Spline.Accepted order (List.zip (centers edges) nbar))
    (hv : 0 ∉ shellVolumes fsky (edgeDistances distance edges)) :
    init size mpiroot rows bins fsky distance order = .ok ⟨edges, List.zip (centers edges) nbar, order⟩ := by
  unfold init
  dsimp only
  rw [hb]
  simp only [bind, Except.bind]
  rw [hr]
  simp only
  rw [if_neg (not_not.2 hp), if_neg (not_not.2 ha), if_neg hv]

theorem nodes_get {size : ℕ} {mpiroot : Option ℕ} {rows : List (List (ℝ × ℝ))} {bins : BinsArg} {fsky : Option ℝ}
    {distance : Option (ℝ → ℝ)} {order : ℕ} {s : State} (hroot : ∀ r, mpiroot = some r → r < rows.length)
    (h : init size mpiroot rows bins fsky distance order = .ok s) (i : ℕ) (a b : ℝ) (ha : s.edges[i]? = some a)
    (hb : s.edges[i + 1]? = some b) :
    s.nodes[i]? = some ((a + b) / 2, weightOf (InBin s.edges i) (sample mpiroot rows) / volume fsky distance a b) := by
  obtain ⟨bn, counts, nbar, -, hr, hn, -, -, -, -⟩ := init_ok h
  obtain ⟨-, hc⟩ := C36_counts hr
  obtain ⟨-, -, hbar⟩ := redshiftDensity_ok hr
  have hi : i + 1 < s.edges.length := (List.getElem?_eq_some_iff.1 hb).1
  have h1 := hc i hi
  rw [flatten_inputRows hroot] at h1
  rw [hn, List.zip, List.getElem?_zipWith, centers_get _ _ _ _ ha hb, hbar, List.getElem?_zipWith, h1,
    shellVolumes_get _ _ _ _ _ _ ha hb]

theorem length_nodes {size : ℕ} {mpiroot : Option ℕ} {rows : List (List (ℝ × ℝ))} {bins : BinsArg} {fsky : Option ℝ}
    {distance : Option (ℝ → ℝ)} {order : ℕ} {s : State} (h : init size mpiroot rows bins fsky distance order = .ok s) :
    s.nodes.length = s.edges.length - 1 := by
  obtain ⟨bn, counts, nbar, -, hr, hn, -, -, -, -⟩ := init_ok h
  obtain ⟨hl, -⟩ := C36_counts hr
  obtain ⟨-, -, hbar⟩ := redshiftDensity_ok hr
  rw [hn, List.length_zip, hbar, List.length_zipWith, length_centers, length_shellVolumes, length_edgeDistances, hl]
  omega

/-! ### Theorems -/

/-- C95. At the centre of each bin the density is the weight of the objects in the bin over the volume of the bin. -/
theorem C95_centers_partial {S : Spline} (hS : SplineOk S) {size : ℕ} {mpiroot : Option ℕ} {rows : List (List (ℝ × ℝ))}
    {bins : BinsArg} {fsky : Option ℝ} {distance : Option (ℝ → ℝ)} {order : ℕ} {s : State}
    (hroot : ∀ r, mpiroot = some r → r < rows.length)
    (h : init size mpiroot rows bins fsky distance order = .ok s) (i : ℕ) (a b : ℝ) (ha : s.edges[i]? = some a)
    (hb : s.edges[i + 1]? = some b) :
    call S s ((a + b) / 2) = weightOf (InBin s.edges i) (sample mpiroot rows) / volume fsky distance a b ∧
      volume fsky distance a b ≠ 0 := by
  have hn := nodes_get hroot h i a b ha hb
  obtain ⟨bn, counts, nbar, -, -, -, ho, hacc, -, hv⟩ := init_ok h
  refine ⟨?_, fun h0 => hv ?_⟩
  · unfold call
    rw [ho]
    exact hS.through hacc _ (List.mem_of_getElem? hn)
  · have := shellVolumes_get fsky distance s.edges i a b ha hb
    rw [h0] at this
    exact List.mem_of_getElem? this

/-- C95. Below the centre of the first bin and above the centre of the last bin the density is zero. -/
theorem C95_outside {S : Spline} (hS : SplineOk S) {size : ℕ} {mpiroot : Option ℕ} {rows : List (List (ℝ × ℝ))}
    {bins : BinsArg} {fsky : Option ℝ} {distance : Option (ℝ → ℝ)} {order : ℕ} {s : State}
    (hroot : ∀ r, mpiroot = some r → r < rows.length)
    (h : init size mpiroot rows bins fsky distance order = .ok s) {n : ℕ} {a b c d : ℝ} (hlen : s.edges.length = n + 2)
    (ha : s.edges[0]? = some a) (hb : s.edges[1]? = some b) (hc : s.edges[n]? = some c) (hd : s.edges[n + 1]? = some d) {z : ℝ}
    (hz : z < (a + b) / 2 ∨ (c + d) / 2 < z) : call S s z = 0 := by
  have h0 := nodes_get hroot h 0 a b ha hb
  have h1 := nodes_get hroot h n c d hc hd
  have hl := length_nodes h
  obtain ⟨bn, counts, nbar, -, -, -, ho, hacc, -, -⟩ := init_ok h
  unfold call
  rw [ho]
  refine (hS.outside hacc ((a + b) / 2, weightOf (InBin s.edges 0) (sample mpiroot rows) / volume fsky distance a b) ?_
    ((c + d) / 2, weightOf (InBin s.edges n) (sample mpiroot rows) / volume fsky distance c d) ?_ z hz).1
  · rw [List.head?_eq_getElem?, h0]; rfl
  · rw [List.getLast?_eq_getElem?, hl, hlen]
    simpa using h1

/-- C95. The density is the spline, of the order asked for, through the densities of bins placed at their centres. -/
theorem C95_spline {size : ℕ} {mpiroot : Option ℕ} {rows : List (List (ℝ × ℝ))}
    {bins : BinsArg} {fsky : Option ℝ} {distance : Option (ℝ → ℝ)} {order : ℕ} {s : State}
    (hroot : ∀ r, mpiroot = some r → r < rows.length) (h : init size mpiroot rows bins fsky distance order = .ok s)
    {nodes : List (ℝ × ℝ)} (hlen : nodes.length = s.edges.length - 1)
    (hnodes : ∀ i a b, s.edges[i]? = some a → s.edges[i + 1]? = some b → nodes[i]? =
      some ((a + b) / 2, weightOf (InBin s.edges i) (sample mpiroot rows) / volume fsky distance a b)) (S : Spline) (z : ℝ) :
    call S s z = S.value order nodes z := by
  have hl := length_nodes h
  have hn : s.nodes = nodes := by
    apply List.ext_getElem?
    intro i
    by_cases hi : i + 1 < s.edges.length
    · have ha : s.edges[i]? = some s.edges[i] := List.getElem?_eq_getElem (by omega)
      have hb : s.edges[i + 1]? = some s.edges[i + 1] := List.getElem?_eq_getElem hi
      rw [nodes_get hroot h i _ _ ha hb, hnodes i _ _ ha hb]
    · rw [List.getElem?_eq_none (by omega), List.getElem?_eq_none (by omega)]
  obtain ⟨-, -, -, -, -, -, ho, -⟩ := init_ok h
  rw [call, ho, hn]

/-- C95. Edges given by the user are those of the bins. They are accepted if and only if they do not decrease, their centres
increase, they are more than the order (1 to 5) plus one, and no bin is empty of volume. -/
theorem C95_edges {size : ℕ} {mpiroot : Option ℕ} {rows : List (List (ℝ × ℝ))} {l : List ℝ} {fsky : Option ℝ}
    {distance : Option (ℝ → ℝ)} {order : ℕ} :
    (∀ s, init size mpiroot rows (.edges l) fsky distance order = .ok s → s.edges = l) ∧
    ((∃ s, init size mpiroot rows (.edges l) fsky distance order = .ok s) ↔
      l.Pairwise (· ≤ ·) ∧ (1 ≤ order ∧ order ≤ 5) ∧ order + 1 < l.length ∧
      (List.zipWith (fun a b => (a + b) / 2) l l.tail).Pairwise (· < ·) ∧
      ∀ i a b, l[i]? = some a → l[i + 1]? = some b → volume fsky distance a b ≠ 0) := by
  obtain ⟨counts, nbar, hr, hlen⟩ : ∃ counts nbar,
      redshiftDensity (inputRows mpiroot rows) (.edges l) fsky distance = .ok (l, counts, nbar) ∧ nbar.length = l.length - 1 := by
    refine ⟨_, _, rfl, ?_⟩
    rw [List.length_zipWith, reduceSum_histogram, histogram_length, length_shellVolumes, length_edgeDistances, min_self]
  have hcent : centers l = List.zipWith (fun a b => (a + b) / 2) l l.tail := by
    simp [centers, List.zip, List.map_zipWith]
  have hacc : Spline.Accepted order (List.zip (centers l) nbar) ↔ (1 ≤ order ∧ order ≤ 5) ∧ order + 1 < l.length ∧
      (List.zipWith (fun a b => (a + b) / 2) l l.tail).Pairwise (· < ·) := by
    unfold Spline.Accepted
    rw [List.length_zip, length_centers, hlen, min_self, List.map_fst_zip (by rw [length_centers, hlen]), hcent]
    constructor
    · rintro ⟨h1, h2, h3⟩; exact ⟨h1, by omega, h3⟩
    · rintro ⟨h1, h2, h3⟩; exact ⟨h1, by omega, h3⟩
  have hvol : 0 ∉ shellVolumes fsky (edgeDistances distance l) ↔
      ∀ i a b, l[i]? = some a → l[i + 1]? = some b → volume fsky distance a b ≠ 0 := by
    constructor
    · intro h0 i a b ha hb hv
      have := shellVolumes_get fsky distance l i a b ha hb
      rw [hv] at this
      exact h0 (List.mem_of_getElem? this)
    · intro hall h0
      obtain ⟨k, hk⟩ := List.getElem?_of_mem h0
      have hkn := (List.getElem?_eq_some_iff.1 hk).1
      rw [length_shellVolumes, length_edgeDistances] at hkn
      have ha : l[k]? = some l[k] := List.getElem?_eq_getElem (by omega)
      have hb : l[k + 1]? = some l[k + 1] := List.getElem?_eq_getElem (by omega)
      rw [shellVolumes_get fsky distance l k _ _ ha hb] at hk
      exact hall k _ _ ha hb (Option.some.inj hk)
  have inv : ∀ s, init size mpiroot rows (.edges l) fsky distance order = .ok s → s.edges = l ∧
      s.nodes = List.zip (centers l) nbar := by
    intro s hs
    obtain ⟨b, c, nb, hb', hr', hnode, -⟩ := init_ok hs
    simp only [chooseBins, Except.ok.injEq] at hb'
    subst hb'
    rw [hr] at hr'
    injection hr' with hr'
    injection hr' with he hr'
    injection hr' with _ hnb
    rw [hnode, ← he, ← hnb]
    exact ⟨rfl, rfl⟩
  refine ⟨fun s hs => (inv s hs).1, ?_, ?_⟩
  · rintro ⟨s, hs⟩
    obtain ⟨he, hn⟩ := inv s hs
    obtain ⟨-, -, -, -, -, -, -, ha, hp, hv⟩ := init_ok hs
    rw [hn, hacc] at ha
    rw [he] at hp hv
    exact ⟨hp, ha.1, ha.2.1, ha.2.2, hvol.1 hv⟩
  · rintro ⟨hp, ho, hl, hc, hv⟩
    exact ⟨_, init_eq rfl hr hp (hacc.2 ⟨ho, hl, hc⟩) (hvol.2 hv)⟩

/-- C95. The same objects, in another order or on other ranks, give the same density. -/
theorem C95_ranks {size : ℕ} {mpiroot mpiroot' : Option ℕ} {rows rows' : List (List (ℝ × ℝ))} (bins : BinsArg)
    (fsky : Option ℝ) (distance : Option (ℝ → ℝ)) (order : ℕ) (hroot : ∀ r, mpiroot = some r → r < rows.length)
    (hroot' : ∀ r, mpiroot' = some r → r < rows'.length) (hp : (sample mpiroot rows).Perm (sample mpiroot' rows')) :
    init size mpiroot rows bins fsky distance order = init size mpiroot' rows' bins fsky distance order := by
  have h1 : (inputRows mpiroot rows).flatten.Perm (inputRows mpiroot' rows').flatten := by
    rwa [flatten_inputRows hroot, flatten_inputRows hroot']
  have h2 : variance (inputRows mpiroot rows).flatten = variance (inputRows mpiroot' rows').flatten := by
    unfold variance
    simp only [(h1.map fun r : ℝ × ℝ => r.2).sum_eq, (h1.map fun r : ℝ × ℝ => r.2 * r.1).sum_eq,
      (h1.map fun r : ℝ × ℝ => r.2 ^ 2).sum_eq]
    rw [(h1.map _).sum_eq]
  have h3 : chooseBins size (inputRows mpiroot rows).flatten bins = chooseBins size (inputRows mpiroot' rows').flatten bins := by
    cases bins <;> simp only [chooseBins, h2]
  unfold init
  dsimp only
  rw [h3]
  cases chooseBins size (inputRows mpiroot' rows').flatten bins with
  | error e => rfl
  | ok b =>
    simp only [bind, Except.bind]
    rw [C36_ranks h1]

theorem variance_iff (l : List (ℝ × ℝ)) (v : ℝ) : variance l = some v ↔ IsWeightedVariance l v := by
  unfold variance IsWeightedVariance
  dsimp only
  constructor
  · intro h
    split_ifs at h with h0
    push Not at h0
    injection h with h
    refine ⟨_, (l.map fun r => r.2 * r.1).sum / (l.map fun r => r.2).sum, _, rfl, h0.1, ?_, ?_, h0.2, ?_⟩
    · exact div_mul_cancel₀ _ h0.1
    · rw [sub_sub_cancel, div_mul_cancel₀ _ h0.1]
    · rw [← h, div_mul_cancel₀ _ h0.2]
  · rintro ⟨w, m, f, rfl, hw, hm, hf, hf0, hv⟩
    have e1 : (l.map fun r => r.2 * r.1).sum / (l.map fun r => r.2).sum = m := by rw [← hm, mul_div_cancel_right₀ _ hw]
    have e2 : (l.map fun r => r.2).sum - (l.map fun r => r.2 ^ 2).sum / (l.map fun r => r.2).sum = f := by
      rw [← hf, mul_div_cancel_right₀ _ hw, sub_sub_cancel]
    rw [e1, e2, if_neg (by push Not; exact ⟨hw, hf0⟩), ← hv, mul_div_cancel_right₀ _ hf0]

theorem unweighted_sums {l : List (ℝ × ℝ)} (h : Unweighted l) (g : ℝ → ℝ → ℝ) :
    (l.map fun r => g r.2 r.1) = (l.map (·.1)).map fun z => g 1 z := by
  rw [List.map_map]
  apply List.map_congr_left
  intro r hr
  simp [h r hr]

/-- C95. With unit weights the variance is the usual one. -/
theorem C95_unweighted {l : List (ℝ × ℝ)} (h : Unweighted l) (v : ℝ) : IsWeightedVariance l v ↔ IsVariance (l.map (·.1)) v := by
  have e1 : (l.map (·.2)).sum = (l.length : ℝ) := by
    rw [unweighted_sums h fun w _ => w]; simp [Function.comp_def]
  have e2 : (l.map fun r => r.2 ^ 2).sum = (l.length : ℝ) := by
    rw [unweighted_sums h fun w _ => w ^ 2]; simp [Function.comp_def]
  have e3 : (l.map fun r => r.2 * r.1).sum = (l.map (·.1)).sum := by
    rw [unweighted_sums h fun w z => w * z]; simp [Function.comp_def]
  have e4 : ∀ m, (l.map fun r => r.2 * (r.1 - m) ^ 2).sum = ((l.map (·.1)).map fun z => (z - m) ^ 2).sum := by
    intro m
    rw [unweighted_sums h fun w z => w * (z - m) ^ 2]; simp
  unfold IsWeightedVariance IsVariance
  rw [e1, e2, e3, List.length_map]
  constructor
  · rintro ⟨w, m, f, rfl, hw, hm, hf, hf0, hv⟩
    have hf' : f = l.length - 1 := by
      have : ((l.length : ℝ) - f - 1) * l.length = 0 := by linarith
      rcases mul_eq_zero.1 this with h | h
      · linarith
      · exact absurd h hw
    subst hf'
    have hm' : (l.map (·.1)).sum / l.length = m := by rw [← hm, mul_div_cancel_right₀ _ hw]
    rw [hm', ← e4, ← hv, mul_div_cancel_right₀ _ hf0]
    refine ⟨?_, rfl⟩
    have h0 : l.length ≠ 0 := fun h => hw (by simp [h])
    have h1 : l.length ≠ 1 := fun h => hf0 (by simp [h])
    omega
  · rintro ⟨hn, hv⟩
    have hn' : (2 : ℝ) ≤ l.length := by exact_mod_cast hn
    refine ⟨_, (l.map (·.1)).sum / l.length, l.length - 1, rfl, by linarith, ?_, by ring, by linarith, ?_⟩
    · exact div_mul_cancel₀ _ (by linarith)
    · rw [e4, hv, div_mul_cancel₀ _ (by linarith)]

theorem cbrt_pow (c : ℝ) (hc : 0 ≤ c) : (c ^ (1 / 3 : ℝ)) ^ 3 = c := by
  rw [← Real.rpow_natCast, ← Real.rpow_mul hc]; norm_num

/-- C95. Width of the rule. -/
theorem C95_width {n : ℕ} (hn : 0 < n) {v : ℝ} (hv : 0 ≤ v) (dx : ℝ) : dx = scottWidth n v ↔ IsScott n v dx := by
  have hn' : (0 : ℝ) < n := by exact_mod_cast hn
  have hc : 0 ≤ 24 * √Real.pi / (n : ℝ) := by positivity
  have hs : 0 ≤ scottWidth n v := by unfold scottWidth; positivity
  have h6 : scottWidth n v ^ 6 * n ^ 2 = v ^ 3 * (24 ^ 2 * Real.pi) := by
    unfold scottWidth
    have h1 : √v ^ 6 = v ^ 3 := by
      rw [show (6 : ℕ) = 2 * 3 by rfl, pow_mul, Real.sq_sqrt hv]
    have h2 : ((24 * √Real.pi / (n : ℝ)) ^ (1 / 3 : ℝ)) ^ 6 = (24 * √Real.pi / n) ^ 2 := by
      rw [show (6 : ℕ) = 3 * 2 by rfl, pow_mul, cbrt_pow _ hc]
    rw [mul_pow, h1, h2, div_pow, mul_pow, Real.sq_sqrt Real.pi_pos.le]
    field_simp
  constructor
  · rintro rfl; exact ⟨hs, h6⟩
  · rintro ⟨h0, h⟩
    have : dx ^ 6 = scottWidth n v ^ 6 := by
      have := h.trans h6.symm
      exact mul_right_cancel₀ (by positivity) this
    exact (pow_left_inj₀ h0 hs (by norm_num)).1 this

theorem extent_extremes {l : List (ℝ × ℝ)} {lo hi : ℝ} (h : Extent l lo hi) : extremes (l.map (·.1)) = .ok (lo, hi) := by
  cases hx : extremes (l.map (·.1)) with
  | error e =>
    cases l with
    | nil => have := h.lo_mem; simp at this
    | cons a l => simp [extremes] at hx
  | ok p =>
    obtain ⟨a, b⟩ := p
    obtain ⟨h1, h2, h3⟩ := extremes_spec hx
    have hb : ∀ z ∈ l.map (·.1), lo ≤ z ∧ z ≤ hi := by
      intro z hz
      obtain ⟨r, hr, rfl⟩ := List.mem_map.1 hz
      exact h.bounds r hr
    rw [le_antisymm (h3 lo h.lo_mem).1 (hb a h1).1, le_antisymm (hb b h2).2 (h3 hi h.hi_mem).2]

theorem mem_extent {l : List (ℝ × ℝ)} (h : l ≠ []) : ∃ lo hi, Extent l lo hi := by
  cases hx : extremes (l.map (·.1)) with
  | error e =>
    cases l with
    | nil => exact absurd rfl h
    | cons a l => simp [extremes] at hx
  | ok p =>
    obtain ⟨h1, h2, h3⟩ := extremes_spec hx
    exact ⟨p.1, p.2, h1, h2, fun r hr => h3 r.1 (List.mem_map_of_mem hr)⟩

/-- Edges at equal distances. -/
def IsRegular (edges : List ℝ) (lo dx : ℝ) (n : ℕ) : Prop := edges.length = n + 1 ∧ ∀ k, k ≤ n → edges[k]? = some (lo + dx * k)

theorem IsRegular.eq {edges : List ℝ} {lo dx : ℝ} {n : ℕ} (h : IsRegular edges lo dx n) :
    edges = (List.range (n + 1)).map fun k : ℕ => lo + dx * k := by
  apply List.ext_getElem?
  intro k
  by_cases hk : k ≤ n
  · rw [h.2 k hk, List.getElem?_map, List.getElem?_range (by omega)]; rfl
  · rw [List.getElem?_eq_none (by rw [h.1]; omega), List.getElem?_eq_none (by simp; omega)]

theorem IsRegular.pairwise {edges : List ℝ} {lo dx : ℝ} {n : ℕ} (h : IsRegular edges lo dx n) (hdx : 0 ≤ dx) :
    edges.Pairwise (· ≤ ·) := by
  rw [h.eq, List.pairwise_map]
  refine List.pairwise_lt_range.imp ?_
  intro a b hab
  have : (a : ℝ) ≤ b := by exact_mod_cast hab.le
  nlinarith

theorem IsRegular.centers {edges : List ℝ} {lo dx : ℝ} {n : ℕ} (h : IsRegular edges lo dx n) :
    DensityInterp.centers edges = (List.range n).map fun k : ℕ => lo + dx * (k + 1 / 2) := by
  apply List.ext_getElem?
  intro k
  by_cases hk : k < n
  · rw [centers_get _ _ _ _ (h.2 k (by omega)) (h.2 (k + 1) (by omega)), List.getElem?_map, List.getElem?_range hk]
    simp
    ring
  · rw [List.getElem?_eq_none (by rw [length_centers, h.1]; omega), List.getElem?_eq_none (by simp; omega)]

/-- The centres are increasing as soon as the width is positive. -/
theorem accepted_regular {edges nbar : List ℝ} {lo dx : ℝ} {n : ℕ} (h : IsRegular edges lo dx n) (hdx : 0 < dx)
    (hn : nbar.length = n) (order : ℕ) :
    Spline.Accepted order (List.zip (DensityInterp.centers edges) nbar) ↔ (1 ≤ order ∧ order ≤ 5) ∧ order < n := by
  have hl : (DensityInterp.centers edges).length = n := by rw [length_centers, h.1]; omega
  unfold Spline.Accepted
  rw [List.length_zip, hl, hn, min_self, List.map_fst_zip (by omega), h.centers]
  refine ⟨fun h => ⟨h.1, h.2.1⟩, fun h => ⟨h.1, h.2, ?_⟩⟩
  rw [List.pairwise_map]
  refine List.pairwise_lt_range.imp ?_
  intro a b hab
  have : (a : ℝ) < b := by exact_mod_cast hab
  nlinarith

theorem volumes_regular {edges : List ℝ} {lo dx : ℝ} {n : ℕ} (h : IsRegular edges lo dx n) (fsky : Option ℝ)
    (distance : Option (ℝ → ℝ)) : 0 ∉ shellVolumes fsky (edgeDistances distance edges) ↔
      ∀ k : ℕ, k < n → volume fsky distance (lo + dx * k) (lo + dx * (k + 1 : ℕ)) ≠ 0 := by
  have hg : ∀ k : ℕ, k < n → (shellVolumes fsky (edgeDistances distance edges))[k]? =
      some (volume fsky distance (lo + dx * k) (lo + dx * (k + 1 : ℕ))) := fun k hk =>
    shellVolumes_get _ _ _ _ _ _ (h.2 k (by omega)) (h.2 (k + 1) (by omega))
  constructor
  · intro h0 k hk hv
    have := hg k hk
    rw [hv] at this
    exact h0 (List.mem_of_getElem? this)
  · intro hall h0
    obtain ⟨k, hk⟩ := List.getElem?_of_mem h0
    have hkn : k < n := by
      have := (List.getElem?_eq_some_iff.1 hk).1
      rw [length_shellVolumes, length_edgeDistances, h.1] at this
      omega
    rw [hg k hkn] at hk
    exact hall k hkn (Option.some.inj hk)

/-- Number of bins of the rule: the least positive number of bins of width `dx` that cover the range. -/
def IsBinNumber (lo hi dx : ℝ) (n : ℕ) : Prop := 1 ≤ n ∧ hi ≤ lo + dx * n ∧ (n = 1 ∨ lo + dx * (n - 1) < hi)

theorem density_scott {rows : List (List (ℝ × ℝ))} {dx lo hi : ℝ} (hdx : 0 < dx) (hE : Extent rows.flatten lo hi)
    (fsky : Option ℝ) (distance : Option (ℝ → ℝ)) : ∃ edges counts nbar n,
      redshiftDensity rows (.scott dx) fsky distance = .ok (edges, counts, nbar) ∧ IsRegular edges lo dx n ∧
      nbar.length = n ∧ IsBinNumber lo hi dx n := by
  have hne : rows.flatten ≠ [] := by
    intro h
    have := hE.lo_mem
    rw [h] at this
    simp at this
  obtain ⟨⟨edges, counts, nbar⟩, hr⟩ := C36_defined (bins := .scott dx) fsky distance hne
  obtain ⟨lo', hi', n, h1, h2, h3, h4, h5, h6, h7⟩ := C36_default_width hdx hr
  have hE' : Extent rows.flatten lo' hi' := ⟨h1, h2, h3⟩
  have he := (extent_extremes hE).symm.trans (extent_extremes hE')
  injection he with he
  injection he with e1 e2
  subst e1 e2
  obtain ⟨hc, -⟩ := C36_counts hr
  obtain ⟨heq, -, hn⟩ := redshiftDensity_ok hr
  refine ⟨edges, counts, nbar, n, hr, ⟨h5, h6⟩, ?_, h4, ?_, h7⟩
  · rw [hn, List.length_zipWith, hc, length_shellVolumes, length_edgeDistances, h5]; omega
  · obtain ⟨a, l, rfl, hl, hs, hall⟩ := binEdges_auto (bins := .scott dx) hdx heq
    have := (hall hi h2).2
    have hlast : (a :: l).getLast? = some (lo + dx * n) := by
      rw [List.getLast?_eq_getElem?, h5]
      exact h6 n le_rfl
    rw [List.getLast?_eq_some_getLast (by simp), List.getLast_cons hl] at hlast
    injection hlast with hlast
    rw [hlast] at this
    exact this

theorem binNumber_unique {lo hi dx : ℝ} (hdx : 0 < dx) {n m : ℕ} (hn : IsBinNumber lo hi dx n) (hm : IsBinNumber lo hi dx m) :
    n = m := by
  have key : ∀ {n m : ℕ}, IsBinNumber lo hi dx n → IsBinNumber lo hi dx m → n ≤ m := by
    intro n m hn hm
    by_contra hlt
    push Not at hlt
    rcases hn.2.2 with h | h
    · have := hm.1; omega
    · have h1 : (m : ℝ) + 1 ≤ n := by exact_mod_cast hlt
      have := hm.2.1
      nlinarith
  exact le_antisymm (key hn hm) (key hm hn)

/-- C95. Default bins: they have the width of Scott's rule, start from the lowest redshift, and are as many as needed. The
constructor returns if and only if the order is between 1 and 5, there are more bins than the order, and no bin is empty of
volume. -/
theorem C95_default_partial {size : ℕ} (hsize : 0 < size) {mpiroot : Option ℕ} {rows : List (List (ℝ × ℝ))} {fsky : Option ℝ}
    {distance : Option (ℝ → ℝ)} {order : ℕ} (hroot : ∀ r, mpiroot = some r → r < rows.length) {v dx lo hi : ℝ}
    (hv : IsWeightedVariance (sample mpiroot rows) v) (hv0 : 0 < v) (hdx : IsScott size v dx)
    (hE : Extent (sample mpiroot rows) lo hi) {n : ℕ} (hn : IsBinNumber lo hi dx n) :
    (∀ s, init size mpiroot rows .default fsky distance order = .ok s → IsRegular s.edges lo dx n) ∧
    ((∃ s, init size mpiroot rows .default fsky distance order = .ok s) ↔
      (1 ≤ order ∧ order ≤ 5) ∧ order < n ∧ ∀ k : ℕ, k < n → volume fsky distance (lo + dx * k) (lo + dx * (k + 1 : ℕ)) ≠ 0) := by
  rw [← flatten_inputRows hroot] at hv hE
  have hw := (C95_width hsize hv0.le dx).2 hdx
  have hpos : 0 < dx := by
    rw [hw]; unfold scottWidth
    have : (0 : ℝ) < size := by exact_mod_cast hsize
    have := Real.pi_pos
    positivity
  have hb : chooseBins size (inputRows mpiroot rows).flatten .default = .ok (.scott dx) := by
    rw [chooseBins, (variance_iff _ _).2 hv]
    simp only
    rw [← hw, if_pos hpos]
  obtain ⟨edges, counts, nbar, m, hr, hreg, hlen, hm⟩ := density_scott hpos hE fsky distance
  obtain rfl := binNumber_unique hpos hn hm
  constructor
  · intro s hs
    obtain ⟨b, c, nb, hb', hr', -⟩ := init_ok hs
    rw [hb] at hb'
    injection hb' with hb'
    subst hb'
    rw [hr] at hr'
    injection hr' with hr'
    injection hr' with he
    rw [← he]
    exact hreg
  · constructor
    · rintro ⟨s, hs⟩
      obtain ⟨b, c, nb, hb', hr', hnode, -, hacc, -, hvol⟩ := init_ok hs
      rw [hb] at hb'
      injection hb' with hb'
      subst hb'
      rw [hr] at hr'
      injection hr' with hr'
      injection hr' with he hr'
      injection hr' with _ hnb
      rw [hnode, ← he, ← hnb, accepted_regular hreg hpos hlen] at hacc
      rw [← he, volumes_regular hreg] at hvol
      exact ⟨hacc.1, hacc.2, hvol⟩
    · rintro ⟨ho, hlt, hvol⟩
      exact ⟨_, init_eq hb hr (hreg.pairwise hpos.le) ((accepted_regular hreg hpos hlen _).2 ⟨ho, hlt⟩)
        ((volumes_regular hreg _ _).2 hvol)⟩

/-- C95. A number of bins: they have the same width, from the lowest to the highest redshift. -/
theorem C95_number_partial {size : ℕ} {mpiroot : Option ℕ} {rows : List (List (ℝ × ℝ))} {fsky : Option ℝ}
    {distance : Option (ℝ → ℝ)} {order n : ℕ} (hroot : ∀ r, mpiroot = some r → r < rows.length) {lo hi : ℝ}
    (hE : Extent (sample mpiroot rows) lo hi) (hlt : lo < hi) :
    (∀ s, init size mpiroot rows (.number n) fsky distance order = .ok s → IsRegular s.edges lo ((hi - lo) / n) n) ∧
    ((∃ s, init size mpiroot rows (.number n) fsky distance order = .ok s) ↔
      (1 ≤ order ∧ order ≤ 5) ∧ order < n ∧ ∀ k : ℕ, k < n →
        volume fsky distance (lo + (hi - lo) / n * k) (lo + (hi - lo) / n * (k + 1 : ℕ)) ≠ 0) := by
  rw [← flatten_inputRows hroot] at hE
  have hne : (inputRows mpiroot rows).flatten ≠ [] := by
    intro h
    have := hE.lo_mem
    rw [h] at this
    simp at this
  obtain ⟨⟨edges, counts, nbar⟩, hr⟩ := C36_defined (bins := .number n) fsky distance hne
  obtain ⟨heq, -, hnb⟩ := redshiftDensity_ok hr
  obtain ⟨hc, -⟩ := C36_counts hr
  have hlen : nbar.length = edges.length - 1 := by
    rw [hnb, List.length_zipWith, hc, length_shellVolumes, length_edgeDistances]; omega
  have hreg : IsRegular edges lo ((hi - lo) / n) n := by
    rw [binEdges, extent_extremes hE] at heq
    simp only [bind, Except.bind] at heq
    by_cases h0 : n = 0
    · rw [if_pos h0] at heq
      injection heq with heq
      subst h0 heq
      refine ⟨rfl, fun k hk => ?_⟩
      obtain rfl : k = 0 := by omega
      simp
    · rw [if_neg h0] at heq
      injection heq with heq
      subst heq
      refine ⟨by simp, fun k hk => ?_⟩
      rw [List.getElem?_map, List.getElem?_range (by omega)]
      simp only [Option.map_some]
      rw [div_mul_eq_mul_div]
  rw [hreg.1, Nat.add_sub_cancel] at hlen
  have hpos : 0 < n → 0 < (hi - lo) / n := fun h => div_pos (by linarith) (by exact_mod_cast h)
  have hnn : 0 ≤ (hi - lo) / n := div_nonneg (by linarith) (by positivity)
  constructor
  · intro s hs
    obtain ⟨b, c, nb, hb', hr', -⟩ := init_ok hs
    simp only [chooseBins, Except.ok.injEq] at hb'
    subst hb'
    rw [hr] at hr'
    injection hr' with hr'
    injection hr' with he
    rw [← he]
    exact hreg
  · constructor
    · rintro ⟨s, hs⟩
      obtain ⟨b, c, nb, hb', hr', hnode, -, hacc, -, hvol⟩ := init_ok hs
      simp only [chooseBins, Except.ok.injEq] at hb'
      subst hb'
      rw [hr] at hr'
      injection hr' with hr'
      injection hr' with he hr'
      injection hr' with _ hnb
      have hn : 0 < n := by
        have := hacc.2.1
        rw [hnode, ← he, ← hnb, List.length_zip, length_centers, hreg.1, hlen] at this
        omega
      rw [hnode, ← he, ← hnb, accepted_regular hreg (hpos hn) hlen] at hacc
      rw [← he, volumes_regular hreg] at hvol
      exact ⟨hacc.1, hacc.2, hvol⟩
    · rintro ⟨ho, hlt, hvol⟩
      exact ⟨_, init_eq rfl hr (hreg.pairwise hnn) ((accepted_regular hreg (hpos (by omega)) hlen _).2 ⟨ho, hlt⟩)
        ((volumes_regular hreg _ _).2 hvol)⟩

/-- Bins chosen by the code. -/
def Automatic (bins : BinsArg) : Prop := bins = .default ∨ ∃ n, bins = .number n

theorem automatic_regular {size : ℕ} {mpiroot : Option ℕ} {rows : List (List (ℝ × ℝ))} {bins : BinsArg} {fsky : Option ℝ}
    {distance : Option (ℝ → ℝ)} {order : ℕ} {s : State} (hroot : ∀ r, mpiroot = some r → r < rows.length)
    (hb : Automatic bins) (h : init size mpiroot rows bins fsky distance order = .ok s) {lo hi : ℝ}
    (hE : Extent (sample mpiroot rows) lo hi) : ∃ dx n, 0 < dx ∧ 2 ≤ n ∧ IsRegular s.edges lo dx n ∧
      (∀ m, bins = .number m → lo + dx * n = hi) := by
  have hlen := length_nodes h
  obtain ⟨b, c, nb, hb', hr', hnode, -, hacc, -, -⟩ := init_ok h
  have h2 : 2 ≤ s.nodes.length := by have := hacc.1.1; have := hacc.2.1; omega
  rw [← flatten_inputRows hroot] at hE
  rcases hb with rfl | ⟨m, rfl⟩
  · rw [chooseBins] at hb'
    cases hv : variance (inputRows mpiroot rows).flatten with
    | none => rw [hv] at hb'; simp at hb'
    | some v =>
      rw [hv] at hb'
      simp only at hb'
      split_ifs at hb' with hpos
      injection hb' with hb'
      subst hb'
      obtain ⟨edges, counts, nbar, n, hr, hreg, -, -⟩ := density_scott hpos hE fsky distance
      rw [hr] at hr'
      injection hr' with hr'
      injection hr' with he _
      rw [he] at hreg
      refine ⟨_, n, hpos, ?_, hreg, by simp⟩
      rw [hlen, hreg.1] at h2
      omega
  · simp only [chooseBins, Except.ok.injEq] at hb'
    subst hb'
    obtain ⟨heq, -, -⟩ := redshiftDensity_ok hr'
    rw [binEdges, extent_extremes hE] at heq
    simp only [bind, Except.bind] at heq
    by_cases h0 : m = 0
    · rw [if_pos h0] at heq
      injection heq with heq
      rw [hlen, ← heq] at h2
      simp at h2
    · rw [if_neg h0] at heq
      injection heq with heq
      have hreg : IsRegular s.edges lo ((hi - lo) / m) m := by
        rw [← heq]
        refine ⟨by simp, fun k hk => ?_⟩
        rw [List.getElem?_map, List.getElem?_range (by omega)]
        simp only [Option.map_some]
        rw [div_mul_eq_mul_div]
      have hm2 : 2 ≤ m := by rw [hlen, hreg.1] at h2; omega
      have hm0 : (m : ℝ) ≠ 0 := by exact_mod_cast h0
      refine ⟨_, m, ?_, hm2, hreg, fun _ _ => ?_⟩
      · have hp := hacc.2.2
        have hfst : s.nodes.map (fun p => p.1) = centers s.edges := by
          have hl : nb.length = s.edges.length - 1 := by
            have h3 : s.nodes.length ≤ nb.length := by rw [hnode, List.length_zip]; omega
            obtain ⟨hc, -⟩ := C36_counts hr'
            obtain ⟨-, -, hnb⟩ := redshiftDensity_ok hr'
            rw [hnb, List.length_zipWith, hc, length_shellVolumes, length_edgeDistances]; omega
          rw [hnode, List.map_fst_zip (by rw [length_centers, hl])]
        rw [hfst, hreg.centers] at hp
        have := List.pairwise_iff_getElem.1 hp 0 1 (by simp; omega) (by simp; omega) (by omega)
        simp at this
        linarith
      · rw [div_mul_cancel₀ _ hm0]; ring

/-- C95 is violated: with bins chosen by the code the density at the lowest redshift of the sample is always zero. -/
theorem C95_lowest_violated {S : Spline} (hS : SplineOk S) {size : ℕ} {mpiroot : Option ℕ} {rows : List (List (ℝ × ℝ))}
    {bins : BinsArg} {fsky : Option ℝ} {distance : Option (ℝ → ℝ)} {order : ℕ} {s : State}
    (hroot : ∀ r, mpiroot = some r → r < rows.length) (hb : Automatic bins)
    (h : init size mpiroot rows bins fsky distance order = .ok s) {lo hi : ℝ} (hE : Extent (sample mpiroot rows) lo hi) :
    call S s lo = 0 := by
  obtain ⟨dx, n, hdx, hn, hreg, -⟩ := automatic_regular hroot hb h hE
  obtain ⟨k, rfl⟩ : ∃ k, n = k + 1 := ⟨n - 1, by omega⟩
  have h0 := hreg.2 0 (by omega)
  have h1 := hreg.2 1 (by omega)
  refine C95_outside hS hroot h hreg.1 h0 h1 (hreg.2 k (by omega)) (hreg.2 (k + 1) le_rfl) (Or.inl ?_)
  simp
  linarith

/-- C95 is violated: with a number of bins the density at the highest redshift of the sample is always zero. -/
theorem C95_highest_violated {S : Spline} (hS : SplineOk S) {size : ℕ} {mpiroot : Option ℕ} {rows : List (List (ℝ × ℝ))}
    {m : ℕ} {fsky : Option ℝ} {distance : Option (ℝ → ℝ)} {order : ℕ} {s : State}
    (hroot : ∀ r, mpiroot = some r → r < rows.length)
    (h : init size mpiroot rows (.number m) fsky distance order = .ok s) {lo hi : ℝ}
    (hE : Extent (sample mpiroot rows) lo hi) : call S s hi = 0 := by
  obtain ⟨dx, n, hdx, hn, hreg, hlast⟩ := automatic_regular hroot (Or.inr ⟨m, rfl⟩) h hE
  obtain ⟨k, rfl⟩ : ∃ k, n = k + 1 := ⟨n - 1, by omega⟩
  have hlast := hlast m rfl
  refine C95_outside hS hroot h hreg.1 (hreg.2 0 (by omega)) (hreg.2 1 (by omega)) (hreg.2 k (by omega))
    (hreg.2 (k + 1) le_rfl) (Or.inr ?_)
  push_cast at hlast ⊢
  nlinarith

theorem two_le_sum {f : ℝ → ℝ} (hf : ∀ x, 0 ≤ f x) {a b : ℝ} (hab : a ≠ b) : ∀ {l : List ℝ}, a ∈ l → b ∈ l →
    f a + f b ≤ (l.map f).sum := by
  have one : ∀ {x : ℝ} {l : List ℝ}, x ∈ l → f x ≤ (l.map f).sum := by
    intro x l hx
    apply List.single_le_sum
    · intro y hy
      obtain ⟨z, -, rfl⟩ := List.mem_map.1 hy
      exact hf z
    · exact List.mem_map_of_mem hx
  intro l
  induction l with
  | nil => intro h; simp at h
  | cons c l ih =>
    intro ha hb
    rw [List.map_cons, List.sum_cons]
    rcases List.mem_cons.1 ha with rfl | ha'
    · rcases List.mem_cons.1 hb with rfl | hb
      · exact absurd rfl hab
      · have := one hb; linarith
    · rcases List.mem_cons.1 hb with rfl | hb
      · have := one ha'; linarith
      · have := ih ha' hb
        have := hf c
        linarith

/-- The range is bounded by the variance. -/
theorem range_le {zs : List ℝ} {v lo hi : ℝ} (hv : IsVariance zs v) (hlo : lo ∈ zs) (hhi : hi ∈ zs) :
    (hi - lo) ^ 2 ≤ 2 * (zs.length - 1) * v := by
  obtain ⟨h2, rfl⟩ := hv
  have h2' : (2 : ℝ) ≤ zs.length := by exact_mod_cast h2
  rw [mul_assoc, mul_div_cancel₀ _ (by linarith : (zs.length : ℝ) - 1 ≠ 0)]
  set m := zs.sum / (zs.length : ℝ)
  by_cases h : lo = hi
  · subst h
    have : 0 ≤ (zs.map fun z => (z - m) ^ 2).sum := List.sum_nonneg (by
      intro y hy
      obtain ⟨z, -, rfl⟩ := List.mem_map.1 hy
      positivity)
    nlinarith
  · have := two_le_sum (f := fun z => (z - m) ^ 2) (fun x => sq_nonneg _) h hlo hhi
    nlinarith [sq_nonneg (lo - m + (hi - m))]

/-- C95 is violated: the default constructor (Scott's rule, cubic spline) fails for all samples of at most 11 redshifts. -/
theorem C95_small_violated {mpiroot : Option ℕ} {rows : List (List (ℝ × ℝ))} {fsky : Option ℝ} {distance : Option (ℝ → ℝ)}
    (hroot : ∀ r, mpiroot = some r → r < rows.length) (hu : Unweighted (sample mpiroot rows))
    (hN : (sample mpiroot rows).length ≤ 11) :
    ∃ e, init (sample mpiroot rows).length mpiroot rows .default fsky distance 3 = .error e := by
  cases h : init (sample mpiroot rows).length mpiroot rows .default fsky distance 3 with
  | error e => exact ⟨e, rfl⟩
  | ok s =>
    exfalso
    obtain ⟨b, c, nb, hb', -⟩ := init_ok h
    rw [chooseBins] at hb'
    cases hv : variance (inputRows mpiroot rows).flatten with
    | none => rw [hv] at hb'; simp at hb'
    | some v =>
      rw [hv] at hb'
      simp only at hb'
      split_ifs at hb' with hpos
      rw [variance_iff, flatten_inputRows hroot] at hv
      have hv' := (C95_unweighted hu v).1 hv
      have hv0 : 0 < v := by
        by_contra hn
        rw [scottWidth, Real.sqrt_eq_zero_of_nonpos (not_lt.1 hn), zero_mul] at hpos
        exact lt_irrefl _ hpos
      have h2 := hv'.1
      rw [List.length_map] at h2
      have hS := (C95_width (by omega : 0 < (sample mpiroot rows).length) hv0.le _).1 rfl
      obtain ⟨lo, hi, hE⟩ := mem_extent (l := sample mpiroot rows) (by
        intro h0; rw [h0] at h2; simp at h2)
      have hE' := hE
      rw [← flatten_inputRows hroot] at hE'
      obtain ⟨-, -, -, n, -, -, -, hbn⟩ := density_scott hpos hE' fsky distance
      obtain ⟨-, hlt, -⟩ := (C95_default_partial (by omega) hroot hv hv0 hS hE hbn (order := 3) (fsky := fsky)
        (distance := distance)).2.1 ⟨s, h⟩
      have hR := range_le hv' hE.lo_mem hE.hi_mem
      rw [List.length_map] at hR
      generalize scottWidth (sample mpiroot rows).length v = dx at *
      generalize (sample mpiroot rows).length = N at *
      have h3 : 3 * dx < hi - lo := by
        rcases hbn.2.2 with h1 | h1
        · omega
        · have : (3 : ℝ) ≤ n - 1 := by
            have : (4 : ℝ) ≤ n := by exact_mod_cast hlt
            linarith
          nlinarith
      have h6 : (3 * dx) ^ 6 < (hi - lo) ^ 6 := pow_lt_pow_left₀ h3 (by linarith) (by norm_num)
      have hN2 : (2 : ℝ) ≤ N := by exact_mod_cast h2
      have hN11 : (N : ℝ) ≤ 11 := by exact_mod_cast hN
      have h7 : (hi - lo) ^ 6 ≤ (2 * (N - 1) * v) ^ 3 := by
        rw [show (6 : ℕ) = 2 * 3 by rfl, pow_mul]
        exact pow_le_pow_left₀ (sq_nonneg _) hR 3
      have h8 : (2 * ((N : ℝ) - 1) * v) ^ 3 ≤ (20 * v) ^ 3 := by
        apply pow_le_pow_left₀ (by nlinarith)
        nlinarith
      have h9 : 729 * (dx ^ 6 * (N : ℝ) ^ 2) < (20 * v) ^ 3 * 11 ^ 2 := by
        have : 729 * dx ^ 6 < (20 * v) ^ 3 := by
          have : (3 * dx) ^ 6 = 729 * dx ^ 6 := by ring
          linarith
        have hN0 : (N : ℝ) ^ 2 ≤ 11 ^ 2 := by nlinarith
        have hN1 : 0 < (N : ℝ) ^ 2 := by positivity
        have hv3 : 0 < (20 * v) ^ 3 := by positivity
        nlinarith
      rw [hS.2] at h9
      have hpi := Real.pi_gt_three
      have hv3 : 0 < v ^ 3 := by positivity
      nlinarith

/-- C95 is violated: the number of objects of the rule is counted over the processes of the default communicator: the edges are
not the same when this number changes, for the same sample. -/
theorem C95_communicator_violated {size size' : ℕ} (hsize : 0 < size) (hlt : size < size') {mpiroot : Option ℕ}
    {rows : List (List (ℝ × ℝ))} {fsky : Option ℝ} {distance : Option (ℝ → ℝ)} {order : ℕ} {s s' : State}
    (h : init size mpiroot rows .default fsky distance order = .ok s)
    (h' : init size' mpiroot rows .default fsky distance order = .ok s') : s.edges ≠ s'.edges := by
  intro heq
  have main : ∀ {size : ℕ} {s : State}, init size mpiroot rows .default fsky distance order = .ok s →
      ∃ v, variance (inputRows mpiroot rows).flatten = some v ∧ 0 < scottWidth size v ∧
        ∃ lo hi, Extent (inputRows mpiroot rows).flatten lo hi ∧ s.edges[1]? = some (lo + scottWidth size v) := by
    intro size s h
    obtain ⟨b, c, nb, hb', hr', -⟩ := init_ok h
    rw [chooseBins] at hb'
    cases hv : variance (inputRows mpiroot rows).flatten with
    | none => rw [hv] at hb'; simp at hb'
    | some v =>
      rw [hv] at hb'
      simp only at hb'
      split_ifs at hb' with hpos
      injection hb' with hb'
      subst hb'
      obtain ⟨lo, hi, hE⟩ := mem_extent (l := (inputRows mpiroot rows).flatten) (by
        intro h0
        rw [h0] at hv
        simp [variance] at hv)
      obtain ⟨edges, counts, nbar, n, hr, hreg, -, hbn⟩ := density_scott hpos hE fsky distance
      rw [hr] at hr'
      injection hr' with hr'
      injection hr' with he _
      refine ⟨v, rfl, hpos, lo, hi, hE, ?_⟩
      rw [← he, hreg.2 1 hbn.1]
      simp
  obtain ⟨v, hv, hpos, lo, hi, hE, h1⟩ := main h
  obtain ⟨v', hv', hpos', lo', hi', hE', h1'⟩ := main h'
  rw [hv] at hv'
  injection hv' with hv'
  subst hv'
  have he := (extent_extremes hE).symm.trans (extent_extremes hE')
  injection he with he
  injection he with e1 e2
  subst e1 e2
  rw [heq, h1'] at h1
  injection h1 with h1
  have hw : scottWidth size' v = scottWidth size v := by linarith
  have hv0 : 0 < v := by
    by_contra hn
    rw [scottWidth, Real.sqrt_eq_zero_of_nonpos (not_lt.1 hn), zero_mul] at hpos
    exact lt_irrefl _ hpos
  have a1 := (C95_width hsize hv0.le _).1 rfl
  have a2 := (C95_width (by omega : 0 < size') hv0.le _).1 rfl
  have := a1.2.trans a2.2.symm
  rw [hw] at this
  have hp : 0 < scottWidth size v ^ 6 := by positivity
  have h3 := mul_left_cancel₀ hp.ne' this
  have h4 : (size : ℝ) < size' := by exact_mod_cast hlt
  have h5 : (0 : ℝ) < size := by exact_mod_cast hsize
  nlinarith

/-! ### Non-vacuity -/

theorem binNumber_exists {lo hi dx : ℝ} (hdx : 0 < dx) : ∃ n, IsBinNumber lo hi dx n := by
  classical
  have hex : ∃ n : ℕ, 1 ≤ n ∧ hi ≤ lo + dx * n := by
    obtain ⟨n, hn⟩ := exists_nat_gt ((hi - lo) / dx)
    rw [div_lt_iff₀ hdx] at hn
    refine ⟨n + 1, by omega, ?_⟩
    push_cast
    nlinarith
  refine ⟨Nat.find hex, (Nat.find_spec hex).1, (Nat.find_spec hex).2, ?_⟩
  by_cases h1 : Nat.find hex = 1
  · exact Or.inl h1
  · right
    have h2 := (Nat.find_spec hex).1
    have := Nat.find_min hex (m := Nat.find hex - 1) (by omega)
    push Not at this
    have := this (by omega)
    rwa [Nat.cast_sub h2, Nat.cast_one] at this

/-- 100 objects at redshift 0 and 100 at redshift 1, gathered on rank 1. -/
noncomputable def twoRedshifts : List (List (ℝ × ℝ)) := [[(5, 1)], List.replicate 100 (0, 1) ++ List.replicate 100 (1, 1)]

theorem twoRedshifts_unweighted : Unweighted (sample (some 1) twoRedshifts) := by
  intro r hr
  simp only [sample, twoRedshifts, List.getD_cons_succ, List.getD_cons_zero, List.mem_append, List.mem_replicate] at hr
  rcases hr with ⟨-, rfl⟩ | ⟨-, rfl⟩ <;> rfl

theorem twoRedshifts_extent : Extent (sample (some 1) twoRedshifts) 0 1 := by
  refine ⟨?_, ?_, ?_⟩
  · simp [sample, twoRedshifts, -List.reduceReplicate]
  · simp [sample, twoRedshifts, -List.reduceReplicate]
  · intro r hr
    simp only [sample, twoRedshifts, List.getD_cons_succ, List.getD_cons_zero, List.mem_append, List.mem_replicate] at hr
    rcases hr with ⟨-, rfl⟩ | ⟨-, rfl⟩ <;> norm_num

theorem twoRedshifts_variance : IsWeightedVariance (sample (some 1) twoRedshifts) (50 / 199) := by
  refine ⟨200, 1 / 2, 199, ?_, by norm_num, ?_, ?_, by norm_num, ?_⟩ <;>
    simp [sample, twoRedshifts, -List.reduceReplicate] <;> norm_num

/-- The hypotheses of the theorems above are met by this sample, whatever the number of objects elsewhere: the constructor returns
with the default arguments (without volume). -/
theorem twoRedshifts_ok (size : ℕ) (h : 200 ≤ size) :
    ∃ s, init size (some 1) twoRedshifts .default none none 3 = .ok s := by
  have hS := (C95_width (by omega : 0 < size) (by norm_num : (0 : ℝ) ≤ 50 / 199) _).1 rfl
  have hsz : (200 : ℝ) ≤ size := by exact_mod_cast h
  have hpos : 0 < scottWidth size (50 / 199) := by
    unfold scottWidth
    have := Real.pi_pos
    positivity
  obtain ⟨n, hn⟩ := binNumber_exists (lo := 0) (hi := 1) hpos
  refine (C95_default_partial (by omega) (by intro r hr; injection hr with hr; subst hr; decide) twoRedshifts_variance
    (by norm_num) hS twoRedshifts_extent hn).2.2 ⟨by norm_num, ?_, fun k _ => by simp [volume]⟩
  by_contra hlt
  have hn3 : (n : ℝ) ≤ 3 := by exact_mod_cast not_lt.1 hlt
  have h1 := hn.2.1
  have h3 : 1 ≤ 3 * scottWidth size (50 / 199) := by nlinarith
  have h6 : 1 ≤ (3 * scottWidth size (50 / 199)) ^ 6 := one_le_pow₀ h3
  have h9 : (3 * scottWidth size (50 / 199)) ^ 6 * (size : ℝ) ^ 2 = 729 * ((50 / 199) ^ 3 * (24 ^ 2 * Real.pi)) := by
    rw [← hS.2]; ring
  have hpi := Real.pi_le_four
  have hsq : (200 : ℝ) ^ 2 ≤ (size : ℝ) ^ 2 := by nlinarith
  nlinarith

example : ∃ s s', init 200 (some 1) twoRedshifts .default none none 3 = .ok s ∧
    init 400 (some 1) twoRedshifts .default none none 3 = .ok s' ∧ s.edges ≠ s'.edges := by
  obtain ⟨s, hs⟩ := twoRedshifts_ok 200 le_rfl
  obtain ⟨s', hs'⟩ := twoRedshifts_ok 400 (by norm_num)
  exact ⟨s, s', hs, hs', C95_communicator_violated (by norm_num) (by norm_num) hs hs'⟩

example {S : Spline} (hS : SplineOk S) : ∃ s, init 200 (some 1) twoRedshifts .default none none 3 = .ok s ∧ call S s 0 = 0 := by
  obtain ⟨s, hs⟩ := twoRedshifts_ok 200 le_rfl
  exact ⟨s, hs, C95_lowest_violated hS (by intro r hr; injection hr with hr; subst hr; decide) (Or.inl rfl) hs
    twoRedshifts_extent⟩

example : ∃ e, init 2 none [[(0, 1)], [(1, 1)]] .default (some 1) none 3 = .error e :=
  C95_small_violated (mpiroot := none) (rows := [[(0, 1)], [(1, 1)]]) (by simp) (by intro r hr; simp [sample] at hr; aesop)
    (by simp [sample])

end Verif.Props.DensityInterp
