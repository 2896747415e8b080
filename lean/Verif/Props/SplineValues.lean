import Verif.Spec.SplinePieces
import Verif.Lemmas.CubicSpline
import Verif.Props.RadialSpline
import Verif.Props.DensityInterp

/-!
# C118: interpolated densities between the tabulated points
-/

namespace Verif.Props.SplineValues

open Verif Verif.Model Verif.Spec Verif.Lemmas.CubicSpline Polynomial

/-! ### Nodes -/

theorem nodeX_lt {nodes : List (ℝ × ℝ)} (hp : (nodes.map fun p => p.1).Pairwise (· < ·)) {i j : ℕ} (hij : i < j)
    (hj : j < nodes.length) : nodeX nodes i < nodeX nodes j := by
  have := List.pairwise_iff_getElem.1 hp i j (by simp; omega) (by simpa using hj) hij
  simpa [nodeX, List.getD_eq_getElem?_getD, hj, hij.trans hj] using this

theorem node_mem {nodes : List (ℝ × ℝ)} {i : ℕ} (hi : i < nodes.length) : (nodeX nodes i, nodeY nodes i) ∈ nodes := by
  simp [nodeX, nodeY, List.getD_eq_getElem?_getD, hi]

theorem node_of_get {nodes : List (ℝ × ℝ)} {i : ℕ} {a : ℝ × ℝ} (h : nodes[i]? = some a) : nodeX nodes i = a.1 ∧ nodeY nodes i = a.2 := by
  simp [nodeX, nodeY, List.getD_eq_getElem?_getD, h]

/-- A point between the first and the last nodes is between two consecutive nodes. -/
theorem exists_interval {x : ℕ → ℝ} : ∀ {n : ℕ}, 0 < n → ∀ {z : ℝ}, x 0 ≤ z → z ≤ x n → ∃ i < n, x i ≤ z ∧ z ≤ x (i + 1)
  | 0, h, _, _, _ => absurd h (by omega)
  | n + 1, _, z, h0, h1 => by
    by_cases hz : x n ≤ z
    · exact ⟨n, by omega, hz, h1⟩
    · rcases Nat.eq_zero_or_pos n with rfl | hn
      · exact absurd h0 hz
      · obtain ⟨i, hi, h⟩ := exists_interval hn h0 (by linarith)
        exact ⟨i, by omega, h⟩

/-- Functions which agree at the nodes and are given interval by interval are given everywhere between the nodes. -/
theorem glue {x : ℕ → ℝ} {n : ℕ} (hx : ∀ i j, i < j → j ≤ n → x i < x j) {f : ℕ → ℝ → ℝ}
    (hf : ∀ i, i + 1 < n → f i (x (i + 1)) = f (i + 1) (x (i + 1))) {i j : ℕ} (hi : i < n) (hj : j < n) {z : ℝ} (hi1 : x i ≤ z)
    (hi2 : z ≤ x (i + 1)) (hj1 : x j ≤ z) (hj2 : z ≤ x (j + 1)) : f i z = f j z := by
  have key : ∀ {i j : ℕ}, i < j → j < n → x i ≤ z → z ≤ x (i + 1) → x j ≤ z → z ≤ x (j + 1) → f i z = f j z := by
    intro i j hij hj a1 a2 b1 b2
    by_cases h : j = i + 1
    · subst h
      have : z = x (i + 1) := le_antisymm a2 b1
      rw [this]
      exact hf i hj
    · have := hx (i + 1) j (by omega) hj.le
      linarith
  rcases Nat.lt_trichotomy i j with h | h | h
  · exact key h hj hi1 hi2 hj1 hj2
  · rw [h]
  · exact (key h hi hj1 hj2 hi1 hi2).symm

theorem ends {nodes : List (ℝ × ℝ)} {a b : ℝ × ℝ} (ha : a ∈ nodes.head?) (hb : b ∈ nodes.getLast?) :
    nodeX nodes 0 = a.1 ∧ nodeX nodes (nodes.length - 1) = b.1 := by
  rw [List.head?_eq_getElem?] at ha
  rw [List.getLast?_eq_getElem?] at hb
  exact ⟨(node_of_get ha).1, (node_of_get hb).1⟩

/-! ### The assumptions are met -/

/-- The interpolating splines exist. -/
theorem splinePieces_exists : ∃ S, SplinePieces S := by
  classical
  obtain ⟨S, hS⟩ := splineOk_exists
  let idx (nodes : List (ℝ × ℝ)) (z : ℝ) : Option ℕ :=
    if h : ∃ i < nodes.length - 1, nodeX nodes i ≤ z ∧ z ≤ nodeX nodes (i + 1) then some h.choose else none
  have idx_some : ∀ {nodes z i}, i + 1 < nodes.length → nodeX nodes i ≤ z → z ≤ nodeX nodes (i + 1) →
      ∃ j < nodes.length - 1, idx nodes z = some j ∧ nodeX nodes j ≤ z ∧ z ≤ nodeX nodes (j + 1) := by
    intro nodes z i hi h1 h2
    have hex : ∃ i < nodes.length - 1, nodeX nodes i ≤ z ∧ z ≤ nodeX nodes (i + 1) := ⟨i, by omega, h1, h2⟩
    exact ⟨hex.choose, hex.choose_spec.1, by simp only [idx, dif_pos hex], hex.choose_spec.2⟩
  have idx_none : ∀ {nodes : List (ℝ × ℝ)} {z : ℝ} {a b : ℝ × ℝ}, (nodes.map fun p => p.1).Pairwise (· < ·) → a ∈ nodes.head? →
      b ∈ nodes.getLast? → z < a.1 ∨ b.1 < z → idx nodes z = none := by
    intro nodes z a b hp ha hb hz
    obtain ⟨e0, e1⟩ := ends ha hb
    refine dif_neg ?_
    rintro ⟨i, hi, h1, h2⟩
    have l0 : nodeX nodes 0 ≤ nodeX nodes i := by
      rcases Nat.eq_zero_or_pos i with h | h
      · rw [h]
      · exact (nodeX_lt hp h (by omega)).le
    have l1 : nodeX nodes (i + 1) ≤ nodeX nodes (nodes.length - 1) := by
      by_cases h : i + 1 = nodes.length - 1
      · rw [h]
      · exact (nodeX_lt hp (by omega) (by omega)).le
    rcases hz with hz | hz <;> linarith
  let line (nodes : List (ℝ × ℝ)) (i : ℕ) (z : ℝ) : ℝ :=
    nodeY nodes i + (nodeY nodes (i + 1) - nodeY nodes i) * (z - nodeX nodes i) / (nodeX nodes (i + 1) - nodeX nodes i)
  let pieces (nodes : List (ℝ × ℝ)) : ℕ → ℝ[X] :=
    if h : ∃ p, IsCubicSpline (nodeX nodes) (nodeY nodes) (nodes.length - 1) p then h.choose else fun _ => 0
  have pieces_ok : ∀ {nodes}, Spline.Accepted 3 nodes →
      IsCubicSpline (nodeX nodes) (nodeY nodes) (nodes.length - 1) (pieces nodes) := by
    intro nodes hacc
    have hex := exists_spline (x := nodeX nodes) (n := nodes.length - 1) (by have := hacc.2.1; omega)
      (fun i hi => nodeX_lt hacc.2.2 (by omega) (by omega)) (nodeY nodes)
    simp only [pieces, dif_pos hex]
    exact hex.choose_spec
  let value (k : ℕ) (nodes : List (ℝ × ℝ)) (z : ℝ) : ℝ :=
    if k = 1 then ((idx nodes z).map fun i => line nodes i z).getD 0
    else if k = 3 then ((idx nodes z).map fun i => (pieces nodes i).eval z).getD 0 else S.value k nodes z
  let d1 (k : ℕ) (nodes : List (ℝ × ℝ)) (z : ℝ) : ℝ :=
    if k = 3 then ((idx nodes z).map fun i => (pieces nodes i).derivative.eval z).getD 0 else S.d1 k nodes z
  let d2 (k : ℕ) (nodes : List (ℝ × ℝ)) (z : ℝ) : ℝ :=
    if k = 3 then ((idx nodes z).map fun i => (pieces nodes i).derivative.derivative.eval z).getD 0 else S.d2 k nodes z
  have mono : ∀ {nodes : List (ℝ × ℝ)}, (nodes.map fun p => p.1).Pairwise (· < ·) → ∀ i j, i < j → j ≤ nodes.length - 1 →
      nodeX nodes i < nodeX nodes j := fun hp i j hij hj => nodeX_lt hp hij (by omega)
  have hlinear : ∀ {nodes}, Spline.Accepted 1 nodes → ∀ i, i + 1 < nodes.length → ∀ z, nodeX nodes i ≤ z → z ≤ nodeX nodes (i + 1) →
      value 1 nodes z = line nodes i z := by
    intro nodes hacc i hi z h1 h2
    obtain ⟨j, hj, he, b1, b2⟩ := idx_some hi h1 h2
    simp only [value, if_pos, he, Option.map_some, Option.getD_some]
    refine glue (x := nodeX nodes) (n := nodes.length - 1) (mono hacc.2.2) (f := line nodes) ?_ hj (by omega) b1 b2 h1 h2
    intro k hk
    have hne : nodeX nodes (k + 1) - nodeX nodes k ≠ 0 := by
      have := mono hacc.2.2 k (k + 1) (by omega) (by omega); linarith
    simp only [line]
    field_simp
    ring
  have hcubic : ∀ {nodes}, Spline.Accepted 3 nodes → ∀ i, i + 1 < nodes.length → ∀ z, nodeX nodes i ≤ z → z ≤ nodeX nodes (i + 1) →
      value 3 nodes z = (pieces nodes i).eval z ∧ d1 3 nodes z = (pieces nodes i).derivative.eval z ∧
        d2 3 nodes z = (pieces nodes i).derivative.derivative.eval z := by
    intro nodes hacc i hi z h1 h2
    have hs := pieces_ok hacc
    obtain ⟨j, hj, he, b1, b2⟩ := idx_some hi h1 h2
    simp only [value, d1, d2, if_pos, he, Option.map_some, Option.getD_some, show (3 : ℕ) ≠ 1 by decide, if_false]
    refine ⟨?_, ?_, ?_⟩
    · exact glue (x := nodeX nodes) (n := nodes.length - 1) (mono hacc.2.2) (f := fun i z => (pieces nodes i).eval z)
        (fun k hk => by rw [(hs.through k (by omega)).2, (hs.through (k + 1) hk).1]) hj (by omega) b1 b2 h1 h2
    · exact glue (x := nodeX nodes) (n := nodes.length - 1) (mono hacc.2.2) (f := fun i z => (pieces nodes i).derivative.eval z)
        (fun k hk => (hs.smooth k hk).1) hj (by omega) b1 b2 h1 h2
    · exact glue (x := nodeX nodes) (n := nodes.length - 1) (mono hacc.2.2)
        (f := fun i z => (pieces nodes i).derivative.derivative.eval z) (fun k hk => (hs.smooth k hk).2) hj (by omega) b1 b2 h1 h2
  refine ⟨⟨value, d1, d2⟩, ⟨?_, ?_, ?_⟩, hlinear, fun hacc => ⟨_, pieces_ok hacc, hcubic hacc⟩⟩
  · intro k nodes hacc p hp
    obtain ⟨i, hi⟩ := List.getElem?_of_mem hp
    obtain ⟨ex, ey⟩ := node_of_get hi
    have hil := (List.getElem?_eq_some_iff.1 hi).1
    have hlen := hacc.2.1
    have hpos := hacc.1.1
    change value k nodes p.1 = p.2
    by_cases k1 : k = 1
    · subst k1
      rw [← ex, ← ey]
      by_cases h : i + 1 < nodes.length
      · rw [hlinear hacc i h _ le_rfl (nodeX_lt hacc.2.2 (by omega) h).le]
        simp [line]
      · obtain ⟨j, rfl⟩ : ∃ j, i = j + 1 := ⟨i - 1, by omega⟩
        have hlt : nodeX nodes j < nodeX nodes (j + 1) := nodeX_lt hacc.2.2 (Nat.lt_succ_self j) hil
        rw [hlinear hacc j hil _ hlt.le le_rfl]
        have hne : nodeX nodes (j + 1) - nodeX nodes j ≠ 0 := by linarith
        simp only [line]
        field_simp
        ring
    · by_cases k3 : k = 3
      · subst k3
        have hs := pieces_ok hacc
        rw [← ex, ← ey]
        by_cases h : i + 1 < nodes.length
        · rw [(hcubic hacc i h _ le_rfl (nodeX_lt hacc.2.2 (by omega) h).le).1, (hs.through i (by omega)).1]
        · obtain ⟨j, rfl⟩ : ∃ j, i = j + 1 := ⟨i - 1, by omega⟩
          rw [(hcubic hacc j hil _ (nodeX_lt hacc.2.2 (Nat.lt_succ_self j) hil).le le_rfl).1, (hs.through j (by omega)).2]
      · simp only [value, if_neg k1, if_neg k3]
        exact hS.through hacc p hp
  · intro k nodes hacc a ha b hb z hz
    have hn := idx_none hacc.2.2 ha hb hz
    obtain ⟨s0, s1, s2⟩ := hS.outside hacc a ha b hb z hz
    simp only [value, d1, d2, hn, Option.map_none, Option.getD_none]
    refine ⟨?_, ?_, ?_⟩ <;> split_ifs <;> first | rfl | assumption
  · intro k nodes hacc hk c2 c1 c0 hq a ha b hb z h1 h2
    by_cases k3 : k = 3
    · subst k3
      obtain ⟨e0, e1⟩ := ends ha hb
      have hl := hacc.2.1
      obtain ⟨i, hi, b1, b2⟩ := exists_interval (x := nodeX nodes) (n := nodes.length - 1) (by omega) (z := z) (by rw [e0]; exact h1)
        (by rw [e1]; exact h2)
      let q : ℝ[X] := C c2 * X ^ 2 + C c1 * X + C c0
      have hdeg : q.natDegree ≤ 3 := by simp only [q]; compute_degree!
      have hqs : IsCubicSpline (nodeX nodes) (nodeY nodes) (nodes.length - 1) fun _ => q := by
        refine polynomial_spline hdeg fun i hi => ?_
        have := hq _ (node_mem (nodes := nodes) (i := i) (by omega))
        simp [q]
        exact this
      have he := unique (by omega) (fun i hi => mono hacc.2.2 i (i + 1) (by omega) (by omega)) (pieces_ok hacc) hqs i hi
      obtain ⟨v0, v1, v2⟩ := hcubic hacc i (by omega) z b1 b2
      rw [he] at v0 v1 v2
      refine ⟨v0.trans ?_, v1.trans ?_, v2.trans ?_⟩ <;> simp [q] <;> ring
    · have k1 : k ≠ 1 := by omega
      simp only [value, d1, d2, if_neg k1, if_neg k3]
      exact hS.quadratic hacc hk c2 c1 c0 hq a ha b hb z h1 h2

/-! ### Values are determined -/

/-- C118. The values of interpolations of order 1 and 3 are determined by the nodes, everywhere. -/
theorem C118_unique {S S' : Spline} (hS : SplinePieces S) (hS' : SplinePieces S') {order : ℕ} (ho : order = 1 ∨ order = 3)
    {nodes : List (ℝ × ℝ)} (hacc : Spline.Accepted order nodes) (z : ℝ) : S.value order nodes z = S'.value order nodes z := by
  have hl := hacc.2.1
  have hl0 : 1 ≤ order := hacc.1.1
  obtain ⟨a, ha⟩ : ∃ a, a ∈ nodes.head? := ⟨nodes[0], by rw [List.head?_eq_getElem?, List.getElem?_eq_getElem]; rfl⟩
  obtain ⟨b, hb⟩ : ∃ b, b ∈ nodes.getLast? := ⟨nodes[nodes.length - 1], by rw [List.getLast?_eq_getElem?, List.getElem?_eq_getElem]; rfl⟩
  by_cases hz : z < a.1 ∨ b.1 < z
  · rw [(hS.outside hacc a ha b hb z hz).1, (hS'.outside hacc a ha b hb z hz).1]
  · push Not at hz
    obtain ⟨e0, e1⟩ := ends ha hb
    obtain ⟨i, hi, b1, b2⟩ := exists_interval (x := nodeX nodes) (n := nodes.length - 1) (by omega) (z := z) (by rw [e0]; exact hz.1)
        (by rw [e1]; exact hz.2)
    rcases ho with rfl | rfl
    · rw [hS.linear hacc i (by omega) z b1 b2, hS'.linear hacc i (by omega) z b1 b2]
    · obtain ⟨p, hp, hv⟩ := hS.cubic hacc
      obtain ⟨q, hq, hw⟩ := hS'.cubic hacc
      rw [(hv i (by omega) z b1 b2).1, (hw i (by omega) z b1 b2).1,
        unique (by omega) (fun i hi => nodeX_lt hacc.2.2 (by omega) (by omega)) hp hq i hi]

/-- Splines found by any other means are those of the code. -/
theorem cubic_value {S : Spline} (hS : SplinePieces S) {nodes : List (ℝ × ℝ)} (hacc : Spline.Accepted 3 nodes) {p : ℕ → ℝ[X]}
    (hp : IsCubicSpline (nodeX nodes) (nodeY nodes) (nodes.length - 1) p) {i : ℕ} (hi : i + 1 < nodes.length) {z : ℝ}
    (h1 : nodeX nodes i ≤ z) (h2 : z ≤ nodeX nodes (i + 1)) : S.value 3 nodes z = (p i).eval z := by
  obtain ⟨q, hq, hv⟩ := hS.cubic hacc
  have hl := hacc.2.1
  rw [(hv i hi z h1 h2).1, unique (by omega) (fun i hi => nodeX_lt hacc.2.2 (by omega) (by omega)) hp hq i (by omega)]

theorem polynomial_value {S : Spline} (hS : SplinePieces S) {nodes : List (ℝ × ℝ)} (hacc : Spline.Accepted 3 nodes) {q : ℝ[X]}
    (hq : q.natDegree ≤ 3) (hn : ∀ p ∈ nodes, p.2 = q.eval p.1) {a b : ℝ × ℝ} (ha : a ∈ nodes.head?) (hb : b ∈ nodes.getLast?) {z : ℝ}
    (h1 : a.1 ≤ z) (h2 : z ≤ b.1) : S.value 3 nodes z = q.eval z ∧ S.d1 3 nodes z = q.derivative.eval z ∧
      S.d2 3 nodes z = q.derivative.derivative.eval z := by
  have hl := hacc.2.1
  obtain ⟨e0, e1⟩ := ends ha hb
  obtain ⟨i, hi, b1, b2⟩ := exists_interval (x := nodeX nodes) (n := nodes.length - 1) (by omega) (z := z) (by rw [e0]; exact h1)
    (by rw [e1]; exact h2)
  obtain ⟨p, hp, hv⟩ := hS.cubic hacc
  have hqs := polynomial_spline (x := nodeX nodes) (y := nodeY nodes) (n := nodes.length - 1) hq fun i hi =>
    hn _ (node_mem (nodes := nodes) (i := i) (by omega))
  have := hv i (by omega) z b1 b2
  rwa [unique (by omega) (fun i hi => nodeX_lt hacc.2.2 (by omega) (by omega)) hp hqs i hi] at this

theorem IsCubicSpline.congr {x y x' y' : ℕ → ℝ} {n : ℕ} {p : ℕ → ℝ[X]} (h : IsCubicSpline x y n p) (hx : ∀ i ≤ n, x' i = x i)
    (hy : ∀ i ≤ n, y' i = y i) : IsCubicSpline x' y' n p where
  degree := h.degree
  through i hi := by rw [hx i hi.le, hx (i + 1) hi, hy i hi.le, hy (i + 1) hi]; exact h.through i hi
  smooth i hi := by rw [hx (i + 1) hi.le]; exact h.smooth i hi
  first := h.first
  last := h.last

/-! ### `RedshiftDensityInterpolator` -/

open Verif.Model.DensityInterp Verif.Props.DensityInterp

/-- Centre of the bin `i`. -/
noncomputable def center (edges : List ℝ) (i : ℕ) : ℝ := (edges.getD i 0 + edges.getD (i + 1) 0) / 2

/-- Weight of the objects in the bin `i` over its volume. -/
noncomputable def density (mpiroot : Option ℕ) (rows : List (List (ℝ × ℝ))) (fsky : Option ℝ) (distance : Option (ℝ → ℝ)) (edges : List ℝ)
    (i : ℕ) : ℝ := weightOf (InBin edges i) (sample mpiroot rows) / volume fsky distance (edges.getD i 0) (edges.getD (i + 1) 0)

section

variable {size : ℕ} {mpiroot : Option ℕ} {rows : List (List (ℝ × ℝ))} {bins : BinsArg} {fsky : Option ℝ} {distance : Option (ℝ → ℝ)}
  {order : ℕ} {s : State}

theorem node_center (hroot : ∀ r, mpiroot = some r → r < rows.length) (h : init size mpiroot rows bins fsky distance order = .ok s)
    {i : ℕ} (hi : i + 1 < s.edges.length) :
    nodeX s.nodes i = center s.edges i ∧ nodeY s.nodes i = density mpiroot rows fsky distance s.edges i := by
  have ha : s.edges[i]? = some (s.edges.getD i 0) := by simp [List.getD_eq_getElem?_getD, show i < s.edges.length by omega]
  have hb : s.edges[i + 1]? = some (s.edges.getD (i + 1) 0) := by simp [List.getD_eq_getElem?_getD, hi]
  exact node_of_get (nodes_get hroot h i _ _ ha hb)

/-- C118. With order 1 the density is interpolated linearly between the centres of bins. -/
theorem C118_linear {S : Spline} (hS : SplinePieces S) (hroot : ∀ r, mpiroot = some r → r < rows.length)
    (h : init size mpiroot rows bins fsky distance 1 = .ok s) {i : ℕ} (hi : i + 2 < s.edges.length) {z : ℝ}
    (h1 : center s.edges i ≤ z) (h2 : z ≤ center s.edges (i + 1)) :
    call S s z = density mpiroot rows fsky distance s.edges i +
      (density mpiroot rows fsky distance s.edges (i + 1) - density mpiroot rows fsky distance s.edges i) *
        (z - center s.edges i) / (center s.edges (i + 1) - center s.edges i) := by
  obtain ⟨a1, a2⟩ := node_center hroot h (i := i) (by omega)
  obtain ⟨b1, b2⟩ := node_center hroot h (i := i + 1) (by omega)
  have hl := length_nodes h
  obtain ⟨-, -, -, -, -, -, ho, hacc, -⟩ := init_ok h
  rw [call, ho, hS.linear hacc i (by omega) z (by rw [a1]; exact h1) (by rw [b1]; exact h2), a1, a2, b1, b2]

/-- C118. With order 3, the default, the density is the cubic spline through the densities of bins at their centres, without knots at the
second and last but one centres. -/
theorem C118_cubic {S : Spline} (hS : SplinePieces S) (hroot : ∀ r, mpiroot = some r → r < rows.length)
    (h : init size mpiroot rows bins fsky distance 3 = .ok s) {p : ℕ → ℝ[X]}
    (hp : IsCubicSpline (center s.edges) (density mpiroot rows fsky distance s.edges) (s.edges.length - 2) p) {i : ℕ}
    (hi : i + 2 < s.edges.length) {z : ℝ} (h1 : center s.edges i ≤ z) (h2 : z ≤ center s.edges (i + 1)) :
    call S s z = (p i).eval z := by
  have hl := length_nodes h
  obtain ⟨-, -, -, -, -, -, ho, hacc, -⟩ := init_ok h
  have hll := hacc.2.1
  rw [call, ho]
  refine cubic_value hS hacc ?_ (by omega) (by rw [(node_center hroot h (i := i) (by omega)).1]; exact h1)
    (by rw [(node_center hroot h (i := i + 1) (by omega)).1]; exact h2)
  rw [hl, show s.edges.length - 1 - 1 = s.edges.length - 2 by omega]
  exact IsCubicSpline.congr hp (fun i hi => (node_center hroot h (by omega)).1) fun i hi => (node_center hroot h (by omega)).2

/-- C118. With order 3, densities which follow a polynomial of degree 3 are interpolated by it. -/
theorem C118_reproduces {S : Spline} (hS : SplinePieces S) (hroot : ∀ r, mpiroot = some r → r < rows.length)
    (h : init size mpiroot rows bins fsky distance 3 = .ok s) {q : ℝ[X]} (hq : q.natDegree ≤ 3)
    (hd : ∀ i, i + 1 < s.edges.length → density mpiroot rows fsky distance s.edges i = q.eval (center s.edges i)) {z : ℝ}
    (h1 : center s.edges 0 ≤ z) (h2 : z ≤ center s.edges (s.edges.length - 2)) : call S s z = q.eval z := by
  have hl := length_nodes h
  obtain ⟨-, -, -, -, -, -, ho, hacc, -⟩ := init_ok h
  have hll := hacc.2.1
  obtain ⟨i, hi, b1, b2⟩ := exists_interval (n := s.edges.length - 2) (by omega) h1 h2
  exact C118_cubic hS hroot h (polynomial_spline hq fun i hi => hd i (by omega)) (by omega) b1 b2

/-- C118. With order 3 and bins of the same width, the density is within 5/8 of the largest second difference of the densities of bins
from their linear interpolation. -/
theorem C118_overshoot {S : Spline} (hS : SplinePieces S) (hroot : ∀ r, mpiroot = some r → r < rows.length)
    (h : init size mpiroot rows bins fsky distance 3 = .ok s) {lo dx : ℝ} {n : ℕ} (hreg : IsRegular s.edges lo dx n) (hdx : 0 < dx) {D : ℝ}
    (hD : ∀ i, i + 2 < n → |density mpiroot rows fsky distance s.edges (i + 2) - 2 * density mpiroot rows fsky distance s.edges (i + 1) +
      density mpiroot rows fsky distance s.edges i| ≤ D) {i : ℕ} (hi : i + 1 < n) {z : ℝ}
    (h1 : center s.edges i ≤ z) (h2 : z ≤ center s.edges (i + 1)) :
    |call S s z - (density mpiroot rows fsky distance s.edges i +
      (density mpiroot rows fsky distance s.edges (i + 1) - density mpiroot rows fsky distance s.edges i) *
        (z - center s.edges i) / (center s.edges (i + 1) - center s.edges i))| ≤ 5 / 8 * D := by
  have hl := length_nodes h
  obtain ⟨-, -, -, -, -, -, ho, hacc, -⟩ := init_ok h
  have hll := hacc.2.1
  have hlen := hreg.1
  have hc : ∀ i < s.edges.length - 2, center s.edges (i + 1) = center s.edges i + dx := by
    intro i hi
    simp only [center, List.getD_eq_getElem?_getD]
    rw [hreg.2 i (by omega), hreg.2 (i + 1) (by omega), hreg.2 (i + 1 + 1) (by omega)]
    simp only [Option.getD_some]
    push_cast
    ring
  obtain ⟨p, hp⟩ := exists_spline (x := center s.edges) (n := s.edges.length - 2) (by omega)
    (fun i hi => by rw [hc i hi]; linarith) (density mpiroot rows fsky distance s.edges)
  rw [C118_cubic hS hroot h hp (by omega) h1 h2]
  exact gap_le (by omega) hdx hc hp (fun i hi => hD i (by omega)) (by omega) h1 h2

theorem weightOf_nonneg {P : ℝ → Prop} {l : List (ℝ × ℝ)} (h : ∀ r ∈ l, 0 ≤ r.2) : 0 ≤ weightOf P l := by
  unfold weightOf
  refine List.sum_nonneg ?_
  intro w hw
  obtain ⟨r, hr, rfl⟩ := List.mem_map.1 hw
  exact h r (List.mem_of_mem_filter hr)

/-- C118. With order 1 the density is nowhere negative, if weights are not and the distance increases. -/
theorem C118_nonneg {S : Spline} (hS : SplinePieces S) (hroot : ∀ r, mpiroot = some r → r < rows.length)
    (h : init size mpiroot rows bins fsky distance 1 = .ok s) (hw : ∀ r ∈ sample mpiroot rows, 0 ≤ r.2)
    (hf : ∀ f, fsky = some f → 0 ≤ f) (hm : Monotone (distance.getD id)) (z : ℝ) : 0 ≤ call S s z := by
  have hl := length_nodes h
  have hdens : ∀ i, i + 1 < s.edges.length → 0 ≤ density mpiroot rows fsky distance s.edges i := by
    intro i hi
    refine div_nonneg (weightOf_nonneg hw) ?_
    obtain ⟨-, -, -, -, -, -, -, -, hp, -⟩ := init_ok h
    have hle : s.edges.getD i 0 ≤ s.edges.getD (i + 1) 0 := by
      have := List.pairwise_iff_getElem.1 hp i (i + 1) (by omega) hi (by omega)
      simpa [List.getD_eq_getElem?_getD, hi, show i < s.edges.length by omega] using this
    unfold volume
    cases fsky with
    | none => norm_num
    | some f =>
      simp only [shellVolume]
      refine mul_nonneg (hf f rfl) ?_
      have h3 : distance.getD id (s.edges.getD i 0) ^ 3 ≤ distance.getD id (s.edges.getD (i + 1) 0) ^ 3 :=
        (Odd.strictMono_pow (by decide : Odd 3)).monotone (hm hle)
      have := mul_le_mul_of_nonneg_left h3 (by positivity : 0 ≤ 4 / 3 * Real.pi)
      linarith
  obtain ⟨-, -, -, -, -, -, ho, hacc, -⟩ := init_ok h
  have hll := hacc.2.1
  by_cases hz : center s.edges 0 ≤ z ∧ z ≤ center s.edges (s.edges.length - 2)
  · obtain ⟨i, hi, b1, b2⟩ := exists_interval (n := s.edges.length - 2) (by omega) hz.1 hz.2
    rw [C118_linear hS hroot h (by omega) b1 b2]
    have d0 := hdens i (by omega)
    have d1 := hdens (i + 1) (by omega)
    have hlt : center s.edges i < center s.edges (i + 1) := by
      rw [← (node_center hroot h (i := i) (by omega)).1, ← (node_center hroot h (i := i + 1) (by omega)).1]
      exact nodeX_lt hacc.2.2 (by omega) (by omega)
    have hpos : 0 < center s.edges (i + 1) - center s.edges i := by linarith
    set t := (z - center s.edges i) / (center s.edges (i + 1) - center s.edges i) with ht
    have t0 : 0 ≤ t := div_nonneg (by linarith) hpos.le
    have t1 : t ≤ 1 := by rw [ht, div_le_one hpos]; linarith
    rw [mul_div_assoc]
    nlinarith
  · have h0 : s.nodes.head? = some s.nodes[0] := by rw [List.head?_eq_getElem?, List.getElem?_eq_getElem]
    obtain ⟨b, h1⟩ : ∃ b, s.nodes.getLast? = some b :=
      ⟨s.nodes[s.nodes.length - 1], by rw [List.getLast?_eq_getElem?, List.getElem?_eq_getElem]⟩
    obtain ⟨e0, e1⟩ := ends h0 h1
    rw [(node_center hroot h (by omega)).1] at e0
    rw [(node_center hroot h (by omega)).1, show s.nodes.length - 1 = s.edges.length - 2 by omega] at e1
    rw [call, ho, (hS.outside hacc _ h0 _ h1 z ?_).1]
    rw [← e0, ← e1]
    by_contra hc
    push Not at hc
    exact hz hc

end

/-! ### Negative densities -/

/-- Eight objects. -/
noncomputable def eight : List (List (ℝ × ℝ)) := [[(0, 1), (3 / 2, 1), (3 / 2, 1), (3 / 2, 1)], [(3 / 2, 1), (3 / 2, 1), (5 / 2, 1), (4, 1)]]

theorem eight_extent : Extent (sample none eight) 0 4 := by
  refine ⟨by simp [sample, eight], by simp [sample, eight], ?_⟩
  intro r hr
  simp [sample, eight] at hr
  rcases hr with rfl | rfl | rfl | rfl <;> norm_num

theorem eight_counts {edges : List ℝ} (h : IsRegular edges 0 1 4) : density none eight none none edges 0 = 1 ∧
    density none eight none none edges 1 = 5 ∧ density none eight none none edges 2 = 1 ∧ density none eight none none edges 3 = 1 := by
  have e : edges = [0, 1, 2, 3, 4] := by
    rw [h.eq]; norm_num [List.range_succ]
  subst e
  refine ⟨?_, ?_, ?_, ?_⟩ <;> simp [density, volume, weightOf, InBin, sample, eight] <;> norm_num

/-- C118 violated: with order 3, the default, the density of objects of weight 1 can be negative between the centres of bins. -/
theorem C118_negative_violated : (∀ r ∈ sample none eight, r.2 = 1) ∧ ∃ s, init 8 none eight (.number 4) none none 3 = .ok s ∧
    ∀ S, SplinePieces S → call S s 3 = -1 / 4 := by
  refine ⟨?_, ?_⟩
  · intro r hr
    simp [sample, eight] at hr
    rcases hr with rfl | rfl | rfl | rfl <;> norm_num
  obtain ⟨hreg, hex⟩ := C95_number_partial (size := 8) (mpiroot := none) (rows := eight) (fsky := none) (distance := none) (order := 3)
    (n := 4) (by simp) eight_extent (by norm_num)
  obtain ⟨s, hs⟩ := hex.2 ⟨by norm_num, by norm_num, fun k _ => by simp [volume]⟩
  refine ⟨s, hs, fun S hS => ?_⟩
  have hr := hreg s hs
  rw [show ((4 : ℝ) - 0) / (4 : ℕ) = 1 by norm_num] at hr
  have hlen := hr.1
  have hc : ∀ i, i < 4 → center s.edges i = i + 1 / 2 := by
    intro i hi
    simp only [center, List.getD_eq_getElem?_getD]
    rw [hr.2 i (by omega), hr.2 (i + 1) (by omega)]
    simp only [Option.getD_some]
    push_cast
    ring
  obtain ⟨c0, c1, c2, c3⟩ := eight_counts hr
  let q : ℝ[X] := C 1 + C 4 * (X - C (1 / 2)) - C 4 * (X - C (1 / 2)) * (X - C (3 / 2)) +
    C 2 * (X - C (1 / 2)) * (X - C (3 / 2)) * (X - C (5 / 2))
  have hdeg : q.natDegree ≤ 3 := by
    simp only [q]
    compute_degree!
  have := C118_reproduces hS (by simp) hs hdeg (z := 3) ?_ (by rw [hc 0 (by omega)]; norm_num) ?_
  · rw [this]; simp [q]; norm_num
  · intro i hi
    rw [hlen] at hi
    have : i < 4 := by omega
    rw [hc i this]
    interval_cases i
    · rw [c0]; simp [q]
    · rw [c1]; simp [q]; norm_num
    · rw [c2]; simp [q]; norm_num
    · rw [c3]; simp [q]; norm_num
  · rw [hlen, hc _ (by norm_num)]; norm_num

/-! ### `TabulatedRadialMask` -/

/-- A table of densities. -/
noncomputable def table : List (ℝ × ℝ) := [(1 / 2, 1), (3 / 2, 5), (5 / 2, 1), (7 / 2, 1)]

/-- The polynomial through `c` times the table. -/
noncomputable def tableCubic (c : ℝ) : ℝ[X] := C c * (C (-31 / 4) + C (47 / 2) * X - C 13 * X ^ 2 + C 2 * X ^ 3)

theorem table_accepted (f : ℝ × ℝ → ℝ) : Spline.Accepted 3 (table.map fun p => (p.1, f p)) := by
  refine ⟨by norm_num, by simp [table], ?_⟩
  simp [table]
  norm_num

theorem table_value {S : Spline} (hS : SplinePieces S) {nodes : List (ℝ × ℝ)} {c : ℝ}
    (hn : nodes = table.map fun p => (p.1, c * p.2)) {z : ℝ} (h1 : 1 / 2 ≤ z) (h2 : z ≤ 7 / 2) :
    S.value 3 nodes z = c * (-31 / 4 + 47 / 2 * z - 13 * z ^ 2 + 2 * z ^ 3) ∧
      S.d1 3 nodes z = c * (47 / 2 - 26 * z + 6 * z ^ 2) ∧ S.d2 3 nodes z = c * (-26 + 12 * z) := by
  have hacc : Spline.Accepted 3 nodes := by rw [hn]; exact table_accepted _
  have hdeg : (tableCubic c).natDegree ≤ 3 := by
    simp only [tableCubic]
    compute_degree!
  obtain ⟨v0, v1, v2⟩ := polynomial_value hS hacc hdeg (by
    intro p hp
    simp [hn, table] at hp
    rcases hp with rfl | rfl | rfl | rfl <;> simp [tableCubic] <;> norm_num)
    (a := (1 / 2, c * 1)) (b := (7 / 2, c * 1)) (by simp [hn, table]) (by simp [hn, table]) (z := z) h1 h2
  refine ⟨v0.trans ?_, v1.trans ?_, v2.trans ?_⟩ <;> simp [tableCubic, -mul_eq_mul_left_iff] <;> ring

theorem table_grid : Spline.fineGrid 3 table = (List.range 12).map fun i : ℕ => 1 / 2 + 3 * (i : ℝ) / 11 := by
  simp only [Spline.fineGrid, table, List.head?_cons, List.getLast?_cons_cons, List.getLast?_singleton, List.length_cons, List.length_nil]
  refine List.map_congr_left fun i _ => ?_
  norm_num

/-- C29 violated: with default arguments (order 3), the probability can be negative within the range. -/
theorem C29_spline_negative_violated {S : Spline} (hS : SplinePieces S) : (∀ p ∈ table, 0 < p.2) ∧
    ∃ t, SplineMask.Init S 3 table none none (.ok t) ∧ t.zrange = (1 / 2, 7 / 2) ∧ t.prob S 3 < 0 := by
  have hone : table = table.map fun p => (p.1, 1 * p.2) := by simp
  have hv : ∀ z : ℝ, 1 / 2 ≤ z → z ≤ 7 / 2 → S.value 3 table z = -31 / 4 + 47 / 2 * z - 13 * z ^ 2 + 2 * z ^ 3 ∧
      S.d1 3 table z = 47 / 2 - 26 * z + 6 * z ^ 2 ∧ S.d2 3 table z = -26 + 12 * z := by
    intro z h1 h2
    have := table_value hS hone h1 h2
    simpa only [one_mul] using this
  have hg : ∀ z ∈ Spline.fineGrid 3 table, ∃ i : ℕ, i < 12 ∧ z = 1 / 2 + 3 * (i : ℝ) / 11 := by
    intro z hz
    rw [table_grid, List.mem_map] at hz
    obtain ⟨i, hi, rfl⟩ := hz
    exact ⟨i, List.mem_range.1 hi, rfl⟩
  have hgi : ∀ i : ℕ, i < 12 → (1 / 2 + 3 * (i : ℝ) / 11) ∈ Spline.fineGrid 3 table := by
    intro i hi
    rw [table_grid]
    exact List.mem_map.2 ⟨i, List.mem_range.2 hi, rfl⟩
  have hgv : ∀ i : ℕ, i < 12 → S.value 3 table (1 / 2 + 3 * (i : ℝ) / 11) = 1 + 12 * (3 * (i : ℝ) / 11) - 10 * (3 * (i : ℝ) / 11) ^ 2 +
      2 * (3 * (i : ℝ) / 11) ^ 3 := by
    intro i hi
    have hi' : (i : ℝ) ≤ 11 := by exact_mod_cast Nat.lt_succ_iff.1 hi
    have hi0 : (0 : ℝ) ≤ i := by positivity
    rw [(hv _ (by linarith) (by linarith)).1]
    ring
  have hmax : Spline.argmax (S.value 3 table) (Spline.fineGrid 3 table) = some (29 / 22) := by
    obtain ⟨x, hx⟩ := argmax_some (S.value 3 table) (l := Spline.fineGrid 3 table) (List.ne_nil_of_mem (hgi 0 (by norm_num)))
    obtain ⟨hm, hge⟩ := argmax_spec _ hx
    obtain ⟨i, hi, rfl⟩ := hg x hm
    have h3 := hge _ (hgi 3 (by norm_num))
    rw [hgv 3 (by norm_num), hgv i hi] at h3
    rw [hx]
    interval_cases i <;> first | (exfalso; norm_num at h3; done) | norm_num
  set m := Spline.minOn (S.value 3 table) (Spline.fineGrid 3 table) with hmdef
  have m1 : m ≤ -1 / 5 := by
    refine (minOn_le (hgi 9 (by norm_num))).trans ?_
    rw [hgv 9 (by norm_num)]
    norm_num
  have m2 : -1 ≤ m := by
    refine minOn_ge (List.ne_nil_of_mem (hgi 0 (by norm_num))) ?_
    intro z hz
    obtain ⟨i, hi, rfl⟩ := hg z hz
    rw [hgv i hi]
    interval_cases i <;> norm_num
  have hclose : ¬ Spline.AllClose (S.value 3 table) (Spline.fineGrid 3 table) := by
    intro h
    have := h (1 / 2) (by rw [table_grid]; simp [List.range_succ]) _ (hgi 3 (by norm_num))
    rw [hgv 3 (by norm_num), (hv (1 / 2) (by norm_num) (by norm_num)).1] at this
    norm_num at this
  have v0 := hv (29 / 22) (by norm_num) (by norm_num)
  have v1 := hv (113 / 88) (by norm_num) (by norm_num)
  have v2 := hv (113 / 88 + 27 / 41008) (by norm_num) (by norm_num)
  have hnewton : S.SolveNewton 3 table (1 / 2, 7 / 2) (1 / 10 ^ 6 * (S.value 3 table (29 / 22) - m)) (29 / 22) (some (113 / 88)) := by
    refine ⟨some (113 / 88), ?_, ?_⟩
    · simp only [Spline.Step]
      rw [v0.2.1, v0.2.2, if_pos (by norm_num)]
      norm_num
    · have hclip : Spline.clip (1 / 2, 7 / 2) (some (113 / 88)) = some (113 / 88) := by simp [Spline.clip]; norm_num
      rw [hclip]
      refine Spline.Loop.next ?_ (xnew' := some (113 / 88 + 27 / 41008)) ?_ (Spline.Loop.stop ?_)
      · rintro ⟨a, b, ha, hb, hlt⟩
        injection ha with ha
        injection hb with hb
        subst ha hb
        rw [v0.1, v1.1, abs_of_pos (by norm_num)] at hlt
        norm_num at hlt
        linarith
      · simp only [Spline.Step]
        rw [v1.2.1, v1.2.2, if_pos (by norm_num)]
        norm_num
      · refine ⟨_, _, rfl, rfl, ?_⟩
        rw [v0.1, v1.1, v2.1, abs_of_pos (by norm_num)]
        norm_num
        linarith
  have hpos : (5 : ℝ) ≤ S.value 3 table (113 / 88) := by rw [v1.1]; norm_num
  refine ⟨by intro p hp; simp [table] at hp; rcases hp with rfl | rfl | rfl | rfl <;> norm_num,
    ⟨3, table, (1 / 2, 7 / 2), 1 / S.value 3 table (113 / 88)⟩, ?_, rfl, ?_⟩
  · unfold SplineMask.Init
    rw [if_neg (by simp [table])]
    have hh : table.head? = some (1 / 2, 1) := rfl
    have hl : table.getLast? = some (7 / 2, 1) := rfl
    rw [hh, hl]
    simp only [Option.getD_none, le_refl, and_self, if_true]
    unfold SplineMask.Prepare
    rw [if_pos (by have := table_accepted (fun p => p.2); simpa using this)]
    refine ⟨.ok (1 / S.value 3 table (113 / 88)), ⟨29 / 22, hmax, S.value 3 table (113 / 88), ?_, ?_⟩, rfl⟩
    · rw [if_neg hclose]
      exact ⟨_, hnewton, rfl⟩
    · rw [if_neg, if_neg (by linarith)]
      rintro ⟨z, hz, hlt⟩
      obtain ⟨i, hi, rfl⟩ := hg z hz
      rw [hgv i hi, v1.1] at hlt
      interval_cases i <;> norm_num at hlt
  · unfold SplineMask.prob
    simp only
    rw [if_pos (by norm_num)]
    set c := 1 / S.value 3 table (113 / 88) with hc
    have c0 : 0 < c := by rw [hc]; positivity
    have c5 : c * 5 ≤ 1 := by rw [hc, one_div, inv_mul_le_iff₀ (by linarith)]; linarith
    have hn : (table.map fun p => (p.1, min (c * p.2) 1)) = table.map fun p => (p.1, c * p.2) := by
      refine List.map_congr_left fun p hp => ?_
      simp [table] at hp
      rcases hp with rfl | rfl | rfl | rfl <;> simp only [Prod.mk.injEq, true_and] <;> refine min_eq_left ?_ <;> linarith
    rw [hn, (table_value hS rfl (by norm_num) (by norm_num)).1]
    have : (-31 / 4 + 47 / 2 * 3 - 13 * 3 ^ 2 + 2 * 3 ^ 3 : ℝ) = -1 / 4 := by norm_num
    rw [this]
    linarith

/-- The hypotheses are met: linear interpolation of the same objects. -/
example : ∃ S s, SplinePieces S ∧ init 8 none eight (.number 4) none none 1 = .ok s ∧ call S s 3 = 1 := by
  obtain ⟨S, hS⟩ := splinePieces_exists
  obtain ⟨hreg, hex⟩ := C95_number_partial (size := 8) (mpiroot := none) (rows := eight) (fsky := none) (distance := none) (order := 1)
    (n := 4) (by simp) eight_extent (by norm_num)
  obtain ⟨s, hs⟩ := hex.2 ⟨by norm_num, by norm_num, fun k _ => by simp [volume]⟩
  refine ⟨S, s, hS, hs, ?_⟩
  have hr := hreg s hs
  rw [show ((4 : ℝ) - 0) / (4 : ℕ) = 1 by norm_num] at hr
  obtain ⟨c0, c1, c2, c3⟩ := eight_counts hr
  have hc : ∀ i, i < 4 → center s.edges i = i + 1 / 2 := by
    intro i hi
    simp only [center, List.getD_eq_getElem?_getD]
    rw [hr.2 i (by omega), hr.2 (i + 1) (by omega)]
    simp only [Option.getD_some]
    push_cast
    ring
  rw [C118_linear hS (by simp) hs (i := 2) (by rw [hr.1]; norm_num) (by rw [hc 2 (by omega)]; norm_num)
    (by rw [hc 3 (by omega)]; norm_num), c2, c3]
  norm_num

end Verif.Props.SplineValues
