import Verif.Props.Ranks
import Verif.Props.DensityInterp

/-!
# Objects made with a communicator: which ranks they need (C122)

`comm` is the communicator given to the object, its ranks are `G`; `current` is the current communicator of mpytools, by default all
ranks of the machine.
-/

namespace Verif.Props.Communicators

open Verif Verif.Model Verif.Model.Mpi Verif.Model.Blinding Verif.Spec.Mpi Verif.Lemmas.Mpi Verif.Props.Ranks

variable {C α β : Type} {n : ℕ} {members : C → List (Fin n)}

/-- The rank never ends. -/
def Never (members : C → List (Fin n)) (s : Machine C α n) (r : Fin n) : Prop := ∀ u, Reach members s u → ∀ o, u r ≠ .done o

theorem never_of_call {G : List (Fin n)} {p : ℕ → Prog C α} {current : C}
    (hp : ∀ i, ∃ (op : Op) (γ : Type) (x : γ) (k : List γ → Prog C α), p i = .call current op x k) {s : Machine C α n} (hs : Runs G p s)
    {q : Fin n} (hq : q ∈ members current) (ha : Avoids current (s q)) : ∀ r ∈ G, Never members s r := by
  intro r hr u hu o ho
  obtain ⟨i, hi, rfl⟩ := mem_index hr
  obtain ⟨op, γ, x, k, hpi⟩ := hp i
  have := waits hu hq ha ((hs i hi).trans hpi)
  rw [ho] at this
  cases this

/-! ### Mocks -/

/-- What `BaseGaussianMock.__init__` ends with, for a seed. -/
def mockOut (wrong : Option Err) (noise : ℕ → α) (seed : ℕ) : Except Err (ℕ × α) :=
  match wrong with
  | some e => .error e
  | none => .ok (seed, noise seed)

theorem mockInit_path {G : List (Fin n)} {comm : C} (hc : members comm = G) (hG : G.Nodup) (hne : G ≠ []) (current : C)
    (wrong : Option Err) (noise : ℕ → α) (seed : ℕ) (draw : ℕ → ℕ) :
    Path members G (fun i => mockInit current comm wrong noise (some seed) (draw i)) fun _ => mockOut wrong noise seed := by
  have e : ∀ f : ℕ → ℕ, ((List.range G.length).map f).getD 0 0 = f 0 := fun f => by
    simp [List.getD, List.length_pos_of_ne_nil hne]
  unfold mockInit withSeed mockOut
  cases wrong with
  | some w => exact Path.done _
  | none =>
    refine Path.call hc hG hne _ _ _ (Path.call hc hG hne _ _ _ ((Path.done _).congr (fun i hi => ?_) fun i hi => rfl))
    rw [e]

/-- C122: mocks with a seed: the ranks of the communicator make a mock whatever other ranks do, with the white noise of this seed. -/
theorem C122_mock_partial {G : List (Fin n)} {comm : C} (hc : members comm = G) (hG : G.Nodup) (hne : G ≠ []) (current : C)
    (wrong : Option Err) (noise : ℕ → α) (seed : ℕ) (draw : ℕ → ℕ) :
    Ends members G (fun i => mockInit current comm wrong noise (some seed) (draw i)) (fun _ => mockOut wrong noise seed) ∧
    Ends members G (fun i => whiteNoise current comm noise (some seed) (draw i)) fun _ => .ok (noise seed) := by
  refine ⟨(mockInit_path hc hG hne current wrong noise seed draw).ends, ?_⟩
  refine Path.ends (Path.call hc hG hne _ _ _ ((Path.done _).congr (fun i hi => ?_) fun i hi => rfl))
  simp [List.getD, List.length_pos_of_ne_nil hne]

/-- C122: without seed, on the current communicator: all ranks have the seed drawn by the first of them. -/
theorem C122_mock_current_partial {G : List (Fin n)} {comm : C} (hc : members comm = G) (hG : G.Nodup) (hne : G ≠ [])
    (wrong : Option Err) (noise : ℕ → α) (draw : ℕ → ℕ) :
    Ends members G (fun i => mockInit comm comm wrong noise none (draw i)) fun _ => mockOut wrong noise (draw 0) := by
  refine (Path.call hc hG hne _ _ _ ((mockInit_path hc hG hne comm wrong noise (draw 0) draw).congr (fun i hi => ?_) fun i hi => rfl)).ends
  have : ((List.range G.length).map draw).getD 0 0 = draw 0 := by simp [List.getD, List.length_pos_of_ne_nil hne]
  rw [this]
  rfl

/-- C122 fails for mocks without seed: if a rank of the current communicator, which need not belong to that of the mock, makes no call
on the current communicator, the ranks that make a mock wait for ever, and so do those that add white noise. (Some implementations of
MPI only wait for the first rank of the communicator in a broadcast: take `q` to be that one.) -/
theorem C122_mock_violated {G : List (Fin n)} (comm current : C) (wrong : Option Err) (noise : ℕ → α) (draw : ℕ → ℕ) {q : Fin n}
    (hq : q ∈ members current) :
    (∀ s, Runs G (fun i => mockInit current comm wrong noise none (draw i)) s → Avoids current (s q) → ∀ r ∈ G, Never members s r) ∧
    ∀ s, Runs G (fun i => whiteNoise current comm noise none (draw i)) s → Avoids current (s q) → ∀ r ∈ G, Never members s r :=
  ⟨fun _ hs ha => never_of_call (fun _ => ⟨_, _, _, _, rfl⟩) hs hq ha, fun _ hs ha => never_of_call (fun _ => ⟨_, _, _, _, rfl⟩) hs hq ha⟩

/-- C122 fails for mocks without seed: if two groups of ranks make a mock each at the same time, on their own communicators, both mocks
are the same. -/
theorem C122_mock_same_violated {G H : List (Fin n)} {comm1 comm2 current : C} (h1 : members comm1 = G) (h2 : members comm2 = H)
    (hc : members current = G ++ H) (hGH : (G ++ H).Nodup) (hG : G ≠ []) (hH : H ≠ []) (noise : ℕ → α) (draw : ℕ → ℕ) :
    Ends members (G ++ H) (fun i => mockInit current (if i < G.length then comm1 else comm2) none noise none (draw i))
      fun _ => .ok (draw 0, noise (draw 0)) := by
  have hne : G ++ H ≠ [] := by simp [hG]
  obtain ⟨nG, nH, hd⟩ := List.nodup_append.1 hGH
  have hd' : ∀ r ∈ G, r ∉ H := fun r hr hr' => hd r hr r hr' rfl
  refine (Path.call hc hGH hne _ _ _ ?_).ends
  have e : ((List.range (G ++ H).length).map draw).getD 0 0 = draw 0 := by
    simp [List.getD, Nat.lt_of_lt_of_le (List.length_pos_of_ne_nil hG) (Nat.le_add_right _ _)]
  rw [e]
  refine Path.append hd' ((mockInit_path h1 nG hG current none noise (draw 0) draw).congr (fun i hi => ?_) fun i hi => rfl)
    ((mockInit_path h2 nH hH current none noise (draw 0) draw).congr (fun i hi => ?_) fun i hi => rfl)
  · simp only [if_pos hi]
    rfl
  · simp only [if_neg (show ¬ G.length + i < G.length by omega)]
    rfl

/-! ### Densities as a function of redshift -/

theorem density_counts {G : List (Fin n)} {comm : C} (hc : members comm = G) (hG : G.Nodup) (hne : G ≠ []) (bins : DensityInterp.BinsArg)
    (fsky : Option ℝ) (distance : Option (ℝ → ℝ)) (order size : ℕ) (rows : List (List (ℝ × ℝ))) (hr : rows.length = G.length) :
    Path members G (fun i => Prog.call comm .allreduce (rows.getD i []) fun all =>
        .done (DensityInterp.init size none all bins fsky distance order))
      fun _ => DensityInterp.init size none rows bins fsky distance order := by
  refine Path.call hc hG hne _ _ _ ((Path.done _).congr (fun i hi => ?_) fun i hi => rfl)
  rw [← hr, range_map_getD]

/-- C122: densities with given bins, or a given number of bins: the ranks of the communicator end, whatever other ranks do, with the
density of their redshifts (`size`, the number of redshifts for the default bins, is not used). -/
theorem C122_density_partial {G : List (Fin n)} {comm : C} (hc : members comm = G) (hG : G.Nodup) (hne : G ≠ []) (current : C)
    {bins : DensityInterp.BinsArg} (hb : bins ≠ .default) (fsky : Option ℝ) (distance : Option (ℝ → ℝ)) (order size : ℕ)
    (rows : List (List (ℝ × ℝ))) (hr : rows.length = G.length) :
    Ends members G (fun i => density current comm bins fsky distance order (rows.getD i []))
      fun _ => DensityInterp.init size none rows bins fsky distance order := by
  cases bins with
  | default => exact absurd rfl hb
  | number m =>
    refine (Path.call hc hG hne _ _ _ (Path.call hc hG hne _ _ _ ?_)).ends
    exact density_counts hc hG hne _ fsky distance order 0 rows hr
  | edges l => exact (density_counts hc hG hne _ fsky distance order 0 rows hr).ends

/-- C122: densities with default bins, on the current communicator. -/
theorem C122_density_current_partial {G : List (Fin n)} {comm : C} (hc : members comm = G) (hG : G.Nodup) (hne : G ≠ [])
    (fsky : Option ℝ) (distance : Option (ℝ → ℝ)) (order : ℕ) (rows : List (List (ℝ × ℝ))) (hr : rows.length = G.length) :
    Ends members G (fun i => density comm comm .default fsky distance order (rows.getD i []))
      fun _ => DensityInterp.init rows.flatten.length none rows .default fsky distance order := by
  have e : ((List.range G.length).map fun i => (rows.getD i []).length).sum = rows.flatten.length := by
    rw [← hr, ← Function.comp_def List.length, ← List.map_map, range_map_getD, List.length_flatten]
  refine (Path.call hc hG hne _ _ _ (Path.call hc hG hne _ _ _ (Path.call hc hG hne _ _ _ (Path.call hc hG hne _ _ _ ?_)))).ends
  rw [e]
  exact density_counts hc hG hne _ fsky distance order _ rows hr

/-- C122 fails for densities with default bins: they wait for ever for ranks of the current communicator that do nothing of the kind. -/
theorem C122_density_violated {G : List (Fin n)} (comm current : C) (fsky : Option ℝ) (distance : Option (ℝ → ℝ)) (order : ℕ)
    (rows : List (List (ℝ × ℝ))) {q : Fin n} (hq : q ∈ members current) (s : Machine C DensityInterp.State n)
    (hs : Runs G (fun i => density current comm .default fsky distance order (rows.getD i [])) s) (ha : Avoids current (s q)) :
    ∀ r ∈ G, Never members s r :=
  never_of_call (fun _ => ⟨_, _, _, _, rfl⟩) hs hq ha

/-- C122 fails for densities with default bins: if two groups of ranks estimate densities at the same time, each on its communicator,
the width of bins of each is that of the number of redshifts of both, which is smaller than it should be. -/
theorem C122_density_mixed_violated {G H : List (Fin n)} {comm1 comm2 current : C} (h1 : members comm1 = G) (h2 : members comm2 = H)
    (hc : members current = G ++ H) (hGH : (G ++ H).Nodup) (hG : G ≠ []) (hH : H ≠ []) (fsky : Option ℝ) (distance : Option (ℝ → ℝ))
    (order : ℕ) (rows1 rows2 : List (List (ℝ × ℝ))) (hr1 : rows1.length = G.length) (hr2 : rows2.length = H.length) :
    Ends members (G ++ H) (fun i => density current (if i < G.length then comm1 else comm2) .default fsky distance order
        ((rows1 ++ rows2).getD i []))
      (fun i => DensityInterp.init (rows1.flatten.length + rows2.flatten.length) none (if i < G.length then rows1 else rows2) .default
        fsky distance order) ∧
    (0 < rows1.flatten.length → 0 < rows2.flatten.length → ∀ v : ℝ, 0 < v →
      DensityInterp.scottWidth (rows1.flatten.length + rows2.flatten.length) v < DensityInterp.scottWidth rows1.flatten.length v) := by
  have hne : G ++ H ≠ [] := by simp [hG]
  obtain ⟨nG, nH, hd⟩ := List.nodup_append.1 hGH
  have hd' : ∀ r ∈ G, r ∉ H := fun r hr hr' => hd r hr r hr' rfl
  have hl : (rows1 ++ rows2).length = (G ++ H).length := by simp [hr1, hr2]
  have e : ((List.range (G ++ H).length).map fun i => ((rows1 ++ rows2).getD i []).length).sum =
      rows1.flatten.length + rows2.flatten.length := by
    rw [← hl, ← Function.comp_def List.length, ← List.map_map, range_map_getD, ← List.length_flatten]
    simp
  constructor
  · refine (Path.call hc hGH hne _ _ _ ?_).ends
    rw [e]
    have run : ∀ {K : List (Fin n)} {c : C} (rows : List (List (ℝ × ℝ))) (size : ℕ), members c = K → K.Nodup → K ≠ [] →
        rows.length = K.length → Path members K (fun i => Prog.call c .allreduce () fun _ => .call c .allreduce () fun _ =>
          .call c .allreduce () fun _ => .call c .allreduce (rows.getD i []) fun all =>
            .done (DensityInterp.init size none all .default fsky distance order))
          fun _ => DensityInterp.init size none rows .default fsky distance order := by
      intro K c rows size hc hn hne hr
      exact Path.call hc hn hne _ _ _ (Path.call hc hn hne _ _ _ (Path.call hc hn hne _ _ _ (density_counts hc hn hne _ _ _ _ _ _ hr)))
    refine Path.append hd' ((run rows1 (rows1.flatten.length + rows2.flatten.length) h1 nG hG hr1).congr (fun i hi => ?_) fun i hi => ?_)
      ((run rows2 (rows1.flatten.length + rows2.flatten.length) h2 nH hH hr2).congr (fun i hi => ?_) fun i hi => ?_)
    · have : (rows1 ++ rows2).getD i [] = rows1.getD i [] := by
        simp [List.getD, List.getElem?_append_left (show i < rows1.length by omega)]
      simp only [if_pos hi, this]
    · simp only [if_pos hi]
    · have : (rows1 ++ rows2).getD (G.length + i) [] = rows2.getD i [] := by
        rw [← hr1, List.getD, List.getD, List.getElem?_append_right (by omega), Nat.add_sub_cancel_left]
      simp only [if_neg (show ¬ G.length + i < G.length by omega), this]
    · simp only [if_neg (show ¬ G.length + i < G.length by omega)]
  · intro p1 p2 v hv
    unfold DensityInterp.scottWidth
    refine mul_lt_mul_of_pos_left ?_ (Real.sqrt_pos.2 hv)
    have hpi : 0 < √Real.pi := Real.sqrt_pos.2 Real.pi_pos
    refine Real.rpow_lt_rpow (by positivity) ?_ (by norm_num)
    refine div_lt_div_of_pos_left (by positivity) (by exact_mod_cast p1) ?_
    exact_mod_cast Nat.lt_add_of_pos_right p2

/-! ### Blinding -/

/-- The draws of each rank: consecutive parts of one stream. -/
def cut (u : ℕ → ℝ) (sizes : List ℕ) : List (List ℝ) :=
  (List.range sizes.length).map fun i => (List.range (sizes.getD i 0)).map fun j => u ((sizes.take i).sum + j)

/-- C122: `shuffle` on the current communicator: all ranks end, each with its part of the shuffled rows. -/
theorem C122_shuffle_current_partial {G : List (Fin n)} {comm : C} (hc : members comm = G) (hG : G.Nodup) (hne : G ≠ []) (isrdd : Bool)
    (frac : ℝ) (u : ℕ → ℝ) (shuf : List ℝ → List ℝ) (ranks : List (List (V3 ℝ))) (hr : ranks.length = G.length) :
    ∃ out : ℕ → Except Err (List (V3 ℝ)),
      Ends members G (fun i => Mpi.shuffle comm comm isrdd frac u shuf i i (ranks.getD i [])) out ∧
      shuffleRows isrdd frac (cut u (ranks.map List.length)) shuf ranks = (List.range ranks.length).map fun i => match out i with
        | .ok a => .done a
        | .error e => .raised e := by
  set sizes := ranks.map List.length with hsizes
  set mask : ℕ → List Bool := fun i =>
    shuffleMask frac ((List.range (ranks.getD i []).length).map fun j => u ((sizes.take i).sum + j)) with hmask
  set radial : ℕ → List ℝ := fun i => (masked (mask i) (ranks.getD i [])).map (radialOf isrdd) with hradial
  set new : List (List ℝ) := splitSizes ((List.range ranks.length).map fun i => (radial i).length)
    (shuf ((List.range ranks.length).map radial).flatten) with hnew
  have e0 : (List.range G.length).map (fun i => (ranks.getD i []).length) = sizes := by
    rw [← hr, ← Function.comp_def List.length, ← List.map_map, range_map_getD]
  refine ⟨fun i => shuffleRank isrdd (mask i) (ranks.getD i []) (new.getD i []), ?_, ?_⟩
  · refine (Path.call hc hG hne _ _ _ (Path.call hc hG hne _ _ _ ?_)).ends
    rw [e0]
    refine Path.call hc hG hne (.gather 0) radial _ (Path.call hc hG hne (.scatter 0) (fun i => (radial i).length) _ ?_)
    rw [← hr]
    exact Path.done _
  · have e1 : (cut u sizes).map (shuffleMask frac) = (List.range ranks.length).map mask := by
      unfold cut
      rw [List.map_map, show sizes.length = ranks.length by simp [hsizes]]
      refine List.map_congr_left fun i hi => ?_
      have hi' := List.mem_range.1 hi
      have : sizes.getD i 0 = (ranks.getD i []).length := by simp [hsizes, hi']
      simp only [Function.comp, hmask, this]
    have e2 : List.zipWith (fun m rows => (masked m rows).map (radialOf isrdd)) ((List.range ranks.length).map mask) ranks =
        (List.range ranks.length).map radial := by
      apply List.ext_getElem
      · simp
      · intro i h1 h2
        have hi : i < ranks.length := by simpa using h2
        simp [hradial, hi]
    unfold shuffleRows
    simp only [e1, e2, List.map_map]
    have e3 : splitSizes ((List.range ranks.length).map (List.length ∘ radial)) (shuf ((List.range ranks.length).map radial).flatten) = new := rfl
    rw [e3]
    have hl : new.length = ranks.length := by
      have : ∀ (S : List ℕ) (l : List ℝ), (splitSizes S l).length = S.length := by
        intro S
        induction S with
        | nil => intro l; rfl
        | cons a S ih => intro l; simp [splitSizes, ih]
      rw [hnew, this]
      simp
    apply List.ext_getElem
    · simp [hl]
    · intro i h1 h2
      have hi : i < ranks.length := by simpa using h2
      simp only [List.getElem_zipWith, List.getElem_zip, List.getElem_map, List.getElem_range, Res.locally]
      have e4 : ranks.getD i [] = ranks[i] := by simp [hi]
      have e5 : new.getD i [] = new[i]'(by omega) := by simp [hl, hi]
      rw [e4, e5]
      cases shuffleRank isrdd (mask i) ranks[i] (new[i]'(by omega)) <;> rfl

/-- C122: end of `png` for positions, on the current communicator: all ranks end, and rows of all ranks are not moved on average. -/
theorem C122_png_current_partial {G : List (Fin n)} {comm : C} (hc : members comm = G) (hG : G.Nodup) (hne : G ≠ []) (sign : ℝ)
    (ranks : List (List (V3 ℝ × V3 ℝ))) (hr : ranks.length = G.length) (hrows : ranks.flatten ≠ []) :
    ∃ mean : V3 ℝ, (ranks.flatten.length : ℝ) • mean = (ranks.flatten.map fun r => r.2).foldr (· + ·) 0 ∧
      Ends members G (fun i => pngShift comm sign (ranks.getD i []))
        fun i => .ok ((ranks.getD i []).map fun r => r.1 + sign • (r.2 - mean)) := by
  have e : ((List.range G.length).map fun i => (ranks.getD i []).map (·.2)).flatten = ranks.flatten.map (·.2) := by
    rw [← hr, ← Function.comp_def (List.map _), ← List.map_map, range_map_getD, List.map_flatten]
  refine ⟨(1 / (ranks.flatten.length : ℝ)) • (ranks.flatten.map (·.2)).foldr (· + ·) 0, ?_, ?_⟩
  · have h : (ranks.flatten.length : ℝ) ≠ 0 := by
      exact_mod_cast fun h => hrows (List.length_eq_zero_iff.1 h)
    generalize (ranks.flatten.map fun r => r.2).foldr (· + ·) 0 = v
    generalize (ranks.flatten.length : ℝ) = x at h
    ext <;> simp [h]
  · refine (Path.call hc hG hne _ _ _ ?_).ends
    rw [e]
    have h : ¬ ranks.flatten.map (·.2) = [] := by simpa using hrows
    simp only [if_neg h, List.length_map]
    exact Path.done _

/-- C122 fails for blinding: `shuffle`, and `png` of positions, wait for ever for ranks of the current communicator that do nothing of
the kind. -/
theorem C122_blinding_violated {G : List (Fin n)} (comm current : C) (isrdd : Bool) (frac sign : ℝ) (u : ℕ → ℝ) (shuf : List ℝ → List ℝ)
    (place : ℕ → ℕ) (ranks : List (List (V3 ℝ))) (shifted : List (List (V3 ℝ × V3 ℝ))) {q : Fin n} (hq : q ∈ members current) :
    (∀ s, Runs G (fun i => Mpi.shuffle current comm isrdd frac u shuf i (place i) (ranks.getD i [])) s → Avoids current (s q) →
      ∀ r ∈ G, Never members s r) ∧
    ∀ s, Runs G (fun i => pngShift current sign (shifted.getD i [])) s → Avoids current (s q) → ∀ r ∈ G, Never members s r :=
  ⟨fun _ hs ha => never_of_call (fun _ => ⟨_, _, _, _, rfl⟩) hs hq ha, fun _ hs ha => never_of_call (fun _ => ⟨_, _, _, _, rfl⟩) hs hq ha⟩

/-! ### Non-vacuity -/

/-- Two ranks, with a communicator each, and the communicator of both. -/
def two : Option (Fin 2) → List (Fin 2)
  | none => [0, 1]
  | some r => [r]

/-- Non-vacuity: rank 1 makes a mock on its own, while rank 0 has ended: it waits for ever. -/
example : Never two (fun r : Fin 2 => if r = 0 then .done (.ok (0, 0)) else mockInit none (some 1) none id none 5) 1 := by
  refine (C122_mock_violated (members := two) (G := [1]) (some 1) none none id (fun _ => 5) (q := 0) (by simp [two])).1 _ ?_ ?_ 1 (by simp)
  · intro i hi
    have : i = 0 := by simpa using hi
    subst this
    rfl
  · simp [Avoids]

/-- Non-vacuity: both ranks make a mock, each on its own: both have the seed of rank 0. -/
example : Ends two ([0] ++ [1]) (fun i => mockInit none (if i < 1 then some 0 else some 1) none id none (7 + i)) fun _ => .ok (7, 7) :=
  C122_mock_same_violated (members := two) (comm1 := some 0) (comm2 := some 1) (current := none) (G := [0]) (H := [1]) rfl rfl rfl (by decide) (by decide) (by decide) id (fun i => 7 + i)

end Verif.Props.Communicators
