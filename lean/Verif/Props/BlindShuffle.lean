import Verif.Props.BlindRsd
import Mathlib.Algebra.BigOperators.Group.Multiset.Basic

/-!
# C48: shuffling of redshifts or distances
-/

namespace Verif.Props

open Verif Verif.Model Verif.Model.Blinding Verif.Spec.Blinding Verif.Lemmas.Blinding

/-! ### One rank -/

/-- A row with another radial coordinate. -/
noncomputable def withRadial (isrdd : Bool) (p : V3 ℝ) (d : ℝ) : V3 ℝ := if isrdd then ⟨p.x, p.y, d⟩ else (d / p.norm) • p

/-- Rows after the shuffle. -/
noncomputable def shuffled (isrdd : Bool) (m : List Bool) (rows : List (V3 ℝ)) (new : List ℝ) : List (V3 ℝ) :=
  assignMasked m rows (List.zipWith (withRadial isrdd) (masked m rows) new)

theorem mem_masked {α : Type*} {m : List Bool} {l : List α} {a : α} (h : a ∈ masked m l) : a ∈ l := by
  induction m generalizing l with
  | nil => simp [masked] at h
  | cons b m ih =>
    cases l with
    | nil => cases b <;> simp [masked] at h
    | cons x l =>
      cases b
      · exact List.mem_cons_of_mem _ (ih h)
      · rcases List.mem_cons.mp h with h | h
        · rw [h]; exact List.mem_cons_self
        · exact List.mem_cons_of_mem _ (ih h)

theorem shuffleRank_ok (isrdd : Bool) (m : List Bool) (rows : List (V3 ℝ)) (new : List ℝ)
    (h0 : isrdd = false → ∀ r ∈ rows, r ≠ 0) : shuffleRank isrdd m rows new = .ok (shuffled isrdd m rows new) := by
  unfold shuffleRank shuffled
  have : ((masked m rows).zip new).mapM (fun pd => setRadial isrdd pd.1 pd.2) =
      .ok (((masked m rows).zip new).map fun pd => withRadial isrdd pd.1 pd.2) := by
    refine mapM_ok _ _ _ fun pd hpd => ?_
    have hmem := mem_masked (List.of_mem_zip hpd).1
    unfold setRadial withRadial
    cases isrdd
    · simp [(V3.norm_pos (h0 rfl _ hmem)).ne']
    · simp
  rw [this]
  simp only [Bind.bind, Except.bind]
  rw [← List.map_uncurry_zip_eq_zipWith]
  rfl

theorem length_assignMasked {α : Type*} (m : List Bool) (l bs : List α) : (assignMasked m l bs).length = l.length := by
  induction m generalizing l bs with
  | nil => rfl
  | cons b m ih =>
    cases l with
    | nil => cases b <;> rfl
    | cons a l =>
      cases b
      · simp [assignMasked, ih]
      · cases bs
        · rfl
        · simp [assignMasked, ih]

/-- The direction of a row: RA and Dec columns, or the half-line from the origin. -/
def SameDirection (ptype : String) (r r' : V3 ℝ) : Prop :=
  if ptype = "rdd" ∨ ptype = "rdz" then r'.x = r.x ∧ r'.y = r.y else ∃ a : ℝ, 0 ≤ a ∧ r' = a • r

theorem SameDirection.refl (ptype : String) (r : V3 ℝ) : SameDirection ptype r r := by
  unfold SameDirection
  split_ifs
  · exact ⟨rfl, rfl⟩
  · exact ⟨1, zero_le_one, by ext <;> simp⟩

/-- Position by position. -/
theorem shuffled_get (ptype : String) (isrdd : Bool) (hi : isrdd = decide (ptype = "rdd" ∨ ptype = "rdz")) (m : List Bool)
    (rows : List (V3 ℝ)) (new : List ℝ) (hnew : isrdd = false → ∀ d ∈ new, 0 ≤ d) (j : ℕ) (r' : V3 ℝ)
    (h : (shuffled isrdd m rows new)[j]? = some r') :
    ∃ r, rows[j]? = some r ∧ (m[j]? = some false → r' = r) ∧ SameDirection ptype r r' := by
  unfold shuffled at h
  induction m generalizing rows new j with
  | nil => exact ⟨r', h, by simp, .refl _ _⟩
  | cons b m ih =>
    cases rows with
    | nil => cases b <;> simp [assignMasked] at h
    | cons a rows =>
      cases b
      · simp only [masked, assignMasked] at h
        match j with
        | 0 =>
          simp only [List.getElem?_cons_zero, Option.some.injEq] at h
          exact ⟨a, rfl, fun _ => h.symm, h ▸ .refl _ _⟩
        | j + 1 => simpa using ih rows new hnew j (by simpa using h)
      · cases new with
        | nil =>
          have h' : (a :: rows)[j]? = some r' := by simpa [masked, assignMasked] using h
          exact ⟨r', h', fun _ => rfl, .refl _ _⟩
        | cons d new =>
          simp only [masked, List.zipWith_cons_cons, assignMasked] at h
          match j with
          | 0 =>
            simp only [List.getElem?_cons_zero, Option.some.injEq] at h
            refine ⟨a, rfl, by simp, ?_⟩
            rw [← h]
            unfold SameDirection withRadial
            cases hb : isrdd
            · rw [if_neg (by rw [hb] at hi; simpa using hi)]
              exact ⟨d / a.norm, div_nonneg (hnew hb d List.mem_cons_self) (V3.norm_nonneg a), rfl⟩
            · rw [if_pos (by rw [hb] at hi; simpa using hi)]
              exact ⟨rfl, rfl⟩
          | j + 1 => simpa using ih rows new (fun hb x hx => hnew hb x (List.mem_cons_of_mem _ hx)) j (by simpa using h)

theorem radialOf_withRadial (isrdd : Bool) (p : V3 ℝ) (d : ℝ) (hp : isrdd = false → p ≠ 0) (hd : isrdd = false → 0 ≤ d) :
    radialOf isrdd (withRadial isrdd p d) = d := by
  unfold radialOf withRadial
  cases isrdd
  · have hn := V3.norm_pos (hp rfl)
    simp only [Bool.false_eq_true, if_false]
    have h0 : 0 ≤ d / p.norm := div_nonneg (hd rfl) hn.le
    unfold V3.norm at hn h0 ⊢
    simp only [V3.smul_x, V3.smul_y, V3.smul_z]
    set s := √(p.x ^ 2 + p.y ^ 2 + p.z ^ 2)
    rw [show (d / s * p.x) ^ 2 + (d / s * p.y) ^ 2 + (d / s * p.z) ^ 2 =
      (d / s) ^ 2 * (p.x ^ 2 + p.y ^ 2 + p.z ^ 2) by ring, Real.sqrt_mul (by positivity), Real.sqrt_sq h0]
    show d / s * s = d
    field_simp
  · rfl

/-- Radial coordinates of a rank: new ones for selected rows, those of other rows are kept. -/
theorem radial_shuffled (isrdd : Bool) (m : List Bool) (rows : List (V3 ℝ)) (new : List ℝ) (hm : m.length = rows.length)
    (hlen : new.length = (masked m rows).length) (h0 : isrdd = false → ∀ r ∈ rows, r ≠ 0) (hd : isrdd = false → ∀ d ∈ new, 0 ≤ d) :
    ((shuffled isrdd m rows new).map (radialOf isrdd) : Multiset ℝ) = new + (masked (m.map (!·)) rows).map (radialOf isrdd) := by
  unfold shuffled
  induction m generalizing rows new with
  | nil =>
    have : rows = [] := List.length_eq_zero_iff.mp hm.symm
    subst this
    have : new = [] := List.length_eq_zero_iff.mp hlen
    subst this
    rfl
  | cons b m ih =>
    cases rows with
    | nil => simp at hm
    | cons a rows =>
      have h0' : isrdd = false → ∀ r ∈ rows, r ≠ 0 := fun h r hr => h0 h r (List.mem_cons_of_mem _ hr)
      have hm' : m.length = rows.length := by simpa using hm
      cases b
      · have := ih rows new hm' hlen h0' hd
        simp only [masked, assignMasked, List.map_cons, Bool.not_false] at this ⊢
        rw [← Multiset.cons_coe, ← Multiset.cons_coe, this, Multiset.add_cons]
      · cases new with
        | nil => simp [masked] at hlen
        | cons d new =>
          have := ih rows new hm' (by simpa [masked] using hlen) h0' fun h x hx => hd h x (List.mem_cons_of_mem _ hx)
          simp only [masked, assignMasked, List.map_cons, Bool.not_true, List.zipWith_cons_cons] at this ⊢
          rw [← Multiset.cons_coe, ← Multiset.cons_coe, this, radialOf_withRadial isrdd a d (fun h => h0 h a List.mem_cons_self)
            fun h => hd h d List.mem_cons_self]
          rw [Multiset.cons_add]

theorem radial_masked (isrdd : Bool) (m : List Bool) (rows : List (V3 ℝ)) (hm : m.length = rows.length) :
    (rows.map (radialOf isrdd) : Multiset ℝ) =
      (masked m rows).map (radialOf isrdd) + (masked (m.map (!·)) rows).map (radialOf isrdd) := by
  induction m generalizing rows with
  | nil =>
    have : rows = [] := List.length_eq_zero_iff.mp hm.symm
    subst this
    rfl
  | cons b m ih =>
    cases rows with
    | nil => simp at hm
    | cons a rows =>
      have hm' : m.length = rows.length := by simpa using hm
      have := ih rows hm'
      cases b
      · simp only [masked, List.map_cons, Bool.not_false] at this ⊢
        rw [← Multiset.cons_coe, this, ← Multiset.cons_coe, Multiset.add_cons]
      · simp only [masked, List.map_cons, Bool.not_true] at this ⊢
        rw [← Multiset.cons_coe, this, ← Multiset.cons_coe, Multiset.cons_add]

/-! ### All ranks -/

/-- Result of all ranks: masks and rows, and new radial coordinates in order. -/
noncomputable def shuffledRanks (isrdd : Bool) : List (List Bool × List (V3 ℝ)) → List (List ℝ) → List (List (V3 ℝ))
  | mr :: mrs, n :: ns => shuffled isrdd mr.1 mr.2 n :: shuffledRanks isrdd mrs ns
  | _, _ => []

/-- `t` goes with `mrs` rank by rank: each has a new radial coordinate for each selected row. -/
def FitsRanks (isrdd : Bool) (mrs : List (List Bool × List (V3 ℝ))) (ns : List (List ℝ)) : Prop :=
  List.Forall₂ (fun mr n => mr.1.length = mr.2.length ∧ n.length = (masked mr.1 mr.2).length ∧
    (isrdd = false → ∀ r ∈ mr.2, r ≠ 0) ∧ (isrdd = false → ∀ d ∈ n, 0 ≤ d)) mrs ns

theorem zipWith_shuffle {isrdd : Bool} {mrs : List (List Bool × List (V3 ℝ))} {ns : List (List ℝ)} (h : FitsRanks isrdd mrs ns) :
    List.zipWith (fun mr n => Res.locally (fun mr : List Bool × List (V3 ℝ) => shuffleRank isrdd mr.1 mr.2 n) (.done mr)) mrs ns =
      (shuffledRanks isrdd mrs ns).map .done := by
  induction h with
  | nil => rfl
  | cons h _ ih =>
    rw [List.zipWith_cons_cons, ih, shuffledRanks, List.map_cons]
    congr 1
    simp only [Res.locally, shuffleRank_ok isrdd _ _ _ h.2.2.1]

theorem radial_shuffledRanks {isrdd : Bool} {mrs : List (List Bool × List (V3 ℝ))} {ns : List (List ℝ)} (h : FitsRanks isrdd mrs ns) :
    ((shuffledRanks isrdd mrs ns).flatten.map (radialOf isrdd) : Multiset ℝ) =
      ns.flatten + (mrs.map fun mr => ((masked (mr.1.map (!·)) mr.2).map (radialOf isrdd) : Multiset ℝ)).sum := by
  induction h with
  | nil => rfl
  | cons h _ ih =>
    rw [shuffledRanks, List.flatten_cons, List.map_append, ← Multiset.coe_add, ih, radial_shuffled isrdd _ _ _ h.1 h.2.1 h.2.2.1 h.2.2.2,
      List.flatten_cons, List.map_cons, List.sum_cons, ← Multiset.coe_add]
    abel

theorem radial_maskedRanks {isrdd : Bool} {mrs : List (List Bool × List (V3 ℝ))} (h : ∀ mr ∈ mrs, mr.1.length = mr.2.length) :
    ((mrs.map (·.2)).flatten.map (radialOf isrdd) : Multiset ℝ) =
      (mrs.map fun mr => (masked mr.1 mr.2).map (radialOf isrdd)).flatten +
        (mrs.map fun mr => ((masked (mr.1.map (!·)) mr.2).map (radialOf isrdd) : Multiset ℝ)).sum := by
  induction mrs with
  | nil => rfl
  | cons mr mrs ih =>
    rw [List.map_cons, List.flatten_cons, List.map_append, ← Multiset.coe_add, ih fun x hx => h x (List.mem_cons_of_mem _ hx),
      radial_masked isrdd mr.1 mr.2 (h mr List.mem_cons_self), List.map_cons, List.map_cons, List.flatten_cons, List.sum_cons,
      ← Multiset.coe_add]
    abel

theorem get_shuffledRanks {isrdd : Bool} {mrs : List (List Bool × List (V3 ℝ))} {ns : List (List ℝ)} (h : FitsRanks isrdd mrs ns) (i : ℕ)
    (rows' : List (V3 ℝ)) (hi : (shuffledRanks isrdd mrs ns)[i]? = some rows') :
    ∃ m rows n, mrs[i]? = some (m, rows) ∧ rows' = shuffled isrdd m rows n ∧ (isrdd = false → ∀ d ∈ n, 0 ≤ d) := by
  induction h generalizing i with
  | nil => simp [shuffledRanks] at hi
  | cons h _ ih =>
    match i with
    | 0 =>
      simp only [shuffledRanks, List.getElem?_cons_zero, Option.some.injEq] at hi
      exact ⟨_, _, _, rfl, hi.symm, h.2.2.2⟩
    | i + 1 => exact ih i (by simpa [shuffledRanks] using hi)

theorem length_shuffledRanks {isrdd : Bool} {mrs : List (List Bool × List (V3 ℝ))} {ns : List (List ℝ)} (h : FitsRanks isrdd mrs ns) :
    (shuffledRanks isrdd mrs ns).length = mrs.length := by
  induction h with
  | nil => rfl
  | cons h _ ih => rw [shuffledRanks, List.length_cons, ih, List.length_cons]

/-- Radial coordinate as users see it. -/
theorem radialOf_eq {ptype : String} {isrdd : Bool} (hi : isrdd = decide (ptype = "rdd" ∨ ptype = "rdz")) (r : V3 ℝ) :
    radialOf isrdd r = radius ptype r := by
  unfold radialOf radius
  cases isrdd
  · have : ¬ (ptype = "rdz" ∨ ptype = "rdd") := by rw [or_comm]; simpa using hi
    rw [if_neg this]; simp
  · have : ptype = "rdz" ∨ ptype = "rdd" := by rw [or_comm]; simpa using hi
    rw [if_pos this]; simp

/-- The rows of `new` are those of `old` with radial coordinates exchanged among rows selected by draws `u` below `frac`. -/
structure Shuffled (ptype : String) (frac : ℝ) (u : List (List ℝ)) (old new : List (List (V3 ℝ))) : Prop where
  ranks : new.length = old.length
  rows : ∀ i : ℕ, (new[i]?).map List.length = (old[i]?).map List.length
  direction : ∀ (i j : ℕ) rows', new[i]? = some rows' → ∀ r', rows'[j]? = some r' → ∃ rows r, old[i]? = some rows ∧
    rows[j]? = some r ∧ SameDirection ptype r r'
  unselected : ∀ (i j : ℕ) us x rows', u[i]? = some us → us[j]? = some x → frac ≤ x → new[i]? = some rows' → ∃ rows,
    old[i]? = some rows ∧ rows'[j]? = rows[j]?
  radial : (new.flatten.map (radius ptype)).Perm (old.flatten.map (radius ptype))

theorem fits_split {isrdd : Bool} (mrs : List (List Bool × List (V3 ℝ))) (new : List ℝ)
    (h1 : ∀ mr ∈ mrs, mr.1.length = mr.2.length) (h0 : isrdd = false → ∀ mr ∈ mrs, ∀ r ∈ mr.2, r ≠ 0)
    (hd : isrdd = false → ∀ d ∈ new, 0 ≤ d)
    (hlen : (mrs.map fun mr => (masked mr.1 mr.2).length).sum = new.length) :
    FitsRanks isrdd mrs (splitSizes (mrs.map fun mr => (masked mr.1 mr.2).length) new) := by
  induction mrs generalizing new with
  | nil => exact .nil
  | cons mr mrs ih =>
    rw [List.map_cons, List.sum_cons] at hlen
    rw [List.map_cons, splitSizes]
    refine .cons ⟨h1 mr List.mem_cons_self, ?_, fun h => h0 h mr List.mem_cons_self, fun h d hd' => hd h d (List.mem_of_mem_take hd')⟩
      (ih _ (fun x hx => h1 x (List.mem_cons_of_mem _ hx)) (fun h x hx => h0 h x (List.mem_cons_of_mem _ hx))
        (fun h d hd' => hd h d (List.mem_of_mem_drop hd')) ?_)
    · rw [List.length_take]; omega
    · rw [List.length_drop]; omega

theorem masked_nonneg (isrdd : Bool) (hi : isrdd = false) (l : List (List ℝ)) (mrs : List (List Bool × List (V3 ℝ)))
    (hl : l = mrs.map fun mr => (masked mr.1 mr.2).map (radialOf isrdd)) : ∀ d ∈ l.flatten, 0 ≤ d := by
  subst hl hi
  intro d hd
  obtain ⟨x, hx, hd⟩ := List.mem_flatten.mp hd
  obtain ⟨mr, -, rfl⟩ := List.mem_map.mp hx
  obtain ⟨r, -, rfl⟩ := List.mem_map.mp hd
  exact V3.norm_nonneg r

/-- Rows of all ranks. -/
theorem shuffleRows_spec {ptype : String} {isrdd : Bool} (hi : isrdd = decide (ptype = "rdd" ∨ ptype = "rdz")) (frac : ℝ)
    (u : List (List ℝ)) (shuf : List ℝ → List ℝ) (hshuf : ∀ l, (shuf l).Perm l) (ranks : List (List (V3 ℝ)))
    (hu : u.map List.length = ranks.map List.length) (h0 : isrdd = false → ∀ rows ∈ ranks, ∀ r ∈ rows, r ≠ 0) :
    ∃ new, shuffleRows isrdd frac u shuf ranks = new.map .done ∧ Shuffled ptype frac u ranks new := by
  have hlenu : u.length = ranks.length := by simpa using congrArg List.length hu
  set mrs := (u.map (shuffleMask frac)).zip ranks with hmrs
  have hmr : ∀ mr ∈ mrs, mr.1.length = mr.2.length := by
    intro mr hmr
    obtain ⟨i, hi', he⟩ := List.mem_iff_getElem.mp hmr
    have hiu : i < u.length := by simp [hmrs] at hi'; exact hi'.1
    have hir : i < ranks.length := by omega
    have : mr = (shuffleMask frac u[i], ranks[i]) := by rw [← he]; simp [hmrs]
    rw [this]
    simp only [shuffleMask, List.length_map]
    have := congrArg (fun l => l[i]?) hu
    simpa [hiu, hir] using this
  have hradial : List.zipWith (fun m rows => (masked m rows).map (radialOf isrdd)) (u.map (shuffleMask frac)) ranks =
      mrs.map fun mr => (masked mr.1 mr.2).map (radialOf isrdd) := by
    rw [hmrs, List.map_zip_eq_zipWith]
    rfl
  have hranks : mrs.map (·.2) = ranks := by
    rw [hmrs, List.map_snd_zip (by simp [hlenu])]
  set rad := (mrs.map fun mr => (masked mr.1 mr.2).map (radialOf isrdd)) with hrad
  have hsizes : rad.map List.length = mrs.map fun mr => (masked mr.1 mr.2).length := by simp [hrad]
  have hsum : (mrs.map fun mr => (masked mr.1 mr.2).length).sum = (shuf rad.flatten).length := by
    rw [(hshuf _).length_eq, List.length_flatten, hsizes]
  have hfit := fits_split (isrdd := isrdd) mrs (shuf rad.flatten) hmr
    (fun h mr hmr' r hr => h0 h mr.2 (by rw [← hranks]; exact List.mem_map_of_mem hmr') r hr)
    (fun h d hd => masked_nonneg isrdd h rad mrs rfl d ((hshuf _).mem_iff.mp hd)) hsum
  set ns := splitSizes (mrs.map fun mr => (masked mr.1 mr.2).length) (shuf rad.flatten) with hns
  have hget : ∀ (i : ℕ) rows', (shuffledRanks isrdd mrs ns)[i]? = some rows' → ∃ us rows n, u[i]? = some us ∧ ranks[i]? = some rows ∧
      rows' = shuffled isrdd (shuffleMask frac us) rows n ∧ (isrdd = false → ∀ d ∈ n, 0 ≤ d) := by
    intro i rows' h
    obtain ⟨m, rows, n, h1, h2, h3⟩ := get_shuffledRanks hfit i rows' h
    obtain ⟨hlt, h1⟩ := List.getElem?_eq_some_iff.mp h1
    have hiu : i < u.length := by simpa [hmrs, hlenu] using hlt
    have hir : i < ranks.length := by omega
    simp only [hmrs, List.getElem_zip, List.getElem_map, Prod.mk.injEq] at h1
    exact ⟨u[i], rows, n, List.getElem?_eq_getElem hiu, by rw [List.getElem?_eq_getElem hir, h1.2], by rw [h2, h1.1], h3⟩
  have hlen : (shuffledRanks isrdd mrs ns).length = ranks.length := by
    rw [length_shuffledRanks hfit, ← hranks, List.length_map]
  refine ⟨shuffledRanks isrdd mrs ns, ?_, ?_⟩
  · unfold shuffleRows
    simp only
    rw [hradial, hsizes]
    exact zipWith_shuffle hfit
  · refine ⟨hlen, ?_, ?_, ?_, ?_⟩
    · intro i
      cases h : (shuffledRanks isrdd mrs ns)[i]? with
      | none =>
        have : ranks[i]? = none := by rw [List.getElem?_eq_none_iff, ← hlen]; exact List.getElem?_eq_none_iff.mp h
        rw [this]
      | some rows' =>
        obtain ⟨us, rows, n, -, h2, h3, -⟩ := hget i rows' h
        rw [h2, h3]
        simp [shuffled, length_assignMasked]
    · intro i j rows' h r' hr'
      obtain ⟨us, rows, n, -, h2, h3, h4⟩ := hget i rows' h
      rw [h3] at hr'
      obtain ⟨r, h5, -, h6⟩ := shuffled_get ptype isrdd hi _ rows n h4 j r' hr'
      exact ⟨rows, r, h2, h5, h6⟩
    · intro i j us x rows' h1 hx hf h
      obtain ⟨us', rows, n, h1', h2, h3, h4⟩ := hget i rows' h
      rw [h1] at h1'
      cases h1'
      refine ⟨rows, h2, ?_⟩
      have hm : (shuffleMask frac us)[j]? = some false := by
        simp [shuffleMask, hx, hf]
      rw [h3]
      cases hr' : (shuffled isrdd (shuffleMask frac us) rows n)[j]? with
      | none =>
        rw [List.getElem?_eq_none_iff] at hr'
        rw [eq_comm, List.getElem?_eq_none_iff]
        simpa [shuffled, length_assignMasked] using hr'
      | some r' =>
        obtain ⟨r, h5, h6, -⟩ := shuffled_get ptype isrdd hi _ rows n h4 j r' hr'
        rw [h5, h6 hm]
    · have e : radius ptype = radialOf isrdd := funext fun r => (radialOf_eq hi r).symm
      rw [e, ← Multiset.coe_eq_coe, radial_shuffledRanks hfit, ← hranks, radial_maskedRanks hmr, ← hrad]
      congr 1
      rw [hns, flatten_splitSizes _ _ hsum]
      exact Multiset.coe_eq_coe.mpr (hshuf _)

/-- The squared ratio of growth rates. -/
theorem shuffleFraction_eq {blind fid : Cosmo} {z : Option ℝ} {fb ff : ℝ} (hb : blind.derived.lookup "f" = some fb)
    (hf : IsFiducial fid z "f" ff) (h0 : ff ≠ 0) :
    shuffleFraction blind fid z = if 1 < (fb / ff) ^ 2 then .error .valueError else .ok ((fb / ff) ^ 2) := by
  have hz : z = none ∨ ¬ IsDensity "f" := Or.inr (by unfold IsDensity; decide)
  unfold shuffleFraction
  rw [getFromCosmo_f hb, getFromCosmo_fiducial hf hz]
  simp only [Bind.bind, Except.bind]
  rw [if_neg h0]

/-- Type under which rows are formatted. -/
theorem shuffle_type {ptype : String} (h : Known ptype) :
    Known (if decide (ptype = "rdd" ∨ ptype = "rdz") = true then "xyz" else ptype) ∧
    (∀ rows, argOf (if decide (ptype = "rdd" ∨ ptype = "rdz") = true then "xyz" else ptype) rows = argOf ptype rows) ∧
    (∀ rows, outOf (if decide (ptype = "rdd" ∨ ptype = "rdz") = true then "xyz" else ptype) rows = outOf ptype rows) ∧
    (∀ r, cart (if decide (ptype = "rdd" ∨ ptype = "rdz") = true then "xyz" else ptype) id r = r) ∧
    ∀ d2z p, Back (if decide (ptype = "rdd" ∨ ptype = "rdz") = true then "xyz" else ptype) d2z p p := by
  rcases h with rfl | rfl | rfl | rfl
  · exact ⟨Or.inl rfl, fun _ => rfl, fun _ => rfl, fun _ => rfl, fun _ _ => rfl⟩
  · exact ⟨Or.inr (Or.inl rfl), fun _ => rfl, fun _ => rfl, fun _ => rfl, fun _ _ => rfl⟩
  · exact ⟨Or.inr (Or.inl rfl), fun _ => rfl, fun _ => rfl, fun _ => rfl, fun _ _ => rfl⟩
  · exact ⟨Or.inr (Or.inl rfl), fun _ => rfl, fun _ => rfl, fun _ => rfl, fun _ _ => rfl⟩

/-- `shuffle` keeps the directions of all objects and the distances (redshifts) as a whole, and leaves alone objects that are not
selected. All position types, permutations and draws, rows on all ranks. Missing for the full claim: equal growth rates leave the
catalog unchanged, see `C48_equal_growth_violated`. -/
theorem C48_shuffle_partial {ptype : String} (h : Known ptype) (blind fid : Cosmo) (z : Option ℝ) (fb ff : ℝ)
    (hb : blind.derived.lookup "f" = some fb) (hf : IsFiducial fid z "f" ff) (h0 : ff ≠ 0) (hle : (fb / ff) ^ 2 ≤ 1)
    (u : List ℕ → List (List ℝ)) (hu : ∀ sizes, (u sizes).map List.length = sizes) (shuf : List ℝ → List ℝ)
    (hshuf : ∀ l, (shuf l).Perm l) (ranks : List (List (V3 ℝ)))
    (hr0 : ptype = "pos" ∨ ptype = "xyz" → ∀ rows ∈ ranks, ∀ r ∈ rows, r ≠ 0) :
    ∃ new, shuffle ptype none blind fid z u shuf none (ranks.map (argOf ptype)) = new.map (fun rows => .done (outOf ptype rows)) ∧
      Shuffled ptype ((fb / ff) ^ 2) (u (ranks.map List.length)) ranks new := by
  obtain ⟨hk, harg, hout, hcart, hback⟩ := shuffle_type h
  set t := (if decide (ptype = "rdd" ∨ ptype = "rdz") = true then "xyz" else ptype) with ht
  obtain ⟨new, h1, h2⟩ := shuffleRows_spec (ptype := ptype) (isrdd := decide (ptype = "rdd" ∨ ptype = "rdz")) rfl ((fb / ff) ^ 2)
    (u (ranks.map List.length)) shuf hshuf ranks (hu _) (fun hi => hr0 (by
      have : ¬ (ptype = "rdd" ∨ ptype = "rdz") := by simpa using hi
      rcases h with h | h | h | h <;> tauto))
  refine ⟨new, ?_, h2⟩
  unfold shuffle
  simp only
  rw [← ht]
  have hfmt : formatPositions t none id none (ranks.map (argOf ptype)) = ranks.map fun rows => .done (.rows rows) := by
    have := formatPositions_scattered hk id ranks
    rw [show argOf t = argOf ptype from funext harg] at this
    rw [this]
    refine List.map_congr_left fun rows _ => ?_
    rw [(List.map_congr_left fun r _ => hcart r).trans (List.map_id rows)]
  rw [hfmt, List.map_map]
  have hloc : (ranks.map ((Res.locally fun f : Formatted => do
      let l ← f.get
      .ok (l, ← shuffleFraction blind fid z)) ∘ fun rows => .done (.rows rows))) =
      (ranks.map fun rows => (rows, (fb / ff) ^ 2)).map Res.done := by
    rw [List.map_map]
    refine List.map_congr_left fun rows _ => ?_
    simp only [Function.comp, Res.locally, Formatted.get, shuffleFraction_eq hb hf h0, if_neg (not_lt.mpr hle)]
    rfl
  rw [hloc, collective_done']
  have hmatch : (match ranks.map fun rows => (rows, (fb / ff) ^ 2) with
    | [] => []
    | (_, frac) :: _ => shuffleRows (decide (ptype = "rdd" ∨ ptype = "rdz")) frac
        (u ((ranks.map fun rows => (rows, (fb / ff) ^ 2)).map fun x => x.1.length)) shuf
        ((ranks.map fun rows => (rows, (fb / ff) ^ 2)).map (·.1))) = new.map Res.done := by
    have e1 : (ranks.map fun rows => (rows, (fb / ff) ^ 2)).map (fun x => x.1.length) = ranks.map List.length := by simp
    have e2 : (ranks.map fun rows => (rows, (fb / ff) ^ 2)).map (·.1) = ranks := by rw [List.map_map]; exact List.map_id _
    rw [e1, e2, ← h1]
    cases ranks with
    | nil =>
      have : new = [] := List.length_eq_zero_iff.mp h2.ranks
      rw [h1, this]
      rfl
    | cons a l => rfl
  refine (congrArg (formatOutputPositions t (fun _ => .error .attributeError) none) hmatch).trans ?_
  have := output_scattered hk (fun _ => .error .attributeError) new id id fun _ _ a _ => hback _ a
  simp only [List.map_id_fun, id] at this
  rw [this]
  exact List.map_congr_left fun rows _ => by rw [hout]

/-- Same with rows on one rank. -/
theorem C48_shuffle_root_partial {ptype : String} (h : Known ptype) (blind fid : Cosmo) (z : Option ℝ) (fb ff : ℝ)
    (hb : blind.derived.lookup "f" = some fb) (hf : IsFiducial fid z "f" ff) (h0 : ff ≠ 0) (hle : (fb / ff) ^ 2 ≤ 1)
    (u : List ℕ → List (List ℝ)) (hu : ∀ sizes, (u sizes).map List.length = sizes) (shuf : List ℝ → List ℝ)
    (hshuf : ∀ l, (shuf l).Perm l) (args : List Positions) (root : ℕ) (rows : List (V3 ℝ))
    (hr : args[root]? = some (argOf ptype rows)) (hr0 : ptype = "pos" ∨ ptype = "xyz" → ∀ r ∈ rows, r ≠ 0) :
    ∃ old new : List (List (V3 ℝ)), old.flatten = rows ∧
      shuffle ptype none blind fid z u shuf (some root) args = onRoot args.length root (outOf ptype new.flatten) ∧
      Shuffled ptype ((fb / ff) ^ 2) (u (localSizes rows.length args.length)) old new := by
  have hN : 0 < args.length := by
    obtain ⟨hlt, -⟩ := List.getElem?_eq_some_iff.mp hr
    omega
  obtain ⟨hk, harg, hout, hcart, hback⟩ := shuffle_type h
  set t := (if decide (ptype = "rdd" ∨ ptype = "rdz") = true then "xyz" else ptype) with ht
  set ranks := splitSizes (localSizes rows.length args.length) rows with hranks
  have hsum := sum_localSizes rows.length args.length hN
  have hflat : ranks.flatten = rows := flatten_splitSizes _ _ hsum
  have hlens : ranks.map List.length = localSizes rows.length args.length := lengths_splitSizes _ _ hsum
  have hlen : ranks.length = args.length := by rw [hranks, length_splitSizes, length_localSizes]
  obtain ⟨new, h1, h2⟩ := shuffleRows_spec (ptype := ptype) (isrdd := decide (ptype = "rdd" ∨ ptype = "rdz")) rfl ((fb / ff) ^ 2)
    (u (ranks.map List.length)) shuf hshuf ranks (hu _) (fun hi b hbk r hrb => hr0 (by
      have : ¬ (ptype = "rdd" ∨ ptype = "rdz") := by simpa using hi
      rcases h with h | h | h | h <;> tauto) r (by rw [← hflat]; exact List.mem_flatten.mpr ⟨b, hbk, hrb⟩))
  refine ⟨ranks, new, hflat, ?_, by rw [← hlens]; exact h2⟩
  unfold shuffle
  simp only
  rw [← ht]
  have hfmt : formatPositions t none id (some root) args = ranks.map fun rows => .done (.rows rows) := by
    rw [formatPositions_root hk id args root rows (by rw [harg]; exact hr),
      (List.map_congr_left fun r _ => hcart r).trans (List.map_id rows)]
  rw [hfmt, List.map_map]
  have hloc : (ranks.map ((Res.locally fun f : Formatted => do
      let l ← f.get
      .ok (l, ← shuffleFraction blind fid z)) ∘ fun rows => .done (.rows rows))) =
      (ranks.map fun rows => (rows, (fb / ff) ^ 2)).map Res.done := by
    rw [List.map_map]
    refine List.map_congr_left fun rows _ => ?_
    simp only [Function.comp, Res.locally, Formatted.get, shuffleFraction_eq hb hf h0, if_neg (not_lt.mpr hle)]
    rfl
  rw [hloc, collective_done']
  have hmatch : (match ranks.map fun rows => (rows, (fb / ff) ^ 2) with
    | [] => []
    | (_, frac) :: _ => shuffleRows (decide (ptype = "rdd" ∨ ptype = "rdz")) frac
        (u ((ranks.map fun rows => (rows, (fb / ff) ^ 2)).map fun x => x.1.length)) shuf
        ((ranks.map fun rows => (rows, (fb / ff) ^ 2)).map (·.1))) = new.map Res.done := by
    have e1 : (ranks.map fun rows => (rows, (fb / ff) ^ 2)).map (fun x => x.1.length) = ranks.map List.length := by simp
    have e2 : (ranks.map fun rows => (rows, (fb / ff) ^ 2)).map (·.1) = ranks := by rw [List.map_map]; exact List.map_id _
    rw [e1, e2, ← h1]
    clear_value ranks
    cases ranks with
    | nil => simp at hlen; omega
    | cons a l => rfl
  refine (congrArg (formatOutputPositions t (fun _ => .error .attributeError) (some root)) hmatch).trans ?_
  rw [output_root hk (fun _ => .error .attributeError) new root new.flatten id id (by simp) fun a _ => hback _ a, h2.ranks,
    hlen, List.map_id, hout]

/-- A blinded growth rate larger than the fiducial one is rejected on all ranks. -/
theorem C48_rejects {ptype : String} (h : Known ptype) (blind fid : Cosmo) (z : Option ℝ) (fb ff : ℝ)
    (hb : blind.derived.lookup "f" = some fb) (hf : IsFiducial fid z "f" ff) (h0 : 0 < ff) (hlt : ff < fb)
    (u : List ℕ → List (List ℝ)) (shuf : List ℝ → List ℝ) (ranks : List (List (V3 ℝ))) (hne : ranks ≠ []) :
    shuffle ptype none blind fid z u shuf none (ranks.map (argOf ptype)) = ranks.map fun _ => .raised .valueError := by
  obtain ⟨hk, harg, -, hcart, -⟩ := shuffle_type h
  set t := (if decide (ptype = "rdd" ∨ ptype = "rdz") = true then "xyz" else ptype) with ht
  unfold shuffle
  simp only
  rw [← ht]
  have hfmt := formatPositions_scattered hk id ranks
  rw [show argOf t = argOf ptype from funext harg] at hfmt
  have hgt : 1 < (fb / ff) ^ 2 := by
    have : 1 < fb / ff := by rw [lt_div_iff₀ h0]; linarith
    nlinarith
  rw [hfmt, List.map_map]
  have hloc : (ranks.map ((Res.locally fun f : Formatted => do
      let l ← f.get
      .ok (l, ← shuffleFraction blind fid z)) ∘ fun rows => .done (.rows (rows.map (cart t id))))) =
      ranks.map fun _ => .raised .valueError := by
    refine List.map_congr_left fun rows _ => ?_
    simp only [Function.comp, Res.locally, Formatted.get, shuffleFraction_eq hb hf h0.ne', if_pos hgt]
    rfl
  rw [hloc]
  have hc : ∀ (α β : Type) (f : List α → List (Res β)),
      collective (ranks.map fun _ => (.raised .valueError : Res α)) f = ranks.map fun _ => .raised .valueError := by
    intro α β f
    unfold collective
    cases ranks with
    | nil => exact absurd rfl hne
    | cons a l => simp [Res.get?, Res.wait]
  rw [hc]
  simp [formatOutputPositions, Res.locally]

/-- With equal growth rates all objects are shuffled: here two objects exchange their distances. -/
theorem C48_equal_growth_violated (blind fid : Cosmo) (z : Option ℝ) (f : ℝ) (hb : blind.derived.lookup "f" = some f)
    (hf : IsFiducial fid z "f" f) (h0 : f ≠ 0) :
    shuffle "pos" none blind fid z (fun sizes => sizes.map fun n => List.replicate n 0.5) List.reverse none
        [argOf "pos" [⟨1, 0, 0⟩, ⟨0, 2, 0⟩]] =
      [.done (outOf "pos" [⟨2, 0, 0⟩, ⟨0, 1, 0⟩])] := by
  have hfrac : shuffleFraction blind fid z = .ok 1 := by
    rw [shuffleFraction_eq hb hf h0, div_self h0]
    norm_num
  have hfmt := formatPositions_scattered (ptype := "pos") (Or.inl rfl) id [[⟨1, 0, 0⟩, ⟨0, 2, 0⟩]]
  simp only [List.map_cons, List.map_nil] at hfmt
  have hc : ∀ r, cart "pos" id r = r := fun _ => rfl
  have n1 : (⟨1, 0, 0⟩ : V3 ℝ).norm = 1 := by simp [V3.norm]
  have n2 : (⟨0, 2, 0⟩ : V3 ℝ).norm = 2 := by simp [V3.norm]
  have hhalf : (0.5 : ℝ) < 1 := by norm_num
  unfold shuffle
  simp only [(by decide : decide ("pos" = "rdd" ∨ "pos" = "rdz") = false), Bool.false_eq_true, if_false]
  rw [hfmt]
  simp only [hc, List.map_cons, List.map_nil, Res.locally, Formatted.get, hfrac, Bind.bind, Except.bind]
  have hcol : ∀ (a : List (V3 ℝ) × ℝ) (g : List (List (V3 ℝ) × ℝ) → List (Res (List (V3 ℝ)))),
      collective [.done a] g = g [a] := fun _ _ => rfl
  rw [hcol]
  have e1 : withRadial false ⟨1, 0, 0⟩ 2 = ⟨2, 0, 0⟩ := by
    unfold withRadial; rw [n1]; ext <;> simp
  have e2 : withRadial false ⟨0, 2, 0⟩ 1 = ⟨0, 1, 0⟩ := by
    unfold withRadial; rw [n2]; ext <;> simp
  have hrank : shuffleRank false [true, true] [⟨1, 0, 0⟩, ⟨0, 2, 0⟩] [2, 1] = .ok [⟨2, 0, 0⟩, ⟨0, 1, 0⟩] := by
    rw [shuffleRank_ok]
    · simp [shuffled, masked, assignMasked, e1, e2]
    · intro _ r hr h
      simp only [List.mem_cons, List.not_mem_nil, or_false] at hr
      rcases hr with rfl | rfl
      · have := congrArg V3.x h; simp at this
      · have := congrArg V3.y h; simp at this
  simp [shuffleRows, shuffleMask, masked, radialOf, n1, n2, splitSizes, Res.locally, hrank, formatOutputPositions, outputRows, outOf,
    List.replicate, hhalf]

/-- Growth rates meeting the hypotheses: 0.4 for 0.8. -/
example : ({ flatCosmo with derived := [("f", 0.4)] } : Cosmo).derived.lookup "f" = some 0.4 ∧
    IsFiducial flatCosmo (some 1) "f" (flatCosmo.fsigma8 1 / flatCosmo.sigma8 1) ∧ flatCosmo.fsigma8 1 / flatCosmo.sigma8 1 = 0.8 ∧
    ((0.4 : ℝ) / 0.8) ^ 2 ≤ 1 :=
  ⟨rfl, .growth _ _ rfl rfl (.computed 1 rfl rfl) (.computed 1 rfl rfl) (by norm_num [flatCosmo]), by norm_num [flatCosmo], by norm_num⟩

end Verif.Props
