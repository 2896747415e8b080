import Verif.Lemmas.Blinding

/-!
# C50: positions given to and returned by the blinding methods
-/

namespace Verif.Props

open Verif Verif.Model Verif.Model.Blinding Verif.Spec.Blinding Verif.Lemmas.Blinding

/-- A row in the usual range comes back. -/
theorem back_cart {ptype : String} {dist : ℝ → ℝ} {d2z : ℝ → Except Err ℝ} {r : V3 ℝ} (hu : Usual ptype r)
    (hz : ptype = "rdz" → 0 < dist r.z ∧ d2z (dist r.z) = .ok r.z) : Back ptype d2z (cart ptype dist r) r := by
  unfold Back cart
  by_cases h1 : ptype = "rdz"
  · obtain ⟨a, b, c, d, e⟩ := hu (Or.inr h1)
    obtain ⟨f, g⟩ := hz h1
    subst h1
    rw [if_pos rfl, if_neg (by decide), if_pos rfl]
    unfold rdzRow
    rw [skyRow_pointOf a b c d f]
    show (do .ok ⟨r.x, r.y, ← d2z (dist r.z)⟩ : Except Err (V3 ℝ)) = _
    rw [g]
    rfl
  · rw [if_neg h1, if_neg h1]
    by_cases h2 : ptype = "rdd"
    · obtain ⟨a, b, c, d, e⟩ := hu (Or.inl h2)
      rw [if_pos h2, if_pos h2, skyRow_pointOf a b c d e]
    · rw [if_neg h2, if_neg h2]

/-- Positions formatted on input then on output are those of the input, on all ranks: for every position type and every number of
rows on each rank. Redshifts need the conversion of distances to redshifts to be the inverse of the distance. -/
theorem C50_round_trip {ptype : String} (h : Known ptype) (dist : ℝ → ℝ) (d2z : ℝ → Except Err ℝ) (ranks : List (List (V3 ℝ)))
    (hu : ∀ rows ∈ ranks, ∀ r ∈ rows, Usual ptype r)
    (hz : ptype = "rdz" → ∀ rows ∈ ranks, ∀ r ∈ rows, 0 < dist r.z ∧ d2z (dist r.z) = .ok r.z) :
    formatOutputPositions ptype d2z none
        ((formatPositions ptype none dist none (ranks.map (argOf ptype))).map (Res.locally Formatted.get)) =
      ranks.map fun rows => .done (outOf ptype rows) := by
  rw [formatPositions_scattered h, List.map_map]
  have := output_scattered h d2z ranks (cart ptype dist) id fun rows hr a ha =>
    back_cart (hu rows hr a ha) fun h' => hz h' rows hr a ha
  simpa [Function.comp_def, locally_get_done] using this

/-- Same when the rows are given on one rank, whatever other ranks pass: that rank gets them back and others get `None`. -/
theorem C50_round_trip_root {ptype : String} (h : Known ptype) (dist : ℝ → ℝ) (d2z : ℝ → Except Err ℝ) (args : List Positions)
    (root : ℕ) (rows : List (V3 ℝ)) (hr : args[root]? = some (argOf ptype rows)) (hu : ∀ r ∈ rows, Usual ptype r)
    (hz : ptype = "rdz" → ∀ r ∈ rows, 0 < dist r.z ∧ d2z (dist r.z) = .ok r.z) :
    formatOutputPositions ptype d2z (some root)
        ((formatPositions ptype none dist (some root) args).map (Res.locally Formatted.get)) =
      onRoot args.length root (outOf ptype rows) := by
  have hN : 0 < args.length := by
    obtain ⟨hlt, -⟩ := List.getElem?_eq_some_iff.mp hr
    omega
  rw [formatPositions_root h dist args root rows hr, List.map_map]
  have := output_root h d2z (splitSizes (localSizes rows.length args.length) (rows.map (cart ptype dist))) root rows
    (cart ptype dist) id (flatten_scatter _ _ _ hN) fun a ha => back_cart (hu a ha) fun h' => hz h' a ha
  rw [length_scatter] at this
  simpa [Function.comp_def, locally_get_done] using this

/-- Rows given on one rank are shared over all ranks in order, none lost or repeated, in shares that differ by at most one row. -/
theorem C50_scatter {ptype : String} (h : Known ptype) (dist : ℝ → ℝ) (args : List Positions) (root : ℕ) (rows : List (V3 ℝ))
    (hr : args[root]? = some (argOf ptype rows)) : ∃ blocks : List (List (V3 ℝ)),
    formatPositions ptype none dist (some root) args = blocks.map (fun b => .done (.rows b)) ∧ blocks.length = args.length ∧
    blocks.flatten = rows.map (cart ptype dist) ∧
    ∀ b ∈ blocks, b.length = rows.length / args.length ∨ b.length = rows.length / args.length + 1 := by
  have hN : 0 < args.length := by
    obtain ⟨hlt, -⟩ := List.getElem?_eq_some_iff.mp hr
    omega
  refine ⟨_, formatPositions_root h dist args root rows hr, length_scatter _ _ _, flatten_scatter _ _ _ hN, ?_⟩
  intro b hb
  have hl : b.length ∈ localSizes rows.length args.length := by
    rw [← lengths_splitSizes (localSizes rows.length args.length) (rows.map (cart ptype dist))
      (by rw [sum_localSizes _ _ hN, List.length_map])]
    exact List.mem_map_of_mem hb
  obtain ⟨r, -, hr'⟩ := List.mem_map.mp hl
  rw [← hr']
  have h1 : (r + 1) * rows.length / args.length = (r * rows.length + rows.length) / args.length := by ring_nf
  rw [h1]
  set n := rows.length
  set N := args.length
  have e1 := Nat.div_add_mod (r * n) N
  have e2 := Nat.div_add_mod n N
  have e3 := Nat.div_add_mod (r * n + n) N
  have l1 := Nat.mod_lt (r * n) hN
  have l2 := Nat.mod_lt n hN
  have l3 := Nat.mod_lt (r * n + n) hN
  have a1 : r * n / N + n / N ≤ (r * n + n) / N := by
    rw [Nat.le_div_iff_mul_le hN, add_mul, mul_comm _ N, mul_comm _ N]
    omega
  have a2 : (r * n + n) / N < r * n / N + n / N + 2 := by
    rw [Nat.div_lt_iff_lt_mul hN, add_mul, add_mul, mul_comm _ N, mul_comm _ N]
    omega
  clear e1 e2 e3 l1 l2 l3 h1
  generalize (r * n + n) / N = A at *
  generalize r * n / N = B at *
  generalize n / N = C at *
  omega

example : Known "rdz" ∧ Usual "rdz" ⟨10, -20, 0.5⟩ ∧ 0 < (fun z : ℝ => 3000 * z) 0.5 :=
  ⟨Or.inr (Or.inr (Or.inr rfl)), fun _ => by norm_num, by norm_num⟩

/-! ### Invalid arguments -/

/-- Rank `i` passes positions that are used. -/
def Used (root : Option ℕ) (i : ℕ) : Prop := root = none ∨ root = some i

/-- No positions: `None`, or `None` for each coordinate. -/
def Absent (ptype : String) : Positions → Prop
  | .none => True
  | .array _ _ rows => ptype ≠ "pos" ∧ rows = []
  | .list l => ptype ≠ "pos" ∧ ∀ c ∈ l, c = none

/-- Documented arguments: none, an array of shape (N, 3) of floats for "pos", or three arrays of floats of the same size for "xyz",
"rdd", "rdz". Types are those after the conversion to `dtype`, if given. -/
def ValidArg (ptype : String) (dtype : Option Kind) (p : Positions) : Prop :=
  Absent ptype p ∨
  (ptype = "pos" ∧ ∃ k rows, p = .array k 3 rows ∧ dtype.getD k = .float) ∨
  ((ptype = "xyz" ∨ ptype = "rdd" ∨ ptype = "rdz") ∧ ∃ a b c : Kind × List ℝ, p.asList = [some a, some b, some c] ∧
    a.2.length = b.2.length ∧ a.2.length = c.2.length ∧
    dtype.getD a.1 = .float ∧ dtype.getD b.1 = .float ∧ dtype.getD c.1 = .float)

/-- The argument is an array for "pos", and else has either all coordinates or none. -/
def Complete (ptype : String) : Positions → Prop
  | .none => True
  | .array _ _ _ => True
  | .list l => ptype ≠ "pos" ∧ ((∀ c ∈ l, c = none) ∨ ∀ c ∈ l, c ≠ none)

theorem given_iff (ptype : String) (p : Positions) : p.given ptype = true ↔ ¬ Absent ptype p := by
  cases p with
  | none => simp [Positions.given, Absent]
  | array k w rows =>
    simp only [Positions.given, Positions.asList, Absent, Bool.or_eq_true, beq_iff_eq, Bool.not_eq_true',
      List.all_map, not_and_or, not_not, ne_eq]
    cases rows <;> simp
  | list l =>
    simp only [Positions.given, Positions.asList, Absent, Bool.or_eq_true, beq_iff_eq, Bool.not_eq_true',
      not_and_or, not_not, ne_eq]
    refine or_congr_right ?_
    rw [← Bool.not_eq_true, List.all_eq_true]
    simp

/-- Columns after the first pass exactly if all have the size and type. -/
theorem checkColumns_spec (size : ℕ) (dt : Kind) (dtype : Option Kind) (l : List (Option (Kind × List ℝ))) (hl : ∀ c ∈ l, c ≠ none) :
    (∃ m, checkColumns size dt dtype l = .ok (some m)) ∧ (¬ ∀ c, some c ∈ l → c.2.length = size ∧ dtype.getD c.1 = dt) ∨
    checkColumns size dt dtype l = .ok none ∧ ∀ c, some c ∈ l → c.2.length = size ∧ dtype.getD c.1 = dt := by
  induction l with
  | nil => exact Or.inr ⟨rfl, by simp⟩
  | cons c l ih =>
    obtain ⟨c, rfl⟩ := Option.ne_none_iff_exists'.mp (hl c List.mem_cons_self)
    unfold checkColumns
    by_cases h1 : c.2.length = size
    · by_cases h2 : dtype.getD c.1 = dt
      · rw [if_neg (not_not.mpr h1), if_neg (not_not.mpr h2)]
        rcases ih (fun c hc => hl c (List.mem_cons_of_mem _ hc)) with ⟨h3, h4⟩ | ⟨h3, h4⟩
        · exact Or.inl ⟨h3, fun h => h4 fun c' hc' => h c' (List.mem_cons_of_mem _ hc')⟩
        · refine Or.inr ⟨h3, fun c' hc' => ?_⟩
          rcases List.mem_cons.mp hc' with h5 | h5
          · cases h5; exact ⟨h1, h2⟩
          · exact h4 c' h5
      · rw [if_neg (not_not.mpr h1), if_pos h2]
        exact Or.inl ⟨⟨_, rfl⟩, fun h => h2 (h c List.mem_cons_self).2⟩
    · rw [if_pos h1]
      exact Or.inl ⟨⟨_, rfl⟩, fun h => h1 (h c List.mem_cons_self).1⟩

/-- What one rank finds: rows if the argument is valid, a message otherwise. -/
theorem formatLocal_spec {ptype : String} {dtype : Option Kind} (dist : ℝ → ℝ) {p : Positions} (hc : Complete ptype p)
    (hg : ¬ Absent ptype p) :
    (ValidArg ptype dtype p ∧ ∃ l, formatLocal ptype dtype dist p = .ok (.ok l)) ∨
    (¬ ValidArg ptype dtype p ∧ ∃ m, formatLocal ptype dtype dist p = .ok (.error m)) := by
  by_cases hp : ptype = "pos"
  · subst hp
    cases p with
    | none => exact absurd trivial hg
    | list l => exact absurd rfl hc.1
    | array k w rows =>
      have hv : ValidArg "pos" dtype (.array k w rows) ↔ w = 3 ∧ dtype.getD k = .float := by
        unfold ValidArg Absent
        constructor
        · rintro (h | ⟨-, k', rows', h1, h2⟩ | ⟨h, -⟩)
          · exact absurd rfl h.1
          · cases h1; exact ⟨rfl, h2⟩
          · simp at h
        · rintro ⟨rfl, h⟩
          exact Or.inr (Or.inl ⟨rfl, k, rows, rfl, h⟩)
      rw [hv]
      unfold formatLocal
      rw [if_pos rfl]
      simp only [Positions.asArray]
      by_cases h1 : dtype.getD k = .float
      · by_cases h2 : w = 3
        · exact Or.inl ⟨⟨h2, h1⟩, _, by simp [Bind.bind, Except.bind, h1, h2]; rfl⟩
        · exact Or.inr ⟨fun h => h2 h.1, .width, by simp [Bind.bind, Except.bind, h1, h2]⟩
      · exact Or.inr ⟨fun h => h1 h.2, .notFloat, by simp [Bind.bind, Except.bind, h1]⟩
  · have hv : ValidArg ptype dtype p ↔ (ptype = "xyz" ∨ ptype = "rdd" ∨ ptype = "rdz") ∧ ∃ a b c : Kind × List ℝ,
        p.asList = [some a, some b, some c] ∧ a.2.length = b.2.length ∧ a.2.length = c.2.length ∧
        dtype.getD a.1 = .float ∧ dtype.getD b.1 = .float ∧ dtype.getD c.1 = .float := by
      unfold ValidArg
      constructor
      · rintro (h | h | h)
        · exact absurd h hg
        · exact absurd h.1 hp
        · exact h
      · exact fun h => Or.inr (Or.inr h)
    rw [hv]
    have hne : ∀ c ∈ p.asList, c ≠ none := by
      cases p with
      | none => simp [Positions.asList]
      | array k w rows => simp [Positions.asList]
      | list l =>
        rcases hc.2 with h | h
        · exact absurd ⟨hp, h⟩ hg
        · exact h
    have hnil : p.asList ≠ [] := by
      intro h
      apply hg
      cases p with
      | none => trivial
      | array k w rows => exact ⟨hp, by simpa [Positions.asList] using h⟩
      | list l => refine ⟨hp, ?_⟩; simp only [Positions.asList] at h; simp [h]
    unfold formatLocal
    rw [if_neg hp]
    match hl : p.asList with
    | [] => exact absurd hl hnil
    | none :: l => exact absurd rfl (hne none (by rw [hl]; exact List.mem_cons_self))
    | some c :: l =>
      simp only
      by_cases h1 : dtype.getD c.1 = .float
      · rw [if_neg (not_not.mpr h1)]
        rcases checkColumns_spec c.2.length (dtype.getD c.1) dtype l
          (fun c' hc' => hne c' (by rw [hl]; exact List.mem_cons_of_mem _ hc')) with ⟨⟨m, h2⟩, h3⟩ | ⟨h2, h3⟩
        · refine Or.inr ⟨?_, m, by rw [h2]; rfl⟩
          rintro ⟨-, a, b, d, e, e1, e2, e3, e4, e5⟩
          simp only [List.cons.injEq, Option.some.injEq] at e
          obtain ⟨rfl, rfl⟩ := e
          apply h3
          intro c' hc'
          simp only [List.mem_cons, Option.some.injEq, List.not_mem_nil, or_false] at hc'
          rcases hc' with rfl | rfl
          · exact ⟨e1.symm, e4.trans e3.symm⟩
          · exact ⟨e2.symm, e5.trans e3.symm⟩
        · rw [h2]
          simp only [Bind.bind, Except.bind]
          match l, h3 with
          | [some c1, some c2], h3 =>
            simp only
            have k1 := h3 c1 (by simp)
            have k2 := h3 c2 (by simp)
            by_cases h5 : ptype = "xyz" ∨ ptype = "rdd" ∨ ptype = "rdz"
            · refine Or.inl ⟨⟨h5, c, c1, c2, rfl, k1.1.symm, k2.1.symm, h1, k1.2.trans h1, k2.2.trans h1⟩, ?_⟩
              rcases h5 with rfl | rfl | rfl <;> exact ⟨_, rfl⟩
            · refine Or.inr ⟨fun h => h5 h.1, .unknownType, ?_⟩
              push Not at h5
              simp only [fromColumns]
              rw [if_neg h5.2.1, if_neg h5.2.2, if_neg h5.1]
          | [], _ | [none], _ | [some _], _ | none :: _ :: [], _ | some _ :: none :: [], _ | none :: _ :: _ :: _, _
          | some _ :: none :: _ :: _, _ | some _ :: some _ :: _ :: _, _ =>
            refine Or.inr ⟨?_, .count, rfl⟩
            rintro ⟨-, a, b, d, e, -⟩
            simp at e
      · rw [if_pos h1]
        refine Or.inr ⟨?_, .notFloat, rfl⟩
        rintro ⟨-, a, b, d, e, -, -, e3, -⟩
        simp only [List.cons.injEq, Option.some.injEq] at e
        rw [e.1] at h1
        exact h1 e3

/-- Same type as the first, or mixed. -/
theorem join_all (k : Kind) (l : List Kind) : l.foldl Kind.join k = .float ↔ k = .float ∨ .float ∈ l := by
  induction l generalizing k with
  | nil => simp
  | cons a l ih =>
    rw [List.foldl_cons, ih]
    cases k <;> cases a <;> simp [Kind.join]

/-- Type "pos" with a list of arrays instead of an array: each of them is the position of an object. Arrays of different sizes raise
`ValueError` on their rank only; otherwise three coordinates are needed, and one array at least of floating point numbers unless a type
is asked for. -/
theorem C50_list (dtype : Option Kind) (dist : ℝ → ℝ) (cs : List (Kind × List ℝ)) :
    ((∃ c ∈ cs, ∃ c' ∈ cs, c.2.length ≠ c'.2.length) →
      formatLocal "pos" dtype dist (.list (cs.map some)) = .error .valueError) ∧
    ((∀ c ∈ cs, ∀ c' ∈ cs, c.2.length = c'.2.length) →
      ((cs ≠ [] ∧ (∀ c ∈ cs, c.2.length = 3) ∧ (dtype = some .float ∨ dtype = none ∧ ∃ c ∈ cs, c.1 = .float)) →
        ∃ rows, formatLocal "pos" dtype dist (.list (cs.map some)) = .ok (.ok rows) ∧
          List.Forall₂ (fun (c : Kind × List ℝ) p => c.2 = [p.x, p.y, p.z]) cs rows) ∧
      (¬ (cs ≠ [] ∧ (∀ c ∈ cs, c.2.length = 3) ∧ (dtype = some .float ∨ dtype = none ∧ ∃ c ∈ cs, c.1 = .float)) →
        ∃ m, formatLocal "pos" dtype dist (.list (cs.map some)) = .ok (.error m))) := by
  cases cs with
  | nil =>
    refine ⟨by simp, fun _ => ⟨by simp, fun _ => ?_⟩⟩
    simp only [formatLocal, if_true, List.map_nil, Positions.asArray, bind, Except.bind]
    by_cases h : dtype.getD .float = .float
    · exact ⟨.width, by simp [h]⟩
    · exact ⟨.notFloat, by simp [h]⟩
  | cons c l =>
    have hm : ∀ f : Option (Kind × List ℝ) → Except Err (Kind × List ℝ),
        (∀ c', f (some c') = if c'.2.length = c.2.length then .ok c' else .error .valueError) → ∀ l : List (Kind × List ℝ),
        ((∀ c' ∈ l, c'.2.length = c.2.length) → (l.map some).mapM f = .ok l) ∧
        ((∃ c' ∈ l, c'.2.length ≠ c.2.length) → (l.map some).mapM f = .error .valueError) := by
      intro f hf l
      induction l with
      | nil => simp [pure, Except.pure]
      | cons a l ih =>
        rw [List.map_cons, List.mapM_cons, hf]
        by_cases ha : a.2.length = c.2.length
        · simp only [if_pos ha, bind, Except.bind]
          constructor
          · intro h
            rw [ih.1 fun c' hc' => h c' (List.mem_cons_of_mem _ hc')]
            rfl
          · rintro ⟨c', hc', hne⟩
            rcases List.mem_cons.1 hc' with rfl | hc'
            · exact absurd ha hne
            · rw [ih.2 ⟨c', hc', hne⟩]
        · simp only [if_neg ha, bind, Except.bind]
          exact ⟨fun h => absurd (h a List.mem_cons_self) ha, fun _ => trivial⟩
    constructor
    · rintro ⟨a, ha, b, hb, hab⟩
      have : ∃ c' ∈ l, c'.2.length ≠ c.2.length := by
        by_contra hcon
        push Not at hcon
        have hall : ∀ x ∈ c :: l, x.2.length = c.2.length := by
          intro x hx
          rcases List.mem_cons.1 hx with rfl | hx
          · rfl
          · exact hcon x hx
        exact hab ((hall a ha).trans (hall b hb).symm)
      simp only [formatLocal, if_true, List.map_cons, Positions.asArray]
      rw [(hm _ (fun _ => rfl) l).2 this]
      rfl
    · intro hall
      have hs : ∀ c' ∈ l, c'.2.length = c.2.length := fun c' hc' => hall c' (List.mem_cons_of_mem _ hc') c List.mem_cons_self
      have hk : dtype.getD ((l.map (·.1)).foldl Kind.join c.1) = .float ↔
          (dtype = some .float ∨ dtype = none ∧ ∃ c' ∈ c :: l, c'.1 = .float) := by
        cases dtype with
        | some k => simp
        | none =>
          simp only [Option.getD_none, join_all, List.mem_map, List.mem_cons, exists_eq_or_imp]
          simp
      simp only [formatLocal, if_true, List.map_cons, Positions.asArray]
      rw [(hm _ (fun _ => rfl) l).1 hs]
      simp only [bind, Except.bind]
      by_cases h1 : dtype.getD ((l.map (·.1)).foldl Kind.join c.1) = .float
      · rw [if_neg (not_not.2 h1)]
        by_cases h2 : c.2.length = 3
        · rw [if_neg (not_not.2 h2)]
          refine ⟨fun _ => ⟨_, rfl, ?_⟩, fun h => absurd ⟨by simp, ?_, hk.1 h1⟩ h⟩
          · have : ∀ l : List (Kind × List ℝ), (∀ c' ∈ l, c'.2.length = 3) →
                List.Forall₂ (fun (c : Kind × List ℝ) p => c.2 = [p.x, p.y, p.z]) l ((l.map (·.2)).map toV3) := by
              intro l
              induction l with
              | nil => exact fun _ => .nil
              | cons a l ih =>
                intro h
                refine .cons ?_ (ih fun c' hc' => h c' (List.mem_cons_of_mem _ hc'))
                have ha := h a List.mem_cons_self
                match e : a.2, ha with
                | [x, y, z], _ => simp [toV3, e]
            refine this (c :: l) fun c' hc' => ?_
            rcases List.mem_cons.1 hc' with rfl | hc'
            · exact h2
            · rw [hs c' hc', h2]
          · intro c' hc'
            rcases List.mem_cons.1 hc' with rfl | hc'
            · exact h2
            · rw [hs c' hc', h2]
        · rw [if_pos h2]
          exact ⟨fun h => absurd (h.2.1 c List.mem_cons_self) h2, fun _ => ⟨.width, rfl⟩⟩
      · rw [if_pos h1]
        exact ⟨fun h => absurd (hk.2 h.2.2) h1, fun _ => ⟨.notFloat, rfl⟩⟩

theorem firstMsg_some {m : Msg} {es : List (Except Msg Formatted)} (h : Except.error m ∈ es) : ∃ m', firstMsg es = some m' := by
  induction es with
  | nil => simp at h
  | cons a l ih =>
    cases a with
    | error m' => exact ⟨m', rfl⟩
    | ok f =>
      rcases List.mem_cons.mp h with h | h
      · simp at h
      · exact ih h

/-- Invalid positions are rejected on all ranks or on none: if all the arguments that are used are valid then all ranks go on, and
if one of them is invalid then all ranks raise `ValueError`. Missing for the full claim: arguments with some coordinates `None`, or
lists of arrays for type "pos" (see `C50_list` for these); see `C50_collective_violated`. -/
theorem C50_collective_partial (ptype : String) (dtype : Option Kind) (dist : ℝ → ℝ) (root : Option ℕ) (args : List Positions)
    (hc : ∀ i p, args[i]? = some p → Used root i → Complete ptype p)
    (hroot : ∀ r, root = some r → ∃ p, args[r]? = some p ∧ (p = .none ∨ ¬ Absent ptype p)) :
    ((∀ i p, args[i]? = some p → Used root i → ValidArg ptype dtype p) →
      ∃ l : List Formatted, l.length = args.length ∧ formatPositions ptype dtype dist root args = l.map .done) ∧
    ((∃ i p, args[i]? = some p ∧ Used root i ∧ ¬ ValidArg ptype dtype p) →
      formatPositions ptype dtype dist root args = args.map fun _ => .raised .valueError) := by
  have hrank : ∀ i p, args[i]? = some p →
      (Used root i → ValidArg ptype dtype p) ∧ (∃ f, formatRank ptype dtype dist root i p = .ok (.ok f) ∧
        (p = .none → f = .raw .none) ∧ (Used root i → ¬ Absent ptype p → ∃ l, f = .rows l)) ∨
      (Used root i ∧ ¬ ValidArg ptype dtype p) ∧ ∃ m, formatRank ptype dtype dist root i p = .ok (.error m) := by
    intro i p hp
    unfold formatRank
    by_cases hu : Used root i
    · by_cases hg : Absent ptype p
      · refine Or.inl ⟨fun _ => Or.inl hg, .raw p, ?_, fun h => by rw [h], fun _ h => absurd hg h⟩
        rw [if_neg]
        rintro ⟨-, h⟩
        exact (given_iff _ _).mp h hg
      · rw [if_pos ⟨hu, (given_iff _ _).mpr hg⟩]
        rcases formatLocal_spec (dtype := dtype) dist (hc i p hp hu) hg with ⟨h1, l, h2⟩ | ⟨h1, m, h2⟩
        · refine Or.inl ⟨fun _ => h1, .rows l, by rw [h2]; rfl, ?_, fun _ _ => ⟨l, rfl⟩⟩
          intro h; subst h; exact absurd trivial hg
        · exact Or.inr ⟨⟨hu, h1⟩, m, by rw [h2]; rfl⟩
    · refine Or.inl ⟨fun h => absurd h hu, .raw p, ?_, fun h => by rw [h], fun h => absurd h hu⟩
      rw [if_neg (fun h => hu h.1)]
  have hall : ∀ i : Fin args.length, ∃ e, formatRank ptype dtype dist root i args[i] = .ok e ∧
      ((∃ m, e = .error m) ↔ Used root i ∧ ¬ ValidArg ptype dtype args[i]) ∧
      (∀ f, e = .ok f → (args[i] = .none → f = .raw .none) ∧ (Used root i → ¬ Absent ptype args[i] → ∃ l, f = .rows l)) := by
    intro i
    rcases hrank i args[i] (by simp) with ⟨h1, f, h2, h3, h4⟩ | ⟨h1, m, h2⟩
    · refine ⟨_, h2, ⟨fun ⟨m, hm⟩ => by simp at hm, fun h => absurd (h1 h.1) h.2⟩, fun f' hf => ?_⟩
      cases hf
      exact ⟨h3, h4⟩
    · exact ⟨_, h2, ⟨fun _ => h1, fun _ => ⟨m, rfl⟩⟩, fun f hf => by simp at hf⟩
  choose e he1 he2 he3 using hall
  set es := List.ofFn e with hes
  have hmap : (args.mapIdx fun rank p => Res.locally (formatRank ptype dtype dist root rank) (.done p)) = es.map Res.done := by
    apply List.ext_getElem (by simp [hes])
    intro i h1 h2
    have hi : i < args.length := by simpa using h1
    simp only [List.getElem_mapIdx, List.getElem_map, Res.locally, hes, List.getElem_ofFn]
    have := he1 ⟨i, hi⟩
    simp only [Fin.getElem_fin] at this
    rw [this]
  have hfp : formatPositions ptype dtype dist root args = (match firstMsg es with
    | some _ => es.map fun _ => .raised .valueError
    | none => scatterFormatted root (oks es)) := by
    unfold formatPositions
    rw [hmap, collective_done']
    rfl
  constructor
  · intro hv
    have hok : ∀ i : Fin args.length, ∃ f, e i = .ok f := by
      intro i
      cases h : e i with
      | ok f => exact ⟨f, rfl⟩
      | error m =>
        obtain ⟨h1, h2⟩ := (he2 i).mp ⟨m, h⟩
        exact absurd (hv i args[i] (by simp) h1) h2
    choose f hf using hok
    have h1 : es = (List.ofFn f).map Except.ok := by
      rw [hes, List.map_ofFn]
      congr 1
      funext i
      exact hf i
    rw [hfp, h1, firstMsg_ok, oks_ok]
    simp only
    unfold scatterFormatted
    cases hr : root with
    | none => exact ⟨_, by simp, rfl⟩
    | some r =>
      obtain ⟨p, hp, hp'⟩ := hroot r hr
      obtain ⟨hlt, hp⟩ := List.getElem?_eq_some_iff.mp hp
      have hget : (List.ofFn f)[r]? = some (f ⟨r, hlt⟩) := by
        rw [List.getElem?_eq_getElem (by simpa using hlt)]
        simp
      have h3 := he3 ⟨r, hlt⟩ _ (hf ⟨r, hlt⟩)
      simp only [Fin.getElem_fin, hp] at h3
      simp only [hget]
      rcases hp' with h | h
      · rw [h3.1 h]
        exact ⟨_, by simp, rfl⟩
      · obtain ⟨l, hl⟩ := h3.2 (Or.inr hr) h
        rw [hl]
        refine ⟨(splitSizes (localSizes l.length (List.ofFn f).length) l).map .rows, ?_, by simp [Function.comp_def]⟩
        simp [length_splitSizes, length_localSizes]
  · rintro ⟨i, p, hp, hu, hv⟩
    obtain ⟨hlt, hp⟩ := List.getElem?_eq_some_iff.mp hp
    obtain ⟨m, hm⟩ := (he2 ⟨i, hlt⟩).mpr ⟨hu, by simpa [hp] using hv⟩
    have hmem : Except.error m ∈ es := by
      rw [hes, ← hm]
      exact (List.mem_ofFn).mpr ⟨⟨i, hlt⟩, rfl⟩
    obtain ⟨m', hm'⟩ := firstMsg_some hmem
    rw [hfp, hm']
    simp only
    rw [List.map_const', List.map_const']
    simp [hes]

/-- Three arrays, one of which has another size, on the second of two ranks. -/
example : let args : List Positions := [argOf "xyz" [⟨1, 2, 3⟩], .list [some (.float, [1]), some (.float, []), some (.float, [1])]]
    (∀ i p, args[i]? = some p → Used none i → Complete "xyz" p) ∧ ∃ i p, args[i]? = some p ∧ Used none i ∧ ¬ ValidArg "xyz" none p := by
  refine ⟨fun i p hp _ => ?_, 1, _, rfl, Or.inl rfl, ?_⟩
  · match i with
    | 0 => cases hp; exact ⟨by decide, Or.inr (by simp)⟩
    | 1 => cases hp; exact ⟨by decide, Or.inr (by simp)⟩
    | n + 2 => simp at hp
  · rintro (⟨-, h⟩ | ⟨h, -⟩ | ⟨-, a, b, c, h, h1, -⟩)
    · simp at h
    · simp at h
    · simp only [Positions.asList, List.cons.injEq, Option.some.injEq, and_true] at h
      obtain ⟨rfl, rfl, rfl⟩ := h
      simp at h1

/-- If one rank leaves out one coordinate (`None`), it raises `TypeError` on its own and the others wait for ever. -/
theorem C50_collective_violated : ∃ args : List Positions, ¬ ValidArg "xyz" none (args.getD 1 .none) ∧
    ∃ l, formatPositions "xyz" none id none args = l ∧ l = [.blocked, .raised .typeError] := by
  refine ⟨[argOf "xyz" [⟨1, 2, 3⟩], .list [some (.float, [1]), none, some (.float, [1])]], ?_, _, rfl, ?_⟩
  · rintro (⟨-, h⟩ | ⟨h, -⟩ | ⟨-, a, b, c, h, -⟩)
    · simp at h
    · simp at h
    · simp [Positions.asList] at h
  · rfl

/-- Weights given on some ranks only are rejected on all ranks; otherwise all ranks get theirs. -/
theorem C50_weights (w : List (Option (List ℝ))) :
    formatWeights none w =
      if (∃ x ∈ w, x = none) ∧ ∃ x ∈ w, x ≠ none then w.map fun _ => .raised .valueError else w.map .done := by
  unfold formatWeights
  have : (w.any (·.isNone) ∧ ¬ w.all (·.isNone)) ↔ ((∃ x ∈ w, x = none) ∧ ∃ x ∈ w, x ≠ none) := by
    simp
  simp only [this]

/-- Weights given on one rank are shared like positions are, and come back to that rank in order. -/
theorem C50_weights_root (w : List (Option (List ℝ))) (root : ℕ) (l : List ℝ) (h : w[root]? = some (some l)) :
    ∃ blocks : List (List ℝ), formatWeights (some root) w = blocks.map (fun b => .done (some b)) ∧ blocks.length = w.length ∧
      blocks.map List.length = localSizes l.length w.length ∧
      formatOutputWeights (some root) blocks = (List.range w.length).map fun i => if i = root then some l else none := by
  have hN : 0 < w.length := by
    obtain ⟨hlt, -⟩ := List.getElem?_eq_some_iff.mp h
    omega
  have hs := sum_localSizes l.length w.length hN
  refine ⟨splitSizes (localSizes l.length w.length) l, by simp [formatWeights, h], by rw [length_splitSizes, length_localSizes],
    lengths_splitSizes _ _ hs, ?_⟩
  unfold formatOutputWeights gather
  simp only [flatten_splitSizes _ _ hs, length_splitSizes, length_localSizes]

end Verif.Props
