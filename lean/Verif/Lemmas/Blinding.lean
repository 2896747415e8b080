import Verif.Spec.Blinding
import Verif.Props.Sky
import Verif.Props.Rsd

/-!
# Facts about the blinding model
-/

namespace Verif.Lemmas.Blinding

open Verif Verif.Model Verif.Model.Blinding Verif.Spec.Blinding Verif.Props

theorem get_done {α β : Type*} (l : List α) (g : α → β) : (l.map fun a => Res.done (g a)).mapM Res.get? = some (l.map g) := by
  induction l with
  | nil => rfl
  | cons a l ih => rw [List.map_cons, List.mapM_cons, ih]; rfl

theorem collective_done {α β γ : Type*} (l : List α) (g : α → β) (f : List β → List (Res γ)) :
    collective (l.map fun a => Res.done (g a)) f = f (l.map g) := by
  unfold collective
  rw [get_done]

theorem collective_done' {β γ : Type*} (l : List β) (f : List β → List (Res γ)) : collective (l.map Res.done) f = f l := by
  have := collective_done l id f
  simpa using this

/-- Cuts end where the whole ends. -/
theorem flatten_splitSizes {α : Type*} (sizes : List ℕ) (l : List α) (h : sizes.sum = l.length) :
    (splitSizes sizes l).flatten = l := by
  induction sizes generalizing l with
  | nil =>
    have : l = [] := List.length_eq_zero_iff.mp (by simpa using h.symm)
    subst this
    rfl
  | cons s sizes ih =>
    rw [splitSizes, List.flatten_cons, ih, List.take_append_drop]
    rw [List.length_drop, ← h, List.sum_cons]
    omega

theorem length_splitSizes {α : Type*} (sizes : List ℕ) (l : List α) : (splitSizes sizes l).length = sizes.length := by
  induction sizes generalizing l with
  | nil => rfl
  | cons s sizes ih => rw [splitSizes, List.length_cons, ih, List.length_cons]

theorem lengths_splitSizes {α : Type*} (sizes : List ℕ) (l : List α) (h : sizes.sum = l.length) :
    (splitSizes sizes l).map List.length = sizes := by
  induction sizes generalizing l with
  | nil => rfl
  | cons s sizes ih =>
    rw [List.sum_cons] at h
    rw [splitSizes, List.map_cons, ih]
    · rw [List.length_take, min_eq_left (by omega)]
    · rw [List.length_drop]; omega

/-- The sizes of ranks add up. -/
theorem sum_localSizes (n N : ℕ) (hN : 0 < N) : (localSizes n N).sum = n := by
  have key : ∀ m, ((List.range m).map fun r => (r + 1) * n / N - r * n / N).sum = m * n / N := by
    intro m
    induction m with
    | zero => simp
    | succ m ih =>
      rw [List.range_succ, List.map_append, List.sum_append, ih]
      simp only [List.map_cons, List.map_nil, List.sum_singleton]
      have : m * n / N ≤ (m + 1) * n / N := Nat.div_le_div_right (by nlinarith)
      omega
  unfold localSizes
  rw [key, Nat.mul_div_cancel_left _ hN]

theorem length_localSizes (n N : ℕ) : (localSizes n N).length = N := by simp [localSizes]

/-- Zipped columns are the rows. -/
theorem zip_columns {β : Type*} (rows : List (V3 ℝ)) (g : ℝ → ℝ → ℝ → β) :
    List.zipWith (fun ab c => g ab.1 ab.2 c) ((rows.map (·.x)).zip (rows.map (·.y))) (rows.map (·.z)) =
      rows.map fun r => g r.x r.y r.z := by
  induction rows with
  | nil => rfl
  | cons r rows ih => simp only [List.map_cons, List.zip_cons_cons, List.zipWith_cons_cons, ih]

theorem map_toV3 (rows : List (V3 ℝ)) : (rows.map V3.toList).map toV3 = rows := by
  rw [List.map_map]
  exact (List.map_congr_left fun _ _ => rfl).trans (List.map_id _)

theorem skyToCartesian_float (r d x : ℝ) : skyToCartesian (.float x) (.float r) (.float d) = pointOf r d x := by
  simp only [skyToCartesian, Num.kind, Kind.join, store, Num.val, conversion, pointOf]
  rfl

/-- Formatting rows of any known type. -/
theorem formatLocal_argOf {ptype : String} (h : Known ptype) (dist : ℝ → ℝ) (rows : List (V3 ℝ)) :
    formatLocal ptype none dist (argOf ptype rows) = .ok (.ok (rows.map (cart ptype dist))) := by
  rcases h with rfl | rfl | rfl | rfl
  · simp only [formatLocal, argOf, if_true, Positions.asArray]
    have : rows.map (cart "pos" dist) = (rows.map V3.toList).map toV3 := by
      rw [map_toV3]
      exact (List.map_congr_left fun _ _ => by simp [cart]).trans (List.map_id _)
    rw [this]
    rfl
  all_goals
    simp only [formatLocal, argOf, if_neg (by decide : ¬ ("xyz" = "pos")), if_neg (by decide : ¬ ("rdd" = "pos")),
      if_neg (by decide : ¬ ("rdz" = "pos")), Positions.asList, checkColumns, List.length_map, ne_eq, not_true, if_false,
      Option.getD_none]
    refine congrArg Except.ok ?_
    simp only [fromColumns, if_neg (by decide : ¬ ("xyz" = "rdd")), if_neg (by decide : ¬ ("xyz" = "rdz")),
      if_neg (by decide : ¬ ("rdz" = "rdd")), if_true]
    refine congrArg Except.ok ?_
  · rw [zip_columns rows fun a b c => (⟨a, b, c⟩ : V3 ℝ)]
    exact List.map_congr_left fun _ _ => by simp [cart]
  · rw [zip_columns rows fun a b c => skyToCartesian (.float c) (.float a) (.float b)]
    exact List.map_congr_left fun _ _ => by rw [skyToCartesian_float]; simp [cart]
  · rw [zip_columns rows fun a b c => skyToCartesian (.float (dist c)) (.float a) (.float b)]
    exact List.map_congr_left fun _ _ => by rw [skyToCartesian_float]; simp [cart]

theorem given_argOf (ptype : String) (rows : List (V3 ℝ)) : (argOf ptype rows).given ptype = true := by
  unfold argOf
  split_ifs with h
  · subst h; rfl
  · simp [Positions.given, Positions.asList]

theorem firstMsg_ok (l : List Formatted) : firstMsg (l.map Except.ok) = none := by
  induction l with
  | nil => rfl
  | cons a l ih => rw [List.map_cons, firstMsg, ih]

theorem oks_ok (l : List Formatted) : oks (l.map Except.ok) = l := by
  induction l with
  | nil => rfl
  | cons a l ih => rw [List.map_cons, oks, ih]

/-- Formatting when all ranks hold rows. -/
theorem formatPositions_scattered {ptype : String} (h : Known ptype) (dist : ℝ → ℝ) (ranks : List (List (V3 ℝ))) :
    formatPositions ptype none dist none (ranks.map (argOf ptype)) =
      ranks.map fun rows => .done (.rows (rows.map (cart ptype dist))) := by
  unfold formatPositions
  have h1 : (List.mapIdx (fun rank p => Res.locally (formatRank ptype none dist none rank) (.done p)) (ranks.map (argOf ptype))) =
      ranks.map fun rows => .done (Except.ok (Formatted.rows (rows.map (cart ptype dist)))) := by
    apply List.ext_getElem (by simp)
    intro i h1 h2
    simp only [List.getElem_mapIdx, List.getElem_map, Res.locally, formatRank, given_argOf, formatLocal_argOf h, true_or, and_self,
      if_true]
    rfl
  rw [h1, collective_done]
  have h2 : ranks.map (fun rows => Except.ok (ε := Msg) (Formatted.rows (rows.map (cart ptype dist)))) =
      (ranks.map fun rows => Formatted.rows (rows.map (cart ptype dist))).map Except.ok := by simp
  rw [h2, firstMsg_ok, oks_ok]
  simp [scatterFormatted]

/-- Formatting when one rank holds all rows: other ranks may pass anything. -/
theorem formatPositions_root {ptype : String} (h : Known ptype) (dist : ℝ → ℝ) (args : List Positions) (root : ℕ)
    (rows : List (V3 ℝ)) (hr : args[root]? = some (argOf ptype rows)) :
    formatPositions ptype none dist (some root) args =
      (splitSizes (localSizes rows.length args.length) (rows.map (cart ptype dist))).map fun b => .done (.rows b) := by
  obtain ⟨hlt, hr⟩ := List.getElem?_eq_some_iff.mp hr
  unfold formatPositions
  set l : List Formatted := args.mapIdx fun i p => if i = root then .rows (rows.map (cart ptype dist)) else .raw p with hl
  have h1 : (List.mapIdx (fun rank p => Res.locally (formatRank ptype none dist (some root) rank) (.done p)) args) =
      (l.map Except.ok).map Res.done := by
    apply List.ext_getElem (by simp [hl])
    intro i h1 h2
    simp only [hl, List.getElem_mapIdx, List.getElem_map, Res.locally, formatRank]
    by_cases hi : i = root
    · subst hi
      rw [hr, if_pos ⟨Or.inr rfl, given_argOf _ _⟩, formatLocal_argOf h, if_pos rfl]
      rfl
    · rw [if_neg, if_neg hi]
      rintro ⟨h' | h', -⟩
      · cases h'
      · exact hi (Option.some.inj h').symm
  rw [h1, collective_done', firstMsg_ok, oks_ok]
  have hlr : l[root]? = some (.rows (rows.map (cart ptype dist))) := by
    rw [hl, List.getElem?_mapIdx, List.getElem?_eq_getElem hlt]
    simp
  simp only [scatterFormatted, hlr, List.length_map]
  rw [show l.length = args.length by simp [hl]]

theorem locally_get_done (b : List (V3 ℝ)) : Res.locally Formatted.get (.done (.rows b)) = .done b := rfl

/-- Output of a rank of rows. -/
theorem mapM_columns {g : V3 ℝ → Except Err (V3 ℝ)} {f : V3 ℝ → V3 ℝ} (l : List (V3 ℝ)) (h : ∀ r ∈ l, g r = .ok (f r)) :
    l.mapM g = .ok (l.map f) := mapM_ok g f l h

/-- RA, Dec and distance of a point. -/
theorem skyRow_pointOf {r : V3 ℝ} {d : ℝ} (h0 : 0 ≤ r.x) (h1 : r.x < 360) (h2 : -90 < r.y) (h3 : r.y < 90) (hd : 0 < d) :
    skyRow (pointOf r.x r.y d) = .ok ⟨r.x, r.y, d⟩ := by
  have := C22_from_sky_exact_partial (dist := .float d) (ra := .float r.x) (dec := .float r.y) (by simp [Num.kind]) true hd
    (by simp only [turn, if_true, Num.val]; linarith) (by simp only [turn, if_true, Num.val]; linarith) h0
    (by simp only [turn, if_true, Num.val]; exact h1)
  obtain ⟨a, b, c⟩ := this
  rw [skyToCartesian_float] at a b c
  unfold skyRow
  rw [c]
  simp only [a, b, Num.val]

/-- A Cartesian position `p` is returned to the user as row `r`. -/
def Back (ptype : String) (d2z : ℝ → Except Err ℝ) (p r : V3 ℝ) : Prop :=
  if ptype = "rdz" then rdzRow d2z p = .ok r else if ptype = "rdd" then skyRow p = .ok r else p = r

theorem outputRows_ok {ptype : String} (h : Known ptype) (d2z : ℝ → Except Err ℝ) {α : Type*} (l : List α) (P G : α → V3 ℝ)
    (hb : ∀ a ∈ l, Back ptype d2z (P a) (G a)) : outputRows ptype d2z (l.map P) = .ok (outOf ptype (l.map G)) := by
  have key : ∀ g : V3 ℝ → Except Err (V3 ℝ), (∀ a ∈ l, g (P a) = .ok (G a)) → (l.map P).mapM g = .ok (l.map G) := by
    intro g hg
    rw [List.mapM_map]
    exact mapM_ok _ _ _ hg
  have same : (∀ a ∈ l, P a = G a) → l.map P = l.map G := fun hg => List.map_congr_left hg
  rcases h with rfl | rfl | rfl | rfl
  · simp only [Back, if_neg (by decide : ¬ ("pos" = "rdz")), if_neg (by decide : ¬ ("pos" = "rdd"))] at hb
    simp only [outputRows, if_neg (by decide : ¬ ("pos" = "rdz")), if_neg (by decide : ¬ ("pos" = "rdd")),
      if_neg (by decide : ¬ ("pos" = "xyz")), outOf, if_true, same hb]
  · simp only [Back, if_neg (by decide : ¬ ("xyz" = "rdz")), if_neg (by decide : ¬ ("xyz" = "rdd"))] at hb
    simp only [outputRows, if_neg (by decide : ¬ ("xyz" = "rdz")), if_neg (by decide : ¬ ("xyz" = "rdd")),
      if_neg (by decide : ¬ ("xyz" = "pos")), outOf, if_true, same hb, columnsOf]
  · simp only [Back, if_neg (by decide : ¬ ("rdd" = "rdz")), if_true] at hb
    simp only [outputRows, if_neg (by decide : ¬ ("rdd" = "rdz")), if_neg (by decide : ¬ ("rdd" = "pos")), outOf, if_true,
      key _ hb, columnsOf]
    rfl
  · simp only [Back, if_true] at hb
    simp only [outputRows, if_neg (by decide : ¬ ("rdz" = "pos")), outOf, if_true, key _ hb, columnsOf]
    rfl

/-- Output when all ranks hold rows. -/
theorem output_scattered {ptype : String} (h : Known ptype) (d2z : ℝ → Except Err ℝ) (ranks : List (List (V3 ℝ)))
    (P G : V3 ℝ → V3 ℝ) (hb : ∀ rows ∈ ranks, ∀ a ∈ rows, Back ptype d2z (P a) (G a)) :
    formatOutputPositions ptype d2z none (ranks.map fun rows => .done (rows.map P)) =
      ranks.map fun rows => .done (outOf ptype (rows.map G)) := by
  unfold formatOutputPositions
  simp only [List.map_map]
  refine List.map_congr_left fun rows hr => ?_
  simp only [Function.comp, Res.locally]
  rw [outputRows_ok h d2z rows P G (hb rows hr)]

/-- Output when one rank asked for all rows. -/
theorem output_root {ptype : String} (h : Known ptype) (d2z : ℝ → Except Err ℝ) (blocks : List (List (V3 ℝ))) (root : ℕ)
    (rows : List (V3 ℝ)) (P G : V3 ℝ → V3 ℝ) (hf : blocks.flatten = rows.map P) (hb : ∀ a ∈ rows, Back ptype d2z (P a) (G a)) :
    formatOutputPositions ptype d2z (some root) (blocks.map Res.done) = onRoot blocks.length root (outOf ptype (rows.map G)) := by
  unfold formatOutputPositions
  simp only [collective_done']
  unfold gather onRoot
  rw [List.map_map]
  refine List.map_congr_left fun i _ => ?_
  simp only [Function.comp]
  by_cases hi : i = root
  · rw [if_pos hi, if_pos hi]
    simp only [Res.locally]
    rw [hf, outputRows_ok h d2z rows P G hb]
  · rw [if_neg hi, if_neg hi]

/-- Scattered rows are the rows. -/
theorem flatten_scatter (rows : List (V3 ℝ)) (f : V3 ℝ → V3 ℝ) (N : ℕ) (hN : 0 < N) :
    (splitSizes (localSizes rows.length N) (rows.map f)).flatten = rows.map f :=
  flatten_splitSizes _ _ (by rw [sum_localSizes _ _ hN, List.length_map])

theorem length_scatter (rows : List (V3 ℝ)) (f : V3 ℝ → V3 ℝ) (N : ℕ) :
    (splitSizes (localSizes rows.length N) (rows.map f)).length = N := by
  rw [length_splitSizes, length_localSizes]

end Verif.Lemmas.Blinding
