import Verif.Props.Bricks
import Verif.Props.FiberWitness

/-!
# Brick quantities: a case that meets the hypotheses, and cases where the property fails (C55)
-/

namespace Verif.Props

open Verif Verif.Model Verif.Model.Bricks Verif.Spec.Bricks Verif.Lemmas.Bricks Verif.Lemmas.Fiber Verif.Model.Fiber Bricks

theorem lower_eq {s t : String} (h : s.toList.map Char.toLower = t.toList) : s.toLower = t := by
  rw [← String.toList_inj, String.toLower, String.toList_map, h]

/-- An image of 2 by 2 pixels. -/
noncomputable def demoImage : Image :=
  { dtype := .float, pixel := fun ra dec => (ra - 15, dec - 39), height := 2, width := 2, value := fun y x => .num (y + x / 2) }

open Classical in
/-- Two bricks, the second with an image. -/
noncomputable def demoSurvey : Survey :=
  { brickname := fun ra _ => if ra < 10 then "a" else "b"
    brickid := fun ra _ => if ra < 10 then 1 else 2
    centre := fun ra _ => if ra < 10 then (5, 0) else (15, 40)
    file := fun path => if path = "north/b" then some demoImage else none
    digits := fun _ => ""
    parse := fun _ => none }

theorem demoSurvey_ok : Spec.Bricks.SurveyOk demoSurvey where
  name := by
    intro ra dec
    simp only [demoSurvey]
    split_ifs <;> decide
  centre := by
    intro ra dec ra' dec' h
    simp only [demoSurvey] at h ⊢
    split_ifs at h ⊢ <;> simp_all
  image := by
    intro path img h y x
    simp only [demoSurvey] at h
    split_ifs at h
    rw [← Option.some.inj h]
    exact .float _

/-- `'{region}/{brickname}'`. -/
def demoPath (region brickname : String) : Except Err String := .ok (region ++ "/" ++ brickname)

/-- Name of the brick, survey, and mask with a type. -/
def demoColumns : List Column := [.plain "BRICKNAME", .plain "photsys", .file "mask" (some demoPath) (some .int) (.int 7) false]

/-- No callable. -/
def demoAns : Callable → Answer := fun _ => ⟨fun _ _ => [], fun _ _ _ _ _ => .null⟩

theorem demo_b {o : Object} (h : ¬ o.ra < 10) : brick demoSurvey o = "b" ∧ North demoSurvey o ∧ region demoSurvey o = "north" := by
  have h1 : North demoSurvey o := by simp only [North, demoSurvey, if_neg h]; norm_num
  exact ⟨by simp only [brick, demoSurvey, if_neg h], h1, (region_north _ _).2 h1⟩

theorem demo_a {o : Object} (h : o.ra < 10) : brick demoSurvey o = "a" ∧ ¬ North demoSurvey o ∧ region demoSurvey o = "south" := by
  have h1 : ¬ North demoSurvey o := by simp only [North, demoSurvey, if_pos h]; norm_num
  exact ⟨by simp only [brick, demoSurvey, if_pos h], h1, by unfold region; exact if_neg h1⟩

/-- The case meets the hypotheses of `C55_partial`: 3 objects on 2 ranks, one with its own pixel, others without image. -/
example : Spec.Bricks.SurveyOk demoSurvey ∧ demoColumns ≠ [] ∧ (∀ f kw, .call f kw ∈ demoColumns → Pointwise f (demoAns f)) ∧
    (∀ sub, Csort Row.brickid sub (toFirst Row.brickid sub)) ∧
    GivesAll demoSurvey demoAns demoColumns ⟨15.2, 40.4, 0⟩ [("BRICKNAME", .str 8, .str "b"), ("photsys", .str 1, .str "N"), ("mask", .int, .num 1)] ∧
    ∀ o ∈ (objectsFrom 0 [[(15.2, 40.4), (5, 0)], [(6, 1)]]).flatten, ∃ q, GivesAll demoSurvey demoAns demoColumns o q ∧
      headerOf q = [("BRICKNAME", .str 8), ("photsys", .str 1), ("mask", .int)] := by
  have hb : GivesAll demoSurvey demoAns demoColumns ⟨15.2, 40.4, 0⟩
      [("BRICKNAME", .str 8, .str "b"), ("photsys", .str 1, .str "N"), ("mask", .int, .num 1)] := by
    obtain ⟨h1, h2, h3⟩ := demo_b (o := ⟨15.2, 40.4, 0⟩) (by norm_num)
    refine ⟨_, .cons (.brickname _ (lower_eq (by decide))) (.cons (.north _ (lower_eq (by decide)) h2) (.cons
      (.imageTyped "mask" demoPath "north/b" demoImage 0 1 (.int 7) .int (.num 1) ?_ ?_ ?_ ?_) .nil)), ?_⟩
    · rw [h1, h3]; rfl
    · simp [demoSurvey]
    · refine ⟨by simp [demoImage], by simp [demoImage], ⟨?_, ?_⟩, ⟨?_, ?_⟩⟩ <;> norm_num [demoImage, abs_le]
    · have := Converted.trunc (s := demoSurvey) 1 1 (by simp) (by simp) (by simp)
      simpa [demoImage] using this
    · rw [h1]; rfl
  have ha : ∀ o : Object, o.ra < 10 → ∃ q, GivesAll demoSurvey demoAns demoColumns o q ∧
      headerOf q = [("BRICKNAME", .str 8), ("photsys", .str 1), ("mask", .int)] := by
    intro o ho
    obtain ⟨h1, h2, h3⟩ := demo_a ho
    refine ⟨_, ⟨_, .cons (.brickname _ (lower_eq (by decide))) (.cons (.south _ (lower_eq (by decide)) h2) (.cons
      (.absentTyped "mask" demoPath "south/a" (.int 7) .int (.num 7) ?_ ?_ ?_) .nil)), rfl⟩, rfl⟩
    · rw [h1, h3]; rfl
    · simp [demoSurvey]
    · have := Converted.trunc (s := demoSurvey) 7 7 (by simp) (by simp) (by norm_num)
      simpa [given] using this
  refine ⟨demoSurvey_ok, by simp [demoColumns], ?_, csort_toFirst _, hb, ?_⟩
  · intro f kw h
    simp [demoColumns] at h
  · intro o ho
    simp only [objectsFrom, List.zipIdx_cons, List.zipIdx_nil, List.map_cons, List.map_nil, List.flatten_cons, List.flatten_nil,
      List.length_cons, List.length_nil, List.cons_append, List.nil_append, List.mem_cons, List.not_mem_nil, or_false] at ho
    rcases ho with rfl | rfl | rfl
    · exact ⟨_, hb, rfl⟩
    · exact ha _ (by norm_num)
    · exact ha _ (by norm_num)

/-- A column without type, integer by default. -/
def looseColumns : List Column := [.file "m" (some demoPath) none (.int 0) false]

theorem loose_single (o : Object) (h : ¬ o.ra < 10) (x y : ℕ) (hx : OnPixel demoImage o x y) :
    GivesAll demoSurvey demoAns looseColumns o [("m", .float, .num (y + x / 2))] := by
  obtain ⟨h1, h2, h3⟩ := demo_b h
  refine ⟨_, .cons (.image "m" demoPath "north/b" demoImage x y (.int 0) ?_ ?_ hx) .nil, rfl⟩
  · rw [h1, h3]; rfl
  · simp [demoSurvey]

theorem rint_two {x : ℝ} {n : ℤ} (h1 : (n : ℝ) - 1 / 2 < x) (h2 : x < n + 1 / 2) : rint x = n := by
  unfold rint
  by_cases h : (n : ℝ) ≤ x
  · have : ⌊x⌋ = n := Int.floor_eq_iff.mpr ⟨h, by linarith⟩
    rw [this, if_pos (by linarith)]
  · have : ⌊x⌋ = n - 1 := Int.floor_eq_iff.mpr ⟨by push_cast; linarith, by push_cast; linarith⟩
    rw [this, if_neg (by push_cast; linarith), if_pos (by push_cast; linarith)]
    ring

theorem loose_column_a (rows : List Row) :
    column demoSurvey "a" "south" rows [] (.file "m" (some demoPath) none (.int 0) false) =
      .ok [("m", ⟨.int, List.replicate rows.length (.num 0)⟩)] := by
  have h : demoSurvey.file ("south" ++ "/" ++ "a") = none := by
    simp only [demoSurvey]
    exact if_neg (by decide)
  simp only [column, demoPath, Bind.bind, Except.bind, oneFile, h]
  simp [convert, Default.val, Default.dtype, store, pure, Except.pure, dictSet]

theorem loose_column_b (r : Row) (v : Val) (hv : pixelAt demoImage r = .ok v) :
    column demoSurvey "b" "north" [r] [] (.file "m" (some demoPath) none (.int 0) false) = .ok [("m", ⟨.float, [v]⟩)] := by
  have h : demoSurvey.file ("north" ++ "/" ++ "b") = some demoImage := by
    simp only [demoSurvey]
    exact if_pos (by decide)
  simp only [column, demoPath, Bind.bind, Except.bind, oneFile, h]
  have hd : demoImage.dtype = .float := rfl
  simp [hv, pure, Except.pure, dictSet, List.mapM_cons, Bind.bind, Except.bind, hd]

/-- C55 fails when the type of a quantity depends on the brick, as that of a mask without `dtype` whose default is an integer and
whose images hold floats: an object gets 1 where the value of its pixel is 1.5, because another object lies in a brick without
image. -/
theorem C55_types_violated : Spec.Bricks.SurveyOk demoSurvey ∧ (∀ sub, Csort Row.brickid sub (toFirst Row.brickid sub)) ∧
    GivesAll demoSurvey demoAns looseColumns ⟨5, 0, 0⟩ [("m", .int, .num 0)] ∧
    GivesAll demoSurvey demoAns looseColumns ⟨15.7, 40, 1⟩ [("m", .float, .num 1.5)] ∧
    getBrickPixelQuantities demoSurvey (toFirst Row.brickid) looseColumns [[(5, 0), (15.7, 40)]] =
      .ok [[("m", ⟨.int, [.num 0, .num 1]⟩)]] := by
  refine ⟨demoSurvey_ok, csort_toFirst _, ?_, ?_, ?_⟩
  · obtain ⟨h1, h2, h3⟩ := demo_a (o := ⟨5, 0, 0⟩) (by norm_num)
    have : ([("m", .int, .num 0)] : List (String × Dtype × Val)) = [[("m", (given (.int 0)).1, (given (.int 0)).2)]].flatten := by
      simp [given]
    refine ⟨[[("m", (given (.int 0)).1, (given (.int 0)).2)]], .cons (.absent "m" demoPath "south/a" (.int 0) ?_ ?_) .nil, this⟩
    · rw [h1, h3]; rfl
    · simp [demoSurvey]
  · have := loose_single ⟨15.7, 40, 1⟩ (by norm_num) 1 1 (by
      refine ⟨by simp [demoImage], by simp [demoImage], ⟨?_, ?_⟩, ⟨?_, ?_⟩⟩ <;> norm_num [demoImage, abs_le])
    have e : ((1 : ℕ) : ℝ) + ((1 : ℕ) : ℝ) / 2 = 1.5 := by norm_num
    rw [e] at this
    exact this
  · have hrows : makeRows demoSurvey [[(5, 0), (15.7, 40)]] = [[⟨5, 0, "a", 1, 0⟩, ⟨15.7, 40, "b", 2, 1⟩]] := by
      norm_num [makeRows, cindexFrom, demoSurvey]
    have hsort : toFirst Row.brickid [[(⟨5, 0, "a", 1, 0⟩ : Row), ⟨15.7, 40, "b", 2, 1⟩]] = [[⟨5, 0, "a", 1, 0⟩, ⟨15.7, 40, "b", 2, 1⟩]] := by
      simp only [toFirst, List.flatten_cons, List.flatten_nil, List.append_nil, List.map_nil]
      rw [List.mergeSort_of_pairwise (by simp)]
    have hnames : uniqueNames ["a", "b"] = ["a", "b"] := by
      unfold uniqueNames
      rw [List.mergeSort_of_pairwise (by decide)]
      decide
    have ha : oneBrick demoSurvey looseColumns [⟨5, 0, "a", 1, 0⟩, ⟨15.7, 40, "b", 2, 1⟩] [] "a" =
        .ok [("m", ⟨.int, [.num 0, .uninit]⟩)] := by
      have h1 : takeMask (α := Row) ([(⟨5, 0, "a", 1, 0⟩ : Row), ⟨15.7, 40, "b", 2, 1⟩].map fun r => decide (r.brickname = "a"))
          [⟨5, 0, "a", 1, 0⟩, ⟨15.7, 40, "b", 2, 1⟩] = [⟨5, 0, "a", 1, 0⟩] := rfl
      have h2 : regionOf demoSurvey ⟨5, 0, "a", 1, 0⟩ = "south" := by norm_num [regionOf, demoSurvey]
      have h3 := loose_column_a [⟨5, 0, "a", 1, 0⟩]
      unfold oneBrick
      simp only [h1, h2]
      simp only [looseColumns, List.foldlM_cons, List.foldlM_nil, h3, Bind.bind, Except.bind, pure, Except.pure]
      simp [writeColumn, writeMask, Bind.bind, Except.bind, pure, Except.pure, convert, store, putMask, dictSet]
    have hb : oneBrick demoSurvey looseColumns [⟨5, 0, "a", 1, 0⟩, ⟨15.7, 40, "b", 2, 1⟩] [("m", ⟨.int, [.num 0, .uninit]⟩)] "b" =
        .ok [("m", ⟨.int, [.num 0, .num 1]⟩)] := by
      have h1 : takeMask (α := Row) ([(⟨5, 0, "a", 1, 0⟩ : Row), ⟨15.7, 40, "b", 2, 1⟩].map fun r => decide (r.brickname = "b"))
          [⟨5, 0, "a", 1, 0⟩, ⟨15.7, 40, "b", 2, 1⟩] = [⟨15.7, 40, "b", 2, 1⟩] := rfl
      have h2 : regionOf demoSurvey ⟨15.7, 40, "b", 2, 1⟩ = "north" := by norm_num [regionOf, demoSurvey]
      have h3 := loose_column_b ⟨15.7, 40, "b", 2, 1⟩ (.num 1.5) (by
        have e1 : rint ((15.7 : ℝ) - 15) = 1 := rint_two (by norm_num) (by norm_num)
        have e2 : rint ((40 : ℝ) - 39) = 1 := rint_two (by norm_num) (by norm_num)
        simp only [pixelAt, demoImage, e1, e2]
        norm_num [wrapIndex, Bind.bind, Except.bind, pure, Except.pure])
      have h4 : store .int (1.5 : ℝ) = 1 := by
        have : ⌊(1.5 : ℝ)⌋ = 1 := by rw [Int.floor_eq_iff]; norm_num
        rw [store, if_pos (by norm_num), this]
        norm_num
      unfold oneBrick
      simp only [h1, h2]
      simp only [looseColumns, List.foldlM_cons, List.foldlM_nil, h3, Bind.bind, Except.bind, pure, Except.pure]
      simp [writeColumn, writeMask, Bind.bind, Except.bind, pure, Except.pure, convert, h4, putMask, dictSet]
    have hrank : oneRank demoSurvey looseColumns [⟨5, 0, "a", 1, 0⟩, ⟨15.7, 40, "b", 2, 1⟩] =
        .ok [("m", ⟨.int, [.num 0, .num 1]⟩)] := by
      unfold oneRank
      simp only [List.map_cons, List.map_nil, hnames, List.foldlM_cons, List.foldlM_nil, ha, hb, Bind.bind, Except.bind, pure, Except.pure]
    unfold getBrickPixelQuantities
    rw [if_neg (by simp [looseColumns]), if_neg (by simp)]
    simp only [hrows, hsort, List.mapM_cons, List.mapM_nil, hrank, Bind.bind, Except.bind, pure, Except.pure]
    have hz : indexed [⟨5, 0, "a", 1, 0⟩, ⟨15.7, 40, "b", 2, 1⟩] [("m", ⟨.int, [.num 0, .num 1]⟩)] = [(0, [.num 0]), (1, [.num 1])] := rfl
    have hs2 : ([(0, [.num 0]), (1, [.num 1])] : List (ℕ × List Val)).mergeSort (fun a b => decide (a.1 ≤ b.1)) =
        [(0, [.num 0]), (1, [.num 1])] := List.mergeSort_of_pairwise (by simp)
    simp [hz, hs2, Blinding.splitSizes, toColumns, header]

/-- C55 fails for a position outside the image of its brick: instead of an error the call returns the value of the pixel at the
opposite edge. -/
theorem C55_outside_violated : (demoImage.pixel 14.2 40).1 < -(1 / 2) ∧ (∀ x y, ¬ OnPixel demoImage ⟨14.2, 40, 0⟩ x y) ∧
    getBrickPixelQuantities demoSurvey (toFirst Row.brickid) looseColumns [[(14.2, 40)]] =
      .ok [[("m", ⟨.float, [demoImage.value 1 1]⟩)]] := by
  refine ⟨by norm_num [demoImage], ?_, ?_⟩
  · rintro x y ⟨-, -, ⟨h, -⟩, -⟩
    rw [abs_le] at h
    have : (0 : ℝ) ≤ x := Nat.cast_nonneg x
    norm_num [demoImage] at h
    linarith [h.1]
  · have hrows : makeRows demoSurvey [[(14.2, 40)]] = [[⟨14.2, 40, "b", 2, 0⟩]] := by
      norm_num [makeRows, cindexFrom, demoSurvey]
    have hsort : toFirst Row.brickid [[(⟨14.2, 40, "b", 2, 0⟩ : Row)]] = [[⟨14.2, 40, "b", 2, 0⟩]] := by
      simp only [toFirst, List.flatten_cons, List.flatten_nil, List.append_nil, List.map_nil]
      rw [List.mergeSort_of_pairwise (by simp)]
    have hnames : uniqueNames ["b"] = ["b"] := by
      unfold uniqueNames
      rw [List.mergeSort_of_pairwise (by decide)]
      decide
    have hb : oneBrick demoSurvey looseColumns [⟨14.2, 40, "b", 2, 0⟩] [] "b" = .ok [("m", ⟨.float, [demoImage.value 1 1]⟩)] := by
      have h1 : takeMask (α := Row) ([(⟨14.2, 40, "b", 2, 0⟩ : Row)].map fun r => decide (r.brickname = "b"))
          [⟨14.2, 40, "b", 2, 0⟩] = [⟨14.2, 40, "b", 2, 0⟩] := rfl
      have h2 : regionOf demoSurvey ⟨14.2, 40, "b", 2, 0⟩ = "north" := by norm_num [regionOf, demoSurvey]
      have h3 := loose_column_b ⟨14.2, 40, "b", 2, 0⟩ (demoImage.value 1 1) (by
        have e1 : rint ((14.2 : ℝ) - 15) = -1 := rint_two (by norm_num) (by norm_num)
        have e2 : rint ((40 : ℝ) - 39) = 1 := rint_two (by norm_num) (by norm_num)
        simp only [pixelAt, demoImage, e1, e2]
        norm_num [wrapIndex, Bind.bind, Except.bind, pure, Except.pure])
      unfold oneBrick
      simp only [h1, h2]
      simp only [looseColumns, List.foldlM_cons, List.foldlM_nil, h3, Bind.bind, Except.bind, pure, Except.pure]
      simp [writeColumn, writeMask, Bind.bind, Except.bind, pure, Except.pure, convert, putMask, dictSet, demoImage]
    have hrank : oneRank demoSurvey looseColumns [⟨14.2, 40, "b", 2, 0⟩] = .ok [("m", ⟨.float, [demoImage.value 1 1]⟩)] := by
      unfold oneRank
      simp only [List.map_cons, List.map_nil, hnames, List.foldlM_cons, List.foldlM_nil, hb, Bind.bind, Except.bind, pure, Except.pure]
    unfold getBrickPixelQuantities
    rw [if_neg (by simp [looseColumns]), if_neg (by simp)]
    simp only [hrows, hsort, List.mapM_cons, List.mapM_nil, hrank, Bind.bind, Except.bind, pure, Except.pure]
    simp [indexed, rowOf, Blinding.splitSizes, toColumns, header]

end Verif.Props
