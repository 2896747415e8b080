import Verif.Props.BlindFormat

/-!
# C46: Alcock-Paczynski blinding
-/

namespace Verif.Props

open Verif Verif.Model Verif.Model.Blinding Verif.Spec.Blinding Verif.Lemmas.Blinding

theorem norm_pointOf (ra dec : ℝ) {d : ℝ} (hd : 0 ≤ d) : (pointOf ra dec d).norm = d := by
  unfold pointOf
  exact norm_polar d _ _ hd

theorem smul_pointOf (ra dec d a : ℝ) : a • pointOf ra dec d = pointOf ra dec (a * d) := by
  unfold pointOf
  ext <;> simp <;> ring

/-- Row `r` of a catalog is moved to `r'`: the distance of redshift `z`, in the fiducial cosmology, becomes that of redshift `z` in
the blinded one, `blindDist z`; nothing else changes. `d2z` gives redshifts for distances in the fiducial cosmology, which also
define the redshift returned to the user. -/
def ApMoved (ptype : String) (d2z : ℝ → Except Err ℝ) (blindDist : ℝ → ℝ) (r r' : V3 ℝ) : Prop :=
  if ptype = "rdz" then r'.x = r.x ∧ r'.y = r.y ∧ 0 < blindDist r.z ∧ d2z (blindDist r.z) = .ok r'.z
  else if ptype = "rdd" then r'.x = r.x ∧ r'.y = r.y ∧ ∃ z, d2z r.z = .ok z ∧ 0 < blindDist z ∧ r'.z = blindDist z
  else r ≠ 0 ∧ ∃ z, d2z r.norm = .ok z ∧ r' = (blindDist z / r.norm) • r

/-- Position type rows are formatted as: redshifts are not converted. -/
def apType (ptype : String) : String := if ptype = "rdz" then "rdd" else ptype

theorem known_apType {ptype : String} (h : Known ptype) : Known (apType ptype) := by
  unfold apType
  split_ifs
  · exact Or.inr (Or.inr (Or.inl rfl))
  · exact h

theorem argOf_apType (ptype : String) (rows : List (V3 ℝ)) : argOf (apType ptype) rows = argOf ptype rows := by
  unfold apType
  split_ifs with h
  · subst h; rfl
  · rfl

/-- One row, from input to output. -/
theorem ap_row {ptype : String} (h : Known ptype) {d2z : ℝ → Except Err ℝ} {blindDist : ℝ → ℝ} {r r' : V3 ℝ}
    (hu : Usual ptype r) (hm : ApMoved ptype d2z blindDist r r') : ∃ q,
    apRow (decide (ptype = "rdz")) d2z blindDist (cart (apType ptype) id r) = .ok q ∧ Back ptype d2z q r' := by
  rcases h with rfl | rfl | rfl | rfl
  · simp only [ApMoved, if_neg (by decide : ¬ ("pos" = "rdz")), if_neg (by decide : ¬ ("pos" = "rdd"))] at hm
    obtain ⟨h0, z, hz, rfl⟩ := hm
    refine ⟨_, ?_, rfl⟩
    have : cart (apType "pos") id r = r := by simp [cart, apType]
    rw [this]
    unfold apRow
    simp [hz, Bind.bind, Except.bind, (V3.norm_pos h0).ne']
  · simp only [ApMoved, if_neg (by decide : ¬ ("xyz" = "rdz")), if_neg (by decide : ¬ ("xyz" = "rdd"))] at hm
    obtain ⟨h0, z, hz, rfl⟩ := hm
    refine ⟨_, ?_, rfl⟩
    have : cart (apType "xyz") id r = r := by simp [cart, apType]
    rw [this]
    unfold apRow
    simp [hz, Bind.bind, Except.bind, (V3.norm_pos h0).ne']
  · simp only [ApMoved, if_neg (by decide : ¬ ("rdd" = "rdz")), if_true] at hm
    obtain ⟨hx, hy, z, hz, hpos, hr⟩ := hm
    obtain ⟨a, b, c, d, e⟩ := hu (Or.inl rfl)
    have hc : cart (apType "rdd") id r = pointOf r.x r.y r.z := by simp [cart, apType]
    refine ⟨pointOf r.x r.y (blindDist z), ?_, ?_⟩
    · rw [hc]
      unfold apRow
      rw [norm_pointOf _ _ e.le]
      simp [hz, Bind.bind, Except.bind, e.ne', smul_pointOf]
    · simp only [Back, if_neg (by decide : ¬ ("rdd" = "rdz")), if_true]
      rw [skyRow_pointOf a b c d hpos, ← hx, ← hy, ← hr]
  · simp only [ApMoved, if_true] at hm
    obtain ⟨hx, hy, hpos, hz⟩ := hm
    obtain ⟨a, b, c, d, e⟩ := hu (Or.inr rfl)
    have hc : cart (apType "rdz") id r = pointOf r.x r.y r.z := by simp [cart, apType]
    refine ⟨pointOf r.x r.y (blindDist r.z), ?_, ?_⟩
    · rw [hc]
      unfold apRow
      rw [norm_pointOf _ _ e.le]
      simp [Bind.bind, Except.bind, e.ne', smul_pointOf]
    · simp only [Back, if_true]
      unfold rdzRow
      rw [skyRow_pointOf a b c d hpos]
      simp only [Bind.bind, Except.bind]
      rw [hz, ← hx, ← hy]

theorem ap_rank {ptype : String} (h : Known ptype) {d2z : ℝ → Except Err ℝ} {blindDist : ℝ → ℝ} (G : V3 ℝ → V3 ℝ) :
    ∃ P : V3 ℝ → V3 ℝ, ∀ r, Usual ptype r → ApMoved ptype d2z blindDist r (G r) →
      apRow (decide (ptype = "rdz")) d2z blindDist (cart (apType ptype) id r) = .ok (P r) ∧ Back ptype d2z (P r) (G r) := by
  classical
  refine ⟨fun r => if hr : Usual ptype r ∧ ApMoved ptype d2z blindDist r (G r) then (ap_row h hr.1 hr.2).choose else 0, ?_⟩
  intro r h1 h2
  simp only
  rw [dif_pos ⟨h1, h2⟩]
  exact (ap_row h h1 h2).choose_spec

/-- `ap` moves each object to its distance in the blinded cosmology and changes nothing else: all position types, rows on all
ranks. -/
theorem C46_ap {ptype : String} (h : Known ptype) (d2z : ℝ → Except Err ℝ) (blindDist : ℝ → ℝ) (ranks : List (List (V3 ℝ)))
    (G : V3 ℝ → V3 ℝ) (hu : ∀ rows ∈ ranks, ∀ r ∈ rows, Usual ptype r)
    (hm : ∀ rows ∈ ranks, ∀ r ∈ rows, ApMoved ptype d2z blindDist r (G r)) :
    ap ptype none d2z blindDist none (ranks.map (argOf ptype)) = ranks.map fun rows => .done (outOf ptype (rows.map G)) := by
  obtain ⟨P, hP⟩ := ap_rank (d2z := d2z) (blindDist := blindDist) h G
  unfold ap
  have h1 : formatPositions (if ptype = "rdz" then "rdd" else ptype) none id none (ranks.map (argOf ptype)) =
      ranks.map fun rows => .done (.rows (rows.map (cart (apType ptype) id))) := by
    have := formatPositions_scattered (known_apType h) id ranks
    rw [show (argOf (apType ptype)) = argOf ptype from funext fun _ => argOf_apType _ _] at this
    exact this
  simp only
  rw [h1, List.map_map]
  have h2 : (ranks.map (Res.locally (fun f : Formatted => do (← f.get).mapM (apRow (decide (ptype = "rdz")) d2z blindDist)) ∘
      fun rows => .done (.rows (rows.map (cart (apType ptype) id))))) = ranks.map fun rows => .done (rows.map P) := by
    refine List.map_congr_left fun rows hr => ?_
    have : (rows.map (cart (apType ptype) id)).mapM (apRow (decide (ptype = "rdz")) d2z blindDist) = .ok (rows.map P) := by
      rw [List.mapM_map]
      exact mapM_ok _ _ _ fun r hr' => (hP r (hu rows hr r hr') (hm rows hr r hr')).1
    simp only [Function.comp, Res.locally, Formatted.get, Bind.bind, Except.bind] at this ⊢
    rw [this]
  rw [h2]
  exact output_scattered h d2z ranks P G fun rows hr a ha => (hP a (hu rows hr a ha) (hm rows hr a ha)).2

/-- Same with rows on one rank. -/
theorem C46_ap_root {ptype : String} (h : Known ptype) (d2z : ℝ → Except Err ℝ) (blindDist : ℝ → ℝ) (args : List Positions)
    (root : ℕ) (rows : List (V3 ℝ)) (hr : args[root]? = some (argOf ptype rows)) (G : V3 ℝ → V3 ℝ)
    (hu : ∀ r ∈ rows, Usual ptype r) (hm : ∀ r ∈ rows, ApMoved ptype d2z blindDist r (G r)) :
    ap ptype none d2z blindDist (some root) args = onRoot args.length root (outOf ptype (rows.map G)) := by
  have hN : 0 < args.length := by
    obtain ⟨hlt, -⟩ := List.getElem?_eq_some_iff.mp hr
    omega
  obtain ⟨P, hP⟩ := ap_rank (d2z := d2z) (blindDist := blindDist) h G
  unfold ap
  have h1 : formatPositions (if ptype = "rdz" then "rdd" else ptype) none id (some root) args =
      (splitSizes (localSizes rows.length args.length) (rows.map (cart (apType ptype) id))).map fun b => .done (.rows b) :=
    formatPositions_root (known_apType h) id args root rows (by rw [argOf_apType]; exact hr)
  simp only
  rw [h1, List.map_map]
  set blocks := splitSizes (localSizes rows.length args.length) rows with hbl
  have hmap : ∀ f : V3 ℝ → V3 ℝ, splitSizes (localSizes rows.length args.length) (rows.map f) = blocks.map (List.map f) := by
    intro f
    rw [hbl]
    generalize localSizes rows.length args.length = sizes
    clear hr hu hm hbl h1
    induction sizes generalizing rows with
    | nil => rfl
    | cons s sizes ih => rw [splitSizes, splitSizes, List.map_cons, ← ih (rows.drop s), List.map_take, List.map_drop]
  have hflat : blocks.flatten = rows := by
    rw [hbl]
    exact flatten_splitSizes _ _ (sum_localSizes _ _ hN)
  have hmem : ∀ b ∈ blocks, ∀ r ∈ b, r ∈ rows := by
    intro b hb r hr
    rw [← hflat]
    exact List.mem_flatten.mpr ⟨b, hb, hr⟩
  rw [hmap, List.map_map]
  have h2 : (blocks.map ((Res.locally (fun f : Formatted => do (← f.get).mapM (apRow (decide (ptype = "rdz")) d2z blindDist)) ∘
      fun b => .done (.rows b)) ∘ List.map (cart (apType ptype) id))) = (blocks.map (List.map P)).map Res.done := by
    rw [List.map_map]
    refine List.map_congr_left fun b hb => ?_
    have : (b.map (cart (apType ptype) id)).mapM (apRow (decide (ptype = "rdz")) d2z blindDist) = .ok (b.map P) := by
      rw [List.mapM_map]
      exact mapM_ok _ _ _ fun r hr' => (hP r (hu r (hmem b hb r hr')) (hm r (hmem b hb r hr'))).1
    simp only [Function.comp, Res.locally, Formatted.get, Bind.bind, Except.bind] at this ⊢
    rw [this]
  rw [h2]
  have := output_root h d2z (blocks.map (List.map P)) root rows P G (by rw [← List.map_flatten, hflat])
    fun a ha => (hP a (hu a ha) (hm a ha)).2
  rw [this, List.length_map, hbl, length_splitSizes, length_localSizes]

/-- A catalog of two ranks, types "rdz" and "pos", meeting the hypotheses: distances 3000 z, and 3300 z in the blinded cosmology. -/
example : let d2z : ℝ → Except Err ℝ := fun d => .ok (d / 3000)
    let bd : ℝ → ℝ := fun z => 3300 * z
    Usual "rdz" ⟨10, -20, 0.5⟩ ∧ ApMoved "rdz" d2z bd ⟨10, -20, 0.5⟩ ⟨10, -20, 0.55⟩ ∧ ApMoved "pos" d2z bd ⟨300, 0, 400⟩ ⟨330, 0, 440⟩ := by
  refine ⟨fun _ => by norm_num, ?_, ?_⟩
  · simp only [ApMoved, if_true]
    norm_num
  · have hn : (⟨300, 0, 400⟩ : V3 ℝ).norm = 500 := by
      rw [V3.norm, Real.sqrt_eq_iff_mul_self_eq_of_pos] <;> norm_num
    simp only [ApMoved, if_neg (by decide : ¬ ("pos" = "rdz")), if_neg (by decide : ¬ ("pos" = "rdd"))]
    refine ⟨fun h => ?_, 500 / 3000, by rw [hn], ?_⟩
    · have := congrArg V3.x h
      norm_num at this
    · rw [hn]
      ext <;> simp <;> norm_num

/-- RA and Dec are kept, for rows of Cartesian positions too, and the distance is that of the blinded cosmology. -/
theorem C46_direction {ptype : String} (hp : ptype = "pos" ∨ ptype = "xyz") {d2z : ℝ → Except Err ℝ} {blindDist : ℝ → ℝ}
    {r r' : V3 ℝ} (hm : ApMoved ptype d2z blindDist r r') (hpos : ∀ z, d2z r.norm = .ok z → 0 < blindDist z) :
    (cartesianToSky r').ra = (cartesianToSky r).ra ∧ (cartesianToSky r').dec = (cartesianToSky r).dec ∧
      ∃ z, d2z r.norm = .ok z ∧ (cartesianToSky r').dist = blindDist z := by
  have hm' : r ≠ 0 ∧ ∃ z, d2z r.norm = .ok z ∧ r' = (blindDist z / r.norm) • r := by
    rcases hp with rfl | rfl <;> exact hm
  obtain ⟨h0, z, hz, rfl⟩ := hm'
  have hn := V3.norm_pos h0
  have hb := hpos z hz
  set a := blindDist z / r.norm with ha
  have hapos : 0 < a := by positivity
  have hnorm : (a • r).norm = a * r.norm := by
    unfold V3.norm
    simp only [V3.smul_x, V3.smul_y, V3.smul_z]
    rw [show (a * r.x) ^ 2 + (a * r.y) ^ 2 + (a * r.z) ^ 2 = a ^ 2 * (r.x ^ 2 + r.y ^ 2 + r.z ^ 2) by ring,
      Real.sqrt_mul (by positivity), Real.sqrt_sq hapos.le]
  have hd : a * r.norm = blindDist z := by rw [ha]; field_simp
  refine ⟨?_, ?_, z, hz, ?_⟩
  · unfold cartesianToSky
    simp only
    congr 2
    unfold arctan2
    have : (⟨(a • r).x, (a • r).y⟩ : ℂ) = (a : ℂ) * ⟨r.x, r.y⟩ := by
      apply Complex.ext <;> simp
    rw [this, Complex.arg_real_mul _ hapos]
  · unfold cartesianToSky
    simp only
    rw [hnorm, if_neg (by positivity), if_neg hn.ne', V3.smul_z, mul_div_mul_left _ _ hapos.ne']
  · unfold cartesianToSky
    simp only
    rw [hnorm, hd]

/-- Blinding with the fiducial cosmology itself does not move anything. -/
theorem C46_identity {ptype : String} (h : Known ptype) (dist : ℝ → ℝ) (d2z : ℝ → Except Err ℝ) (ranks : List (List (V3 ℝ)))
    (hu : ∀ rows ∈ ranks, ∀ r ∈ rows, Usual ptype r)
    (hcart : ptype = "pos" ∨ ptype = "xyz" → ∀ rows ∈ ranks, ∀ r ∈ rows, r ≠ 0 ∧ ∃ z, d2z r.norm = .ok z ∧ dist z = r.norm)
    (hrdd : ptype = "rdd" → ∀ rows ∈ ranks, ∀ r ∈ rows, ∃ z, d2z r.z = .ok z ∧ dist z = r.z)
    (hrdz : ptype = "rdz" → ∀ rows ∈ ranks, ∀ r ∈ rows, 0 < dist r.z ∧ d2z (dist r.z) = .ok r.z) :
    ap ptype none d2z dist none (ranks.map (argOf ptype)) = ranks.map fun rows => .done (outOf ptype rows) := by
  have := C46_ap h d2z dist ranks id hu ?_
  · simpa using this
  intro rows hr r hr'
  unfold ApMoved
  rcases h with rfl | rfl | rfl | rfl
  · obtain ⟨h0, z, h1, h2⟩ := hcart (Or.inl rfl) rows hr r hr'
    simp only [if_neg (by decide : ¬ ("pos" = "rdz")), if_neg (by decide : ¬ ("pos" = "rdd"))]
    refine ⟨h0, z, h1, ?_⟩
    rw [h2, div_self (V3.norm_pos h0).ne']
    ext <;> simp
  · obtain ⟨h0, z, h1, h2⟩ := hcart (Or.inr rfl) rows hr r hr'
    simp only [if_neg (by decide : ¬ ("xyz" = "rdz")), if_neg (by decide : ¬ ("xyz" = "rdd"))]
    refine ⟨h0, z, h1, ?_⟩
    rw [h2, div_self (V3.norm_pos h0).ne']
    ext <;> simp
  · obtain ⟨z, h1, h2⟩ := hrdd rfl rows hr r hr'
    obtain ⟨-, -, -, -, e⟩ := hu rows hr r hr' (Or.inl rfl)
    simp only [if_neg (by decide : ¬ ("rdd" = "rdz")), if_true]
    exact ⟨rfl, rfl, z, h1, by rw [h2]; exact e, h2.symm⟩
  · obtain ⟨h1, h2⟩ := hrdz rfl rows hr r hr'
    simp only [if_true]
    exact ⟨rfl, rfl, h1, h2⟩

/-- Radial coordinate of a row: distance, or redshift for "rdz". -/
noncomputable def radius (ptype : String) (r : V3 ℝ) : ℝ := if ptype = "rdz" ∨ ptype = "rdd" then r.z else r.norm

/-- Objects keep their order along the line of sight, as distances increase with redshift in both cosmologies. -/
theorem C46_order {ptype : String} (h : Known ptype) {d2z : ℝ → Except Err ℝ} {blindDist : ℝ → ℝ} {r s r' s' : V3 ℝ}
    (hd2z : ∀ d e z w, d < e → d2z d = .ok z → d2z e = .ok w → z < w) (hb : ∀ z w, z < w → blindDist z < blindDist w)
    (hpos : ptype = "pos" ∨ ptype = "xyz" → ∀ d z, 0 < d → d2z d = .ok z → 0 < blindDist z)
    (hr : ApMoved ptype d2z blindDist r r') (hs : ApMoved ptype d2z blindDist s s') (hlt : radius ptype r < radius ptype s) :
    radius ptype r' < radius ptype s' := by
  have cartcase : ptype = "pos" ∨ ptype = "xyz" → (r ≠ 0 ∧ ∃ z, d2z r.norm = .ok z ∧ r' = (blindDist z / r.norm) • r) →
      (s ≠ 0 ∧ ∃ z, d2z s.norm = .ok z ∧ s' = (blindDist z / s.norm) • s) → r.norm < s.norm → r'.norm < s'.norm := by
    rintro hp ⟨hr0, z, hz, -⟩ ⟨hs0, w, hw, -⟩ hlt
    obtain ⟨-, -, z', hz', hd⟩ := C46_direction hp hr fun z hz => hpos hp _ _ (V3.norm_pos hr0) hz
    obtain ⟨-, -, w', hw', he⟩ := C46_direction hp hs fun z hz => hpos hp _ _ (V3.norm_pos hs0) hz
    change r'.norm = _ at hd
    change s'.norm = _ at he
    rw [hd, he]
    exact hb _ _ (hd2z _ _ _ _ hlt hz' hw')
  rcases h with rfl | rfl | rfl | rfl
  · simp only [radius, (by decide : ¬ ("pos" = "rdz")), (by decide : ¬ ("pos" = "rdd")), or_self, if_false] at hlt ⊢
    exact cartcase (Or.inl rfl) hr hs hlt
  · simp only [radius, (by decide : ¬ ("xyz" = "rdz")), (by decide : ¬ ("xyz" = "rdd")), or_self, if_false] at hlt ⊢
    exact cartcase (Or.inr rfl) hr hs hlt
  · simp only [radius, or_true, if_true] at hlt ⊢
    simp only [ApMoved, if_neg (by decide : ¬ ("rdd" = "rdz")), if_true] at hr hs
    obtain ⟨-, -, z, hz, -, h1⟩ := hr
    obtain ⟨-, -, w, hw, -, h2⟩ := hs
    rw [h1, h2]
    exact hb _ _ (hd2z _ _ _ _ hlt hz hw)
  · simp only [radius, true_or, if_true] at hlt ⊢
    simp only [ApMoved, if_true] at hr hs
    exact hd2z _ _ _ _ (hb _ _ hlt) hr.2.2.2 hs.2.2.2

/-- An object of negative redshift (a local object) is sent to the opposite direction, at a positive redshift, even when the blinded
cosmology is the fiducial one: here RA 0, Dec 0 and redshift -1 become RA 180, Dec 0 and redshift 1. -/
theorem C46_negative_redshift_violated : ap "rdz" none (fun d => .ok d) id none [argOf "rdz" [⟨0, 0, -1⟩]] =
    [.done (outOf "rdz" [⟨180, 0, 1⟩])] := by
  have hp : pointOf 0 0 (-1) = pointOf 180 0 1 := by
    unfold pointOf
    have : (180 : ℝ) * (Real.pi / 180) = Real.pi := by ring
    rw [this]
    simp
  have h1 : formatPositions "rdd" none id none [argOf "rdz" [⟨0, 0, -1⟩]] = [.done (.rows [pointOf 180 0 1])] := by
    have := formatPositions_scattered (ptype := "rdd") (Or.inr (Or.inr (Or.inl rfl))) id [[⟨0, 0, -1⟩]]
    simp only [List.map_cons, List.map_nil] at this
    rw [← hp]
    have hc : cart "rdd" id ⟨0, 0, -1⟩ = pointOf 0 0 (-1) := by simp [cart]
    rw [hc] at this
    exact this
  unfold ap
  simp only [if_true]
  rw [h1]
  have h2 : apRow true (fun d => .ok d) id (pointOf 180 0 1) = .ok (pointOf 180 0 1) := by
    unfold apRow
    rw [norm_pointOf _ _ zero_le_one]
    simp only [Bind.bind, Except.bind, if_true, one_ne_zero, if_false, id]
    rw [smul_pointOf]
    norm_num
  have h3 : rdzRow (fun d => .ok d) (pointOf 180 0 1) = .ok ⟨180, 0, 1⟩ := by
    unfold rdzRow
    rw [skyRow_pointOf (r := ⟨180, 0, 1⟩) (by norm_num) (by norm_num) (by norm_num) (by norm_num) one_pos]
    rfl
  simp only [decide_true, List.map_cons, List.map_nil, Res.locally, Formatted.get, formatOutputPositions, Bind.bind, Except.bind,
    List.mapM_cons, List.mapM_nil, h2, outputRows, if_true, h3, Pure.pure, Except.pure, outOf, columnsOf,
    if_neg (by decide : ¬ ("rdz" = "pos"))]

/-- At the origin there is no direction to move along: the result is not a number. -/
theorem C46_origin (d2z : ℝ → Except Err ℝ) (blindDist : ℝ → ℝ) (z : ℝ) (hz : d2z 0 = .ok z) :
    ap "pos" none d2z blindDist none [argOf "pos" [0]] = [.raised .nan] := by
  have h1 := formatPositions_scattered (ptype := "pos") (Or.inl rfl) id [[0]]
  simp only [List.map_cons, List.map_nil] at h1
  have hc : cart "pos" id 0 = 0 := by simp [cart]
  have h0 : (0 : V3 ℝ).norm = 0 := (V3.norm_eq_zero 0).mpr rfl
  unfold ap
  simp only [if_neg (by decide : ¬ ("pos" = "rdz"))]
  rw [h1, hc]
  simp [Res.locally, Formatted.get, formatOutputPositions, Bind.bind, Except.bind, apRow, h0, hz]

end Verif.Props
