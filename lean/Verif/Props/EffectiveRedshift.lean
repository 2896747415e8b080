import Verif.Model.EffectiveRedshift
import Verif.Spec.Png
import Verif.Props.BlindRsd

/-!
# C71: effective redshift
-/

namespace Verif.Props

open Verif Verif.Model Verif.Model.Blinding Verif.Spec.Blinding Verif.Lemmas.Blinding

/-- Redshift of a row: third column for "rdz", else redshift of the distance. -/
def IsRedshift (ptype : String) (d2z : ℝ → Except Err ℝ) (r : V3 ℝ) (z : ℝ) : Prop :=
  if ptype = "rdz" then r.z = z ∧ 0 ≤ z else d2z (cart ptype id r).norm = .ok z

theorem dist_cartesianToSky (p : V3 ℝ) : (cartesianToSky p).dist = p.norm := rfl

theorem rowRedshift_ok {ptype : String} {d2z : ℝ → Except Err ℝ} {r : V3 ℝ} {z : ℝ} (h : IsRedshift ptype d2z r z) :
    rowRedshift ptype d2z (cart (if ptype = "rdz" then "rdd" else ptype) id r) = .ok z := by
  unfold rowRedshift
  rw [dist_cartesianToSky]
  unfold IsRedshift at h
  by_cases hp : ptype = "rdz"
  · subst hp
    rw [if_pos rfl] at h ⊢
    rw [if_neg (not_not.mpr rfl)]
    simp only [cart, if_true]
    rw [← h.1, norm_pointOf _ _ (by rw [h.1]; exact h.2)]
  · rw [if_neg hp] at h ⊢
    rw [if_pos hp]
    exact h

theorem known_rdd {ptype : String} (h : Known ptype) : Known (if ptype = "rdz" then "rdd" else ptype) := by
  split_ifs
  · exact Or.inr (Or.inr (Or.inl rfl))
  · exact h

theorem argOf_rdd (ptype : String) (rows : List (V3 ℝ)) : argOf (if ptype = "rdz" then "rdd" else ptype) rows = argOf ptype rows := by
  split_ifs with h
  · subst h; rfl
  · rfl

theorem redshift_ranks {ptype : String} {d2z : ℝ → Except Err ℝ} {z : V3 ℝ → ℝ} (ranks : List (List (V3 ℝ)))
    (hz : ∀ rows ∈ ranks, ∀ r ∈ rows, IsRedshift ptype d2z r (z r)) :
    (ranks.map fun rows => (.done (.rows (rows.map (cart (if ptype = "rdz" then "rdd" else ptype) id))) : Res Formatted)).map
      (Res.locally fun f => do (← f.get).mapM (rowRedshift ptype d2z)) = ranks.map fun rows => .done (rows.map z) := by
  rw [List.map_map]
  refine List.map_congr_left fun rows hr => ?_
  simp only [Function.comp, Res.locally, Formatted.get, Bind.bind, Except.bind]
  rw [List.mapM_map, mapM_ok (rowRedshift ptype d2z ∘ cart (if ptype = "rdz" then "rdd" else ptype) id) z rows
    fun r hx => rowRedshift_ok (hz rows hr r hx)]

/-- Values of one rank with weights, 1 if not given. -/
theorem weighted_ok (v : List ℝ) (w : Option (List ℝ)) (hw : ∀ l, w = some l → l.length = v.length) :
    weighted v w = .ok (List.zipWith (· * ·) v (weightsOr1 v.length w), weightsOr1 v.length w) := by
  cases w with
  | none =>
    simp only [weighted, weightsOr1, Option.getD_none, Except.ok.injEq, Prod.mk.injEq]
    constructor
    · clear hw
      induction v with
      | nil => rfl
      | cons a v ih => simpa [List.replicate_succ] using ih
    · exact List.map_const'
  | some l => simp [weighted, weightsOr1, hw l rfl]

theorem zipWith_weighted (ranks : List (List ℝ)) (w : List (Option (List ℝ)))
    (hw : ∀ x ∈ ranks.zip w, ∀ l, x.2 = some l → l.length = x.1.length) :
    List.zipWith (fun r w => Res.locally (fun v => weighted v w) r) (ranks.map .done) w =
      ((ranks.zip w).map fun x => (List.zipWith (· * ·) x.1 (weightsOr1 x.1.length x.2), weightsOr1 x.1.length x.2)).map .done := by
  induction ranks generalizing w with
  | nil => rfl
  | cons a ranks ih =>
    cases w with
    | nil => rfl
    | cons b w =>
      rw [List.map_cons, List.zipWith_cons_cons, ih w fun x hx => hw x (by rw [List.zip_cons_cons]; exact List.mem_cons_of_mem _ hx),
        List.zip_cons_cons, List.map_cons, List.map_cons]
      congr 1
      simp only [Res.locally]
      rw [weighted_ok a b fun l hl => hw (a, b) (by rw [List.zip_cons_cons]; exact List.mem_cons_self) l hl]

/-- `get_z` returns to all ranks the mean redshift of all objects, weighted if weights are given; rows on all ranks, any position type.
Missing for the full claim: weights with `mpiroot`, see `C71_root_weights_violated`. -/
theorem C71_mean_partial {ptype : String} (h : Known ptype) (d2z : ℝ → Except Err ℝ) (z : V3 ℝ → ℝ) (ranks : List (List (V3 ℝ)))
    (hz : ∀ rows ∈ ranks, ∀ r ∈ rows, IsRedshift ptype d2z r (z r)) (w : List (Option (List ℝ))) (hlen : w.length = ranks.length)
    (hw : ∀ x ∈ ranks.zip w, ∀ l, x.2 = some l → l.length = x.1.length)
    (h0 : ((ranks.zip w).map fun x => (weightsOr1 x.1.length x.2).sum).sum ≠ 0) :
    getZ ptype d2z none (ranks.map (argOf ptype)) w = ranks.map fun _ =>
      .done (((ranks.zip w).map fun x => (List.zipWith (fun r w => z r * w) x.1 (weightsOr1 x.1.length x.2)).sum).sum /
        ((ranks.zip w).map fun x => (weightsOr1 x.1.length x.2).sum).sum) := by
  unfold getZ
  simp only
  rw [show argOf ptype = argOf (if ptype = "rdz" then "rdd" else ptype) from funext fun r => (argOf_rdd ptype r).symm,
    formatPositions_scattered (known_rdd h), redshift_ranks ranks hz,
    show (ranks.map fun rows => (.done (rows.map z) : Res (List ℝ))) = (ranks.map (List.map z)).map .done by rw [List.map_map]; rfl,
    zipWith_weighted _ w (by
      intro x hx l hl
      rw [List.zip_map_left] at hx
      obtain ⟨y, hy, rfl⟩ := List.mem_map.mp hx
      simpa using hw y hy l hl), collective_done']
  simp only [List.map_map, List.zip_map_left, Function.comp_def, Prod.map_fst, Prod.map_snd, List.length_map, id,
    List.zipWith_map_left]
  rw [if_neg h0]
  have : (ranks.zip w).length = ranks.length := by simp [hlen]
  rw [List.map_const', List.map_const', this]

/-- Without weights, rows on one rank: the mean redshift. -/
theorem C71_mean_root {ptype : String} (h : Known ptype) (d2z : ℝ → Except Err ℝ) (z : V3 ℝ → ℝ) (args : List Positions) (root : ℕ)
    (rows : List (V3 ℝ)) (hr : args[root]? = some (argOf ptype rows)) (hne : rows ≠ [])
    (hz : ∀ r ∈ rows, IsRedshift ptype d2z r (z r)) :
    getZ ptype d2z (some root) args (args.map fun _ => none) = args.map fun _ => .done ((rows.map z).sum / rows.length) := by
  have hN : 0 < args.length := by
    obtain ⟨hlt, -⟩ := List.getElem?_eq_some_iff.mp hr
    omega
  set blocks := splitSizes (localSizes rows.length args.length) rows with hb
  have hs := sum_localSizes rows.length args.length hN
  have hflat : blocks.flatten = rows := flatten_splitSizes _ _ hs
  have hlen : blocks.length = args.length := by rw [hb, length_splitSizes, length_localSizes]
  unfold getZ
  simp only
  rw [formatPositions_root (known_rdd h) id args root rows (by rw [argOf_rdd]; exact hr), splitSizes_map, ← hb,
    show ((blocks.map (List.map (cart (if ptype = "rdz" then "rdd" else ptype) id))).map fun b => (.done (.rows b) : Res Formatted)) =
      blocks.map fun rows => .done (.rows (rows.map (cart (if ptype = "rdz" then "rdd" else ptype) id))) by rw [List.map_map]; rfl,
    redshift_ranks blocks (fun b hbk r hrb => hz r (by rw [← hflat]; exact List.mem_flatten.mpr ⟨b, hbk, hrb⟩)),
    show (blocks.map fun rows => (.done (rows.map z) : Res (List ℝ))) = (blocks.map (List.map z)).map .done by rw [List.map_map]; rfl,
    zipWith_weighted _ _ (by
      intro x hx l hl
      have := (List.of_mem_zip (show (x.1, x.2) ∈ _ from hx)).2
      simp at this
      rw [hl] at this
      simp at this), collective_done']
  have e : (blocks.map (List.map z)).zip (args.map fun _ => (none : Option (List ℝ))) = blocks.map fun b => (b.map z, none) := by
    rw [show (args.map fun _ => (none : Option (List ℝ))) = blocks.map fun _ => none by rw [List.map_const', List.map_const', hlen],
      List.zip_map']
  rw [e]
  have hsum1 : ∀ l : List (List (V3 ℝ)), (l.map fun b => (List.zipWith (· * ·) (b.map z) (List.replicate b.length 1)).sum).sum =
      (l.flatten.map z).sum := by
    intro l
    induction l with
    | nil => rfl
    | cons b l ih =>
      rw [List.map_cons, List.sum_cons, ih, List.flatten_cons, List.map_append, List.sum_append]
      congr 2
      induction b with
      | nil => rfl
      | cons a b ihb => simpa [List.replicate_succ] using ihb
  have hsum2 : ∀ l : List (List (V3 ℝ)), (l.map fun b => (List.replicate b.length (1 : ℝ)).sum).sum = l.flatten.length := by
    intro l
    induction l with
    | nil => simp
    | cons b l ih => rw [List.map_cons, List.sum_cons, ih, List.flatten_cons, List.length_append]; simp
  simp only [List.map_map, Function.comp_def, weightsOr1, Option.getD_none, List.length_map]
  rw [hsum1, hsum2, hflat, if_neg (by exact_mod_cast (List.length_pos_iff.mpr hne).ne'), List.map_const', List.map_const', hlen]

/-- Weights given with `mpiroot` are not scattered as positions are: with two ranks, the first one raises, the other waits. -/
theorem C71_root_weights_violated :
    getZ "rdz" (fun d => .ok d) (some 0) [argOf "rdz" [⟨10, 0, 1⟩, ⟨20, 0, 2⟩], .none] [some [1, 1], none] =
      [.raised .valueError, .blocked] := by
  obtain ⟨ptype, hp⟩ : ∃ p, p = "rdz" := ⟨_, rfl⟩
  rw [← hp]
  have hz : ∀ r ∈ ([⟨10, 0, 1⟩, ⟨20, 0, 2⟩] : List (V3 ℝ)), IsRedshift ptype (fun d => .ok d) r r.z := by
    intro r hr
    simp only [List.mem_cons, List.not_mem_nil, or_false] at hr
    rcases hr with rfl | rfl <;> simp [IsRedshift, hp]
  unfold getZ
  simp only
  rw [formatPositions_root (known_rdd (ptype := ptype) (by simp [Known, hp])) id _ 0 [⟨10, 0, 1⟩, ⟨20, 0, 2⟩]
    (by rw [argOf_rdd]; rfl), splitSizes_map,
    show splitSizes (localSizes ([⟨10, 0, 1⟩, ⟨20, 0, 2⟩] : List (V3 ℝ)).length
      ([argOf ptype [⟨10, 0, 1⟩, ⟨20, 0, 2⟩], Positions.none]).length) ([⟨10, 0, 1⟩, ⟨20, 0, 2⟩] : List (V3 ℝ)) =
      [[⟨10, 0, 1⟩], [⟨20, 0, 2⟩]] by simp [localSizes, splitSizes, List.range_succ],
    show (([[⟨10, 0, 1⟩], [⟨20, 0, 2⟩]] : List (List (V3 ℝ))).map (List.map (cart (if ptype = "rdz" then "rdd" else ptype) id))).map
      (fun b => (.done (.rows b) : Res Formatted)) = ([[⟨10, 0, 1⟩], [⟨20, 0, 2⟩]] : List (List (V3 ℝ))).map
        fun rows => .done (.rows (rows.map (cart (if ptype = "rdz" then "rdd" else ptype) id))) by rw [List.map_map]; rfl,
    redshift_ranks (z := (·.z)) _ (by
      intro b hb r hr
      refine hz r ?_
      simp only [List.mem_cons, List.not_mem_nil, or_false] at hb ⊢
      rcases hb with rfl | rfl
      · left; simpa using hr
      · right; simpa using hr)]
  simp [weighted, Res.locally, collective, Res.get?, Res.wait]

/-- Redshifts 1 and 2 with weights 3 and 1: 1.25. -/
example : getZ "rdz" (fun d => .ok d) none [argOf "rdz" [⟨10, 0, 1⟩, ⟨20, 0, 2⟩]] [some [3, 1]] = [.done 1.25] := by
  have := C71_mean_partial (ptype := "rdz") (by simp [Known]) (fun d => .ok d) (·.z) [[⟨10, 0, 1⟩, ⟨20, 0, 2⟩]] (by
    intro rows hrows r hr
    simp only [List.mem_cons, List.not_mem_nil, or_false] at hrows
    subst hrows
    simp only [List.mem_cons, List.not_mem_nil, or_false] at hr
    rcases hr with rfl | rfl <;> simp [IsRedshift]) [some [3, 1]] rfl (by simp) (by simp [weightsOr1]; norm_num)
  simp only [List.map_cons, List.map_nil] at this
  rw [this]
  simp [weightsOr1]
  norm_num

end Verif.Props
