import Verif.Props.BlindAp
import Verif.Props.BlindCosmo

/-!
# C47: RSD blinding
-/

namespace Verif.Props

open Verif Verif.Model Verif.Model.Blinding Verif.Spec.Blinding Verif.Lemmas.Blinding

/-- `r` is the row of the Cartesian position `q`, in the coordinates of the position type: RA in [0, 360), Dec in (-90, 90) and
positive distance, or the redshift of that distance. -/
def IsRow (ptype : String) (d2z : ℝ → Except Err ℝ) (q r : V3 ℝ) : Prop :=
  if ptype = "rdd" ∨ ptype = "rdz" then
    0 ≤ r.x ∧ r.x < 360 ∧ -90 < r.y ∧ r.y < 90 ∧ ∃ d, 0 < d ∧ q = pointOf r.x r.y d ∧
      (ptype = "rdd" → r.z = d) ∧ (ptype = "rdz" → d2z d = .ok r.z)
  else r = q

theorem IsRow.back {ptype : String} (h : Known ptype) {d2z : ℝ → Except Err ℝ} {q r : V3 ℝ} (hr : IsRow ptype d2z q r) :
    Back ptype d2z q r := by
  rcases h with rfl | rfl | rfl | rfl
  · exact hr.symm
  · exact hr.symm
  · simp only [IsRow, true_or, if_true, forall_const] at hr
    obtain ⟨a, b, c, d, e, f, rfl, g, -⟩ := hr
    simp only [Back, if_neg (by decide : ¬ ("rdd" = "rdz")), if_true]
    rw [skyRow_pointOf a b c d f, ← g]
  · simp only [IsRow, or_true, if_true, forall_const] at hr
    obtain ⟨a, b, c, d, e, f, rfl, -, g⟩ := hr
    simp only [Back, if_true]
    unfold rdzRow
    rw [skyRow_pointOf a b c d f]
    simp only [Bind.bind, Except.bind]
    rw [g]

theorem IsRow.of_usual {ptype : String} {dist : ℝ → ℝ} {d2z : ℝ → Except Err ℝ} {r : V3 ℝ} (hu : Usual ptype r)
    (hz : ptype = "rdz" → 0 < dist r.z ∧ d2z (dist r.z) = .ok r.z) : IsRow ptype d2z (cart ptype dist r) r := by
  unfold IsRow cart
  by_cases h1 : ptype = "rdd"
  · subst h1
    obtain ⟨a, b, c, d, e⟩ := hu (Or.inl rfl)
    simp only [true_or, if_true]
    exact ⟨a, b, c, d, r.z, e, rfl, fun _ => rfl, fun h => absurd h (by decide)⟩
  · by_cases h2 : ptype = "rdz"
    · subst h2
      obtain ⟨a, b, c, d, e⟩ := hu (Or.inr rfl)
      obtain ⟨f, g⟩ := hz rfl
      simp only [or_true, if_true, if_neg (by decide : ¬ ("rdz" = "rdd"))]
      exact ⟨a, b, c, d, dist r.z, f, rfl, fun h => absurd h (by decide), fun _ => g⟩
    · rw [if_neg (by tauto), if_neg h1, if_neg h2]

theorem splitSizes_map {α β : Type*} (sizes : List ℕ) (l : List α) (f : α → β) :
    splitSizes sizes (l.map f) = (splitSizes sizes l).map (List.map f) := by
  induction sizes generalizing l with
  | nil => rfl
  | cons s sizes ih => rw [splitSizes, splitSizes, List.map_cons, ← ih, List.map_take, List.map_drop]

/-- The growth rate of the blinded cosmology, given in its derived parameters. -/
theorem getFromCosmo_f {c : Cosmo} {f : ℝ} (h : c.derived.lookup "f" = some f) (z : Option ℝ) : getFromCosmo c "f" z = .ok f := by
  have e1 : "omega".toList.isPrefixOf "f".toList = false := by decide
  have e2 : "Omega".toList.isPrefixOf "f".toList = false := by decide
  unfold getFromCosmo
  rw [e1, e2, h]
  rfl

theorem zipWith_const {α β γ : Type*} (l : List α) (b : β) (f : α → β → γ) :
    List.zipWith f l (l.map fun _ => b) = l.map fun a => f a b := by
  induction l with
  | nil => rfl
  | cons a l ih => rw [List.map_cons, List.zipWith_cons_cons, ih, List.map_cons]

/-- Rows of ranks after RSD blinding. -/
theorem rsd_ranks {recon : Recon} (hf : recon.f ≠ 0) {blind : Cosmo} {fb : ℝ} (hb : blind.derived.lookup "f" = some fb)
    (ranks : List (List (V3 ℝ))) :
    (List.zipWith (fun r rec => Res.locally (fun rec => do
        let fb ← getFromCosmo blind "f" none
        r.mapM (rsdRow rec fb)) rec) ranks (ranks.map fun _ => .done recon)) =
      ranks.map fun rows => .done (rows.map fun p => p + (fb / recon.f - 1) • recon.shifts p) := by
  rw [zipWith_const]
  refine List.map_congr_left fun rows _ => ?_
  have : rows.mapM (rsdRow recon fb) = .ok (rows.map fun p => p + (fb / recon.f - 1) • recon.shifts p) :=
    mapM_ok _ _ _ fun p _ => by unfold rsdRow; rw [if_neg hf]
  simp only [Res.locally, getFromCosmo_f hb]
  simp only [Bind.bind, Except.bind]
  rw [this]

/-- The reconstruction in use: that given, or the result of the named algorithm on the Cartesian positions and weights of data and
randoms (rows of all ranks) with the fiducial growth rate and the bias. -/
inductive Uses (recon : ReconArg) (fid : Cosmo) (z bias : Option ℝ) (data : List (List (V3 ℝ))) (dw : List (Option (List ℝ)))
    (randoms : List (Option (List (V3 ℝ)))) (rw : List (Option (List ℝ))) (R : Recon) : Prop
  | given (h : recon = .instance R)
  | run (alg : _) (f : ℝ) (h : recon = .name alg) (hf : IsFiducial fid z "f" f) (hR : R = alg data dw randoms rw f bias)

/-- Rows or nothing, as passed by users. -/
def argOf? (ptype : String) : Option (List (V3 ℝ)) → Positions
  | none => .none
  | some rows => argOf ptype rows

/-- All ranks give weights, or none does. -/
def Consistent (w : List (Option (List ℝ))) : Prop := (∀ x ∈ w, x = none) ∨ ∀ x ∈ w, x ≠ none

theorem formatWeights_consistent {w : List (Option (List ℝ))} (h : Consistent w) : formatWeights none w = w.map .done := by
  rw [show formatWeights none w = if w.any (·.isNone) ∧ ¬ w.all (·.isNone) then w.map fun _ => .raised .valueError else
    w.map .done from rfl, if_neg]
  rintro ⟨h1, h2⟩
  rcases h with h | h
  · exact h2 (List.all_eq_true.mpr fun x hx => by simp [h x hx])
  · obtain ⟨x, hx, hx'⟩ := List.any_eq_true.mp h1
    exact h x hx (by simpa using hx')

/-- Formatting when ranks hold rows or nothing. -/
theorem formatPositions_optional {ptype : String} (h : Known ptype) (dist : ℝ → ℝ) (ranks : List (Option (List (V3 ℝ)))) :
    formatPositions ptype none dist none (ranks.map (argOf? ptype)) = ranks.map fun o => .done (match o with
      | none => .raw .none
      | some rows => .rows (rows.map (cart ptype dist))) := by
  unfold formatPositions
  have h1 : (List.mapIdx (fun rank p => Res.locally (formatRank ptype none dist none rank) (.done p)) (ranks.map (argOf? ptype))) =
      ((ranks.map fun o => (match o with
        | none => .raw .none
        | some rows => .rows (rows.map (cart ptype dist)) : Formatted)).map Except.ok).map Res.done := by
    apply List.ext_getElem (by simp)
    intro i h1 h2
    simp only [List.getElem_mapIdx, List.getElem_map, Res.locally, formatRank]
    cases hi : ranks[i]'(by simpa using h1) with
    | none => rfl
    | some rows =>
      have hg : (argOf? ptype (some rows)).given ptype = true := given_argOf _ _
      rw [if_pos ⟨Or.inl trivial, hg⟩, show argOf? ptype (some rows) = argOf ptype rows from rfl, formatLocal_argOf h]
      rfl
  rw [h1, collective_done', firstMsg_ok, oks_ok]
  simp [scatterFormatted]

theorem runRecon_uses {recon : ReconArg} {fid : Cosmo} {z bias : Option ℝ} {ptype : String} (h : Known ptype) {dist : ℝ → ℝ}
    {data : List (List (V3 ℝ))} {dw : List (Option (List ℝ))} {randoms : List (Option (List (V3 ℝ)))} {rw : List (Option (List ℝ))}
    {R : Recon} (hR : Uses recon fid z bias data dw (randoms.map (Option.map (List.map (cart ptype dist)))) rw R)
    (h1 : Consistent dw) (h2 : Consistent rw) :
    runRecon recon fid z bias data (formatWeights none dw) (formatPositions ptype none dist none (randoms.map (argOf? ptype)))
      (formatWeights none rw) = data.map fun _ => .done R := by
  cases hR with
  | given h => subst h; rfl
  | run alg f h' hf hR =>
    subst h'
    unfold runRecon
    simp only
    have hz : z = none ∨ ¬ IsDensity "f" := Or.inr (by unfold IsDensity; decide)
    rw [formatWeights_consistent h1, collective_done', getFromCosmo_fiducial hf hz]
    simp only
    rw [formatPositions_optional h, collective_done, formatWeights_consistent h2, collective_done', hR]
    congr 1
    funext _
    congr 2
    rw [List.map_map]
    refine List.map_congr_left fun o _ => ?_
    cases o <;> rfl

/-- `rsd` moves each object by `f_blind / f - 1` times its displacement along the line of sight, `f` being the growth rate of the
reconstruction: the fiducial one, or that of the instance given. Any position type, rows on all ranks. -/
theorem C47_rsd {ptype : String} (h : Known ptype) (dist : ℝ → ℝ) (d2z : ℝ → Except Err ℝ) (blind fid : Cosmo) (z bias : Option ℝ)
    (recon : ReconArg) (ranks : List (List (V3 ℝ))) (dw : List (Option (List ℝ))) (randoms : List (Option (List (V3 ℝ))))
    (rw : List (Option (List ℝ))) (R : Recon) (hdw : Consistent dw) (hrw : Consistent rw)
    (hR : Uses recon fid z bias (ranks.map (List.map (cart ptype dist))) dw
      (randoms.map (Option.map (List.map (cart ptype dist)))) rw R)
    (hf : R.f ≠ 0) (fb : ℝ) (hb : blind.derived.lookup "f" = some fb) (G : V3 ℝ → V3 ℝ)
    (hG : ∀ rows ∈ ranks, ∀ r ∈ rows,
      IsRow ptype d2z (cart ptype dist r + (fb / R.f - 1) • R.shifts (cart ptype dist r)) (G r)) :
    rsd ptype none dist d2z blind fid z bias none recon (ranks.map (argOf ptype)) dw (randoms.map (argOf? ptype)) rw =
      ranks.map fun rows => .done (outOf ptype (rows.map G)) := by
  unfold rsd
  rw [formatPositions_scattered h, List.map_map]
  have h1 : (ranks.map (Res.locally Formatted.get ∘ fun rows => .done (.rows (rows.map (cart ptype dist))))) =
      (ranks.map (List.map (cart ptype dist))).map Res.done := by
    rw [List.map_map]; rfl
  rw [h1, collective_done']
  simp only
  rw [runRecon_uses h hR hdw hrw, rsd_ranks hf hb, List.map_map]
  have := output_scattered h d2z ranks (fun r => cart ptype dist r + (fb / R.f - 1) • R.shifts (cart ptype dist r)) G
    fun rows hr a ha => (hG rows hr a ha).back h
  simpa [Function.comp_def] using this

/-- With the same growth rate nothing moves. -/
theorem C47_identity {ptype : String} (h : Known ptype) (dist : ℝ → ℝ) (d2z : ℝ → Except Err ℝ) (blind fid : Cosmo)
    (z bias : Option ℝ) (recon : ReconArg) (ranks : List (List (V3 ℝ))) (dw : List (Option (List ℝ)))
    (randoms : List (Option (List (V3 ℝ)))) (rw : List (Option (List ℝ))) (R : Recon) (hdw : Consistent dw) (hrw : Consistent rw)
    (hR : Uses recon fid z bias (ranks.map (List.map (cart ptype dist))) dw
      (randoms.map (Option.map (List.map (cart ptype dist)))) rw R)
    (hf : R.f ≠ 0) (hb : blind.derived.lookup "f" = some R.f) (hu : ∀ rows ∈ ranks, ∀ r ∈ rows, Usual ptype r)
    (hz : ptype = "rdz" → ∀ rows ∈ ranks, ∀ r ∈ rows, 0 < dist r.z ∧ d2z (dist r.z) = .ok r.z) :
    rsd ptype none dist d2z blind fid z bias none recon (ranks.map (argOf ptype)) dw (randoms.map (argOf? ptype)) rw =
      ranks.map fun rows => .done (outOf ptype rows) := by
  have := C47_rsd h dist d2z blind fid z bias recon ranks dw randoms rw R hdw hrw hR hf R.f hb id ?_
  · simpa using this
  intro rows hr r hr'
  have e : (R.f / R.f - 1) • R.shifts (cart ptype dist r) = 0 := by
    rw [div_self hf, sub_self]
    ext <;> simp
  rw [e, add_zero]
  exact IsRow.of_usual (hu rows hr r hr') fun h' => hz h' rows hr r hr'

/-- Blinding from growth rate `f` to `f'`, then from `f'` to `f`, gives the original positions, if the displacements found the second
time are those of the first time, scaled by `f' / f`. -/
theorem C47_back {R R' : Recon} (hf : R.f ≠ 0) (hf' : R'.f ≠ 0) (p q : V3 ℝ) (hq : rsdRow R R'.f p = .ok q)
    (hs : R'.shifts q = (R'.f / R.f) • R.shifts p) : rsdRow R' R.f q = .ok p := by
  unfold rsdRow at hq ⊢
  rw [if_neg hf] at hq
  rw [if_neg hf', hs, ← Except.ok.inj hq]
  congr 1
  ext <;> simp <;> field_simp <;> ring

/-- Whole catalogs: `rsd` with the reconstructions `R` then `R'` is the identity. -/
theorem C47_back_catalog (dist : ℝ → ℝ) (d2z : ℝ → Except Err ℝ) (blind blind' fid : Cosmo) (z bias : Option ℝ)
    (ranks : List (List (V3 ℝ))) (R R' : Recon) (hf : R.f ≠ 0) (hf' : R'.f ≠ 0)
    (hb : blind.derived.lookup "f" = some R'.f) (hb' : blind'.derived.lookup "f" = some R.f)
    (hs : ∀ rows ∈ ranks, ∀ p ∈ rows, R'.shifts (p + (R'.f / R.f - 1) • R.shifts p) = (R'.f / R.f) • R.shifts p) :
    ∃ moved : List (List (V3 ℝ)),
      rsd "pos" none dist d2z blind fid z bias none (.instance R) (ranks.map (argOf "pos")) [] [] [] =
        moved.map (fun rows => .done (outOf "pos" rows)) ∧
      rsd "pos" none dist d2z blind' fid z bias none (.instance R') (moved.map (argOf "pos")) [] [] [] =
        ranks.map (fun rows => .done (outOf "pos" rows)) := by
  have hk : Known "pos" := Or.inl rfl
  have hc : ∀ r, cart "pos" dist r = r := fun r => by simp [cart]
  have hcons : Consistent [] := Or.inl (by simp)
  let G : V3 ℝ → V3 ℝ := fun p => p + (R'.f / R.f - 1) • R.shifts p
  have h1 := C47_rsd hk dist d2z blind fid z bias (.instance R) ranks [] [] [] R hcons hcons (.given rfl) hf R'.f hb G
    (fun rows _ r _ => by rw [hc]; exact rfl)
  refine ⟨ranks.map (List.map G), by rw [List.map_nil] at h1; rw [h1, List.map_map]; rfl, ?_⟩
  have key : ∀ G' : V3 ℝ → V3 ℝ, (∀ q, G' q = q + (R.f / R'.f - 1) • R'.shifts q) →
      rsd "pos" none dist d2z blind' fid z bias none (.instance R') ((ranks.map (List.map G)).map (argOf "pos")) [] [] [] =
        (ranks.map (List.map G)).map fun rows => .done (outOf "pos" (rows.map G')) := by
    intro G' hG'
    exact C47_rsd hk dist d2z blind' fid z bias (.instance R') (ranks.map (List.map G)) [] [] [] R' hcons hcons (.given rfl) hf' R.f
      hb' G' (fun rows _ r _ => by rw [hc]; exact hG' r)
  rw [key (fun q => q + (R.f / R'.f - 1) • R'.shifts q) fun _ => rfl, List.map_map]
  refine List.map_congr_left fun rows hr => ?_
  simp only [Function.comp, List.map_map]
  congr 2
  refine (List.map_congr_left fun p hp => ?_).trans (List.map_id _)
  have := C47_back hf hf' p (G p) (by unfold rsdRow; rw [if_neg hf]) (hs rows hr p hp)
  unfold rsdRow at this
  rw [if_neg hf'] at this
  exact Except.ok.inj this

/-- A field of displacements and its growth rates meeting the hypotheses. -/
example : ∃ (R R' : Recon) (p : V3 ℝ), R.f ≠ 0 ∧ R'.f ≠ 0 ∧ R.f ≠ R'.f ∧ R.shifts p ≠ 0 ∧
    R'.shifts (p + (R'.f / R.f - 1) • R.shifts p) = (R'.f / R.f) • R.shifts p :=
  ⟨⟨0.8, 2, fun _ => ⟨0, 0, 4⟩⟩, ⟨0.4, 2, fun _ => ⟨0, 0, 2⟩⟩, ⟨1, 2, 3⟩, by norm_num, by norm_num, by norm_num,
    fun h => by have := congrArg V3.z h; norm_num at this, by ext <;> simp <;> norm_num⟩

/-- Without growth rate, at no given redshift. -/
theorem getFromCosmo_no_growth {c : Cosmo} (h : c.derived.lookup "f" = none) (h' : c.derived.lookup "fsigma8" = none) :
    getFromCosmo c "f" none = .error .valueError := by
  have e1 : "omega".toList.isPrefixOf "f".toList = false := by decide
  have e2 : "Omega".toList.isPrefixOf "f".toList = false := by decide
  unfold getFromCosmo
  rw [e1, e2, h]
  simp [getGrowth, getAmplitude, h', Bind.bind, Except.bind]

/-- The blinded cosmology must hold its growth rate: otherwise all ranks raise `ValueError`, whatever the redshift of the
blinding. -/
theorem C47_requires_growth {ptype : String} (h : Known ptype) (dist : ℝ → ℝ) (d2z : ℝ → Except Err ℝ) (blind fid : Cosmo)
    (z bias : Option ℝ) (ranks : List (List (V3 ℝ))) (R : Recon) (dw : List (Option (List ℝ))) (randoms : List Positions)
    (rw : List (Option (List ℝ))) (h1 : blind.derived.lookup "f" = none) (h2 : blind.derived.lookup "fsigma8" = none) :
    rsd ptype none dist d2z blind fid z bias none (.instance R) (ranks.map (argOf ptype)) dw randoms rw =
      ranks.map fun _ => .raised .valueError := by
  unfold rsd
  rw [formatPositions_scattered h, List.map_map]
  have h3 : (ranks.map (Res.locally Formatted.get ∘ fun rows => .done (.rows (rows.map (cart ptype dist))))) =
      (ranks.map (List.map (cart ptype dist))).map Res.done := by
    rw [List.map_map]; rfl
  rw [h3, collective_done']
  simp only
  have h4 : ∀ (l : List (List (V3 ℝ))) a b c, runRecon (.instance R) fid z bias l a b c = l.map fun _ => .done R := fun _ _ _ _ => rfl
  rw [h4, zipWith_const]
  simp only [Res.locally, getFromCosmo_no_growth h1 h2, formatOutputPositions, List.map_map]
  exact List.map_congr_left fun _ _ => rfl

/-- Rows on one rank: same displacements, with the reconstruction given. -/
theorem C47_rsd_root {ptype : String} (h : Known ptype) (dist : ℝ → ℝ) (d2z : ℝ → Except Err ℝ) (blind fid : Cosmo)
    (z bias : Option ℝ) (args : List Positions) (root : ℕ) (rows : List (V3 ℝ)) (hr : args[root]? = some (argOf ptype rows))
    (dw : List (Option (List ℝ))) (randoms : List Positions) (rw : List (Option (List ℝ))) (R : Recon) (hf : R.f ≠ 0) (fb : ℝ)
    (hb : blind.derived.lookup "f" = some fb) (G : V3 ℝ → V3 ℝ)
    (hG : ∀ r ∈ rows, IsRow ptype d2z (cart ptype dist r + (fb / R.f - 1) • R.shifts (cart ptype dist r)) (G r)) :
    rsd ptype none dist d2z blind fid z bias (some root) (.instance R) args dw randoms rw =
      onRoot args.length root (outOf ptype (rows.map G)) := by
  have hN : 0 < args.length := by
    obtain ⟨hlt, -⟩ := List.getElem?_eq_some_iff.mp hr
    omega
  unfold rsd
  rw [formatPositions_root h dist args root rows hr, List.map_map]
  set blocks := splitSizes (localSizes rows.length args.length) rows with hbl
  have hflat : blocks.flatten = rows := by
    rw [hbl]
    exact flatten_splitSizes _ _ (sum_localSizes _ _ hN)
  rw [splitSizes_map, ← hbl]
  have h1 : ((blocks.map (List.map (cart ptype dist))).map (Res.locally Formatted.get ∘ fun b => .done (.rows b))) =
      (blocks.map (List.map (cart ptype dist))).map Res.done := List.map_congr_left fun _ _ => rfl
  rw [h1, collective_done']
  simp only
  have h2 : ∀ (l : List (List (V3 ℝ))) a b c, runRecon (.instance R) fid z bias l a b c = l.map fun _ => .done R := fun _ _ _ _ => rfl
  rw [h2, rsd_ranks hf hb]
  have := output_root h d2z (blocks.map fun b => b.map fun r => cart ptype dist r + (fb / R.f - 1) • R.shifts (cart ptype dist r))
    root rows (fun r => cart ptype dist r + (fb / R.f - 1) • R.shifts (cart ptype dist r)) G
    (by rw [← List.map_flatten, hflat]) fun a ha => (hG a ha).back h
  rw [List.length_map, hbl, length_splitSizes, length_localSizes] at this
  rw [← this, ← hbl, List.map_map, List.map_map]
  congr 1
  exact List.map_congr_left fun b _ => by simp [Function.comp_def]

end Verif.Props
