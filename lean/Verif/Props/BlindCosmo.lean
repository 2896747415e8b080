import Verif.Lemmas.Blinding

/-!
# C45: blinded cosmology
-/

namespace Verif.Props

open Verif Verif.Model Verif.Model.Blinding

/-- Names of density parameters: 'Omega...' and 'omega...'. -/
def IsDensity (name : String) : Prop := "Omega".toList <+: name.toList ∨ "omega".toList <+: name.toList

/-- An amplitude ('fsigma8' or 'sigma8') of a cosmology: stored as derived parameter, or computed at redshift `z`. -/
inductive IsAmplitude (c : Cosmo) (z : Option ℝ) (name : String) (value : ℝ → ℝ) : ℝ → Prop
  | stored (v : ℝ) (h : c.derived.lookup name = some v) : IsAmplitude c z name value v
  | computed (z' : ℝ) (h : c.derived.lookup name = none) (hz : z = some z') : IsAmplitude c z name value (value z')

/-- `v` is the value of parameter `name` in the fiducial cosmology. Density parameters are those of today, as they are when passed
to `clone`; the growth rate is that of redshift `z`, or the ratio of amplitudes stored with the cosmology. -/
inductive IsFiducial (c : Cosmo) (z : Option ℝ) (name : String) : ℝ → Prop
  | bigOmega (s : String) (v : ℝ) (h : name.toList = "Omega".toList ++ s.toList) (hv : c.omega0 s = some v) : IsFiducial c z name v
  | omega (s : String) (v : ℝ) (h : name.toList = "omega".toList ++ s.toList) (hv : c.omega0 s = some v) :
      IsFiducial c z name (v * c.h ^ 2)
  | derived (v : ℝ) (h : ¬ IsDensity name) (hv : c.derived.lookup name = some v) : IsFiducial c z name v
  | growth (a b : ℝ) (h : name = "f") (hd : c.derived.lookup "f" = none) (ha : IsAmplitude c z "fsigma8" c.fsigma8 a)
      (hb : IsAmplitude c z "sigma8" c.sigma8 b) (hs : b ≠ 0) : IsFiducial c z name (a / b)
  | amplitude8 (a : ℝ) (h : name = "fsigma8") (ha : IsAmplitude c z "fsigma8" c.fsigma8 a) : IsFiducial c z name a
  | sigma8 (b : ℝ) (h : name = "sigma8") (hb : IsAmplitude c z "sigma8" c.sigma8 b) : IsFiducial c z name b
  | fnl (h : name = "fnl") (hd : c.derived.lookup "fnl" = none) : IsFiducial c z name 0
  | other (v : ℝ) (h : ¬ IsDensity name) (hd : c.derived.lookup name = none)
      (hn : name ∉ ["f", "fnl", "fsigma8", "sigma8"]) (hv : c.attr name = some v) : IsFiducial c z name v

theorem IsAmplitude.get {c : Cosmo} {z : Option ℝ} {name : String} {value : ℝ → ℝ} {v : ℝ} (h : IsAmplitude c z name value v) :
    getAmplitude c name value z = .ok v := by
  unfold getAmplitude
  cases h with
  | stored _ h => rw [h]
  | computed z' h hz => rw [h, hz]

theorem not_prefix {name : String} (h : ¬ IsDensity name) :
    "omega".toList.isPrefixOf name.toList = false ∧ "Omega".toList.isPrefixOf name.toList = false := by
  unfold IsDensity at h
  push Not at h
  constructor
  · rw [← Bool.not_eq_true, List.isPrefixOf_iff_prefix]; exact h.2
  · rw [← Bool.not_eq_true, List.isPrefixOf_iff_prefix]; exact h.1

/-- The value used by the code is the fiducial value, density parameters at a given redshift apart. -/
theorem getFromCosmo_fiducial {c : Cosmo} {z : Option ℝ} {name : String} {v : ℝ} (h : IsFiducial c z name v)
    (hz : z = none ∨ ¬ IsDensity name) : getFromCosmo c name z = .ok v := by
  unfold getFromCosmo
  cases h with
  | bigOmega s _ h hv =>
    have hz' : z = none := hz.resolve_right fun h' => h' (Or.inl ⟨s.toList, h.symm⟩)
    have h1 : "omega".toList.isPrefixOf name.toList = false := by
      rw [h]; rfl
    have h2 : "Omega".toList.isPrefixOf name.toList = true := by
      rw [List.isPrefixOf_iff_prefix]; exact ⟨s.toList, h.symm⟩
    have h3 : String.ofList (name.toList.drop 5) = s := by
      rw [h]
      exact String.ofList_toList
    rw [h1, h2, h3, hz']
    simp [getOmega, getAttr, hv]
  | omega s v h hv =>
    have hz' : z = none := hz.resolve_right fun h' => h' (Or.inr ⟨s.toList, h.symm⟩)
    have h1 : "omega".toList.isPrefixOf name.toList = true := by
      rw [List.isPrefixOf_iff_prefix]; exact ⟨s.toList, h.symm⟩
    have h3 : String.ofList (name.toList.drop 5) = s := by
      rw [h]
      exact String.ofList_toList
    rw [h1, h3, hz']
    simp [getOmega, getAttr, hv, Bind.bind, Except.bind]
  | derived _ h hv =>
    obtain ⟨h1, h2⟩ := not_prefix h
    rw [h1, h2, hv]
    rfl
  | growth a b h hd ha hb hs =>
    subst h
    have h1 : "omega".toList.isPrefixOf "f".toList = false := by decide
    have h2 : "Omega".toList.isPrefixOf "f".toList = false := by decide
    rw [h1, h2, hd]
    simp [getGrowth, ha.get, hb.get, hs, Bind.bind, Except.bind]
  | amplitude8 _ h ha =>
    subst h
    have h1 : "omega".toList.isPrefixOf "fsigma8".toList = false := by decide
    have h2 : "Omega".toList.isPrefixOf "fsigma8".toList = false := by decide
    rw [h1, h2]
    cases hd : c.derived.lookup "fsigma8" with
    | none => simp [ha.get]
    | some x =>
      have := ha.get
      simp only [getAmplitude, hd, Except.ok.injEq] at this
      simp [this]
  | sigma8 _ h hb =>
    subst h
    have h1 : "omega".toList.isPrefixOf "sigma8".toList = false := by decide
    have h2 : "Omega".toList.isPrefixOf "sigma8".toList = false := by decide
    rw [h1, h2]
    cases hd : c.derived.lookup "sigma8" with
    | none => simp [hb.get]
    | some x =>
      have := hb.get
      simp only [getAmplitude, hd, Except.ok.injEq] at this
      simp [this]
  | fnl h hd =>
    subst h
    have h1 : "omega".toList.isPrefixOf "fnl".toList = false := by decide
    have h2 : "Omega".toList.isPrefixOf "fnl".toList = false := by decide
    rw [h1, h2, hd]
    simp
  | other _ h hd hn hv =>
    obtain ⟨h1, h2⟩ := not_prefix h
    rw [h1, h2, hd]
    simp only [List.mem_cons, List.not_mem_nil, or_false, not_or] at hn
    simp [hn, getAttr, hv]

/-- Growth rate and fnl are not parameters of the cosmology: they are kept apart. -/
def IsDerived (name : String) : Prop := name = "f" ∨ name = "fnl"

instance (name : String) : Decidable (IsDerived name) := inferInstanceAs (Decidable (_ ∨ _))

/-- Where a blinded parameter is stored. -/
def Blinded.storing (b : Blinded) (name : String) : List (String × ℝ) := if IsDerived name then b.derived else b.update

theorem blindParams_spec (c : Cosmo) (z : Option ℝ) (u : ℕ → ℝ) (k0 : ℕ) (params : List (String × ℝ))
    (hn : (params.map (·.1)).Nodup) (val : String → ℝ) (hv : ∀ p ∈ params, getFromCosmo c p.1 z = .ok (val p.1)) :
    ∃ b, blindParams c z u k0 params = .ok b ∧ b.update.map (·.1) = (params.map (·.1)).filter (fun n => ¬ IsDerived n) ∧
      b.derived.map (·.1) = (params.map (·.1)).filter (fun n => IsDerived n) ∧
      ∀ k name sigma, params[k]? = some (name, sigma) →
        (Blinded.storing b name).lookup name = some (val name + 2 * sigma * (u (k0 + k) - 1 / 2)) := by
  induction params generalizing k0 with
  | nil => exact ⟨⟨[], []⟩, rfl, rfl, rfl, by simp⟩
  | cons p params ih =>
    obtain ⟨name, sigma⟩ := p
    rw [List.map_cons, List.nodup_cons] at hn
    obtain ⟨b, h1, h2, h3, h4⟩ := ih (k0 + 1) hn.2 fun p hp => hv p (List.mem_cons_of_mem _ hp)
    have hv0 := hv (name, sigma) List.mem_cons_self
    simp only at hv0
    have hhalf : (0.5 : ℝ) = 1 / 2 := by norm_num
    have hother : ∀ (k : ℕ) (name' : String) (sigma' : ℝ), params[k]? = some (name', sigma') → name' ≠ name := by
      intro k name' sigma' hk he
      subst he
      exact hn.1 (List.mem_map.mpr ⟨_, List.mem_of_getElem? hk, rfl⟩)
    unfold blindParams
    rw [hv0, h1, hhalf]
    simp only [Bind.bind, Except.bind]
    by_cases hd : IsDerived name
    · have hd' : name = "f" ∨ name = "fnl" := hd
      rw [if_pos hd']
      refine ⟨_, rfl, by simp [h2, hd], by simp [h3, hd], ?_⟩
      intro k name' sigma' hk
      match k with
      | 0 =>
        simp only [List.getElem?_cons_zero, Option.some.injEq, Prod.mk.injEq] at hk
        obtain ⟨rfl, rfl⟩ := hk
        unfold Blinded.storing
        rw [if_pos hd]
        simp
      | k + 1 =>
        rw [List.getElem?_cons_succ] at hk
        have := h4 k name' sigma' hk
        rw [show k0 + (k + 1) = k0 + 1 + k by ring, ← this]
        unfold Blinded.storing
        split_ifs
        · rw [List.lookup_cons, beq_false_of_ne (hother k name' sigma' hk)]
        · rfl
    · have hd' : ¬ (name = "f" ∨ name = "fnl") := hd
      rw [if_neg hd']
      refine ⟨_, rfl, by simp [h2, hd], by simp [h3, hd], ?_⟩
      intro k name' sigma' hk
      match k with
      | 0 =>
        simp only [List.getElem?_cons_zero, Option.some.injEq, Prod.mk.injEq] at hk
        obtain ⟨rfl, rfl⟩ := hk
        unfold Blinded.storing
        rw [if_neg hd]
        simp
      | k + 1 =>
        rw [List.getElem?_cons_succ] at hk
        have := h4 k name' sigma' hk
        rw [show k0 + (k + 1) = k0 + 1 + k by ring, ← this]
        unfold Blinded.storing
        split_ifs
        · rfl
        · rw [List.lookup_cons, beq_false_of_ne (hother k name' sigma' hk)]

theorem isFiducial_unique {c : Cosmo} {z : Option ℝ} {name : String} {v w : ℝ} (hz : z = none ∨ ¬ IsDensity name)
    (h : IsFiducial c z name v) (h' : IsFiducial c z name w) : v = w := by
  have := (getFromCosmo_fiducial h hz).symm.trans (getFromCosmo_fiducial h' hz)
  exact Except.ok.inj this

/-- Each blinded parameter, and no other, is set to its fiducial value shifted by a draw of its own, at most one sigma away; growth
rate and fnl go with derived parameters, others with the parameters of the cosmology. Missing for the full claim: density parameters
when a redshift is given, see `C45_density_violated`. -/
theorem C45_within_partial (c : Cosmo) (z : Option ℝ) (u : ℕ → ℝ) (params : List (String × ℝ)) (hn : (params.map (·.1)).Nodup)
    (hf : ∀ p ∈ params, (∃ v, IsFiducial c z p.1 v) ∧ (z = none ∨ ¬ IsDensity p.1)) :
    ∃ b, getCosmoBlind c u (some params) z = .ok b ∧
      b.update.map (·.1) = (params.map (·.1)).filter (fun n => ¬ IsDerived n) ∧
      b.derived.map (·.1) = (params.map (·.1)).filter (fun n => IsDerived n) ∧
      ∀ k name sigma v, params[k]? = some (name, sigma) → IsFiducial c z name v → ∃ w,
        (Blinded.storing b name).lookup name = some w ∧ w = v + 2 * sigma * (u k - 1 / 2) ∧
        (0 ≤ sigma → 0 ≤ u k → u k < 1 → |w - v| ≤ sigma) := by
  classical
  let val : String → ℝ := fun name => if h : ∃ v, IsFiducial c z name v then h.choose else 0
  have hval : ∀ p ∈ params, IsFiducial c z p.1 (val p.1) := by
    intro p hp
    simp only [val]
    rw [dif_pos (hf p hp).1]
    exact (hf p hp).1.choose_spec
  obtain ⟨b, h1, h2, h3, h4⟩ := blindParams_spec c z u 0 params hn val
    fun p hp => getFromCosmo_fiducial (hval p hp) (hf p hp).2
  refine ⟨b, h1, h2, h3, ?_⟩
  intro k name sigma v hk hv
  have hmem := List.mem_of_getElem? hk
  have := h4 k name sigma hk
  rw [isFiducial_unique (hf _ hmem).2 (hval _ hmem) hv, zero_add] at this
  refine ⟨_, this, rfl, fun h0 h1 h2 => ?_⟩
  rw [abs_le]
  constructor <;> nlinarith

/-- All values of the interval are reached, each by one draw. -/
theorem C45_uniform {v w sigma : ℝ} (h1 : v - sigma ≤ w) (h2 : w < v + sigma) :
    ∃! u : ℝ, 0 ≤ u ∧ u < 1 ∧ w = v + 2 * sigma * (u - 1 / 2) := by
  have hs : 0 < sigma := by linarith
  refine ⟨(w - v) / (2 * sigma) + 1 / 2, ⟨?_, ?_, by field_simp; ring⟩, ?_⟩
  · have : -(1 / 2) ≤ (w - v) / (2 * sigma) := by rw [le_div_iff₀ (by linarith)]; linarith
    linarith
  · have : (w - v) / (2 * sigma) < 1 / 2 := by rw [div_lt_iff₀ (by linarith)]; linarith
    linarith
  · rintro y ⟨-, -, hy⟩
    rw [hy]
    field_simp
    ring

/-- The result depends on the seed through as many draws as there are parameters: the same draws give the same cosmology. -/
theorem C45_deterministic (c : Cosmo) (z : Option ℝ) (u u' : ℕ → ℝ) (params : List (String × ℝ))
    (h : ∀ k < params.length, u k = u' k) : getCosmoBlind c u (some params) z = getCosmoBlind c u' (some params) z := by
  unfold getCosmoBlind
  simp only [Option.getD_some]
  have key : ∀ k0 (l : List (String × ℝ)), (∀ k, k0 ≤ k → k < k0 + l.length → u k = u' k) →
      blindParams c z u k0 l = blindParams c z u' k0 l := by
    intro k0 l
    induction l generalizing k0 with
    | nil => intro _; rfl
    | cons p l ih =>
      intro hk
      unfold blindParams
      rw [ih (k0 + 1) fun k h1 h2 => hk k (by omega) (by rw [List.length_cons]; omega),
        hk k0 le_rfl (by rw [List.length_cons]; omega)]
  exact key 0 params fun k _ h2 => h k (by omega)

/-- A flat cosmology with matter and a constant. -/
noncomputable def flatCosmo : Cosmo where
  h := 0.7
  omega0 := fun s => if s = "_m" then some 0.3 else none
  omegaZ := fun s => if s = "_m" then some fun z => 0.3 * (1 + z) ^ 3 / (0.3 * (1 + z) ^ 3 + 0.7) else none
  attr := fun s => if s = "w0_fld" then some (-1) else if s = "wa_fld" then some 0 else none
  derived := []
  fsigma8 := fun _ => 0.4
  sigma8 := fun _ => 0.5

/-- The hypotheses of `C45_within_partial` hold for growth rate, fnl and an equation of state, at redshift 1. -/
example : let params : List (String × ℝ) := [("w0_fld", 0.05), ("f", 0.05), ("fnl", 10)]
    (params.map (·.1)).Nodup ∧ ∀ p ∈ params, (∃ v, IsFiducial flatCosmo (some 1) p.1 v) ∧ (some (1 : ℝ) = none ∨ ¬ IsDensity p.1) := by
  refine ⟨by decide, ?_⟩
  intro p hp
  simp only [List.mem_cons, List.not_mem_nil, or_false] at hp
  rcases hp with rfl | rfl | rfl
  · exact ⟨⟨-1, .other _ (by unfold IsDensity; decide) rfl (by decide) (by simp [flatCosmo])⟩, Or.inr (by unfold IsDensity; decide)⟩
  · exact ⟨⟨_, .growth _ _ rfl rfl (.computed 1 rfl rfl) (.computed 1 rfl rfl) (by norm_num [flatCosmo])⟩, Or.inr (by unfold IsDensity; decide)⟩
  · exact ⟨⟨_, .fnl rfl rfl⟩, Or.inr (by unfold IsDensity; decide)⟩

/-- With a redshift (which blinding the growth rate requires), the matter density is drawn around the density at that redshift, and
passed as the density of today: the blinded cosmology is more than twenty sigmas away from the fiducial one. -/
theorem C45_density_violated : IsFiducial flatCosmo (some 1) "Omega_m" 0.3 ∧ ∀ u : ℕ → ℝ, 0 ≤ u 0 → u 0 < 1 →
    ∃ w, getCosmoBlind flatCosmo u (some [("Omega_m", 0.02)]) (some 1) = .ok ⟨[("Omega_m", w)], []⟩ ∧ 20 * 0.02 < |w - 0.3| := by
  refine ⟨.bigOmega "_m" _ (by decide) (by simp [flatCosmo]), fun u h0 h1 => ?_⟩
  have hval : getFromCosmo flatCosmo "Omega_m" (some 1) = .ok (0.3 * (1 + 1) ^ 3 / (0.3 * (1 + 1) ^ 3 + 0.7)) := by
    have e1 : "omega".toList.isPrefixOf "Omega_m".toList = false := by decide
    have e2 : "Omega".toList.isPrefixOf "Omega_m".toList = true := by decide
    have e3 : String.ofList ("Omega_m".toList.drop 5) = "_m" := by decide
    unfold getFromCosmo
    rw [e1, e2, e3]
    simp [getOmega, flatCosmo, getAttr, Bind.bind, Except.bind]
  refine ⟨0.3 * (1 + 1) ^ 3 / (0.3 * (1 + 1) ^ 3 + 0.7) + 2 * 0.02 * (u 0 - 0.5), ?_, ?_⟩
  · simp [getCosmoBlind, blindParams, hval, Bind.bind, Except.bind]
  · rw [lt_abs]
    left
    norm_num
    linarith

/-- The documented call `get_cosmo_blind(cosmo_fid)`, with default parameters and no redshift, raises `ValueError` unless the growth
rate of the fiducial cosmology is given beforehand. -/
theorem C45_default_call_violated (c : Cosmo) (u : ℕ → ℝ) (hd : c.derived = []) (w0 wa om : ℝ) (h1 : c.attr "w0_fld" = some w0)
    (h2 : c.attr "wa_fld" = some wa) (h3 : c.omega0 "_m" = some om) : getCosmoBlind c u none none = .error .valueError := by
  have hl : ∀ x : String, c.derived.lookup x = none := fun x => by rw [hd]; rfl
  have a1 := getFromCosmo_fiducial (c := c) (z := none) (name := "w0_fld")
    (.other w0 (by unfold IsDensity; decide) (hl _) (by decide) h1) (Or.inl rfl)
  have a2 := getFromCosmo_fiducial (c := c) (z := none) (name := "wa_fld")
    (.other wa (by unfold IsDensity; decide) (hl _) (by decide) h2) (Or.inl rfl)
  have a3 := getFromCosmo_fiducial (c := c) (z := none) (name := "Omega_m") (.bigOmega "_m" om (by decide) h3) (Or.inl rfl)
  have a4 : getFromCosmo c "f" none = .error .valueError := by
    have e1 : "omega".toList.isPrefixOf "f".toList = false := by decide
    have e2 : "Omega".toList.isPrefixOf "f".toList = false := by decide
    unfold getFromCosmo
    rw [e1, e2, hl]
    simp [getGrowth, getAmplitude, hl, Bind.bind, Except.bind]
  simp [getCosmoBlind, defaultParams, blindParams, a1, a2, a3, a4, Bind.bind, Except.bind]

example : flatCosmo.derived = [] ∧ flatCosmo.attr "w0_fld" = some (-1) ∧ flatCosmo.attr "wa_fld" = some 0 ∧ flatCosmo.omega0 "_m" = some 0.3 :=
  ⟨rfl, by simp [flatCosmo], by simp [flatCosmo], by simp [flatCosmo]⟩

/-- The default parameters, in order, have the documented uncertainties: with a redshift, the dark energy parameters, the matter density
(the one at that redshift, see `C45_density_violated`), the growth rate and fnl are drawn within 0.05, 0.2, 0.02, 0.05 and 10 of their
values. -/
theorem C45_default_params (c : Cosmo) (u : ℕ → ℝ) (z : ℝ) (hd : c.derived = []) (w0 wa : ℝ) (om : ℝ → ℝ) (h1 : c.attr "w0_fld" = some w0)
    (h2 : c.attr "wa_fld" = some wa) (h3 : c.omegaZ "_m" = some om) (h4 : c.sigma8 z ≠ 0) :
    ∃ x0 x1 x2 x3 x4, getCosmoBlind c u none (some z) = .ok ⟨[("w0_fld", x0), ("wa_fld", x1), ("Omega_m", x2)], [("f", x3), ("fnl", x4)]⟩ ∧
      (x0 - w0) / 0.05 = 2 * u 0 - 1 ∧ (x1 - wa) / 0.2 = 2 * u 1 - 1 ∧ (x2 - om z) / 0.02 = 2 * u 2 - 1 ∧
      (x3 - c.fsigma8 z / c.sigma8 z) / 0.05 = 2 * u 3 - 1 ∧ x4 / 10 = 2 * u 4 - 1 := by
  have hl : ∀ x : String, c.derived.lookup x = none := fun x => by rw [hd]; rfl
  have a1 := getFromCosmo_fiducial (c := c) (z := some z) (name := "w0_fld")
    (.other w0 (by unfold IsDensity; decide) (hl _) (by decide) h1) (Or.inr (by unfold IsDensity; decide))
  have a2 := getFromCosmo_fiducial (c := c) (z := some z) (name := "wa_fld")
    (.other wa (by unfold IsDensity; decide) (hl _) (by decide) h2) (Or.inr (by unfold IsDensity; decide))
  have a3 : getFromCosmo c "Omega_m" (some z) = .ok (om z) := by
    have e1 : "omega".toList.isPrefixOf "Omega_m".toList = false := by decide
    have e2 : "Omega".toList.isPrefixOf "Omega_m".toList = true := by decide
    have e3 : String.ofList ("Omega_m".toList.drop 5) = "_m" := by decide
    unfold getFromCosmo
    rw [e1, e2, e3]
    simp [getOmega, h3, getAttr, Bind.bind, Except.bind]
  have a4 : getFromCosmo c "f" (some z) = .ok (c.fsigma8 z / c.sigma8 z) := by
    have e1 : "omega".toList.isPrefixOf "f".toList = false := by decide
    have e2 : "Omega".toList.isPrefixOf "f".toList = false := by decide
    unfold getFromCosmo
    rw [e1, e2, hl]
    simp [getGrowth, getAmplitude, hl, Bind.bind, Except.bind, h4]
  have a5 : getFromCosmo c "fnl" (some z) = .ok 0 := by
    have e1 : "omega".toList.isPrefixOf "fnl".toList = false := by decide
    have e2 : "Omega".toList.isPrefixOf "fnl".toList = false := by decide
    unfold getFromCosmo
    rw [e1, e2, hl]
    simp
  refine ⟨_, _, _, _, _, by simp [getCosmoBlind, defaultParams, blindParams, a1, a2, a3, a4, a5, Bind.bind, Except.bind]; exact ⟨⟨rfl, rfl, rfl⟩, rfl, rfl⟩, ?_⟩
  refine ⟨?_, ?_, ?_, ?_, ?_⟩ <;> norm_num <;> ring

example : flatCosmo.derived = [] ∧ flatCosmo.attr "w0_fld" = some (-1) ∧ flatCosmo.attr "wa_fld" = some 0 ∧ (∃ om, flatCosmo.omegaZ "_m" = some om) ∧
    flatCosmo.sigma8 1 ≠ 0 := by
  refine ⟨rfl, by simp [flatCosmo], by simp [flatCosmo], ⟨_, by simp [flatCosmo]; rfl⟩, by norm_num [flatCosmo]⟩

/-- A cosmology given as an instance is used as it is; a name stands for the fiducial cosmology of this name with its own parameters, a
tuple changes these, and parameters alone make a new cosmology; a name that is not known, and nothing else, raises `AttributeError`
when constructors do not raise. -/
theorem C45_cosmology {C P : Type} (fiducial : String → Option (P → Except Err C)) (make : P → Except Err C) (empty : P) :
    (∀ c, getCosmo fiducial make empty (.instance c) = .ok (some c)) ∧
    (∀ s, getCosmo fiducial make empty (.name s) = getCosmo fiducial make empty (.tuple s empty)) ∧
    (∀ s p c, getCosmo fiducial make empty (.tuple s p) = .ok c ↔ ∃ g x, fiducial s = some g ∧ g p = .ok x ∧ c = some x) ∧
    (∀ p c, getCosmo fiducial make empty (.dict p) = .ok c ↔ ∃ x, make p = .ok x ∧ c = some x) ∧
    (∀ a, getCosmo fiducial make empty a = .ok none ↔ a = .none) ∧
    ((∀ s g p, fiducial s = some g → ∃ x, g p = .ok x) → (∀ p, ∃ x, make p = .ok x) → ∀ a,
      getCosmo fiducial make empty a = .error .attributeError ↔ ∃ s, fiducial s = none ∧ (a = .name s ∨ ∃ p, a = .tuple s p)) := by
  have ht : ∀ s p c, getCosmo fiducial make empty (.tuple s p) = .ok c ↔ ∃ g x, fiducial s = some g ∧ g p = .ok x ∧ c = some x := by
    intro s p c
    rcases hs : fiducial s with _ | g
    · simp [getCosmo, hs, getAttr, Bind.bind, Except.bind]
    · rcases hg : g p with e | x
      · simp [getCosmo, hs, getAttr, Bind.bind, Except.bind, hg]
      · simp [getCosmo, hs, getAttr, Bind.bind, Except.bind, hg, eq_comm]
  have hd : ∀ p c, getCosmo fiducial make empty (.dict p) = .ok c ↔ ∃ x, make p = .ok x ∧ c = some x := by
    intro p c
    rcases hm : make p with e | x
    · simp [getCosmo, hm, Bind.bind, Except.bind]
    · simp [getCosmo, hm, Bind.bind, Except.bind, eq_comm]
  refine ⟨fun _ => rfl, fun _ => rfl, ht, hd, ?_, ?_⟩
  · rintro (_ | c | s | ⟨s, p⟩ | p)
    · simp [getCosmo]
    · simp [getCosmo]
    · rw [show getCosmo fiducial make empty (.name s) = getCosmo fiducial make empty (.tuple s empty) from rfl, ht]
      simp
    · rw [ht]
      simp
    · rw [hd]
      simp
  · intro h1 h2
    have hterr : ∀ s p, getCosmo fiducial make empty (.tuple s p) = .error .attributeError ↔ fiducial s = none := by
      intro s p
      rcases hs : fiducial s with _ | g
      · simp [getCosmo, hs, getAttr, Bind.bind, Except.bind]
      · obtain ⟨x, hx⟩ := h1 s g p hs
        simp [getCosmo, hs, getAttr, Bind.bind, Except.bind, hx]
    rintro (_ | c | s | ⟨s, p⟩ | p)
    · simp [getCosmo]
    · simp [getCosmo]
    · rw [show getCosmo fiducial make empty (.name s) = getCosmo fiducial make empty (.tuple s empty) from rfl, hterr]
      simp
    · rw [hterr]
      simp
    · obtain ⟨x, hx⟩ := h2 p
      simp [getCosmo, hx, Bind.bind, Except.bind]

end Verif.Props
