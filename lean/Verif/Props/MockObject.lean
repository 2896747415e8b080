import Verif.Model.MockObject
import Verif.Props.BlindPng
import Verif.Props.MeshGeom
import Verif.Props.GaussField
import Verif.Props.Poisson
import Verif.Props.Lagrangian
import Verif.Props.Kaiser
import Verif.Props.Readout

/-!
# C79, C80: calls on a mock, meshes from arrays
-/

namespace Verif.Props

open Verif Verif.Model Verif.Lemmas Verif.Lemmas.Mesh

variable {M : Mesh}

/-! ### Statement -/

/-- What a call prepares. -/
inductive Stage where
  /-- the density contrast -/
  | contrast
  /-- the selection function -/
  | selection
  /-- the particles -/
  | particles
deriving DecidableEq

/-- The stages a method depends on: noise and sampling need a density contrast and a selection function; redshift-space distortions
act on the density contrast of an Eulerian mock, on the particles of a Lagrangian mock. -/
def Needs (cls : MockClass) : Mock.Call M → Stage → Prop
  | .setReal .., _ => False
  | .setConstant .., _ => False
  | .setSelection .., _ => False
  | .whiteNoise .., t => t = .contrast ∨ t = .selection
  | .sample .., t => t = .contrast ∨ t = .selection
  | .setRsd .., t => match cls with
    | .eulerian => t = .contrast
    | .lagrangian => t = .particles

/-- The method that prepares a stage. -/
def Prepares : Mock.Call M → Stage → Prop
  | .setReal .., t => t = .contrast
  | .setConstant .., t => t = .selection
  | .setSelection .., t => t = .selection
  | .sample .., t => t = .particles
  | _, _ => False

/-- Some call of the history prepared the stage, and returned. -/
def Prepared (calls : List (Mock.Call M)) (errors : List (Option Err)) (t : Stage) : Prop :=
  ∃ p ∈ calls.zip errors, Prepares p.1 t ∧ p.2 = none

/-- The line of sight of a call can be read. -/
def LosOk : Mock.Call M → Prop
  | .setRsd _ los => los = .none ∨ ∃ v, getLos los = .ok v
  | _ => True

/-! ### Histories -/

/-- Attributes that are set. -/
def Has (s : Mock M) : Stage → Prop
  | .contrast => s.delta.isSome
  | .selection => s.nbar.isSome
  | .particles => s.position.isSome

/-- Attributes of the same class are set together. -/
def SetTogether (cls : MockClass) (s : Mock M) : Prop :=
  cls = .lagrangian → (s.delta.isSome → s.disp.isSome) ∧ (s.position.isSome ↔ s.disps.isSome)

/-- An exception other than `AttributeError`, if any. -/
def NoAttr {α : Type} (x : Except Err α) : Prop := x ≠ .error .attributeError

theorem noAttr_bind {α β : Type} {x : Except Err α} {f : α → Except Err β} (hx : NoAttr x) (hf : ∀ a, NoAttr (f a)) :
    NoAttr (x >>= f) := by
  cases x with
  | error e => intro h; exact hx (by simpa [bind, Except.bind] using h)
  | ok a => exact hf a

theorem noAttr_mapM {α β : Type} {f : α → Except Err β} (hf : ∀ a, NoAttr (f a)) (l : List α) : NoAttr (l.mapM f) := by
  induction l with
  | nil => simp [NoAttr, pure, Except.pure]
  | cons a l ih =>
    rw [List.mapM_cons]
    exact noAttr_bind (hf a) fun b => noAttr_bind ih fun bs => by simp [NoAttr, pure, Except.pure]

theorem noAttr_normalize (v : V3 ℝ) : NoAttr (Model.normalize v) := by
  unfold Model.normalize NoAttr
  split <;> simp

theorem noAttr_getLos (los : Axis) : NoAttr (getLos los) := by
  have hu : ∀ i, NoAttr (unitAt i (1 : ℝ)) := by
    intro i
    unfold unitAt NoAttr
    split_ifs <;> simp
  cases los with
  | str s =>
    refine noAttr_bind ?_ fun i => noAttr_bind (hu i) noAttr_normalize
    unfold xyzIndex NoAttr
    split_ifs <;> simp
  | idx i => exact noAttr_bind (hu i) noAttr_normalize
  | vec v => exact noAttr_normalize v
  | none => exact noAttr_normalize _

theorem noAttr_lagrangianRsd (f : Factor) (los : Axis) (p d : List (V3 ℝ)) : NoAttr (lagrangianRsd f los p d) := by
  have hv : ∀ v l, NoAttr (vectorProjection v l) := fun v l => noAttr_bind (noAttr_normalize l) fun a => by simp [NoAttr]
  have hk : ∀ rsd : List (V3 ℝ), NoAttr (match f with
      | .const f => Except.ok (List.zipWith (· + ·) p (rsd.map fun r => f • r))
      | .fn f => mulRows rsd (p.map fun p => f p.norm) >>= fun rsd => Except.ok (List.zipWith (· + ·) p rsd)) := by
    intro rsd
    cases f with
    | const c => simp [NoAttr]
    | fn g =>
      refine noAttr_bind ?_ fun _ => by simp [NoAttr]
      unfold mulRows NoAttr
      split <;> simp
  cases f <;> cases los <;>
    first
    | exact noAttr_bind (noAttr_mapM (fun pv => noAttr_bind (noAttr_normalize _) fun l => hv _ _) _) hk
    | exact noAttr_bind (noAttr_getLos _) fun l => noAttr_bind (noAttr_mapM (fun v => hv v l) _) hk

theorem noAttr_eulerianRsd (f : Factor) (los : Axis) (k : M.Idx → ℂ) (d : M.Idx → ℝ) : NoAttr (M.eulerianRsd f los k d) := by
  unfold Mesh.eulerianRsd
  split
  · simp [NoAttr]
  · rename_i h
    split
    · rename_i e he
      intro h'
      simp only [Except.error.injEq] at h'
      subst h'
      exact noAttr_getLos _ he
    · simp [NoAttr]

theorem step_done {cls : MockClass} {read} {s s' : Mock M} {c : Mock.Call M} (h : s.step cls read c = .done s')
    (hs : SetTogether cls s) :
    (∀ t, Has s' t ↔ Has s t ∨ Prepares c t) ∧ SetTogether cls s' ∧ s'.deltaK = s.deltaK ∧ ∀ t, Needs cls c t → Has s t := by
  cases c with
  | setReal b l =>
    simp only [Mock.step, Mock.Outcome.done.injEq] at h
    subst h
    refine ⟨fun t => ?_, fun hc => ?_, rfl, fun t ht => ht.elim⟩
    · cases t <;> simp [Has, Prepares, Mock.setReal]
    · subst hc
      exact ⟨fun _ => rfl, (hs rfl).2⟩
  | setConstant x =>
    simp only [Mock.step, Mock.Outcome.done.injEq] at h
    subst h
    refine ⟨fun t => ?_, hs, rfl, fun t ht => ht.elim⟩
    cases t <;> simp [Has, Prepares, Mock.setConstant]
  | setSelection n i =>
    simp only [Mock.step, Mock.Outcome.done.injEq] at h
    subst h
    refine ⟨fun t => ?_, hs, rfl, fun t ht => ht.elim⟩
    cases t <;> simp [Has, Prepares, Mock.setSelection]
  | whiteNoise n =>
    simp only [Mock.step, Mock.whiteNoise] at h
    split at h
    · rename_i delta nbar hd hn
      split at h
      · exact absurd h (by simp)
      · simp only [Mock.Outcome.done.injEq] at h
        subst h
        refine ⟨fun t => ?_, fun hc => ?_, rfl, fun t ht => ?_⟩
        · cases t <;> simp [Has, Prepares, hd]
        · have := hs hc
          rw [hd] at this
          exact ⟨fun _ => this.1 rfl, this.2⟩
        · rcases ht with rfl | rfl <;> simp [Has, hd, hn]
    · exact absurd h (by simp)
  | setRsd f los =>
    cases cls with
    | eulerian =>
      simp only [Mock.step, Mock.eulerianSetRsd] at h
      split at h
      · exact absurd h (by simp)
      · rename_i delta hd
        split at h
        · exact absurd h (by simp)
        · exact absurd h (by simp)
        · split at h
          · exact absurd h (by simp)
          · simp only [Mock.Outcome.done.injEq] at h
            subst h
            refine ⟨fun t => ?_, fun hc => by simp at hc, rfl, fun t ht => ?_⟩
            · cases t <;> simp [Has, Prepares, hd]
            · have : t = .contrast := ht
              subst this
              simp [Has, hd]
    | lagrangian =>
      simp only [Mock.step, Mock.lagrangianSetRsd] at h
      split at h
      · exact absurd h (by simp)
      · exact absurd h (by simp)
      · split at h
        · rename_i p d hp hd
          split at h
          · exact absurd h (by simp)
          · exact absurd h (by simp)
          · simp only [Mock.Outcome.done.injEq] at h
            subst h
            refine ⟨fun t => ?_, fun hc => ?_, rfl, fun t ht => ?_⟩
            · cases t <;> simp [Has, Prepares, hp]
            · exact ⟨(hs rfl).1, by simp [hd]⟩
            · have : t = .particles := ht
              subst this
              simp [Has, hp]
        · exact absurd h (by simp)
  | sample r k u =>
    simp only [Mock.step, Mock.sample] at h
    split at h
    · rename_i delta nbar hd hn
      have hneed : ∀ t, Needs cls (Mock.Call.sample r k u : Mock.Call M) t → Has s t := by
        intro t ht
        rcases ht with rfl | rfl <;> simp [Has, hd, hn]
      split at h
      · exact absurd h (by simp)
      · cases cls with
        | eulerian =>
          simp only [Mock.Outcome.done.injEq] at h
          subst h
          refine ⟨fun t => ?_, fun hc => by simp at hc, rfl, hneed⟩
          cases t <;> simp [Has, Prepares]
        | lagrangian =>
          simp only at h
          split at h
          · exact absurd h (by simp)
          · rename_i disp hdisp
            simp only [Mock.Outcome.done.injEq] at h
            subst h
            refine ⟨fun t => ?_, fun hc => ⟨(hs rfl).1, by simp⟩, rfl, hneed⟩
            cases t <;> simp [Has, Prepares]
    · exact absurd h (by simp)

theorem step_raised {cls : MockClass} {read} {s s' : Mock M} {c : Mock.Call M} {e : Err} (h : s.step cls read c = .raised s' e)
    (hs : SetTogether cls s) : s' = s := by
  cases c with
  | setReal b l => simp [Mock.step] at h
  | setConstant x => simp [Mock.step] at h
  | setSelection n i => simp [Mock.step] at h
  | whiteNoise n =>
    simp only [Mock.step, Mock.whiteNoise] at h
    split at h
    · split at h <;> simp at h
    · simp only [Mock.Outcome.raised.injEq] at h
      exact h.1.symm
  | setRsd f los =>
    cases cls with
    | eulerian =>
      simp only [Mock.step, Mock.eulerianSetRsd] at h
      split at h
      · simp only [Mock.Outcome.raised.injEq] at h
        exact h.1.symm
      · split at h
        · simp at h
        · simp only [Mock.Outcome.raised.injEq] at h
          exact h.1.symm
        · split at h <;> simp at h
    | lagrangian =>
      simp only [Mock.step, Mock.lagrangianSetRsd] at h
      split at h
      · simp at h
      · simp only [Mock.Outcome.raised.injEq] at h
        exact h.1.symm
      · split at h
        · split at h
          · simp at h
          · simp only [Mock.Outcome.raised.injEq] at h
            exact h.1.symm
          · simp at h
        · simp only [Mock.Outcome.raised.injEq] at h
          exact h.1.symm
  | sample r k u =>
    simp only [Mock.step, Mock.sample] at h
    split at h
    · rename_i delta nbar hd hn
      split at h
      · simp only [Mock.Outcome.raised.injEq] at h
        exact h.1.symm
      · cases cls with
        | eulerian => simp at h
        | lagrangian =>
          simp only at h
          have := (hs rfl).1 (by simp [hd])
          obtain ⟨disp, hdisp⟩ := Option.isSome_iff_exists.1 this
          rw [hdisp] at h
          simp at h
    · simp only [Mock.Outcome.raised.injEq] at h
      exact h.1.symm

theorem step_attribute {cls : MockClass} {read} {s : Mock M} {c : Mock.Call M} (hc : LosOk c)
    (hs : SetTogether cls s) : s.step cls read c = .raised s .attributeError ↔ ∃ t, Needs cls c t ∧ ¬Has s t := by
  cases c with
  | setReal b l => simp [Mock.step, Needs]
  | setConstant x => simp [Mock.step, Needs]
  | setSelection n i => simp [Mock.step, Needs]
  | whiteNoise n =>
    simp only [Mock.step, Mock.whiteNoise, Needs]
    rcases hd : s.delta with _ | delta <;> rcases hn : s.nbar with _ | nbar
    · simp [Has, hd]
    · simp [Has, hd]
    · simp [Has, hn]
    · simp only
      split <;> simp [Has, hd, hn]
  | setRsd f los =>
    cases cls with
    | eulerian =>
      simp only [Mock.step, Mock.eulerianSetRsd, Needs]
      rcases hd : s.delta with _ | delta
      · simp [Has, hd]
      · have := noAttr_eulerianRsd f los s.deltaK delta
        simp only [exists_eq_left, Has, hd, Option.isSome_some, not_true_eq_false, iff_false]
        split
        · simp
        · rename_i e he h
          intro h'
          simp only [Mock.Outcome.raised.injEq, true_and] at h'
          subst h'
          exact this h
        · split <;> simp
    | lagrangian =>
      simp only [Mock.step, Mock.lagrangianSetRsd, Needs]
      have hv : Mock.readLos los = .ok () := by
        rcases hc with rfl | ⟨v, hv⟩
        · rfl
        · cases los with
          | none => rfl
          | _ => simp only [Mock.readLos, hv]; rfl
      rw [hv]
      simp only [exists_eq_left]
      have h2 := (hs rfl).2
      rcases hp : s.position with _ | p <;> rcases hd : s.disps with _ | d
      · simp [Has, hp]
      · simp [hp, hd] at h2
      · simp [hp, hd] at h2
      · have := noAttr_lagrangianRsd f los p d
        simp only [Has, hp, Option.isSome_some, not_true_eq_false, iff_false]
        split
        · simp
        · rename_i e he h
          intro h'
          simp only [Mock.Outcome.raised.injEq, true_and] at h'
          subst h'
          exact this h
        · simp
  | sample r k u =>
    simp only [Mock.step, Mock.sample, Needs]
    rcases hd : s.delta with _ | delta <;> rcases hn : s.nbar with _ | nbar
    · simp [Has, hd]
    · simp [Has, hd]
    · simp [Has, hn]
    · have hfalse : ¬∃ t, (t = Stage.contrast ∨ t = Stage.selection) ∧ ¬Has s t := by
        rintro ⟨t, rfl | rfl, ht⟩ <;> simp [Has, hd, hn] at ht
      simp only [hfalse, iff_false]
      split
      · rename_i e he
        unfold Mesh.poissonSample at he
        split at he
        · simp only [Except.error.injEq] at he
          subst he
          simp
        · simp at he
      · cases cls with
        | eulerian => simp
        | lagrangian =>
          obtain ⟨disp, hdisp⟩ := Option.isSome_iff_exists.1 ((hs rfl).1 (by simp [hd]))
          rw [hdisp]
          simp

theorem run_inv {cls : MockClass} {read} {s s' : Mock M} {calls : List (Mock.Call M)} {errs : List (Option Err)}
    (h : s.run cls read calls = some (s', errs)) (hs : SetTogether cls s) :
    (∀ t, Has s' t ↔ Has s t ∨ Prepared calls errs t) ∧ SetTogether cls s' ∧ s'.deltaK = s.deltaK ∧ errs.length = calls.length := by
  induction calls generalizing s errs with
  | nil =>
    simp only [Mock.run, Option.some.injEq, Prod.mk.injEq] at h
    obtain ⟨rfl, rfl⟩ := h
    exact ⟨fun t => by simp [Prepared], hs, rfl, rfl⟩
  | cons c cs ih =>
    rw [Mock.run] at h
    split at h
    · rename_i s1 h1
      obtain ⟨⟨s2, es⟩, h2, h3⟩ := Option.map_eq_some_iff.1 h
      simp only [Prod.mk.injEq] at h3
      obtain ⟨rfl, rfl⟩ := h3
      obtain ⟨a1, a2, a3, -⟩ := step_done h1 hs
      obtain ⟨b1, b2, b3, b4⟩ := ih h2 a2
      refine ⟨fun t => ?_, b2, b3.trans a3, by simp [b4]⟩
      rw [b1, a1]
      simp [Prepared, or_assoc]
    · rename_i s1 e h1
      obtain ⟨⟨s2, es⟩, h2, h3⟩ := Option.map_eq_some_iff.1 h
      simp only [Prod.mk.injEq] at h3
      obtain ⟨rfl, rfl⟩ := h3
      have := step_raised h1 hs
      subst this
      obtain ⟨b1, b2, b3, b4⟩ := ih h2 hs
      refine ⟨fun t => ?_, b2, b3, by simp [b4]⟩
      rw [b1]
      simp [Prepared]
    · exact absurd h (by simp)

theorem init_together (cls : MockClass) (k : M.Idx → ℂ) : SetTogether cls (Mock.init k) := fun _ => by simp [Mock.init]

/-! ### Theorems -/

/-- **C79.** After any history of calls on a new mock, a call raises `AttributeError` exactly if one of the stages it depends on was
not prepared by a call that returned. -/
theorem C79_stages {cls : MockClass} {read} {deltaK : M.Idx → ℂ} {calls : List (Mock.Call M)} {s : Mock M} {errs : List (Option Err)}
    (h : (Mock.init deltaK).run cls read calls = some (s, errs)) {c : Mock.Call M} (hc : LosOk c) :
    (∃ s', s.step cls read c = .raised s' .attributeError) ↔ ∃ t, Needs cls c t ∧ ¬Prepared calls errs t := by
  obtain ⟨h1, h2, -, -⟩ := run_inv h (init_together cls deltaK)
  have h3 : ∀ t, Has s t ↔ Prepared calls errs t := by
    intro t
    rw [h1]
    cases t <;> simp [Has, Mock.init]
  simp only [← h3]
  rw [← step_attribute (read := read) hc h2]
  constructor
  · rintro ⟨s', h⟩
    rw [h, step_raised h h2]
  · exact fun h => ⟨s, h⟩

/-- **C79.** After any history, a call that raises leaves the mock as it was. -/
theorem C79_raised {cls : MockClass} {read} {deltaK : M.Idx → ℂ} {calls : List (Mock.Call M)} {s : Mock M} {errs : List (Option Err)}
    (h : (Mock.init deltaK).run cls read calls = some (s, errs)) {c : Mock.Call M} {s' : Mock M} {e : Err}
    (hr : s.step cls read c = .raised s' e) : s' = s := step_raised hr (run_inv h (init_together cls deltaK)).2.1

/-- **C79.** The modes are never changed, and `set_real_delta_field` starts again from them, whatever was done before. -/
theorem C79_restart {cls : MockClass} {read} {deltaK : M.Idx → ℂ} {calls : List (Mock.Call M)} {s : Mock M} {errs : List (Option Err)}
    (h : (Mock.init deltaK).run cls read calls = some (s, errs)) (b : Mesh.Bias) (l : Bool) :
    s.deltaK = deltaK ∧ ∃ s', s.step cls read (.setReal b l) = .done s' ∧ s'.delta = some (M.realDelta b l deltaK) ∧
      (cls = .lagrangian → s'.disp = some fun a i => (M.dispC deltaK a i).re) ∧ s'.nbar = s.nbar ∧ s'.position = s.position := by
  obtain ⟨-, -, h3, -⟩ := run_inv h (init_together cls deltaK)
  refine ⟨h3, _, rfl, ?_, ?_, rfl, rfl⟩
  · unfold Mock.setReal; rw [h3]; rfl
  · rintro rfl
    unfold Mock.setReal; rw [h3]; rfl

/-- **C79.** The particles only change when sampled, or by the redshift-space distortions of a Lagrangian mock: those of a mock whose
fields are changed after sampling are those of the former fields. -/
theorem C79_particles {cls : MockClass} {read} {s s' : Mock M} {c : Mock.Call M} (h : s.step cls read c = .done s')
    (hc : s'.position ≠ s.position) : (∃ r k u, c = .sample r k u) ∨ cls = .lagrangian ∧ ∃ f los, c = .setRsd f los := by
  cases c with
  | setReal b l => simp only [Mock.step, Mock.Outcome.done.injEq] at h; subst h; exact absurd rfl hc
  | setConstant x => simp only [Mock.step, Mock.Outcome.done.injEq] at h; subst h; exact absurd rfl hc
  | setSelection n i => simp only [Mock.step, Mock.Outcome.done.injEq] at h; subst h; exact absurd rfl hc
  | whiteNoise n =>
    simp only [Mock.step, Mock.whiteNoise] at h
    split at h
    · split at h
      · simp at h
      · simp only [Mock.Outcome.done.injEq] at h; subst h; exact absurd rfl hc
    · simp at h
  | setRsd f los =>
    cases cls with
    | eulerian =>
      simp only [Mock.step, Mock.eulerianSetRsd] at h
      split at h
      · simp at h
      · split at h
        · simp at h
        · simp at h
        · split at h
          · simp at h
          · simp only [Mock.Outcome.done.injEq] at h; subst h; exact absurd rfl hc
    | lagrangian => exact .inr ⟨rfl, f, los, rfl⟩
  | sample r k u => exact .inl ⟨r, k, u, rfl⟩

/-- **C79.** A mock built from a real field has this field as density contrast, and the modes of the field as modes. -/
theorem C79_from_real (f : M.Idx → ℝ) (cls : MockClass) (read) : ∃ s, (Mock.fromField (.real f)).step cls read (.setReal .none false) = .done s ∧
    s.delta = some f ∧ ∀ i, M.c2r s.deltaK i = f i := by
  refine ⟨_, rfl, ?_, fun i => ?_⟩
  · simp only [Mock.setReal, Mock.fromField, Mock.init, Mesh.realDelta, if_false, Option.some.injEq, Bool.false_eq_true]
    funext i
    simp only [Mesh.biased]
    rw [c2rReal_r2c]
  · simp only [Mock.setReal, Mock.fromField, Mock.init]
    rw [c2r_r2c]

/-- **C79.** A mock built from the modes of a real field keeps them: the modes of its density contrast are those given. -/
theorem C79_from_complex (F : M.Idx → ℂ) (hF : Hermitian M F) (cls : MockClass) (read) :
    ∃ s delta, (Mock.fromField (.complex F)).step cls read (.setReal .none false) = .done s ∧ s.deltaK = F ∧ s.delta = some delta ∧
      M.r2c (fun i => (delta i : ℂ)) = F := by
  refine ⟨_, _, rfl, rfl, rfl, ?_⟩
  have h := (real_iff M F).2 hF
  funext k
  simp only [Mock.fromField, Mock.init, Mesh.realDelta, if_false, Bool.false_eq_true]
  have : (fun i => ((M.biased .none (M.c2rReal F) i : ℝ) : ℂ)) = M.c2r F := by
    funext i
    simp only [Mesh.biased, Mesh.c2rReal]
    exact Complex.ext (by simp) (by simp [h i])
  rw [this, r2c_c2r]

theorem cellMean_lognormal (hL : ∀ d, 0 < M.boxsize d) (b : Mesh.Bias) (k : M.Idx → ℂ) {x : ℝ} (hx : 0 ≤ x) (disp) (i : M.Idx) :
    0 ≤ M.cellMean ⟨M.realDelta b true k, .inl x, disp⟩ i := by
  have h1 := C39_positive M b k i
  have h2 : 0 ≤ M.dv := Finset.prod_nonneg fun d _ => div_nonneg (hL d).le (by positivity)
  unfold Mesh.cellMean Mesh.Fields.nbarAt
  exact mul_nonneg (mul_nonneg h1.le hx) h2

/-- **C79.** Setting the selection function stores the number, or the values of the function on the mesh with the interlacing asked
for, and the norm (the integral of its square); the rest of the mock is unchanged, and the last selection function counts. -/
theorem C79_selection {cls : MockClass} {read} (s : Mock M) (x : ℝ) (nbar : Sky → ℝ) (interlacing : ℕ) :
    (∃ s', s.step cls read (.setConstant x) = .done s' ∧ s'.nbar = some (.inl x) ∧ s'.norm = some (x ^ 2 * volume M) ∧
      s'.deltaK = s.deltaK ∧ s'.delta = s.delta ∧ s'.disp = s.disp ∧ s'.position = s.position ∧ s'.disps = s.disps) ∧
    ∃ s', s.step cls read (.setSelection nbar interlacing) = .done s' ∧ s'.nbar = some (.inr (M.selection nbar interlacing)) ∧
      s'.norm = some (∑ i, M.selection nbar interlacing i ^ 2 * (volume M / ∏ d, (M.n d : ℝ))) ∧
      s'.deltaK = s.deltaK ∧ s'.delta = s.delta ∧ s'.disp = s.disp ∧ s'.position = s.position ∧ s'.disps = s.disps := by
  refine ⟨⟨_, rfl, rfl, ?_, rfl, rfl, rfl, rfl, rfl⟩, ⟨_, rfl, rfl, ?_, rfl, rfl, rfl, rfl, rfl⟩⟩
  · exact congrArg some ((C70_norm M _).2 x rfl)
  · exact congrArg some (C70_norm M _).1

/-- **C79.** A whole run of an Eulerian mock, with a positive contrast: no call raises, and the catalog has the size and centre of
the box, and in each cell of the mesh as many particles as drawn. -/
theorem C79_eulerian_run (hL : ∀ d, 0 < M.boxsize d) (read) (deltaK : M.Idx → ℂ) (b : Mesh.Bias) {x : ℝ} (hx : 0 ≤ x)
    {ranks : List (List M.Idx)} (hr : Decomposition M ranks) (counts : M.Idx → ℕ) {u : ℕ → Fin 3 → ℝ}
    (hu : ∀ j d, 0 ≤ u j d ∧ u j d < 1) :
    ∃ (s : Mock M) (ps : List (Fin 3 → ℝ)), (Mock.init deltaK).run .eulerian read [.setReal b true, .setConstant x, .sample ranks counts u] =
        some (s, [none, none, none]) ∧
      s.toCatalog .eulerian = .ok ⟨⟨M.boxsize 0, M.boxsize 1, M.boxsize 2⟩, ⟨M.boxcenter 0, M.boxcenter 1, M.boxcenter 2⟩,
        ps.map fun p => ⟨p 0, p 1, p 2⟩, none⟩ ∧
      ps.length = ∑ i, counts i ∧ (∀ p ∈ ps, ∃ i, InCell M i p) ∧
      open Classical in ∀ i, ps.countP (fun p => decide (InCell M i p)) = counts i := by
  obtain ⟨ps, h1, h2, h3, h4⟩ := C40_counts M hL ⟨M.realDelta b true deltaK, .inl x, fun _ _ => 0⟩
    (cellMean_lognormal hL b deltaK hx _) ranks hr counts u hu
  refine ⟨?_, ps, ?_, ?_, h4, h3, h2⟩
  · exact { deltaK := deltaK, delta := some (M.realDelta b true deltaK), disp := none, nbar := some (.inl x),
            norm := some (M.norm ⟨fun _ => 0, .inl x, fun _ _ => 0⟩), position := some (ps.map rowOf), disps := none }
  · simp only [Mock.run, Mock.step, Mock.setReal, Mock.setConstant, Mock.sample, Mock.init, Mock.fields, Option.getD_none, h1,
      Option.map_some]
  · rfl

/-- **C79.** A whole run of a Lagrangian mock: no call raises; there are as many particles as drawn; each particle, first in a cell of
the mesh at `p`, is moved by the displacement read at `p`, put back in the box by whole sides of the box, and moved along the line of
sight; and its displacement is in the catalog. -/
theorem C79_lagrangian_run (hL : ∀ d, 0 < M.boxsize d) (read : (M.Idx → ℝ) → (Fin 3 → ℝ) → ℝ) (deltaK : M.Idx → ℂ) (b : Mesh.Bias)
    {x : ℝ} (hx : 0 ≤ x) {ranks : List (List M.Idx)} (hr : Decomposition M ranks) (counts : M.Idx → ℕ) {u : ℕ → Fin 3 → ℝ}
    (hu : ∀ j d, 0 ≤ u j d ∧ u j d < 1) {los : Axis} {n : V3 ℝ} (hn : Spec.AxisMeans los n) (f : ℝ) :
    ∃ (s : Mock M) (ps : List (Fin 3 → ℝ)) (P D : List (V3 ℝ)), (Mock.init deltaK).run .lagrangian read
        [.setReal b true, .setConstant x, .sample ranks counts u, .setRsd (.const f) los] = some (s, [none, none, none, none]) ∧
      s.toCatalog .lagrangian = .ok ⟨⟨M.boxsize 0, M.boxsize 1, M.boxsize 2⟩, ⟨M.boxcenter 0, M.boxcenter 1, M.boxcenter 2⟩,
        P, some D⟩ ∧
      ps.length = ∑ i, counts i ∧ P.length = ps.length ∧ D.length = ps.length ∧
      (open Classical in ∀ i, ps.countP (fun p => decide (InCell M i p)) = counts i) ∧
      ∀ (j : ℕ) (p : Fin 3 → ℝ), ps[j]? = some p → ∃ (v : Fin 3 → ℝ) (q : Fin 3 → ℝ),
        (∀ a, v a = read (fun i => (M.dispC deltaK a i).re) (fromCorner M p)) ∧ InMeshBox M q ∧
        SamePeriodic M (fun d => p d + v d) q ∧
        P[j]? = some (⟨q 0, q 1, q 2⟩ + (f * V3.dot ⟨v 0, v 1, v 2⟩ n) • n) ∧ D[j]? = some ⟨v 0, v 1, v 2⟩ := by
  have hlos : los ≠ .none := by rintro rfl; cases hn
  have hg := axisMeans_getLos hn
  obtain ⟨ps, h1, h2, h3, h4⟩ := C40_counts M hL
    ⟨M.realDelta b true deltaK, .inl x, fun a i => (M.dispC deltaK a i).re⟩ (cellMean_lognormal hL b deltaK hx _) ranks hr counts u hu
  set rows := M.lagrangianSample (fun a p => read (fun i => (M.dispC deltaK a i).re) fun d => p d - M.boxcenter d + M.boxsize d / 2) ps
    with hrows
  obtain ⟨l1, l2⟩ := C41_sample M hL (fun a p => read (fun i => (M.dispC deltaK a i).re) fun d => p d - M.boxcenter d + M.boxsize d / 2) ps
  rw [← hrows] at l1 l2
  set P := List.zipWith (fun p v => p + (f * V3.dot v n) • n) (rows.map fun r => rowOf r.1) (rows.map fun r => rowOf r.2) with hP
  have hrsd := C41_rsd_fixed hlos hg f (rows.map fun r => rowOf r.1) (rows.map fun r => rowOf r.2)
  have hread : Mock.readLos los = .ok () := by
    cases los with
    | none => exact absurd rfl hlos
    | _ => simp only [Mock.readLos, hg]; rfl
  refine ⟨⟨deltaK, some (M.realDelta b true deltaK), some fun a i => (M.dispC deltaK a i).re, some (.inl x),
    some (M.norm ⟨fun _ => 0, .inl x, fun _ _ => 0⟩), some P, some (rows.map fun r => rowOf r.2)⟩, ps, P, rows.map fun r => rowOf r.2,
    ?_, rfl, h4, by simp [hP, l1], by simp [l1], h2, ?_⟩
  · simp only [Mock.run, Mock.step, Mock.setReal, Mock.setConstant, Mock.sample, Mock.init, Mock.fields, Option.getD_some, h1,
      Option.map_some, Mock.lagrangianSetRsd, hread, ← hrows, hrsd, ← hP]
  · intro j p hp
    obtain ⟨q, q1, q2, q3, -⟩ := l2 j p hp
    refine ⟨_, q, fun a => ?_, q2, q3, ?_, ?_⟩
    · unfold fromCorner
      congr 1
      funext d
      ring
    · rw [hP, List.getElem?_zipWith, List.getElem?_map, List.getElem?_map, q1]
      rfl
    · rw [List.getElem?_map, q1]
      rfl

/-- All hypotheses of both runs are met on `mesh4`, with two particles in each cell, and nodes on a single rank. -/
example : ∃ (s : Mock mesh4) (ps : List (Fin 3 → ℝ)), (Mock.init (M := mesh4) fun _ => 0).run .eulerian (fun _ _ => 0) [.setReal .none true, .setConstant 3,
      .sample [Finset.univ.toList] (fun _ => 2) fun _ _ => 0] = some (s, [none, none, none]) ∧
    s.toCatalog .eulerian = .ok ⟨⟨8, 8, 8⟩, ⟨0, 0, 0⟩, ps.map rowOf, none⟩ ∧ ps.length = 128 := by
  obtain ⟨s, ps, h1, h2, h3, -⟩ := C79_eulerian_run (M := mesh4) (fun _ => by simp [mesh4]) (fun _ _ => 0) (fun _ => 0) .none (x := 3)
    (by norm_num) (ranks := [Finset.univ.toList]) (by simp [Decomposition]) (fun _ => 2) (u := fun _ _ => 0)
    (fun _ _ => ⟨le_refl _, by norm_num⟩)
  refine ⟨s, ps, h1, h2, ?_⟩
  rw [h3, Finset.sum_const, Finset.card_univ, Fintype.card_pi]
  simp [ZMod.card, mesh4]

/-- **C79.** After any history, `to_catalog` raises `AttributeError` exactly if no sampling returned; `to_nbodykit_mesh` exactly if
the contrast or the selection function was not prepared, and otherwise exports their product. -/
theorem C79_export {cls : MockClass} {read} {deltaK : M.Idx → ℂ} {calls : List (Mock.Call M)} {s : Mock M} {errs : List (Option Err)}
    (h : (Mock.init deltaK).run cls read calls = some (s, errs)) :
    (s.toCatalog cls = .error .attributeError ↔ ¬Prepared calls errs .particles) ∧
    (s.toMesh = .error .attributeError ↔ ¬(Prepared calls errs .contrast ∧ Prepared calls errs .selection)) ∧
    ∀ d, s.delta = some d → (∀ x, s.nbar = some (.inl x) → s.toMesh = .ok fun i => x * d i) ∧
      ∀ f, s.nbar = some (.inr f) → s.toMesh = .ok fun i => f i * d i := by
  obtain ⟨h1, h2, -, -⟩ := run_inv h (init_together cls deltaK)
  have h3 : ∀ t, Has s t ↔ Prepared calls errs t := by
    intro t
    rw [h1]
    cases t <;> simp [Has, Mock.init]
  refine ⟨?_, ?_, ?_⟩
  · rw [← h3]
    unfold Mock.toCatalog
    cases cls with
    | eulerian => rcases hp : s.position with _ | p <;> simp [Has, hp]
    | lagrangian =>
      have := (h2 rfl).2
      rcases hp : s.position with _ | p <;> rcases hd : s.disps with _ | d <;> simp_all [Has]
  · rw [← h3, ← h3]
    unfold Mock.toMesh
    rcases hp : s.delta with _ | p <;> rcases hd : s.nbar with _ | d <;> simp [Has, hp, hd]
  · intro d hd
    unfold Mock.toMesh
    refine ⟨fun x hx => ?_, fun f hf => ?_⟩
    · rw [hd, hx]
      simp only [Except.ok.injEq]
      funext i
      exact mul_comm _ _
    · rw [hd, hf]
      simp only [Except.ok.injEq]
      funext i
      exact mul_comm _ _

/-- Sampling a mock without selection function raises, and so does `to_catalog`; once it is set, sampling does not raise for that. -/
example (read) (deltaK : mesh4.Idx → ℂ) (ranks counts u) : ∃ s, (Mock.init deltaK).run .lagrangian read [.setReal .none true] = some (s, [none]) ∧
    (∃ s', s.step .lagrangian read (.sample ranks counts u) = .raised s' .attributeError) ∧
    s.toCatalog .lagrangian = .error .attributeError := by
  refine ⟨_, rfl, ?_, ?_⟩
  · exact (C79_stages (calls := [.setReal .none true]) rfl (c := .sample ranks counts u) trivial).2 ⟨.selection, .inr rfl, by simp [Prepared, Prepares]⟩
  · exact (C79_export (read := read) (calls := [.setReal .none true]) rfl).1.2 (by simp [Prepared, Prepares])

/-- Modes of a field with a peak. -/
example : ∃ F : mesh4.Idx → ℂ, Hermitian mesh4 F ∧ F 0 ≠ 0 :=
  ⟨_, hermitian_r2c mesh4 (peak mesh4), by rw [r2c_peak]; norm_num [mesh4]⟩

/-! ### Documentation -/

/-- C80 fails: `BaseGaussianMock(power, boxsize, nmesh)`, as in the documentation of the three classes, gives a box of size `nmesh` with
`boxsize` cells. -/
theorem C80_positional_violated (b n : MeshSize) (size : V3 ℤ) (hb : IsSize b size) :
    positionalMesh b n = .ok (n.toVec, size) := C38_given n b size hb

example : positionalMesh (.number (.int 1000)) (.number (.int 64)) = .ok (⟨64, 64, 64⟩, ⟨1000, 1000, 1000⟩) := by
  rw [C80_positional_violated (.number (.int 1000)) (.number (.int 64)) ⟨1000, 1000, 1000⟩
    (by simp [IsSize, MeshSize.toVec, Num.val, V3.const])]
  simp [MeshSize.toVec, Num.val, V3.const]

/-- C80 fails: the run in the documentation of `EulerianLinearMock` raises `AttributeError` in `poisson_sample`, for all arguments: the
selection function is not set. -/
theorem C80_eulerian_violated (read) (deltaK : M.Idx → ℂ) (f : ℝ) {los : Axis} {n : V3 ℝ} (hn : Spec.AxisMeans los n) (ranks counts u) :
    ∃ s, (Mock.init deltaK).run .eulerian read [.setReal .none false, .setRsd (.const f) los, .sample ranks counts u] =
      some (s, [none, none, some .attributeError]) := by
  have hlos : los ≠ .none := by rintro rfl; cases hn
  have hg := axisMeans_getLos hn
  have he : M.eulerianRsd (.const f) los deltaK (M.realDelta .none false deltaK) =
      .ok fun i => some (M.eulerianFixed (.const f) ![n.x, n.y, n.z] deltaK (M.realDelta .none false deltaK) i) := by
    unfold Mesh.eulerianRsd
    cases los with
    | none => exact absurd rfl hlos
    | _ => simp only [hg]
  refine ⟨⟨deltaK, some fun i => M.eulerianFixed (.const f) ![n.x, n.y, n.z] deltaK (M.realDelta .none false deltaK) i,
    none, none, none, none, none⟩, ?_⟩
  simp only [Mock.run, Mock.step, Mock.setReal, Mock.eulerianSetRsd, Mock.sample, Mock.init, he]
  simp

/-- C80 fails: same for the run in the documentation of `LagrangianLinearMock`, where `set_rsd` then raises too. -/
theorem C80_lagrangian_violated (read) (deltaK : M.Idx → ℂ) (f : ℝ) {los : Axis} {n : V3 ℝ} (hn : Spec.AxisMeans los n) (ranks counts u) :
    ∃ s, (Mock.init deltaK).run .lagrangian read [.setReal .none true, .sample ranks counts u, .setRsd (.const f) los] =
      some (s, [none, some .attributeError, some .attributeError]) := by
  have hlos : los ≠ .none := by rintro rfl; cases hn
  have hg := axisMeans_getLos hn
  have hread : Mock.readLos los = .ok () := by
    cases los with
    | none => exact absurd rfl hlos
    | _ => simp only [Mock.readLos, hg]; rfl
  refine ⟨(Mock.init deltaK).setReal .lagrangian .none true, ?_⟩
  simp only [Mock.run, Mock.step, Mock.setReal, Mock.lagrangianSetRsd, Mock.sample, Mock.init, hread]
  simp

/-- C80 fails: keyword `interlaced` and field '1+delta' of the documentation of `BaseGaussianMock` raise. -/
theorem C80_names_violated (resample) (s : M.Fields) (r : String) (comp : Bool) (position : Fin 3 → ℝ) :
    selectionKeyword "interlaced" = .error .typeError ∧
    (∀ name, selectionKeyword name = .ok () ↔ name ∈ ["nbar", "interlacing"]) ∧
    M.readout resample s position (.name "1+delta") r comp = .error .valueError :=
  ⟨by decide, fun name => by simp [selectionKeyword]; grind, C69_unknown M resample s "1+delta" r comp position (by decide)⟩

/-! ### `ArrayMesh` -/

/-- C81 fails: whatever the array, `ArrayMesh` never returns a mesh. It raises `ValueError` if the mesh size is missing and cannot be
guessed, otherwise `NameError`. -/
theorem C81_violated (real hasRoot nmesh : Bool) :
    arrayMesh real hasRoot nmesh = .error (if nmesh = false ∧ ¬(real = true ∧ hasRoot = true) then .valueError else .nameError) := by
  cases real <;> cases hasRoot <;> cases nmesh <;> rfl

/-- **C81**, what holds before the mesh is created: type of the mesh. A real field has the type of the array. A complex field of all
modes has a complex type, one with half the modes the real type of the same precision; in both cases a complex array keeps its
precision and a real array is taken as the real and imaginary parts. -/
theorem C81_dtype_partial (a : DType) (cells csize : ℕ) :
    arrayDtype false a cells csize = a ∧
    (∀ bytes, 2 ∣ bytes → a = ⟨true, bytes⟩ → arrayDtype true a cells csize = if csize = cells then ⟨true, bytes⟩ else ⟨false, bytes / 2⟩) ∧
    ∀ bytes, a = ⟨false, bytes⟩ → arrayDtype true a cells csize = if csize = cells then ⟨true, 2 * bytes⟩ else ⟨false, bytes⟩ := by
  refine ⟨rfl, ?_, ?_⟩
  · rintro bytes - rfl
    by_cases h : csize = cells
    · simp [arrayDtype, h]
    · simp [arrayDtype, h, Ne.symm h]
  · rintro bytes rfl
    by_cases h : csize = cells
    · simp [arrayDtype, h, mul_comm]
    · simp [arrayDtype, h, Ne.symm h]

/-- 16-byte complex numbers of a 4 × 4 × 3 array for a mesh of 4 × 4 × 4 cells: mesh of 8-byte real numbers. -/
example : arrayDtype true ⟨true, 16⟩ 64 48 = ⟨false, 8⟩ := by decide

end Verif.Props
