import Verif.Model.InPlace
import Verif.Props.Isometry
import Verif.Props.MockObject

/-!
# C108, C109: arguments and exported catalogs are left as they are
-/

namespace Verif.Props.InPlace

open Verif Verif.Model Verif.Model.InPlace

/-! ### C108: vectors given as arguments -/

/-- C108, full statement for the rotation between two vectors: whatever the type of the numbers and of the container, the result is
the rotation between the two vectors, and both arguments hold the same numbers afterwards. -/
def Harmless (a b : Arg) : Prop :=
  (rotationCall a b).1 = rotationFromTwoVectors a.value b.value ∧ (rotationCall a b).2 = (some a.value, some b.value)

theorem norm_direction {v : V3 ℝ} (hv : v ≠ 0) : (⟨v.x / v.norm, v.y / v.norm, v.z / v.norm⟩ : V3 ℝ).norm = 1 := by
  have h := (normalize_ok (normalize_of_ne hv)).2.1
  unfold V3.norm at h ⊢
  simp only at h ⊢
  rw [h, Real.sqrt_one]

theorem toOption_normalize {v : V3 ℝ} (hv : v ≠ 0) : (Model.normalize v).toOption = some v ↔ v.norm = 1 := by
  rw [normalize_of_ne hv]
  have h0 := V3.norm_pos hv
  constructor
  · intro h
    have h : (⟨v.x / v.norm, v.y / v.norm, v.z / v.norm⟩ : V3 ℝ) = v := by simpa [Except.toOption] using h
    have hx := congrArg V3.x h
    have hy := congrArg V3.y h
    have hz := congrArg V3.z h
    simp only at hx hy hz
    rw [div_eq_iff h0.ne'] at hx hy hz
    by_contra hne
    have hne' : v.norm - 1 ≠ 0 := sub_ne_zero.2 hne
    apply hv
    ext
    · exact (mul_eq_zero.1 (show v.x * (v.norm - 1) = 0 by linarith)).resolve_right hne'
    · exact (mul_eq_zero.1 (show v.y * (v.norm - 1) = 0 by linarith)).resolve_right hne'
    · exact (mul_eq_zero.1 (show v.z * (v.norm - 1) = 0 by linarith)).resolve_right hne'
  · intro h
    simp [Except.toOption, h]

/-- **C108, partial.** For non-zero vectors, the call is harmless exactly if both hold floats and each is a sequence, or an array that
is of norm 1 already. -/
theorem C108_partial (a b : Arg) (ha : a.value ≠ 0) (hb : b.value ≠ 0) :
    Harmless a b ↔ (a.kind ≠ .int ∧ b.kind ≠ .int) ∧ (a.isArray = true → a.value.norm = 1) ∧ (b.isArray = true → b.value.norm = 1) := by
  have hok : ∃ R, rotationFromTwoVectors a.value b.value = .ok R := by
    unfold rotationFromTwoVectors
    rw [normalize_of_ne ha, normalize_of_ne hb]
    simp only [bind, Except.bind, pure, Except.pure]
    split_ifs
    · exact ⟨_, rfl⟩
    · exact ⟨_, rfl⟩
  obtain ⟨R, hR⟩ := hok
  have after : ∀ c : Arg, c.value ≠ 0 → (c.after = some c.value ↔ (c.isArray = true → c.value.norm = 1)) := by
    intro c hc
    unfold Arg.after
    by_cases h : c.isArray = true
    · rw [if_pos h, toOption_normalize hc]
      simp [h]
    · rw [if_neg h]
      simp [h]
  unfold Harmless rotationCall
  by_cases h1 : a.kind = .int
  · simp [h1, hR]
  · by_cases h2 : b.kind = .int
    · simp [h1, h2, hR]
    · simp only [h1, h2, if_false, not_false_eq_true, and_self, true_and, ne_eq, Prod.mk.injEq, after a ha, after b hb]

/-- **C108 is violated.** The arrays of the docstring's example hold other numbers after the call: they are normalised in place
(`make_survey.py:28-29`). -/
theorem C108_arrays_violated (a b : Arg) (ha : a.kind ≠ .int) (hb : b.kind ≠ .int) (h0 : a.value ≠ 0) (harr : a.isArray = true)
    (hn : a.value.norm ≠ 1) : ∃ v, (rotationCall a b).2.1 = some v ∧ v ≠ a.value ∧ v.norm = 1 ∧ a.value = a.value.norm • v := by
  refine ⟨⟨a.value.x / a.value.norm, a.value.y / a.value.norm, a.value.z / a.value.norm⟩, ?_, ?_, ?_, ?_⟩
  · simp [rotationCall, ha, hb, Arg.after, harr, normalize_of_ne h0, Except.toOption]
  · intro h
    exact hn ((toOption_normalize h0).1 (by rw [normalize_of_ne h0]; simp [Except.toOption, h]))
  · exact norm_direction h0
  · have := V3.norm_pos h0
    ext <;> simp <;> field_simp

/-- **C108 is violated.** Integers raise `TypeError` (`make_survey.py:28-29`), and when only the second vector holds integers, the first
one has been changed already. -/
theorem C108_integers_violated (a b : Arg) :
    (a.kind = .int → rotationCall a b = (.error .typeError, some a.value, some b.value)) ∧
    (a.kind ≠ .int → b.kind = .int → rotationCall a b = (.error .typeError, a.after, some b.value)) := by
  constructor
  · intro h; simp [rotationCall, h]
  · intro h h'; simp [rotationCall, h, h']

/-- **C108.** The vectors are normalised, not otherwise changed: called again with the arrays as it left them, the function returns the
same matrix, and leaves them as they are. -/
theorem C108_again (a b : Arg) (ha : a.kind ≠ .int) (hb : b.kind ≠ .int) (ha0 : a.value ≠ 0) (hb0 : b.value ≠ 0) :
    ∃ v w, (rotationCall a b).2 = (some v, some w) ∧
      rotationCall { a with value := v } { b with value := w } = ((rotationCall a b).1, some v, some w) := by
  have key : ∀ c : Arg, c.value ≠ 0 → ∃ v, c.after = some v ∧ ({ c with value := v } : Arg).after = some v ∧
      Model.normalize v = Model.normalize c.value := by
    intro c hc
    by_cases h : c.isArray = true
    · have h1 := norm_direction hc
      have h2 : Model.normalize (⟨c.value.x / c.value.norm, c.value.y / c.value.norm, c.value.z / c.value.norm⟩ : V3 ℝ) =
          .ok ⟨c.value.x / c.value.norm, c.value.y / c.value.norm, c.value.z / c.value.norm⟩ := by
        have hne : (⟨c.value.x / c.value.norm, c.value.y / c.value.norm, c.value.z / c.value.norm⟩ : V3 ℝ) ≠ 0 := by
          intro h; rw [h, (V3.norm_eq_zero 0).2 rfl] at h1; exact zero_ne_one h1
        rw [normalize_of_ne hne, h1]
        simp
      refine ⟨_, by rw [Arg.after, if_pos h, normalize_of_ne hc]; rfl, ?_, by rw [h2, normalize_of_ne hc]⟩
      rw [Arg.after, if_pos (by exact h)]
      dsimp only
      rw [h2]
      rfl
    · exact ⟨c.value, by rw [Arg.after, if_neg h], by rw [Arg.after, if_neg (by exact h)], rfl⟩
  obtain ⟨v, v1, v2, v3⟩ := key a ha0
  obtain ⟨w, w1, w2, w3⟩ := key b hb0
  refine ⟨v, w, by simp [rotationCall, ha, hb, v1, w1], ?_⟩
  simp only [rotationCall, ha, hb, if_false, v2, w2]
  simp only [rotationFromTwoVectors, v3, w3]

/-- Cases met: the example of the docstring, and the same vectors given as lists of floats. -/
example : (¬ Harmless ⟨.float, true, ⟨0, 1, 2⟩⟩ ⟨.float, true, ⟨0, 2, 1⟩⟩) ∧
    Harmless ⟨.float, false, ⟨0, 1, 2⟩⟩ ⟨.float, false, ⟨0, 2, 1⟩⟩ ∧ ¬ Harmless ⟨.int, false, ⟨0, 1, 2⟩⟩ ⟨.int, false, ⟨0, 2, 1⟩⟩ := by
  have h1 : (⟨0, 1, 2⟩ : V3 ℝ) ≠ 0 := by simp [V3.ext_iff]
  have h2 : (⟨0, 2, 1⟩ : V3 ℝ) ≠ 0 := by simp [V3.ext_iff]
  have hn : (⟨0, 1, 2⟩ : V3 ℝ).norm ≠ 1 := by
    intro h
    have h := congrArg (· ^ 2) h
    simp only [V3.norm] at h
    rw [Real.sq_sqrt (by norm_num)] at h
    norm_num at h
  refine ⟨?_, ?_, ?_⟩ <;> rw [C108_partial _ _ h1 h2] <;> simp [hn]

/-- **C108.** Remapping accepts arrays of integers for velocities; for positions they raise `TypeError` (`remap.py:278`, `:315`);
floats are remapped. -/
theorem C108_remap_violated (c : Remap.Cuboid) (positions : List (V3 ℝ)) (p : V3 ℝ) :
    (cuboidTransform c .int positions false = .error .typeError ∧ cuboidInverse c .int p false = .error .typeError) ∧
    (∀ k, cuboidTransform c k positions true = c.transform positions true) ∧
    (∀ k ti, k ≠ .int → cuboidTransform c k positions ti = c.transform positions ti ∧
      cuboidInverse c k p ti = .ok (c.inverseTransform p ti)) := by
  refine ⟨⟨rfl, rfl⟩, fun k => rfl, fun k ti hk => ?_⟩
  cases ti <;> simp [cuboidTransform, cuboidInverse, hk]

/-! ### C109: exported catalogs -/

variable {M : Mesh}

/-- Specification: the positions that each successful `to_catalog()` of a program exports at the time of the call. -/
noncomputable def exportedAt (cls : MockClass) (read : (M.Idx → ℝ) → (Fin 3 → ℝ) → ℝ) : Mock M → List (Stmt M) → List (List (V3 ℝ))
  | _, [] => []
  | s, .toCatalog :: cs => match s.toCatalog cls with
    | .ok e => e.position :: exportedAt cls read s cs
    | .error _ => exportedAt cls read s cs
  | s, .call c :: cs => match s.step cls read c with
    | .done s' => exportedAt cls read s' cs
    | .raised s' _ => exportedAt cls read s' cs
    | .nan => []

/-- The array bound to `mock.position` holds the positions of the mock, and catalogs refer to existing arrays. -/
structure Inv (shared : Bool) (w : Session M) : Prop where
  lt : w.ref < w.heap.length
  eq : w.heap.getD w.ref none = w.mock.position
  cats : ∀ r ∈ w.catalogs, r < w.heap.length
  own : shared = false → w.ref ∉ w.catalogs

theorem getD_append_left' {α : Type} {l m : List α} {i : ℕ} (h : i < l.length) (d : α) : (l ++ m).getD i d = l.getD i d := by
  simp [List.getD, List.getElem?_append_left h]

theorem getD_concat {α : Type} (l : List α) (a d : α) : (l ++ [a]).getD l.length d = a := by simp [List.getD]

theorem positions_append {w : Session M} (h : ∀ r ∈ w.catalogs, r < w.heap.length) (m : List (Option (List (V3 ℝ)))) :
    (w.catalogs.map fun r => (w.heap ++ m).getD r none) = w.positions := by
  unfold Session.positions
  exact List.map_congr_left fun r hr => getD_append_left' (h r hr) none

theorem bind_inv {shared : Bool} {w : Session M} (hw : Inv shared w) (s : Mock M) :
    Inv shared (w.bind s) ∧ (w.bind s).positions = w.positions ∧ (w.bind s).mock = s := by
  refine ⟨⟨by simp [Session.bind], getD_concat _ _ _, ?_, ?_⟩, positions_append hw.cats _, rfl⟩
  · intro r hr
    have := hw.cats r hr
    simp [Session.bind]
    omega
  · intro _ h
    exact absurd (hw.cats _ h) (by simp [Session.bind])

theorem mock_inv {shared : Bool} {w : Session M} (hw : Inv shared w) {s : Mock M} (hs : s.position = w.mock.position) :
    Inv shared { w with mock := s } ∧ ({ w with mock := s } : Session M).positions = w.positions :=
  ⟨⟨hw.lt, by rw [hs]; exact hw.eq, hw.cats, hw.own⟩, rfl⟩

/-- Only sampling and Lagrangian redshift-space distortions change positions. -/
theorem step_position {cls : MockClass} {read} {s s' : Mock M} {c : Mock.Call M} (h : s.step cls read c = .done s') :
    (∃ r n u, c = .sample r n u) ∨ (cls = .lagrangian ∧ ∃ f los, c = .setRsd f los) ∨ s'.position = s.position := by
  cases c with
  | sample r n u => exact .inl ⟨r, n, u, rfl⟩
  | setReal b l => simp only [Mock.step, Mock.Outcome.done.injEq] at h; subst h; exact .inr (.inr rfl)
  | setConstant x => simp only [Mock.step, Mock.Outcome.done.injEq] at h; subst h; exact .inr (.inr rfl)
  | setSelection n i => simp only [Mock.step, Mock.Outcome.done.injEq] at h; subst h; exact .inr (.inr rfl)
  | whiteNoise n =>
    simp only [Mock.step, Mock.whiteNoise] at h
    split at h
    · split_ifs at h
      simp only [Mock.Outcome.done.injEq] at h; subst h; exact .inr (.inr rfl)
    · cases h
  | setRsd f los =>
    cases cls with
    | lagrangian => exact .inr (.inl ⟨rfl, f, los, rfl⟩)
    | eulerian =>
      simp only [Mock.step, Mock.eulerianSetRsd] at h
      split at h
      · cases h
      · split at h
        · cases h
        · cases h
        · split_ifs at h
          simp only [Mock.Outcome.done.injEq] at h; subst h; exact .inr (.inr rfl)

theorem raised_position {cls : MockClass} {read} {s s' : Mock M} {c : Mock.Call M} {e : Err} (h : s.step cls read c = .raised s' e) :
    (∃ r n u t, c = .sample r n u ∧ s.sample .eulerian read r n u = .done t) ∨ s'.position = s.position := by
  cases c with
  | sample r n u =>
    simp only [Mock.step, Mock.sample] at h
    split at h
    · rename_i delta nbar hd hn
      split at h
      · simp only [Mock.Outcome.raised.injEq] at h; rw [← h.1]; exact .inr rfl
      · rename_i ps hps
        refine .inl ⟨r, n, u, { s with position := some (ps.map rowOf) }, rfl, ?_⟩
        simp only [Mock.sample, hd, hn, hps]
    · simp only [Mock.Outcome.raised.injEq] at h; rw [← h.1]; exact .inr rfl
  | setReal b l => simp only [Mock.step] at h; cases h
  | setConstant x => simp only [Mock.step] at h; cases h
  | setSelection n i => simp only [Mock.step] at h; cases h
  | whiteNoise n =>
    simp only [Mock.step, Mock.whiteNoise] at h
    split at h
    · split_ifs at h
    · simp only [Mock.Outcome.raised.injEq] at h; rw [← h.1]; exact .inr rfl
  | setRsd f los =>
    cases cls with
    | eulerian =>
      simp only [Mock.step, Mock.eulerianSetRsd] at h
      split at h
      · simp only [Mock.Outcome.raised.injEq] at h; rw [← h.1]; exact .inr rfl
      · split at h
        · cases h
        · simp only [Mock.Outcome.raised.injEq] at h; rw [← h.1]; exact .inr rfl
        · split_ifs at h
    | lagrangian =>
      simp only [Mock.step, Mock.lagrangianSetRsd] at h
      split at h
      · cases h
      · simp only [Mock.Outcome.raised.injEq] at h; rw [← h.1]; exact .inr rfl
      · split at h
        · split at h
          · cases h
          · simp only [Mock.Outcome.raised.injEq] at h; rw [← h.1]; exact .inr rfl
          · cases h
        · simp only [Mock.Outcome.raised.injEq] at h; rw [← h.1]; exact .inr rfl

/-- A call that redshifts the particles of a Lagrangian mock. -/
def Moves (cls : MockClass) : Stmt M → Prop
  | .call (.setRsd _ _) => cls = .lagrangian
  | _ => False

theorem exec_inv {shared : Bool} {cls : MockClass} {read} {w w' : Session M} (hw : Inv shared w) {c : Stmt M}
    (h : w.exec shared cls read c = some w') (hc : shared = true → Moves cls c → w.catalogs = []) (cs : List (Stmt M)) :
    Inv shared w' ∧ w'.positions ++ (exportedAt cls read w'.mock cs).map some =
      w.positions ++ (exportedAt cls read w.mock (c :: cs)).map some := by
  cases c with
  | toCatalog =>
    simp only [Session.exec, Option.some.injEq] at h
    subst h
    simp only [exportedAt, Session.export]
    rcases he : w.mock.toCatalog cls with _ | e
    · exact ⟨hw, rfl⟩
    · have hp : w.mock.position = some e.position := by
        unfold Mock.toCatalog at he
        split at he
        · rename_i p _ h2; cases he; exact h2
        · rename_i p _ h2 _; cases he; exact h2
        · cases he
      dsimp only
      cases shared with
      | true =>
        refine ⟨⟨hw.lt, hw.eq, ?_, by simp⟩, ?_⟩
        · intro r hr
          rcases List.mem_append.1 hr with hr | hr
          · exact hw.cats r hr
          · rw [List.mem_singleton.1 hr]; exact hw.lt
        · have := hw.eq
          simp only [Session.positions, if_true, List.map_append, List.map_cons, List.map_nil, this, hp]
          simp
      | false =>
        simp only [Bool.false_eq_true, if_false]
        refine ⟨⟨?_, ?_, ?_, ?_⟩, ?_⟩
        · simp only [List.length_append, List.length_singleton]; exact Nat.lt_succ_of_lt hw.lt
        · dsimp only
          rw [getD_append_left' hw.lt]; exact hw.eq
        · intro r hr
          simp only [List.length_append, List.length_singleton]
          rcases List.mem_append.1 hr with hr | hr
          · exact Nat.lt_succ_of_lt (hw.cats r hr)
          · rw [List.mem_singleton.1 hr]; exact Nat.lt_succ_self _
        · intro _ hr
          rcases List.mem_append.1 hr with hr | hr
          · exact hw.own rfl hr
          · exact hw.lt.ne (List.mem_singleton.1 hr)
        · have h1 := positions_append hw.cats [w.heap.getD w.ref none]
          rw [Session.positions]
          dsimp only
          rw [List.map_append, h1]
          simp only [List.map_cons, List.map_nil, getD_concat, hw.eq, hp]
          simp
  | call c =>
    simp only [Session.exec] at h
    rcases hs : w.mock.step cls read c with s | ⟨s, e⟩ | _
    · rw [hs] at h
      simp only [Option.some.injEq] at h
      subst h
      simp only [exportedAt, hs]
      rcases step_position hs with ⟨r, n, u, rfl⟩ | ⟨rfl, f, los, rfl⟩ | hp
      · obtain ⟨b1, b2, b3⟩ := bind_inv hw s
        exact ⟨b1, by simp only [Session.returned, b2, b3]⟩
      · simp only [Session.returned]
        refine ⟨⟨by simpa using hw.lt, by simp [List.getD, hw.lt], fun r hr => by simpa using hw.cats r hr, hw.own⟩, ?_⟩
        congr 1
        unfold Session.positions
        refine List.map_congr_left fun r hr => ?_
        have hne : w.ref ≠ r := by
          intro heq
          cases shared with
          | false => exact hw.own rfl (heq ▸ hr)
          | true =>
            have : w.catalogs = [] := hc rfl rfl
            simp [this] at hr
        simp [List.getD, List.getElem?_set_ne hne]
      · cases c with
        | sample r n u =>
          obtain ⟨b1, b2, b3⟩ := bind_inv hw s
          exact ⟨b1, by simp only [Session.returned, b2, b3]⟩
        | setRsd f los =>
          cases cls with
          | eulerian =>
            obtain ⟨b1, b2⟩ := mock_inv hw hp
            exact ⟨b1, by simp only [Session.returned]; rw [b2]⟩
          | lagrangian =>
            have hset : w.heap.set w.ref s.position = w.heap := by
              rw [hp, ← hw.eq]
              refine List.ext_getElem (by simp) fun i h1 h2 => ?_
              rw [List.getElem_set]
              split_ifs with hi
              · subst hi; simp [List.getD, hw.lt]
              · rfl
            simp only [Session.returned, hset]
            obtain ⟨b1, b2⟩ := mock_inv hw hp
            exact ⟨b1, by rw [b2]⟩
        | _ =>
          obtain ⟨b1, b2⟩ := mock_inv hw hp
          exact ⟨b1, by simp only [Session.returned]; rw [b2]⟩
    · rw [hs] at h
      simp only [Option.some.injEq] at h
      subst h
      simp only [exportedAt, hs]
      rcases raised_position hs with ⟨r, n, u, t, rfl, ht⟩ | hp
      · obtain ⟨b1, b2, b3⟩ := bind_inv hw s
        simp only [Session.raised, ht]
        exact ⟨b1, by simp only [b2, b3]⟩
      · have hm := mock_inv hw hp
        cases c with
        | sample r n u =>
          simp only [Session.raised]
          split
          · obtain ⟨b1, b2, b3⟩ := bind_inv hw s
            exact ⟨b1, by simp only [b2, b3]⟩
          · exact ⟨hm.1, by rw [hm.2]⟩
        | _ => exact ⟨hm.1, by simp only [Session.raised]; rw [hm.2]⟩
    · rw [hs] at h
      simp at h

theorem exec_catalogs {shared : Bool} {cls : MockClass} {read} {w w' : Session M} {c : Mock.Call M}
    (h : w.exec shared cls read (.call c) = some w') : w'.catalogs = w.catalogs := by
  simp only [Session.exec] at h
  split at h
  · simp only [Option.some.injEq] at h; subst h
    unfold Session.returned
    split
    · rfl
    · split <;> rfl
    · rfl
  · simp only [Option.some.injEq] at h; subst h
    unfold Session.raised
    split
    · split <;> rfl
    · rfl
  · cases h

theorem init_inv (shared : Bool) (s : Mock M) : Inv shared (Session.init s) :=
  ⟨by simp [Session.init], by simp [Session.init], by simp [Session.init], by simp [Session.init]⟩

theorem run_inv {shared : Bool} {cls : MockClass} {read} (prog : List (Stmt M)) : ∀ {w w' : Session M}, Inv shared w →
    w.run shared cls read prog = some w' → (shared = true → ∀ c ∈ prog, ¬ Moves cls c) →
    w'.positions = w.positions ++ (exportedAt cls read w.mock prog).map some := by
  induction prog with
  | nil => intro w w' _ h _; simp only [Session.run, Option.some.injEq] at h; subst h; simp [exportedAt]
  | cons c cs ih =>
    intro w w' hw h hc
    simp only [Session.run, Option.bind_eq_some_iff] at h
    obtain ⟨v, h1, h2⟩ := h
    obtain ⟨i1, i2⟩ := exec_inv hw h1 (fun hs hm => absurd hm (hc hs c (by simp))) cs
    rw [ih i1 h2 fun hs d hd => hc hs d (by simp [hd]), i2]

/-- **C109.** If catalogs copy the arrays they are given, the catalogs exported along any program hold in the end the positions that
the mock had when each was exported, whatever was called on the mock since. -/
theorem C109_copies {cls : MockClass} {read} {s : Mock M} {prog : List (Stmt M)} {w : Session M}
    (h : (Session.init s).run false cls read prog = some w) : w.positions = (exportedAt cls read s prog).map some := by
  have := run_inv prog (init_inv false s) h (by simp)
  simpa [Session.positions, Session.init] using this

/-- **C109, partial.** If catalogs keep the arrays they are given, the same holds for Eulerian mocks; and for Lagrangian mocks as long
as redshift-space distortions are all set before the first export. -/
theorem C109_shared_partial {cls : MockClass} {read} {s : Mock M} {before after : List (Stmt M)} {w : Session M}
    (h : (Session.init s).run true cls read (before ++ after) = some w)
    (hb : cls = .lagrangian → .toCatalog ∉ before) (ha : cls = .lagrangian → ∀ f los, .call (.setRsd f los) ∉ after) :
    w.positions = (exportedAt cls read s (before ++ after)).map some := by
  cases cls with
  | eulerian =>
    have := run_inv (before ++ after) (init_inv true s) h (fun _ c _ hm => by
      rcases c with c | _
      · cases c <;> simp [Moves] at hm
      · exact hm)
    simpa [Session.positions, Session.init] using this
  | lagrangian =>
    have key : ∀ (before : List (Stmt M)) (w w' : Session M), Inv true w → w.catalogs = [] → .toCatalog ∉ before →
        w.run true .lagrangian read (before ++ after) = some w' →
        w'.positions = (exportedAt .lagrangian read w.mock (before ++ after)).map some := by
      intro before
      induction before with
      | nil =>
        intro w w' hw h0 _ h
        have := run_inv after hw h (fun _ c hc hm => by
          rcases c with c | _
          · cases c with
            | setRsd f los => exact ha rfl f los hc
            | _ => exact hm
          · exact hm)
        simpa [Session.positions, h0] using this
      | cons c cs ih =>
        intro w w' hw h0 hc h
        simp only [List.cons_append, Session.run, Option.bind_eq_some_iff] at h
        obtain ⟨v, h1, h2⟩ := h
        obtain ⟨i1, i2⟩ := exec_inv hw h1 (fun _ _ => h0) (cs ++ after)
        rcases c with c | _
        · have hv : v.catalogs = [] := (exec_catalogs h1).trans h0
          have := ih v w' i1 hv (fun hm => hc (by simp [hm])) h2
          rw [this]
          simpa [Session.positions, hv, h0] using i2
        · exact absurd (by simp) hc
    exact key before _ w (init_inv true s) rfl (hb rfl) h

/-- Redshift-space distortions reach the catalog exported just before, if it keeps the array. -/
theorem shared_moved {read} {w w' : Session M} (hw : Inv true w) {f : Factor} {los : Axis} {e : Mock.Export} {s : Mock M}
    (he : w.mock.toCatalog .lagrangian = .ok e) (hs : w.mock.step .lagrangian read (.setRsd f los) = .done s)
    (h : w.run true .lagrangian read [.toCatalog, .call (.setRsd f los)] = some w') : w'.positions.getLast? = some s.position := by
  simp only [Session.run, Session.exec, Session.export, he, if_true, Option.bind_some, hs, Session.returned, Option.some.injEq] at h
  subst h
  have hlt := hw.lt
  simp [Session.positions, List.getD, hlt]

/-- Program of the violation: particles are sampled and exported, then redshifted. -/
noncomputable def program : List (Stmt mesh4) :=
  [.call (.setReal .none true), .call (.setConstant 3), .call (.sample [Finset.univ.toList] (fun _ => 1) fun _ _ => 0), .toCatalog,
    .call (.setRsd (.const 1) (.idx 0))]

/-- **C109 is violated** if catalogs keep the arrays they are given: `set_rsd` adds to the positions of Lagrangian mocks in place
(`lagrangian_mock.py:156`), and the catalog exported before then holds other positions. -/
theorem C109_shared_violated : ∃ (read : (mesh4.Idx → ℝ) → (Fin 3 → ℝ) → ℝ) (w : Session mesh4),
    (Session.init (Mock.init fun _ => 0)).run true .lagrangian read program = some w ∧
    w.positions ≠ (exportedAt .lagrangian read (Mock.init fun _ => 0) program).map some := by
  have hn : Spec.AxisMeans (.idx 0) ⟨1, 0, 0⟩ := by constructor
  have hg := axisMeans_getLos hn
  have hL : ∀ d, 0 < mesh4.boxsize d := fun _ => by simp [mesh4]
  obtain ⟨ps, h1, -, -, h4⟩ := C40_counts mesh4 hL
    ⟨mesh4.realDelta .none true fun _ => 0, .inl 3, fun a i => (mesh4.dispC (fun _ => 0) a i).re⟩
    (cellMean_lognormal hL .none (fun _ => 0) (by norm_num) _) [Finset.univ.toList] (by simp [Decomposition]) (fun _ => 1) (fun _ _ => 0)
    (fun _ _ => ⟨le_refl _, by norm_num⟩)
  have hps : ps ≠ [] := by
    intro h
    rw [h] at h4
    rw [Finset.sum_const, Finset.card_univ, Fintype.card_pi] at h4
    simp [ZMod.card, mesh4] at h4
  set rows := mesh4.lagrangianSample (fun _ _ => 1) ps with hrows
  have hrsd := C41_rsd_fixed (by simp) hg 1 (rows.map fun r => rowOf r.1) (rows.map fun r => rowOf r.2)
  have hread : Mock.readLos (.idx 0) = .ok () := by simp only [Mock.readLos, hg]; rfl
  refine ⟨fun _ _ => 1, ?_⟩
  generalize hr : (Session.init (Mock.init fun _ => 0)).run true .lagrangian (fun _ _ => 1) program = o
  simp only [program, Session.run, Session.exec, Session.init, Mock.step, Mock.setReal, Mock.setConstant, Mock.sample, Mock.init,
    Mock.fields, Option.getD_some, h1, ← hrows, Option.bind_some, Session.returned, Session.bind, Session.export, Mock.toCatalog, if_true,
    Mock.lagrangianSetRsd, hread, hrsd] at hr
  subst hr
  refine ⟨_, rfl, ?_⟩
  simp only [program, exportedAt, Mock.step, Mock.setReal, Mock.setConstant, Mock.sample, Mock.init,
    Mock.fields, Option.getD_some, h1, ← hrows, Mock.toCatalog, Mock.lagrangianSetRsd, hread, hrsd, Session.positions]
  obtain ⟨p, qs, rfl⟩ := List.exists_cons_of_ne_nil hps
  simp [hrows, Mesh.lagrangianSample, rowOf, V3.dot, V3.ext_iff]

/-- The hypotheses of the other theorems are met, by the same program without the last call or with catalogs that copy. -/
example : ∃ w, (Session.init (Mock.init fun _ => 0)).run false .eulerian (fun _ _ => 1) (program.take 3 ++ [.toCatalog]) = some w ∧
    w.positions ≠ [] := by
  have hL : ∀ d, 0 < mesh4.boxsize d := fun _ => by simp [mesh4]
  obtain ⟨ps, h1, -, -, h4⟩ := C40_counts mesh4 hL
    ⟨mesh4.realDelta .none true fun _ => 0, .inl 3, fun _ _ => 0⟩
    (cellMean_lognormal hL .none (fun _ => 0) (by norm_num) _) [Finset.univ.toList] (by simp [Decomposition]) (fun _ => 1) (fun _ _ => 0)
    (fun _ _ => ⟨le_refl _, by norm_num⟩)
  generalize hr : (Session.init (Mock.init fun _ => 0)).run false .eulerian (fun _ _ => 1) (program.take 3 ++ [.toCatalog]) = o
  simp only [program, List.take, List.cons_append, List.nil_append, Session.run, Session.exec, Session.init, Mock.step, Mock.setReal,
    Mock.setConstant, Mock.sample, Mock.init, Mock.fields, Option.getD_none, h1, Option.bind_some, Session.returned, Session.bind,
    Session.export, Mock.toCatalog] at hr
  subst hr
  refine ⟨_, rfl, ?_⟩
  simp [Session.positions]

end Verif.Props.InPlace
