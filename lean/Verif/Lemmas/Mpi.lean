import Verif.Spec.Mpi
import Mathlib.Data.DFinsupp.WellFounded
import Mathlib.Data.Fin.Basic

/-!
# Executions of ranks: order does not matter, and all executions end
-/

namespace Verif.Lemmas.Mpi

open Verif Verif.Model.Mpi Verif.Spec.Mpi

variable {C α : Type} {n : ℕ} {members : C → List (Fin n)}

theorem mem_index {G : List (Fin n)} {r : Fin n} (h : r ∈ G) : ∃ i, ∃ h : i < G.length, G[i] = r := List.mem_iff_getElem.1 h

/-- Two calls that can take place: they are the same, or one does not prevent the other. -/
theorem diamond {s t u : Machine C α n} (h1 : Step members s t) (h2 : Step members s u) :
    t = u ∨ ∃ v, Step members t v ∧ Step members u v := by
  classical
  obtain ⟨c, op, β, x, k, hne, hs, ht, ho⟩ := h1
  obtain ⟨c', op', β', x', k', hne', hs', hu, ho'⟩ := h2
  by_cases hd : ∃ r, r ∈ members c ∧ r ∈ members c'
  · left
    obtain ⟨r, hr, hr'⟩ := hd
    obtain ⟨i, hi, rfl⟩ := mem_index hr
    obtain ⟨j, hj, hji⟩ := mem_index hr'
    have e := (hs i hi).symm.trans ((congrArg s hji).symm.trans (hs' j hj))
    simp only [Prog.call.injEq] at e
    obtain ⟨rfl, rfl, rfl, -⟩ := e
    have key : ∀ m (hm : m < (members c).length), x m = x' m ∧ k m = k' m := by
      intro m hm
      have e := (hs m hm).symm.trans (hs' m hm)
      simpa using e
    have hx : (List.range (members c).length).map x = (List.range (members c).length).map x' :=
      List.map_congr_left fun m hm => (key m (List.mem_range.1 hm)).1
    funext r
    by_cases hr : r ∈ members c
    · obtain ⟨m, hm, rfl⟩ := mem_index hr
      rw [ht m hm, hu m hm]
      simp only [hx, (key m hm).2]
    · rw [ho r hr, ho' r hr]
  · right
    push Not at hd
    refine ⟨fun r => if r ∈ members c' then u r else t r, ⟨c', op', β', x', k', hne', ?_, ?_, ?_⟩, ⟨c, op, β, x, k, hne, ?_, ?_, ?_⟩⟩
    · intro i hi
      rw [ho _ fun hr => hd _ hr (List.getElem_mem hi)]
      exact hs' i hi
    · intro i hi
      simp only [List.getElem_mem, if_true]
      exact hu i hi
    · intro r hr
      simp only [hr, if_false]
    · intro i hi
      rw [ho' _ (hd _ (List.getElem_mem hi))]
      exact hs i hi
    · intro i hi
      simp only [hd _ (List.getElem_mem hi), if_false]
      exact ht i hi
    · intro r hr
      by_cases hr' : r ∈ members c'
      · simp only [hr', if_true]
      · simp only [hr', if_false]
        rw [ho r hr, ho' r hr']

theorem confluent {s t u : Machine C α n} (h1 : Reach members s t) (h2 : Reach members s u) :
    ∃ v, Reach members t v ∧ Reach members u v := by
  refine Relation.church_rosser (fun a b c hb hc => ?_) h1 h2
  rcases diamond hb hc with rfl | ⟨v, hv, hv'⟩
  · exact ⟨b, .refl, .refl⟩
  · exact ⟨v, .single hv, .single hv'⟩

/-- A rank that has ended remains so. -/
theorem done_step {s t : Machine C α n} (h : Step members s t) {r : Fin n} {o : Except Err α} (hr : s r = .done o) : t r = .done o := by
  obtain ⟨c, op, β, x, k, hne, hs, ht, ho⟩ := h
  by_cases hm : r ∈ members c
  · obtain ⟨i, hi, rfl⟩ := mem_index hm
    rw [hs i hi] at hr
    cases hr
  · rw [ho r hm, hr]

theorem done_reach {s t : Machine C α n} (h : Reach members s t) {r : Fin n} {o : Except Err α} (hr : s r = .done o) :
    t r = .done o := by
  induction h with
  | refl => exact hr
  | tail _ hst ih => exact done_step hst ih

/-- Some execution leads ranks `G` from `p` to the end, other ranks waiting meanwhile. -/
def Path (members : C → List (Fin n)) (G : List (Fin n)) (p : ℕ → Prog C α) (out : ℕ → Except Err α) : Prop :=
  ∀ s, Runs G p s → ∃ t, Reach members s t ∧ Runs G (fun i => .done (out i)) t ∧ ∀ r ∉ G, t r = s r

/-- If some execution ends with `out`, all of them do. -/
theorem Path.ends {G : List (Fin n)} {p : ℕ → Prog C α} {out : ℕ → Except Err α} (h : Path members G p out) :
    Ends members G p out := by
  constructor
  · intro s u hs hu hf i hi
    obtain ⟨t, ht, hd, -⟩ := h s hs
    obtain ⟨v, hv, huv⟩ := confluent ht hu
    have : v = u := by
      rcases Relation.ReflTransGen.cases_head huv with h | ⟨w, hw, -⟩
      · exact h.symm
      · exact absurd hw (hf w)
    subst this
    exact done_reach hv (hd i hi)
  · intro s u hs hu i hi o hio
    obtain ⟨t, ht, hd, -⟩ := h s hs
    obtain ⟨v, hv, huv⟩ := confluent ht hu
    have e := (done_reach hv (hd i hi)).symm.trans (done_reach huv hio)
    simp only [Prog.done.injEq] at e
    exact e.symm

theorem Path.done {G : List (Fin n)} (out : ℕ → Except Err α) : Path members G (fun i => .done (out i)) out :=
  fun s hs => ⟨s, .refl, hs, fun _ _ => rfl⟩

theorem Path.congr {G : List (Fin n)} {p q : ℕ → Prog C α} {out out' : ℕ → Except Err α} (h : Path members G p out)
    (he : ∀ i < G.length, q i = p i) (ho : ∀ i < G.length, out' i = out i) : Path members G q out' := by
  intro s hs
  obtain ⟨t, ht, hd, hr⟩ := h s fun i hi => (hs i hi).trans (he i hi)
  exact ⟨t, ht, fun i hi => (hd i hi).trans (by simp only [ho i hi]), hr⟩

/-- The machine after a call. -/
theorem exists_next {G : List (Fin n)} (hG : G.Nodup) (q : ℕ → Prog C α) (s : Machine C α n) :
    ∃ t : Machine C α n, Runs G q t ∧ ∀ r ∉ G, t r = s r := by
  classical
  refine ⟨fun r => if r ∈ G then q (G.idxOf r) else s r, fun i hi => ?_, fun r hr => by simp only [hr, if_false]⟩
  simp only [List.getElem_mem, if_true]
  rw [hG.idxOf_getElem]

/-- A call that all ranks make. -/
theorem Path.call {G : List (Fin n)} {c : C} (hc : members c = G) (hG : G.Nodup) (hne : G ≠ []) (op : Op) {β : Type} (x : ℕ → β)
    (k : ℕ → List β → Prog C α) {out : ℕ → Except Err α} (h : Path members G (fun i => k i ((List.range G.length).map x)) out) :
    Path members G (fun i => .call c op (x i) (k i)) out := by
  intro s hs
  obtain ⟨t, ht, ho⟩ := exists_next hG (fun i => k i ((List.range G.length).map x)) s
  obtain ⟨u, hu, hd, hr⟩ := h t ht
  refine ⟨u, Relation.ReflTransGen.head ⟨c, op, β, x, k, ?_, ?_, ?_, ?_⟩ hu, hd, fun r hrG => (hr r hrG).trans (ho r hrG)⟩
  · rw [hc]; exact hne
  · rw [hc]; exact hs
  · rw [hc]; exact ht
  · rw [hc]; exact ho

theorem runs_append {G H : List (Fin n)} {p : ℕ → Prog C α} {s : Machine C α n} :
    Runs (G ++ H) p s ↔ Runs G p s ∧ Runs H (fun i => p (G.length + i)) s := by
  constructor
  · intro h
    refine ⟨fun i hi => ?_, fun i hi => ?_⟩
    · have := h i (by simp; omega)
      rwa [List.getElem_append_left hi] at this
    · have := h (G.length + i) (by simp; omega)
      rw [List.getElem_append_right (by omega)] at this
      simpa using this
  · rintro ⟨h1, h2⟩ i hi
    by_cases hG : i < G.length
    · rw [List.getElem_append_left hG]
      exact h1 i hG
    · rw [List.getElem_append_right (by omega)]
      have := h2 (i - G.length) (by simp at hi; omega)
      simpa [Nat.add_sub_cancel' (not_lt.1 hG)] using this

/-- Two groups of ranks that do not meet. -/
theorem Path.append {G H : List (Fin n)} {p : ℕ → Prog C α} {out : ℕ → Except Err α} (hd : ∀ r ∈ G, r ∉ H) (h1 : Path members G p out)
    (h2 : Path members H (fun i => p (G.length + i)) (fun i => out (G.length + i))) : Path members (G ++ H) p out := by
  intro s hs
  obtain ⟨hG, hH⟩ := runs_append.1 hs
  obtain ⟨t, ht, hd1, hr1⟩ := h1 s hG
  obtain ⟨u, hu, hd2, hr2⟩ := h2 t fun i hi => (hr1 _ fun h => hd _ h (List.getElem_mem hi)).trans (hH i hi)
  refine ⟨u, ht.trans hu, runs_append.2 ⟨fun i hi => (hr2 _ (hd _ (List.getElem_mem hi))).trans (hd1 i hi), hd2⟩, fun r hr => ?_⟩
  rw [List.mem_append, not_or] at hr
  rw [hr2 r hr.2, hr1 r hr.1]

/-! ### No execution goes on for ever -/

/-- `p` is what is left of `q` after its first call. -/
def After (p q : Prog C α) : Prop := ∃ (c : C) (op : Op) (β : Type) (x : β) (k : List β → Prog C α) (l : List β), q = .call c op x k ∧ p = k l

theorem after_wf : WellFounded (After (C := C) (α := α)) := by
  constructor
  intro p
  induction p with
  | done o => exact ⟨_, fun q h => by obtain ⟨c, op, β, x, k, l, h, -⟩ := h; cases h⟩
  | spin => exact ⟨_, fun q h => by obtain ⟨c, op, β, x, k, l, h, -⟩ := h; cases h⟩
  | call c op x k ih =>
    refine ⟨_, fun q h => ?_⟩
    obtain ⟨c', op', β', x', k', l, h, rfl⟩ := h
    simp only [Prog.call.injEq] at h
    obtain ⟨rfl, rfl, rfl, h1, h2⟩ := h
    rw [← eq_of_heq h2]
    exact ih l

theorem step_wf : WellFounded (fun t s : Machine C α n => Step members s t) := by
  classical
  refine Subrelation.wf (r := Pi.Lex (· < ·) (fun {_} => After)) ?_ (Pi.Lex.wellFounded (· < ·) fun _ => after_wf)
  intro t s h
  obtain ⟨c, op, β, x, k, hne, hs, ht, ho⟩ := h
  obtain ⟨r, hr, hmin⟩ : ∃ r ∈ members c, ∀ j < r, j ∉ members c := by
    obtain ⟨a, ha⟩ := List.exists_mem_of_ne_nil _ hne
    obtain ⟨m, hm, hlt⟩ := WellFounded.has_min (wellFounded_lt (α := Fin n)) {a | a ∈ members c} ⟨a, ha⟩
    exact ⟨m, hm, fun j hj hjm => hlt j hjm hj⟩
  refine ⟨r, fun j hj => ho j (hmin j hj), ?_⟩
  obtain ⟨i, hi, rfl⟩ := mem_index hr
  rw [hs i hi, ht i hi]
  exact ⟨_, _, _, _, _, _, rfl, rfl⟩

/-- All executions end, and one can always go on to a state where nothing more can happen. -/
theorem exists_final (s : Machine C α n) : ∃ t, Reach members s t ∧ Final members t := by
  induction s using (step_wf (members := members)).induction with
  | _ s ih =>
    by_cases h : Final members s
    · exact ⟨s, .refl, h⟩
    · unfold Final at h
      push Not at h
      obtain ⟨t, ht⟩ := h
      obtain ⟨u, hu, hf⟩ := ih t ht
      exact ⟨u, .head ht hu, hf⟩

/-! ### Ranks that wait for ever -/

theorem avoids_step {s t : Machine C α n} (h : Step members s t) {c : C} {q : Fin n} (hq : Avoids c (s q)) : Avoids c (t q) := by
  obtain ⟨c', op, β, x, k, hne, hs, ht, ho⟩ := h
  by_cases hm : q ∈ members c'
  · obtain ⟨i, hi, rfl⟩ := mem_index hm
    rw [hs i hi] at hq
    rw [ht i hi]
    exact hq.2 _
  · rw [ho q hm]; exact hq

/-- A rank that makes a call on a communicator one of whose ranks never makes any waits for ever. -/
theorem waits {s t : Machine C α n} (h : Reach members s t) {c : C} {q : Fin n} (hq : q ∈ members c) (ha : Avoids c (s q))
    {r : Fin n} {op : Op} {β : Type} {x : β} {k : List β → Prog C α} (hr : s r = .call c op x k) : t r = .call c op x k := by
  have : t r = .call c op x k ∧ Avoids c (t q) := by
    induction h with
    | refl => exact ⟨hr, ha⟩
    | @tail u v _ huv ih =>
      refine ⟨?_, avoids_step huv ih.2⟩
      obtain ⟨c', op', β', x', k', hne, hs, ht, ho⟩ := huv
      by_cases hm : r ∈ members c'
      · exfalso
        obtain ⟨i, hi, rfl⟩ := mem_index hm
        have e := (hs i hi).symm.trans ih.1
        simp only [Prog.call.injEq] at e
        obtain ⟨rfl, -⟩ := e
        obtain ⟨j, hj, rfl⟩ := mem_index hq
        have := ih.2
        rw [hs j hj] at this
        exact this.1 rfl
      · rw [ho r hm]; exact ih.1
  exact this.1

end Verif.Lemmas.Mpi
