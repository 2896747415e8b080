import Verif.Model.Fiber
import Mathlib.Data.List.Forall2
import Mathlib.Data.List.Perm.Basic
import Mathlib.Data.List.Pairwise
import Mathlib.Tactic.Ring
import Mathlib.Tactic.Linarith

/-! # Lemmas on the model of fiber assignment -/

namespace Verif.Lemmas.Fiber

open Verif Verif.Model Verif.Model.Fiber

/-! ### numpy helpers -/

theorem updateAt_append {α : Type*} (x y : List (ℕ × ℕ)) (f : α → ℕ → α) (l : List α) :
    updateAt (x ++ y) f l = updateAt y f (updateAt x f l) := by simp [updateAt, List.foldl_append]

theorem updateAt_shift {α : Type*} (x : List (ℕ × ℕ)) (f : α → ℕ → α) (a : α) (l : List α) :
    updateAt (x.map fun p => (p.1 + 1, p.2)) f (a :: l) = a :: updateAt x f l := by
  induction x generalizing l with
  | nil => rfl
  | cons p x ih =>
    have := ih (l.modify p.1 fun a => f a p.2)
    simpa [updateAt] using this

theorem matchIdx_cons (a : ℤ) (A B : List ℤ) :
    matchIdx (a :: A) B = (if a ∈ B then [(0, B.idxOf a)] else []) ++ (matchIdx A B).map fun p => (p.1 + 1, p.2) := by
  have h : A.zipIdx 1 = A.zipIdx.map fun p => (p.1, p.2 + 1) := by
    rw [List.zipIdx_succ]
  unfold matchIdx
  rw [List.zipIdx_cons, List.filterMap_cons]
  simp only [Nat.zero_add, h, List.filterMap_map, List.map_filterMap]
  have e : ((fun a : ℤ × ℕ => if a.1 ∈ B then some (a.2, List.idxOf a.1 B) else none) ∘ fun p : ℤ × ℕ => (p.1, p.2 + 1))
      = fun x => Option.map (fun p : ℕ × ℕ => (p.1 + 1, p.2)) (if x.1 ∈ B then some (x.2, List.idxOf x.1 B) else none) := by
    funext x
    simp only [Function.comp]
    split <;> rfl
  rw [e]
  by_cases ha : a ∈ B <;> simp [ha]

theorem updateAt_matchIdx {α : Type*} (key : α → ℤ) (B : List ℤ) (f : α → ℕ → α) (l : List α) :
    updateAt (matchIdx (l.map key) B) f l = l.map fun a => if key a ∈ B then f a (B.idxOf (key a)) else a := by
  induction l with
  | nil => rfl
  | cons a l ih =>
    rw [List.map_cons, matchIdx_cons, updateAt_append, List.map_cons]
    by_cases ha : key a ∈ B
    · rw [if_pos ha]
      have : updateAt [(0, B.idxOf (key a))] f (a :: l) = f a (B.idxOf (key a)) :: l := by simp [updateAt]
      rw [this, updateAt_shift, ih, if_pos ha]
    · rw [if_neg ha]
      have : updateAt [] f (a :: l) = a :: l := rfl
      rw [this, updateAt_shift, ih, if_neg ha]

theorem takeMask_eq {α : Type*} (p : α → Bool) (l : List α) : takeMask (l.map p) l = l.filter p := by
  induction l with
  | nil => rfl
  | cons a l ih =>
    rw [List.map_cons]
    cases h : p a <;> simp [takeMask, h, ih]

theorem putMask_map {α β : Type*} (f : α → β → α) (p : α → Bool) (g : α → β) (l : List α) :
    putMask f (l.map p) l ((l.filter p).map g) = l.map fun a => if p a then f a (g a) else a := by
  induction l with
  | nil => rfl
  | cons a l ih =>
    rw [List.map_cons]
    cases h : p a <;> simp [putMask, h, ih]

/-- What is written at the rows of a mask. -/
def Written {α β : Type*} (f : α → β → α) (p : α → Bool) (R : α → β → Prop) (a c : α) : Prop :=
  if p a = true then ∃ b, R a b ∧ c = f a b else c = a

theorem putMask_rel {α β : Type*} (f : α → β → α) (p : α → Bool) (R : α → β → Prop) (l : List α) (bs : List β)
    (h : List.Forall₂ R (l.filter p) bs) : List.Forall₂ (Written f p R) l (putMask f (l.map p) l bs) := by
  induction l generalizing bs with
  | nil => exact .nil
  | cons a l ih =>
    rw [List.map_cons]
    cases hp : p a with
    | true =>
      rw [List.filter_cons_of_pos (by simpa using hp)] at h
      cases h with
      | cons hab hrest =>
        exact .cons (by simp only [Written, hp, if_true]; exact ⟨_, hab, rfl⟩) (ih _ hrest)
    | false =>
      rw [List.filter_cons_of_neg (by simp [hp])] at h
      exact .cons (by simp [Written, hp]) (ih _ h)

/-! ### Exchange between ranks -/

theorem cindexFrom_fst {α : Type*} (k : ℕ) (ls : List (List α)) : (cindexFrom k ls).map (List.map Prod.fst) = ls := by
  induction ls generalizing k with
  | nil => rfl
  | cons l ls ih => simp [cindexFrom, ih]

theorem cindexFrom_flatten {α : Type*} (k : ℕ) (ls : List (List α)) : (cindexFrom k ls).flatten = ls.flatten.zipIdx k := by
  induction ls generalizing k with
  | nil => rfl
  | cons l ls ih => simp [cindexFrom, ih, List.zipIdx_append]

theorem splitSizes_flatten {α : Type*} (ls : List (List α)) : Blinding.splitSizes (ls.map List.length) ls.flatten = ls := by
  induction ls with
  | nil => rfl
  | cons l ls ih => simp [Blinding.splitSizes, ih]

theorem forall₂_flatten {α β : Type*} {R : α → β → Prop} {a : List (List α)} {b : List (List β)}
    (h : List.Forall₂ (List.Forall₂ R) a b) : List.Forall₂ R a.flatten b.flatten := by
  induction h with
  | nil => exact .nil
  | cons h _ ih => simpa using List.rel_append h ih

theorem forall₂_splitSizes {α β : Type*} {R : α → β → Prop} (a : List (List α)) {c : List β}
    (h : List.Forall₂ R a.flatten c) : List.Forall₂ (List.Forall₂ R) a (Blinding.splitSizes (a.map List.length) c) := by
  induction a generalizing c with
  | nil => exact .nil
  | cons l ls ih =>
    simp only [List.map_cons, Blinding.splitSizes]
    rw [List.flatten_cons] at h
    have h1 := (List.forall₂_take_append c l ls.flatten h.flip).flip
    have h2 := (List.forall₂_drop_append c l ls.flatten h.flip).flip
    exact .cons h1 (ih h2)

theorem mapM_forall₂ {α β : Type*} {f : α → Except Err β} {l : List α} {out : List β} (h : l.mapM f = .ok out) :
    List.Forall₂ (fun a b => f a = .ok b) l out := by
  induction l generalizing out with
  | nil =>
    simp only [List.mapM_nil, pure, Except.pure, Except.ok.injEq] at h
    subst h
    exact .nil
  | cons a l ih =>
    simp only [List.mapM_cons, Bind.bind, Except.bind, pure, Except.pure] at h
    cases ha : f a with
    | error e => simp [ha] at h
    | ok b =>
      simp only [ha] at h
      cases hl : l.mapM f with
      | error e => simp [hl] at h
      | ok bs =>
        simp only [hl, Except.ok.injEq] at h
        subst h
        exact .cons ha (ih hl)

theorem mapM_of_forall₂ {α β : Type*} {f : α → Except Err β} {l : List α} {out : List β}
    (h : List.Forall₂ (fun a b => f a = .ok b) l out) : l.mapM f = .ok out := by
  induction h with
  | nil => rfl
  | cons ha _ ih => simp [List.mapM_cons, Bind.bind, Except.bind, pure, Except.pure, ha, ih]

theorem exists_forall₂ {α β : Type*} {R : α → β → Prop} (l : List α) (h : ∀ a ∈ l, ∃ b, R a b) :
    ∃ out, List.Forall₂ R l out := by
  induction l with
  | nil => exact ⟨[], .nil⟩
  | cons a l ih =>
    obtain ⟨b, hb⟩ := h a (by simp)
    obtain ⟨bs, hbs⟩ := ih fun a ha => h a (by simp [ha])
    exact ⟨b :: bs, .cons hb hbs⟩

theorem forall₂_and_mem {α β : Type*} {R : α → β → Prop} {l : List α} {out : List β} (h : List.Forall₂ R l out) :
    List.Forall₂ (fun a b => a ∈ l ∧ R a b) l out := by
  induction h with
  | nil => exact .nil
  | cons hab _ ih => exact .cons ⟨by simp, hab⟩ (ih.imp fun _ _ h => ⟨by simp [h.1], h.2⟩)

theorem forall₂_map_eq {α β γ : Type*} {R : α → β → Prop} {f : α → γ} {g : β → γ} (hR : ∀ a b, R a b → g b = f a) {l : List α}
    {out : List β} (h : List.Forall₂ R l out) : out.map g = l.map f := by
  induction h with
  | nil => rfl
  | cons h _ ih => simp [hR _ _ h, ih]

/-- Rows sorted by a strictly increasing index come back in place. -/
theorem sort_back {ρ : Type} (index : ρ → ℕ) {a c d : List ρ} (hd : (d.map index).Pairwise (· < ·))
    (hi : a.map index = d.map index) (hp : a.Perm c) :
    c.mergeSort (fun x y => decide (index x ≤ index y)) = a := by
  have hs : (c.mergeSort (fun x y => decide (index x ≤ index y))).Pairwise fun x y => index x ≤ index y := by
    have := List.pairwise_mergeSort (le := fun x y => decide (index x ≤ index y))
      (by intro x y z; simp only [decide_eq_true_eq]; omega) (by intro x y; simp only [Bool.or_eq_true, decide_eq_true_eq]; omega) c
    exact this.imp (by simp)
  have hperm : (c.mergeSort (fun x y => decide (index x ≤ index y))).Perm a :=
    (List.mergeSort_perm c _).trans hp.symm
  have ha : a.Pairwise fun x y => index x < index y := by
    rw [← hi] at hd
    exact List.pairwise_map.mp hd
  have hn : (c.mergeSort (fun x y => decide (index x ≤ index y))).Pairwise fun x y => index x ≠ index y := by
    have h1 : (a.map index).Nodup := by rw [hi]; exact hd.imp (by intro x y h; exact Nat.ne_of_lt h)
    have h2 := (hperm.map index).nodup_iff.mpr h1
    exact List.pairwise_map.mp h2
  have hst : (c.mergeSort (fun x y => decide (index x ≤ index y))).Pairwise fun x y => index x < index y :=
    (hs.and hn).imp (by intro x y h; omega)
  exact hperm.eq_of_pairwise (fun x y _ _ h1 h2 => absurd h1 (by omega)) hst ha

/-- The exchange relates each row to its own result, in place. -/
theorem distribute_ok {ρ : Type} {key : ρ → ℤ} {index : ρ → ℕ} {sched : List (List ρ) → List (List ρ)}
    {work : List ρ → Except Err (List ρ)} {sub : List (List ρ)} (hs : Csort key sub (sched sub))
    (hidx : (sub.flatten.map index).Pairwise (· < ·)) {R : ρ → ρ → Prop} (hR : ∀ a b, R a b → index b = index a)
    (hwork : ∀ rows ∈ sched sub, ∃ out, work rows = .ok out ∧ List.Forall₂ R rows out) :
    ∃ back, distribute index sched work sub = .ok back ∧ List.Forall₂ (List.Forall₂ R) sub back := by
  obtain ⟨worked, hw⟩ := exists_forall₂ (R := fun rows out => work rows = .ok out ∧ List.Forall₂ R rows out) _ hwork
  have hm : (sched sub).mapM work = .ok worked := mapM_of_forall₂ (hw.imp fun _ _ h => h.1)
  have hf : List.Forall₂ R (sched sub).flatten worked.flatten := forall₂_flatten (hw.imp fun _ _ h => h.2)
  obtain ⟨c, hc, hcp⟩ : ∃ c, List.Forall₂ R sub.flatten c ∧ c.Perm worked.flatten := by
    have := List.perm_comp_forall₂ hs.rows.symm hf
    obtain ⟨c, h1, h2⟩ := this
    exact ⟨c, h1, h2⟩
  have hci : c.map index = sub.flatten.map index := forall₂_map_eq hR hc
  have hsort := sort_back index hidx hci hcp
  have hback := forall₂_splitSizes sub hc
  refine ⟨Blinding.splitSizes (sub.map List.length) c, ?_, hback⟩
  unfold distribute
  simp only [hm, Bind.bind, Except.bind, hsort]
  rw [if_pos]
  · rfl
  · have : List.Forall₂ (fun a b => a = b) ((Blinding.splitSizes (sub.map List.length) c).map (List.map index)) (sub.map (List.map index)) := by
      rw [List.forall₂_map_left_iff, List.forall₂_map_right_iff]
      refine (List.Forall₂.flip hback).imp ?_
      intro a b h
      exact forall₂_map_eq hR h
    exact List.forall₂_eq_eq_eq ▸ this

end Verif.Lemmas.Fiber
