import Verif.Model.Mpi
import Mathlib.Logic.Relation

/-!
# How the ranks of a machine run

`n` ranks run at the same time, in any order. A collective call on a communicator takes place once all its ranks make this same call;
until then, the ranks that make it wait (this is the weakest behaviour MPI allows: a broadcast may return earlier on its root).
-/

namespace Verif.Spec.Mpi

open Verif Verif.Model.Mpi

variable {C α : Type} {n : ℕ}

/-- What is left to do on each rank. -/
abbrev Machine (C α : Type) (n : ℕ) := Fin n → Prog C α

/-- The ranks in `G`, in this order, run the programs `p 0`, `p 1`, ...; other ranks run anything. -/
def Runs (G : List (Fin n)) (p : ℕ → Prog C α) (s : Machine C α n) : Prop := ∀ i (h : i < G.length), s G[i] = p i

/-- A collective call takes place. -/
def Step (members : C → List (Fin n)) (s t : Machine C α n) : Prop :=
  ∃ (c : C) (op : Op) (β : Type) (x : ℕ → β) (k : ℕ → List β → Prog C α), members c ≠ [] ∧
    Runs (members c) (fun i => .call c op (x i) (k i)) s ∧
    Runs (members c) (fun i => k i ((List.range (members c).length).map x)) t ∧
    ∀ r ∉ members c, t r = s r

/-- Some execution leads from `s` to `t`. -/
abbrev Reach (members : C → List (Fin n)) : Machine C α n → Machine C α n → Prop := Relation.ReflTransGen (Step members)

/-- Nothing more can happen. -/
def Final (members : C → List (Fin n)) (s : Machine C α n) : Prop := ∀ t, ¬ Step members s t

/-- Ranks `G` running `p` end with `out`: whatever other ranks do, and in whatever order ranks run, once nothing more can happen all
ranks of `G` have ended with `out`, and those that have ended earlier have done so with `out`. (No execution goes on for ever:
`no_infinite`.) -/
structure Ends (members : C → List (Fin n)) (G : List (Fin n)) (p : ℕ → Prog C α) (out : ℕ → Except Err α) : Prop where
  final : ∀ s u, Runs G p s → Reach members s u → Final members u → ∀ i (h : i < G.length), u G[i] = .done (out i)
  early : ∀ s u, Runs G p s → Reach members s u → ∀ i (h : i < G.length), ∀ o, u G[i] = .done o → o = out i

/-- The program never makes a call on communicator `c`. -/
def Avoids (c : C) : Prog C α → Prop
  | .done _ => True
  | .spin => True
  | .call c' _ _ k => c' ≠ c ∧ ∀ l, Avoids c (k l)

end Verif.Spec.Mpi
