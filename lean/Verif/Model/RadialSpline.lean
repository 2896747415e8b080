import Verif.Model.Radial

/-!
# Model of `TabulatedRadialMask` with splines of order at least two

`/repo/mockfactory/make_survey.py:1375-1508`. The default `interp_order` is 3. The splines are those of scipy, which is not part
of the repository: `Spline` gathers their values, what they are assumed to satisfy is in `Verif/Spec/Spline.lean`. The search of
the maximum is a `while` loop without bound on the number of iterations: it is a relation, without result when the loop does not
end. Numbers of the loop are finite or `nan` (`none`).
-/

namespace Verif.Model

open Verif

/-- `scipy.interpolate.UnivariateSpline(x, y, k=order, s=0, ext='zeros')` through nodes `(x, y)`: `value` and first and second
derivatives (`derivative()` keeps `ext`), at one finite point. (`make_survey.py:1496`). -/
structure Spline where
  value : ℕ → List (ℝ × ℝ) → ℝ → ℝ
  d1 : ℕ → List (ℝ × ℝ) → ℝ → ℝ
  d2 : ℕ → List (ℝ × ℝ) → ℝ → ℝ

namespace Spline

variable (S : Spline) (order : ℕ) (nodes : List (ℝ × ℝ))

/-- Nodes accepted by `UnivariateSpline(x, y, k=order, s=0)`: order in 1..5, more nodes than the order, strictly increasing
abscissae; otherwise an exception, written `valueError`. (`make_survey.py:1496`). -/
def Accepted : Prop := (1 ≤ order ∧ order ≤ 5) ∧ order < nodes.length ∧ (nodes.map fun p => p.1).Pairwise (· < ·)

/-- `crit(x, xnew)` (`make_survey.py:1477-1478`): false if one number is `nan`. -/
def Crit (prec : ℝ) (x xnew : Option ℝ) : Prop :=
  ∃ a b, x = some a ∧ xnew = some b ∧ |S.value order nodes b - S.value order nodes a| < prec

/-- `xnew = x - fun(x) / grad(x)` (`make_survey.py:1460`, `:1465`) where `fun`, `grad` are the first and second derivatives:
0 / 0 and `nan` give `nan`. A number divided by zero is infinite: here any number may follow, an infinite number behaving like
some number outside of the nodes. -/
def Step : Option ℝ → Option ℝ → Prop
  | none, y => y = none
  | some a, y =>
    if S.d2 order nodes a ≠ 0 then y = some (a - S.d1 order nodes a / S.d2 order nodes a)
    else if S.d1 order nodes a = 0 then y = none
    else True

/-- `make_survey.py:1463-1466`: the `while` loop with variables `x`, `xnew`, and the value returned. -/
inductive Loop (prec : ℝ) : Option ℝ → Option ℝ → Option ℝ → Prop
  | stop {x xnew : Option ℝ} : S.Crit order nodes prec x xnew → Loop prec x xnew x
  | next {x xnew xnew' r : Option ℝ} : ¬ S.Crit order nodes prec x xnew → S.Step order nodes xnew xnew' →
      Loop prec xnew xnew' r → Loop prec x xnew r

/-- `make_survey.py:1461-1462`, `max(xnew, zrange[0])` then `min(xnew, zrange[-1])`: python keeps a `nan` first argument. -/
noncomputable def clip (zrange : Range) (x : Option ℝ) : Option ℝ := x.map fun a => min (max a zrange.1) zrange.2

/-- `make_survey.py:1459-1466` `solve_newton`, started at `x`. -/
def SolveNewton (zrange : Range) (prec x : ℝ) (r : Option ℝ) : Prop :=
  ∃ y, S.Step order nodes (some x) y ∧ S.Loop order nodes prec (some x) (clip zrange y) r

/-- `np.linspace(self.z[0], self.z[-1], len(self.z) * self.interp_order)` (`make_survey.py:1469`). -/
noncomputable def fineGrid : List ℝ :=
  match nodes.head?, nodes.getLast? with
  | some a, some b =>
    (List.range (nodes.length * order)).map fun i : ℕ => a.1 + (b.1 - a.1) * i / ((nodes.length * order : ℕ) - 1 : ℝ)
  | _, _ => []

/-- The abscissa of the first maximum of `f` on a list, `z[np.argmax(nz)]`. (`make_survey.py:1471`). -/
noncomputable def argmax (f : ℝ → ℝ) : List ℝ → Option ℝ
  | [] => none
  | a :: l =>
    match argmax f l with
    | none => some a
    | some b => if f a < f b then some b else some a

/-- `nz.min()`. (`make_survey.py:1475`). -/
noncomputable def minOn (f : ℝ → ℝ) : List ℝ → ℝ
  | [] => 0
  | a :: l => l.foldl (fun m x => min m (f x)) (f a)

/-- `np.allclose(nz, nz[0])` with its default tolerances. (`make_survey.py:1472`). -/
def AllClose (f : ℝ → ℝ) (l : List ℝ) : Prop := ∀ a ∈ l.head?, ∀ x ∈ l, |f x - f a| ≤ 1 / 10 ^ 8 + 1 / 10 ^ 5 * |f a|

open Classical in
/-- `make_survey.py:1468-1485`: the default normalisation, as a relation. A null maximum makes it infinite, then `nan`. -/
def DefaultNorm (zrange : Range) (result : Except Err ℝ) : Prop :=
  ∃ x0, argmax (S.value order nodes) (fineGrid order nodes) = some x0 ∧
    ∃ nbarMax, (if AllClose (S.value order nodes) (fineGrid order nodes) then nbarMax = S.value order nodes x0
      else ∃ r, S.SolveNewton order nodes zrange
        (1 / 10 ^ 6 * (S.value order nodes x0 - minOn (S.value order nodes) (fineGrid order nodes))) x0 (some r) ∧
        nbarMax = S.value order nodes r) ∧
      result = if ∃ z ∈ fineGrid order nodes, nbarMax < S.value order nodes z then .error .valueError
        else if nbarMax = 0 then .error .nan else .ok (1 / nbarMax)

end Spline

/-- State of a `TabulatedRadialMask` with `interp_order = order`. (`make_survey.py:1418-1427`). -/
structure SplineMask where
  order : ℕ
  nodes : List (ℝ × ℝ)
  zrange : Range
  norm : ℝ

namespace SplineMask

open Classical in
/-- `make_survey.py:1429-1489` `prepare`, for `interp_order` at least 2. -/
def Prepare (S : Spline) (order : ℕ) (nodes : List (ℝ × ℝ)) (zrange : Range) (norm : Option ℝ)
    (result : Except Err SplineMask) : Prop :=
  if Spline.Accepted order nodes then
    match norm with
    | some c => result = .ok ⟨order, nodes, zrange, c⟩
    | none => ∃ n, S.DefaultNorm order nodes zrange n ∧ result = n.map fun c => ⟨order, nodes, zrange, c⟩
  else result = .error .valueError

/-- `make_survey.py:1380-1427` `TabulatedRadialMask(z, nbar, zrange, norm, interp_order)`, for `interp_order` at least 2. -/
def Init (S : Spline) (order : ℕ) (nodes : List (ℝ × ℝ)) (zrange : Option Range) (norm : Option ℝ)
    (result : Except Err SplineMask) : Prop :=
  if ∃ p ∈ nodes, p.2 < 0 then result = .error .valueError
  else match nodes.head?, nodes.getLast? with
    | some a, some b =>
      if a.1 ≤ (zrange.getD (a.1, b.1)).1 ∧ (zrange.getD (a.1, b.1)).2 ≤ b.1 then
        Prepare S order nodes (zrange.getD (a.1, b.1)) norm result
      else result = .error .valueError
    | _, _ => result = .error .indexError

open Classical in
/-- `make_survey.py:1503-1508` `prob`, with the spline of `_set_interp` (`:1491-1496`). -/
noncomputable def prob (S : Spline) (t : SplineMask) (z : ℝ) : ℝ :=
  if t.zrange.1 ≤ z ∧ z ≤ t.zrange.2 then S.value t.order (t.nodes.map fun p => (p.1, min (t.norm * p.2) 1)) z else 0

end SplineMask

end Verif.Model
