import Mathlib.Data.Nat.Digits.Defs
import Mathlib.Data.List.Basic

/-!
# File names and dictionaries

Python strings that are built and taken apart by the code are lists of characters.
-/

namespace Verif.Model.Names

/-- A digit as a character. (`from_box_to_desi_sv3_cutsky.py:37`). -/
def digit (d : ℕ) : Char := Char.ofNat (48 + d)

/-- `str(n)`, `f"{n:d}"` of a whole number (negative numbers are not represented).
(`from_box_to_desi_sv3_cutsky.py:37`). -/
def decimal (n : ℕ) : List Char := if n = 0 then ['0'] else ((Nat.digits 10 n).map digit).reverse

/-- `f"{n:0{width}d}"` (`fiber_assignment.py:72, 171`). -/
def padded (width n : ℕ) : List Char := List.replicate (width - (decimal n).length) '0' ++ decimal n

/-- `sep.join(parts)`. (`from_box_to_desi_sv3_cutsky.py:37`). -/
def join (sep : List Char) : List (List Char) → List Char
  | [] => []
  | [a] => a
  | a :: l => a ++ sep ++ join sep l

/-- `text.split(c)` for a single character `c`. (`from_box_to_desi_sv3_cutsky.py:29`). -/
def split (c : Char) : List Char → List (List Char)
  | [] => [[]]
  | a :: l => if a = c then [] :: split c l else
    match split c l with
    | [] => [[a]]
    | h :: t => (a :: h) :: t

/-- `d[key] = value` for a dictionary, the list of its items in order of insertion.
(`from_box_to_desi_sv3_cutsky.py:29-31`). -/
def put {κ α : Type*} [DecidableEq κ] (key : κ) (value : α) : List (κ × α) → List (κ × α)
  | [] => [(key, value)]
  | (k, v) :: d => if k = key then (k, value) :: d else (k, v) :: put key value d

/-- `{key: value for ...}`. (`from_box_to_desi_sv3_cutsky.py:29-31`). -/
def dict {κ α : Type*} [DecidableEq κ] (items : List (κ × α)) : List (κ × α) :=
  items.foldl (fun d x => put x.1 x.2 d) []

end Verif.Model.Names
