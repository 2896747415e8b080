import Verif.Model.Mask
import Verif.Model.Blinding

/-!
# Model of the constructors of random catalogs, with all their arguments

`/repo/mockfactory/make_survey.py:1095-1197`. Positions and rows are those of `Verif/Model/Mask.lean`.
-/

namespace Verif.Model.RandomCall

open Verif Verif.Model Verif.Model.Blinding

/-- `make_survey.py:1123-1126`, `:1174-1177`: the deprecated `size` stands for `csize` if this is not given. The second value says
whether `size` is left among the keywords passed on to the constructor of the parent. -/
def sizeArgument (csize size : Option ℕ) : Option ℕ × Bool :=
  match csize, size with
  | none, some n => (some n, false)
  | c, s => (c, s.isSome)

/-- `make_survey.py:1131-1132`, `:1181-1182`: the total number of points; without any of the arguments `None` is multiplied. -/
noncomputable def totalSize (csize : Option ℕ) (nbar : Option ℝ) (volume : ℝ) : Except Err ℤ :=
  match csize, nbar with
  | some n, _ => .ok n
  | none, some d => .ok (catalogSize none d volume)
  | none, none => .error .typeError

/-- `make_survey.py:1096-1136` `RandomBoxCatalog.__init__`, positions of each rank; `u` is the stream of draws of the seed. The parent
rejects unknown keywords (`TypeError`, an assumption on mpytools) and a missing box size (line 699). A negative size gives arrays of
negative sizes, which numpy refuses. -/
noncomputable def randomBox (boxsize : Option (V3 ℝ)) (boxcenter : V3 ℝ) (csize size : Option ℕ) (nbar : Option ℝ) (nranks : ℕ)
    (u : ℕ → V3 ℝ) : Except Err (List (List (V3 ℝ))) :=
  let a := sizeArgument csize size
  if a.2 then .error .typeError
  else match boxsize with
    | none => .error .valueError
    | some L => do
      let n ← totalSize a.1 nbar (L.x * L.y * L.z)
      if n < 0 then .error .valueError
      else .ok (randomBoxCatalog L boxcenter (localSizes n.toNat nranks) u)

/-- `make_survey.py:1144-1197` `RandomCutskyCatalog.__init__`, rows of each rank; `n1` and `n2` are the numbers of rounds of the two
samplings. With a negative size no sampling makes any round, and `np.concatenate` raises (line 1716). -/
noncomputable def randomCutsky (position : String) (rarange decrange : Range) (drange : Option Range) (csize size : Option ℕ)
    (nbar : Option ℝ) (nranks : ℕ) (uv : ℕ → ℕ → ℝ × ℝ) (w hidden1 hidden2 : ℕ → ℕ → ℝ) (n1 n2 : ℕ) :
    Except Err (List (List (List (String × (ℝ ⊕ V3 ℝ))))) :=
  let a := sizeArgument csize size
  if a.2 then .error .typeError
  else do
    let n ← totalSize a.1 nbar (radecboxArea rarange decrange)
    if n < 0 then .error .valueError
    else randomCutskyCatalog position rarange decrange drange (localSizes n.toNat nranks) uv w hidden1 hidden2 n1 n2

end Verif.Model.RandomCall
