import Verif.Model.Box

/-!
# Aliasing: isometries and box catalogs as objects holding references to arrays

Used for C08 and C18 only. An array is a cell of the heap; `x = expression` binds a new cell, `x += ...`, `x[:] = ...` and
`x *= ...` write to the cell in place.
-/

namespace Verif.Model.Alias

open Verif Verif.Model

/-- An `EuclideanIsometry` object (`make_survey.py:81-84`): `_translation` is a reference, `_rotation` is a value because
no method writes to that array in place (lines 126, 209, 224 all bind a new array). -/
structure Obj where
  rot : M3 ℝ
  ref : ℕ

/-- Objects created so far and heap of translation arrays. (`make_survey.py:81-84`). -/
structure World where
  objs : List Obj
  heap : List (V3 ℝ)

namespace World

/-- Content of the array bound to `_translation`. (`make_survey.py:81-84`). -/
def read (w : World) (r : ℕ) : V3 ℝ := w.heap.getD r 0

/-- Value of an object. (`make_survey.py:81-84`). -/
def value (w : World) (o : Obj) : Isom := ⟨o.rot, w.read o.ref⟩

/-- Values of all the objects, in order of creation. (`make_survey.py:81-84`). -/
def values (w : World) : List Isom := w.objs.map w.value

/-- A new object, with a new array. (`make_survey.py:81-84`). -/
def push (w : World) (s : Isom) : World := ⟨w.objs ++ [⟨s.rot, w.heap.length⟩], w.heap ++ [s.trans]⟩

/-- Bind both attributes of object `i` to new arrays. (`make_survey.py:129-131`). -/
def rebind (w : World) (i : ℕ) (s : Isom) : World := ⟨w.objs.set i ⟨s.rot, w.heap.length⟩, w.heap ++ [s.trans]⟩

/-- One mutating call on object `i` (`make_survey.py:115-215`): `translation` (line 192, `+=`) and `reset_translate` (line
214, `[:] =`) write in place; `dot` with frame 'origin' (line 128), a successful `rotation`, `reset_rotation` with frame
'origin' (line 206) bind a new `_translation`; the other calls only bind `_rotation`. -/
noncomputable def call (w : World) (i : ℕ) (op : Isom.Op) : World :=
  match w.objs[i]? with
  | none => w
  | some o =>
    let s := ((w.value o).step op).1
    let inplace : World := ⟨w.objs, w.heap.set o.ref s.trans⟩
    let keep : World := ⟨w.objs.set i ⟨s.rot, o.ref⟩, w.heap⟩
    match op with
    | .translation _ _ _ => inplace
    | .resetTranslate => inplace
    | .dot _ .origin => w.rebind i s
    | .dot _ _ => keep
    | .rotation _ _ _ _ => if ((w.value o).step op).2 = none then w.rebind i s else w
    | .resetRotation .origin => w.rebind i s
    | .resetRotation _ => keep

/-- `self.copy()` as called by `__radd__` (`make_survey.py:235-239`). `copy` comes from `mpytools.BaseClass`: with
`shallow`, the new object is bound to the same arrays; without, it has its own. -/
def copy (shallow : Bool) (w : World) (i : ℕ) : World :=
  match w.objs[i]? with
  | none => w
  | some o => if shallow then ⟨w.objs ++ [o], w.heap⟩ else w.push (w.value o)

end World

/-- A python statement on isometries; objects are designated by their order of creation.
(`make_survey.py:115-248`). -/
inductive Call where
  /-- `EuclideanIsometry()` -/
  | create
  /-- a mutating method of object `i` -/
  | method (i : ℕ) (op : Isom.Op)
  /-- `0 + x`, `sum([x])`: line 237 -/
  | zeroAdd (i : ℕ)
  /-- `x + y`: lines 246-248, 217-228 -/
  | add (i j : ℕ)
  /-- `x += y`, `x.extend(y)`: lines 230-244 -/
  | iadd (i j : ℕ)

/-- Effect of a statement on the objects. (`make_survey.py:115-248`). -/
noncomputable def World.exec (shallow : Bool) (w : World) : Call → World
  | .create => w.push Isom.init
  | .method i op => w.call i op
  | .zeroAdd i => w.copy shallow i
  | .add i j => match w.objs[i]?, w.objs[j]? with
    | some a, some b => w.push (Isom.add (w.value a) (w.value b))
    | _, _ => w
  | .iadd i j => match w.objs[i]?, w.objs[j]? with
    | some a, some b => w.rebind i (Isom.extend (w.value a) (w.value b))
    | _, _ => w

/-- A program. (`make_survey.py:115-248`). -/
noncomputable def World.run (shallow : Bool) (w : World) (p : List Call) : World := p.foldl (World.exec shallow) w

/-- A `BoxCatalog` object (`make_survey.py:700-704`): `_boxsize` and `_boxcenter` are references. The columns are values:
the methods modelled here bind new columns and never write to a column in place. -/
structure CatObj (ρ : Type) where
  size : ℕ
  center : ℕ
  rows : List (Row ρ)

/-- Catalogs created so far and heap of `_boxsize` and `_boxcenter` arrays.
(`make_survey.py:685-690`). -/
structure CatWorld (ρ : Type) where
  objs : List (CatObj ρ)
  heap : List (V3 ℝ)

namespace CatWorld
variable {ρ : Type}

/-- Value of a catalog. (`make_survey.py:685-690`). -/
def value (w : CatWorld ρ) (o : CatObj ρ) : Box ρ := ⟨w.heap.getD o.size 0, w.heap.getD o.center 0, o.rows⟩

/-- Values of all the catalogs. (`make_survey.py:685-690`). -/
def values (w : CatWorld ρ) : List (Box ρ) := w.objs.map w.value

/-- A new catalog with its own arrays. (`make_survey.py:685-690`). -/
def push (w : CatWorld ρ) (b : Box ρ) : CatWorld ρ :=
  ⟨w.objs ++ [⟨w.heap.length, w.heap.length + 1, b.rows⟩], w.heap ++ [b.boxsize, b.boxcenter]⟩

/-- Catalog `i` after its setters bound new arrays (`make_survey.py:750-768`, `_make_array` allocates). -/
def rebind (w : CatWorld ρ) (i : ℕ) (b : Box ρ) : CatWorld ρ :=
  ⟨w.objs.set i ⟨w.heap.length, w.heap.length + 1, b.rows⟩, w.heap ++ [b.boxsize, b.boxcenter]⟩

/-- The calls on box catalogs. (`make_survey.py:706-887`). -/
inductive Call where
  | copy (i : ℕ)
  | move (i : ℕ) (op : Box.Move)
  | remap (i : ℕ) (args : Box.RemapArgs)
  | subbox (i : ℕ) (ranges : Box.Ranges) (boxsizeUnit : Bool)
  | pad (i : ℕ) (factors : V3 ℝ)

/-- `self.copy()`: with `shared`, the copy is bound to the same `_boxsize` and `_boxcenter` arrays.
(`make_survey.py:801, 847, 869`). -/
def copy (shared : Bool) (w : CatWorld ρ) (o : CatObj ρ) : CatWorld ρ :=
  if shared then ⟨w.objs ++ [o], w.heap⟩ else w.push (w.value o)

/-- A method returning a new catalog or raising. (`make_survey.py:774-887`). -/
def ret (w : CatWorld ρ) : Except Err (Box ρ) → CatWorld ρ
  | .ok b => w.push b
  | .error _ => w

/-- `make_survey.py:869-887` `pad`, last line of the copy included: `new.boxsize *= factors` multiplies in place the array
bound to `new._boxsize` (shared with `self._boxsize` if `copy` shares arrays) and then binds a copy of it to
`new._boxsize`. Line 877 reads `self.boxsize` afterwards. -/
noncomputable def pad (shared : Bool) (w : CatWorld ρ) (o : CatObj ρ) (factors : V3 ℝ) : CatWorld ρ :=
  if shared then
    let w1 : CatWorld ρ := ⟨w.objs, w.heap.set o.size (V3.emul (w.value o).boxsize factors)⟩
    let self := w1.value o
    let newsize := self.boxsize
    match [Box.padShifts factors.x, Box.padShifts factors.y, Box.padShifts factors.z].mapM
        (Box.padBroadcast self.boxsize) with
    | .ok shifts => w1.push { self with boxsize := newsize, rows := shifts.flatMap (self.padImage newsize) }
    | .error _ => w1
  else w.ret ((w.value o).pad factors)

/-- Effect of a call. `translate`, `recenter` and `rotate` go through the setters (`make_survey.py:721`, `:744-745`),
`remap` and `subbox` set the box of the new catalog through the setters (`:800`, `:848-849`). -/
noncomputable def exec (shared : Bool) (w : CatWorld ρ) : Call → CatWorld ρ
  | .copy i => match w.objs[i]? with
    | some o => w.copy shared o
    | none => w
  | .move i op => match w.objs[i]? with
    | some o => if ((w.value o).move op).2 = none then w.rebind i ((w.value o).move op).1 else w
    | none => w
  | .remap i args => match w.objs[i]? with
    | some o => w.ret ((w.value o).remap args)
    | none => w
  | .subbox i r u => match w.objs[i]? with
    | some o => w.ret ((w.value o).subbox r u)
    | none => w
  | .pad i f => match w.objs[i]? with
    | some o => w.pad shared o f
    | none => w

/-- A program. (`make_survey.py:706-887`). -/
noncomputable def run (shared : Bool) (w : CatWorld ρ) (p : List Call) : CatWorld ρ := p.foldl (exec shared) w

end CatWorld

end Verif.Model.Alias
