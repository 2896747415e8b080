import Verif.Model.Fiber
import Verif.Model.Mesh
import Verif.Model.Sky

/-!
# Model of the reading of brick quantities

`/repo/mockfactory/desi/brick_pixel_quantities.py`. The bricks of `desiutil`, the files and the conversions between numbers and
strings of numpy are parameters. A catalogue is the list of the rows of each rank; the call fails if one rank raises; what the other
ranks then do is in `Verif/Model/MpiErrors.lean`. Input arrays are flat: `np.ravel` and the final `reshape` do not change the order of
elements. Logging is left out.
-/

namespace Verif.Model.Bricks

open Verif Verif.Model Verif.Model.Fiber

/-- Type of a numpy array: integers, floats, strings of some width, python objects. Numbers of different sizes are not
distinguished. (`brick_pixel_quantities.py:77, 80, 124`). -/
inductive Dtype where
  | int
  | float
  | str (width : ℕ)
  | obj
deriving DecidableEq

/-- An element of an array. `null` is `None`, or `nan` in an array of floats; `uninit` is memory that was not written to.
(`brick_pixel_quantities.py:77, 80, 124`). -/
inductive Val where
  | num (x : ℝ)
  | str (s : String)
  | null
  | uninit

/-- A numpy array of one dimension. (`brick_pixel_quantities.py:60-64`). -/
structure Arr where
  dtype : Dtype
  vals : List Val

/-- An image with the conversion of its header: `pixel ra dec` is `wcs.WCS(header).wcs_world2pix(ra, dec, 0)`
(`brick_pixel_quantities.py:70-73`). -/
structure Image where
  dtype : Dtype
  pixel : ℝ → ℝ → ℝ × ℝ
  height : ℕ
  width : ℕ
  value : ℕ → ℕ → Val

/-- `desiutil.brick.Bricks` (name, identifier and centre of the brick of a position), the image files, and the conversions of
numpy between numbers and strings. (`brick_pixel_quantities.py:70-77, 83-86, 102`). -/
structure Survey where
  brickname : ℝ → ℝ → String
  brickid : ℝ → ℝ → ℤ
  centre : ℝ → ℝ → ℝ × ℝ
  file : String → Option Image
  digits : ℝ → String
  parse : String → Option ℝ

/-- A row of `brickid_data` (`brick_pixel_quantities.py:86-90`). -/
structure Row where
  ra : ℝ
  dec : ℝ
  brickname : String
  brickid : ℤ
  index : ℕ

/-- A keyword argument of a callable: a string with fields to fill in, or anything else. `str.format(region=region)` is a function,
that raises for other fields. (`brick_pixel_quantities.py:118-121`). -/
inductive Kwarg where
  | text (format : String → Except Err String)
  | other (v : Val)

/-- A callable of `columns`: what it returns for positions of a brick. `wantsRegion` tells that it expects the region as fourth
argument, as documented in `brick_pixel_quantities.py:42`. -/
structure Callable where
  wantsRegion : Bool
  run : List (ℝ × ℝ) → String → List (String × Val) → Except Err (List (String × Arr))

/-- A value given by the caller as default. (`brick_pixel_quantities.py:66, 80`). -/
inductive Default where
  | int (n : ℤ)
  | float (x : ℝ)
  | str (s : String)
  | none

/-- The value of a default. (`brick_pixel_quantities.py:80`). -/
def Default.val : Default → Val
  | .int n => .num n
  | .float x => .num x
  | .str t => .str t
  | .none => .null

/-- The type numpy gives to `np.full(n, v)` (`brick_pixel_quantities.py:80`). -/
def Default.dtype : Default → Dtype
  | .int _ => .int
  | .float _ => .float
  | .str t => .str t.length
  | .none => .obj

/-- An item of `columns` (`brick_pixel_quantities.py:39-43`): `name: None`; `name: {'fn':, 'dtype':, 'default':}`, with `fn` the
function of region and brick name of `fn.format(region=region, brickname=brickname)`, and `unknown` telling that other keys are given;
`callable: kwargs`. -/
inductive Column where
  | plain (name : String)
  | file (name : String) (fn : Option (String → String → Except Err String)) (dtype : Option Dtype) (default : Default) (unknown : Bool)
  | call (f : Callable) (kwargs : Option (List (String × Kwarg)))

/-- Element `v` converted to a type, as by an assignment or `astype`: floats are truncated to integers, strings are cut.
(`brick_pixel_quantities.py:77, 80, 125`). -/
noncomputable def convert (s : Survey) : Dtype → Val → Except Err Val
  | .obj, v => .ok v
  | .int, .num x => .ok (.num (store .int x))
  | .int, .str t => match s.parse t with
    | some x => .ok (.num (store .int x))
    | none => .error .valueError
  | .int, .null => .error .typeError
  | .float, .num x => .ok (.num x)
  | .float, .str t => match s.parse t with
    | some x => .ok (.num x)
    | none => .error .valueError
  | .float, .null => .ok .null
  | .str w, .num x => .ok (.str (String.ofList ((s.digits x).toList.take w)))
  | .str w, .str t => .ok (.str (String.ofList (t.toList.take w)))
  | .str w, .null => .ok (.str (String.ofList ("None".toList.take w)))
  | _, .uninit => .ok .uninit

/-- `img[y, x]` for an integer (`brick_pixel_quantities.py:77`): negative indices count from the end. -/
def wrapIndex (n : ℕ) (i : ℤ) : Except Err ℕ :=
  if 0 ≤ i ∧ i < n then .ok i.toNat else if -n ≤ i ∧ i < 0 then .ok (i + n).toNat else .error .indexError

/-- The pixel of a position (`brick_pixel_quantities.py:73-77`). -/
noncomputable def pixelAt (img : Image) (r : Row) : Except Err Val := do
  let p := img.pixel r.ra r.dec
  let y ← wrapIndex img.height (rint p.2)
  let x ← wrapIndex img.width (rint p.1)
  pure (img.value y x)

/-- `_one_brick` (`brick_pixel_quantities.py:66-80`). -/
noncomputable def oneFile (s : Survey) (path : String) (rows : List Row) (dtype : Option Dtype) (default : Default) : Except Err Arr :=
  match s.file path with
  | some img => do
    let vals ← rows.mapM (pixelAt img)
    let d := dtype.getD img.dtype
    pure ⟨d, ← match dtype with
      | none => .ok vals
      | some d => vals.mapM (convert s d)⟩
  | none => do
    let d := dtype.getD default.dtype
    pure ⟨d, List.replicate rows.length (← convert s d default.val)⟩

/-- `d[name] = value` for a dictionary, the list of its items in order.
(`brick_pixel_quantities.py:108, 110, 116, 121`). -/
def dictSet {α : Type*} (name : String) (value : α) : List (String × α) → List (String × α)
  | [] => [(name, value)]
  | (n, v) :: d => if n = name then (n, value) :: d else (n, v) :: dictSet name value d

/-- The columns of `brickid_data`, by lower case name (`brick_pixel_quantities.py:109-110`). Names of bricks have 8 letters. -/
def known (rows : List Row) (name : String) : Option Arr :=
  if name = "ra" then some ⟨.float, rows.map fun r => .num r.ra⟩
  else if name = "dec" then some ⟨.float, rows.map fun r => .num r.dec⟩
  else if name = "brickname" then some ⟨.str 8, rows.map fun r => .str r.brickname⟩
  else if name = "brickid" then some ⟨.int, rows.map fun r => .num r.brickid⟩
  else if name = "index" then some ⟨.int, rows.map fun r => .num r.index⟩
  else none

/-- Arguments of a callable (`brick_pixel_quantities.py:118-120`). -/
def formatKwarg (region : String) : String × Kwarg → Except Err (String × Val)
  | (key, .text f) => do pure (key, .str (← f region))
  | (key, .other v) => .ok (key, v)

/-- One item of `columns` for the rows of a brick (`brick_pixel_quantities.py:104-121`). -/
noncomputable def column (s : Survey) (brickname region : String) (rows : List Row) (tmp : List (String × Arr)) :
    Column → Except Err (List (String × Arr))
  | .plain name =>
    if name.toLower = "photsys" then .ok (dictSet name ⟨.str 1, rows.map fun _ => .str (if region = "north" then "N" else "S")⟩ tmp)
    else match known rows name.toLower with
      | some a => .ok (dictSet name a tmp)
      | none => .error .valueError
  | .file name fn dtype default unknown =>
    match fn with
    | none => .error .attributeError
    | some fn => do
      let path ← fn region brickname
      if unknown then .error .typeError
      else pure (dictSet name (← oneFile s path rows dtype default) tmp)
  | .call f kwargs =>
    match kwargs with
    | none => .error .typeError
    | some kwargs => do
      let kw ← kwargs.mapM (formatKwarg region)
      if f.wantsRegion then .error .typeError
      else do
        let res ← f.run (rows.map fun r => (r.ra, r.dec)) brickname kw
        pure (res.foldl (fun d x => dictSet x.1 x.2 d) tmp)

/-- The region of a brick (`brick_pixel_quantities.py:102`). -/
noncomputable def regionOf (s : Survey) (r : Row) : String := if 32.375 < (s.centre r.ra r.dec).2 then "north" else "south"

/-- `a[mask] = value` for arrays, `value` having one element for each row of the mask, or one for all.
(`brick_pixel_quantities.py:125`). -/
noncomputable def writeMask (s : Survey) (mask : List Bool) (a : Arr) (value : Arr) : Except Err Arr := do
  let vals ← value.vals.mapM (convert s a.dtype)
  let n := mask.count true
  if vals.length = n then pure ⟨a.dtype, putMask (fun _ v => v) mask a.vals vals⟩
  else match vals with
    | [v] => pure ⟨a.dtype, putMask (fun _ v => v) mask a.vals (List.replicate n v)⟩
    | _ => .error .valueError

/-- `data[name] = np.empty_like(value, shape=brickid_data.size)` if new, then `data[name][mask_brick] = value`
(`brick_pixel_quantities.py:122-125`). -/
noncomputable def writeColumn (s : Survey) (mask : List Bool) (data : List (String × Arr)) (item : String × Arr) :
    Except Err (List (String × Arr)) := do
  let a := (data.lookup item.1).getD ⟨item.2.dtype, List.replicate mask.length .uninit⟩
  pure (dictSet item.1 (← writeMask s mask a item.2) data)

/-- One brick (`brick_pixel_quantities.py:99-125`). -/
noncomputable def oneBrick (s : Survey) (columns : List Column) (rows : List Row) (data : List (String × Arr)) (brickname : String) :
    Except Err (List (String × Arr)) := do
  let mask := rows.map fun r => decide (r.brickname = brickname)
  let sub := takeMask mask rows
  let region := match sub with
    | r :: _ => regionOf s r
    | [] => "south"
  let tmp ← columns.foldlM (column s brickname region sub) []
  tmp.foldlM (writeColumn s mask) data

/-- `np.unique` of strings. (`brick_pixel_quantities.py:99`). -/
def uniqueNames (l : List String) : List String := l.dedup.mergeSort fun a b => decide (a ≤ b)

/-- All bricks of a rank (`brick_pixel_quantities.py:98-125`). -/
noncomputable def oneRank (s : Survey) (columns : List Column) (rows : List Row) : Except Err (List (String × Arr)) :=
  (uniqueNames (rows.map Row.brickname)).foldlM (oneBrick s columns rows) []

/-- Names and types of the columns of a rank (`brick_pixel_quantities.py:132`). -/
def header (data : List (String × Arr)) : List (String × Dtype) := data.map fun x => (x.1, x.2.dtype)

/-- Row `i` of all columns, `data.to_array()[i]`. (`brick_pixel_quantities.py:132, 141`). -/
def rowOf (data : List (String × Arr)) (i : ℕ) : List Val := data.map fun x => x.2.vals.getD i .uninit

/-- The rows of a rank with their index (`brick_pixel_quantities.py:127-130`). -/
def indexed (rows : List Row) (data : List (String × Arr)) : List (ℕ × List Val) :=
  rows.zipIdx.map fun x => (x.1.index, rowOf data x.2)

/-- Columns from rows (`brick_pixel_quantities.py:145`). -/
def toColumns (h : List (String × Dtype)) (rows : List (ℕ × List Val)) : List (String × Arr) :=
  h.zipIdx.map fun x => (x.1.1, ⟨x.1.2, rows.map fun r => r.2.getD x.2 .uninit⟩)

/-- Rows with the brick and index of each position (`brick_pixel_quantities.py:86-90`). -/
def makeRows (s : Survey) (ranks : List (List (ℝ × ℝ))) : List (List Row) :=
  (cindexFrom 0 ranks).map (List.map fun x => ⟨x.1.1, x.1.2, s.brickname x.1.1 x.1.2, s.brickid x.1.1 x.1.2, x.2⟩)

/-- `get_brick_pixel_quantities` (`brick_pixel_quantities.py:25-145`). `sched` says how `csort('brickid', size='orderby_counts')`
spreads rows over ranks. Ranks whose columns differ by their names or types, which mpytools does not sort together, raise
`TypeError`: a simplification. -/
noncomputable def getBrickPixelQuantities (s : Survey) (sched : List (List Row) → List (List Row)) (columns : List Column)
    (ranks : List (List (ℝ × ℝ))) : Except Err (List (List (String × Arr))) :=
  if columns = [] then .ok (ranks.map fun _ => [])
  else if ranks.flatten = [] then .ok (ranks.map fun _ => [])
  else do
    let sub := makeRows s ranks
    let moved := sched sub
    let data ← moved.mapM (oneRank s columns)
    let headers := (moved.zip data).filterMap fun x => if x.1 = [] then none else some (header x.2)
    match headers with
    | [] => .ok (ranks.map fun _ => [])
    | h :: hs =>
      if hs.any fun h' => h' ≠ h then .error .typeError
      else do
        let all := (List.zipWith indexed moved data).flatten
        let back := Blinding.splitSizes (sub.map List.length) (all.mergeSort fun a b => decide (a.1 ≤ b.1))
        if back.map (List.map Prod.fst) = sub.map (List.map Row.index) then .ok (back.map (toColumns h)) else .error .assertionError

end Verif.Model.Bricks
