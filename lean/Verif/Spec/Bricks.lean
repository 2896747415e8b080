import Verif.Model.Bricks

/-!
# Specification of the reading of brick quantities

What the documentation of `get_brick_pixel_quantities` promises for one object, alone.
-/

namespace Verif.Spec.Bricks

open Verif Verif.Model.Bricks

/-- An object: position and rank in the whole input. -/
structure Object where
  ra : ℝ
  dec : ℝ
  index : ℕ

/-- The brick of an object. -/
def brick (s : Survey) (o : Object) : String := s.brickname o.ra o.dec

/-- The object belongs to the northern part of the imaging surveys: the centre of its brick is above declination 32.375. -/
def North (s : Survey) (o : Object) : Prop := 32.375 < (s.centre o.ra o.dec).2

open Classical in
/-- Name of the region. -/
noncomputable def region (s : Survey) (o : Object) : String := if North s o then "north" else "south"

/-- A value may be held in an array of some type. -/
inductive Typed : Dtype → Val → Prop where
  | int (n : ℤ) : Typed .int (.num n)
  | float (x : ℝ) : Typed .float (.num x)
  | nan : Typed .float .null
  | str (w : ℕ) (t : String) (h : t.length ≤ w) : Typed (.str w) (.str t)
  | obj (v : Val) : Typed .obj v

/-- Value `v` once converted to a type: numbers are truncated towards zero to get integers, strings are cut. -/
inductive Converted (s : Survey) : Dtype → Val → Val → Prop where
  | obj (v : Val) : Converted s .obj v v
  | float (x : ℝ) : Converted s .float (.num x) (.num x)
  | nan : Converted s .float .null .null
  | trunc (x : ℝ) (n : ℤ) (h0 : |(n : ℝ)| ≤ |x|) (h1 : |x - n| < 1) (hs : 0 ≤ n * x) : Converted s .int (.num x) (.num n)
  | cut (w : ℕ) (t : String) : Converted s (.str w) (.str t) (.str (String.ofList (t.toList.take w)))

/-- What callables return, for each position: names and types of the columns, that may depend on the brick and the arguments, and
value of each column. -/
structure Answer where
  cols : String → List (String × Val) → List (String × Dtype)
  val : String → ℝ → ℝ → String → List (String × Val) → Val

/-- The callable treats positions one by one and answers `a`. -/
structure Pointwise (f : Callable) (a : Answer) : Prop where
  args : f.wantsRegion = false
  run : ∀ pts brick kw, f.run pts brick kw =
    .ok ((a.cols brick kw).map fun h => (h.1, ⟨h.2, pts.map fun p => a.val h.1 p.1 p.2 brick kw⟩))
  typed : ∀ brick kw, ∀ h ∈ a.cols brick kw, ∀ ra dec, Typed h.2 (a.val h.1 ra dec brick kw)

/-- A keyword argument once the region is filled in. -/
inductive Filled (reg : String) : String × Kwarg → String × Val → Prop where
  | text (key : String) (f : String → Except Err String) (t : String) (h : f reg = .ok t) : Filled reg (key, .text f) (key, .str t)
  | other (key : String) (v : Val) : Filled reg (key, .other v) (key, v)

/-- `x` is the integer nearest to `t`, the even one of two at equal distance. -/
def Nearest (t : ℝ) (x : ℕ) : Prop := |t - x| ≤ 1 / 2 ∧ (|t - x| = 1 / 2 → Even x)

/-- The object falls on pixel `(x, y)` of the image. -/
def OnPixel (img : Image) (o : Object) (x y : ℕ) : Prop :=
  x < img.width ∧ y < img.height ∧ Nearest (img.pixel o.ra o.dec).1 x ∧ Nearest (img.pixel o.ra o.dec).2 y

/-- Type and value of a default: numbers and strings as they are given, `None` an object. -/
def given : Default → Dtype × Val
  | .int n => (.int, .num n)
  | .float x => (.float, .num x)
  | .str t => (.str t.length, .str t)
  | .none => (.obj, .null)

/-- `Gives s ans o col q`: for object `o` the item `col` of `columns` asks for the quantities `q` (name, type, value). -/
inductive Gives (s : Survey) (ans : Callable → Answer) (o : Object) : Column → List (String × Dtype × Val) → Prop where
  | north (name : String) (h : name.toLower = "photsys") (hn : North s o) : Gives s ans o (.plain name) [(name, .str 1, .str "N")]
  | south (name : String) (h : name.toLower = "photsys") (hn : ¬ North s o) : Gives s ans o (.plain name) [(name, .str 1, .str "S")]
  | ra (name : String) (h : name.toLower = "ra") : Gives s ans o (.plain name) [(name, .float, .num o.ra)]
  | dec (name : String) (h : name.toLower = "dec") : Gives s ans o (.plain name) [(name, .float, .num o.dec)]
  | brickname (name : String) (h : name.toLower = "brickname") : Gives s ans o (.plain name) [(name, .str 8, .str (brick s o))]
  | brickid (name : String) (h : name.toLower = "brickid") :
    Gives s ans o (.plain name) [(name, .int, .num (s.brickid o.ra o.dec))]
  | index (name : String) (h : name.toLower = "index") : Gives s ans o (.plain name) [(name, .int, .num o.index)]
  | image (name : String) (fn : String → String → Except Err String) (path : String) (img : Image) (x y : ℕ) (default : Default)
    (hp : fn (region s o) (brick s o) = .ok path) (hf : s.file path = some img) (hx : OnPixel img o x y) :
    Gives s ans o (.file name (some fn) none default false) [(name, img.dtype, img.value y x)]
  | imageTyped (name : String) (fn : String → String → Except Err String) (path : String) (img : Image) (x y : ℕ)
    (default : Default) (d : Dtype) (v : Val)
    (hp : fn (region s o) (brick s o) = .ok path) (hf : s.file path = some img) (hx : OnPixel img o x y)
    (hv : Converted s d (img.value y x) v) :
    Gives s ans o (.file name (some fn) (some d) default false) [(name, d, v)]
  | absent (name : String) (fn : String → String → Except Err String) (path : String) (default : Default)
    (hp : fn (region s o) (brick s o) = .ok path) (hf : s.file path = none) :
    Gives s ans o (.file name (some fn) none default false) [(name, (given default).1, (given default).2)]
  | absentTyped (name : String) (fn : String → String → Except Err String) (path : String) (default : Default) (d : Dtype) (v : Val)
    (hp : fn (region s o) (brick s o) = .ok path) (hf : s.file path = none) (hv : Converted s d (given default).2 v) :
    Gives s ans o (.file name (some fn) (some d) default false) [(name, d, v)]
  | call (f : Callable) (kwargs : List (String × Kwarg)) (kw : List (String × Val)) (hk : List.Forall₂ (Filled (region s o)) kwargs kw) :
    Gives s ans o (.call f (some kwargs))
      (((ans f).cols (brick s o) kw).map fun h => (h.1, h.2, (ans f).val h.1 o.ra o.dec (brick s o) kw))

/-- All the quantities of an object, for all items of `columns`. -/
def GivesAll (s : Survey) (ans : Callable → Answer) (columns : List Column) (o : Object) (q : List (String × Dtype × Val)) : Prop :=
  ∃ qs, List.Forall₂ (Gives s ans o) columns qs ∧ q = qs.flatten

/-- Names and types of quantities. -/
def headerOf (q : List (String × Dtype × Val)) : List (String × Dtype) := q.map fun x => (x.1, x.2.1)

/-- What is known of bricks and images: the bricks have names of at most 8 letters, positions of the same brick have the same centre;
images hold values of their type. -/
structure SurveyOk (s : Survey) : Prop where
  name : ∀ ra dec, (s.brickname ra dec).length ≤ 8
  centre : ∀ ra dec ra' dec', s.brickname ra dec = s.brickname ra' dec' → s.centre ra dec = s.centre ra' dec'
  image : ∀ path img, s.file path = some img → ∀ y x, Typed img.dtype (img.value y x)

/-- The objects of each rank, numbered over all ranks. -/
def objectsFrom : ℕ → List (List (ℝ × ℝ)) → List (List Object)
  | _, [] => []
  | k, l :: ls => (l.zipIdx k).map (fun x => ⟨x.1.1, x.1.2, x.2⟩) :: objectsFrom (k + l.length) ls

end Verif.Spec.Bricks
