import Verif.Model.Sky
import Mathlib.Data.List.Basic

/-!
# Model of catalog-level blinding

`/repo/mockfactory/blinding/catalog.py`. Collective calls act on the list of the values of all ranks, in order of rank. A rank
that raises on its own before a collective call leaves the others waiting for it (`blocked`). Exact arithmetic; a `nan` in one
row is modelled as the error `nan` of its rank.
-/

namespace Verif.Model.Blinding

open Verif Verif.Model

/-! ### Ranks -/

/-- What happens to one rank. (`blinding/catalog.py:183-196`). -/
inductive Res (α : Type*) where
  | done (a : α)
  | raised (e : Err)
  /-- Waiting for ranks that have stopped. -/
  | blocked

/-- Work of one rank on its own. (`blinding/catalog.py:184-186`). -/
def Res.locally {α β : Type*} (f : α → Except Err β) : Res α → Res β
  | .done a => match f a with
    | .ok b => .done b
    | .error e => .raised e
  | .raised e => .raised e
  | .blocked => .blocked

/-- The value, if the rank is still running. (`blinding/catalog.py:188`). -/
def Res.get? {α : Type*} : Res α → Option α
  | .done a => some a
  | _ => none

/-- A rank that waits for others. (`blinding/catalog.py:188`). -/
def Res.wait {α β : Type*} : Res α → Res β
  | .raised e => .raised e
  | _ => .blocked

/-- A collective call: it takes place if all ranks reach it.
(`blinding/catalog.py:188, 194-195, 209, 213, 224`). -/
def collective {α β : Type*} (ranks : List (Res α)) (f : List α → List (Res β)) : List (Res β) :=
  match ranks.mapM Res.get? with
  | some l => f l
  | none => ranks.map Res.wait

/-- Number of rows of each of `nranks` ranks (mpytools `local_size`: rank `r` holds rows `r * n // nranks` to
`(r + 1) * n // nranks`). (`blinding/catalog.py:195, 213`). -/
def localSizes (n nranks : ℕ) : List ℕ := (List.range nranks).map fun r => (r + 1) * n / nranks - r * n / nranks

/-- Rows cut in blocks of given sizes (mpytools `scatter`). (`blinding/catalog.py:195, 213, 396`). -/
def splitSizes {α : Type*} : List ℕ → List α → List (List α)
  | [], _ => []
  | s :: sizes, l => l.take s :: splitSizes sizes (l.drop s)

/-- mpytools `gather(array, mpiroot=root)`: all rows on rank `root`, `None` on other ranks.
(`blinding/catalog.py:224, 246, 392`). -/
def gather {α : Type*} (root : ℕ) (ranks : List (List α)) : List (Option (List α)) :=
  (List.range ranks.length).map fun r => if r = root then some ranks.flatten else none

/-! ### Positions -/

/-- The `positions` argument on one rank: `None`, a numpy array (rows of length `width`), or a list of one-dimensional arrays or
`None`. The kind (integer or floating point) is that of the elements.
(`blinding/catalog.py:151-163`). -/
inductive Positions where
  | none
  | array (k : Kind) (width : ℕ) (rows : List (List ℝ))
  | list (l : List (Option (Kind × List ℝ)))

/-- The rows of an array have its width. (`blinding/catalog.py:153-157`). -/
def Positions.WF : Positions → Prop
  | .array _ width rows => ∀ r ∈ rows, r.length = width
  | _ => True

/-- `np.array(positions)` (`catalog.py:153`): kind, width and rows. A list of arrays of different sizes, or with `None`, is
rejected by numpy. -/
def Positions.asArray : Positions → Except Err (Kind × ℕ × List (List ℝ))
  | .none => .error .valueError
  | .array k width rows => .ok (k, width, rows)
  | .list [] => .ok (.float, 0, [])
  | .list (Option.none :: _) => .error .valueError
  | .list (some c :: l) => do
    let cs ← l.mapM fun
      | some c' => if c'.2.length = c.2.length then .ok c' else .error .valueError
      | Option.none => .error .valueError
    .ok ((cs.map (·.1)).foldl Kind.join c.1, c.2.length, c.2 :: cs.map (·.2))

/-- `list(positions)` (`catalog.py:160`): the rows of an array, or the entries of a list. -/
def Positions.asList : Positions → List (Option (Kind × List ℝ))
  | .none => []
  | .array k _ rows => rows.map fun r => some (k, r)
  | .list l => l

/-- `catalog.py:185`: the argument is to be formatted. -/
def Positions.given (ptype : String) (a : Positions) : Bool :=
  match a with
  | .none => false
  | a => ptype == "pos" || !(a.asList.all (·.isNone))

/-- A row of an array of width 3. (`blinding/catalog.py:156-158`). -/
def toV3 : List ℝ → V3 ℝ
  | [a, b, c] => ⟨a, b, c⟩
  | _ => 0

/-- The messages of `catalog.py:155-180`. -/
inductive Msg where
  | notFloat
  | width
  | sizes
  | types
  | count
  | unknownType
deriving DecidableEq

/-- `catalog.py:168-172`: the arrays after the first must have its size and kind; `len(None)` is a `TypeError`. -/
def checkColumns (size : ℕ) (dt : Kind) (dtype : Option Kind) : List (Option (Kind × List ℝ)) → Except Err (Option Msg)
  | [] => .ok none
  | none :: _ => .error .typeError
  | some c :: l =>
    if c.2.length ≠ size then .ok (some .sizes)
    else if dtype.getD c.1 ≠ dt then .ok (some .types)
    else checkColumns size dt dtype l

/-- `catalog.py:175-181`: rows of Cartesian positions from three arrays; `dist` is the comoving distance as a function of
redshift. -/
noncomputable def fromColumns (ptype : String) (dist : ℝ → ℝ) (a b c : List ℝ) : Except Msg (List (V3 ℝ)) :=
  let sky (r d x : ℝ) : V3 ℝ := skyToCartesian (.float x) (.float r) (.float d)
  if ptype = "rdd" then .ok (List.zipWith (fun rd x => sky rd.1 rd.2 x) (a.zip b) c)
  else if ptype = "rdz" then .ok (List.zipWith (fun rd x => sky rd.1 rd.2 (dist x)) (a.zip b) c)
  else if ptype = "xyz" then .ok (List.zipWith (fun xy z => ⟨xy.1, xy.2, z⟩) (a.zip b) c)
  else .error .unknownType

/-- `catalog.py:151-181` `__format_positions`: positions or message; the outer error is an exception raised on this rank. -/
noncomputable def formatLocal (ptype : String) (dtype : Option Kind) (dist : ℝ → ℝ) (p : Positions) :
    Except Err (Except Msg (List (V3 ℝ))) :=
  if ptype = "pos" then do
    let (k, width, rows) ← p.asArray
    if dtype.getD k ≠ .float then .ok (.error .notFloat)
    else if width ≠ 3 then .ok (.error .width)
    else .ok (.ok (rows.map toV3))
  else
    match p.asList with
    | [] => .error .indexError
    | none :: _ => .error .typeError
    | some c :: l =>
      let dt := dtype.getD c.1
      if dt ≠ .float then .ok (.error .notFloat)
      else do
        match ← checkColumns c.2.length dt dtype l with
        | some m => .ok (.error m)
        | none => match l with
          | [some c1, some c2] => .ok (fromColumns ptype dist c.2 c1.2 c2.2)
          | _ => .ok (.error .count)

/-- Positions after formatting: Cartesian rows, or the argument itself if it holds nothing to format.
(`blinding/catalog.py:185-186, 196`). -/
inductive Formatted where
  | rows (l : List (V3 ℝ))
  | raw (p : Positions)

/-- `catalog.py:183-186`: what one rank holds before errors are exchanged. -/
noncomputable def formatRank (ptype : String) (dtype : Option Kind) (dist : ℝ → ℝ) (root : Option ℕ) (rank : ℕ) (p : Positions) :
    Except Err (Except Msg Formatted) :=
  if (root = none ∨ root = some rank) ∧ p.given ptype then do
    match ← formatLocal ptype dtype dist p with
    | .ok l => .ok (.ok (.rows l))
    | .error m => .ok (.error m)
  else .ok (.ok (.raw p))

/-- `catalog.py:194-195`: rows of rank `root` are scattered, unless it holds `None`. (Scattering a list of `None` is taken to be
a `TypeError`: this depends on mpytools.) -/
def scatterFormatted (root : Option ℕ) (l : List Formatted) : List (Res Formatted) :=
  match root with
  | none => l.map .done
  | some r => match l[r]? with
    | some (.rows rows) => (splitSizes (localSizes rows.length l.length) rows).map fun b => .done (.rows b)
    | some (.raw .none) => l.map .done
    | _ => l.map fun _ => .raised .typeError

/-- The first message, in order of rank (`catalog.py:187-193`). -/
def firstMsg : List (Except Msg Formatted) → Option Msg
  | [] => none
  | .error m :: _ => some m
  | .ok _ :: l => firstMsg l

/-- Formatted positions of ranks without message. (`blinding/catalog.py:191-193`). -/
def oks : List (Except Msg Formatted) → List Formatted
  | [] => []
  | .error _ :: l => oks l
  | .ok f :: l => f :: oks l

/-- `catalog.py:147-196` `_format_positions`, on all ranks. -/
noncomputable def formatPositions (ptype : String) (dtype : Option Kind) (dist : ℝ → ℝ) (root : Option ℕ)
    (args : List Positions) : List (Res Formatted) :=
  collective (args.mapIdx fun rank p => Res.locally (formatRank ptype dtype dist root rank) (.done p)) fun l =>
    match firstMsg l with
    | some _ => l.map fun _ => .raised .valueError
    | none => scatterFormatted root (oks l)

/-- Positions returned to the user on one rank: `None`, array of rows, or three arrays.
(`blinding/catalog.py:220-236`). -/
inductive Output where
  | none
  | rows (l : List (V3 ℝ))
  | columns (a b c : List ℝ)

/-- Three columns of rows. (`blinding/catalog.py:230, 233, 235`). -/
def columnsOf (l : List (V3 ℝ)) : Output := .columns (l.map (·.x)) (l.map (·.y)) (l.map (·.z))

/-- RA, Dec, distance of one row (`cartesian_to_sky`), as a row. (`blinding/catalog.py:232-233`). -/
noncomputable def skyRow (p : V3 ℝ) : Except Err (V3 ℝ) :=
  match (cartesianToSky p).dec with
  | none => .error .nan
  | some dec => .ok ⟨(cartesianToSky p).ra, dec, (cartesianToSky p).dist⟩

/-- RA, Dec, redshift of one row. (`blinding/catalog.py:227-230`). -/
noncomputable def rdzRow (d2z : ℝ → Except Err ℝ) (p : V3 ℝ) : Except Err (V3 ℝ) := do
  let r ← skyRow p
  .ok ⟨r.x, r.y, ← d2z r.z⟩

/-- `catalog.py:225-236`, on a rank that holds rows. `d2z` is the conversion of distances to redshifts. -/
noncomputable def outputRows (ptype : String) (d2z : ℝ → Except Err ℝ) (l : List (V3 ℝ)) : Except Err Output := do
  if ptype = "rdz" then .ok (columnsOf (← l.mapM (rdzRow d2z)))
  else if ptype = "rdd" then .ok (columnsOf (← l.mapM skyRow))
  else if ptype = "xyz" then .ok (columnsOf l)
  else .ok (.rows l)

/-- `catalog.py:220-236` `_format_output_positions`, on all ranks. -/
noncomputable def formatOutputPositions (ptype : String) (d2z : ℝ → Except Err ℝ) (root : Option ℕ)
    (ranks : List (Res (List (V3 ℝ)))) : List (Res Output) :=
  match root with
  | none => ranks.map (Res.locally (outputRows ptype d2z))
  | some r => collective ranks fun l => (gather r l).map fun
    | none => .done .none
    | some rows => Res.locally (outputRows ptype d2z) (.done rows)

/-- Rows for further computations; using positions that are not given is an error (`TypeError`: arithmetic with `None`).
(`blinding/catalog.py:139, 343, 380`). -/
def Formatted.get : Formatted → Except Err (List (V3 ℝ))
  | .rows l => .ok l
  | .raw _ => .error .typeError

/-! ### Weights -/

/-- `catalog.py:199-217` `_format_weights` with `size=None` (all calls): arrays or `None` on each rank. With `mpiroot`, the array of
that rank is scattered (`None` gives `None` on all ranks). -/
def formatWeights (root : Option ℕ) (w : List (Option (List ℝ))) : List (Res (Option (List ℝ))) :=
  match root with
  | none =>
    if w.any (·.isNone) ∧ ¬ w.all (·.isNone) then w.map fun _ => .raised .valueError else w.map .done
  | some r => match w[r]? with
    | some (some l) => (splitSizes (localSizes l.length w.length) l).map fun b => .done (some b)
    | _ => w.map fun _ => .done none

/-- `catalog.py:242-247` `_format_output_weights`. -/
def formatOutputWeights {α : Type*} (root : Option ℕ) (w : List (List α)) : List (Option (List α)) :=
  match root with
  | none => w.map some
  | some r => gather r w

/-! ### Cosmology -/

/-- A cosmology, as used by the blinding code: attributes `Omega0_x`, methods `Omega_x(z)`, other attributes, `_derived`, and the
amplitudes of matter and velocity fluctuations as functions of redshift.
(`blinding/catalog.py:29-56`). -/
structure Cosmo where
  h : ℝ
  omega0 : String → Option ℝ
  omegaZ : String → Option (ℝ → ℝ)
  attr : String → Option ℝ
  derived : List (String × ℝ)
  fsigma8 : ℝ → ℝ
  sigma8 : ℝ → ℝ

/-- python attribute look-up. (`blinding/catalog.py:29-56`). -/
def getAttr {α : Type*} : Option α → Except Err α
  | some a => .ok a
  | none => .error .attributeError

/-- `catalog.py:38-43`: `Omega0_x` without redshift, `Omega_x(z)` at redshift `z`. -/
def getOmega (c : Cosmo) (suffix : String) : Option ℝ → Except Err ℝ
  | none => getAttr (c.omega0 suffix)
  | some z => do .ok ((← getAttr (c.omegaZ suffix)) z)

/-- `catalog.py:44-51`, for names 'fsigma8' and 'sigma8'. -/
def getAmplitude (c : Cosmo) (name : String) (value : ℝ → ℝ) (z : Option ℝ) : Except Err ℝ :=
  match c.derived.lookup name with
  | some v => .ok v
  | none => match z with
    | none => .error .valueError
    | some z => .ok (value z)

open Classical in
/-- `catalog.py:52-53`: a null amplitude gives `nan` (or an infinite growth rate). -/
noncomputable def getGrowth (c : Cosmo) (z : Option ℝ) : Except Err ℝ := do
  let a ← getAmplitude c "fsigma8" c.fsigma8 z
  let b ← getAmplitude c "sigma8" c.sigma8 z
  if b = 0 then .error .nan else .ok (a / b)

/-- `catalog.py:29-56` `_get_from_cosmo`. -/
noncomputable def getFromCosmo (c : Cosmo) (name : String) (z : Option ℝ) : Except Err ℝ :=
  if "omega".toList.isPrefixOf name.toList then do
    .ok ((← getOmega c (String.ofList (name.toList.drop 5)) z) * c.h ^ 2)
  else if "Omega".toList.isPrefixOf name.toList then getOmega c (String.ofList (name.toList.drop 5)) z
  else match c.derived.lookup name with
    | some v => .ok v
    | none =>
      if name = "fsigma8" then getAmplitude c name c.fsigma8 z
      else if name = "sigma8" then getAmplitude c name c.sigma8 z
      else if name = "f" then getGrowth c z
      else if name = "fnl" then .ok 0
      else getAttr (c.attr name)

/-- Blinded parameters: those given to `cosmo_fid.clone`, and those stored in `_derived`.
(`blinding/catalog.py:89-97`). -/
structure Blinded where
  update : List (String × ℝ)
  derived : List (String × ℝ)

/-- `catalog.py:88-95`: the loop on parameters, `u k` being the `k`-th uniform draw; `k` draws are used up so far. -/
noncomputable def blindParams (c : Cosmo) (z : Option ℝ) (u : ℕ → ℝ) : ℕ → List (String × ℝ) → Except Err Blinded
  | _, [] => .ok ⟨[], []⟩
  | k, (name, sigma) :: params => do
    let v ← getFromCosmo c name z
    let tmp := v + 2 * sigma * (u k - 0.5)
    let b ← blindParams c z u (k + 1) params
    if name = "f" ∨ name = "fnl" then .ok ⟨b.update, (name, tmp) :: b.derived⟩
    else .ok ⟨(name, tmp) :: b.update, b.derived⟩

/-- Default parameters (`catalog.py:85`). -/
noncomputable def defaultParams : List (String × ℝ) :=
  [("w0_fld", 0.05), ("wa_fld", 0.2), ("Omega_m", 0.02), ("f", 0.05), ("fnl", 10)]

/-- `catalog.py:59-98` `get_cosmo_blind`; `params` have distinct names (dictionary), `u` are the draws of the seeded generator. -/
noncomputable def getCosmoBlind (c : Cosmo) (u : ℕ → ℝ) (params : Option (List (String × ℝ))) (z : Option ℝ) : Except Err Blinded :=
  blindParams c z u 0 (params.getD defaultParams)

/-- Arguments of `get_cosmo`: `None`, an instance of the class of cosmologies, a name, a tuple (a name and parameters; other tuples are
not modelled), parameters. (`blinding/catalog.py:12-26`). -/
inductive CosmoArg (C P : Type) where
  | none
  | instance (c : C)
  | name (s : String)
  | tuple (s : String) (p : P)
  | dict (p : P)

/-- `catalog.py:12-26` `get_cosmo`. `fiducial` are the functions of `cosmoprimo.fiducial`, by name; `make` is the class of cosmologies;
`empty` is `{}`. -/
def getCosmo {C P : Type} (fiducial : String → Option (P → Except Err C)) (make : P → Except Err C) (empty : P) :
    CosmoArg C P → Except Err (Option C)
  | .none => .ok none
  | .instance c => .ok (some c)
  | .name s => do .ok (some (← (← getAttr (fiducial s)) empty))
  | .tuple s p => do .ok (some (← (← getAttr (fiducial s)) p))
  | .dict p => do .ok (some (← make p))

/-! ### Alcock-Paczynski blinding (`catalog.py:321-352`) -/

open Classical in
/-- `catalog.py:343-351`, one row. At the origin 0 / 0. -/
noncomputable def apRow (rdz : Bool) (d2z : ℝ → Except Err ℝ) (blindDist : ℝ → ℝ) (p : V3 ℝ) : Except Err (V3 ℝ) := do
  let z ← if rdz then .ok p.norm else d2z p.norm
  if p.norm = 0 then .error .nan else .ok ((blindDist z / p.norm) • p)

/-- `catalog.py:321-352` `ap`, on all ranks. `d2z` converts distances of the fiducial cosmology to redshifts, `blindDist` is the
distance in the blinded cosmology. -/
noncomputable def ap (ptype : String) (dtype : Option Kind) (d2z : ℝ → Except Err ℝ) (blindDist : ℝ → ℝ) (root : Option ℕ)
    (args : List Positions) : List (Res Output) :=
  let ranks := formatPositions (if ptype = "rdz" then "rdd" else ptype) dtype id root args
  formatOutputPositions ptype d2z root
    (ranks.map (Res.locally fun f => do (← f.get).mapM (apRow (decide (ptype = "rdz")) d2z blindDist)))

/-! ### Shuffling (`catalog.py:354-401`) -/

/-- Values of selected rows. (`blinding/catalog.py:386-389`). -/
def masked {α : Type*} : List Bool → List α → List α
  | true :: m, a :: l => a :: masked m l
  | false :: m, _ :: l => masked m l
  | _, _ => []

/-- Rows with the values of selected rows replaced, in order (assignment to `positions[mask]`).
(`blinding/catalog.py:397-400`). -/
def assignMasked {α : Type*} : List Bool → List α → List α → List α
  | true :: m, _ :: l, b :: bs => b :: assignMasked m l bs
  | false :: m, a :: l, bs => a :: assignMasked m l bs
  | _, l, _ => l

open Classical in
/-- `catalog.py:381-383`: squared ratio of growth rates, not larger than 1. A null fiducial growth rate gives `nan`. -/
noncomputable def shuffleFraction (blind fid : Cosmo) (z : Option ℝ) : Except Err ℝ := do
  let fb ← getFromCosmo blind "f" none
  let ff ← getFromCosmo fid "f" z
  if ff = 0 then .error .nan
  else if 1 < (fb / ff) ^ 2 then .error .valueError else .ok ((fb / ff) ^ 2)

/-- Third coordinate, or distance, of a row (`catalog.py:386-389`). -/
noncomputable def radialOf (isrdd : Bool) (p : V3 ℝ) : ℝ := if isrdd then p.z else p.norm

open Classical in
/-- `catalog.py:396-400`: a row with another third coordinate, or distance; 0 / 0 at the origin. -/
noncomputable def setRadial (isrdd : Bool) (p : V3 ℝ) (d : ℝ) : Except Err (V3 ℝ) :=
  if isrdd then .ok ⟨p.x, p.y, d⟩
  else if p.norm = 0 then .error .nan else .ok ((d / p.norm) • p)

open Classical in
/-- `catalog.py:385`: selected rows, `u` being the draws of this rank. -/
noncomputable def shuffleMask (frac : ℝ) (u : List ℝ) : List Bool := u.map fun x => decide (x < frac)

/-- `catalog.py:396-400`, on one rank: selected rows and their new radial values. -/
noncomputable def shuffleRank (isrdd : Bool) (mask : List Bool) (rows : List (V3 ℝ)) (new : List ℝ) : Except Err (List (V3 ℝ)) := do
  let moved ← ((masked mask rows).zip new).mapM fun pd => setRadial isrdd pd.1 pd.2
  .ok (assignMasked mask rows moved)

/-- `catalog.py:384-400`: all ranks, given formatted rows, the draws of each rank (`u`) and the result of `rng.shuffle` on rank 0
(`shuf`). -/
noncomputable def shuffleRows (isrdd : Bool) (frac : ℝ) (u : List (List ℝ)) (shuf : List ℝ → List ℝ) (ranks : List (List (V3 ℝ))) :
    List (Res (List (V3 ℝ))) :=
  let masks := u.map (shuffleMask frac)
  let radial := List.zipWith (fun m rows => (masked m rows).map (radialOf isrdd)) masks ranks
  let new := splitSizes (radial.map List.length) (shuf radial.flatten)
  List.zipWith (fun mr n => Res.locally (fun mr => shuffleRank isrdd mr.1 mr.2 n) (.done mr)) (masks.zip ranks) new

/-- `catalog.py:354-401` `shuffle`, on all ranks: `u` are the draws of each rank, for given numbers of rows. Rows of types 'rdd' and
'rdz' are handled as three columns. -/
noncomputable def shuffle (ptype : String) (dtype : Option Kind) (blind fid : Cosmo) (z : Option ℝ) (u : List ℕ → List (List ℝ))
    (shuf : List ℝ → List ℝ) (root : Option ℕ) (args : List Positions) : List (Res Output) :=
  let isrdd := decide (ptype = "rdd" ∨ ptype = "rdz")
  let ptype' := if isrdd then "xyz" else ptype
  let ranks := (formatPositions ptype' dtype id root args).map (Res.locally fun f => do
    let l ← f.get
    .ok (l, ← shuffleFraction blind fid z))
  formatOutputPositions ptype' (fun _ => .error .attributeError) root (collective ranks fun l =>
    match l with
    | [] => []
    | (_, frac) :: _ => shuffleRows isrdd frac (u (l.map fun x => x.1.length)) shuf (l.map (·.1)))

/-! ### RSD blinding (`catalog.py:403-458`) -/

/-- A reconstruction: growth rate, bias, displacements along the line of sight due to peculiar velocities (`read_shifts` with
`field='rsd'`) at any position. (`blinding/catalog.py:451-457`). -/
structure Recon where
  f : ℝ
  bias : ℝ
  shifts : V3 ℝ → V3 ℝ

open Classical in
/-- `catalog.py:454-457`, one row. -/
noncomputable def rsdRow (recon : Recon) (fblind : ℝ) (p : V3 ℝ) : Except Err (V3 ℝ) :=
  if recon.f = 0 then .error .nan else .ok (p + (fblind / recon.f - 1) • recon.shifts p)

/-- The `recon` argument: an instance, or a name with the algorithm it stands for: from data positions and weights, randoms
positions and weights, growth rate and bias. (Unknown names, `AttributeError`, are not represented.)
(`blinding/catalog.py:441-453`). -/
inductive ReconArg where
  | instance (r : Recon)
  | name (run : List (List (V3 ℝ)) → List (Option (List ℝ)) → List (Option (List (V3 ℝ))) → List (Option (List ℝ)) → ℝ → Option ℝ → Recon)

/-- Rows, or none if not given. (`blinding/catalog.py:449-452`). -/
def Formatted.rows? : Formatted → Option (List (V3 ℝ))
  | .rows l => some l
  | .raw _ => none

/-- `catalog.py:438-453`: the reconstruction to use, on ranks holding data positions. -/
noncomputable def runRecon (recon : ReconArg) (fid : Cosmo) (z bias : Option ℝ) (data : List (List (V3 ℝ)))
    (dataWeights : List (Res (Option (List ℝ)))) (randoms : List (Res Formatted)) (randomsWeights : List (Res (Option (List ℝ)))) :
    List (Res Recon) :=
  match recon with
  | .instance r => data.map fun _ => .done r
  | .name run =>
    collective dataWeights fun dw =>
      match getFromCosmo fid "f" z with
      | .error e => data.map fun _ => .raised e
      | .ok f => collective randoms fun rp => collective randomsWeights fun rw =>
          data.map fun _ => .done (run data dw (rp.map Formatted.rows?) rw f bias)

/-- `catalog.py:403-458` `rsd`, on all ranks; `dist` and `d2z` convert redshifts to distances and back in the fiducial cosmology. -/
noncomputable def rsd (ptype : String) (dtype : Option Kind) (dist : ℝ → ℝ) (d2z : ℝ → Except Err ℝ) (blind fid : Cosmo)
    (z bias : Option ℝ) (root : Option ℕ) (recon : ReconArg) (data : List Positions) (dataWeights : List (Option (List ℝ)))
    (randoms : List Positions) (randomsWeights : List (Option (List ℝ))) : List (Res Output) :=
  formatOutputPositions ptype d2z root
    (collective ((formatPositions ptype dtype dist root data).map (Res.locally Formatted.get)) fun rows =>
      let recons := runRecon recon fid z bias rows (formatWeights root dataWeights) (formatPositions ptype dtype dist root randoms)
        (formatWeights root randomsWeights)
      List.zipWith (fun r rec => Res.locally (fun rec => do
        let fb ← getFromCosmo blind "f" none
        r.mapM (rsdRow rec fb)) rec) rows recons)

end Verif.Model.Blinding
