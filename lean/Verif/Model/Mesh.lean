import Verif.Model.Sky
import Mathlib.Analysis.Fourier.ZMod
import Mathlib.Data.List.Sort

/-!
# Model of Gaussian mocks

`/repo/mockfactory/gaussian_mock.py`, `eulerian_mock.py` and `lagrangian_mock.py`. A field is a function of the index of the mesh node,
in `ZMod n` along each axis: the distribution of slabs over ranks is not represented (all operations are node by node or global
sums). Complex fields hold all modes, where pmesh stores half of them in case of real fields (see `Verif/Model/HalfMesh.lean` and C107
for these). Fourier transforms, which are those of pmesh, are defined as sums. Exact arithmetic; `nan` is `none` or `.error .nan`.
-/

namespace Verif.Model

open Verif

/-! ### Geometry of the mesh (`gaussian_mock.py:232-248`) -/

open Classical in
/-- `np.rint`: nearest integer, the even one in case of ties. (`gaussian_mock.py:242`). -/
noncomputable def rint (x : ℝ) : ℤ :=
  if x - ⌊x⌋ < 1 / 2 then ⌊x⌋
  else if 1 / 2 < x - ⌊x⌋ then ⌊x⌋ + 1
  else if Even ⌊x⌋ then ⌊x⌋ else ⌊x⌋ + 1

/-- A `boxsize`, `cellsize` or `nmesh` argument: python number, numpy array of shape (3,) or python list of 3 numbers.
(`gaussian_mock.py:234-244`). -/
inductive MeshSize where
  | number (x : Num)
  | array (v : V3 ℝ)
  | list (v : V3 ℝ)

/-- `_make_array(value, 3)` (`gaussian_mock.py:10-14`). -/
def MeshSize.toVec : MeshSize → V3 ℝ
  | .number x => V3.const x.val
  | .array v => v
  | .list v => v

/-- `nmesh * cellsize`, python product. A list times an integer `n` is the list repeated `n` times, which `_make_array` then
rejects (`ValueError`) unless `n = 1`; a list times a float, or times a list, is a `TypeError`.
(`gaussian_mock.py:236`). -/
def MeshSize.mul : MeshSize → MeshSize → Except Err MeshSize
  | .number x, .number y => .ok (.number (match x, y with
      | .int i, .int j => .int (i * j)
      | x, y => .float (x.val * y.val)))
  | .number (.int n), .list v => if n = 1 then .ok (.list v) else .error .valueError
  | .list v, .number (.int n) => if n = 1 then .ok (.list v) else .error .valueError
  | .number (.float _), .list _ => .error .typeError
  | .list _, .number (.float _) => .error .typeError
  | .list _, .list _ => .error .typeError
  | .array u, v => .ok (.array (V3.emul u v.toVec))
  | u, .array v => .ok (.array (V3.emul u.toVec v))

/-- `boxsize / cellsize`: python division; lists only divide, or are divided by, arrays. A null divisor (an exception or an infinite
number) is `.error .nan`. (`gaussian_mock.py:242`). -/
noncomputable def MeshSize.div (a b : MeshSize) : Except Err (V3 ℝ) :=
  match a, b with
  | .list _, .list _ => .error .typeError
  | .list _, .number _ => .error .typeError
  | .number _, .list _ => .error .typeError
  | a, b => if b.toVec.x = 0 ∨ b.toVec.y = 0 ∨ b.toVec.z = 0 then .error .nan else .ok (V3.ediv a.toVec b.toVec)

/-- Conversion of `nmesh` to an array of integers (`gaussian_mock.py:248`): truncation. -/
noncomputable def truncVec (v : V3 ℝ) : V3 ℤ := v.map fun x => if 0 ≤ x then ⌊x⌋ else ⌈x⌉

/-- `gaussian_mock.py:234-238`: the box size. -/
def resolveBoxsize (nmesh boxsize cellsize : Option MeshSize) : Except Err MeshSize :=
  match boxsize with
  | some b => .ok b
  | none => match nmesh, cellsize with
    | some n, some c => n.mul c
    | _, _ => .error .valueError

/-- `gaussian_mock.py:240-244`, `:248`: the mesh size. -/
noncomputable def resolveNmesh (nmesh cellsize : Option MeshSize) (boxsize : MeshSize) : Except Err (V3 ℤ) :=
  match nmesh with
  | some n => .ok (truncVec n.toVec)
  | none => match cellsize with
    | some c => do .ok ((← boxsize.div c).map rint)
    | none => .error .valueError

/-- `gaussian_mock.py:234-248`: box size and mesh size of a mock. -/
noncomputable def resolveMesh (nmesh boxsize cellsize : Option MeshSize) : Except Err (V3 ℝ × V3 ℤ) := do
  let b ← resolveBoxsize nmesh boxsize cellsize
  let n ← resolveNmesh nmesh cellsize b
  .ok (b.toVec, n)

/-! ### Nodes and modes -/

/-- `pm` and `boxcenter`. `freq` is the wave number (in units of the fundamental mode) that pmesh gives to an index along an axis,
and the integer coordinate that it gives to a node: the representative of smallest absolute value of the index (either sign for
half the mesh size). (`gaussian_mock.py:246-248`). -/
structure Mesh where
  n : Fin 3 → ℕ
  n_pos : ∀ d, 0 < n d
  boxsize : Fin 3 → ℝ
  boxcenter : Fin 3 → ℝ
  freq : ∀ d, ZMod (n d) → ℤ
  freq_cast : ∀ d i, (freq d i : ZMod (n d)) = i
  freq_le : ∀ d i, 2 * |freq d i| ≤ n d

namespace Mesh

variable (M : Mesh)

instance (d : Fin 3) : NeZero (M.n d) := ⟨(M.n_pos d).ne'⟩

/-- Index of a node or of a mode. (`gaussian_mock.py:313, 348`). -/
abbrev Idx : Type := ∀ d : Fin 3, ZMod (M.n d)

/-- `cellsize = self.boxsize / self.nmesh`. (`gaussian_mock.py:376`). -/
noncomputable def cell (d : Fin 3) : ℝ := M.boxsize d / M.n d

/-- `slabs.x` of a real field, one axis. (`gaussian_mock.py:348-350`). -/
noncomputable def rslab (d : Fin 3) (i : ZMod (M.n d)) : ℝ := M.freq d i * M.cell d

open Classical in
/-- `gaussian_mock.py:47-56` `_transform_rslab`, one axis. -/
noncomputable def transformRslab (d : Fin 3) (i : ZMod (M.n d)) : ℝ :=
  if M.rslab d i < 0 then M.rslab d i + M.boxsize d else M.rslab d i

/-- `offset = self.boxcenter - self.boxsize / 2.` (`gaussian_mock.py:345`, `:392`; `eulerian_mock.py:51`; `lagrangian_mock.py:124`). -/
noncomputable def offset (d : Fin 3) : ℝ := M.boxcenter d - M.boxsize d / 2

/-- `r + o`: coordinates of a node, with any offset. (`gaussian_mock.py:396`). -/
noncomputable def rgrid (off : Fin 3 → ℝ) (i : M.Idx) (d : Fin 3) : ℝ := M.transformRslab d (i d) + off d

/-- `rnorm`: distance of a node to the observer (`gaussian_mock.py:351`, `eulerian_mock.py:96`). -/
noncomputable def rnorm (i : M.Idx) : ℝ := Real.sqrt (∑ d, M.rgrid M.offset i d ^ 2)

/-- `slabs.x` of a complex field: wave vector of a mode. (`gaussian_mock.py:313`). -/
noncomputable def kvec (k : M.Idx) (d : Fin 3) : ℝ := 2 * Real.pi * M.freq d (k d) / M.boxsize d

/-- `k2 = sum(kk**2 for kk in kslab)`. (`gaussian_mock.py:315`). -/
noncomputable def k2 (k : M.Idx) : ℝ := ∑ d, M.kvec k d ^ 2

open Classical in
/-- `k2[k2 == 0.] = 1.` (`eulerian_mock.py:62, 77`). -/
noncomputable def k2safe (k : M.Idx) : ℝ := if M.k2 k = 0 then 1 else M.k2 k

/-- Character of the discrete Fourier transform. (`gaussian_mock.py:40, 44`). -/
noncomputable def char (i k : M.Idx) : ℂ := ∏ d, ZMod.stdAddChar (i d * k d)

/-- `r2c` of pmesh, with its normalisation. (`gaussian_mock.py:40`). -/
noncomputable def r2c (f : M.Idx → ℂ) (k : M.Idx) : ℂ := (∑ i, f i * M.char (-i) k) / ∏ d, (M.n d : ℂ)

/-- `c2r` of pmesh, before imaginary parts are dropped. (`gaussian_mock.py:44`). -/
noncomputable def c2r (F : M.Idx → ℂ) (i : M.Idx) : ℂ := ∑ k, F k * M.char i k

/-- `c2r` of pmesh. (`gaussian_mock.py:344`). -/
noncomputable def c2rReal (F : M.Idx → ℂ) (i : M.Idx) : ℝ := (M.c2r F i).re

/-! ### Density contrast -/

/-- The `power` argument, with its line of sight if any. (`gaussian_mock.py:319-323`). -/
inductive Power where
  | iso (p : ℝ → ℝ)
  | aniso (los : Fin 3 → ℝ) (p : ℝ → ℝ → ℝ)

/-- `self.power(k)` or `self.power(k, mu)` for a mode other than the zero mode (`gaussian_mock.py:317-323`). -/
noncomputable def Power.at (p : Power) (k : M.Idx) : ℝ :=
  match p with
  | .iso p => p (Real.sqrt (M.k2 k))
  | .aniso los p => p (Real.sqrt (M.k2 k)) ((∑ d, M.kvec k d * los d) / Real.sqrt (M.k2 k))

open Classical in
/-- `gaussian_mock.py:300-327` `set_complex_delta_field`, one mode: `noise` is the white noise of pmesh, any complex field. The square
root of a negative number is `nan`. -/
noncomputable def complexDelta (p : Power) (inverted : Bool) (noise : M.Idx → ℂ) (k : M.Idx) : Option ℂ :=
  let w := if inverted then noise k * -1 else noise k
  let power := if Real.sqrt (M.k2 k) = 0 then 0 else p.at M k
  let a := power * (1 / ∏ d, M.boxsize d)
  if a < 0 then none else some (w * (Real.sqrt a : ℝ))

/-- The `bias` argument. (`gaussian_mock.py:346-354`). -/
inductive Bias where
  | none
  | const (b : ℝ)
  | fn (b : ℝ → ℝ → ℝ)

/-- `gaussian_mock.py:346-354`: bias, one node. -/
noncomputable def biased (b : Bias) (delta : M.Idx → ℝ) (i : M.Idx) : ℝ :=
  match b with
  | .none => delta i
  | .const b => delta i * b
  | .fn b => b (delta i) (M.rnorm i)

/-- `cmean`: mean over all nodes. (`gaussian_mock.py:357`). -/
noncomputable def cmean (f : M.Idx → ℝ) : ℝ := (∑ i, f i) / Fintype.card M.Idx

/-- `gaussian_mock.py:355-358`: lognormal transform. -/
noncomputable def lognormal (delta : M.Idx → ℝ) (i : M.Idx) : ℝ :=
  Real.exp (delta i) / M.cmean (fun j => Real.exp (delta j)) - 1

/-- `gaussian_mock.py:329-359` `set_real_delta_field`. -/
noncomputable def realDelta (b : Bias) (lognormalTransform : Bool) (deltak : M.Idx → ℂ) : M.Idx → ℝ :=
  let delta := M.biased b (M.c2rReal deltak)
  if lognormalTransform then M.lognormal delta else delta

/-! ### Selection function -/

/-- Sky coordinates of a node, as passed to the `nbar` callable (`gaussian_mock.py:385-390`, the same formulae as
`utils.cartesian_to_sky`). -/
noncomputable def nodeSky (off : Fin 3 → ℝ) (i : M.Idx) : Sky :=
  cartesianToSky ⟨M.rgrid off i 0, M.rgrid off i 1, M.rgrid off i 2⟩

/-- `gaussian_mock.py:398-403`: interlacing order, `none` without interlacing. -/
def interlacingOrder (interlacing : ℕ) : Option ℕ :=
  if interlacing = 0 then none else if interlacing = 1 then some 2 else some interlacing

/-- `shifts[j]` (`gaussian_mock.py:404-406`), from `j = 1`: fraction of cell in the phase of Fourier space. -/
noncomputable def phaseShift (order j : ℕ) : ℝ := j * 1 / order

/-- `offset -= 0.5 * cellsize`, `j` times (`gaussian_mock.py:411`, in place). -/
noncomputable def shiftedOffset : ℕ → Fin 3 → ℝ
  | 0, d => M.offset d
  | j + 1, d => shiftedOffset j d - 0.5 * M.cell d

/-- `gaussian_mock.py:418-419`: `np.exp(shift * 1j * kc)`. -/
noncomputable def phase (shift : ℝ) (k : M.Idx) : ℂ := Complex.exp (shift * Complex.I * (∑ d, M.kvec k d * M.cell d : ℝ))

/-- `gaussian_mock.py:392-421`: the selection function before imaginary parts are dropped; `g` gives the value at a position. -/
noncomputable def selectionC (g : (Fin 3 → ℝ) → ℂ) (order : Option ℕ) : M.Idx → ℂ :=
  match order with
  | none => fun i => g (M.rgrid M.offset i)
  | some n => fun i =>
    M.c2r (fun k => M.r2c (fun i => g (M.rgrid M.offset i)) k +
      ((List.range (n - 1)).map fun j => M.r2c (fun i => g (M.rgrid (M.shiftedOffset (j + 1)) i)) k *
        M.phase (phaseShift n (j + 1)) k).sum) i / n

/-- `gaussian_mock.py:361-422` `set_analytic_selection_function` for a callable. -/
noncomputable def selection (nbar : Sky → ℝ) (interlacing : ℕ) (i : M.Idx) : ℝ :=
  (M.selectionC (fun r => (nbar (cartesianToSky ⟨r 0, r 1, r 2⟩) : ℂ)) (interlacingOrder interlacing) i).re

/-! ### Readout -/

open Classical in
/-- `np.sinc(0.5 * x / np.pi)`. (`gaussian_mock.py:37`). -/
noncomputable def sincHalf (x : ℝ) : ℝ := if x = 0 then 1 else Real.sin (x / 2) / (x / 2)

/-- Order of a resampler (`gaussian_mock.py:32`). -/
def resamplerOrder (s : String) : Except Err ℕ :=
  if s = "nnb" ∨ s = "ngp" then .ok 1 else if s = "cic" then .ok 2 else if s = "tsc" then .ok 3
  else if s = "pcs" then .ok 4 else .error .keyError

/-- `gaussian_mock.py:34-38`: window of a resampler of order `p`. -/
noncomputable def window (p : ℕ) (k : M.Idx) : ℝ := ∏ d, sincHalf (M.kvec k d * M.cell d) ^ p

/-- `gaussian_mock.py:29-44` `_compensate_mesh`, with `p` the order of the resampler. -/
noncomputable def compensate (p : ℕ) (f : M.Idx → ℝ) : M.Idx → ℝ :=
  M.c2rReal fun k => M.r2c (fun i => (f i : ℂ)) k / (M.window p k : ℂ)

/-- State of a mock read by `readout`; `nbar` may be a number (`gaussian_mock.py:379-382`). -/
structure Fields where
  delta : M.Idx → ℝ
  nbar : ℝ ⊕ (M.Idx → ℝ)
  disp : Fin 3 → M.Idx → ℝ

/-- Value of `nbar` at a node. (`gaussian_mock.py:471-475`). -/
def Fields.nbarAt {M : Mesh} (s : M.Fields) (i : M.Idx) : ℝ :=
  match s.nbar with
  | .inl x => x
  | .inr f => f i

/-- The `field` argument. (`gaussian_mock.py:466-477`). -/
inductive FieldArg where
  | mesh (f : M.Idx → ℝ)
  | name (s : String)

/-- `gaussian_mock.py:466-477`. A number has no method `readout` (`AttributeError`, represented as `nameError`). -/
def fieldMesh (s : M.Fields) : M.FieldArg → Except Err (M.Idx → ℝ)
  | .mesh f => .ok f
  | .name t =>
    if t = "delta" then .ok s.delta
    else if t = "nbar*delta" then .ok fun i => s.nbarAt i * s.delta i
    else if t = "nbar*(1+delta)" then .ok fun i => s.nbarAt i * (s.delta i + 1)
    else if t = "nbar" then
      match s.nbar with
      | .inl _ => .error .nameError
      | .inr f => .ok f
    else .error .valueError

/-- `resampler.lower()`. (`gaussian_mock.py:479`). -/
def lower (s : String) : String := String.ofList (s.toList.map Char.toLower)

/-- `gaussian_mock.py:440-490` `readout` at one position; `mesh.readout` of pmesh is the parameter `resample`, given the resampler,
the mesh and the position with respect to the corner of the box. -/
noncomputable def readout (resample : String → (M.Idx → ℝ) → (Fin 3 → ℝ) → ℝ) (s : M.Fields) (position : Fin 3 → ℝ)
    (field : M.FieldArg) (resampler : String) (comp : Bool) : Except Err ℝ := do
  let mesh ← M.fieldMesh s field
  let r := lower resampler
  let mesh ← if comp then (resamplerOrder r).map fun p => M.compensate p mesh else .ok mesh
  let r := if r = "ngp" then "nnb" else r
  .ok (resample r mesh fun d => position d - M.boxcenter d + M.boxsize d / 2)

/-- `lagrangian_mock.py:92-94`: names of displacements (`'disp_'` followed by a substring of `'xyz'`). -/
def dispField (s : M.Fields) : M.FieldArg → Except Err M.FieldArg
  | .mesh f => .ok (.mesh f)
  | .name t =>
    if "disp_".toList.isPrefixOf t.toList then
      match xyzIndex (String.ofList (t.toList.drop "disp_".toList.length)) with
      | .error e => .error e
      | .ok i => .ok (.mesh (s.disp (if i = 0 then 0 else if i = 1 then 1 else 2)))
    else .ok (.name t)

/-- `lagrangian_mock.py:65-96` `LagrangianLinearMock.readout`: `compensate` is not passed on. -/
noncomputable def lagrangianReadout (resample : String → (M.Idx → ℝ) → (Fin 3 → ℝ) → ℝ) (s : M.Fields) (position : Fin 3 → ℝ)
    (field : M.FieldArg) (resampler : String) (_comp : Bool) : Except Err ℝ := do
  M.readout resample s position (← M.dispField s field) resampler false

/-! ### Poisson sampling -/

/-- `dv = np.prod(cellsize)`. (`gaussian_mock.py:377, 514`). -/
noncomputable def dv : ℝ := ∏ d, M.cell d

/-- `cellmean = (1. + self.mesh_delta_r) * self.nbar * dv` (`gaussian_mock.py:516`). -/
noncomputable def cellMean (s : M.Fields) (i : M.Idx) : ℝ := (1 + s.delta i) * s.nbarAt i * M.dv

/-- `attrs['norm']` (`gaussian_mock.py:381` for a constant, `:422` for a mesh). -/
noncomputable def norm (s : M.Fields) : ℝ :=
  match s.nbar with
  | .inl x => (∏ d, (M.n d : ℝ)) * x ^ 2 * M.dv
  | .inr f => (∑ i, f i ^ 2) * M.dv

open Classical in
/-- `gaussian_mock.py:424-438` `set_real_white_noise`, one node: `noise` is the white noise of pmesh; not a finite number (`none`)
where the density is not positive. -/
noncomputable def whiteNoise (s : M.Fields) (noise : M.Idx → ℝ) (i : M.Idx) : Option ℝ :=
  if s.nbarAt i * M.dv ≤ 0 then none else some (s.delta i + noise i / Real.sqrt (s.nbarAt i * M.dv))

/-- `ids` of `generate_uniform_particle_grid`: rank of the node in C order. (`gaussian_mock.py:530`). -/
def cellId (i : M.Idx) : ℕ := ((i 0).val * M.n 1 + (i 1).val) * M.n 2 + (i 2).val

/-- `positions` of `generate_uniform_particle_grid(shift=0)`. (`gaussian_mock.py:530`). -/
noncomputable def cellCorner (i : M.Idx) (d : Fin 3) : ℝ := (i d).val * M.cell d

/-- `positions.repeat(number_per_cell, axis=0)` and same for `ids` (`gaussian_mock.py:537-538`), for the nodes of one rank. -/
noncomputable def repeated (counts : M.Idx → ℕ) (cells : List M.Idx) : List (ℕ × (Fin 3 → ℝ)) :=
  cells.flatMap fun i => List.replicate (counts i) (M.cellId i, M.cellCorner i)

/-- `mpsort.sort(positions, orderby=ids)` (`gaussian_mock.py:543`): rows of all ranks in order of `ids`; rank by rank, the slices of
the sorted array. -/
noncomputable def mpsort (rows : List (ℕ × (Fin 3 → ℝ))) : List (Fin 3 → ℝ) :=
  (rows.mergeSort fun a b => decide (a.1 ≤ b.1)).map (·.2)

open Classical in
/-- `gaussian_mock.py:501-555` `poisson_sample`: positions, all ranks. `ranks` are the nodes held by each rank, `counts` the Poisson
draws, `u` the uniform draws in [0, 1). A negative mean is a `ValueError` of numpy. -/
noncomputable def poissonSample (s : M.Fields) (ranks : List (List M.Idx)) (counts : M.Idx → ℕ) (u : ℕ → Fin 3 → ℝ) :
    Except Err (List (Fin 3 → ℝ)) :=
  if ∃ i, M.cellMean s i < 0 then .error .valueError
  else .ok ((mpsort (ranks.flatMap (M.repeated counts))).mapIdx fun j p d =>
    p d + (0 + (M.cell d - 0) * u j d) + (M.boxcenter d - M.boxsize d / 2))

/-! ### Lagrangian mocks -/

open Classical in
/-- `lagrangian_mock.py:57-61`: multiplier of the modes for the displacement along an axis. -/
noncomputable def dispMult (a : Fin 3) (k : M.Idx) : ℂ :=
  Complex.I * (M.kvec k a : ℂ) / (M.k2safe k : ℂ) * (if (k a).val ≠ M.n a / 2 then 1 else 0)

/-- `lagrangian_mock.py:53-62`: displacement along an axis, before imaginary parts are dropped. -/
noncomputable def dispC (deltak : M.Idx → ℂ) (a : Fin 3) : M.Idx → ℂ := M.c2r fun k => deltak k * M.dispMult a k

/-- `lagrangian_mock.py:123-125`: displaced positions, wrapped in the box; one row. -/
noncomputable def lagrangianWrap (position disp : Fin 3 → ℝ) (d : Fin 3) : ℝ :=
  pmod (position d + disp d - M.offset d) (M.boxsize d) + M.offset d

/-- `lagrangian_mock.py:98-125` `poisson_sample`: positions and displacements read at the undisplaced positions; `read a` is
`self.readout(self.position, field=self.mesh_disp_r[a])`. -/
noncomputable def lagrangianSample (read : Fin 3 → (Fin 3 → ℝ) → ℝ) (position : List (Fin 3 → ℝ)) :
    List ((Fin 3 → ℝ) × (Fin 3 → ℝ)) :=
  position.map fun p => (M.lagrangianWrap p (fun a => read a p), fun a => read a p)

/-! ### Eulerian mocks -/

/-- `eulerian_mock.py:61-65`: multiplier of the modes for a fixed line of sight. -/
noncomputable def muSq (los : Fin 3 → ℝ) (k : M.Idx) : ℝ := ((∑ d, M.kvec k d * los d) / Real.sqrt (M.k2safe k)) ^ 2

open Classical in
/-- `eulerian_mock.py:76-80`: multiplier of the modes for a pair of axes. -/
noncomputable def pairMult (a b : Fin 3) (k : M.Idx) : ℝ :=
  M.kvec k a * M.kvec k b / M.k2safe k *
    (if ((k a).val ≠ M.n a / 2 ∧ (k b).val ≠ M.n b / 2) ∨ ((k a).val = M.n a / 2 ∧ (k b).val = M.n b / 2) then 1 else 0)

/-- `f`, or `f(rnorm)`, at a node. (`eulerian_mock.py:89-97`). -/
noncomputable def factorAt (f : Factor) (i : M.Idx) : ℝ :=
  match f with
  | .const f => f
  | .fn f => f (M.rnorm i)

/-- `eulerian_mock.py:58-69`, `:92-99` `set_rsd` with a fixed line of sight (normalised by `_get_los`). -/
noncomputable def eulerianFixed (f : Factor) (los : Fin 3 → ℝ) (deltak : M.Idx → ℂ) (delta : M.Idx → ℝ) (i : M.Idx) : ℝ :=
  delta i + M.c2rReal (fun k => deltak k * (M.muSq los k : ℂ)) i * M.factorAt f i

open Classical in
/-- `eulerian_mock.py:70-99` `set_rsd` with local lines of sight: sum over pairs of axes; `none` (`nan`) at the observer. -/
noncomputable def eulerianLocal (f : Factor) (deltak : M.Idx → ℂ) (delta : M.Idx → ℝ) (i : M.Idx) : Option ℝ :=
  let r2 := ∑ d, M.rgrid M.offset i d ^ 2
  let term (a b : Fin 3) : ℝ := (if a ≠ b then 1 + 1 else 1) *
    (M.c2rReal (fun k => deltak k * (M.pairMult a b k : ℂ)) i * (M.rgrid M.offset i a * M.rgrid M.offset i b / r2))
  if r2 = 0 then none
  else some (delta i + (∑ a, ∑ b, if a ≤ b then term a b else 0) * M.factorAt f i)

/-- `eulerian_mock.py:35-99` `EulerianLinearMock.set_rsd`. -/
noncomputable def eulerianRsd (f : Factor) (los : Axis) (deltak : M.Idx → ℂ) (delta : M.Idx → ℝ) :
    Except Err (M.Idx → Option ℝ) :=
  match los with
  | .none => .ok (M.eulerianLocal f deltak delta)
  | los => match getLos los with
    | .error e => .error e
    | .ok l => .ok fun i => some (M.eulerianFixed f ![l.x, l.y, l.z] deltak delta i)

end Mesh

/-- `lagrangian_mock.py:127-156` `LagrangianLinearMock.set_rsd`: new positions, given the positions and displacements. The formulae are
those of `ParticleCatalog.rsd_position`, with the displacements in place of velocities. -/
noncomputable def lagrangianRsd (f : Factor) (los : Axis) (position disps : List (V3 ℝ)) : Except Err (List (V3 ℝ)) := do
  let rsd ← match los with
    | .none => (position.zip disps).mapM fun pv => do
        let l ← normalize pv.1
        vectorProjection pv.2 l
    | los => do
        let l ← getLos los
        disps.mapM fun v => vectorProjection v l
  let rsd ← match f with
    | .const f => .ok (rsd.map fun r => f • r)
    | .fn f => mulRows rsd (position.map fun p => f p.norm)
  .ok (List.zipWith (· + ·) position rsd)

end Verif.Model
