import Verif.Model.Blinding
import Verif.Model.Mesh

/-!
# Primordial non-Gaussianity blinding (`mockfactory/blinding/catalog.py:460-635`)

The reconstruction package (pyrecon) is not in the repository: a reconstruction is a mesh with arbitrary functions for what the code
asks of it (displacements, density contrast, readout at positions, assignment of weights to the mesh, smoothing).
-/

namespace Verif.Model.Blinding

open Verif Verif.Model

/-- Positions and weights of data and randoms, of all ranks. (`blinding/catalog.py:512-515`). -/
structure Catalogs where
  data : List (List (V3 ℝ))
  dataWeights : List (Option (List ℝ))
  randoms : List (Option (List (V3 ℝ)))
  randomsWeights : List (Option (List ℝ))

/-- A reconstruction (already run) on mesh `M`, as used by `png`. (`blinding/catalog.py:524-545`). -/
structure PngRecon (M : Mesh) where
  /-- `recon.bias`. -/
  bias : ℝ
  /-- `recon.smoothing_radius` before `set_density_contrast`. -/
  radius : ℝ
  /-- `recon.read_shifts(..., field='rsd')`. -/
  shifts : V3 ℝ → V3 ℝ
  /-- `recon.mesh_delta` after `assign_data`, `assign_randoms`, `set_density_contrast(smoothing_radius)`. -/
  contrast : Catalogs → ℝ → M.Idx → ℝ
  /-- `recon._readout(mesh, positions)`. -/
  readout : (M.Idx → ℝ) → V3 ℝ → ℝ
  /-- `recon.mesh_data` after `recon.assign_data(positions, weights)` on an empty mesh (`catalog.py:568-574, 577-578`). -/
  paint : List (List (V3 ℝ)) → List (Option (List ℝ)) → M.Idx → ℝ
  /-- `recon._smooth_gaussian(mesh)` (`catalog.py:586`). -/
  smooth : (M.Idx → ℝ) → M.Idx → ℝ

/-- The `recon` argument: an instance, or a name (`None` is `'IterativeFFTReconstruction'`) with the algorithm it stands for: from
catalogs, growth rate, bias and smoothing radius. (`blinding/catalog.py:516-527`). -/
inductive PngReconArg (M : Mesh) where
  | instance (r : PngRecon M)
  | name (run : Catalogs → ℝ → Option ℝ → ℝ → PngRecon M)

/-- What is used of the power spectra of the fiducial cosmology: primordial, linear at the effective redshift, and squared
displacement dispersion `sigma_d()**2` of the linear power spectrum smoothed with a given radius (`catalog.py:599-600`). -/
structure Spectra where
  prim : ℝ → ℝ
  lin : ℝ → ℝ
  sigmaD2 : ℝ → ℝ

/-- `catalog.py:550-552` `Tk`. -/
noncomputable def transfer (s : Spectra) (h k : ℝ) : ℝ :=
  Real.sqrt (s.lin k / (9 / 25 * 2 * Real.pi ^ 2 / k ^ 3 * s.prim k / h ^ 3))

/-- `catalog.py:545`. -/
noncomputable def bfnl (b1 fnl : ℝ) : ℝ := 2 * 1.686 * (b1 - 1) * fnl

open Classical in
/-- `catalog.py:554-558`: the multiplied modes. (`.error .nan` where a transfer function is zero.) -/
noncomputable def pngModes {M : Mesh} (T : ℝ → ℝ) (b : ℝ) (delta : M.Idx → ℝ) : Except Err (M.Idx → ℂ) :=
  if ∃ k : M.Idx, Real.sqrt (M.k2 k) ≠ 0 ∧ T (Real.sqrt (M.k2 k)) = 0 then .error .nan
  else .ok fun k =>
    if Real.sqrt (M.k2 k) ≠ 0 then M.r2c (fun i => (delta i : ℂ)) k * ((b / T (Real.sqrt (M.k2 k)) : ℝ) : ℂ) else 0

/-- `catalog.py:562-566` `S1`, `S2`. -/
noncomputable def smoothing (sigma k : ℝ) : ℝ := Real.exp (-0.5 * k ^ 2 * sigma ^ 2)

/-- `mpy.csum(weights if weights is not None else len(positions))` (`catalog.py:579, 582`). -/
noncomputable def sumWeights (positions : List (List (V3 ℝ))) (weights : List (Option (List ℝ))) : ℝ :=
  (List.zipWith (fun (rows : List (V3 ℝ)) (w : Option (List ℝ)) => match w with
    | some l => l.sum
    | none => (rows.length : ℝ)) positions weights).sum

/-- `catalog.py:576-582` `nbar`: with randoms (on all ranks), their mesh scaled to the sum of data weights, by unit of volume; else
the mean density. (`.error .nan` when the weights of randoms add up to zero.) -/
noncomputable def meanDensity {M : Mesh} (recon : PngRecon M) (c : Catalogs) : Except Err (M.Idx → ℝ) :=
  match c.randoms.mapM id with
  | some randoms =>
    if sumWeights randoms c.randomsWeights = 0 then .error .nan
    else .ok fun i => sumWeights c.data c.dataWeights / sumWeights randoms c.randomsWeights / (∏ d, M.boxsize d / M.n d) *
      recon.paint randoms c.randomsWeights i
  | none => .ok fun _ => sumWeights c.data c.dataWeights / ∏ d, M.boxsize d

open Classical in
/-- `catalog.py:568-586` `inv_shotnoise`. -/
noncomputable def invShotnoise {M : Mesh} (recon : PngRecon M) (c : Catalogs) : Except Err (M.Idx → ℝ) := do
  let sumW2 := recon.paint c.data (c.dataWeights.map (Option.map (List.map fun w => w * w)))
  let sumWd := recon.paint c.data c.dataWeights
  let nbar ← meanDensity recon c
  .ok (recon.smooth fun i => sumWd i * nbar i / if sumW2 i = 0 then 1 else sumW2 i)

open Classical in
/-- `catalog.py:588-607`, shot noise factor for an object where the inverse shot noise reads `inv`. (`.error .nan` for divisions by
zero and roots of negative numbers.) -/
noncomputable def shotnoiseFactor (T lin : ℝ → ℝ) (b b1 f sigma1 sigma2 sigmaD2 inv : ℝ) : Except Err ℝ :=
  let mu : ℝ := 0.6
  let kp : ℝ := if 0 ≤ b then 4e-3 else 8e-3
  let shotnoise := 1 / inv
  let X := (b1 + f * mu ^ 2) * (b1 + (1 - smoothing sigma1 kp) * f * mu ^ 2) * smoothing sigma2 kp * lin kp
    + smoothing sigma2 kp * shotnoise * Real.exp (-0.5 * kp ^ 2 * mu ^ 2 * f ^ 2 * sigmaD2)
  let Y := (b1 + (1 - smoothing sigma1 kp) * f * mu ^ 2) ^ 2 * smoothing sigma2 kp ^ 2 * lin kp + smoothing sigma2 kp ^ 2 * shotnoise
  let expected := 2 * b / T kp * b1 * (b1 + f * mu ^ 2) * lin kp + (b / T kp) ^ 2 * b1 ^ 2 * lin kp
  if inv = 0 ∨ T kp = 0 ∨ b / T kp = 0 ∨ Y = 0 ∨ X ^ 2 + Y * expected < 0 then .error .nan
  else .ok ((-X + Real.sqrt (X ^ 2 + Y * expected)) / Y / (b / T kp))

/-- Positions blinded by `method`: `'data' in method`. (`blinding/catalog.py:592, 614, 622`). -/
def onData (method : String) : Bool := method = "data_weights" ∨ method = "data_positions"

/-- `'weights' in method`. (`blinding/catalog.py:538, 612`). -/
def onWeights (method : String) : Bool := method = "data_weights" ∨ method = "randoms_weights"

/-- `catalog.py:612-619`, one rank: weights (or 1) times one plus or minus the field. Arrays of different sizes do not multiply
(a weight array of size one would, not represented). -/
def multiplyWeights (sign : ℝ) (weights : Option (List ℝ)) (shift : List ℝ) : Except Err (List ℝ) :=
  match weights with
  | none => .ok (shift.map fun s => 1 * (1 + sign * s))
  | some w => if w.length = shift.length then .ok (List.zipWith (fun w s => w * (1 + sign * s)) w shift) else .error .valueError

/-- Mean of all rows of all ranks (`mpy.cmean(shifts)`, taken as the mean over rows, axis by axis).
(`blinding/catalog.py:633`). -/
noncomputable def meanRows (ranks : List (List (V3 ℝ))) : V3 ℝ :=
  (1 / (ranks.flatten.length : ℝ)) • ⟨(ranks.flatten.map (·.x)).sum, (ranks.flatten.map (·.y)).sum, (ranks.flatten.map (·.z)).sum⟩

/-- `catalog.py:626-629`, multiplier along an axis: no test for the largest frequency. -/
noncomputable def pngDispMult {M : Mesh} (a : Fin 3) (k : M.Idx) : ℂ := Complex.I * (M.kvec k a : ℂ) / (M.k2safe k : ℂ)

/-- What `png` returns: weights, or rows of Cartesian positions. (`blinding/catalog.py:612-635`). -/
inductive PngOut where
  | weights (w : Option (List ℝ))
  | positions (p : Option (List (V3 ℝ)))

/-- `catalog.py:560-610`: shot noise factor as a function of position; `fname` is the growth rate, known if the reconstruction was run
here (the name `f` is not defined otherwise). -/
noncomputable def pngFactor {M : Mesh} (s : Spectra) (h b sigma2 : ℝ) (correct : Bool) (fname : Option ℝ) (recon : PngRecon M)
    (c : Catalogs) : Except Err (V3 ℝ → Except Err ℝ) :=
  if correct then
    match fname with
    | none => .error .nameError
    | some f => do
      let inv ← invShotnoise recon c
      .ok fun p => shotnoiseFactor (transfer s h) s.lin b recon.bias f recon.radius sigma2 (s.sigmaD2 recon.radius)
        (recon.readout inv p)
  else .ok fun _ => .ok 1

/-- Positions of data or randoms; reading a mesh at `None` is taken to be a `TypeError`.
(`blinding/catalog.py:615, 618, 622`). -/
def pngPositions (method : String) (c : Catalogs) : Except Err (List (List (V3 ℝ))) :=
  if onData method then .ok c.data
  else match c.randoms.mapM id with
    | some r => .ok r
    | none => .error .typeError

/-- `catalog.py:612-619`: weights of all ranks. -/
noncomputable def pngWeights {M : Mesh} (method : String) (recon : PngRecon M) (factor : V3 ℝ → Except Err ℝ) (modes : M.Idx → ℂ)
    (c : Catalogs) (positions : List (List (V3 ℝ))) : List (Except Err (List ℝ)) :=
  List.zipWith (fun rows w => do
      let shift ← rows.mapM fun p => do .ok ((← factor p) * recon.readout (M.c2rReal modes) p)
      multiplyWeights (if onData method then 1 else -1) w shift)
    positions (if onData method then c.dataWeights else c.randomsWeights)

/-- `catalog.py:623-632`: displacement at a position. -/
noncomputable def pngDisp {M : Mesh} (recon : PngRecon M) (modes : M.Idx → ℂ) (p : V3 ℝ) : V3 ℝ :=
  let read := fun a : Fin 3 => recon.readout (M.c2rReal fun k => modes k * pngDispMult a k) p
  ⟨read 0, read 1, read 2⟩

/-- `catalog.py:622-634`: positions of all ranks. -/
noncomputable def pngShifted {M : Mesh} (method : String) (recon : PngRecon M) (modes : M.Idx → ℂ) (positions : List (List (V3 ℝ))) :
    List (List (V3 ℝ)) :=
  let mean := meanRows (positions.map fun rows => rows.map (pngDisp recon modes))
  positions.map fun rows => rows.map fun p =>
    if onData method then p + (pngDisp recon modes p - mean) else p + -(pngDisp recon modes p - mean)

/-- `catalog.py:528-635`: after formatting and reconstruction. -/
noncomputable def pngCore {M : Mesh} (method : String) (s : Spectra) (blind fid : Cosmo) (sigma2 : ℝ) (correct : Bool)
    (fname : Option ℝ) (recon : PngRecon M) (c : Catalogs) : Except Err (List (Except Err (List ℝ)) ⊕ List (List (V3 ℝ))) :=
  if !onWeights method && correct then .error .valueError
  else do
    let delta := recon.contrast { c with data := c.data.map fun rows => rows.map fun p => p - recon.shifts p } sigma2
    let fnl ← getFromCosmo blind "fnl" none
    let modes ← pngModes (transfer s fid.h) (bfnl recon.bias fnl) delta
    let factor ← pngFactor s fid.h (bfnl recon.bias fnl) sigma2 correct fname recon c
    let positions ← pngPositions method c
    if onWeights method then .ok (.inl (pngWeights method recon factor modes c positions))
    else .ok (.inr (pngShifted method recon modes positions))

/-- `catalog.py:516-527`: growth rate, if computed here, and reconstruction. -/
noncomputable def pngRecon {M : Mesh} (recon : PngReconArg M) (fid : Cosmo) (z bias : Option ℝ) (sigma2 : ℝ) (c : Catalogs) :
    Except Err (Option ℝ × PngRecon M) :=
  match recon with
  | .instance r => .ok (none, r)
  | .name run => do
    let f ← getFromCosmo fid "f" z
    .ok (some f, run c f bias sigma2)

/-- Results of ranks to the caller (`_format_output_weights`, also for positions).
(`blinding/catalog.py:620, 635`). -/
def pngOutput (root : Option ℕ) (n : ℕ) : Except Err (List (Except Err (List ℝ)) ⊕ List (List (V3 ℝ))) → List (Res PngOut)
  | .error e => List.replicate n (.raised e)
  | .ok (.inl w) =>
    let ranks : List (Res (List ℝ)) := w.map fun x => match x with
      | .ok l => .done l
      | .error e => .raised e
    match root with
    | none => ranks.map (Res.locally fun l => .ok (.weights (some l)))
    | some _ => collective ranks fun l => (formatOutputWeights root l).map fun o => .done (.weights o)
  | .ok (.inr p) => (formatOutputWeights root p).map fun o => .done (.positions o)

/-- `catalog.py:460-635` `png`, on all ranks. -/
noncomputable def png {M : Mesh} (method ptype : String) (dtype : Option Kind) (dist : ℝ → ℝ) (s : Spectra) (blind fid : Cosmo)
    (z bias : Option ℝ) (root : Option ℕ) (recon : PngReconArg M) (sigma2 : ℝ) (correct : Bool) (data : List Positions)
    (dataWeights : List (Option (List ℝ))) (randoms : List Positions) (randomsWeights : List (Option (List ℝ))) :
    List (Res PngOut) :=
  if method ∉ ["data_weights", "randoms_weights", "data_positions", "randoms_positions"] then data.map fun _ => .raised .valueError
  else
    collective ((formatPositions ptype dtype dist root data).map (Res.locally Formatted.get)) fun rows =>
    collective (formatWeights root dataWeights) fun dw =>
    collective (formatPositions ptype dtype dist root randoms) fun rp =>
    collective (formatWeights root randomsWeights) fun rw =>
      let c : Catalogs := ⟨rows, dw, rp.map Formatted.rows?, rw⟩
      pngOutput root data.length (do
        let (fname, r) ← pngRecon recon fid z bias sigma2 c
        pngCore method s blind fid sigma2 correct fname r c)

end Verif.Model.Blinding
