import Verif.Spec.Blinding
import Verif.Model.Png

/-!
# Primordial non-Gaussianity blinding: what it should compute

The galaxy density contrast `δ` should change to `δ + g`, with `g(k) = b_φ f_NL δ(k) / α(k)`, `b_φ = 2 δ_c (b₁ - 1)`, `δ_c = 1.686`, and
`α` the transfer function between the primordial potential and the density.
-/

namespace Verif.Spec.Blinding

open Verif Verif.Model Verif.Model.Blinding

/-- Length of wavevector `k`. -/
noncomputable def waveLength (M : Mesh) (k : M.Idx) : ℝ := Real.sqrt (∑ d, M.kvec k d ^ 2)

/-- `α(k)`, `(5 / 3) √(P_lin(k) / P_ζ(k))`, `P_ζ(k) = 2 π² / (k h)³ 𝒫_ζ(k)`. -/
noncomputable def alpha (s : Spectra) (h k : ℝ) : ℝ := 5 / 3 * Real.sqrt (s.lin k / (2 * Real.pi ^ 2 / (k * h) ^ 3 * s.prim k))

/-- `g` is the non-Gaussian part of a field with contrast `delta`, bias `b1`: real, with no mean. -/
def IsPngField (M : Mesh) (s : Spectra) (h b1 fnl : ℝ) (delta g : M.Idx → ℝ) : Prop :=
  ∀ k : M.Idx, M.r2c (fun i => (g i : ℂ)) k =
    if k = 0 then 0 else ((2 * 1.686 * (b1 - 1) * fnl / alpha s h (waveLength M k) : ℝ) : ℂ) * M.r2c (fun i => (delta i : ℂ)) k

/-- `v` is the displacement field of density contrast `g`, along an axis. -/
def IsDisplacement (M : Mesh) (g : M.Idx → ℝ) (a : Fin 3) (v : M.Idx → ℝ) : Prop :=
  ∀ k : M.Idx, M.r2c (fun i => (v i : ℂ)) k =
    if k = 0 then 0 else Complex.I * (M.kvec k a / waveLength M k ^ 2 : ℝ) * M.r2c (fun i => (g i : ℂ)) k

/-- Spectra are positive. -/
def PositiveSpectra (s : Spectra) (h : ℝ) : Prop := 0 < h ∧ ∀ k, 0 < k → 0 < s.lin k ∧ 0 < s.prim k

/-- `fnl` of the blinded cosmology: given with the derived parameters, or zero. -/
def IsFnl (c : Cosmo) (fnl : ℝ) : Prop := c.derived.lookup "fnl" = some fnl ∨ (c.derived.lookup "fnl" = none ∧ fnl = 0)

/-- Weights of a rank of `n` rows: 1 if not given. -/
def weightsOr1 (n : ℕ) (w : Option (List ℝ)) : List ℝ := w.getD (List.replicate n 1)

/-! ### Shot noise correction

The weights are `1 + φ g`. The factor `φ` makes up for the smoothing of `g`, for redshift-space distortions and for the shot noise of
the catalog, at one pivot wavenumber and one angle to the line of sight, `μ = 0.6`. -/

/-- Damping of a wave of wavenumber `k` by a Gaussian smoothing of radius `r`. -/
noncomputable def damping (r k : ℝ) : ℝ := Real.exp (-(k * r) ^ 2 / 2)

/-- Power at wavenumber `k` of objects of bias `b1`, growth rate `f` and noise `noise` weighted by `1 + a δ'`, `δ'` being their
contrast after redshift-space distortions were removed using a smoothing of radius `r1`, smoothed with radius `r2`. -/
noncomputable def weightedPower (s : Spectra) (b1 f r1 r2 noise k a : ℝ) : ℝ :=
  (b1 + f * 0.6 ^ 2 + a * (damping r2 k * (b1 + (1 - damping r1 k) * f * 0.6 ^ 2))) ^ 2 * s.lin k +
    noise * (1 + 2 * a * damping r2 k * Real.exp (-(k * 0.6 * f) ^ 2 * s.sigmaD2 r1 / 2) + (a * damping r2 k) ^ 2)

/-- Power at wavenumber `k` of objects with contrast `δ + m δ₀`, `δ₀` their contrast in real space. -/
noncomputable def expectedPower (s : Spectra) (b1 f noise k m : ℝ) : ℝ := (b1 + f * 0.6 ^ 2 + m * b1) ^ 2 * s.lin k + noise

open Classical in
/-- The pivot wavenumber: smaller if the power increases. -/
noncomputable def pivot (b1 fnl : ℝ) : ℝ := if 0 ≤ (b1 - 1) * fnl then 0.004 else 0.008

/-- Scale-dependent bias at the pivot, relative to the contrast. -/
noncomputable def pivotBias (s : Spectra) (h b1 fnl : ℝ) : ℝ := 2 * 1.686 * (b1 - 1) * fnl / alpha s h (pivot b1 fnl)

/-- `φ` is the shot noise factor: weighting by `1 + φ m δ'` gives the expected power at the pivot, and there is no solution larger
than `φ m`. -/
def IsNoiseFactor (s : Spectra) (h b1 fnl f r1 r2 noise φ : ℝ) : Prop :=
  IsGreatest {a | weightedPower s b1 f r1 r2 noise (pivot b1 fnl) a = expectedPower s b1 f noise (pivot b1 fnl) (pivotBias s h b1 fnl)}
    (φ * pivotBias s h b1 fnl)

/-- Sum of the weights of all rows of all ranks, 1 if not given. -/
noncomputable def totalWeight (rows : List (List (V3 ℝ))) (weights : List (Option (List ℝ))) : ℝ :=
  (List.zipWith (fun (r : List (V3 ℝ)) w => (weightsOr1 r.length w).sum) rows weights).sum

/-- `nbar` is the mean density of weighted data: proportional to that of randoms, or constant without randoms. -/
def IsMeanDensity {M : Mesh} (R : PngRecon M) (c : Catalogs) (nbar : M.Idx → ℝ) : Prop :=
  (∃ r, c.randoms = r.map some ∧ totalWeight r c.randomsWeights ≠ 0 ∧ ∀ i, nbar i * (∏ d, M.boxsize d / M.n d) *
    totalWeight r c.randomsWeights = totalWeight c.data c.dataWeights * R.paint r c.randomsWeights i) ∨
  (none ∈ c.randoms ∧ ∀ i, nbar i * ∏ d, M.boxsize d = totalWeight c.data c.dataWeights)

/-- `inv` is the inverse of the shot noise: (sum of weights) × density / (sum of squared weights) in each cell, smoothed. -/
def IsInverseNoise {M : Mesh} (R : PngRecon M) (c : Catalogs) (inv : M.Idx → ℝ) : Prop :=
  ∃ nbar q : M.Idx → ℝ, IsMeanDensity R c nbar ∧ inv = R.smooth q ∧
    ∀ i, (R.paint c.data (c.dataWeights.map (Option.map (List.map (· ^ 2)))) i ≠ 0 →
        q i * R.paint c.data (c.dataWeights.map (Option.map (List.map (· ^ 2)))) i = R.paint c.data c.dataWeights i * nbar i) ∧
      (R.paint c.data (c.dataWeights.map (Option.map (List.map (· ^ 2)))) i = 0 → q i = R.paint c.data c.dataWeights i * nbar i)

end Verif.Spec.Blinding
