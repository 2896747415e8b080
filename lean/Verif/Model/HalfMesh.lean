import Verif.Model.Mesh

/-!
# Model of meshes that hold half of the modes

For meshes of real type (the default, `gaussian_mock.py:180`), pmesh holds the modes of index 0 to half the mesh size along the last
axis only. The fields of `Verif/Model/Mesh.lean`, computed from all modes, are computed here from the modes that are held. Values at
modes that are not held are never read.
-/

namespace Verif.Model.Mesh

open Verif

variable (M : Mesh)

/-- Modes held for a mesh of real type. (`gaussian_mock.py:303`, `generate_whitenoise` of pmesh). -/
def Stored (k : M.Idx) : Prop := 2 * (k 2).val ≤ M.n 2

instance (k : M.Idx) : Decidable (M.Stored k) := inferInstanceAs (Decidable (_ ≤ _))

/-- Number of modes of the field for which a mode that is held stands: itself and its opposite if the latter is not held.
(`gaussian_mock.py:344`, `c2r` of pmesh). -/
def multiplicity (k : M.Idx) : ℝ := if (k 2).val = 0 ∨ 2 * (k 2).val = M.n 2 then 1 else 2

/-- `c2r` of pmesh for meshes of real type: the transform from half-complex to real fields of FFTW, which reads the modes that are
held and drops the imaginary parts along the last axis. (`gaussian_mock.py:344`). -/
noncomputable def c2rHalf (F : M.Idx → ℂ) (i : M.Idx) : ℝ :=
  ∑ k with M.Stored k, M.multiplicity k * (F k * M.char i k).re

/-- `gaussian_mock.py:329-359` `set_real_delta_field`. -/
noncomputable def realDeltaHalf (b : Bias) (lognormalTransform : Bool) (deltak : M.Idx → ℂ) : M.Idx → ℝ :=
  let delta := M.biased b (M.c2rHalf deltak)
  if lognormalTransform then M.lognormal delta else delta

/-- `lagrangian_mock.py:53-62`: displacement along an axis. -/
noncomputable def dispHalf (deltak : M.Idx → ℂ) (a : Fin 3) : M.Idx → ℝ := M.c2rHalf fun k => deltak k * M.dispMult a k

/-- `eulerian_mock.py:58-69`, `:92-99` `set_rsd` with a fixed line of sight. -/
noncomputable def eulerianFixedHalf (f : Factor) (los : Fin 3 → ℝ) (deltak : M.Idx → ℂ) (delta : M.Idx → ℝ) (i : M.Idx) : ℝ :=
  delta i + M.c2rHalf (fun k => deltak k * (M.muSq los k : ℂ)) i * M.factorAt f i

open Classical in
/-- `eulerian_mock.py:70-99` `set_rsd` with local lines of sight; `none` (`nan`) at the observer. -/
noncomputable def eulerianLocalHalf (f : Factor) (deltak : M.Idx → ℂ) (delta : M.Idx → ℝ) (i : M.Idx) : Option ℝ :=
  let r2 := ∑ d, M.rgrid M.offset i d ^ 2
  let term (a b : Fin 3) : ℝ := (if a ≠ b then 1 + 1 else 1) *
    (M.c2rHalf (fun k => deltak k * (M.pairMult a b k : ℂ)) i * (M.rgrid M.offset i a * M.rgrid M.offset i b / r2))
  if r2 = 0 then none
  else some (delta i + (∑ a, ∑ b, if a ≤ b then term a b else 0) * M.factorAt f i)

/-- `eulerian_mock.py:35-99` `EulerianLinearMock.set_rsd`. -/
noncomputable def eulerianRsdHalf (f : Factor) (los : Axis) (deltak : M.Idx → ℂ) (delta : M.Idx → ℝ) :
    Except Err (M.Idx → Option ℝ) :=
  match los with
  | .none => .ok (M.eulerianLocalHalf f deltak delta)
  | los => match getLos los with
    | .error e => .error e
    | .ok l => .ok fun i => some (M.eulerianFixedHalf f ![l.x, l.y, l.z] deltak delta i)

end Verif.Model.Mesh
