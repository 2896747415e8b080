import Verif.Model.RoundedMask

/-!
# Model of positions of Poisson samples with rounding errors

`/repo/mockfactory/gaussian_mock.py:514, 531, 545-553`: each operation on floats is rounded (`Verif/Basic/Rounding.lean`).
`Verif/Model/Sampling.lean` and `Verif/Model/PoissonRanks.lean` have the positions in exact real numbers.
-/

namespace Verif.Model.RoundedMock

open Verif Verif.Model Verif.Model.RoundedMask

/-- `gaussian_mock.py:514`: the size of cells along one axis, for a box of size `L` and `n` cells. -/
noncomputable def cellF (F : Fmt) (L : ℝ) (n : ℕ) : ℝ := F.rnd (L / n)

/-- `gaussian_mock.py:531`: node `i` of the grid along one axis. (`generate_uniform_particle_grid` of `pmesh`, `shift = 0`: the index times
the size of cells). -/
noncomputable def nodeF (F : Fmt) (L : ℝ) (n i : ℕ) : ℝ := F.rnd (i * cellF F L n)

/-- `gaussian_mock.py:553`: what is added to positions, `boxcenter - boxsize / 2.`. -/
noncomputable def cornerF (F : Fmt) (L center : ℝ) : ℝ := F.rnd (center - F.rnd (L / 2))

/-- `gaussian_mock.py:531, 545-553` `BaseGaussianMock.poisson_sample`: one coordinate of an object of cell `i`, from a draw `u` of [0, 1). -/
noncomputable def positionF (F : Fmt) (L center : ℝ) (n i : ℕ) (u : ℝ) : ℝ :=
  F.rnd (F.rnd (nodeF F L n i + uniformF F 0 (cellF F L n) u) + cornerF F L center)

end Verif.Model.RoundedMock
