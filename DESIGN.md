# Formal model of cosmodesi/mockfactory: design

Source modelled: `/repo` (python) at the pinned commit. Model, specifications and proofs: Lean 4 (`/verif/lean`).
The code is read as text and never run; the tie between code and model is the citation (`file:lines`) that each
definition carries.

## Layout

* `Verif/Model/*.lean` : one file per area, shallow functions mirroring the python functions branch by branch.
  Exceptions are values (`Except`), numpy edge results that are not numbers (`nan`, division by zero) are explicit
  error constructors, loops are structural recursions over lists or fuelled recursions.
* `Verif/Spec/*.lean` : short specifications, written without the model's helpers.
* `Verif/Lemmas/*.lean` : helper lemmas.
* `Verif/Props/*.lean` : the property theorems (`Cnn_...`), each with an `example` showing that its hypotheses are met
  by a concrete non-trivial case. Where the code violates the property, the file has the refutation
  (`Cnn_..._violated`, a theorem with a concrete witness) and the part that holds (`Cnn_..._partial`).

## Numbers, arrays, randomness, MPI

* Floating-point numbers are idealised as exact reals `ℝ` (geometry, trigonometry, square roots, splines)
  or as an arbitrary linearly ordered field; C111 to C117, C125, C128 to C135 and C137 to C142 alone are about rounded arithmetic (`Basic/Rounding.lean`). Elsewhere
  rounding, overflow, denormals, `nan` propagation are not modelled except
  where stated (`nan`/`inf` results of 0/0, x/0, arcsin outside [-1, 1] are explicit errors).
* numpy arrays of shape (N, 3) are lists of 3-vectors; boolean-mask indexing is `filter`; in-place updates return the
  new value, except in the aliasing models (C08, C18), which have an explicit heap.
* Random generators are arbitrary functions/streams (universally quantified): what is proved holds for every draw.
  For the properties about chances (C100 on), draws are random variables, uniform in [0, 1) and independent of each other
  (`Spec/Draws.lean`), which is what the generators of numpy are documented to imitate.
* An MPI computation over `n` ranks is a list of `n` per-rank values (the "scattered array"); collective operations of
  mpytools (`csort`, `scatter`, `gather`, `MPIScatteredSource.get`, `local_size`, `MPIRandomState`, reductions) are
  modelled from their documented behaviour, see "Trusted base". For C121, C122 and C124, each rank runs a program of its own
  (`Model/Mpi.lean`) and the calls of ranks meet in any order (`Spec/Mpi.lean`).

## Trusted base

* Lean 4.33.0 kernel; axioms `propext`, `Classical.choice`, `Quot.sound` only (no `sorry`, no own axioms, no
  `native_decide`, no `bv_decide`); the axioms of each theorem are below.
* The faithfulness of the reading of the code (citations) and the idealisations above.
* External libraries, modelled by their documented contract:
  * numpy: broadcasting, masks, `histogram`, `unique`, `product`, conversions between types, `np.interp`;
  * scipy: `UnivariateSpline(k=1, s=0)` is piecewise-linear interpolation; splines of order 2 to 5 are any function that
    goes through the nodes and meets the contract `SplineOk`; where their values between nodes matter (`SplinePieces`), that of
    order 3 is the cubic spline without knots at the second and last but one nodes, proved to exist and to be unique; `brentq` returns a root in the bracket; `rv_continuous`
    clamps the cdf outside the support and calls the methods of the class inside;
  * mpytools: a catalog is the list of the rows of each rank; `csort` gives a sorted permutation with equal keys on the same
    rank; `cmean`, `csum` run over the rows of all ranks; `MPIRandomState` yields a global stream sliced by rank;
    `MPIScatteredSource.get` reads rows by global index;
  * pmesh: cell geometry, frequencies, Hermitian storage; resampling (`readout`, `paint`) is a parameter;
  * cosmoprimo: distances are arbitrary functions, increasing where stated; growth rates and power spectra are parameters;
  * pyrecon, pycorr, regressis, healpy, pymangle: their results are parameters;
  * fiberassign, desimodel, desitarget, desiutil: parameters with the stated contracts (`Spec/Fiber.lean`,
    `Spec/Footprint.lean`, `Spec/Bricks.lean`); `desitarget.geomask.match` on arrays without repeated elements.
* Not modelled: logging, timing, plotting, the format of files (files are functions of names, or parameters), parsing of
  the command line, Fourier transforms beyond their definition as sums, performance, behaviour after an exception on one
  rank only (except in C50, C71, C94, C121 and C124), signals and crashes of processes.

### Axioms of the theorems

<!-- axioms -->
All 892 theorems of MANIFEST.json depend on `propext`, `Classical.choice` and `Quot.sound`, except:

* no axiom: `C15_gcd_short`, `C81_violated`, `FiberV0.C94_extra`, `MaskInit.C110_collection_violated`, `Seeds.C127_script_seeds`.
* only `propext`: `C30_stops_unique`, `C72_ops_violated`, `C78_files`, `C81_dtype_partial`, `SkyFiles.C99_base`, `Sv3.C85_mock_fn_violated`.
* only `Quot.sound`, `propext`: `C15_gcd_pair`, `C30_empty_violated`, `C30_size_partial`, `C31_ranks_violated`, `C45_cosmology`, `FiberV0.C94_current`, `FiberV0.C94_earlier_iff`, `Sv3Cut.C90_tiles`.
<!-- end axioms -->

### Functions of the repository and model files

Generated by `tools/design.py` from the citations in the model. Tests, `setup.py` and documentation are left out.

<!-- functions -->
* `desi/covariance_from_desi_sv3_cutsky.py`
  * `get_edges`: `Sv3`
  * main program: `Sv3` (in part: command line, plots, writing of files and calls of pycorr are left out)
* `desi/from_box_to_desi_cutsky.py`
  * `remap_the_box`: `RoundedRemap`, `Script`
  * `apply_rsd_and_cutsky`: `Script`
  * `apply_radial_mask`: `RadialScript`, `Seeds`
  * `generate_redshifts`: `RadialScript`
  * `photometric_region_center`, `is_in_photometric_region`, `apply_photo_desi_footprint`: `Footprint`
  * main program: `Seeds`, `Survey` (in part: from the remapped box on: `Verif/Model/Survey.lean`; command line, reading of the box, formats of files and log messages are left out)
* `desi/from_box_to_desi_sv3_cutsky.py`
  * `get_region`: `Sv3`
  * `read_rosettes`, `catalog_fn`: `Names`, `Sv3`
  * main program: `Sv3`, `Sv3Cut` (in part: command line, reading of mock catalogs and plots are left out)
* `mockfactory/blinding/catalog.py`
  * `get_cosmo`, `_get_from_cosmo`, `get_cosmo_blind`, `_format_positions`, `_format_weights`, `_format_output_positions`, `_format_output_weights`: `Blinding`
  * `get_z`: `Blinding`, `EffectiveRedshift`
  * `CutskyCatalogBlinding.__init__`: not modelled: stores its arguments; they are arguments of the modelled methods
  * `CutskyCatalogBlinding.ap`, `CutskyCatalogBlinding.rsd`: `Blinding`, `RoundedBlinding`
  * `CutskyCatalogBlinding.shuffle`: `Blinding`, `Mpi`, `RoundedBlinding`
  * `CutskyCatalogBlinding.png`: `Mpi`, `Png`
* `mockfactory/desi/brick_pixel_quantities.py`
  * `get_brick_pixel_quantities`: `Bricks`, `MpiErrors`
  * main program: not modelled: example
* `mockfactory/desi/fiber_assignment.py`
  * `build_tiles_for_fa`: `Fiber`, `FiberFiles`
  * `read_sky_targets`: `FiberFiles`
  * `fafns_for_tiles`: `FiberFiles`, `Names`
  * `_run_assign_init`: `FiberFiles`, `Names` (in part: conversion of targets by fiberassign is external)
  * `_run_assign_full`: `FiberFiles`, `FiberV0`
  * `_extract_info_assignment`, `_apply_mtl_one_tile`, `_run_fiber_assignment_one_tile`, `_run_fiber_assignment_one_pass`: `Fiber`, `FiberV0`
  * `apply_fiber_assignment`, `compute_completeness_weight`: `Fiber`, `FiberV0`, `MpiErrors`
  * `_compute_completeness_weight_one_pass`: `Fiber`
* `mockfactory/desi/fiber_assignment_v0.py`
  * `build_tiles_for_fa`: `FiberFiles`
  * `_write_all_skytargets`: `SkyFiles`
  * `read_sky_targets`: `FiberV0`, `SkyFiles`
  * `_run_assign_init`, `_run_assign_full`, `_apply_mtl_one_pass`, `_run_fiber_assignment_one_pass`, `apply_fiber_assignment`: `FiberV0`
  * `_extract_info_assignment`, `_compute_completeness_weight_one_pass`: `Fiber`
  * `compute_completeness_weight`: `Fiber`, `FiberV0`
  * main program: not modelled: example run of functions that are modelled, on fixed files; its call `read_sky_targets(..., program=program)`, not reached with the settings of the file, passes a keyword that the function does not have
* `mockfactory/desi/footprint.py`
  * `is_in_desi_footprint`: `Footprint`
  * main program: not modelled: example
* `mockfactory/desi/redshift_smearing.py`
  * `TracerRedshiftSmearingRVS`, `TracerRedshiftSmearing`: `Tracer`
  * main program: not modelled: plot
* `mockfactory/eulerian_mock.py`
  * `EulerianLinearMock.set_rsd`: `HalfMesh`, `Mesh`, `MockObject`
* `mockfactory/gaussian_mock.py`
  * `_make_array`, `_compensate_mesh`, `_transform_rslab`: `Mesh`
  * `_get_los`: `Isometry`
  * `ArrayMesh`, `BaseGaussianMock.from_complex_delta_field`: `MockObject`
  * `SetterProperty.__init__`, `SetterProperty.__set__`: not modelled: python descriptor
  * `BaseGaussianMock.__init__`, `BaseGaussianMock.set_real_white_noise`: `InPlace`, `Mesh`, `MockObject`, `Mpi`
  * `BaseGaussianMock.is_mpi_root`: not modelled: only used for messages
  * `BaseGaussianMock.boxsize`, `BaseGaussianMock.nmesh`, `BaseGaussianMock.boxcenter`: not modelled: field of `Mesh`
  * `BaseGaussianMock.ndim`: not modelled: always 3
  * `BaseGaussianMock.set_complex_delta_field`: `HalfMesh`, `Mesh`
  * `BaseGaussianMock.set_real_delta_field`: `HalfMesh`, `InPlace`, `Mesh`, `MockObject`, `RoundedLognormal`
  * `BaseGaussianMock.set_analytic_selection_function`: `InPlace`, `Mesh`, `MockObject`, `Vec`
  * `BaseGaussianMock.readout`: `InPlace`, `Mesh`, `MockObject`
  * `BaseGaussianMock.to_nbodykit_mesh`, `BaseGaussianMock.to_catalog`: `InPlace`, `MockObject`
  * `BaseGaussianMock.poisson_sample`: `InPlace`, `Mesh`, `MockObject`, `MpiErrors`, `PoissonRanks`, `RoundedLognormal`, `RoundedMock`
* `mockfactory/lagrangian_mock.py`
  * `LagrangianLinearMock.set_real_delta_field`: `HalfMesh`, `Mesh`, `MockObject`
  * `LagrangianLinearMock.readout`: `Mesh`
  * `LagrangianLinearMock.poisson_sample`: `InPlace`, `Mesh`, `MockObject`, `Rounded`
  * `LagrangianLinearMock.set_rsd`: `InPlace`, `Mesh`, `MockObject`
  * `LagrangianLinearMock.to_catalog`: `InPlace`, `MockObject`
* `mockfactory/make_survey.py`
  * `rotation_matrix_from_two_vectors`: `InPlace`, `Isometry`, `RoundedTwoVectors`, `Vec`
  * `rotation_matrix_from_vector_angle`, `_get_los`: `Isometry`, `RoundedIsometry`
  * `_make_array`: `Box`, `Vec`
  * `EuclideanIsometry.__init__`: `Alias`, `Isometry`, `Vec`
  * `EuclideanIsometry.is_identity`: `Isometry`
  * `EuclideanIsometry.transform`: `Isometry`, `RoundedIsometry`, `Vec`
  * `EuclideanIsometry.dot`, `EuclideanIsometry.reset_rotation`: `Alias`, `Isometry`, `RoundedIsometry`, `Vec`
  * `EuclideanIsometry.rotation`: `Alias`, `Isometry`, `RoundedIsometry`, `RoundedPlacement`
  * `EuclideanIsometry.translation`, `EuclideanIsometry.reset_translate`, `EuclideanIsometry.concatenate`, `EuclideanIsometry.extend`: `Alias`, `Isometry`, `RoundedIsometry`
  * `EuclideanIsometry.__radd__`, `EuclideanIsometry.__iadd__`, `EuclideanIsometry.__add__`: `Alias`, `Isometry`
  * `box_to_cutsky`: `Cutsky`, `RoundedOpenings`
  * `cutsky_to_box`: `Cutsky`, `RoundedLayout`, `RoundedPlacement`
  * `DistanceToRedshift.__init__`, `DistanceToRedshift.__call__`, `TabulatedRadialMask.convert_to_cosmo`: `Radial`
  * `RedshiftDensityInterpolator.__init__`: `Mpi`, `Radial`, `RadialDensity`, `RoundedDensity`
  * `RedshiftDensityInterpolator.__call__`: `RadialDensity`
  * `ParticleCatalog.__init__`, `ParticleCatalog.from_dict`, `ParticleCatalog.vectors`, `ParticleCatalog.translational_invariants`, `ParticleCatalog.position`, `ParticleCatalog.velocity`, `ParticleCatalog.position`, `ParticleCatalog.velocity`, `CutskyCatalog.isometry`: `Box`
  * `ParticleCatalog.distance`: `Box`, `Sky`
  * `ParticleCatalog.rsd_position`: `RoundedRsd`, `Sky`
  * `BoxCatalog.__init__`, `BoxCatalog.from_dict`, `BoxCatalog.remap`, `BoxCatalog.pad`: `Alias`, `Box`
  * `BoxCatalog.translate`, `BoxCatalog.recenter`: `Alias`, `Box`, `RoundedMoves`
  * `BoxCatalog.rotate`: `Alias`, `Box`, `RoundedMoves`, `Vec`
  * `BoxCatalog.boxsize`, `BoxCatalog.boxsize`, `BoxCatalog.boxcenter`, `BoxCatalog.boxcenter`, `BoxCatalog.glos`: `Alias`
  * `BoxCatalog.subbox`: `Alias`, `Box`, `RoundedBox`
  * `BoxCatalog.isometry_for_cutsky`: `Cutsky`, `CutskyCall`, `RoundedLayout`, `RoundedOutputs`, `RoundedPlacement`
  * `BoxCatalog.cutsky_from_isometry`: `CutskyCall`, `Mask`, `RoundedCutsky`, `RoundedOutputs`
  * `BoxCatalog.cutsky`: `CutskyCall`, `RoundedOutputs`
  * `RandomBoxCatalog.__init__`: `Mask`, `Mpi`, `RandomCall`, `RoundedMask`, `Vec`
  * `RandomCutskyCatalog.__init__`: `Mask`, `Mpi`, `RandomCall`
  * `BaseMask.__init__`, `MangleAngularMask.__init__`, `HealpixAngularMask.__init__`: `MaskInit`
  * `BaseMask.is_mpi_root`: not modelled: only used for messages and reading of files
  * `BaseMask.prob`: not modelled: abstract
  * `BaseMask.__call__`: `Mask`, `MpiErrors`, `PoissonRanks`, `RoundedCutsky`, `Seeds`
  * `MaskCollection.prob`, `UniformRadialMask.prob`, `BaseAngularMask._mask_ranges`: `Mask`
  * `BaseRadialMask.__init__`: `Mask`, `Mpi`
  * `BaseRadialMask.sample`: `Mask`, `Mpi`, `RadialScript`, `Seeds`
  * `UniformRadialMask.__init__`, `UniformAngularMask.__init__`: not modelled: stores its argument
  * `TabulatedRadialMask.__init__`: `MaskInit`, `Mpi`, `Radial`, `RadialSpline`
  * `TabulatedRadialMask.prepare`: `Mpi`, `Radial`, `RadialSpline`
  * `TabulatedRadialMask._set_interp`, `TabulatedRadialMask.prob`: `Radial`, `RadialSpline`
  * `TabulatedRadialMask.zmask`: `RadialIntegral`
  * `TabulatedRadialMask.integral`, `TabulatedRadialMask.normalize`: `Mpi`, `Radial`, `RadialIntegral`
  * `BaseAngularMask.__init__`, `UniformAngularMask.prob`: `Mask`, `RoundedMask`
  * `BaseAngularMask.sample`: `Mask`, `Mpi`, `RoundedMask`, `Seeds`
  * `MangleAngularMask.prob`: `Mask`, `MaskInit`
  * `HealpixAngularMask.prob`: `Mask`, `MpiErrors`
  * `Base2DRedshiftSmearing.__init__`: `SmearSample`
  * `Base2DRedshiftSmearing._set_interp`, `Base2DRedshiftSmearing.average`, `RVS2DRedshiftSmearing.__init__`: `SmearSample`, `Smearing`, `Tracer`
  * `Base2DRedshiftSmearing.ppf`: `SmearSample`, `Tracer`
  * `Base2DRedshiftSmearing.is_mpi_root`: not modelled: only used to choose the rank that gives the arrays
  * `Base2DRedshiftSmearing.sample`: `PoissonRanks`, `SmearSample`
  * `TabulatedPDF2DRedshiftSmearing.__init__`: `SmearSample`, `Smearing`
* `mockfactory/remap.py`
  * `_make_array`: not modelled: same code as in `make_survey.py`
  * `vec3`, `Plane.normal`, `Cell.__init__`, `gcd`, `coprime_triples`: `Remap`
  * `dot`: `RoundedRemap`, `Vec`
  * `square`: `Vec`
  * `norm`, `Plane.__init__`, `Plane.test`, `Plane.test_unit_cube`, `Cell.isin`, `Cuboid.__init__`, `Cuboid.generate_lattice_vectors`: `Remap`, `RoundedRemap`
  * `det3`: `Remap`, `Vec`
  * `orthogonalize`: `Remap`, `RoundedRemap`, `Vec`
  * `Cell.__repr__`: not modelled: display
  * `Cuboid.transform`: `InPlace`, `Remap`, `RoundedRemap`
  * `Cuboid.inverse_transform`: `InPlace`, `Remap`, `Rounded`
* `mockfactory/utils.py`
  * `is_sequence`: not modelled: type test; the cases are separate in the types of arguments
  * `distance`: `Rounded`
  * `wrap_angle`: `Rounded`, `Sky`
  * `cartesian_to_sky`: `Rounded`, `RoundedSky`, `Sky`
  * `sky_to_cartesian`: `RoundedSky`, `Sky`
  * `radecbox_area`: `Sky`
  * `vector_projection`: `RoundedRsd`, `Sky`
  * `_rescaling_parser`, `trunccauchy_gen._argcheck`, `trunccauchy_gen._pdf`, `trunccauchy_gen._cdf`, `trunccauchy_gen._ppf`: `TruncCauchy`
  * `trunccauchy_gen._attach_argparser_methods`, `truncnorm_gen._attach_argparser_methods`: not modelled: hook of scipy; its effect is `_rescaling_parser`
  * `trunccauchy_gen._get_support`: not modelled: returns its arguments
<!-- end functions -->

## Where the code does not have the property

Theorems with a concrete witness, one per defect found.

<!-- refuted -->
* `C04_rotation_current_violated`: is violated: `rotation` ignores `frame='current'` (`make_survey.py:158`). Translate by (1, 0, 0), then rotate by 180 degrees about 'z' in the 'current' frame: the image of the origin jumps from (1, 0, 0) to (-1, 0, 0).
* `C07_violated`: is violated for antiparallel vectors: the identity is returned (`make_survey.py:34-35`).
* `C08_zero_add_violated`: refuted for the shallow `copy`: `x = EuclideanIsometry(); y = 0 + x; y.translation(1.)` also translates `x`.
* `C09_no_axis_violated`: refuted for the default `axis=None` (documented as "angle is applied to all axes"): the box is turned about the diagonal (1, 1, 1), the box size and centre do not follow, and a particle of the box ends up outside.
* `C102_crossing_violated`: fails for ranges that go through RA 0 given as (-60, 40): no point has an RA between 0 and 40, which is 40% of the range, whatever the numbers of rounds.
* `C107_disp_violated`: fails for displacements along the last axis on meshes with an odd number of cells: a wave along z, held by one mode only, gives no displacement at all, and half of the displacement with all modes.
* `C107_local_violated`: On meshes of real type too, distortions along local lines of sight are wrong with an odd number of cells a side (see `C42_local_odd_violated`): something is added at a node where the line of sight is perpendicular to the only wave of the field.
* `C108_arrays_violated`: **C108 is violated.** The arrays of the docstring's example hold other numbers after the call: they are normalised in place (`make_survey.py:28-29`).
* `C108_integers_violated`: **C108 is violated.** Integers raise `TypeError` (`make_survey.py:28-29`), and when only the second vector holds integers, the first one has been changed already.
* `C108_remap_violated`: **C108.** Remapping accepts arrays of integers for velocities; for positions they raise `TypeError` (`remap.py:278`, `:315`); floats are remapped.
* `C109_shared_violated`: **C109 is violated** if catalogs keep the arrays they are given: `set_rsd` adds to the positions of Lagrangian mocks in place (`lagrangian_mock.py:156`), and the catalog exported before then holds other positions.
* `C110_collection_violated`: **C110 is violated** by collections: no dictionary can be given to the constructor.
* `C110_healpix_violated`: **C110 is violated** by Healpix masks: a file with any range, or communicator, is refused.
* `C110_mangle_violated`: **C110 is violated** by Mangle masks: given polygons, as documented, no direction has a probability.
* `C110_tabulated_violated`: **C110 is violated** by tabulated masks: a file alone is refused, `z` being a required argument.
* `C111_end_violated`: is violated at the upper end: an angle just below 0 is wrapped to 360, not below it, in double precision. Wrapping again gives 0: the function is not idempotent.
* `C111_single_violated`: is violated in single precision for radians: an angle just below 0 is wrapped to more than a turn.
* `C112_end_violated`: is violated at the upper end: in a box from -500 to 500, a particle just below the lower face is put on the upper face, which is not part of a periodic box.
* `C112_remap_end_violated`: is violated at the upper end for `Cuboid.inverse_transform` too.
* `C113_underflow_violated`: is violated with underflow: at a distance of 2 ^ -600 the distance is zero and the declination `nan`, although the position is not the origin.
* `C114_gap_violated`: what happens instead: rounding errors leave gaps between cells. In double precision, with lattice vectors (2, 1, 0), (1, 1, 0), (0, 0, 1) and the default box, every catalog with a position (1/4, 1/8 - 3/2^56, z) raises `CuboidError`, whatever z in [0, 1]; in exact arithmetic all catalogs in the box are remapped.
* `C115_turn_violated`: is violated by ranges of a full turn: with rounding errors, a mask for the right ascensions from 30 to 390 degrees selects nothing farther than 2^-41 degrees from 30, where exact arithmetic selects all from 30 to 360; and random directions drawn for this mask are all within 2^-41 degrees of 30.
* `C116_end_violated`: is violated at the upper face: the largest draw in the box [0, 1200) gives the position 1200.
* `C117_same_size_violated`: fails for "one entry per size of the remapped box": in double precision two triples giving boxes of the same size are listed under two keys.
* `C118_negative_violated`: violated: with order 3, the default, the density of objects of weight 1 can be negative between the centres of bins.
* `C119_center_violated`: violated: with default arguments the box size is that of `attrs` and the box centre is not, for each centre of `attrs` other than zero.
* `C11_double_shift_violated`: Double shift: `transform` shifts positions in place while it loops over the cells, so that a position already moved into the cuboid can be found in a later cell and moved out.
* `C11_flipped_violated`: Sign-flipped axes: the only tile has no face, it is skipped as trivial, and the default cell (no shift) is used.
* `C121_file_violated`: fails if the file cannot be read: rank 0 raises, all other ranks wait for ever.
* `C122_blinding_violated`: fails for blinding: `shuffle`, and `png` of positions, wait for ever for ranks of the current communicator that do nothing of the kind.
* `C122_bricks_violated`: fails for quantities of bricks: ranks of the communicator wait for ever for a rank of the current communicator that does nothing of the kind.
* `C122_density_mixed_violated`: fails for densities with default bins: if two groups of ranks estimate densities at the same time, each on its communicator, the width of bins of each is that of the number of redshifts of both, which is smaller than it should be.
* `C122_density_violated`: fails for densities with default bins: they wait for ever for ranks of the current communicator that do nothing of the kind.
* `C122_mock_same_violated`: fails for mocks without seed: if two groups of ranks make a mock each at the same time, on their own communicators, both mocks are the same.
* `C122_mock_violated`: fails for mocks without seed: if a rank of the current communicator, which need not belong to that of the mock, makes no call on the current communicator, the ranks that make a mock wait for ever, and so do those that add white noise. (Some implementations of MPI only wait for the first rank of the communicator in a broadcast: take `q` to be that one.)
* `C124_bricks_violated`: fails for quantities of bricks: if there are more ranks than objects, a column that is not known raises `ValueError` on some rank, and there is a rank, without objects, that waits for ever.
* `C124_fiber_violated`: fails for fiber assignment: if, in some pass, the assignment raises on a rank, the ranks on which it does not wait for ever.
* `C124_healpix_violated`: fails for Healpix masks: a declination that is not a number, or above 90, raises `ValueError` on its rank, ranks whose declinations are between -90 and 90 wait for ever.
* `C124_mask_violated`: fails for calls of masks: if the probabilities cannot be computed on a rank, the ranks where they can wait for it for ever.
* `C124_poisson_violated`: fails for Poisson sampling: if the mean is negative in a cell and rank `a` draws in the same chunk, rank `a` raises `ValueError`; a rank `b` that draws in chunks without negative means waits for it for ever.
* `C125_above_violated`: is violated above the box: in the box of side 1000 around the origin, with 300 cells along each axis, the largest draw in the last cell gives a position above 500.
* `C125_end_violated`: is violated at ends of cells, also where nodes are floats: in the box of side 1000 around the origin, with 128 cells along each axis, the largest draw in the last cell gives 500, the upper face of the box.
* `C126_range_violated`: is violated. The errors of density `4 * x ^ 3` between 0 and 1, tabulated at four values, are accepted, but a draw of 1/2 gives a negative error, at all redshifts, below the error that a draw of 1/3 gives.
* `C127_next_violated`: fails: samples with consecutive seeds have all their points in common but those kept in the first round.
* `C127_same_seed_probability_violated`: fails for masks called with the same seed: the probability that both keep a row is the smaller of the probabilities, above their product as soon as none of them is 0 or 1.
* `C127_same_seed_violated`: fails for masks called with the same seed: both keep a row exactly if the one of smaller probability does.
* `C127_shared_violated`: fails for masks that keep only some of the points drawn: on one process, the sample with one seed is made of the points kept in its first `k` rounds and then of the points of the sample with that seed plus `k`, in the same order.
* `C129_opposite_violated`: is violated by vectors in nearly opposite directions: (10, 3, 1) and (-10, -3, -1 - 2⁻⁵²) are not antiparallel, and the exact rotation moves the first one to a vector of negative first coordinate, below -9. The matrix computed in double precision, whatever the order of summation, leaves its first coordinate unchanged, 10.
* `C12_volume_violated`: is violated for boxes with different sides: the volume of the remapped box is not that of the original one.
* `C130_pole_violated`: is violated near the poles: at a distance of 2 ^ 27, an object at 1 from the axis comes back on it, whatever the functions of the C library, right up to 2 ^ -49: `arcsin` cannot tell `z / dist` from 1.
* `C132_whole_violated`: fails for the range from 0 to 1: with a box of size 1.1 centred at 10, a particle strictly inside the box is lost.
* `C133_rotate_violated`: turned by a quarter turn, a cubic box of side 1000 has a side of 999.9999999999999, and a particle on its edge is out of it (cosine and sine are rounded to nearest).
* `C135_default_violated`: is violated with the default rule: for some redshifts and width of bins the object of highest redshift is above the last edge, hence in no bin. The division by the width rounds down to a whole number of bins.
* `C135_weights_violated`: is violated with weights: the weight of a bin, the difference of two cumulative sums, may be 0 although an object of the bin has a positive weight.
* `C138_default_violated`: fails with default margins, in double precision: a box of size 3000 has room for eight surveys of distances from 0 to 360 along the x axis, yet, whatever the other axes, the centre and the angles, an `AssertionError` is raised. In exact arithmetic there are sub-boxes.
* `C14_maxcomb_zero_violated`: is violated with `maxcomb=0`: one triple is listed nevertheless.
* `C14_once_violated`: is violated as for "each triple once": `itertools.permutations` of a coprime triple with equal entries repeats vectors, so that the identity lattice is listed several times.
* `C17_large_violated`: refuted: factors above 2 are not supported.
* `C17_lost_violated`: refuted: with the default factor 1.1, `pad` loses the particle at the centre of the box.
* `C17_repeated_violated`: refuted: with factor 1 each particle comes three times.
* `C18_shared_pad_violated`: refuted if `copy` shares the arrays: `pad(2)` doubles the box size of the catalog it is called on.
* `C19_free_external_violated`: limits of the layout: leaving only the external margin free fails an internal assertion, although the sub-boxes would fit: a side of 10, sub-boxes of 3 and an internal margin of 0.5 (3 sub-boxes with margins of 0.25 around).
* `C19_free_internal_violated`: The same with the internal margin left free: a side of 10, sub-boxes of 3 and an external margin of 0.4.
* `C19_single_violated`: limits of the layout: without external margin, a single sub-box along an axis is put at an undefined position.
* `C20_outside_violated`: fails for an observer outside the box: the near corners of the ranges are in front of the box. With a box of size 3 × 6 × 6 and dmax = 5 the point at the minimum distance 5/2 and at the extreme RA and Dec is at x = 1.6, while the box starts at x = 2.
* `C20_wide_violated`: A box seen from outside whose transverse sides are larger than 2 dmax gets no ranges (arcsin of a number above 1), with an admissible minimum distance.
* `C21_corner_violated`: fails at the near corners of a survey with a minimum distance: RA and Dec in (-60, 60), distances in (1, 2).
* `C21_declination_violated`: fails for surveys away from the equator, even with dmin = 0: RA in (-90, 90), Dec in (0, 60).
* `C21_full_turn_violated`: fails for the full turn RA in (0, 360), taken for the single direction RA = 0: the returned box has no extent.
* `C21_wide_violated`: fails for RA ranges of more than 180 degrees: RA in (-120, 120), the direction RA = 90.
* `C22_integers_violated`: is violated when all the arguments are integers: the unit vector is truncated to integers.
* `C24_wrapped_violated`: is violated for RA ranges which wrap through 0, such as 300 to 40 degrees: the area is negative, while that of the same region written as 300 to 400 degrees is positive.
* `C25_callable_three_violated`: is violated for three particles and a callable factor: the result is silently wrong, here a displacement scaled by the value of `f` for another particle.
* `C25_callable_violated`: is violated for a callable factor: an array of shape (N, 3) is multiplied by one of shape (N,). For two, or four or more particles, and for none, the call raises.
* `C26_zero_violated`: fails as stated: a row of probability zero is kept when the draw is zero, a possible value in [0, 1).
* `C27_unregistered_violated`: fails as stated: rows whose label is not registered are kept, whatever the draws.
* `C28_crossing_violated`: fails for increasing ranges that go through RA = 0: the mask of (-60, 40) leaves RA = 20 out.
* `C28_turn_violated`: fails for ranges of a full turn that do not start at 0: (-180, 180) leaves RA = 0 out.
* `C29_clipped_violated`: violated. The range starts between a node with a high density and the next one: the probability at the outer node is clipped to 1 before interpolation, so that the probability never reaches 1 within the range, and is not proportional to the density: at the limit of the range the density is twice that at `z = 1`, the probability 1.5 times.
* `C29_cubic_violated`: violated for the default cubic interpolation: a non-negative table for which the probability is negative within the range, whatever the (positive) normalisation.
* `C29_narrow_violated`: violated. A range strictly between two nodes is rejected, although it is within the table and the density is positive.
* `C29_spline_hang_violated`: fails for tables on a parabola whose vertex is outside of the table, without `norm`, for any interpolation order at least 2 (the default included): unless the parabola takes its maximum over the table, up to a millionth of its amplitude, at the point `w` of the redshift range nearest to the vertex, or almost vanishes there, the search of the maximum leaves the table, divides zero by zero, and `TabulatedRadialMask(z, nbar, zrange)` never returns, nor raises.
* `C29_spline_negative_violated`: violated: with default arguments (order 3), the probability can be negative within the range.
* `C30_empty_violated`: fails if no point is requested: instead of no point, `sample` raises an exception.
* `C31_ranks_violated`: fails: with the same stream and the same decisions, the points differ with the number of ranks, even as sets.
* `C31_seed_violated`: fails: the decisions of the mask are made with draws that the seed does not determine, so that two runs with the same seed and the same ranks return different points, for a mask of constant probability 1/2.
* `C33_range_violated`: violated. Without sample, the integral is that of the probability over the range, and not the fraction that is selected of redshifts spread evenly over the range. Constant density over a range of length 2: `normalize(1)`, all objects, leaves a probability of 1/2 everywhere. Over a range of length 1/2, `normalize(3/4)` is rejected, although all fractions can be selected.
* `C33_unweighted_violated`: violated. Two objects without weights, all selectable: the target fraction 1/2 is a possible one, but only a quarter of the objects is selected.
* `C33_zero_violated`: violated. The target 0 is accepted, but gives `nan` (division by zero).
* `C34_list_violated`: fails for a list of isometries and other names: the option is lost.
* `C35_crossing_violated`: fails: for the range (-60, 40), all points have an RA between 300 and 360, none between 0 and 40.
* `C35_position_violated`: fails: the position column is not under the requested name.
* `C35_wrapped_size_violated`: fails: for the range (300, 40), the number of points derived from a density is negative.
* `C35_wrapped_violated`: fails. A density over the range (300, 40), which `UniformAngularMask` accepts as the 100 degrees through RA 0, raises.
* `C38_ignored_violated`: The documentation says that `cellsize`, if given with `nmesh`, sets `boxsize`: it is ignored if `boxsize` is given, so that the cells of the mock do not have the size asked for. Here 10 cells of size 3 asked for, in a box of size 100.
* `C38_lists_violated`: 3-vectors given as python lists are not handled like arrays: with a list `nmesh` and a float `cellsize`, or a list `boxsize` and a float `cellsize`, `TypeError` is raised.
* `C41_callable_violated`: With a callable `f` and other than 1 or 3 particles, `set_rsd` raises.
* `C41_rsd_violated`: After `set_rsd`, particles may be out of the box: positions are not wrapped. Here a box of size 2 around the origin, with the line of sight along x and `f = 1`: the position (0.9, 0, 0) of displacement (0.5, 0, 0) goes to (1.4, 0, 0).
* `C42_local_odd_violated`: On a mesh with an odd number of cells, terms of pairs of axes are wrongly left out. Here a wave with 3 cells a side: at the first node, the line of sight is perpendicular to the wave vector and nothing should be added.
* `C42_observer_violated`: At the observer the direction is undefined: with local lines of sight, an even number of cells and the box around the observer, the density contrast of one node is `nan`, for all fields.
* `C43_disp_odd_violated`: On a mesh with an odd number of cells, the mode at half the mesh size (rounded down) is removed but not its opposite: the displacement of a real field is not real.
* `C43_fixed_violated`: With a fixed line of sight that is not along an axis, and an even number of cells, the multipliers of opposite modes in the planes of the Nyquist frequency are different: the field added to a real field is not real.
* `C43_local_odd_violated`: On a mesh with an odd number of cells, the terms of pairs of axes are not real. Here 5 cells a side and the pair of axes x, y.
* `C43_power_violated`: With a line of sight that is not along an axis and an even number of cells, the Gaussian field of an anisotropic power spectrum is not real, for some noise. Here `P(k, mu) = mu²`.
* `C44_agree_violated`: With higher orders, the phases of all shifted grids differ from the shifts in real space.
* `C44_order_violated`: With orders of 3 or more, the phases do not match the shifts: all waves below the Nyquist frequency are damaged at all nodes, but those with frequencies of zero sum.
* `C45_default_call_violated`: The documented call `get_cosmo_blind(cosmo_fid)`, with default parameters and no redshift, raises `ValueError` unless the growth rate of the fiducial cosmology is given beforehand.
* `C45_density_violated`: With a redshift (which blinding the growth rate requires), the matter density is drawn around the density at that redshift, and passed as the density of today: the blinded cosmology is more than twenty sigmas away from the fiducial one.
* `C46_negative_redshift_violated`: An object of negative redshift (a local object) is sent to the opposite direction, at a positive redshift, even when the blinded cosmology is the fiducial one: here RA 0, Dec 0 and redshift -1 become RA 180, Dec 0 and redshift 1.
* `C48_equal_growth_violated`: With equal growth rates all objects are shuffled: here two objects exchange their distances.
* `C49_even_mesh_violated`: On meshes of even sizes the modes that `png` transforms back do not make a real field, because the largest frequency is kept: they contradict each other among the stored ones.
* `C49_positions_type_violated`: With `fnl = 0` objects do not move; yet positions are not returned as the input type, but always as Cartesian ones: for sky coordinates the output is not the input.
* `C49_shotnoise_bias_violated`: The contrast being divided by the bias (comment of `catalog.py:541`), the weights are `1 + φ (m / b1) δ'` and the contrast should become `δ + (m / b1) δ₀`: the factor was made for `m`, not for `m / b1`. The power at the pivot is never the expected one, here without redshift-space distortions and smoothing, as soon as there is noise.
* `C49_shotnoise_instance_violated`: Shot noise correction with a reconstruction instance always fails, the growth rate being undefined.
* `C49_shotnoise_zero_violated`: With shot noise correction, `fnl = 0` gives undefined weights to all objects, not unchanged ones.
* `C50_collective_violated`: If one rank leaves out one coordinate (`None`), it raises `TypeError` on its own and the others wait for ever.
* `C51_violated`: fails for tiles of one pass that overlap: a target is observed twice in a pass, which is written once.
* `C52_violated`: fails when some fibers do not work: a target that is observed, with a working fiber, is not flagged available, because the first fiber of the list that can reach it does not work.
* `C53_violated`: fails for tiles of one pass that overlap: a target is available through a tile that is not the first one found over it, and is counted by nobody.
* `C54_violated`: fails for tiles of one pass that overlap: how often a target is observed depends on how tiles are shared out between ranks.
* `C55_callable_violated`: fails: a callable with the documented arguments (positions, brick name, region) is never called with its region, and any call with such a callable raises.
* `C55_outside_violated`: fails for a position outside the image of its brick: instead of an error the call returns the value of the pixel at the opposite edge.
* `C55_types_violated`: fails when the type of a quantity depends on the brick, as that of a mask without `dtype` whose default is an integer and whose images hold floats: an object gets 1 where the value of its pixel is 1.5, because another object lies in a brick without image.
* `C58_above2d_violated`: violated. Supports bounded from below with different bounds: when accepted, the ppf of the first redshift is infinite everywhere, whatever the distribution.
* `C58_above_violated`: violated. For supports bounded from below only, all points but the first are infinite, so that the smearing is rejected for every distribution (`cdf` is 0 at the lower end and 1 at infinity), instead of being tabulated over its support.
* `C58_below2d_violated`: violated. Supports bounded from above with different bounds at different redshifts: all points of the first redshift are minus infinity, so that the smearing is rejected for every distribution.
* `C58_decreasing_violated`: violated. Decreasing errors (as are those used for supports bounded from below): the bounds of the clipping are in the wrong order, and the tabulated ppf is the last error, whatever the distribution.
* `C58_gap_violated`: violated. A non-negative pdf that vanishes between two errors (a distribution with two separate parts) is accepted by the tabulation, but then rejected: the cumulative probability is not strictly increasing.
* `C59_center_error_violated`: An unknown name is not rejected with the `ValueError` that the function builds: the error is that of a variable without value.
* `C59_center_inside_violated`: The centre of N+SNGC is not in the region.
* `C59_cover_violated`: Without `regressis`, a position at declination 32.375 is in no region.
* `C59_names_violated`: The two functions do not know the same names: `N+DN` has a centre and no mask, `DES` has a mask and no centre, and the lower case name `n` has a mask and no centre.
* `C59_union_violated`: Without `regressis`, the region N+SNGC has no position of N, and has positions that are neither in N nor in SNGC.
* `C63_rejected_violated`: is violated by `dot` with an unknown frame: the rotation is registered, then the exception raised (`make_survey.py:126-130`).
* `C64_displacement_violated`: is violated for boxes with different sides: positions are stretched by `cuboidresize` after the projection, velocities are only projected.
* `C65_foreign_cuboid_violated`: refuted when a `Cuboid` built for another box is passed: nothing checks its box size; the returned catalog claims a box 64 times larger, and the particle at the centre of the box is not at the centre any more although the lattice is the identity.
* `C67_odd_violated`: On a mesh with an odd number of cells, there is no Nyquist frequency, but the modes of positive largest frequency are left out: the divergence of the displacement is not minus the density contrast. Here 3 cells a side and the fundamental mode.
* `C69_compensate_violated`: `LagrangianLinearMock.readout` ignores `compensate`: there are fields, nodes and resamplers for which the parent class compensates and it does not.
* `C69_constant_violated`: The field 'nbar' cannot be read when the selection function was set to a constant.
* `C70_empty_violated`: Where the selection function vanishes, as outside of the survey, the density contrast is not a finite number after white noise is added.
* `C71_root_weights_violated`: Weights given with `mpiroot` are not scattered as positions are: with two ranks, the first one raises, the other waits.
* `C72_ops_violated`: `DESI_SPECTRO_REDUX` set and `DESI_SURVEYOPS` unset: it stays unset, no default is given.
* `C72_redux_violated`: `DESI_SPECTRO_REDUX` unset and `DESI_SURVEYOPS` set: the tile files of the reductions are looked for in the directory of the survey operations.
* `C73_violated`: With `return_tile_index` the function returns rows of the selected table, not tile identifiers: here the tile 1000 is returned as 0.
* `C74_input_violated`: The catalog of the caller is changed: it receives the column `HPX`.
* `C75_single_size_violated`: fails: with exact arithmetic all the lattices the script accepts give the same box size, which makes one key in the dictionary; the script takes the second key, and `remap_the_box` raises `IndexError` on every catalog, in whatever order python goes through the set of coprime triples. Which lattices appear under a second key is decided by rounding errors.
* `C76_keyword_violated`: fails: `cartesian_to_sky` has no keyword `wrap`, and `apply_rsd_and_cutsky` never returns a catalog; it raises `TypeError` whenever the same steps without the keyword would return one.
* `C77_caller_violated`: fails for the catalog of the caller: with smearing, its column 'Z' is overwritten.
* `C77_default_range_violated`: fails with the default arguments `zmin=0., zmax=6.`: a table whose first bin is centred above 0, or the last below 6, such as the one in the repository, is always refused.
* `C77_gap_violated`: fails if there is a gap between two bins: the volume of the gap is counted in the next bin. With constant density and bins (0, 1), (2, 3), (3, 4) the density of the second bin is 19/26 instead of 1.
* `C77_hang_violated`: fails for some tables and ranges narrower than the table: `apply_radial_mask` never returns, nor raises, whatever the catalog. Here bins centred on 1, 2, 3, 4 with densities 9, 16, 21, 24 and the range from 1 to 3.
* `C77_max_violated`: fails for the claim that as many objects as possible are kept: the largest probability inside of the range may be lower than one, as the maximum is searched over the whole table. Here the range holds the first two bins, and at most three quarters of the objects are kept at any of their centres.
* `C78_uncertainty_violated`: fails for unknown types of uncertainty: QSO raise `TypeError` or `NameError` according to whether a file is given, and other tracers ignore them; with a file, 'clustering' is accepted for tracers for which it is said not to exist.
* `C78_unknown_tracer_violated`: fails for unknown tracers: the message that the smearing does not exist is never shown for a table with rows, an undefined variable is used before.
* `C80_eulerian_violated`: fails: the run in the documentation of `EulerianLinearMock` raises `AttributeError` in `poisson_sample`, for all arguments: the selection function is not set.
* `C80_lagrangian_violated`: fails: same for the run in the documentation of `LagrangianLinearMock`, where `set_rsd` then raises too.
* `C80_names_violated`: fails: keyword `interlaced` and field '1+delta' of the documentation of `BaseGaussianMock` raise.
* `C80_positional_violated`: fails: `BaseGaussianMock(power, boxsize, nmesh)`, as in the documentation of the three classes, gives a box of size `nmesh` with `boxsize` cells.
* `C81_violated`: fails: whatever the array, `ArrayMesh` never returns a mesh. It raises `ValueError` if the mesh size is missing and cannot be guessed, otherwise `NameError`.
* `C85_covariance_violated`: fails for the covariance script: the names of catalogs use a variable that is not set on import, hence `NameError` as soon as there is a mock to be read.
* `C85_mock_fn_violated`: fails with `--mock_fn`: the script raises `NameError` at the first group of the first mock, and writes nothing.
* `C91_shared_violated`: fails for surveys away from the equator: the sub-boxes are too small for the survey, and an object is put in two catalogs. Distances from 0 to 1, RA from 0 to 180, Dec from 0 to 60, and a box of two sub-boxes: its only object is at distance 1, RA 180 and Dec 60 in one catalog, and at RA 135, Dec 0 in the other.
* `C93_bigfile_violated`: fails with bigfile in a directory that has a dot in its path: nothing is read.
* `C93_ignored_violated`: fails: sky targets loaded before have no effect on the run, which is the one without them, with sky targets read again from disk.
* `C93_labels_violated`: fails if the table of tiles is in another order: a sky target on tile 5 is said to be on tile 3.
* `C93_not_used_violated`: fails: the run with sky targets loaded before is not the run with these sky targets. Here there is none on disk.
* `C93_repeated_violated`: fails if a tile is listed twice in the table of tiles: a sky target on the second of them raises `IndexError`.
* `C94_more_ranks_violated`: fails in the earlier version when there are more ranks than tiles in a pass in which some target takes part: whatever the exchange of rows, some ranks wait for others inside the assignment while others do not enter it, and the pass does not end.
* `C95_communicator_violated`: is violated: the number of objects of the rule is counted over the processes of the default communicator: the edges are not the same when this number changes, for the same sample.
* `C95_highest_violated`: is violated: with a number of bins the density at the highest redshift of the sample is always zero.
* `C95_lowest_violated`: is violated: with bins chosen by the code the density at the lowest redshift of the sample is always zero.
* `C95_small_violated`: is violated: the default constructor (Scott's rule, cubic spline) fails for all samples of at most 11 redshifts.
* `C96_errors2d_violated`: is violated: errors in two dimensions, as documented: refused for more than two redshifts; for two redshifts the percent points of the first redshift are all equal to its last error, whatever the distribution.
* `C97_redshifts_violated`: is violated: the redshifts of the averaged smearings are not compared: a smearing given at any other redshifts is averaged as if it were given at those of the first.
* `C97_transform_violated`: is violated: output transforms are compared at the numbers of the table, before they are transformed to the support: another output transform `f` which is the same at these numbers only is accepted, and not used.
* `C98_ds_violated`: fails for the region DS, centred at RA = 6.4: if the box is seen beyond RA = 0, all randoms are West of it, and none where the centre of the box is, although the data are on both sides (`C98_centre`).
* `C98_empty_violated`: fails for a region without data (before the footprint cuts): the data file is written, then the program ends with an exception.
* `C98_program_violated`: fails: the program writes no file at all, it ends with the exception of the first region.
* `C98_stops_violated`: fails: the same, for the whole program without the keyword `wrap`.
* `C99_again_violated`: fails for a folder that was written before with more files: its last files are not replaced, and their rows come again. Here two sky targets, written first in two files, then in one: the second one is read twice.
* `C99_same_base_violated`: fails for two directories with the same base: what comes from the first one is lost.
<!-- end refuted -->

## Plan per property

| id | what is modelled | how it is proved |
|----|------------------|------------------|
| C01 | `EuclideanIsometry` as (matrix, vector); `concatenate`, `__add__`, `extend` as folds | induction on the list, matrix algebra by `ring` |
| C02 | operations as a datatype, `run` over a list | invariant RᵀR = 1, det R = 1 by induction on the history |
| C03 | `transform` with the flag | algebra; corollary of C02 for norms |
| C04 | `translation`, `rotation`, `dot` with `frame` | algebra; `rotation` ignores `frame`: refuted with a witness, rest `_partial` |
| C05 | `reset_rotation`, `reset_translate` | algebra with the orthogonality invariant |
| C06 | `rotation_matrix_from_vector_angle`, `_get_los` over ℝ | trigonometric identities, `nlinarith/ring` |
| C07 | `rotation_matrix_from_two_vectors` | algebra; antiparallel vectors refuted, rest `_partial` |
| C08 | heap of arrays, shallow copy, in-place updates | refuted with a history; `_partial` for two-operand addition |
| C09 | `BoxCatalog` with rows; `translate`, `recenter`, `rotate` | induction on the history; `axis=None` refuted |
| C10 | `Cuboid` construction (planes, cells) and `transform`, `inverse_transform` | fundamental-domain argument, limit argument on cell faces |
| C11 | same | refuted with a concrete lattice (double shift, sign-flipped identity); `_partial` when only one cell matches |
| C12 | `cuboidsize`, `cuboidresize` | determinant identities for cubic boxes; non-cubic refuted |
| C13 | `orthogonalize` | algebra |
| C14 | enumeration as list functions, dictionary as association list | soundness/completeness by membership; duplicates refuted |
| C15 | `gcd` loop, `coprime_triples` | well-founded recursion, equality with `Int.gcd` |
| C16 | `subbox` | filter characterisation |
| C17 | `pad` as written (product of one list of shifts) | refuted; `_partial`: every row is an image in the padded box |
| C18 | heap model of `copy` and in-place `*=` | case split on copy semantics |
| C19 | `isometry_for_cutsky` layout per axis with all branches | algebra on the returned centres; assertion/nan branches exhibited |
| C20 | `box_to_cutsky` | real trigonometry; refuted outside, `_partial` inside |
| C21 | `cutsky_to_box` | real trigonometry; refuted, `_partial` |
| C22 | `cartesian_to_sky`, `sky_to_cartesian` with `Complex.arg` as arctan2 | Mathlib `Complex.arg` lemmas; integer dtype refuted |
| C23 | `wrap_angle` | floor arithmetic |
| C24 | `radecbox_area` | algebra, monotonicity of sin; wrapped range refuted |
| C25 | `vector_projection`, `rsd_position` with numpy broadcasting of a callable f | algebra; callable refuted |
| C26 | `BaseMask.__call__` with arbitrary draws | order; draw 0 refuted |
| C27 | `MaskCollection.prob` as fold over the dict | induction; unregistered label refuted |
| C28 | `UniformRadialMask`, `BaseAngularMask.__init__/_mask_ranges`, `UniformAngularMask` | floor arithmetic; wrapped direct ranges refuted |
| C29 | piecewise-linear interpolation, `prepare`, `_set_interp`, `prob`; splines of order ≥ 2 as any function meeting the contract `SplineOk` | convexity; clipped edge and cubic splines refuted |
| C30 | `sample` loop over rounds with rank layout | loop invariant, list algebra |
| C31 | same with explicit hidden stream | refuted; `_partial` for masks with probability 0/1 and one round |
| C32 | `convert_to_cosmo` | algebra |
| C33 | `integral`, `normalize` | monotone/continuous, intermediate value theorem |
| C34 | rows with named columns; `cutsky_from_isometry` | list algebra; list input refuted |
| C35 | `RandomBoxCatalog`, `RandomCutskyCatalog` | interval arithmetic; hard-coded column and wrapped range refuted |
| C36 | `np.histogram`, bin construction, reduction | counting lemma by induction |
| C37 | linear interpolation on (distance, z) nodes | piecewise-linear lemmas |
| C38 | constructor branches | case analysis |
| C39 | lognormal transform on lists | positivity, sum algebra |
| C40 | `poisson_sample` with arbitrary counts and draws | list algebra, interval arithmetic |
| C41 | periodic wrapping, `set_rsd` | floor arithmetic; after `set_rsd` refuted |
| C42 | mode multipliers | algebra |
| C43 | multipliers on all modes, field real iff modes Hermitian | modular arithmetic; odd mesh and oblique line of sight refuted |
| C44 | offsets and phases of the interlacing loop, waves sampled on shifted grids | induction, linearity, roots of unity; order ≥ 3 refuted |
| C45 | draw to parameter map | interval arithmetic |
| C46–C50 | blinding functions on lists of positions | algebra, permutations; `f_blind = f_fid` shuffle refuted |
| C51–C54 | fiber assignment as state transitions over rows, ranks as lists | induction on tiles and passes, permutations |
| C55 | group by brick, scatter back | permutation/sorting lemmas |
| C56 | tile filter | case analysis |
| C57 | cdf/ppf with `Real.arctan`, `Real.tan` | monotonicity, inverse lemmas |
| C58 | cumulative sums, padding, average, grids | list induction; upper-infinite support refuted |
| C59 | region predicates | linear arithmetic; refuted parts |
| C60 | complex amplitude of modes | complex algebra |
| C61 | composition of the two conversions | real trigonometry |
| C62 | `is_identity` | algebra, evaluation on basis vectors |
| C63 | state returned with the error | case analysis; `dot` refuted |
| C64 | `Cuboid.transform` with the flag | algebra; non-cubic box refuted with an integrality argument |
| C65 | `BoxCatalog.remap` on rows | from C10, C12, C64; foreign `Cuboid` refuted |
| C66 | `_transform_rslab` with the coordinates of pmesh | arithmetic of representatives modulo the mesh size |
| C67 | displacement multipliers, Fourier transforms as sums | algebra on modes; odd mesh refuted |
| C68 | `_compensate_mesh` | bounds on the cardinal sine, Hermitian symmetry |
| C69 | `readout` of both classes, resampling of pmesh as parameter | case analysis on names; constants and ignored option refuted |
| C70 | `attrs['norm']`, `set_real_white_noise` | finite sums; empty cells refuted |
| C71 | `get_z` on lists of ranks | lists; weights with `mpiroot` refuted |
| C72 | import of `footprint.py` as a function of the environment | case analysis; refuted when one variable is set |
| C73 | rows returned by `is_in_desi_footprint` | contract of `desimodel`; identifiers refuted |
| C74 | `apply_photo_desi_footprint` on rows | lists |
| C75 | `remap_the_box` with any enumeration of the lattices | uniqueness of the accepted shape; refuted |
| C76 | `apply_rsd_and_cutsky` on rows | keyword refuted; geometry without it |
| C77 | n(z) table to mask nodes, `apply_radial_mask`, `generate_redshifts` | contract of the spline; refuted in part |
| C78 | tables, laws, smearing and average of `redshift_smearing.py` | tables and laws arbitrary |
| C79 | the mock object as a state machine: every public call, in any order | invariants over all histories of calls, then exact runs |
| C80 | the documented runs and argument order, on the same state machine | fails; the exact error of each documented run is proved |
| C81 | `ArrayMesh`: type and size guesses | fails on every array; the type guess is proved |
| C82 | `Fiber/FiberFiles`: filter, decimal names, files as functions of names | proved by list induction and injectivity of decimal notation |
| C83 | same model, with dictionaries and bit masks | proved by induction on rows and files |
| C84 | `Sv3`: rows, dictionaries, group check | proved by induction on the table and the groups |
| C85 | file names as lists of characters; scripts as sequences of reads and writes | fails (undefined names, missing randoms); injectivity and the chain with the name defined are proved |
| C86 | draws as arbitrary streams; law as Lebesgue measure on [0, 1) | proved by list induction and measure of an interval |
| C87 | edges as real lists | proved by closed forms |
| C88 | pair counts as real functions of group and bin | proved by finite sums |
| C89 | `Sv3Cut`: mean direction, remapping, isometries, redshift space positions of one group | from C04, C14, C19, C61, C65; axes of the survey turned by the angle |
| C90 | `Sv3Cut`: tiles, radial mask, mask bits | list induction, contract of `desimodel`, bits of integers |
| C91 | `CutskyCall.cutsky`: layout of sub-boxes, isometry, masks, sky columns, one or several outputs | exact rows of each output from the mask and isometry theorems; disjointness when the sub-box holds the survey; witness of an object in two catalogs otherwise |
| C92 | `FiberV0`: passes of the earlier version, any assignment of tiles, any exchange of rows | effect of a pass on each row from the exchange lemma, induction over passes |
| C93 | `FiberV0.readSkyTargets`, `assignInit`, `skyTile` | run with loaded sky targets equals the run without; labels right for sorted tiles, witnesses otherwise |
| C94 | `FiberV0.runCalls`, `runCalls0`, `weightCalls`: collective calls of a rank; a call goes through when all ranks are at it | a run ends iff all ranks make the same calls; exact condition for the earlier version, pigeonhole on tiles and ranks |
| C95 | `DensityInterp.init`, `call`: root scattering, Scott's rule, histogram, spline of scipy as a parameter (`SplineOk`) | exact spline through densities at centres, exact condition of success for each kind of bins, permutation invariance; zero at the lowest redshift, failure for at most 11 redshifts and dependence on other processes refuted |
| C96 | `Smear.tabulated`, `rvs`, `quantile`, `error`, `sample` (`Model/SmearSample`), scipy's splines as parameters | exact value at, between and outside of tabulated redshifts; induction over ranks for `sample`; percent points of the first distribution reproduced; errors given per redshift refuted |
| C97 | `Smear.average` on the same structure | weighted mean of tables, refused inputs; redshifts and output transforms not compared: refuted |
| C98 | main program of `from_box_to_desi_cutsky.py`, loop over regions, built from the models of C74-C77, C35; files are lists of rows | composition: rows of each file given exactly in terms of the box and draws (without the keyword `wrap`); the program as it is writes nothing, randoms of DS miss half of the region, regions without data: refuted |
| C99 | `_write_all_skytargets` of `fiber_assignment_v0.py` and `read_sky_targets` (C93), folders are lists of named files | names of files proved different, then induction on directories; lists of rows compared up to the order of files; two witnesses where rows are lost or doubled |
| C100 | `maskCall`, `cutskyFromIsometry` of C26-C29 with draws that are random variables (`Spec/Draws.lean`) | product formula for the chance of each selection, linearity of the integral, variance of independent sums |
| C101 | `sampleResult`, `StopsAfter` of C30 with random candidates and decisions | second Borel-Cantelli lemma for the end of the loop; sum over the numbers of rounds and over all patterns of decisions, each a product, for the law |
| C102 | `randomBox`, `randomCutsky` of C35 with random draws | laws of one draw transported by the formulas of C35, then independence; regions of any shape by change of variables with the Jacobian of the sampling map; ranges through RA 0: refuted |
| C103 | `TruncCauchy.rvs`, `getCosmoBlind`, `Smear.sample`, `Sv3.downsample`, `shuffle` with random draws | quantile functions are increasing and inverse to the distribution functions (C57, C96), blinded values are affine in the draw (C45); then independence of draws; expectations are linear over nested lists |
| C104 | `complexDelta`, `realDelta`, `eulerianRsd`, `whiteNoise` with a random noise | modes are noise times sqrt(P/V) (C60), characters of the discrete transform are plane waves; covariances are bilinear; the field is a linear map of the noise, so Gaussian if it is; Kaiser factor from C42; white Gaussian noise is constructed on any mesh |
| C105 | `poissonSample` with random counts and positions | the catalog is a list of cells that depends on counts only, one uniform position each; generating functional by Fubini, independence of triples of draws and the Poisson generating function; characteristic functions of the numbers in disjoint regions factorise; volumes by the change of variables from the unit cube to a cell |
| C106 | `complexDelta`, `realDelta`, `eulerianRsd`, `poissonSample` with random noise, counts and positions | a translation is a phase of modes; the field is a measurable function of noise that commutes with translations, so its law is invariant; the lognormal contrast sums to zero surely, hence zero mean at each node; first two factorial moments of the numbers of C105, averaged over the field |
| C107 | `c2rHalf`: transform that reads the modes held for real meshes; `realDeltaHalf`, `dispHalf`, `eulerianRsdHalf` | pairing of modes with their opposites; modes of the result for any field; odd meshes: refuted |
| C108 | `rotation_matrix_from_two_vectors`, `Cuboid.transform` and `inverse_transform` with the type and container of their arguments; result and content of the arguments afterwards (`Model/InPlace.lean`) | Exact condition for the call to be harmless; arrays of floats are normalised in place, integers raise: `_violated` |
| C109 | Positions of mocks and of exported catalogs as references to arrays; `set_rsd` of Lagrangian mocks updates in place; whether `mpytools.Catalog` copies is a parameter (`Model/InPlace.lean`) | Invariant by induction on programs, against the list of positions exported at the time of each call; violated if catalogs share the array |
| C110 | constructors of `MaskCollection`, `TabulatedRadialMask`, `MangleAngularMask`, `HealpixAngularMask` with all their sources (`Model/MaskInit.lean`); files as their content, healpy keywords and the `mpicomm` wrapper as documented | Dictionary semantics by induction on assignments; ways that raise: `_violated` for all arguments |
| C111 | `wrap_angle` with each operation rounded to binary64 or binary32, ties to even, gradual underflow, no overflow (`Basic/Rounding.lean`, `Model/Rounded.lean`); `fmod` exact as required by C | Monotonicity and idempotence of rounding; constants computed exactly from bounds on pi; error bound by the sum of rounding errors; 360 itself is reached: `_violated` |
| C112 | wrapping of positions in `poisson_sample` of Lagrangian mocks and in `inverse_transform`, rounded | As C111; the upper face is reached: `_violated` |
| C113 | `distance` and `cartesian_to_sky` rounded; `asin` and `atan2` of the C library are arbitrary functions (`asin` within its range) | The square root of a rounded square is the number itself in base 2; monotonicity; underflow: `_violated` |
| C114 | `Cuboid.__init__` and `transform` with every operation rounded, in the order of the code (`Model/RoundedRemap.lean`) | Rounded tests are monotone in each product, so pruning of faces and tiles is harmless; error bound of a test; the default lattice never refuses a position; a gap between two cells in double precision: `_violated`, one rounding per lemma (`Lemmas/RoundedGap.lean`) |
| C115 | The range kept by an angular mask, `prob` and the draws of `sample`, rounded (`Model/RoundedMask.lean`) | Wrapping is monotone below a turn; error of one wrapping; (30, 390) evaluated: `_violated` |
| C116 | The positions of `RandomBoxCatalog`, rounded; draws are multiples of 2^-53 (numpy) | Monotonicity of rounding; relative error below the face; (0, 1200): `_violated` |
| C117 | `generate_lattice_vectors` and its use by the script, with each operation rounded | Same invariant of the loop as C14; two sizes evaluated operation by operation in double precision |
| C118 | `DensityInterp`, splines of order 1 and 3 determined by `SplinePieces` (`Spec/SplinePieces`, `Spec/CubicSpline`) | existence and uniqueness of the cubic spline from the diagonally dominant system of second derivatives, bound on second derivatives; negative densities refuted |
| C119 | `BoxCatalog.from_dict`: `Box.fromDict` | case analysis; centre of attrs with default arguments refuted |
| C120 | whole runs of Lagrangian mocks (`Mock.run`) with random noise, counts and positions | the catalog is the image of that of C105 by a measurable map, numbers in a region are numbers of C105 in its preimage; a translation of noise by cells translates the density contrast and the displacements, hence moves preimages from cell to cell up to the period of the box, which keeps volumes; images of cells partition space and the lognormal contrast sums to zero |
| C121 | programs of a rank with collective calls (`Model/Mpi.lean`): sampling loops, random catalogs, `normalize` with any root finder, tables read from files; machine of ranks with communicators (`Spec/Mpi.lean`) | diamond property of calls, hence the order does not matter; programs are well-founded, hence no infinite execution; induction on rounds and on the root finder; unreadable file refuted |
| C122 | same, for constructors of mocks, white noise, densities with default bins, `shuffle` and the end of `png`, with the current communicator where the code uses it | a rank that never calls blocks its communicator (invariant of executions); two groups of ranks composed; refuted, `_partial` for given seeds and bins and for the current communicator |
| C123 | `poisson_sample` rank by rank (`Model/PoissonRanks.lean`): `ravel`, draws of each rank, `unravel`, repetition, parallel sort, shifts; seeded calls of masks and smearings | the sort by node number makes the global order independent of the ranks; draws are indexed by global rows |
| C124 | calls of masks, `poisson_sample` (chunks of the stream), quantities of bricks, passes of fiber assignment and completeness weights as programs of ranks (`Model/MpiErrors.lean`), which may end with an error between two collective calls | ranks lead one another to the call where one raises; from there a call that waits for it can never complete, by the invariant of C122; where no rank raises, all end with the results of C55, C53, C54 and C123 |
| C125 | cell sizes, nodes, offsets in cells and the shift by the centre of `poisson_sample`, each operation rounded (`Model/RoundedMock.lean`) | rounding is monotone and keeps floats, which gives the lower face, and cells whose nodes are floats; the error of each operation is added for the bound; the cases outside are computed |
| C126 | both cubic splines of redshift smearings, with their values between nodes (`Model/SmearSample.lean` `columnSpline`, `tableSpline`, contract `SplinePieces`) | uniqueness of the cubic spline; polynomials are reproduced by both splines; distance of the spline to segments (C118) for the range; a table of four errors for the violation |
| C127 | seed of each round of `sample`, masks called with a seed, seeds of the script (`Model/Seeds.lean`) | seeds of the rounds are consecutive: samples further apart than the number of rounds share no point; on one process the sample of a seed is the points of its first rounds followed by the sample of a later seed (violation); laws of two decisions with one or two uniform draws |
| C128 | `EuclideanIsometry` and `rotation_matrix_from_vector_angle` with every operation rounded, products of arrays in any order of summation and with or without fused multiply-add (`Model/RoundedIsometry.lean`) | Frobenius norm of the distance to the exact rotation; each call multiplies one plus the relative error by a constant; induction on the history |
| C129 | `rotation_matrix_from_two_vectors` with every operation rounded (`Model/RoundedTwoVectors.lean`) | error of the vector product, of its direction, and of each entry: 1100 (1 + tan(θ/2)) rounding errors for vectors θ apart, below 3 10⁻¹³ in double precision up to 90 degrees; violation computed rounding by rounding for (10, 3, 1) and nearly its opposite |
| C130 | `cartesian_to_sky` and `sky_to_cartesian` with every operation rounded, and functions of the C library of any accuracy (`Model/RoundedSky.lean`) | error of each quantity by rounding errors of angles; the cosine of Dec from its sine; round trips both ways by the two, with angles from their sines; violation computed rounding by rounding for (1, 0, 2²⁷) |
| C131 | `rsd_position` and `vector_projection` with every operation rounded (`Model/RoundedRsd.lean`) | error of the direction, of the scalar product and of each product and sum; scalar products with one term only are exact, by induction on the sum |
| C132 | `BoxCatalog.subbox` with every operation rounded (`Model/RoundedBox.lean`) | rounding is increasing, so edges stay in order: each particle is in one interval of each axis; errors of edges, sizes and centres; violation computed rounding by rounding for a box of size 1.1 centred at 10 |
| C133 | `BoxCatalog.translate`, `recenter` and `rotate` with every operation rounded, and histories of calls (`Model/RoundedMoves.lean`) | products by the identity matrix are exact; errors of one call from C128; induction on the history with rotations that keep distances, for rows paired one by one; violation: cos and sin of the computed quarter turn from bounds on pi |
| C134 | `ap`, `shuffle` and `rsd` of blinding with every operation rounded (`Model/RoundedBlinding.lean`) | error of the computed distance from C113, then one rounding at a time; signs by monotonicity; the growth rates are compared through the gap between neighbouring floats |
| C135 | bin edges of `RedshiftDensityInterpolator` (`np.linspace`, default rule) and `np.histogram` by cumulative sums, with every operation rounded (`Model/RoundedDensity.lean`) | rounding is monotone, so are edges; the last multiple of the step is bounded by the highest redshift; cumulative sums of floats by induction, exactness of small sums; counterexamples from explicit floats |
| C136 | `StopsAfter` of C30 with random candidates and decisions, as in C101 | whether round k takes place depends on earlier rounds only, so is independent of its candidates: the mean number of candidates kept in rounds that take place is N p times the mean number of rounds; that number is at least N and at most 2 N - 1, round by round |
| C137 | `lognormalF`, `cellMeanF`, `countF`: each operation rounded; `IsSum` sums in any order of additions | rounding is monotone and keeps -1, 0 and integers plus one half; relative errors of sums of positive numbers by induction on the tree of additions; the case that a contrast is rounded to -1 is computed; the limit of numbers of objects is sharp for single precision |
| C138 | `axisLayoutF`, `centresF`: each operation rounded | relative errors of each step without underflow (sums and products of floats by integers have none); rescaled margins fill the box up to rounding; a box whose default margins fail the assertion in double precision is computed |
| C139 | `skyF`, `selectedF`, `cutskyRowsF`: each operation rounded, `arctan2` and `arcsin` accurate up to some error | a point of the plane near another is seen at nearly the same angle; C130 for the columns, C115 for the masks (with RA rounded to 360), C128 for the positions; rows by induction |
| C140 | `pointedRangeF`, `halfWidthF`, `cutskyBoxsizeF`, `cutskyOpsF`, `PlacedF`: each operation rounded | errors of each argument (C115 for wrapped angles, C138 for the size); rotations by close angles move points to close points; C128 for the calls, C139 for the masks |
| C141 | `OutputF`, `OutputsF`: the rounded centres of C138, the rounded isometries of C140 and the rounded masks of C139, for each output | a kept row is close to a point of the survey (C139), so to the image of a point of the sub-box (C140); sub-boxes are apart (C138) |
| C142 | `boxToCutskyF`: the branches of `box_to_cutsky`, with each operation rounded | sines and cosines of the half-openings are bounded with errors of quotients, arc sines and degrees; both ways, for points in the ranges and in the box |
