{"id": "C01", "title": "Isometry concatenation is composition", "statement": "For isometries a, b, the isometry a + b (or concatenate(a, b, ...), or a += b) transforms every vector as applying a first and then b, and so on for any number of isometries; the empty concatenation is the identity; concatenation is associative.", "quantifier": "all lists of isometries, all vectors", "why_tests_cant": "the list length, the accumulated matrices and the vectors are unbounded; a test only samples a few", "anchors": ["mockfactory/make_survey.py:EuclideanIsometry.concatenate", "mockfactory/make_survey.py:EuclideanIsometry.extend", "mockfactory/make_survey.py:EuclideanIsometry.__add__", "mockfactory/make_survey.py:EuclideanIsometry.transform"]}
{"id": "C02", "title": "Every history of registered operations is a rigid motion", "statement": "After any sequence of translation, rotation, dot(rotation matrix), reset_rotation and reset_translate calls, transform preserves distances between points and handedness, hence it is invertible.", "quantifier": "all finite sequences of operations with all arguments, all pairs of points", "why_tests_cant": "an invariant over unbounded histories", "anchors": ["mockfactory/make_survey.py:EuclideanIsometry"]}
{"id": "C03", "title": "Translational-invariant vectors only see the rotation", "statement": "transform(x) - transform(y) = transform(x - y, translational_invariant=True) for all points; in particular norms of velocities are preserved, and translation calls never change translational-invariant output.", "quantifier": "all isometries reachable by any history, all vectors", "why_tests_cant": "must hold for every history and vector", "anchors": ["mockfactory/make_survey.py:EuclideanIsometry.transform", "mockfactory/make_survey.py:CutskyCatalog.isometry"]}
{"id": "C04", "title": "Frames of translation and rotation", "statement": "translation(frame=\"origin\") adds the shift after the current isometry; translation(frame=\"current\") adds the shift before it; rotation(frame=\"origin\") applies the rotation after the current isometry, about (0,0,0); rotation(frame=\"current\") rotates about the current image of the origin, leaving it fixed.", "quantifier": "all isometries, shifts, angles, axes, vectors", "why_tests_cant": "algebraic law over all states", "anchors": ["mockfactory/make_survey.py:EuclideanIsometry.translation", "mockfactory/make_survey.py:EuclideanIsometry.rotation", "mockfactory/make_survey.py:EuclideanIsometry.dot"]}
{"id": "C05", "title": "Resetting undoes exactly the rotation or the translation", "statement": "After reset_rotation(\"origin\") the new isometry equals the old one followed by the inverse rotation about the origin; after reset_rotation(\"current\") it is the pure translation to the current image of the origin; after reset_translate only the rotation is left.", "quantifier": "all isometries reachable by any history, all vectors", "why_tests_cant": "needs orthogonality of the accumulated matrix in every reachable state", "anchors": ["mockfactory/make_survey.py:EuclideanIsometry.reset_rotation", "mockfactory/make_survey.py:EuclideanIsometry.reset_translate"]}
{"id": "C06", "title": "Axis-angle rotation matrices", "statement": "For every non-zero axis and every angle, the matrix is a proper rotation that fixes the axis, turns orthogonal vectors by the angle (right-handed), angles about the same axis add, and full turns are the identity.", "quantifier": "all axes and angles", "why_tests_cant": "real-valued domain", "anchors": ["mockfactory/make_survey.py:rotation_matrix_from_vector_angle", "mockfactory/make_survey.py:_get_los"]}
{"id": "C07", "title": "Rotation between two vectors", "statement": "For all non-zero a, b the returned matrix is a proper rotation that maps the direction of a to the direction of b.", "quantifier": "all pairs of non-zero vectors", "why_tests_cant": "the corner cases (parallel, antiparallel) have measure zero", "anchors": ["mockfactory/make_survey.py:rotation_matrix_from_two_vectors"]}
{"id": "C08", "title": "Isometries obtained through + are independent objects", "statement": "Registering further operations on the result of an addition (including sum([...]), which starts from 0) never changes the operands.", "quantifier": "all histories of additions and operations", "why_tests_cant": "aliasing shows up only along specific histories", "anchors": ["mockfactory/make_survey.py:EuclideanIsometry.__radd__", "mockfactory/make_survey.py:EuclideanIsometry.translation", "mockfactory/make_survey.py:EuclideanIsometry.reset_translate"]}
{"id": "C09", "title": "Particles never leave the box under in-place box moves", "statement": "After any sequence of translate, recenter and rotate(k, axis) calls, every particle that was inside the box is inside the (moved) box; relative positions are rotated only, velocities keep their norm; translate(s) then translate(-s) and four quarter turns restore the catalog; recenter puts the centre at the origin.", "quantifier": "all histories of box moves, all catalogs", "why_tests_cant": "unbounded histories and catalogs", "anchors": ["mockfactory/make_survey.py:BoxCatalog.translate", "mockfactory/make_survey.py:BoxCatalog.recenter", "mockfactory/make_survey.py:BoxCatalog.rotate"]}
{"id": "C10", "title": "Box remapping accepts every particle of the box and is undone by the inverse", "statement": "For every unimodular integer lattice and box size, transform of any position in [0, boxsize]^3 raises no error, moves the position by a whole number of box lengths before rotating, and inverse_transform(transform(p)) = p for p in [0, boxsize).", "quantifier": "all unimodular integer triples, all box sizes, all positions", "why_tests_cant": "infinitely many lattices; positions on cell faces have measure zero", "anchors": ["mockfactory/remap.py:Cuboid.__init__", "mockfactory/remap.py:Cuboid.transform", "mockfactory/remap.py:Cuboid.inverse_transform", "mockfactory/remap.py:Cell.isin", "mockfactory/remap.py:Plane.test_unit_cube"]}
{"id": "C11", "title": "Remapped positions lie in the remapped box", "statement": "For every unimodular integer lattice, transform of any position in the box lies in [0, cuboidsize]; distinct particles stay distinct.", "quantifier": "all unimodular integer triples, all positions", "why_tests_cant": "infinitely many lattices and positions", "anchors": ["mockfactory/remap.py:Cuboid.transform", "mockfactory/make_survey.py:BoxCatalog.remap"]}
{"id": "C12", "title": "Remapping preserves volume and local separations", "statement": "The remapped box has the volume of the original box, and two particles shifted by the same whole number of box lengths keep their separation; velocities keep their norm and rotate with the positions.", "quantifier": "all unimodular integer triples and box sizes, all pairs of particles", "why_tests_cant": "real-valued domain, infinitely many lattices", "anchors": ["mockfactory/remap.py:Cuboid.__init__", "mockfactory/remap.py:Cuboid.transform", "mockfactory/remap.py:orthogonalize"]}
{"id": "C13", "title": "Orthogonalisation", "statement": "orthogonalize returns three mutually orthogonal vectors, the first unchanged, with the same determinant, spanning the same flags; a basis that is already orthogonal is unchanged.", "quantifier": "all bases", "why_tests_cant": "real-valued domain", "anchors": ["mockfactory/remap.py:orthogonalize"]}
{"id": "C14", "title": "Lattice generation is sound and complete", "statement": "generate_lattice_vectors(maxint) lists, under the key equal to the size of the remapped box, every triple of integer vectors with entries in [-maxint, maxint] and determinant 1 satisfying the requested size ranges, and nothing else; each triple once, at most maxcomb per key.", "quantifier": "all maxint, box sizes, ranges, maxcomb", "why_tests_cant": "unbounded enumeration", "anchors": ["mockfactory/remap.py:Cuboid.generate_lattice_vectors", "mockfactory/remap.py:coprime_triples", "mockfactory/remap.py:gcd"]}
{"id": "C15", "title": "gcd and coprime triples", "statement": "gcd returns the non-negative greatest common divisor of its (two or more) integer arguments and always terminates; coprime_triples(range) is the set of sorted triples of range elements with gcd 1.", "quantifier": "all integers, all ranges", "why_tests_cant": "unbounded integers", "anchors": ["mockfactory/remap.py:gcd", "mockfactory/remap.py:coprime_triples"]}
{"id": "C16", "title": "Sub-box selects exactly the particles in range", "statement": "subbox keeps, in order, exactly the rows with min <= x < max on each axis; its box is the requested range intersected with the current box and contains every kept particle of the box; consecutive ranges partition the catalog.", "quantifier": "all catalogs, boxes and ranges", "why_tests_cant": "real-valued domain, boundary particles", "anchors": ["mockfactory/make_survey.py:BoxCatalog.subbox"]}
{"id": "C17", "title": "Padding contains every periodic image exactly once", "statement": "pad(factor) returns, inside the box enlarged by factor about the same centre, each periodic image of each particle exactly once, with other columns copied from the source row.", "quantifier": "all catalogs, boxes and factors", "why_tests_cant": "unbounded catalogs and factors; image bookkeeping", "anchors": ["mockfactory/make_survey.py:BoxCatalog.pad"]}
{"id": "C18", "title": "Padding and remapping leave the input catalog unchanged", "statement": "pad, remap, subbox and cutsky return new catalogs and never alter the rows, box size or box centre of the catalog they are called on.", "quantifier": "all catalogs and histories", "why_tests_cant": "aliasing depends on the history of copies", "anchors": ["mockfactory/make_survey.py:BoxCatalog.pad", "mockfactory/make_survey.py:BoxCatalog.remap", "mockfactory/make_survey.py:BoxCatalog.subbox", "mockfactory/make_survey.py:BoxCatalog.cutsky_from_isometry"]}
{"id": "C19", "title": "Sky-cuts taken from one box are disjoint and respect margins", "statement": "The sub-boxes isometry_for_cutsky(noutput != 1) carves out lie in the box, at least external_margin from its faces and internal_margin from each other on each axis; each isometry sends the centre of its sub-box to the survey centre; noutput=None yields as many as fit; negative margins are rejected.", "quantifier": "all boxes, survey sizes, margins, noutput", "why_tests_cant": "real-valued domain", "anchors": ["mockfactory/make_survey.py:BoxCatalog.isometry_for_cutsky"]}
{"id": "C20", "title": "box_to_cutsky only promises what the box contains", "statement": "Every point with distance, RA, Dec in the ranges returned by box_to_cutsky lies in the box placed with its far face at dmax.", "quantifier": "all boxes, dmax, dmin, all points in the ranges", "why_tests_cant": "real-valued geometry", "anchors": ["mockfactory/make_survey.py:box_to_cutsky"]}
{"id": "C21", "title": "cutsky_to_box covers the requested survey", "statement": "Every point with distance, RA, Dec in the requested ranges is the image, by the returned isometry, of a point of the returned (centred) box.", "quantifier": "all distance, RA, Dec ranges, all points in them", "why_tests_cant": "real-valued geometry", "anchors": ["mockfactory/make_survey.py:cutsky_to_box"]}
{"id": "C22", "title": "Cartesian / sky coordinates round-trip", "statement": "cartesian_to_sky then sky_to_cartesian is the identity on non-zero positions; sky_to_cartesian then cartesian_to_sky is the identity for distance > 0, RA in [0, 360), |Dec| < 90.", "quantifier": "all positions, in degrees or radians, all dtypes", "why_tests_cant": "real-valued domain, quadrants, poles", "anchors": ["mockfactory/utils.py:cartesian_to_sky", "mockfactory/utils.py:sky_to_cartesian"]}
{"id": "C23", "title": "Angle ranges", "statement": "cartesian_to_sky returns distance >= 0, RA in [0, 360), Dec in [-90, 90]; wrap_angle returns the unique representative in [0, 360), is idempotent and invariant by full turns.", "quantifier": "all positions and angles", "why_tests_cant": "real-valued domain", "anchors": ["mockfactory/utils.py:wrap_angle", "mockfactory/utils.py:cartesian_to_sky"]}
{"id": "C24", "title": "Area of an RA-Dec box", "statement": "radecbox_area is the solid angle of the box: 4 pi steradians for the full sky, additive when the box is split in RA or Dec, non-negative for every requested RA range (including those wrapping through 0), monotone.", "quantifier": "all ranges", "why_tests_cant": "real-valued domain", "anchors": ["mockfactory/utils.py:radecbox_area", "mockfactory/make_survey.py:RandomCutskyCatalog.__init__"]}
{"id": "C25", "title": "Redshift-space displacement is along the line of sight", "statement": "rsd_position adds f times the component of velocity along the line of sight: transverse coordinates are unchanged (fixed line of sight), RA and Dec are unchanged (local line of sight, as long as the displacement does not cross the observer), linear in f, independent of the length and sign of the line-of-sight vector; a callable f is evaluated at the distance of each particle.", "quantifier": "all positions, velocities, lines of sight, f", "why_tests_cant": "real-valued domain; array shapes", "anchors": ["mockfactory/utils.py:vector_projection", "mockfactory/make_survey.py:ParticleCatalog.rsd_position"]}
{"id": "C26", "title": "Mask selection matches the selection probability", "statement": "A mask keeps a row iff its uniform draw in [0, 1) is at most its probability: probability-1 rows are always kept, probability-0 rows never, and a row with larger probability is kept whenever one with smaller probability and the same draw is.", "quantifier": "all masks, rows, random draws", "why_tests_cant": "must hold for every random draw", "anchors": ["mockfactory/make_survey.py:BaseMask.__call__"]}
{"id": "C27", "title": "Chunkwise masks", "statement": "MaskCollection gives each row the probability of the mask registered for its chunk label, evaluated on that row only, whatever the order of masks and rows; rows with an unregistered label are not selected by any mask.", "quantifier": "all dictionaries of masks, all rows", "why_tests_cant": "unbounded rows and labels", "anchors": ["mockfactory/make_survey.py:MaskCollection.prob"]}
{"id": "C28", "title": "Uniform radial and angular masks are confined to their ranges", "statement": "UniformRadialMask.prob is clip(nbar, 0, 1) for z in the closed range and 0 outside; UniformAngularMask.prob is clip(nbar, 0, 1) exactly for directions with RA in the requested arc (from the first to the second bound, eastwards, modulo 360) and Dec in the closed range, and 0 outside.", "quantifier": "all ranges, all directions", "why_tests_cant": "real-valued domain; wrap-around", "anchors": ["mockfactory/make_survey.py:UniformRadialMask.prob", "mockfactory/make_survey.py:BaseAngularMask.__init__", "mockfactory/make_survey.py:BaseAngularMask._mask_ranges", "mockfactory/make_survey.py:UniformAngularMask.prob"]}
{"id": "C29", "title": "Tabulated radial selection", "statement": "With default normalisation TabulatedRadialMask.prob is within [0, 1], zero outside zrange, reaches 1 within zrange and is proportional to the interpolated nbar within zrange; tables with a negative density and ranges beyond the table are rejected.", "quantifier": "all tables (linear interpolation), ranges, redshifts", "why_tests_cant": "real-valued domain", "anchors": ["mockfactory/make_survey.py:TabulatedRadialMask.__init__", "mockfactory/make_survey.py:TabulatedRadialMask.prepare", "mockfactory/make_survey.py:TabulatedRadialMask._set_interp", "mockfactory/make_survey.py:TabulatedRadialMask.prob"]}
{"id": "C30", "title": "Sampling returns exactly the requested number of accepted points", "statement": "sample(size) returns exactly size points on each rank, every one of them accepted by the mask, drawn in sequence, whatever the acceptance history and the number of ranks.", "quantifier": "all draw histories, all per-rank sizes and numbers of ranks", "why_tests_cant": "unbounded histories and schedules", "anchors": ["mockfactory/make_survey.py:BaseRadialMask.sample", "mockfactory/make_survey.py:BaseAngularMask.sample"]}
{"id": "C31", "title": "Sampling is reproducible", "statement": "For a given seed, sample returns the same points, whatever the number of MPI ranks.", "quantifier": "all seeds, masks, numbers of ranks", "why_tests_cant": "depends on hidden random state and on the process layout", "anchors": ["mockfactory/make_survey.py:BaseRadialMask.sample", "mockfactory/make_survey.py:BaseAngularMask.sample", "mockfactory/make_survey.py:BaseMask.__call__"]}
{"id": "C32", "title": "Changing cosmology conserves counts", "statement": "convert_to_cosmo rescales nbar so that the expected number per shell is unchanged, and converting back restores nbar.", "quantifier": "all tables and pairs of distance functions", "why_tests_cant": "real-valued functions", "anchors": ["mockfactory/make_survey.py:TabulatedRadialMask.convert_to_cosmo"]}
{"id": "C33", "title": "Normalisation to a target fraction", "statement": "The fraction selected as a function of the normalisation is monotone and continuous, so that a target between its extreme values is met by normalize; targets outside [0, 1] are rejected; weights only matter up to a constant.", "quantifier": "all tables, redshift samples, weights, targets", "why_tests_cant": "real-valued domain", "anchors": ["mockfactory/make_survey.py:TabulatedRadialMask.integral", "mockfactory/make_survey.py:TabulatedRadialMask.normalize"]}
{"id": "C34", "title": "Cut-sky catalogs are consistent row by row", "statement": "cutsky_from_isometry returns, in order, the rows accepted by the masks; position and other vectors are moved by the isometry (translational invariants only rotated), RA, DEC, Distance describe the moved position, other columns are untouched; a list of isometries gives the list of the individual results with the same options.", "quantifier": "all catalogs, isometries, masks, options", "why_tests_cant": "unbounded catalogs and options", "anchors": ["mockfactory/make_survey.py:BoxCatalog.cutsky_from_isometry", "mockfactory/make_survey.py:BoxCatalog.cutsky", "mockfactory/make_survey.py:CutskyCatalog.isometry"]}
{"id": "C35", "title": "Random catalogs fill exactly their geometry", "statement": "RandomBoxCatalog returns csize (or the nearest integer to nbar * volume) points, all inside the box; RandomCutskyCatalog returns csize (or nearest integer to nbar * area) points, all with RA, Dec, Distance in range and a position column consistent with them, under the requested position name; both whatever the number of ranks.", "quantifier": "all boxes, ranges, densities, draws, numbers of ranks", "why_tests_cant": "every random draw", "anchors": ["mockfactory/make_survey.py:RandomBoxCatalog.__init__", "mockfactory/make_survey.py:RandomCutskyCatalog.__init__"]}
{"id": "C36", "title": "Redshift density histogram loses no object", "statement": "With default or integer bins, every object falls in exactly one bin, so that sum(nbar * volume) is the total weight; counts are independent of the order of objects and of their distribution over ranks.", "quantifier": "all redshift samples and weights, all rank layouts", "why_tests_cant": "unbounded samples; objects on bin edges", "anchors": ["mockfactory/make_survey.py:RedshiftDensityInterpolator.__init__"]}
{"id": "C37", "title": "Distance to redshift", "statement": "DistanceToRedshift (linear interpolation) inverts the distance-redshift relation at the nodes, is monotone and stays between neighbouring nodes, and raises outside the tabulated range.", "quantifier": "all increasing distance relations, all distances", "why_tests_cant": "real-valued functions", "anchors": ["mockfactory/make_survey.py:DistanceToRedshift"]}
{"id": "C38", "title": "Mesh geometry of Gaussian mocks", "statement": "boxsize, nmesh and cellsize are resolved consistently: cellsize * nmesh = boxsize up to rounding nmesh to an integer; nmesh and cellsize given set boxsize; missing information is rejected.", "quantifier": "all argument combinations", "why_tests_cant": "combinatorial, real-valued", "anchors": ["mockfactory/gaussian_mock.py:BaseGaussianMock.__init__"]}
{"id": "C39", "title": "Lognormal transform", "statement": "The lognormal transform of any field has 1 + delta > 0 everywhere and mean delta exactly 0.", "quantifier": "all fields, all mesh sizes", "why_tests_cant": "every realisation", "anchors": ["mockfactory/gaussian_mock.py:BaseGaussianMock.set_real_delta_field"]}
{"id": "C40", "title": "Poisson sampling puts the drawn number of particles in each cell", "statement": "poisson_sample returns exactly the drawn count of particles per mesh cell, each inside its cell, hence inside the box.", "quantifier": "all meshes, counts, draws", "why_tests_cant": "every random draw", "anchors": ["mockfactory/gaussian_mock.py:BaseGaussianMock.poisson_sample"]}
{"id": "C41", "title": "Lagrangian mock particles lie in the periodic box", "statement": "LagrangianLinearMock.poisson_sample returns positions in [centre - L/2, centre + L/2) whatever the displacement, congruent to the displaced positions; after set_rsd the catalog particles are still in the box.", "quantifier": "all displacement fields", "why_tests_cant": "every realisation", "anchors": ["mockfactory/lagrangian_mock.py:LagrangianLinearMock.poisson_sample", "mockfactory/lagrangian_mock.py:LagrangianLinearMock.set_rsd"]}
{"id": "C42", "title": "Kaiser factor", "statement": "EulerianLinearMock.set_rsd multiplies each mode by 1 + f mu^2 for a fixed line of sight, and the local line-of-sight sum over axis pairs reduces to the same for a constant direction.", "quantifier": "all modes, lines of sight, f", "why_tests_cant": "algebraic identity over all modes", "anchors": ["mockfactory/eulerian_mock.py:EulerianLinearMock.set_rsd"]}
{"id": "C43", "title": "Fields built in Fourier space are real", "statement": "The multipliers used for displacements, RSD and anisotropic power spectra keep the Hermitian symmetry of the modes on every mesh and for every line of sight, so that the configuration-space fields are real.", "quantifier": "all mesh sizes, all modes, all lines of sight", "why_tests_cant": "mesh parity and Nyquist planes", "anchors": ["mockfactory/eulerian_mock.py:EulerianLinearMock.set_rsd", "mockfactory/lagrangian_mock.py:LagrangianLinearMock.set_real_delta_field"]}
{"id": "C44", "title": "Interlacing shifts and phases agree", "statement": "In set_analytic_selection_function each interlaced grid is offset in real space by the same fraction of a cell that the phase undoes in Fourier space, so that selection functions without structure below two cells are reproduced at the nodes and odd aliases cancel.", "quantifier": "all interlacing orders, all selection functions that are sums of waves", "why_tests_cant": "unbounded order", "anchors": ["mockfactory/gaussian_mock.py:BaseGaussianMock.set_analytic_selection_function"]}
{"id": "C45", "title": "Blinded cosmology stays close to the fiducial", "statement": "get_cosmo_blind draws each blinded parameter within one sigma of the fiducial value, deterministically from the seed; the default widths are those documented; the cosmology may be given as an object or as the name of a fiducial cosmology.", "quantifier": "all seeds, parameters", "why_tests_cant": "every draw", "anchors": ["mockfactory/blinding/catalog.py:get_cosmo_blind", "mockfactory/blinding/catalog.py:get_cosmo"]}
{"id": "C46", "title": "AP blinding moves objects radially only", "statement": "ap keeps RA, Dec and the order of distances of all objects and is the identity when the blinded cosmology is the fiducial one.", "quantifier": "all catalogs, cosmologies, position types", "why_tests_cant": "real-valued functions", "anchors": ["mockfactory/blinding/catalog.py:CutskyCatalogBlinding.ap"]}
{"id": "C47", "title": "RSD blinding", "statement": "rsd shifts each object by (f_blind/f_fid - 1) times its reconstructed displacement; it is the identity when f_blind = f_fid, and blinding with f then back cancels.", "quantifier": "all catalogs, displacement fields, growth rates", "why_tests_cant": "real-valued functions", "anchors": ["mockfactory/blinding/catalog.py:CutskyCatalogBlinding.rsd"]}
{"id": "C48", "title": "Shuffle blinding permutes distances", "statement": "shuffle keeps the directions of all objects and the multiset of their distances, leaves unselected objects untouched, rejects a blinded growth rate larger than the fiducial one, and leaves the catalog unchanged when the growth rates are equal.", "quantifier": "all catalogs, permutations, draws", "why_tests_cant": "every permutation and draw", "anchors": ["mockfactory/blinding/catalog.py:CutskyCatalogBlinding.shuffle"]}
{"id": "C49", "title": "PNG blinding weights", "statement": "png multiplies weights by 1 + shift, leaves them unchanged when the blinded fnl is zero, for all options.", "quantifier": "all catalogs, options", "why_tests_cant": "options times real-valued fields", "anchors": ["mockfactory/blinding/catalog.py:CutskyCatalogBlinding.png"]}
{"id": "C50", "title": "Blinding input and output positions round-trip", "statement": "For each position type, formatting input positions and formatting them back returns the input; invalid types are rejected on all ranks or on none.", "quantifier": "all positions, types, rank layouts", "why_tests_cant": "collective behaviour", "anchors": ["mockfactory/blinding/catalog.py:_format_positions", "mockfactory/blinding/catalog.py:_format_output_positions"]}
{"id": "C51", "title": "Observation bookkeeping of fiber assignment", "statement": "After any number of passes, NUMOBS + NUMOBS_MORE of each target equals its initial number of requested observations, NUMOBS counts the passes where it was observed, and OBS_PASS is true exactly for those passes.", "quantifier": "all targets, tilings, assignments, numbers of passes", "why_tests_cant": "unbounded histories of assignments", "anchors": ["mockfactory/desi/fiber_assignment.py:_apply_mtl_one_tile", "mockfactory/desi/fiber_assignment.py:_run_fiber_assignment_one_pass", "mockfactory/desi/fiber_assignment.py:apply_fiber_assignment"]}
{"id": "C52", "title": "Observed targets are available and carry their fiber", "statement": "After each pass, an observed target is flagged available and its FIBER for that pass is the fiber it was assigned; a target reachable by a working assigned fiber is flagged available.", "quantifier": "all assignments and fiber-status tables", "why_tests_cant": "depends on the assignment outcome", "anchors": ["mockfactory/desi/fiber_assignment.py:_extract_info_assignment", "mockfactory/desi/fiber_assignment.py:_apply_mtl_one_tile"]}
{"id": "C53", "title": "Completeness weights conserve targets", "statement": "COMP_WEIGHT is undefined exactly for unobserved targets, at least 1 otherwise, and the sum of weights over observed targets equals the number of observed plus available-but-unobserved targets.", "quantifier": "all assignment histories", "why_tests_cant": "unbounded histories", "anchors": ["mockfactory/desi/fiber_assignment.py:_compute_completeness_weight_one_pass", "mockfactory/desi/fiber_assignment.py:compute_completeness_weight"]}
{"id": "C54", "title": "Row order and ranks do not matter in fiber assignment", "statement": "apply_fiber_assignment and compute_completeness_weight return rows in input order, and each row's result does not depend on how targets are spread over ranks.", "quantifier": "all distributions over ranks", "why_tests_cant": "unbounded layouts", "anchors": ["mockfactory/desi/fiber_assignment.py:apply_fiber_assignment", "mockfactory/desi/fiber_assignment.py:compute_completeness_weight"]}
{"id": "C55", "title": "Brick quantities come back in input order", "statement": "get_brick_pixel_quantities returns, for each input object, the quantities of its own brick and pixel, in input order, whatever the number of ranks and the order of bricks.", "quantifier": "all object lists, all rank layouts", "why_tests_cant": "unbounded layouts", "anchors": ["mockfactory/desi/brick_pixel_quantities.py:get_brick_pixel_quantities"]}
{"id": "C56", "title": "Footprint cut", "statement": "is_in_desi_footprint keeps an object iff at least npasses tiles cover it: monotone in npasses and in the tile set; unknown releases are rejected.", "quantifier": "all tile sets, objects", "why_tests_cant": "unbounded tile sets", "anchors": ["mockfactory/desi/footprint.py:is_in_desi_footprint"]}
{"id": "C57", "title": "Truncated Cauchy distribution", "statement": "cdf is 0 at a, 1 at b, strictly increasing; ppf inverts cdf and takes values in [a, b], for every location and scale.", "quantifier": "all a < b, loc, scale > 0", "why_tests_cant": "real-valued domain", "anchors": ["mockfactory/utils.py:trunccauchy_gen", "mockfactory/utils.py:_rescaling_parser"]}
{"id": "C58", "title": "Redshift smearing tables", "statement": "The tabulated cdf is non-decreasing from 0 to 1 for every non-negative pdf, averages of smearings are again cdfs between the extremes, and for every kind of support the dz grid is mapped to the support end to end.", "quantifier": "all pdfs, weights, supports", "why_tests_cant": "real-valued domain", "anchors": ["mockfactory/make_survey.py:TabulatedPDF2DRedshiftSmearing", "mockfactory/make_survey.py:RVS2DRedshiftSmearing", "mockfactory/make_survey.py:Base2DRedshiftSmearing.average"]}
{"id": "C59", "title": "Photometric regions", "statement": "N, SNGC and SSGC regions are disjoint and cover the footprint; a combined region is the union of its parts; unknown names are rejected.", "quantifier": "all directions, region names", "why_tests_cant": "real-valued domain; boundary declinations", "anchors": ["desi/from_box_to_desi_cutsky.py:is_in_photometric_region", "desi/from_box_to_desi_cutsky.py:photometric_region_center"]}
{"id": "C60", "title": "Amplitude of Gaussian fields", "statement": "With unitary amplitude |delta_k|^2 = P(k)/V for every mode except the zero mode, which vanishes; inverted phase flips the sign of every mode.", "quantifier": "all modes and draws", "why_tests_cant": "every realisation", "anchors": ["mockfactory/gaussian_mock.py:BaseGaussianMock.set_complex_delta_field"]}
{"id": "C61", "title": "Box and cut-sky conversions agree", "statement": "For a box seen from outside, cutsky_to_box of the ranges returned by box_to_cutsky gives back a box no larger than the original in each direction.", "quantifier": "all boxes, dmax, dmin", "why_tests_cant": "real-valued geometry", "anchors": ["mockfactory/make_survey.py:box_to_cutsky", "mockfactory/make_survey.py:cutsky_to_box"]}
{"id": "C62", "title": "is_identity is exact", "statement": "EuclideanIsometry.is_identity() is true exactly when transform leaves every position unchanged, and is_identity(translational_invariant=True) exactly when it leaves every translational-invariant vector (e.g. velocity) unchanged; code that skips the transform on that basis never changes a result.", "quantifier": "all isometries and all vectors", "why_tests_cant": "It is an equivalence with a statement about all vectors of R^3, for all isometries.", "anchors": ["mockfactory/make_survey.py: EuclideanIsometry.is_identity, transform"]}
{"id": "C63", "title": "A rejected isometry call has no effect", "statement": "When a call on an isometry (rotation, translation, dot, reset_rotation, reset_translate) raises because of an invalid axis, shift or frame, the isometry acts on all positions as it did before the call.", "quantifier": "all isometries, all calls and arguments that raise", "why_tests_cant": "It must hold from every state for every invalid argument; tests exercise a few messages at most.", "anchors": ["mockfactory/make_survey.py: EuclideanIsometry.dot, rotation, translation, reset_rotation"]}
{"id": "C64", "title": "Remapped velocities match remapped positions", "statement": "The vector between two remapped positions is the remapped (translational-invariant) vector between the first position and a periodic image of the second, and remapping a translational-invariant vector keeps its length.", "quantifier": "all lattice vectors of determinant 1, all boxes, all pairs of positions in the box", "why_tests_cant": "ranges over all lattices, boxes and real positions", "anchors": ["mockfactory/remap.py: Cuboid.transform", "mockfactory/make_survey.py: BoxCatalog.remap"]}
{"id": "C65", "title": "Remapped catalogs keep their particles", "statement": "BoxCatalog.remap with integer lattice vectors of determinant 1 succeeds on every catalog whose particles are in the box, keeps the box centre, the number and order of rows and all non-vector columns, maps positions one-to-one, keeps the norm of velocities, and for cubic boxes preserves the volume and separations up to periodic images; wrong arguments raise.", "quantifier": "all box catalogs, lattice vectors and arguments", "why_tests_cant": "unbounded catalogs, infinite lattices", "anchors": ["mockfactory/make_survey.py:BoxCatalog.remap", "mockfactory/remap.py:Cuboid.transform"]}
{"id": "C66", "title": "Nodes of the mesh", "statement": "Callables given to Gaussian mocks (bias, growth rate, selection function) are evaluated at the nodes of the mesh: lower corner of the box plus a whole number of cells, all inside the box and all distinct.", "quantifier": "all meshes, nodes, box sizes and centres", "why_tests_cant": "sign convention of coordinates depends on the node and the parity of the mesh", "anchors": ["mockfactory/gaussian_mock.py:_transform_rslab", "mockfactory/gaussian_mock.py:BaseGaussianMock.set_real_delta_field"]}
{"id": "C67", "title": "Zeldovich displacement", "statement": "The displacement field of LagrangianLinearMock has divergence minus the density contrast, no curl and zero mean.", "quantifier": "all meshes, all density contrasts, all modes", "why_tests_cant": "identity over all modes, depends on the parity of the mesh", "anchors": ["mockfactory/lagrangian_mock.py:LagrangianLinearMock.set_real_delta_field"]}
{"id": "C68", "title": "Compensation of the resampling window", "statement": "readout(compensate=True) divides each mode by the window of the resampler, which never vanishes on the mesh; the compensated field is real, has the same sum, and convolving it with the window gives back the field.", "quantifier": "all meshes, modes, fields and resamplers", "why_tests_cant": "division by a function of all modes", "anchors": ["mockfactory/gaussian_mock.py:_compensate_mesh", "mockfactory/gaussian_mock.py:BaseGaussianMock.readout"]}
{"id": "C69", "title": "Fields read at positions", "statement": "readout returns the documented field (delta, nbar*delta, nbar*(1+delta), nbar, displacements) interpolated at the positions, with compensation if required, for Eulerian and Lagrangian mocks; at nodes, the value of the node.", "quantifier": "all fields, names, resamplers, positions, classes of mocks", "why_tests_cant": "all combinations of names and options over all fields", "anchors": ["mockfactory/gaussian_mock.py:BaseGaussianMock.readout", "mockfactory/lagrangian_mock.py:LagrangianLinearMock.readout"]}
{"id": "C70", "title": "Norm and white noise", "statement": "The attribute norm is the integral of the squared density over the mesh, for constants and callables alike; set_real_white_noise adds noise of amplitude one over the square root of the mean number of objects per cell and leaves finite density contrasts.", "quantifier": "all meshes, densities, noise fields", "why_tests_cant": "over all densities including empty regions", "anchors": ["mockfactory/gaussian_mock.py:BaseGaussianMock.set_analytic_selection_function", "mockfactory/gaussian_mock.py:BaseGaussianMock.set_real_white_noise"]}
{"id": "C71", "title": "Effective redshift", "statement": "get_z returns to all ranks the mean redshift of the objects, weighted if weights are given, for every position type and every layout over ranks (mpiroot or scattered).", "quantifier": "all catalogs, weights, position types, rank layouts", "why_tests_cant": "real-valued catalogs and unbounded rank layouts", "anchors": ["mockfactory/blinding/catalog.py:get_z"]}
{"id": "C72", "title": "Environment defaults of the footprint module", "statement": "After importing mockfactory.desi, tile files are looked for under DESI_SPECTRO_REDUX if it is set and under the documented default otherwise; DESI_SURVEYOPS keeps its value if set and receives its documented default otherwise; no other variable changes.", "quantifier": "all process environments", "why_tests_cant": "tests run in one environment; the property ranges over all of them", "anchors": ["mockfactory/desi/footprint.py:redux_path", "mockfactory/desi/footprint.py:is_in_desi_footprint"]}
{"id": "C73", "title": "Tile identifiers", "statement": "With return_tile_index, is_in_desi_footprint returns for each object the identifiers of the tiles that cover it.", "quantifier": "all tile tables, objects", "why_tests_cant": "unbounded tile tables", "anchors": ["mockfactory/desi/footprint.py:is_in_desi_footprint"]}
{"id": "C74", "title": "Footprint and region cut of a catalog", "statement": "apply_photo_desi_footprint returns exactly the objects that enough tiles of the release cover and that are in the photometric region, in order, with their columns and their pixel; the catalog passed by the caller is left as it was; unknown releases and regions are rejected.", "quantifier": "all catalogs, tile tables, releases, regions", "why_tests_cant": "unbounded catalogs and tables", "anchors": ["desi/from_box_to_desi_cutsky.py:apply_photo_desi_footprint"]}
{"id": "C75", "title": "Remapping in the cutsky script", "statement": "remap_the_box returns the catalog of the box remapped to a cuboid with sides in the ranges of the script and the same volume, one row for each particle, with positions inside of the new box and velocities rotated with them.", "quantifier": "all boxes, particles, orders of enumeration of the lattices", "why_tests_cant": "all particle positions and lattice enumerations", "anchors": ["desi/from_box_to_desi_cutsky.py:remap_the_box", "mockfactory/remap.py:Cuboid.generate_lattice_vectors"]}
{"id": "C76", "title": "Redshift-space cutsky of the script", "statement": "apply_rsd_and_cutsky moves the box rigidly so that its centre is in the requested direction, displaces each particle along its line of sight by its radial velocity, and returns for each particle its redshift-space position, distance, right ascension and declination, in order.", "quantifier": "all boxes, particles, distance ranges, directions", "why_tests_cant": "real-valued domain, unbounded catalogs", "anchors": ["desi/from_box_to_desi_cutsky.py:apply_rsd_and_cutsky"]}
{"id": "C77", "title": "Radial selection of the cutsky script", "statement": "apply_radial_mask keeps each object with a probability proportional to the density of the n(z) file at its redshift, inside of the requested range, the largest probability in that range being 1, and leaves the catalog of the caller as it was; generate_redshifts returns the requested number of redshifts inside of the range; malformed tables are rejected.", "quantifier": "all n(z) tables, ranges, catalogs, draws", "why_tests_cant": "unbounded tables and catalogs, real-valued domain", "anchors": ["desi/from_box_to_desi_cutsky.py:apply_radial_mask", "desi/from_box_to_desi_cutsky.py:generate_redshifts", "mockfactory/make_survey.py:TabulatedRadialMask"]}
{"id": "C78", "title": "Redshift errors of DESI tracers", "statement": "TracerRedshiftSmearing has the distribution of redshift errors of the tables of the tracer: at each tabulated redshift the mixture, with the tabulated fraction, of the two tabulated laws; errors are within the bounds of the tracer and scaled to redshift units; unknown tracers and uncertainties are rejected with ValueError.", "quantifier": "all tables, tracers, uncertainties, redshifts", "why_tests_cant": "unbounded tables, real-valued laws", "anchors": ["mockfactory/desi/redshift_smearing.py:TracerRedshiftSmearingRVS", "mockfactory/desi/redshift_smearing.py:TracerRedshiftSmearing"]}
{"id": "C79", "title": "Calls on a mock", "statement": "Whatever the sequence of calls made on an Eulerian or Lagrangian mock, a call raises AttributeError exactly when one of the stages it needs (contrast, selection function, particles) has not been prepared by an earlier successful call; a call that raises leaves the mock as it was; the modes are never changed, and set_real_delta_field starts again from them; the catalog and the mesh are exported exactly when the stages they need have been prepared.", "quantifier": "all sequences of calls, modes, biases, selection functions, lines of sight, draws", "why_tests_cant": "the histories of calls are unbounded", "anchors": ["mockfactory/gaussian_mock.py:BaseGaussianMock", "mockfactory/gaussian_mock.py:EulerianLinearMock", "mockfactory/gaussian_mock.py:LagrangianLinearMock"]}
{"id": "C80", "title": "Documented use of mocks", "statement": "The sequences of calls, argument order and names given in the documentation of the mock classes run without error and give a mock with the requested box and mesh.", "quantifier": "all boxes, meshes, modes, growth rates, lines of sight", "why_tests_cant": "must hold for every mock", "anchors": ["mockfactory/gaussian_mock.py:BaseGaussianMock", "mockfactory/gaussian_mock.py:EulerianLinearMock", "mockfactory/gaussian_mock.py:LagrangianLinearMock"]}
{"id": "C81", "title": "Mesh from an array", "statement": "ArrayMesh returns a mesh holding the given array, of the type of the array, whether real or complex, scattered from the root process or local.", "quantifier": "all arrays, types, ranks", "why_tests_cant": "unbounded arrays and ranks", "anchors": ["mockfactory/gaussian_mock.py:ArrayMesh"]}
{"id": "C82", "title": "Inputs of fiber assignment for a tiling", "statement": "build_tiles_for_fa returns exactly the tiles of the release, the program and the first npasses passes, in order, with the observing conditions of the program, and raises for an unknown program; each such tile belongs to exactly one pass; the sky and assignment files of different tiles are different and have the documented form; sky targets are those of the files of all tiles in order; each tile is observed at the date, field rotation and hour angle of the options if given, else its own date (or the default date), the rotation computed for its position and date, and hour angle zero.", "quantifier": "all tables of tiles, releases, programs, numbers of passes, tile identifiers, options", "why_tests_cant": "unbounded tables and identifiers; the paths exist only at NERSC", "anchors": ["mockfactory/desi/fiber_assignment.py:build_tiles_for_fa", "mockfactory/desi/fiber_assignment.py:read_sky_targets", "mockfactory/desi/fiber_assignment.py:fafns_for_tiles", "mockfactory/desi/fiber_assignment.py:convert_tiles_to_fiberassign"]}
{"id": "C83", "title": "Stuck positioners of a tile", "statement": "For every tile the table of stuck positioners has, for each location of a sky monitor, whether its target is a sky target, and for each other location with a stuck and not broken positioner whether it sits on sky, and no other location; tables are attributed to the tile of the file they are read from, and any unreadable file raises.", "quantifier": "all files, status words, tiles", "why_tests_cant": "all status words and repeated locations; files exist only at NERSC", "anchors": ["mockfactory/desi/fiber_assignment.py:stuck_on_sky_from_fafns", "mockfactory/desi/fiber_assignment.py:fafns_for_tiles"]}
{"id": "C84", "title": "Rosettes and their regions", "statement": "Reading the table of rosettes gives each rosette its tiles, direction and region (north exactly above the declination cut), failing exactly for malformed tile lists; a grouping of rosettes is accepted exactly if every group is non-empty, known, and within one region; the two scripts use the same grouping, which has each rosette once.", "quantifier": "all tables, groupings, declinations", "why_tests_cant": "all tables and groupings", "anchors": ["desi/from_box_to_desi_sv3_cutsky.py:get_region", "desi/from_box_to_desi_sv3_cutsky.py:read_rosettes", "desi/covariance_from_desi_sv3_cutsky.py:list_rosettes"]}
{"id": "C85", "title": "Files of the SV3 scripts", "statement": "Each data and random catalog and each correlation function has its own file; the cutsky script writes every requested catalog exactly once; the covariance script finds the catalogs that the cutsky script wrote.", "quantifier": "all output directories, groups, mock numbers, options", "why_tests_cant": "must hold for all mock numbers and options", "anchors": ["desi/from_box_to_desi_sv3_cutsky.py:catalog_fn", "desi/from_box_to_desi_sv3_cutsky.py:__main__", "desi/covariance_from_desi_sv3_cutsky.py:corr_fn", "desi/covariance_from_desi_sv3_cutsky.py:__main__"]}
{"id": "C86", "title": "Matching the number of objects of the data", "statement": "The cutsky of each region is downsampled to the number of objects of the data: rows are kept in order, each with the same probability, independently of the group and process, such that the mean number of rows kept is that of the data (or all, if there are fewer), and all are kept if there are not more than in the data.", "quantifier": "all numbers of objects, groups, processes, draws", "why_tests_cant": "statement about the law of the draws and all sizes", "anchors": ["desi/from_box_to_desi_sv3_cutsky.py:__main__"]}
{"id": "C87", "title": "Bins of correlation functions", "statement": "get_edges raises exactly for an unknown type of correlation or bins, and otherwise gives strictly increasing edges with the stated number, ends and even spacing (linear or logarithmic).", "quantifier": "all type and bin names", "why_tests_cant": "closed form over the reals, all strings", "anchors": ["desi/covariance_from_desi_sv3_cutsky.py:get_edges"]}
{"id": "C88", "title": "Combination of rosettes", "statement": "Random pairs are rescaled so that each region has the pairs of its data; the weights of the groups in each bin are proportional to their random pairs in a region, non-negative and add up to one, so that groups with a common correlation function give back that function; the mean is that of the weighted sums over mocks; the covariance is symmetric, positive semi-definite, and differs from the sample covariance of the weighted sums by the covariances between groups.", "quantifier": "all pair counts, groups, regions, bins, numbers of mocks, linear projections", "why_tests_cant": "all counts and numbers of mocks", "anchors": ["desi/covariance_from_desi_sv3_cutsky.py:__main__"]}
{"id": "C89", "title": "SV3 groups are cut around their mean direction", "statement": "For each group of rosettes the SV3 script moves the remapped box rigidly so that its centre is seen in the mean direction of the rosettes (at equal angle of both members of a pair, in the direction of the rosette for a single one), with its far face at the maximum distance, and turned about that direction by the requested angle; all rows are kept, data rows are put in redshift space, and the sky columns are those of the moved rows. The sizes the script asks for are sizes of remapped boxes.", "quantifier": "all catalogs, groups of directions, rotation angles, maximum distances, growth factors and orders of iteration over lattices", "why_tests_cant": "continuous directions and angles, any catalog", "anchors": ["desi/from_box_to_desi_sv3_cutsky.py", "mockfactory/make_survey.py:BoxCatalog.isometry_for_cutsky", "mockfactory/make_survey.py:BoxCatalog.cutsky_from_isometry", "mockfactory/make_survey.py:CutskyCatalog.isometry"]}
{"id": "C90", "title": "Rows kept by the SV3 script", "statement": "The SV3 script keeps exactly the rows that are in a tile of the rosettes of the group, are accepted by the radial mask, and have none of the requested mask bits, in order.", "quantifier": "all catalogs, tile tables, groups, masks, draws and bits", "why_tests_cant": "any catalog and draws", "anchors": ["desi/from_box_to_desi_sv3_cutsky.py"]}
{"id": "C91", "title": "Catalogs returned by cutsky", "statement": "cutsky returns one catalog for noutput=1, noutput catalogs for noutput>1, and as many catalogs as fit for noutput=None. Each catalog holds exactly the objects of the box that are in the requested distance, RA and Dec ranges once its part of the box is moved to the survey, in order, with their other columns, and the distance, RA and Dec columns it holds are in the ranges. No object of the box is in two of the catalogs.", "quantifier": "all boxes, catalogs, ranges, margins, numbers of outputs, and draws of the masks", "why_tests_cant": "continuous ranges and positions, any number of outputs; an overlap of two catalogs shows only for particular ranges", "anchors": ["mockfactory/make_survey.py:BoxCatalog.cutsky", "mockfactory/make_survey.py:BoxCatalog.isometry_for_cutsky", "mockfactory/make_survey.py:BoxCatalog.cutsky_from_isometry", "mockfactory/make_survey.py:box_to_cutsky"]}
{"id": "C92", "title": "Book-keeping of the earlier fiber assignment", "statement": "After apply_fiber_assignment (earlier version, all tiles of a rank assigned at once), every row is on its rank and in its place with its input columns; NUMOBS is the number of passes flagged in OBS_PASS, NUMOBS + NUMOBS_MORE is the number of observations requested, which is not exceeded; in each pass exactly the targets on a tile with an observation requested take part, and they are observed, available and given a fiber as the assignment of the tiles of their rank says. The run raises only if the assignment of tiles does.", "quantifier": "all targets, tiles, numbers of passes and ranks, distributions of rows over ranks and outcomes of the assignment, including overlapping tiles", "why_tests_cant": "any outcome of the package and any distribution over ranks", "anchors": ["mockfactory/desi/fiber_assignment_v0.py:apply_fiber_assignment", "mockfactory/desi/fiber_assignment_v0.py:_run_fiber_assignment_one_pass", "mockfactory/desi/fiber_assignment_v0.py:_apply_mtl_one_pass", "mockfactory/desi/fiber_assignment_v0.py:_extract_info_assignment"]}
{"id": "C93", "title": "Sky targets loaded before the run", "statement": "read_sky_targets returns the sky targets of the files of the directory that lie in the tiles. When they are given to apply_fiber_assignment, they are the sky targets used by the assignment, each on the rank that treats the tile it lies on, and the sky targets on disk are not read again.", "quantifier": "all sky targets, tile tables, file names and distributions over ranks", "why_tests_cant": "holds or fails for every run; the packages are not available in tests", "anchors": ["mockfactory/desi/fiber_assignment_v0.py:read_sky_targets", "mockfactory/desi/fiber_assignment_v0.py:_run_assign_init", "mockfactory/desi/fiber_assignment_v0.py:apply_fiber_assignment"]}
{"id": "C94", "title": "All ranks make the same collective calls", "statement": "In fiber assignment and in the computation of completeness weights all ranks make the same sequence of collective calls, whichever tiles they treat, so that no rank waits forever.", "quantifier": "all numbers of ranks and passes and all distributions of tiles over ranks", "why_tests_cant": "a hang shows only for some numbers of ranks and distributions of targets", "anchors": ["mockfactory/desi/fiber_assignment.py:apply_fiber_assignment", "mockfactory/desi/fiber_assignment.py:compute_completeness_weight", "mockfactory/desi/fiber_assignment_v0.py:apply_fiber_assignment", "mockfactory/desi/fiber_assignment_v0.py:_run_assign_full", "mockfactory/desi/fiber_assignment_v0.py:_run_fiber_assignment_one_pass"]}
{"id": "C95", "title": "Interpolated redshift density", "statement": "A redshift density interpolator built from a sample (on all ranks, or gathered on a root) is the spline of the requested order through the weight per unit volume of each redshift bin placed at the centre of the bin. Default bins follow Scott's rule for the given sample, a number of bins gives equal bins from the lowest to the highest redshift. It can be built for any sample of distinct redshifts with default arguments, is positive where the sample has objects, zero outside of the range of the sample, and does not depend on the order of objects, on the number of ranks or on other processes.", "quantifier": "all samples, weights, numbers of ranks, bins, orders, sky fractions, distances and redshifts", "why_tests_cant": "range of samples, sizes and orders is unbounded; the behaviour at the limits of the sample and for small samples is not seen on a large random sample", "anchors": ["mockfactory/make_survey.py:RedshiftDensityInterpolator"]}
{"id": "C96", "title": "Sampled redshift errors", "statement": "Redshift errors drawn by a redshift smearing are percent points of the distribution at the redshift of the object: at a tabulated redshift those of this redshift, interpolated linearly between consecutive redshifts, and those of the first or last redshift outside of the table, then passed through the output transform given by the user. Each rank obtains one error per object and errors do not depend on how objects are distributed over ranks. Distributions may be given as tables (with errors common to all redshifts, or specific to each) or as random variables, of which the percent points at the first redshift are reproduced exactly when they are chosen as scale.", "quantifier": "all tables, distributions, redshifts, draws, numbers of ranks and distributions of objects over ranks", "why_tests_cant": "tables, redshifts and draws are unbounded; samples of a random generator show the distribution only approximately, for one table", "anchors": ["mockfactory/make_survey.py:Base2DRedshiftSmearing.sample", "mockfactory/make_survey.py:Base2DRedshiftSmearing.ppf", "mockfactory/make_survey.py:TabulatedPDF2DRedshiftSmearing", "mockfactory/make_survey.py:RVS2DRedshiftSmearing"]}
{"id": "C97", "title": "Averages of redshift smearings", "statement": "The average of redshift smearings has, at each error and redshift, the weighted mean of the cumulative distributions of its inputs. Smearings that are not comparable (other redshifts, other errors, other transform to the support, other output transform) are refused.", "quantifier": "all lists of smearings, weights (constant or per redshift), transforms and tables", "why_tests_cant": "inputs that should be refused but are not cannot be enumerated: transforms are functions, compared at finitely many points", "anchors": ["mockfactory/make_survey.py:Base2DRedshiftSmearing.average"]}
{"id": "C98", "title": "Catalogs written by the program from a box to a DESI cutsky", "statement": "For each of its three regions the example program writes a data catalog and randoms. Data are the objects of the box, seen with the centre of the box at the centre of the region, with redshift-space positions, RA, Dec and redshift (with errors), selected with a probability proportional to the target redshift density, in the footprint of the release and in the region. Randoms are ten times as many positions as there are data before the footprint cut, over the RA and Dec ranges of the box, cut to the same footprint, with redshifts drawn from the same density; they cover the directions where there are data.", "quantifier": "all boxes, velocities, redshift tables, footprints, releases, draws and numbers of ranks", "why_tests_cant": "needs whole simulations, external packages and random draws; missing randoms in part of a region are not seen by a test of one function", "anchors": ["desi/from_box_to_desi_cutsky.py:__main__", "desi/from_box_to_desi_cutsky.py:apply_rsd_and_cutsky", "desi/from_box_to_desi_cutsky.py:apply_photo_desi_footprint", "desi/from_box_to_desi_cutsky.py:generate_redshifts"]}
{"id": "C99", "title": "Sky targets rewritten in fewer files are read back", "statement": "Rewriting the sky targets of all directories into a folder, in nfiles FITS files and one bigfile for each directory, then loading the sky targets of that folder for some tiles, from FITS files or from bigfiles, gives each sky target of the original files that lies in the tiles exactly once, whatever the order in which the files of the folder are listed. A directory without files is an error.", "quantifier": "all directories, files, rows, numbers of files, tiles and listing orders", "why_tests_cant": "the directories hold 800 files and 34 GB each; a test on one empty folder does not show what is left from an earlier run, or lost when names collide", "anchors": ["mockfactory/desi/fiber_assignment_v0.py:_write_all_skytargets", "mockfactory/desi/fiber_assignment_v0.py:read_sky_targets"]}
{"id": "C100", "title": "Chances of selection by masks", "statement": "Applied to a catalog, a mask keeps each row with the probability it gives for this row (clipped to [0, 1]), independently of the other rows. The expected sum of any quantity over the rows that are kept, in particular their number, is the sum over all rows weighted with the probabilities; the variance of the number is the sum of p (1 - p). In a cut-sky catalog with a radial and an angular mask the weight of a row is the product of both probabilities at its distance and direction.", "quantifier": "all probabilities, rows, quantities, positions and isometries, over all independent uniform draws", "why_tests_cant": "a test sees a few draws; a law of probability is a statement about all of them", "anchors": ["mockfactory/make_survey.py:BaseMask.__call__", "mockfactory/make_survey.py:CutskyCatalog", "mockfactory/make_survey.py:BoxCatalog.cutsky_from_isometry"]}
{"id": "C101", "title": "Law of the points sampled from a mask", "statement": "Sampling a mask that keeps anything at all ends with probability one, on any number of ranks. The points returned, over all ranks, are then independent of each other, and each is distributed as the candidates weighted with the probability of the mask: neither the number of rounds, nor the cut to the requested size, nor the ranks bias them.", "quantifier": "all laws of candidates, masks, numbers of points, ranks and sets of points, over all independent draws", "why_tests_cant": "the loop has no bound on its number of rounds, and the bias of a stopping rule cannot be seen on a few runs", "anchors": ["mockfactory/make_survey.py:BaseRadialMask.sample", "mockfactory/make_survey.py:BaseAngularMask.sample", "mockfactory/make_survey.py:BaseMask.__call__"]}
{"id": "C102", "title": "Random catalogs are uniform", "statement": "Points of a random box are independent and uniform in the box. Points of a random cutsky are independent, with direction and distance independent of each other, directions uniform on the sphere within the ranges of RA and Dec, distances uniform in volume.", "quantifier": "all boxes, ranges, numbers of points and ranks, over all independent uniform draws", "why_tests_cant": "a histogram of one catalog shows neither independence nor the exact law, nor all the ranges", "anchors": ["mockfactory/make_survey.py:RandomBoxCatalog", "mockfactory/make_survey.py:RandomCutskyCatalog", "mockfactory/make_survey.py:UniformAngularMask", "mockfactory/make_survey.py:UniformRadialMask"]}
{"id": "C103", "title": "Laws of drawn quantities", "statement": "Samples of the truncated Cauchy distribution are independent, with the distribution function that its cdf method returns. Blinded parameters are independent of each other, each uniform within one sigma of its fiducial value. Sampled redshift errors are independent, and the chance that the error of an object is at most the percent point at p of its redshift is p (k/(n-1) at the tabulated ones), on any number of ranks. Downsampled mocks of a region have on average the number of objects of the data. Blinding by shuffling leaves a set of m objects where they are with a chance of at least (1 - (f_blind/f_fid)^2)^m.", "quantifier": "all distributions, bounds, parameters, tables, objects, ranks and permutations, over all independent uniform draws", "why_tests_cant": "a law of probability is a statement about all draws, and independence one about all sets of objects", "anchors": ["mockfactory/utils.py:trunccauchy_gen", "mockfactory/blinding/catalog.py:get_cosmo_blind", "mockfactory/blinding/catalog.py:CutskyCatalogBlinding.shuffle", "mockfactory/make_survey.py:Base2DRedshiftSmearing.sample", "desi/from_box_to_desi_sv3_cutsky.py"]}
{"id": "C104", "title": "Statistics of Gaussian fields", "statement": "If the noise of the mesh library is white (modes of zero mean and unit variance, uncorrelated), then: the modes of the density contrast are uncorrelated, with variance P(k)/V, and the zero mode vanishes; the power spectrum measured in any set of modes is on average the mean of the input power spectrum over these modes; with a constant bias b the field has zero mean at each node, and its covariance at two nodes is b^2 times the sum over modes of P(k)/V cos(k.r), r being their separation; with Gaussian noise the field at all nodes follows jointly a Gaussian law; with a fixed line of sight the field in redshift space has the power spectrum (b + f mu^2)^2 P(k); adding white noise adds 1/(nbar dv) to the variance of each node and nothing to other covariances; the law of the field at all nodes jointly, with any bias function and with or without the lognormal transform, depends only on the power spectrum; with a nonlinear bias the law at two nodes depends only on their separation; lognormal fields, up to the division by the sampled mean, have one plus correlation exp(b^2 xi).", "quantifier": "all mesh sizes, boxes, non-negative symmetric power spectra, biases, growth rates and laws of white noise", "why_tests_cant": "expectations over all realisations, for all power spectra and meshes; a test averages a few mocks with some tolerance", "anchors": ["mockfactory/gaussian_mock.py:BaseGaussianMock.set_complex_delta_field", "mockfactory/gaussian_mock.py:BaseGaussianMock.set_real_delta_field", "mockfactory/gaussian_mock.py:BaseGaussianMock.set_real_white_noise", "mockfactory/eulerian_mock.py:EulerianLinearMock.set_rsd"]}
{"id": "C105", "title": "Catalogs of Gaussian mocks are Poisson processes", "statement": "If the counts drawn in cells are independent Poisson draws of mean (1 + delta) nbar dv and the draws of positions are independent and uniform, the catalog of particles, on any number of ranks, is a Poisson process: the numbers of particles in disjoint regions of any shape are independent, and each follows the Poisson law the mean of which is the integral over the region of (1 + delta) nbar, taken as constant in the cell of each node. With a constant mean density and a contrast of zero mean, the size of the catalog follows a Poisson law of mean nbar V.", "quantifier": "all meshes, boxes, density contrasts not below -1, densities (constant or mesh), decompositions over ranks, finite families of disjoint measurable regions, and laws of draws as stated", "why_tests_cant": "independence and laws are statements about all regions and all draws; tests look at a few summary statistics of a few catalogs", "anchors": ["mockfactory/gaussian_mock.py:BaseGaussianMock.poisson_sample"]}
{"id": "C106", "title": "Homogeneity and pair counts of mocks", "statement": "If the law of the noise of the mesh library does not change under translations by cells, then: the law of the density contrast at all nodes does not change either, with no bias, a number or a function of the contrast alone, with or without lognormal transform, and in redshift space with a fixed line of sight and a constant growth rate; a lognormal contrast has zero mean at each node; averaging over realisations of the field and over draws, the number of particles of a lognormal mock in any region is the integral of the mean density (the density times the volume if it is constant), and the number of pairs of particles in two disjoint regions, or of different particles in one region, is the integral of the product of densities times 1 + xi, xi being the covariance of the contrast at the nodes of the cells of both particles.", "quantifier": "all meshes, boxes, power spectra, homogeneous laws of noise, biases as stated, densities (constant or mesh), translations, measurable regions, decompositions over ranks and laws of draws as stated", "why_tests_cant": "averages over all realisations, in all regions; tests average a few mocks with some tolerance", "anchors": ["mockfactory/gaussian_mock.py:BaseGaussianMock.set_complex_delta_field", "mockfactory/gaussian_mock.py:BaseGaussianMock.set_real_delta_field", "mockfactory/gaussian_mock.py:BaseGaussianMock.poisson_sample", "mockfactory/eulerian_mock.py:EulerianLinearMock.set_rsd"]}
{"id": "C107", "title": "Half of the modes", "statement": "The fields of a mock on a mesh of real type, for which only half of the modes are held in memory, are the fields of all the modes of the real density field: density contrast, displacements and redshift-space distortions, with the Kaiser factor for every mode.", "quantifier": "all mesh sizes, even and odd, all real density fields, biases, lines of sight", "why_tests_cant": "mesh parity, planes of self-conjugate modes, all lines of sight", "anchors": ["mockfactory/gaussian_mock.py:BaseGaussianMock.set_complex_delta_field", "mockfactory/gaussian_mock.py:BaseGaussianMock.set_real_delta_field", "mockfactory/eulerian_mock.py:EulerianLinearMock.set_rsd", "mockfactory/lagrangian_mock.py:LagrangianLinearMock.set_real_delta_field"]}
{"id": "C108", "title": "Vectors given to geometric functions are read, not changed", "statement": "rotation_matrix_from_two_vectors(a, b) and the remapping of positions give the documented result whatever the number type (integers or floats) and the container (list, tuple or numpy array) of the vectors, and the caller's arrays hold the same numbers afterwards.", "quantifier": "all pairs of non-zero vectors, all number types and containers; all cuboids and positions", "why_tests_cant": "Tests compare the returned matrix for float inputs, often with arrays that are thrown away or already changed when compared; whether the argument is modified, or refused, depends on its type and norm for every input.", "anchors": ["mockfactory/make_survey.py:rotation_matrix_from_two_vectors", "mockfactory/remap.py:Cuboid.transform", "mockfactory/remap.py:Cuboid.inverse_transform"]}
{"id": "C109", "title": "Exported catalogs keep the positions they were exported with", "statement": "A catalog returned by to_catalog() of a mock holds, whatever is later called on the mock (new sampling, redshift-space distortions, calls that raise), the positions the mock had when it was exported.", "quantifier": "all histories of method calls and exports on Eulerian and Lagrangian mocks, all arguments and random draws", "why_tests_cant": "It is a property of every interleaving of exports and in-place updates; tests export once, at the end.", "anchors": ["mockfactory/lagrangian_mock.py:LagrangianLinearMock.set_rsd", "mockfactory/lagrangian_mock.py:LagrangianLinearMock.poisson_sample", "mockfactory/lagrangian_mock.py:LagrangianLinearMock.to_catalog", "mockfactory/gaussian_mock.py:BaseGaussianMock.to_catalog"]}
{"id": "C110", "title": "Documented ways to build masks", "statement": "Masks can be built as documented: a collection of masks is a dictionary of masks, TabulatedRadialMask takes its table from arrays or from a file, MangleAngularMask takes polygons from a pymangle object or from a file, HealpixAngularMask takes a map from an array or from a file, each with optional ranges; the mask then gives each object the probability of the dictionary entry, table, polygon or pixel.", "quantifier": "all dictionaries of masks and sequences of assignments, all tables, polygons, maps, ranges and directions", "why_tests_cant": "Tests build each mask in one way, with one set of arguments.", "anchors": ["mockfactory/make_survey.py:MaskCollection", "mockfactory/make_survey.py:TabulatedRadialMask.__init__", "mockfactory/make_survey.py:MangleAngularMask.__init__", "mockfactory/make_survey.py:HealpixAngularMask.__init__"]}
{"id": "C111", "title": "Angles with rounding errors", "statement": "In floating-point arithmetic, wrap_angle returns angles in [0, 360) degrees (in [0, 2 pi) radians) that equal the input up to turns and a few rounding errors proportional to its size, and wrapping twice is wrapping once.", "quantifier": "all angles; double and single precision", "why_tests_cant": "2^64 inputs, and failures only for angles within rounding errors of a multiple of a turn", "anchors": ["mockfactory/utils.py:wrap_angle"]}
{"id": "C112", "title": "Periodic wrapping with rounding errors", "statement": "In floating-point arithmetic, positions wrapped in a periodic box (sampling of Lagrangian mocks, inverse remapping) are in the box, upper face excluded, and are the input positions up to periods and rounding errors.", "quantifier": "all positions, boxes and precisions", "why_tests_cant": "failures only within rounding errors of a face", "anchors": ["mockfactory/lagrangian_mock.py:LagrangianLinearMock.poisson_sample", "mockfactory/remap.py:Cuboid.inverse_transform"]}
{"id": "C113", "title": "Distances and declinations with rounding errors", "statement": "In floating-point arithmetic, distance is within three rounding errors of the norm, exact along the axes and never below a coordinate; hence cartesian_to_sky gives no nan away from the origin, declinations in [-90, 90] and right ascensions in [0, 360].", "quantifier": "all positions; any precision for distances, double precision for sky coordinates", "why_tests_cant": "an arcsine of a number above 1 by one rounding error would show for rare positions only", "anchors": ["mockfactory/utils.py:distance", "mockfactory/utils.py:cartesian_to_sky"]}
{"id": "C114", "title": "Remapping with rounding errors", "statement": "In floating-point arithmetic, Cuboid.transform remaps every position of the box, as it does in exact arithmetic: rounding errors in the faces of the cells never leave a position in no cell, which would raise CuboidError for the whole catalog.", "quantifier": "all lattice vectors, boxes, positions in the box and precisions", "why_tests_cant": "gaps are a few rounding errors wide, and one position in a gap aborts the remapping of a catalog", "anchors": ["mockfactory/remap.py:Cuboid.__init__", "mockfactory/remap.py:Cuboid.transform", "mockfactory/remap.py:Plane.test_unit_cube"]}
{"id": "C115", "title": "Angular masks with rounding errors", "statement": "In floating-point arithmetic, an angular mask selects the right ascensions of its range, ends included, and no others up to rounding errors; ranges of a full turn select as in exact arithmetic.", "quantifier": "all ranges and right ascensions in double precision", "why_tests_cant": "the range is wrapped in floating point; the outcome depends on the last digit of its ends", "anchors": ["mockfactory/make_survey.py:BaseAngularMask.__init__", "mockfactory/make_survey.py:BaseAngularMask.sample", "mockfactory/make_survey.py:UniformAngularMask.prob"]}
{"id": "C116", "title": "Random positions with rounding errors", "statement": "In floating-point arithmetic, positions of RandomBoxCatalog are in the box, upper faces excluded.", "quantifier": "all draws, sides and centers", "why_tests_cant": "the upper face is reached for the largest draws only, of chance 2^-53", "anchors": ["mockfactory/make_survey.py:RandomBoxCatalog"]}
{"id": "C117", "title": "Lists of lattice vectors with rounding errors", "statement": "In floating-point arithmetic, generate_lattice_vectors lists exactly the unimodular triples with entries in [-maxint, maxint] whose size of the remapped box is in the ranges, with one entry per size.", "quantifier": "all maxint, ranges, box sizes, formats and orders of enumeration", "why_tests_cant": "sizes equal in exact arithmetic may differ by rounding errors for some of the many triples; the script for cutsky mocks depends on it", "anchors": ["mockfactory/remap.py:Cuboid.generate_lattice_vectors", "desi/from_box_to_desi_cutsky.py:remap_the_box"]}
{"id": "C118", "title": "Interpolated densities between bins", "statement": "Between the centres of redshift bins, RedshiftDensityInterpolator returns the linear interpolation of the densities of bins with interp_order=1, and their cubic spline with interp_order=3 (default): the values are determined by the densities, follow any polynomial of degree 3 the densities follow, stay within 5/8 of the largest second difference from the linear interpolation for bins of the same width, and are nowhere negative for objects with non-negative weights.", "quantifier": "all samples, weights, bins, volumes, redshifts", "why_tests_cant": "a real-valued function of a list of any length; the sign between the tabulated points depends on all densities", "anchors": ["mockfactory/make_survey.py:RedshiftDensityInterpolator", "mockfactory/make_survey.py:TabulatedRadialMask"]}
{"id": "C119", "title": "Box size and centre of a new catalog", "statement": "A BoxCatalog takes the box size and centre given as arguments, otherwise those of attrs, with centre zero if there is none; it raises if no box size is given.", "quantifier": "all arguments and attributes (numbers, vectors, None)", "why_tests_cant": "combinations of arguments, defaults and attributes with any values", "anchors": ["mockfactory/make_survey.py:BoxCatalog.from_dict", "mockfactory/make_survey.py:BoxCatalog.__init__"]}
{"id": "C120", "title": "Catalogs of Lagrangian mocks: Poisson processes, homogeneous on average", "statement": "If the counts drawn in cells are independent Poisson draws of mean (1 + delta) nbar dv and the draws of positions independent and uniform, the catalog exported by a Lagrangian mock, in real space or in redshift space with a fixed line of sight and a constant growth rate, is a Poisson process: the numbers of particles in disjoint regions are independent, each with the Poisson law the mean of which is the integral of (1 + delta) nbar over the positions from which the displacement read at that position, wrapping in the box and the redshift-space move lead to the region. If moreover the law of the noise does not change under translations by cells, then for lognormal mocks, averaging over draws and realisations of the field, the mean number of particles in a region that repeats from box to box does not change when the region is translated by cells, and the mean number of particles the periodic images of which are in any given cell is nbar times the volume of the cell.", "quantifier": "all meshes, boxes, power spectra, homogeneous laws of noise, biases that are the same everywhere, densities, growth rates, fixed lines of sight, readouts that are periodic and depend on positions relative to nodes, decompositions over ranks, finite families of disjoint measurable regions", "why_tests_cant": "laws and averages over all realisations, in all regions; tests average a few mocks with some tolerance", "anchors": ["mockfactory/lagrangian_mock.py:LagrangianLinearMock.poisson_sample", "mockfactory/lagrangian_mock.py:LagrangianLinearMock.set_rsd", "mockfactory/lagrangian_mock.py:LagrangianLinearMock.set_real_delta_field", "mockfactory/gaussian_mock.py:BaseGaussianMock.poisson_sample"]}
{"id": "C121", "title": "Ranks finish together", "statement": "When all ranks of a communicator call sample of a radial or angular mask, RandomBoxCatalog, RandomCutskyCatalog, TabulatedRadialMask.normalize, or read TabulatedRadialMask from a file, all of them return, or all of them raise, with the same result in every order in which the ranks may run and whatever ranks outside of the communicator do. No rank is left waiting for the others.", "quantifier": "all numbers of ranks, all communicators and programs of other ranks, all interleavings of calls, all samples, all candidates and decisions of masks, all root finders", "why_tests_cant": "The interleavings of ranks and the programs other ranks run cannot be enumerated; a run on a few ranks shows one schedule.", "anchors": ["mockfactory/make_survey.py: BaseRadialMask.sample, BaseAngularMask.sample", "mockfactory/make_survey.py: RandomBoxCatalog, RandomCutskyCatalog", "mockfactory/make_survey.py: TabulatedRadialMask.__init__, normalize"]}
{"id": "C122", "title": "Only the ranks of the communicator are involved", "statement": "An object made with mpicomm only needs the ranks of mpicomm: a mock, with or without seed, a RedshiftDensityInterpolator with any bins, blinding by shuffle or png, and reading brick quantities end on these ranks whatever other ranks do, and the result depends on what these ranks provide only; mocks made without seed on different communicators are different.", "quantifier": "all communicators, all numbers of ranks, all programs of other ranks, all interleavings, all seeds, bins and catalogs", "why_tests_cant": "Tests run on all ranks of the machine with the default communicator, and no test can enumerate what other ranks do.", "anchors": ["mockfactory/gaussian_mock.py: BaseGaussianMock.__init__, set_real_white_noise", "mockfactory/make_survey.py: RedshiftDensityInterpolator.__init__", "mockfactory/blinding/catalog.py: CutskyCatalogBlinding.shuffle, png", "mockfactory/desi/brick_pixel_quantities.py: get_brick_pixel_quantities"]}
{"id": "C123", "title": "Mocks and selections do not depend on the number of processes", "statement": "With given seeds, the catalog made by poisson_sample, rows of all processes one after the other, is the same, in the same order, whatever the number of processes and the nodes of the mesh each of them holds; each process has the particles of as many draws as were made in its cells. Calling a mask or sampling a redshift smearing with a seed decides on each row as on one process.", "quantifier": "all meshes, fields, numbers of processes, distributions of the mesh and of rows, random streams", "why_tests_cant": "Runs on a few processes show a few distributions of one mesh.", "anchors": ["mockfactory/gaussian_mock.py: BaseGaussianMock.poisson_sample", "mockfactory/make_survey.py: BaseMask.__call__, Base2DRedshiftSmearing.sample"]}
{"id": "C124", "title": "An error on one process ends all processes", "statement": "If an input cannot be treated on some process, all processes end: when calling a mask, drawing a Poisson sample, reading brick quantities, assigning fibers or computing completeness weights on several processes, either all processes return, with the result of their rows, or all raise; none is left waiting.", "quantifier": "all numbers of processes, distributions of rows and nodes over them, interleavings, inputs, and places of the error", "why_tests_cant": "A process that waits for ever is a hang of the test itself, and it depends on which process holds the wrong row.", "anchors": ["mockfactory/make_survey.py: BaseMask.__call__, HealpixAngularMask.prob", "mockfactory/gaussian_mock.py: BaseGaussianMock.poisson_sample", "mockfactory/desi/brick_pixel_quantities.py: get_brick_pixel_quantities", "mockfactory/desi/fiber_assignment.py: apply_fiber_assignment, compute_completeness_weight"]}
{"id": "C125", "title": "Poisson sampled objects are in the box, also with rounding errors", "statement": "Each coordinate of each object drawn by poisson_sample, as computed in floating point, is in the cell it was drawn for, hence in [boxcenter - boxsize/2, boxcenter + boxsize/2), for all box sizes, centres, mesh sizes and draws.", "quantifier": "all box sizes, centres, numbers of cells, cells, draws of the generator, and binary formats", "why_tests_cant": "Only draws within a few rounding errors of 1, in the last cell, leave the box: about one in 10^15.", "anchors": ["mockfactory/gaussian_mock.py: BaseGaussianMock.poisson_sample"]}
{"id": "C126", "title": "Sampled redshift errors follow the distribution for all draws", "statement": "The redshift error sampled with a draw u at a redshift is the percent point of the distribution at u, also between tabulated probabilities: it depends on the table only, is exact for distributions whose percent points are polynomials of degree 3 or less (in particular uniform errors), increases with u, and stays in the support of the distribution.", "quantifier": "all tables, distributions, numbers of tabulated errors, draws and redshifts", "why_tests_cant": "Tests compare histograms of samples with a tolerance; errors outside of the support are drawn between tabulated probabilities only, for few distributions and draws.", "anchors": ["mockfactory/make_survey.py: Base2DRedshiftSmearing._set_interp, ppf, sample, RVS2DRedshiftSmearing.__init__"]}
{"id": "C127", "title": "Different seeds give different draws", "statement": "Samples drawn from masks with different seeds have no point in common when points drawn with different seeds are different; two masks called with different seeds keep a row with the product of their selection probabilities; all the seeds used by the cutsky script are different.", "quantifier": "all masks, selection probabilities, seeds, sizes, numbers of rounds of rejection and processes", "why_tests_cant": "Samples with neighbouring seeds look right one by one; common points show only when the samples of two seeds are compared, for masks that reject some points.", "anchors": ["mockfactory/make_survey.py: BaseMask.__call__, BaseRadialMask.sample, BaseAngularMask.sample", "desi/from_box_to_desi_cutsky.py: apply_radial_mask, generate_redshifts, main"]}
{"id": "C128", "title": "Isometries with rounding errors move positions as exact ones do", "statement": "After any history of rotations, translations (in both frames) and resets made in floating point, and after concatenations, positions are moved to where exact arithmetic moves them up to a relative error that grows linearly with the number of calls; separations of objects are kept up to the same error; the matrix of a rotation by an angle about an axis is that of the exact rotation up to rounding errors.", "quantifier": "all histories of calls of any length, positions, translations, axes whose squared coordinates do not underflow, angles in degrees or radians, floating-point formats of at least 10 bits, orders of summation with or without fused multiply-add", "why_tests_cant": "Tests run a few calls and compare with a tolerance; the accumulation of errors with the number of calls, and for all angles and positions, needs a bound.", "anchors": ["mockfactory/make_survey.py: EuclideanIsometry, rotation_matrix_from_vector_angle, _get_los"]}
{"id": "C129", "title": "Matrices from two vectors, with rounding errors, rotate the first vector to the second", "statement": "For any two non-zero vectors that are not in opposite directions, the matrix computed in floating point from these vectors is, up to rounding errors, that of a rotation which moves the first vector to the direction of the second one.", "quantifier": "all pairs of vectors not in opposite directions, floating-point formats, orders of summation with or without fused multiply-add", "why_tests_cant": "The test uses one pair of vectors; the error grows without bound as vectors get close to opposite directions, where the computed axis is made of rounding errors only.", "anchors": ["mockfactory/make_survey.py: rotation_matrix_from_two_vectors", "mockfactory/utils.py: distance"]}
{"id": "C130", "title": "Sky coordinates, with rounding errors, are accurate, and round trips give positions and sky coordinates back", "statement": "In double precision, the distance, RA and Dec computed from any position are right up to rounding errors, positions computed from sky coordinates are right up to rounding errors, and converting a position to sky coordinates and back returns it up to rounding errors, in units of its distance; converting sky coordinates to a position and back returns the distance, RA up to whole turns, and Dec, up to rounding errors in angle on the sky.", "quantifier": "all positions other than the origin whose squared coordinates do not underflow, all distances above 2^-100, RA within one turn and Dec within a quarter, degrees or radians, cosines, sines, arc sines and arc tangents of any given accuracy", "why_tests_cant": "The test converts random positions; almost none is close to a pole, where the arc sine loses half of the digits.", "anchors": ["mockfactory/utils.py: cartesian_to_sky", "mockfactory/utils.py: sky_to_cartesian", "mockfactory/utils.py: wrap_angle", "mockfactory/utils.py: distance"]}
{"id": "C131", "title": "Redshift-space positions, with rounding errors, are displaced along the line of sight", "statement": "In floating point, rsd_position returns the position displaced along the line of sight by the component of the velocity along it times the factor, up to a few hundred rounding errors of the displacement and three of the distance; along a coordinate axis the two other coordinates are returned unchanged, bit for bit.", "quantifier": "all positions, velocities and factors, lines of sight by name, by index, by vector or local, all binary formats of at least 10 bits, sums of products in any order with or without fused operations", "why_tests_cant": "The test compares one random catalog with tolerance; it cannot bound the error for every position, nor show that coordinates across an axis never change.", "anchors": ["mockfactory/make_survey.py: ParticleCatalog.rsd_position", "mockfactory/utils.py: vector_projection"]}
{"id": "C132", "title": "Sub-boxes with rounding errors share their edges and keep their particles", "statement": "In floating point, sub-boxes of a grid of ranges contain each particle of the grid once and only once; the limits and edges of a sub-box are those asked for up to a few rounding errors, and particles kept are in the new box up to rounding errors; the range from 0 to 1 keeps every particle of the box.", "quantifier": "all boxes, positions, ranges, grids of any number of increasing edges along each axis, ranges in units of the box or absolute, and all binary formats", "why_tests_cant": "The test takes one sub-box of a random catalog; a particle on an edge, that two sub-boxes would share or both miss, is almost never drawn.", "anchors": ["mockfactory/make_survey.py: BoxCatalog.subbox"]}
{"id": "C133", "title": "Moves of a box with rounding errors", "statement": "In floating point, translate adds the shift to the centre of the box and to positions with one rounding per coordinate, and leaves velocities and the size of the box unchanged bit for bit; recenter puts the centre at the origin exactly and keeps particles of the box in the box; after any number of translations, recenterings and quarter turns, positions relative to the centre and velocities are those of the start, turned by the rotation that the calls stand for, up to an error that grows by a few 1e-12 of the coordinates per call, and particles of the box stay in the box.", "quantifier": "all catalogs, all histories of calls of any length, all shifts, axes by name or index, up to four quarter turns per call, any order of sums in matrix products, with or without fused multiply-add, and any cosine and sine accurate to 2e-16; all binary formats for translate and recenter", "why_tests_cant": "Tests compare single calls on random catalogs to a tolerance; they do not tell how errors add up over any history, nor that translations leave velocities bit for bit.", "anchors": ["mockfactory/make_survey.py: BoxCatalog.translate", "mockfactory/make_survey.py: BoxCatalog.recenter", "mockfactory/make_survey.py: BoxCatalog.rotate"]}
{"id": "C134", "title": "Blinded positions with rounding errors", "statement": "In floating point, Alcock-Paczynski blinding multiplies each coordinate by the ratio of blinded to fiducial distance up to seven rounding errors, changes no sign, and gives the blinded distance up to as much; shuffling keeps rows that are not drawn bit for bit, gives the drawn rows a permutation of their computed distances (exactly, for sky coordinates; along their own direction up to seven rounding errors, for Cartesian positions) and leaves a row that gets its own distance bit for bit; it is refused exactly when the blinded growth rate is greater than the fiducial one, even by the last bit; redshift-space blinding leaves positions bit for bit when growth rates are equal, and otherwise multiplies displacements by the ratio minus 1 up to rounding errors.", "quantifier": "all binary formats with at least 10 bits, all positions other than the origin whose squares do not underflow, all blinded distances, draws, permutations, growth rates and displacements", "why_tests_cant": "Tests compare a few random catalogs with tolerances; that no sign flips, that unselected rows are equal bit for bit and that the bound on growth rates is exact are claims about every float.", "anchors": ["mockfactory/blinding/catalog.py: CutskyCatalogBlinding.ap", "mockfactory/blinding/catalog.py: CutskyCatalogBlinding.shuffle", "mockfactory/blinding/catalog.py: CutskyCatalogBlinding.rsd"]}
{"id": "C135", "title": "Redshift histograms with rounding errors", "statement": "In floating point, with a number of bins or the default bins, every object of a redshift density interpolator is in exactly one bin; edges are sorted and bin centres are in their bins. Counts without weights are exact and add up to the number of objects. With non-negative weights, the weight of a bin is not negative, is 0 for bins without objects, is positive for bins with objects of positive weight, and is the sum of weights of its objects up to rounding errors.", "quantifier": "all binary formats, all samples of floats in any order and blocks, all weights, all numbers of bins up to an eighth of the number of mantissas, all widths of the default rule, all sorting algorithms", "why_tests_cant": "Whether the last edge is rounded below the highest redshift depends on the last bits of the sample; tests on random samples hardly ever meet such values.", "anchors": ["mockfactory/make_survey.py: RedshiftDensityInterpolator.__init__"]}
{"id": "C136", "title": "Number of rounds of sampling", "statement": "Sampling N points from a mask that keeps a candidate with probability p takes, on average, at least 1/p rounds and at most (2 - 1/N)/p, so less than 2/p, on any number of ranks; a single point takes 1/p rounds on average. The chance of more than k rounds is less than 2/(p (k + 1)).", "quantifier": "all laws of candidates, masks that keep anything at all, numbers of points, ranks and numbers of rounds, over all independent draws", "why_tests_cant": "the number of rounds is not bounded, and its mean is over infinitely many histories of draws", "anchors": ["mockfactory/make_survey.py: BaseRadialMask.sample", "mockfactory/make_survey.py: BaseAngularMask.sample"]}
{"id": "C137", "title": "Lognormal mocks with rounding errors", "statement": "In floating-point arithmetic, contrasts of lognormal fields are never below -1 and mean numbers of objects per cell are never negative, so Poisson sampling is never refused; rounding does not change the order of densities. The density of each node is the exponential of the field over the mean of exponentials, and the mean contrast is zero, up to errors that grow with the number of additions one after the other, in whatever order nodes and ranks are added. Nodes far enough below the mean get no object at all. The number of objects of a cell is the one that was drawn as long as it is below half of the number of mantissas; above, it can be off by one.", "quantifier": "all fields, numbers of nodes, orders of summation, floating-point formats, exponentials accurate to a given relative error, densities and numbers drawn", "why_tests_cant": "the sum depends on the number of ranks and on the machine, and fields, sizes and formats are unbounded", "anchors": ["mockfactory/gaussian_mock.py: BaseGaussianMock.set_real_delta_field", "mockfactory/gaussian_mock.py: BaseGaussianMock.poisson_sample"]}
{"id": "C138", "title": "Sub-boxes of several cut-sky catalogs with rounding errors", "statement": "In floating-point arithmetic, whatever the box, survey and margins, sub-boxes that several cut-sky catalogs are taken from are inside the box, away from its faces by the external margin, and away from each other by the internal margin along some axis, up to a few rounding errors of the size and centre of the box; as many of them are returned as asked for. Along each axis there are as many as fit, unless the box is within a few rounding errors of a whole number of them. With positive external and internal margins given, or with default margins and room for one sub-box only, no error is raised. With default margins, an error should not be raised either when there is room for several sub-boxes.", "quantifier": "all floating-point formats, box sizes and centres, survey sizes, external and internal margins, numbers of outputs", "why_tests_cant": "the number of sub-boxes and the scaling of margins go through truncations and comparisons of rounded numbers, that fail for sizes tests do not try", "anchors": ["mockfactory/make_survey.py: BoxCatalog.isometry_for_cutsky", "mockfactory/make_survey.py: BoxCatalog.cutsky"]}
{"id": "C139", "title": "Selection of cut-sky catalogs with rounding errors", "statement": "In double precision, a row of a box that is moved close to the point at some distance, RA and Dec gets this distance, RA (up to whole turns) and Dec in the cut-sky catalog, up to the error of its position and to a few rounding errors. It is in the catalog if the point is in the asked distance, RA and Dec ranges, farther from their ends than these errors, and it is not in the catalog if the point is out of one of these ranges by more than these errors. When each row is of one of these two kinds, the catalog has the rows of the first kind, in their order and once each.", "quantifier": "all positions and columns, histories of the isometry, distance, RA and Dec ranges with RA in [0, 360), flags asking for the cuts, positive random draws, and mathematical libraries accurate up to some error", "why_tests_cant": "rows near the ends of the ranges, near the poles or near RA 0 = 360 depend on the rounding of each operation; tests try few rows", "anchors": ["mockfactory/make_survey.py: BoxCatalog.cutsky_from_isometry", "mockfactory/make_survey.py: UniformRadialMask.prob", "mockfactory/make_survey.py: UniformAngularMask.prob", "mockfactory/utils.py: cartesian_to_sky"]}
{"id": "C140", "title": "Placement of the box of a cut-sky survey with rounding errors", "statement": "In double precision, the box size of a survey is that of exact arithmetic up to 3 10^-14 of the largest distance, and the isometry of the box, or of one of several sub-boxes, moves each position where exact arithmetic does, up to 4 10^-12 of the distances. So a row whose exact position on the sky is inside the asked distance, RA and Dec ranges by more than this error is in the cut-sky catalog, and a row that is outside by more than this error is not.", "quantifier": "all positions, centres of boxes, distance ranges, RA ranges within [0, 360) also through RA = 0, Dec ranges, orders of sums in products of matrices, and mathematical libraries whose sines and cosines are within 2 10^-16", "why_tests_cant": "the size, the translation and the two rotations are each computed from rounded arguments, for any survey; tests try a few surveys with loose tolerances", "anchors": ["mockfactory/make_survey.py: cutsky_to_box", "mockfactory/make_survey.py: BoxCatalog.isometry_for_cutsky", "mockfactory/make_survey.py: BoxCatalog.cutsky_from_isometry"]}
{"id": "C141", "title": "Catalogs of one cutsky call have no object in common, with rounding errors", "statement": "In double precision, for a survey within 60 degrees of the equator, each row of a catalog of cutsky with several outputs is a row of the box, moved to within 4 10^-14 of the largest distance of a point in the asked distance, RA and Dec ranges. If the box covers the survey, its position is in the sub-box of this catalog, or outside by at most the error of the isometry plus 6 10^-14 of the largest distance. So if the internal margin exceeds twice this, and the errors of the centres of sub-boxes, no object is in two of the catalogs.", "quantifier": "all catalogs, boxes, margins, numbers of outputs, ranges, draws of the masks other than 0, orders of sums in products of matrices and accurate mathematical libraries; coordinates whose squares do not underflow", "why_tests_cant": "an object near a face could be cut into two catalogs by errors in the sizes, centres, isometries, sky coordinates and masks together; tests try a few catalogs with objects far from faces", "anchors": ["mockfactory/make_survey.py: BoxCatalog.isometry_for_cutsky", "mockfactory/make_survey.py: BoxCatalog.cutsky_from_isometry", "mockfactory/make_survey.py: BoxCatalog.cutsky"]}
{"id": "C142", "title": "Ranges returned by box_to_cutsky, with rounding errors", "statement": "In double precision, when the maximum distance does not exceed the depth of the box, box_to_cutsky returns ranges, with distances from 0 to the maximum, and each point in them is in the box, or outside by at most 10^-14 of the maximum distance plus the error of the arc sine. On the equator and on the meridian through the axis, points at the maximum distance that are in the box, and farther than this from its faces, are in the ranges. For an observer out of the box, points in the ranges are not beyond the far face, and not outside of the sides by more than 2 10^-7 of the maximum distance; on the equator and on the meridian they are not in front of the near face by more than 10^-14 of it. If the near corners are not nearer than the maximum distance, a minimum distance that does not reach the box raises ValueError.", "quantifier": "all boxes, maximum and minimum distances, points and accurate mathematical libraries", "why_tests_cant": "an arc sine near 90 degrees, its conversion to degrees or a comparison with 1 could be off by rounding for some sizes; tests compare a few boxes", "anchors": ["mockfactory/make_survey.py: box_to_cutsky"]}
