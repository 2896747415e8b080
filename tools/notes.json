{
 "C04": {
  "note": "rotation(frame='current') ignores the frame: refuted; proved for translations, dot, and rotation in the origin frame."
 },
 "C07": {
  "note": "antiparallel vectors give the identity: refuted; proved for all other pairs of non-zero vectors."
 },
 "C63": {
  "note": "dot with an unknown frame mutates the rotation before raising: refuted; proved for all other calls."
 },
 "C11": {
  "note": "double shift (positions updated while looping over cells) and sign-flipped identity put positions outside the cuboid: both refuted; proved for positions matched by at most one shifting cell and for the identity."
 },
 "C12": {
  "note": "holds for cubic boxes (volume, separations up to periodic images); for boxes with different sides refuted."
 },
 "C14": {
  "note": "soundness and completeness proved for every iteration order of the set; 'each once' and maxcomb=0 refuted."
 },
 "C64": {
  "note": "lengths of vectors for any box; consistency with displacements for cubic boxes, refuted otherwise."
 },
 "C22": {
  "note": "refuted when distance, RA and Dec are all integers (the unit vector is truncated); proved otherwise, poles included."
 },
 "C24": {
  "note": "equality with the integral of cos(Dec); sign and monotonicity for increasing limits; refuted for RA ranges wrapping through 0."
 },
 "C25": {
  "note": "proved for constant factors; with a callable factor refuted for any number of particles but 1 (raises; silently wrong for 3)."
 },
 "C08": {
  "note": "shallow copy of mpytools: 0 + x shares the translation array, refuted; proved for all programs without it, and for all programs if copy copies the arrays."
 },
 "C09": {
  "note": "every history of translate/recenter/rotate about a coordinate axis; rotate with the default axis=None refuted."
 },
 "C17": {
  "note": "itertools.product(shifts) instead of product(*shifts): images lost, repeated, or ValueError for factors above 2, refuted three times; proved: exact output, and every row is a periodic image in the padded box."
 },
 "C18": {
  "note": "all programs if copy copies the box size array; if copy shares it, all programs without pad, and pad refuted."
 },
 "C65": {
  "note": "proved for lattice vectors; a Cuboid built for another box is accepted and gives a wrong box: refuted."
 },
 "C19": {
  "note": "every successful layout is inside, apart and maximal; refuted: leaving one of the two margins free fails an internal assertion, and a zero external margin with a single sub-box gives nan."
 },
 "C20": {
  "note": "proved with the observer in the box; from outside, the near corners of the ranges are in front of the box (refuted), the exact set of contained points is given; sides above 2 dmax give nan."
 },
 "C21": {
  "note": "exact set of covered positions for all ranges; full coverage for dmin = 0, centred on the equator, at most 180 degrees in RA; refuted: near corners with dmin > 0, other declinations, more than 180 degrees, the full turn (0, 360)."
 },
 "C26": {
  "note": "rows of probability 0 are kept when the draw is exactly 0, a possible value (C26_zero_violated); the rest of the claim is proved."
 },
 "C27": {
  "note": "rows with an unregistered label get probability 1 and are always kept (C27_unregistered_violated)."
 },
 "C28": {
  "note": "increasing RA ranges through RA=0, such as (-60, 40) or (-180, 180), lose the part after RA=0 (C28_crossing_violated, C28_turn_violated); all other ranges are exact."
 },
 "C30": {
  "note": "requesting no point raises ValueError (C30_empty_violated); otherwise sizes, acceptance and sequence are proved for every history and any number of ranks."
 },
 "C31": {
  "note": "decisions of masks use unseeded draws and the order of points depends on the ranks as soon as there are two rounds (C31_seed_violated, C31_ranks_violated); proved for masks that accept everything, and up to order without overshoot."
 },
 "C34": {
  "note": "a list of isometries loses rdd (C34_list_violated); cutsky itself is exact for plain RA ranges."
 },
 "C35": {
  "note": "position column name ignored, negative sizes for wrapped ranges, (-60, 40) not filled (C35_*_violated)."
 },
 "C29": {
  "note": "Linear interpolation: prob in [0,1], zero outside the range, rejections, and (default normalisation) proportional to nbar and reaching 1 over the whole table, when the limits of the range are nodes, or when no tabulated density is above those of the range. Otherwise violated: densities outside the range are clipped before interpolation (C29_clipped_violated); a range without nodes is rejected (C29_narrow_violated); with the default cubic interpolation prob can be negative (C29_cubic_violated, C29_spline_negative_violated: with the default normalisation, search of the maximum included). Splines of order 2 and more: C29_spline_partial (nodes, outside, fine grid), C29_spline_concave (bounded for concave parabolas); the search of the maximum never ends for some tables (C29_spline_hang_violated)."
 },
 "C32": {
  "note": "Expected number per shell unchanged, default edges, back conversion restores the mask; splines of order 1."
 },
 "C33": {
  "note": "Monotone and continuous in the norm, for a sample and for the integral over the range; target met when weights are given, or without sample (exact root finder, existence by the intermediate value theorem); rejections; weights up to a constant; samples on one rank or spread over ranks give the same integral on every rank. Violated without weights: the expected number, not the fraction, is set to the target; without sample the integral over the range is not divided by its length; target 0 gives nan."
 },
 "C36": {
  "note": "Default (any positive width in place of the Scott rule) and integer bins: one bin per object, counts exact, sum of nbar*volume is the total weight, independent of order and ranks."
 },
 "C37": {
  "note": "Linear interpolation: exact at the nodes, increasing, between neighbouring nodes as the true redshift, raises outside, identity relation recovered exactly."
 },
 "C58": {
  "note": "1D errors: the tabulated cdf is non-decreasing from 0 to 1 with exact rows; averages are weighted means between the extremes, again non-decreasing; points map end to end and increase for finite supports, supports bounded above and the whole line. Violated: supports bounded below only (all points but the first infinite, smearing rejected), different bounds per redshift, decreasing errors clipped to a constant, pdfs with a gap rejected. The cubic splines enter only through their nodes."
 },
 "C38": {
  "note": "Box and mesh sizes from any two of the three arguments, rounding to the nearest mesh, missing arguments rejected. Violated: cellsize silently ignored when boxsize and nmesh are given; python lists raise TypeError."
 },
 "C39": {
  "note": "1 + delta positive with mean 1 over the mesh after the lognormal transform, the exponential up to the norm, biased field at each node."
 },
 "C40": {
  "note": "Counts per cell, positions in their cell, cells in order and independent of the distribution over ranks; densities below -1 make poisson_sample raise (C40_rejects); mean counts as documented."
 },
 "C41": {
  "note": "Particles in the box after sampling; after set_rsd they may leave it (C41_rsd_violated), and a callable f raises for other than 1 or 3 particles."
 },
 "C42": {
  "note": "Fixed line of sight: exact for all modes; the modes of the result are b + f mu^2 times the field where the multiplier is Hermitian (axis-aligned line of sight or odd mesh). Local line of sight: equal at each node to the fixed one along the node, for even meshes; violated on odd meshes and at a node at the observer (nan)."
 },
 "C43": {
  "note": "Real on even meshes (displacements, local RSD), for axis-aligned lines of sight or odd meshes (fixed RSD, anisotropic power). Violated otherwise, with modes stored by pmesh (plane k_z = 0)."
 },
 "C44": {
  "note": "Order 2 (interlacing 1 or 2): shifts agree, sums of waves below the Nyquist frequency are reproduced, odd aliases vanish. Orders of 3 or more: all phases wrong, every wave with frequencies of non-zero sum is damaged."
 },
 "C60": {
  "note": "Amplitude and phase of each mode, unitary amplitude, inverted phase, zero mean; negative power gives nan."
 },
 "C66": {
  "note": "Exact coordinates, inside the box, distinct."
 },
 "C67": {
  "note": "Divergence and curl for modes off the planes where an index is half the mesh size (rounded down); zero mean; violated on odd meshes, where a mode other than the Nyquist one is dropped."
 },
 "C68": {
  "note": "Window bounds, exact modes, real field, sum preserved, one to one."
 },
 "C69": {
  "note": "Documented names, resamplers in any case, values at nodes, unknown names rejected. Violated: nbar set to a constant cannot be read; LagrangianLinearMock.readout ignores compensate."
 },
 "C70": {
  "note": "Norm of constants and callables, amplitude of noise; not finite where the selection function vanishes (C70_empty_violated)."
 },
 "C45": {
  "note": "drawn within sigma, uniform, deterministic; refuted: with z given, densities are drawn around their value at z but stored as today's; the default call raises"
 },
 "C46": {
  "note": "violated for negative redshifts (mirrored); the origin gives nan"
 },
 "C47": {
  "note": "for all reconstructions, instance or run by name, rows scattered or on one rank"
 },
 "C48": {
  "note": "full shuffle behaviour; refuted: equal growth rates shuffle all objects instead of none"
 },
 "C49": {
  "note": "weights methods: exact field, with the shot noise correction too (C49_data_weights_shotnoise_partial: the factor is the largest one giving the expected power at the pivot, C49_shotnoise_factor, from the noise of C49_shotnoise_noise); refuted: shot noise correction with fnl = 0 (nan), with a reconstruction instance (NameError), for a contrast divided by the bias (C49_shotnoise_bias_violated); positions methods ignore the position type and, on even meshes, keep the largest frequency"
 },
 "C50": {
  "note": "round trips and scatter; refuted: a None coordinate on one rank makes that rank raise and the others wait"
 },
 "C71": {
  "note": "mean over scattered rows, or on one rank without weights; refuted: weights with mpiroot are not scattered"
 },
 "C51": {
  "note": "Holds for every run, any number of passes and ranks, when no target lies on two tiles of one pass (C51_partial, with the sum kept under weaker hypotheses in C51_conservation). With overlapping tiles of one pass a target is observed twice and the bookkeeping written once: refuted (C51_violated)."
 },
 "C52": {
  "note": "Exact content of a pass for every row (C52_pass); an observed target is available and carries its fiber when every fiber reaching it works, or the first listed one does (C52_reachable_partial, C52_run_partial). An observed target whose first listed reaching fiber is broken is not flagged available: refuted (C52_violated)."
 },
 "C53": {
  "note": "Exact closed form of the weights for every table (C53_weight), undefined exactly for unobserved targets and at least 1 (C53_defined); the sum over observed targets is the number of observed plus available targets after any run on tiles disjoint within a pass (C53_conservation_partial). With overlapping tiles an available target is counted by nobody: refuted (C53_violated)."
 },
 "C54": {
  "note": "Order of rows kept for every run (C54_order, C54_total); the completeness weights do not depend on the distribution (C54_weights); the assignment does not depend on it for disjoint tiles and an engine that looks only at the targets of the tile (C54_layout_partial), and does for overlapping tiles (C54_violated)."
 },
 "C55": {
  "note": "C55_partial: for every schedule of the sort across ranks, every layout and every column request whose column types agree across bricks, each object receives in input order exactly the quantities of its own brick and pixel; C55_unique says these quantities are determined, C55_layout_partial that the layout over ranks does not matter. Missing from the full claim, with witnesses: a column whose type differs between bricks is stored in the type of the first brick (C55_types_violated); a position outside the image reads the opposite edge (C55_outside_violated); a callable taking the documented region argument is always called without it (C55_callable_violated)."
 },
 "C56": {
  "note": "C56_passes, C56_any: for all tile tables, releases, programs, surveys and positions, kept iff at least npasses (or some) selected tiles cover the position, the selection being spelled out per release in Spec/Footprint; C56_rows, C56_row: the rows returned; C56_monotone_passes, C56_monotone_tiles; C56_unknown, C56_unreadable: errors. desimodel enters through its documented contract (DesimodelOk); a position exactly at the tile radius is not distinguished between its two functions."
 },
 "C59": {
  "note": "C59_exact gives the regions used without regressis; C59_disjoint holds everywhere, C59_cover_partial away from declination 32.375. Missing, with witnesses: declination 32.375 is in no region (C59_cover_violated); N+SNGC is the whole south without the north (C59_union_violated); an unknown name gives UnboundLocalError and not ValueError (C59_center_error_violated); the two functions know different names (C59_names_violated); the centre of N+SNGC is outside of it (C59_center_inside_violated). With regressis (C59_regressis_partial) the union and disjointness follow from those of its maps."
 },
 "C72": {
  "note": "C72_partial holds if both or none of the variables are set; otherwise C72_redux_violated (the tile files are looked for under DESI_SURVEYOPS) and C72_ops_violated (no default)."
 },
 "C73": {
  "note": "The function returns rows of the selected table and not identifiers (C73_violated); C73_partial says exactly which rows."
 },
 "C74": {
  "note": "C74_keep gives the catalog returned exactly; C74_unknown the rejections; the catalog of the caller receives the column HPX (C74_input_violated)."
 },
 "C75": {
  "note": "Violated with exact arithmetic: all accepted lattices give the same size, hence one key, and the script takes the second one (IndexError). In double precision (C75_rounded) rounding errors make at least two keys whatever the order of enumeration, the script does not raise, and the lattice it takes is one of the requested sides; with such a lattice the remapping is as claimed in exact arithmetic (C75_remap_partial). Missing: the remapping itself with rounding (see C114)."
 },
 "C76": {
  "note": "Violated: keyword wrap does not exist and raises TypeError. C76_rows_partial is the claim for the function without that keyword."
 },
 "C77": {
  "note": "C77_selected_partial: for contiguous bins, exactly the rows whose draw is below the normalised interpolated density. Violated: default range, bins with gaps, largest probability below 1, endless search, caller's column Z overwritten."
 },
 "C78": {
  "note": "C78_rows, C78_files, C78_mixture, C78_bounded and C78_units hold for all tables; unknown tracers and uncertainties are not rejected with ValueError (C78_unknown_tracer_violated, C78_uncertainty_violated)."
 },
 "C79": {
  "note": "State machine of the mock object. Field values behind each stage are those of C37 to C45 and C66 to C69; the power spectrum and the generator are arbitrary modes."
 },
 "C80": {
  "note": "Fails: documented positional order swaps box size and mesh size, the documented Eulerian and Lagrangian runs raise AttributeError since no selection function is set, and the documented 'interlaced' and '1+delta' raise."
 },
 "C81": {
  "note": "Fails: every call of ArrayMesh raises, NameError in general. Proved: the type guess."
 },
 "C82": {
  "note": "Tile tables, releases, files and dates are parameters; field rotation (desimodel) and the masks of desitarget are abstracted. tile identifiers above six digits are covered by injectivity only."
 },
 "C83": {
  "note": "status and target bits are arbitrary distinct bits; an empty list of tiles reads the empty file name (C83_none)."
 },
 "C84": {
  "note": "the parsing of integers is a parameter; rosettes repeated in the table keep the last values, which the theorem excludes."
 },
 "C85": {
  "note": "Defects: --mock_fn raises NameError (mpicomm undefined); the covariance script raises NameError on the first catalog (outdir undefined on import); with default options fewer randoms are written than read."
 },
 "C86": {
  "note": "float rounding of the fraction not modelled; draws uniform on [0, 1)."
 },
 "C87": {
  "note": "exact arithmetic; numpy rounding not modelled."
 },
 "C88": {
  "note": "pycorr counts and estimators are arbitrary reals; one mock (numpy-version dependent) excluded in the covariance."
 },
 "C89": {
  "note": "One group and one catalog, up to the sky coordinates. The lattice is looked up with exact numbers (the script uses 17-digit floats as keys); rows of the remapped box exactly at the observer are excluded for data."
 },
 "C90": {
  "note": "The contract of desimodel (a point is inside if some tile covers it) and the probability of the radial mask are parameters."
 },
 "C91": {
  "note": "Exact rows of each catalog for draws other than exactly 0 and plain RA ranges (C91_one_partial, C91_many_partial), columns in range, completeness away from the poles. Disjointness is proved when the box of cutsky_to_box holds the whole survey (or for positive internal margins, away from common faces); C91_shared_violated shows that it fails for surveys away from the equator, whose box is too small (C18). With several outputs the rdd names are not passed on (defaultRdd in C91_many_partial)."
 },
 "C92": {
  "note": "Stated for runs without sky targets loaded before; by C93_ignored_violated those with them are the same runs."
 },
 "C93": {
  "note": "The files read and the labels (for tiles in order of identifiers) are right, but the sky targets given to apply_fiber_assignment are never used (C93_ignored_violated, C93_not_used_violated), labels are wrong for tiles in another order (C93_labels_violated), and nothing is read from a directory with a dot in its path with bigfile (C93_bigfile_violated)."
 },
 "C94": {
  "note": "Proved for the current version and for completeness weights. The earlier version ends iff in each pass all ranks or no rank have tiles (C94_earlier_iff); it hangs when there are more ranks than tiles (C94_more_ranks_violated). Calls are modelled by the list of collective calls of each rank; hangs due to an exception on one rank are not modelled."
 },
 "C95": {
  "note": "Exact spline through the bins, exact condition of success, independence from ranks. Refuted: the density is zero at the lowest redshift of the sample (and at the highest with a number of bins), the default constructor fails for all samples of at most 11 redshifts, Scott's rule counts the redshifts of the default communicator. Behaviour between centres: C118 for orders 1 and 3."
 },
 "C96": {
  "note": "Exact errors at, between and outside of tabulated redshifts, independence from ranks, tables of both constructors. Refuted: errors specific to each redshift (documented 2-D dz) are refused for more than two redshifts, and for two redshifts the first one gets a single error. Values between tabulated probabilities are in C126."
 },
 "C97": {
  "note": "The weighted mean and the refused inputs are proved. Refuted: redshifts of the inputs are not compared, output transforms are compared before the transform to the support."
 },
 "C98": {
  "note": "Proved for the program without the unknown keyword of C76: rows of the data file of a region (C98_data_partial), rows and redshifts of the randoms when their RA range does not go through 0 (C98_randoms_partial, C98_produced), number of randoms, which files are written when no region raises and which when one does (C98_files_partial), the centre of the box is seen at the centre of the region. Refuted: the program as it is ends with an exception before it writes anything; randoms of the region DS are only West of RA 0; a region without data ends the program. Missing: brick quantities, formats of files."
 },
 "C99": {
  "note": "Round trip proved for an empty folder and directories with different bases of names without dots (for bigfiles, also no dot in the path of the folder). Fails for a folder that has files of an earlier run with more files (rows come twice) and for two directories with the same base (rows of the first are lost). Reading as bigfile from a folder with a dot in its path: see C93."
 },
 "C100": {
  "note": "Draws are independent uniform random variables; only the draws of both masks for the same row need be independent for the expected numbers."
 },
 "C101": {
  "note": "For any law of the candidates and any measurable probability; the candidates of the masks of this package are those of C102."
 },
 "C102": {
  "note": "Partial: RA ranges given as (-60, 40) get no point between 0 and 40 (C102_crossing_violated). For all other ranges, the law of the whole catalog is proved for measurable regions of any shape, in the box and in the sector of the sky (C102_box_regions, C102_cutsky_regions_partial)."
 },
 "C103": {
  "note": "Blinded parameters: density parameters with a redshift are drawn around the density at that redshift (C45_density_violated), hence the suffix. Redshift errors: percent points are assumed increasing, which the cubic splines do not ensure (C126_range_violated)."
 },
 "C104": {
  "note": "That the noise of pmesh is white is a hypothesis (WhiteModes), shown to be met by the transform of independent Gaussian draws at nodes. In redshift space, lines of sight that are not along an axis are covered for odd mesh sizes only (C42), hence the suffix. Lognormal fields: the correlation is proved before the division by the mean over nodes (C104_lognormal), the law after it is shown to depend on the power spectrum only (C104_law)."
 },
 "C105": {
  "note": "That numpy's draws follow Poisson and uniform laws, independently, is a hypothesis, shown to be met."
 },
 "C106": {
  "note": "Homogeneity of the noise of pmesh and the laws of numpy's draws are hypotheses, shown to be met. Averages over field and draws are iterated integrals."
 },
 "C107": {
  "note": "Partial: on meshes with an odd number of cells a side, displacements along the last axis lose modes (C107_disp_violated) and local lines of sight are wrong (C107_local_violated). With a fixed line of sight, C107_kaiser holds for all mesh sizes, in the planes of self-conjugate modes C107_planes says what the modes are."
 },
 "C108": {
  "note": "Violated for numpy arrays of floats (normalised in place) and for integers (TypeError); the exact condition for the call to be harmless is proved, and that repeating the call changes nothing more."
 },
 "C109": {
  "note": "Proved for all programs if catalogs copy their arrays; if they share them (depends on mpytools), proved for Eulerian mocks and for Lagrangian mocks whose distortions are all set before the first export, and violated otherwise."
 },
 "C110": {
  "note": "Violated: a dictionary given to MaskCollection, a file alone given to TabulatedRadialMask, an object given to MangleAngularMask, a file with ranges given to HealpixAngularMask all raise. The other ways are proved."
 },
 "C111": {
  "note": "Range 0 to 360 included (double and single precision), accuracy in double precision. Violated at the upper end: tiny negative angles give 360, and wrapping again gives 0; in single precision radians can exceed 2 pi."
 },
 "C112": {
  "note": "Range with both faces, accuracy. Violated at the upper face."
 },
 "C113": {
  "note": "Proved without underflow of the squares of coordinates; with underflow violated (nan at a distance of 2^-600)."
 },
 "C114": {
  "note": "False in double precision: for lattice vectors (2, 1, 0), (1, 1, 0), (0, 0, 1) the positions (1/4, 1/8 - 3/2^56, z) are in no cell, and transform raises CuboidError for any catalog with one of them. Proved: when the error is raised, that the choice of faces and tiles by the corners of the unit cube is harmless with rounding errors, the error of the test of a face given its normal, and that the default lattice vectors refuse no position. Missing: a bound of the errors of the normals for general lattices."
 },
 "C115": {
  "note": "Ranges within [0, 360) are proved, without loss and up to 2^-41 degrees. False for ranges of a full turn: with (30, 390) the rounded ends differ by 2e-14 degrees and the mask selects nothing else, where exact arithmetic selects 30 to 360 (itself short of the full turn, C28)."
 },
 "C116": {
  "note": "Proved for the closed box, and below the upper face for boxes around the origin. The upper face is reached for other centers: 1200 in the box of side 1200 around 600."
 },
 "C117": {
  "note": "C117_exact and C117_maxcomb hold for any format with sizes as computed. One entry per size is violated in double precision (C117_same_size_violated). Overflow is left out."
 },
 "C118": {
  "note": "Orders 1 and 3. Determined by the nodes (C118_unique), linear (C118_linear, C118_nonneg), cubic spline (C118_cubic), reproduction of cubic polynomials, distance to the linear interpolation. Violated with order 3: negative densities (C118_negative_violated)."
 },
 "C119": {
  "note": "Violated by the default arguments: boxcenter=0. hides the centre of attrs, whereas boxsize=None does not hide their size (C119_center_violated); C119_center_partial is for boxcenter=None."
 },
 "C120": {
  "note": "the laws of draws and the homogeneity of noise are hypotheses (contracts of numpy and pmesh); the readout of pmesh is any function that is periodic and relative to nodes"
 },
 "C121": {
  "note": "Holds for sampling, random catalogs and normalisation in every order of execution and whatever other ranks do. Refuted for tables read from a file that cannot be read: the first rank raises and the others wait. Partial for readable files."
 },
 "C122": {
  "note": "Refuted: without seed, with default bins, in shuffle, in png and for brick quantities, calls go to the current communicator instead of that of the object: ranks wait for others, or different groups of ranks share a seed or a width of bins. Partial: with a seed or given bins, or if the communicator is the current one."
 },
 "C123": {
  "note": "Streams of mpytools, ravel and unravel of pmesh and mpsort are modelled from their documented behaviour: the draw of a row depends on the seed, its global number and the arguments of all rows; a ValueError of numpy is taken to end all ranks."
 },
 "C124": {
  "note": "fails: when the probabilities of a mask cannot be computed on a process (Healpix mask with a declination that is not a number), when a mean density is negative and the mesh is larger than a chunk, when a column of bricks is unknown and a process has no rows, or when the assignment of a tile raises, other processes wait for ever. Proved where no process raises, for completeness weights, and for negative means in one chunk."
 },
 "C125": {
  "note": "The lower face holds always (C125_lower), positions are those of exact arithmetic to within 16 rounding errors (C125_error), and objects stay in their closed cell if nodes are floats (C125_nodes_partial, C125_upper_partial). Otherwise an object may be above the upper face, or on it (C125_above_violated, C125_end_violated)."
 },
 "C126": {
  "note": "Errors depend on the table only (C126_unique), are exact for percent points that are polynomials of degree 3 (C126_cubic, C126_uniform), and are in the range of errors to within 5/8 of the largest second difference of tabulated percent points (C126_range_partial). Refuted: a draw between tabulated probabilities may give an error outside of the support, below that of a smaller draw (C126_range_violated)."
 },
 "C127": {
  "note": "Violated for masks that reject points: each round of rejection adds one to the seed, and the sample with seed s consists of the points kept in its first rounds followed by those of the sample with seed s+k (C127_shared_violated, exact on one process for masks with probabilities 0 and 1). Masks called with the same seed decide with the same draws (C127_same_seed_violated). Proved: samples with seeds further apart than the number of rounds share no point, uniform masks for all different seeds; independence of generators of different seeds is an assumption on mpytools and numpy."
 },
 "C128": {
  "note": "Any format, any order of summation, with or without fused multiply-add, no overflow. C128_rotation covers any axis (divided by its length twice, as the code does) and angles in degrees or radians, with the errors of np.cos and np.sin as hypotheses; formats of at least 10 bits. In double precision the constants are worked out for angles up to a turn and up to a million calls."
 },
 "C129": {
  "note": "Violated for vectors in nearly opposite directions (C129_opposite_violated: the first coordinate 10 should become -10 and stays 10). C129_accuracy bounds the error for all angles below 180 degrees, by an amount that grows as tan(θ/2), for formats of at least 10 bits and without underflow in the vector product; C129_double needs no hypothesis on underflow, for coordinates that are zero or between 1e-20 and 1e20."
 },
 "C130": {
  "note": "Violated close to the poles (C130_pole_violated: at a distance of 2 ** 27, an object at 1 from the axis comes back on it). C130_sky and C130_position bound the error of each of the two functions everywhere; C130_round_trip_partial gives back z up to 21 rounding errors everywhere, and x and y up to 60 plus some over the cosine of Dec, the sum being below the square root of 28 rounding errors; C130_back_partial gives back the distance up to 55 rounding errors, RA and Dec up to some hundreds over the cosine of Dec, and Dec up to the square root of some hundreds; C130_double_partial and C130_back_double_partial give numbers."
 },
 "C131": {
  "note": "The factor is a number. The origin with the local line of sight, where the code divides zero by zero, is left out; so are lines of sight with coordinates whose squares underflow."
 },
 "C132": {
  "note": "The range from 0 to 1 loses particles when the edges of the box are not floats (C132_whole_violated, a box of size 1.1 centred at 10); it keeps all of them otherwise (C132_whole_partial), such as boxes centred at the origin or with a corner there."
 },
 "C133": {
  "note": "Moves in place of BoxCatalog in binary64 for histories of any length; translate and recenter for every binary format. Particles stay in the box up to 6e-12 of the coordinates per call (C133_contained_partial), not exactly: a quarter turn makes the side of a box of 1000 shorter and leaves a particle of the edge out (C133_rotate_violated). Coordinates met on the way are bounded by M and velocities by V, at least 1e-100; overflows, infinities and nan are not modelled."
 },
 "C134": {
  "note": "One process (ranks in C48); values of cosmological functions and displacements of reconstruction are arguments; the cosmological distance of blinded redshifts itself is not rounded here."
 },
 "C135": {
  "note": "Number of bins: every object in one bin (C135_number, C135_total), for redshifts that do not differ by the smallest floats only. Default bins: objects above the last edge are in no bin and are within four rounding errors of the highest redshift (C135_default_partial); refuted: for some redshifts and width the object of highest redshift is lost (C135_default_violated; the width of the rule is an argument). Weights: accuracy relative to the total weight (C135_weights); refuted: a bin with objects may have weight 0 (C135_weights_violated), since numpy takes differences of cumulative sums. One process; volumes of shells are in C36 without rounding."
 },
 "C136": {
  "note": "Draws are taken to be independent with the same law, whatever the seeds of rounds and ranks; the generator of numpy is not modelled."
 },
 "C137": {
  "note": "Overflow is left out. Exponentials of the C library are assumed to be floats, not negative, and accurate to a relative error. What pmesh does between writing numbers of objects to the mesh and reading them is taken to be exact."
 },
 "C138": {
  "note": "Violated for default margins: 8 sub-boxes of size 360 fit in a box of size 3000, yet in double precision the rescaling factor of equal margins is rounded below 1 and an AssertionError is raised (C138_default_violated). The rest holds: sizes of sub-boxes, margins up to slack = u (24 B + 2 |c|), equal margins by default, exact number of sub-boxes, no error with margins given or a single sub-box."
 },
 "C139": {
  "note": "positions given within an error (C128 for the isometry); RA ranges within [0, 360); draws that are exactly 0 and overflow are left out"
 },
 "C140": {
  "note": "RA ranges within [0, 360), Dec within [-90, 90]; coordinates whose squares underflow and overflow are left out"
 },
 "C141": {
  "note": "for RA ranges within [0, 360) from the first to the second bound, Dec within 60 degrees and both masks; that the box covers the survey is C21 (proved for surveys centred on the equator that reach the observer); without internal margins nothing is proved"
 },
 "C142": {
  "note": "that the ranges are as wide as the box allows is proved for observers in the box; squares are taken as rounded exact squares; the library is taken to return arc sines that are not negative for numbers that are not negative"
 }
}