{"claims": [
{"property": "C01", "status": "proved", "theorems": ["Verif.Props.C01_concatenate", "Verif.Props.C01_add", "Verif.Props.C01_sum", "Verif.Props.C01_monoid", "Verif.Props.C01_append"], "note": ""},
{"property": "C02", "status": "proved", "theorems": ["Verif.Props.C02_rigid", "Verif.Props.C02_history"], "note": ""},
{"property": "C03", "status": "proved", "theorems": ["Verif.Props.C03_difference", "Verif.Props.C03_norm", "Verif.Props.C03_translation"], "note": ""},
{"property": "C04", "status": "partial", "theorems": ["Verif.Props.C04_translation", "Verif.Props.C04_rotation_origin", "Verif.Props.C04_dot", "Verif.Props.C04_rotation_current_violated", "Verif.Props.C04_rotation_current_partial"], "note": "rotation(frame='current') ignores the frame: refuted; proved for translations, dot, and rotation in the origin frame."},
{"property": "C05", "status": "proved", "theorems": ["Verif.Props.C05_reset_rotation_origin", "Verif.Props.C05_reset_rotation_current", "Verif.Props.C05_reset_translate"], "note": ""},
{"property": "C06", "status": "proved", "theorems": ["Verif.Props.C06_rodrigues", "Verif.Props.C06_laws", "Verif.Props.C06_invalid", "Verif.Props.C06_other_axes"], "note": ""},
{"property": "C07", "status": "partial", "theorems": ["Verif.Props.C07_partial", "Verif.Props.C07_violated"], "note": "antiparallel vectors give the identity: refuted; proved for all other pairs of non-zero vectors."},
{"property": "C08", "status": "partial", "theorems": ["Verif.Props.C08_values", "Verif.Props.C08_values_partial", "Verif.Props.C08_spec_operands", "Verif.Props.C08_zero_add_violated"], "note": "shallow copy of mpytools: 0 + x shares the translation array, refuted; proved for all programs without it, and for all programs if copy copies the arrays."},
{"property": "C09", "status": "partial", "theorems": ["Verif.Props.C09_translate", "Verif.Props.C09_translate_rejected", "Verif.Props.C09_recenter", "Verif.Props.C09_translate_back", "Verif.Props.C09_translate_back_axis", "Verif.Props.C09_rotate", "Verif.Props.C09_rotate_size", "Verif.Props.C09_history", "Verif.Props.C09_history_steps", "Verif.Props.C09_contained", "Verif.Props.C09_turns", "Verif.Props.C09_no_axis_violated"], "note": "every history of translate/recenter/rotate about a coordinate axis; rotate with the default axis=None refuted."},
{"property": "C10", "status": "proved", "theorems": ["Verif.Props.C10_init", "Verif.Props.C10_total", "Verif.Props.C10_inverse", "Verif.Props.C10_inverse_vectors"], "note": ""},
{"property": "C11", "status": "partial", "theorems": ["Verif.Props.C11_single_partial", "Verif.Props.C11_identity_partial", "Verif.Props.C11_flipped_violated", "Verif.Props.C11_double_shift_violated"], "note": "double shift (positions updated while looping over cells) and sign-flipped identity put positions outside the cuboid: both refuted; proved for positions matched by at most one shifting cell and for the identity."},
{"property": "C12", "status": "partial", "theorems": ["Verif.Props.C12_sizes", "Verif.Props.C12_volume_partial", "Verif.Props.C12_separation_partial", "Verif.Props.C12_volume_violated"], "note": "holds for cubic boxes (volume, separations up to periodic images); for boxes with different sides refuted."},
{"property": "C13", "status": "proved", "theorems": ["Verif.Props.C13_orthogonalize", "Verif.Props.C13_unique"], "note": ""},
{"property": "C14", "status": "partial", "theorems": ["Verif.Props.C14_exact", "Verif.Props.C14_maxcomb", "Verif.Props.C14_maxcomb_bound_partial", "Verif.Props.C14_maxcomb_zero_violated", "Verif.Props.C14_once_violated"], "note": "soundness and completeness proved for every iteration order of the set; 'each once' and maxcomb=0 refuted."},
{"property": "C15", "status": "proved", "theorems": ["Verif.Props.C15_gcd", "Verif.Props.C15_gcd_short", "Verif.Props.C15_gcd_pair", "Verif.Props.C15_coprime_triples"], "note": ""},
{"property": "C16", "status": "proved", "theorems": ["Verif.Props.C16_exact", "Verif.Props.C16_arguments", "Verif.Props.C16_contained", "Verif.Props.C16_split_x", "Verif.Props.C16_split_y", "Verif.Props.C16_split_z"], "note": ""},
{"property": "C17", "status": "partial", "theorems": ["Verif.Props.C17_exact_partial", "Verif.Props.C17_sound_partial", "Verif.Props.C17_lost_violated", "Verif.Props.C17_repeated_violated", "Verif.Props.C17_large_violated"], "note": "itertools.product(shifts) instead of product(*shifts): images lost, repeated, or ValueError for factors above 2, refuted three times; proved: exact output, and every row is a periodic image in the padded box."},
{"property": "C18", "status": "partial", "theorems": ["Verif.Props.C18_values", "Verif.Props.C18_shared_partial", "Verif.Props.C18_spec_inputs", "Verif.Props.C18_shared_pad_violated"], "note": "all programs if copy copies the box size array; if copy shares it, all programs without pad, and pad refuted."},
{"property": "C19", "status": "partial", "theorems": ["Verif.Props.C19_axis_exact", "Verif.Props.C19_axis", "Verif.Props.C19_negative", "Verif.Props.C19_succeeds", "Verif.Props.C19_succeeds_free", "Verif.Props.C19_free_external_violated", "Verif.Props.C19_free_internal_violated", "Verif.Props.C19_single_violated", "Verif.Props.C19_centre", "Verif.Props.C19_isometries", "Verif.Props.C19_one", "Verif.Props.C19_negative_rejected"], "note": "every successful layout is inside, apart and maximal; refuted: leaving one of the two margins free fails an internal assertion, and a zero external margin with a single sub-box gives nan."},
{"property": "C20", "status": "partial", "theorems": ["Verif.Props.C20_inside", "Verif.Props.C20_inside_widest", "Verif.Props.C20_outside_partial", "Verif.Props.C20_outside_planes_partial", "Verif.Props.C20_outside_trimmed_partial", "Verif.Props.C20_rejected", "Verif.Props.C20_outside_violated", "Verif.Props.C20_wide_violated"], "note": "proved with the observer in the box; from outside, the near corners of the ranges are in front of the box (refuted), the exact set of contained points is given; sides above 2 dmax give nan."},
{"property": "C21", "status": "partial", "theorems": ["Verif.Props.C21_covered", "Verif.Props.C21_exact_partial", "Verif.Props.C21_equator_partial", "Verif.Props.C21_centred_partial", "Verif.Props.C21_minimal", "Verif.Props.C21_corner_violated", "Verif.Props.C21_declination_violated", "Verif.Props.C21_wide_violated", "Verif.Props.C21_full_turn_violated"], "note": "exact set of covered positions for all ranges; full coverage for dmin = 0, centred on the equator, at most 180 degrees in RA; refuted: near corners with dmin > 0, other declinations, more than 180 degrees, the full turn (0, 360)."},
{"property": "C22", "status": "partial", "theorems": ["Verif.Props.C22_from_cartesian", "Verif.Props.C22_from_sky_partial", "Verif.Props.C22_from_sky_exact_partial", "Verif.Props.C22_poles", "Verif.Props.C22_integers_violated", "Verif.Props.C22_integers"], "note": "refuted when distance, RA and Dec are all integers (the unit vector is truncated); proved otherwise, poles included."},
{"property": "C23", "status": "proved", "theorems": ["Verif.Props.C23_wrap", "Verif.Props.C23_wrap_unique", "Verif.Props.C23_wrap_turns", "Verif.Props.C23_wrap_idempotent", "Verif.Props.C23_ranges"], "note": ""},
{"property": "C24", "status": "partial", "theorems": ["Verif.Props.C24_solid_angle", "Verif.Props.C24_full_sky", "Verif.Props.C24_additive", "Verif.Props.C24_monotone_partial", "Verif.Props.C24_wrapped_violated"], "note": "equality with the integral of cos(Dec); sign and monotonicity for increasing limits; refuted for RA ranges wrapping through 0."},
{"property": "C25", "status": "partial", "theorems": ["Verif.Props.C25_projection", "Verif.Props.C25_fixed", "Verif.Props.C25_transverse", "Verif.Props.C25_los_scale", "Verif.Props.C25_local", "Verif.Props.C25_local_sky", "Verif.Props.C25_local_origin", "Verif.Props.C25_callable_partial", "Verif.Props.C25_callable_violated", "Verif.Props.C25_callable_three_violated", "Verif.Props.C25_linear"], "note": "proved for constant factors; with a callable factor refuted for any number of particles but 1 (raises; silently wrong for 3)."},
{"property": "C26", "status": "partial", "theorems": ["Verif.Props.C26_select", "Verif.Props.C26_rows", "Verif.Props.C26_one", "Verif.Props.C26_monotone", "Verif.Props.C26_zero_partial", "Verif.Props.C26_zero_violated"], "note": "rows of probability 0 are kept when the draw is exactly 0, a possible value (C26_zero_violated); the rest of the claim is proved."},
{"property": "C27", "status": "partial", "theorems": ["Verif.Props.C27_registered", "Verif.Props.C27_rows", "Verif.Props.C27_mask_order", "Verif.Props.C27_row_order", "Verif.Props.C27_unregistered_partial", "Verif.Props.C27_unregistered_violated"], "note": "rows with an unregistered label get probability 1 and are always kept (C27_unregistered_violated)."},
{"property": "C28", "status": "partial", "theorems": ["Verif.Props.C28_clip", "Verif.Props.C28_radial", "Verif.Props.C28_radial_default", "Verif.Props.C28_angular_partial", "Verif.Props.C28_crossing_partial", "Verif.Props.C28_full", "Verif.Props.C28_no_declination", "Verif.Props.C28_crossing_violated", "Verif.Props.C28_turn_violated", "Verif.Props.C28_maps"], "note": "increasing RA ranges through RA=0, such as (-60, 40) or (-180, 180), lose the part after RA=0 (C28_crossing_violated, C28_turn_violated); all other ranges are exact."},
{"property": "C29", "status": "partial", "theorems": ["Verif.Props.C29_zmask", "Verif.Props.C29_spline_partial", "Verif.Props.C29_spline_hang_violated", "Verif.Props.C29_spline_concave", "Verif.Props.SplineValues.C29_spline_negative_violated", "Verif.Props.C29_negative", "Verif.Props.C29_beyond", "Verif.Props.C29_probability", "Verif.Props.C29_proportional_partial", "Verif.Props.C29_proportional_nodes_partial", "Verif.Props.C29_whole_table", "Verif.Props.C29_defined", "Verif.Props.C29_clipped_violated", "Verif.Props.C29_narrow_violated", "Verif.Props.C29_cubic_violated"], "note": "Linear interpolation: prob in [0,1], zero outside the range, rejections, and (default normalisation) proportional to nbar and reaching 1 over the whole table, when the limits of the range are nodes, or when no tabulated density is above those of the range. Otherwise violated: densities outside the range are clipped before interpolation (C29_clipped_violated); a range without nodes is rejected (C29_narrow_violated); with the default cubic interpolation prob can be negative (C29_cubic_violated, C29_spline_negative_violated: with the default normalisation, search of the maximum included). Splines of order 2 and more: C29_spline_partial (nodes, outside, fine grid), C29_spline_concave (bounded for concave parabolas); the search of the maximum never ends for some tables (C29_spline_hang_violated)."},
{"property": "C30", "status": "partial", "theorems": ["Verif.Props.C30_size_partial", "Verif.Props.C30_accepted", "Verif.Props.C30_sequence", "Verif.Props.C30_ranks", "Verif.Props.C30_subperm", "Verif.Props.C30_stops_iff", "Verif.Props.C30_stops", "Verif.Props.C30_stops_unique", "Verif.Props.C30_empty_violated"], "note": "requesting no point raises ValueError (C30_empty_violated); otherwise sizes, acceptance and sequence are proved for every history and any number of ranks."},
{"property": "C31", "status": "partial", "theorems": ["Verif.Props.C31_rounds", "Verif.Props.C31_all_accepted_partial", "Verif.Props.C31_exact_partial", "Verif.Props.C31_one_rank_partial", "Verif.Props.C31_ranks_violated", "Verif.Props.C31_seed_violated"], "note": "decisions of masks use unseeded draws and the order of points depends on the ranks as soon as there are two rounds (C31_seed_violated, C31_ranks_violated); proved for masks that accept everything, and up to order without overshoot."},
{"property": "C32", "status": "proved", "theorems": ["Verif.Props.C32_counts", "Verif.Props.C32_default_edges", "Verif.Props.C32_back", "Verif.Props.C32_mismatch"], "note": "Expected number per shell unchanged, default edges, back conversion restores the mask; splines of order 1."},
{"property": "C33", "status": "partial", "theorems": ["Verif.Props.C33_range", "Verif.Props.C33_range_monotone", "Verif.Props.C33_range_continuous", "Verif.Props.C33_trapezoids", "Verif.Props.C33_range_met", "Verif.Props.C33_weights_alone", "Verif.Props.C33_sample", "Verif.Props.C33_range_violated", "Verif.Props.C33_range_partial", "Verif.Props.C33_ranks_weights", "Verif.Props.C33_ranks", "Verif.Props.C33_root", "Verif.Props.C33_root_unweighted", "Verif.Props.C33_root_none", "Verif.Props.C33_integral", "Verif.Props.C33_monotone", "Verif.Props.C33_continuous", "Verif.Props.C33_met", "Verif.Props.C33_too_high", "Verif.Props.C33_rejects", "Verif.Props.C33_weights", "Verif.Props.C33_unweighted_partial", "Verif.Props.C33_unweighted_violated", "Verif.Props.C33_zero_violated"], "note": "Monotone and continuous in the norm, for a sample and for the integral over the range; target met when weights are given, or without sample (exact root finder, existence by the intermediate value theorem); rejections; weights up to a constant; samples on one rank or spread over ranks give the same integral on every rank. Violated without weights: the expected number, not the fraction, is set to the target; without sample the integral over the range is not divided by its length; target 0 gives nan."},
{"property": "C34", "status": "partial", "theorems": ["Verif.Props.C34_row", "Verif.Props.C34_columns", "Verif.Props.C34_no_columns", "Verif.Props.C34_selected", "Verif.Props.C34_list_partial", "Verif.Props.C34_list_violated", "Verif.Props.C34_cutsky_partial"], "note": "a list of isometries loses rdd (C34_list_violated); cutsky itself is exact for plain RA ranges."},
{"property": "C35", "status": "partial", "theorems": ["Verif.Props.C35_size_keyword", "Verif.Props.C35_box_without_size", "Verif.Props.C35_box_csize", "Verif.Props.C35_box_nbar", "Verif.Props.C35_cutsky_csize_partial", "Verif.Props.C35_cutsky_nbar_partial", "Verif.Props.C35_wrapped_violated", "Verif.Props.C35_size", "Verif.Props.C35_box_inside", "Verif.Props.C35_box_ranks", "Verif.Props.C35_box_reached", "Verif.Props.C35_dec_uniform", "Verif.Props.C35_ra_uniform_partial", "Verif.Props.C35_candidates_accepted_partial", "Verif.Props.C35_radial_uniform", "Verif.Props.C35_cutsky_rows_partial", "Verif.Props.C35_cutsky_size_partial", "Verif.Props.C35_position_violated", "Verif.Props.C35_wrapped_size_violated", "Verif.Props.C35_crossing_violated"], "note": "position column name ignored, negative sizes for wrapped ranges, (-60, 40) not filled (C35_*_violated)."},
{"property": "C36", "status": "proved", "theorems": ["Verif.Props.C36_one_bin", "Verif.Props.C36_counts", "Verif.Props.C36_total", "Verif.Props.C36_volume", "Verif.Props.C36_no_volume", "Verif.Props.C36_ranks", "Verif.Props.C36_defined", "Verif.Props.C36_edges", "Verif.Props.C36_limits", "Verif.Props.C36_equal_width", "Verif.Props.C36_default_width", "Verif.Props.C36_volume_default"], "note": "Default (any positive width in place of the Scott rule) and integer bins: one bin per object, counts exact, sum of nbar*volume is the total weight, independent of order and ranks."},
{"property": "C37", "status": "proved", "theorems": ["Verif.Props.C37_grid", "Verif.Props.C37_nodes", "Verif.Props.C37_raises", "Verif.Props.C37_between", "Verif.Props.C37_monotone", "Verif.Props.C37_identity", "Verif.Props.C37_rejects"], "note": "Linear interpolation: exact at the nodes, increasing, between neighbouring nodes as the true redshift, raises outside, identity relation recovered exactly."},
{"property": "C38", "status": "partial", "theorems": ["Verif.Props.C38_reading", "Verif.Props.C38_from_cell", "Verif.Props.C38_rounded", "Verif.Props.C38_given", "Verif.Props.C38_missing", "Verif.Props.C38_accepted", "Verif.Props.C38_ignored_violated", "Verif.Props.C38_lists_violated"], "note": "Box and mesh sizes from any two of the three arguments, rounding to the nearest mesh, missing arguments rejected. Violated: cellsize silently ignored when boxsize and nmesh are given; python lists raise TypeError."},
{"property": "C39", "status": "proved", "theorems": ["Verif.Props.C39_positive", "Verif.Props.C39_mean", "Verif.Props.C39_exponential", "Verif.Props.C39_bias"], "note": "1 + delta positive with mean 1 over the mesh after the lognormal transform, the exponential up to the norm, biased field at each node."},
{"property": "C40", "status": "proved", "theorems": ["Verif.Props.C40_counts", "Verif.Props.C40_inside", "Verif.Props.C40_cells", "Verif.Props.C40_ranks", "Verif.Props.C40_rejects", "Verif.Props.C40_mean"], "note": "Counts per cell, positions in their cell, cells in order and independent of the distribution over ranks; densities below -1 make poisson_sample raise (C40_rejects); mean counts as documented."},
{"property": "C41", "status": "partial", "theorems": ["Verif.Props.C41_sample", "Verif.Props.C41_rsd_fixed", "Verif.Props.C41_rsd_local", "Verif.Props.C41_rsd_partial", "Verif.Props.C41_rsd_violated", "Verif.Props.C41_callable_violated"], "note": "Particles in the box after sampling; after set_rsd they may leave it (C41_rsd_violated), and a callable f raises for other than 1 or 3 particles."},
{"property": "C42", "status": "partial", "theorems": ["Verif.Props.C42_fixed", "Verif.Props.C42_callable", "Verif.Props.C42_los_error", "Verif.Props.C42_modes_partial", "Verif.Props.C42_local_partial", "Verif.Props.C42_observer_violated", "Verif.Props.C42_local_odd_violated"], "note": "Fixed line of sight: exact for all modes; the modes of the result are b + f mu^2 times the field where the multiplier is Hermitian (axis-aligned line of sight or odd mesh). Local line of sight: equal at each node to the fixed one along the node, for even meshes; violated on odd meshes and at a node at the observer (nan)."},
{"property": "C43", "status": "partial", "theorems": ["Verif.Props.C43_real_iff", "Verif.Props.C43_disp_partial", "Verif.Props.C43_disp_odd_violated", "Verif.Props.C43_fixed_partial", "Verif.Props.C43_fixed_below_partial", "Verif.Props.C43_fixed_violated", "Verif.Props.C43_local_partial", "Verif.Props.C43_local_odd_violated", "Verif.Props.C43_power_partial", "Verif.Props.C43_power_violated"], "note": "Real on even meshes (displacements, local RSD), for axis-aligned lines of sight or odd meshes (fixed RSD, anisotropic power). Violated otherwise, with modes stored by pmesh (plane k_z = 0)."},
{"property": "C44", "status": "partial", "theorems": ["Verif.Props.C44_offset", "Verif.Props.C44_agree_partial", "Verif.Props.C44_agree_violated", "Verif.Props.C44_wave", "Verif.Props.C44_alias_partial", "Verif.Props.C44_band_partial", "Verif.Props.C44_none", "Verif.Props.C44_order_violated"], "note": "Order 2 (interlacing 1 or 2): shifts agree, sums of waves below the Nyquist frequency are reproduced, odd aliases vanish. Orders of 3 or more: all phases wrong, every wave with frequencies of non-zero sum is damaged."},
{"property": "C45", "status": "partial", "theorems": ["Verif.Props.C45_within_partial", "Verif.Props.C45_uniform", "Verif.Props.C45_deterministic", "Verif.Props.C45_density_violated", "Verif.Props.C45_default_call_violated", "Verif.Props.C45_default_params", "Verif.Props.C45_cosmology"], "note": "drawn within sigma, uniform, deterministic; refuted: with z given, densities are drawn around their value at z but stored as today's; the default call raises"},
{"property": "C46", "status": "partial", "theorems": ["Verif.Props.C46_ap", "Verif.Props.C46_ap_root", "Verif.Props.C46_direction", "Verif.Props.C46_identity", "Verif.Props.C46_order", "Verif.Props.C46_negative_redshift_violated", "Verif.Props.C46_origin"], "note": "violated for negative redshifts (mirrored); the origin gives nan"},
{"property": "C47", "status": "proved", "theorems": ["Verif.Props.C47_rsd", "Verif.Props.C47_identity", "Verif.Props.C47_back", "Verif.Props.C47_back_catalog", "Verif.Props.C47_requires_growth", "Verif.Props.C47_rsd_root"], "note": "for all reconstructions, instance or run by name, rows scattered or on one rank"},
{"property": "C48", "status": "partial", "theorems": ["Verif.Props.C48_shuffle_partial", "Verif.Props.C48_shuffle_root_partial", "Verif.Props.C48_rejects", "Verif.Props.C48_equal_growth_violated"], "note": "full shuffle behaviour; refuted: equal growth rates shuffle all objects instead of none"},
{"property": "C49", "status": "partial", "theorems": ["Verif.Props.C49_field_exists", "Verif.Props.C49_field_mean", "Verif.Props.C49_data_weights_partial", "Verif.Props.C49_randoms_weights_partial", "Verif.Props.C49_identity_partial", "Verif.Props.C49_data_weights_root_partial", "Verif.Props.C49_randoms_weights_root_partial", "Verif.Props.C49_unknown_method", "Verif.Props.C49_positions_shotnoise", "Verif.Props.C49_shotnoise_instance_violated", "Verif.Props.C49_shotnoise_zero_violated", "Verif.Props.C49_data_positions_partial", "Verif.Props.C49_randoms_positions_partial", "Verif.Props.C49_positions_type_violated", "Verif.Props.C49_odd_mesh", "Verif.Props.C49_even_mesh_violated", "Verif.Props.C49_shotnoise_factor", "Verif.Props.C49_shotnoise_factor_exists", "Verif.Props.C49_shotnoise_factor_smoothing", "Verif.Props.C49_shotnoise_bias_violated", "Verif.Props.C49_shotnoise_noise", "Verif.Props.C49_shotnoise_scale", "Verif.Props.C49_data_weights_shotnoise_partial", "Verif.Props.C49_randoms_weights_shotnoise_partial"], "note": "weights methods: exact field, with the shot noise correction too (C49_data_weights_shotnoise_partial: the factor is the largest one giving the expected power at the pivot, C49_shotnoise_factor, from the noise of C49_shotnoise_noise); refuted: shot noise correction with fnl = 0 (nan), with a reconstruction instance (NameError), for a contrast divided by the bias (C49_shotnoise_bias_violated); positions methods ignore the position type and, on even meshes, keep the largest frequency"},
{"property": "C50", "status": "partial", "theorems": ["Verif.Props.C50_round_trip", "Verif.Props.C50_round_trip_root", "Verif.Props.C50_scatter", "Verif.Props.C50_list", "Verif.Props.C50_collective_partial", "Verif.Props.C50_collective_violated", "Verif.Props.C50_weights", "Verif.Props.C50_weights_root"], "note": "round trips and scatter; refuted: a None coordinate on one rank makes that rank raise and the others wait"},
{"property": "C51", "status": "partial", "theorems": ["Verif.Props.C51_conservation", "Verif.Props.C51_partial", "Verif.Props.C51_violated"], "note": "Holds for every run, any number of passes and ranks, when no target lies on two tiles of one pass (C51_partial, with the sum kept under weaker hypotheses in C51_conservation). With overlapping tiles of one pass a target is observed twice and the bookkeeping written once: refuted (C51_violated)."},
{"property": "C52", "status": "partial", "theorems": ["Verif.Props.C52_pass", "Verif.Props.C52_reachable_partial", "Verif.Props.C52_run_partial", "Verif.Props.C52_violated"], "note": "Exact content of a pass for every row (C52_pass); an observed target is available and carries its fiber when every fiber reaching it works, or the first listed one does (C52_reachable_partial, C52_run_partial). An observed target whose first listed reaching fiber is broken is not flagged available: refuted (C52_violated)."},
{"property": "C53", "status": "partial", "theorems": ["Verif.Props.C53_conservation_partial", "Verif.Props.C53_violated", "Verif.Props.C53_weight", "Verif.Props.C53_defined"], "note": "Exact closed form of the weights for every table (C53_weight), undefined exactly for unobserved targets and at least 1 (C53_defined); the sum over observed targets is the number of observed plus available targets after any run on tiles disjoint within a pass (C53_conservation_partial). With overlapping tiles an available target is counted by nobody: refuted (C53_violated)."},
{"property": "C54", "status": "partial", "theorems": ["Verif.Props.C54_order", "Verif.Props.C54_total", "Verif.Props.C54_layout_partial", "Verif.Props.C54_weights", "Verif.Props.C54_violated"], "note": "Order of rows kept for every run (C54_order, C54_total); the completeness weights do not depend on the distribution (C54_weights); the assignment does not depend on it for disjoint tiles and an engine that looks only at the targets of the tile (C54_layout_partial), and does for overlapping tiles (C54_violated)."},
{"property": "C55", "status": "partial", "theorems": ["Verif.Props.C55_partial", "Verif.Props.C55_unique", "Verif.Props.C55_layout_partial", "Verif.Props.C55_empty", "Verif.Props.C55_unknown", "Verif.Props.C55_callable_violated", "Verif.Props.Bricks.C55_broadcast", "Verif.Props.C55_types_violated", "Verif.Props.C55_outside_violated"], "note": "C55_partial: for every schedule of the sort across ranks, every layout and every column request whose column types agree across bricks, each object receives in input order exactly the quantities of its own brick and pixel; C55_unique says these quantities are determined, C55_layout_partial that the layout over ranks does not matter. Missing from the full claim, with witnesses: a column whose type differs between bricks is stored in the type of the first brick (C55_types_violated); a position outside the image reads the opposite edge (C55_outside_violated); a callable taking the documented region argument is always called without it (C55_callable_violated)."},
{"property": "C56", "status": "proved", "theorems": ["Verif.Props.C56_passes", "Verif.Props.C56_any", "Verif.Props.C56_rows", "Verif.Props.C56_row", "Verif.Props.C56_one_pass", "Verif.Props.C56_monotone_passes", "Verif.Props.C56_monotone_tiles", "Verif.Props.C56_unknown", "Verif.Props.C56_unreadable", "Verif.Props.C56_release_case", "Verif.Props.C56_y5"], "note": "C56_passes, C56_any: for all tile tables, releases, programs, surveys and positions, kept iff at least npasses (or some) selected tiles cover the position, the selection being spelled out per release in Spec/Footprint; C56_rows, C56_row: the rows returned; C56_monotone_passes, C56_monotone_tiles; C56_unknown, C56_unreadable: errors. desimodel enters through its documented contract (DesimodelOk); a position exactly at the tile radius is not distinguished between its two functions."},
{"property": "C57", "status": "proved", "theorems": ["Verif.Props.C57_cdf_ends", "Verif.Props.C57_cdf_increasing", "Verif.Props.C57_cdf_ppf", "Verif.Props.C57_ppf_cdf", "Verif.Props.C57_density", "Verif.Props.C57_samples", "Verif.Props.C57_invalid", "Verif.Props.C57_ppf_outside"], "note": ""},
{"property": "C58", "status": "partial", "theorems": ["Verif.Props.C58_cdf", "Verif.Props.C58_rows", "Verif.Props.C58_accepted", "Verif.Props.C58_ppf_partial", "Verif.Props.C58_decreasing_violated", "Verif.Props.C58_gap_violated", "Verif.Props.C58_points_partial", "Verif.Props.C58_support_partial", "Verif.Props.C58_above_violated", "Verif.Props.C58_below2d_violated", "Verif.Props.C58_above2d_violated", "Verif.Props.C58_average_value", "Verif.Props.C58_average_between", "Verif.Props.C58_average_monotone", "Verif.Props.C58_average_rejects"], "note": "1D errors: the tabulated cdf is non-decreasing from 0 to 1 with exact rows; averages are weighted means between the extremes, again non-decreasing; points map end to end and increase for finite supports, supports bounded above and the whole line. Violated: supports bounded below only (all points but the first infinite, smearing rejected), different bounds per redshift, decreasing errors clipped to a constant, pdfs with a gap rejected. The cubic splines enter only through their nodes."},
{"property": "C59", "status": "partial", "theorems": ["Verif.Props.C59_exact", "Verif.Props.C59_disjoint", "Verif.Props.C59_cover_partial", "Verif.Props.C59_cover_violated", "Verif.Props.C59_union_violated", "Verif.Props.C59_regressis_partial", "Verif.Props.C59_pointwise", "Verif.Props.C59_unknown", "Verif.Props.C59_center", "Verif.Props.C59_center_error_violated", "Verif.Props.C59_names_violated", "Verif.Props.C59_center_inside", "Verif.Props.C59_center_inside_violated"], "note": "C59_exact gives the regions used without regressis; C59_disjoint holds everywhere, C59_cover_partial away from declination 32.375. Missing, with witnesses: declination 32.375 is in no region (C59_cover_violated); N+SNGC is the whole south without the north (C59_union_violated); an unknown name gives UnboundLocalError and not ValueError (C59_center_error_violated); the two functions know different names (C59_names_violated); the centre of N+SNGC is outside of it (C59_center_inside_violated). With regressis (C59_regressis_partial) the union and disjointness follow from those of its maps."},
{"property": "C60", "status": "proved", "theorems": ["Verif.Props.C60_mode", "Verif.Props.C60_unitary", "Verif.Props.C60_zero", "Verif.Props.C60_mean", "Verif.Props.C60_inverted", "Verif.Props.C60_negative", "Verif.Props.C60_cosine", "Verif.Props.C60_real"], "note": "Amplitude and phase of each mode, unitary amplitude, inverted phase, zero mean; negative power gives nan."},
{"property": "C61", "status": "proved", "theorems": ["Verif.Props.C61_roundtrip", "Verif.Props.C61_range"], "note": ""},
{"property": "C62", "status": "proved", "theorems": ["Verif.Props.C62_is_identity"], "note": ""},
{"property": "C63", "status": "partial", "theorems": ["Verif.Props.C63_rejected_partial", "Verif.Props.C63_rejected_violated"], "note": "dot with an unknown frame mutates the rotation before raising: refuted; proved for all other calls."},
{"property": "C64", "status": "partial", "theorems": ["Verif.Props.C64_velocity_norm", "Verif.Props.C64_displacement_partial", "Verif.Props.C64_displacement_violated"], "note": "lengths of vectors for any box; consistency with displacements for cubic boxes, refuted otherwise."},
{"property": "C65", "status": "partial", "theorems": ["Verif.Props.C65_remap", "Verif.Props.C65_rejected", "Verif.Props.C65_foreign_cuboid_violated"], "note": "proved for lattice vectors; a Cuboid built for another box is accepted and gives a wrong box: refuted."},
{"property": "C66", "status": "proved", "theorems": ["Verif.Props.C66_nodes", "Verif.Props.C66_inside", "Verif.Props.C66_distance", "Verif.Props.C66_distinct"], "note": "Exact coordinates, inside the box, distinct."},
{"property": "C67", "status": "partial", "theorems": ["Verif.Props.C67_divergence_partial", "Verif.Props.C67_curl_partial", "Verif.Props.C67_mean", "Verif.Props.C67_even", "Verif.Props.C67_odd_violated"], "note": "Divergence and curl for modes off the planes where an index is half the mesh size (rounded down); zero mean; violated on odd meshes, where a mode other than the Nyquist one is dropped."},
{"property": "C68", "status": "proved", "theorems": ["Verif.Props.C68_window", "Verif.Props.C68_bounds", "Verif.Props.C68_one_iff", "Verif.Props.C68_modes", "Verif.Props.C68_inverse", "Verif.Props.C68_sum", "Verif.Props.C68_injective"], "note": "Window bounds, exact modes, real field, sum preserved, one to one."},
{"property": "C69", "status": "partial", "theorems": ["Verif.Props.C69_read", "Verif.Props.C69_nodes", "Verif.Props.C69_mesh", "Verif.Props.C69_unknown", "Verif.Props.C69_resampler_error", "Verif.Props.C69_constant_violated", "Verif.Props.C69_disp", "Verif.Props.C69_lagrangian_partial", "Verif.Props.C69_compensate_violated"], "note": "Documented names, resamplers in any case, values at nodes, unknown names rejected. Violated: nbar set to a constant cannot be read; LagrangianLinearMock.readout ignores compensate."},
{"property": "C70", "status": "partial", "theorems": ["Verif.Props.C70_norm", "Verif.Props.C70_noise", "Verif.Props.C70_empty_violated"], "note": "Norm of constants and callables, amplitude of noise; not finite where the selection function vanishes (C70_empty_violated)."},
{"property": "C71", "status": "partial", "theorems": ["Verif.Props.C71_mean_partial", "Verif.Props.C71_mean_root", "Verif.Props.C71_root_weights_violated"], "note": "mean over scattered rows, or on one rank without weights; refuted: weights with mpiroot are not scattered"},
{"property": "C72", "status": "partial", "theorems": ["Verif.Props.C72_partial", "Verif.Props.C72_redux_violated", "Verif.Props.C72_ops_violated"], "note": "C72_partial holds if both or none of the variables are set; otherwise C72_redux_violated (the tile files are looked for under DESI_SURVEYOPS) and C72_ops_violated (no default)."},
{"property": "C73", "status": "partial", "theorems": ["Verif.Props.C73_violated", "Verif.Props.C73_partial"], "note": "The function returns rows of the selected table and not identifiers (C73_violated); C73_partial says exactly which rows."},
{"property": "C74", "status": "partial", "theorems": ["Verif.Props.C74_keep", "Verif.Props.C74_input_violated", "Verif.Props.C74_unknown"], "note": "C74_keep gives the catalog returned exactly; C74_unknown the rejections; the catalog of the caller receives the column HPX (C74_input_violated)."},
{"property": "C75", "status": "partial", "theorems": ["Verif.Props.RoundedLattice.C75_rounded", "Verif.Props.C75_single_size_violated", "Verif.Props.C75_remap_partial", "Verif.Props.C75_pick", "Verif.Props.C75_one_key"], "note": "Violated with exact arithmetic: all accepted lattices give the same size, hence one key, and the script takes the second one (IndexError). In double precision (C75_rounded) rounding errors make at least two keys whatever the order of enumeration, the script does not raise, and the lattice it takes is one of the requested sides; with such a lattice the remapping is as claimed in exact arithmetic (C75_remap_partial). Missing: the remapping itself with rounding (see C114)."},
{"property": "C76", "status": "partial", "theorems": ["Verif.Props.C76_keyword_violated", "Verif.Props.C76_rows_partial"], "note": "Violated: keyword wrap does not exist and raises TypeError. C76_rows_partial is the claim for the function without that keyword."},
{"property": "C77", "status": "partial", "theorems": ["Verif.Props.C77_selected_partial", "Verif.Props.C77_default_range_violated", "Verif.Props.C77_gap_violated", "Verif.Props.C77_max_violated", "Verif.Props.C77_hang_violated", "Verif.Props.C77_rejected", "Verif.Props.C77_caller_violated", "Verif.Props.C77_generated_partial"], "note": "C77_selected_partial: for contiguous bins, exactly the rows whose draw is below the normalised interpolated density. Violated: default range, bins with gaps, largest probability below 1, endless search, caller's column Z overwritten."},
{"property": "C78", "status": "partial", "theorems": ["Verif.Props.C78_rows", "Verif.Props.C78_files", "Verif.Props.C78_mixture", "Verif.Props.C78_points", "Verif.Props.C78_bounded", "Verif.Props.C78_units", "Verif.Props.C78_unknown_tracer_violated", "Verif.Props.C78_uncertainty_violated"], "note": "C78_rows, C78_files, C78_mixture, C78_bounded and C78_units hold for all tables; unknown tracers and uncertainties are not rejected with ValueError (C78_unknown_tracer_violated, C78_uncertainty_violated)."},
{"property": "C79", "status": "proved", "theorems": ["Verif.Props.C79_stages", "Verif.Props.C79_raised", "Verif.Props.C79_restart", "Verif.Props.C79_particles", "Verif.Props.C79_from_real", "Verif.Props.C79_from_complex", "Verif.Props.C79_selection", "Verif.Props.C79_eulerian_run", "Verif.Props.C79_lagrangian_run", "Verif.Props.C79_export"], "note": "State machine of the mock object. Field values behind each stage are those of C37 to C45 and C66 to C69; the power spectrum and the generator are arbitrary modes."},
{"property": "C80", "status": "partial", "theorems": ["Verif.Props.C80_positional_violated", "Verif.Props.C80_eulerian_violated", "Verif.Props.C80_lagrangian_violated", "Verif.Props.C80_names_violated"], "note": "Fails: documented positional order swaps box size and mesh size, the documented Eulerian and Lagrangian runs raise AttributeError since no selection function is set, and the documented 'interlaced' and '1+delta' raise."},
{"property": "C81", "status": "partial", "theorems": ["Verif.Props.C81_violated", "Verif.Props.C81_dtype_partial"], "note": "Fails: every call of ArrayMesh raises, NameError in general. Proved: the type guess."},
{"property": "C82", "status": "proved", "theorems": ["Verif.Props.C82_tiles", "Verif.Props.C82_passes", "Verif.Props.C82_paths", "Verif.Props.C82_distinct", "Verif.Props.C82_sky", "Verif.Props.C82_conditions"], "note": "Tile tables, releases, files and dates are parameters; field rotation (desimodel) and the masks of desitarget are abstracted. tile identifiers above six digits are covered by injectivity only."},
{"property": "C83", "status": "proved", "theorems": ["Verif.Props.C83_file", "Verif.Props.C83_tiles", "Verif.Props.C83_each", "Verif.Props.C83_none"], "note": "status and target bits are arbitrary distinct bits; an empty list of tiles reads the empty file name (C83_none)."},
{"property": "C84", "status": "proved", "theorems": ["Verif.Props.Sv3.C84_region", "Verif.Props.Sv3.C84_read", "Verif.Props.Sv3.C84_groups", "Verif.Props.Sv3.C84_partition"], "note": "the parsing of integers is a parameter; rosettes repeated in the table keep the last values, which the theorem excludes."},
{"property": "C85", "status": "partial", "theorems": ["Verif.Props.Sv3.C85_names", "Verif.Props.Sv3.C85_corr_names", "Verif.Props.Sv3.C85_written", "Verif.Props.Sv3.C85_mock_fn_violated", "Verif.Props.Sv3.C85_covariance_violated", "Verif.Props.Sv3.C85_chain_partial"], "note": "Defects: --mock_fn raises NameError (mpicomm undefined); the covariance script raises NameError on the first catalog (outdir undefined on import); with default options fewer randoms are written than read."},
{"property": "C86", "status": "proved", "theorems": ["Verif.Props.Sv3.C86_kept", "Verif.Props.Sv3.C86_expected", "Verif.Props.Sv3.C86_all"], "note": "float rounding of the fraction not modelled; draws uniform on [0, 1)."},
{"property": "C87", "status": "proved", "theorems": ["Verif.Props.Sv3.C87_edges"], "note": "exact arithmetic; numpy rounding not modelled."},
{"property": "C88", "status": "proved", "theorems": ["Verif.Props.Sv3.C88_region", "Verif.Props.Sv3.C88_weights", "Verif.Props.Sv3.C88_mean", "Verif.Props.Sv3.C88_common", "Verif.Props.Sv3.C88_covariance"], "note": "pycorr counts and estimators are arbitrary reals; one mock (numpy-version dependent) excluded in the covariance."},
{"property": "C89", "status": "proved", "theorems": ["Verif.Props.Sv3Cut.C89_group", "Verif.Props.Sv3Cut.C89_pair", "Verif.Props.Sv3Cut.C89_single", "Verif.Props.Sv3Cut.C89_no_direction", "Verif.Props.Sv3Cut.C89_script"], "note": "One group and one catalog, up to the sky coordinates. The lattice is looked up with exact numbers (the script uses 17-digit floats as keys); rows of the remapped box exactly at the observer are excluded for data."},
{"property": "C90", "status": "proved", "theorems": ["Verif.Props.Sv3Cut.C90_tiles", "Verif.Props.Sv3Cut.C90_bits", "Verif.Props.Sv3Cut.C90_selection"], "note": "The contract of desimodel (a point is inside if some tile covers it) and the probability of the radial mask are parameters."},
{"property": "C91", "status": "partial", "theorems": ["Verif.Props.C91_one_partial", "Verif.Props.C91_many_partial", "Verif.Props.C91_disjoint_partial", "Verif.Props.C91_columns", "Verif.Props.C91_complete_partial", "Verif.Props.C91_shared_violated"], "note": "Exact rows of each catalog for draws other than exactly 0 and plain RA ranges (C91_one_partial, C91_many_partial), columns in range, completeness away from the poles. Disjointness is proved when the box of cutsky_to_box holds the whole survey (or for positive internal margins, away from common faces); C91_shared_violated shows that it fails for surveys away from the equator, whose box is too small (C18). With several outputs the rdd names are not passed on (defaultRdd in C91_many_partial)."},
{"property": "C92", "status": "proved", "theorems": ["Verif.Props.FiberV0.C92_pass", "Verif.Props.FiberV0.C92_conservation", "Verif.Props.FiberV0.C92_order", "Verif.Props.FiberV0.C92_total"], "note": "Stated for runs without sky targets loaded before; by C93_ignored_violated those with them are the same runs."},
{"property": "C93", "status": "partial", "theorems": ["Verif.Props.FiberV0.C93_ignored_violated", "Verif.Props.FiberV0.C93_disk", "Verif.Props.FiberV0.C93_loaded", "Verif.Props.FiberV0.C93_not_used_violated", "Verif.Props.FiberV0.C93_labels_partial", "Verif.Props.FiberV0.C93_labels_violated", "Verif.Props.FiberV0.C93_repeated_violated", "Verif.Props.FiberV0.C93_read", "Verif.Props.FiberV0.C93_type", "Verif.Props.FiberV0.C93_bigfile_partial", "Verif.Props.FiberV0.C93_bigfile_violated"], "note": "The files read and the labels (for tiles in order of identifiers) are right, but the sky targets given to apply_fiber_assignment are never used (C93_ignored_violated, C93_not_used_violated), labels are wrong for tiles in another order (C93_labels_violated), and nothing is read from a directory with a dot in its path with bigfile (C93_bigfile_violated)."},
{"property": "C94", "status": "partial", "theorems": ["Verif.Props.FiberV0.C94_current", "Verif.Props.FiberV0.C94_extra", "Verif.Props.FiberV0.C94_earlier_iff", "Verif.Props.FiberV0.C94_more_ranks_violated"], "note": "Proved for the current version and for completeness weights. The earlier version ends iff in each pass all ranks or no rank have tiles (C94_earlier_iff); it hangs when there are more ranks than tiles (C94_more_ranks_violated). Calls are modelled by the list of collective calls of each rank; hangs due to an exception on one rank are not modelled."},
{"property": "C95", "status": "partial", "theorems": ["Verif.Props.DensityInterp.C95_centers_partial", "Verif.Props.DensityInterp.C95_outside", "Verif.Props.DensityInterp.C95_spline", "Verif.Props.DensityInterp.C95_edges", "Verif.Props.DensityInterp.C95_ranks", "Verif.Props.DensityInterp.C95_unweighted", "Verif.Props.DensityInterp.C95_width", "Verif.Props.DensityInterp.C95_default_partial", "Verif.Props.DensityInterp.C95_number_partial", "Verif.Props.DensityInterp.C95_lowest_violated", "Verif.Props.DensityInterp.C95_highest_violated", "Verif.Props.DensityInterp.C95_small_violated", "Verif.Props.DensityInterp.C95_communicator_violated"], "note": "Exact spline through the bins, exact condition of success, independence from ranks. Refuted: the density is zero at the lowest redshift of the sample (and at the highest with a number of bins), the default constructor fails for all samples of at most 11 redshifts, Scott's rule counts the redshifts of the default communicator. Behaviour between centres: C118 for orders 1 and 3."},
{"property": "C96", "status": "partial", "theorems": ["Verif.Props.SmearSample.C96_redshift", "Verif.Props.SmearSample.C96_outside", "Verif.Props.SmearSample.C96_between", "Verif.Props.SmearSample.C96_error", "Verif.Props.SmearSample.C96_sample", "Verif.Props.SmearSample.C96_tabulated", "Verif.Props.SmearSample.C96_rvs", "Verif.Props.SmearSample.C96_ppf_scale", "Verif.Props.SmearSample.C96_errors2d_violated"], "note": "Exact errors at, between and outside of tabulated redshifts, independence from ranks, tables of both constructors. Refuted: errors specific to each redshift (documented 2-D dz) are refused for more than two redshifts, and for two redshifts the first one gets a single error. Values between tabulated probabilities are in C126."},
{"property": "C97", "status": "partial", "theorems": ["Verif.Props.SmearSample.C97_average_partial", "Verif.Props.SmearSample.C97_refused", "Verif.Props.SmearSample.C97_redshifts_violated", "Verif.Props.SmearSample.C97_transform_violated"], "note": "The weighted mean and the refused inputs are proved. Refuted: redshifts of the inputs are not compared, output transforms are compared before the transform to the support."},
{"property": "C98", "status": "partial", "theorems": ["Verif.Props.Survey.C98_program_violated", "Verif.Props.Survey.C98_data_partial", "Verif.Props.Survey.C98_count", "Verif.Props.Survey.C98_empty_violated", "Verif.Props.Survey.C98_stops_violated", "Verif.Props.Survey.C98_files_partial", "Verif.Props.Survey.C98_randoms_partial", "Verif.Props.Survey.C98_ds_violated", "Verif.Props.Survey.C98_centre", "Verif.Props.Survey.C98_produced"], "note": "Proved for the program without the unknown keyword of C76: rows of the data file of a region (C98_data_partial), rows and redshifts of the randoms when their RA range does not go through 0 (C98_randoms_partial, C98_produced), number of randoms, which files are written when no region raises and which when one does (C98_files_partial), the centre of the box is seen at the centre of the region. Refuted: the program as it is ends with an exception before it writes anything; randoms of the region DS are only West of RA 0; a region without data ends the program. Missing: brick quantities, formats of files."},
{"property": "C99", "status": "partial", "theorems": ["Verif.Props.SkyFiles.C99_base", "Verif.Props.SkyFiles.C99_fits_partial", "Verif.Props.SkyFiles.C99_bigfile_partial", "Verif.Props.SkyFiles.C99_same_base_violated", "Verif.Props.SkyFiles.C99_empty", "Verif.Props.SkyFiles.C99_again_violated"], "note": "Round trip proved for an empty folder and directories with different bases of names without dots (for bigfiles, also no dot in the path of the folder). Fails for a folder that has files of an earlier run with more files (rows come twice) and for two directories with the same base (rows of the first are lost). Reading as bigfile from a folder with a dot in its path: see C93."},
{"property": "C100", "status": "proved", "theorems": ["Verif.Props.Chance.C100_pattern", "Verif.Props.Chance.C100_row", "Verif.Props.Chance.C100_expected", "Verif.Props.Chance.C100_number", "Verif.Props.Chance.C100_scatter", "Verif.Props.Chance.C100_cutsky"], "note": "Draws are independent uniform random variables; only the draws of both masks for the same row need be independent for the expected numbers."},
{"property": "C101", "status": "proved", "theorems": ["Verif.Props.Rejection.C101_ends", "Verif.Props.Rejection.C101_law", "Verif.Props.Rejection.C101_mask_ends", "Verif.Props.Rejection.C101_mask_law", "Verif.Props.Rejection.C101_point"], "note": "For any law of the candidates and any measurable probability; the candidates of the masks of this package are those of C102."},
{"property": "C102", "status": "partial", "theorems": ["Verif.Props.UniformRandoms.C102_box", "Verif.Props.UniformRandoms.C102_cutsky_partial", "Verif.Props.UniformRandoms.C102_crossing_violated", "Verif.Props.UniformRegions.C102_sector_volume", "Verif.Props.UniformRegions.C102_cutsky_regions_partial", "Verif.Props.UniformRegions.C102_box_volume", "Verif.Props.UniformRegions.C102_box_regions"], "note": "Partial: RA ranges given as (-60, 40) get no point between 0 and 40 (C102_crossing_violated). For all other ranges, the law of the whole catalog is proved for measurable regions of any shape, in the box and in the sector of the sky (C102_box_regions, C102_cutsky_regions_partial)."},
{"property": "C103", "status": "partial", "theorems": ["Verif.Props.Laws.C103_cauchy", "Verif.Props.Laws.C103_blinded_partial", "Verif.Props.Laws.C103_errors", "Verif.Props.Laws.C103_errors_table", "Verif.Props.Laws.C103_downsample", "Verif.Props.Laws.C103_shuffle"], "note": "Blinded parameters: density parameters with a redshift are drawn around the density at that redshift (C45_density_violated), hence the suffix. Redshift errors: percent points are assumed increasing, which the cubic splines do not ensure (C126_range_violated)."},
{"property": "C104", "status": "partial", "theorems": ["Verif.Props.FieldStats.C104_modes", "Verif.Props.FieldStats.C104_measured", "Verif.Props.FieldStats.C104_correlation", "Verif.Props.FieldStats.C104_isotropic", "Verif.Props.FieldStats.C104_kaiser_partial", "Verif.Props.FieldStats.C104_noise", "Verif.Props.FieldStats.C104_gaussian", "Verif.Props.FieldStats.C104_law", "Verif.Props.FieldStats.C104_nonlinear", "Verif.Props.FieldStats.C104_nonlinear_homogeneous", "Verif.Props.FieldStats.C104_lognormal"], "note": "That the noise of pmesh is white is a hypothesis (WhiteModes), shown to be met by the transform of independent Gaussian draws at nodes. In redshift space, lines of sight that are not along an axis are covered for odd mesh sizes only (C42), hence the suffix. Lognormal fields: the correlation is proved before the division by the mean over nodes (C104_lognormal), the law after it is shown to depend on the power spectrum only (C104_law)."},
{"property": "C105", "status": "proved", "theorems": ["Verif.Props.PoissonLaw.C105_process", "Verif.Props.PoissonLaw.C105_size"], "note": "That numpy's draws follow Poisson and uniform laws, independently, is a hypothesis, shown to be met."},
{"property": "C106", "status": "proved", "theorems": ["Verif.Props.Homogeneity.C106_field", "Verif.Props.Homogeneity.C106_rsd", "Verif.Props.Homogeneity.C106_mean", "Verif.Props.Homogeneity.C106_covariance", "Verif.Props.Homogeneity.C106_catalog", "Verif.Props.Homogeneity.C106_density"], "note": "Homogeneity of the noise of pmesh and the laws of numpy's draws are hypotheses, shown to be met. Averages over field and draws are iterated integrals."},
{"property": "C107", "status": "partial", "theorems": ["Verif.Props.HalfMesh.C107_transform", "Verif.Props.HalfMesh.C107_stored", "Verif.Props.HalfMesh.C107_modes", "Verif.Props.HalfMesh.C107_planes", "Verif.Props.HalfMesh.C107_delta", "Verif.Props.HalfMesh.C107_disp_partial", "Verif.Props.HalfMesh.C107_rsd_partial", "Verif.Props.HalfMesh.C107_kaiser", "Verif.Props.HalfMesh.C107_own_planes", "Verif.Props.HalfMesh.C107_local_violated", "Verif.Props.HalfMesh.C107_disp_violated"], "note": "Partial: on meshes with an odd number of cells a side, displacements along the last axis lose modes (C107_disp_violated) and local lines of sight are wrong (C107_local_violated). With a fixed line of sight, C107_kaiser holds for all mesh sizes, in the planes of self-conjugate modes C107_planes says what the modes are."},
{"property": "C108", "status": "partial", "theorems": ["Verif.Props.InPlace.C108_partial", "Verif.Props.InPlace.C108_arrays_violated", "Verif.Props.InPlace.C108_integers_violated", "Verif.Props.InPlace.C108_again", "Verif.Props.InPlace.C108_remap_violated"], "note": "Violated for numpy arrays of floats (normalised in place) and for integers (TypeError); the exact condition for the call to be harmless is proved, and that repeating the call changes nothing more."},
{"property": "C109", "status": "partial", "theorems": ["Verif.Props.InPlace.C109_copies", "Verif.Props.InPlace.C109_shared_partial", "Verif.Props.InPlace.C109_shared_violated"], "note": "Proved for all programs if catalogs copy their arrays; if they share them (depends on mpytools), proved for Eulerian mocks and for Lagrangian mocks whose distortions are all set before the first export, and violated otherwise."},
{"property": "C110", "status": "partial", "theorems": ["Verif.Props.MaskInit.C110_collection", "Verif.Props.MaskInit.C110_collection_violated", "Verif.Props.MaskInit.C110_tabulated_partial", "Verif.Props.MaskInit.C110_tabulated_violated", "Verif.Props.MaskInit.C110_mangle_partial", "Verif.Props.MaskInit.C110_mangle_violated", "Verif.Props.MaskInit.C110_healpix_partial", "Verif.Props.MaskInit.C110_healpix_violated"], "note": "Violated: a dictionary given to MaskCollection, a file alone given to TabulatedRadialMask, an object given to MangleAngularMask, a file with ranges given to HealpixAngularMask all raise. The other ways are proved."},
{"property": "C111", "status": "partial", "theorems": ["Verif.Props.Rounded.C111_range", "Verif.Props.Rounded.C111_accuracy", "Verif.Props.Rounded.C111_end_violated", "Verif.Props.Rounded.C111_single_violated"], "note": "Range 0 to 360 included (double and single precision), accuracy in double precision. Violated at the upper end: tiny negative angles give 360, and wrapping again gives 0; in single precision radians can exceed 2 pi."},
{"property": "C112", "status": "partial", "theorems": ["Verif.Props.Rounded.C112_box", "Verif.Props.Rounded.C112_end_violated", "Verif.Props.Rounded.C112_remap", "Verif.Props.Rounded.C112_remap_end_violated"], "note": "Range with both faces, accuracy. Violated at the upper face."},
{"property": "C113", "status": "partial", "theorems": ["Verif.Props.Rounded.C113_coordinates", "Verif.Props.Rounded.C113_accuracy", "Verif.Props.Rounded.C113_sky", "Verif.Props.Rounded.C113_underflow_violated"], "note": "Proved without underflow of the squares of coordinates; with underflow violated (nan at a distance of 2^-600)."},
{"property": "C114", "status": "partial", "theorems": ["Verif.Props.RoundedRemap.C114_error", "Verif.Props.RoundedRemap.C114_pruning", "Verif.Props.RoundedRemap.C114_margin", "Verif.Props.RoundedRemap.C114_gap_violated", "Verif.Props.RoundedRemap.C114_identity_partial", "Verif.Props.RoundedRemap.C114_identity_accuracy"], "note": "False in double precision: for lattice vectors (2, 1, 0), (1, 1, 0), (0, 0, 1) the positions (1/4, 1/8 - 3/2^56, z) are in no cell, and transform raises CuboidError for any catalog with one of them. Proved: when the error is raised, that the choice of faces and tiles by the corners of the unit cube is harmless with rounding errors, the error of the test of a face given its normal, and that the default lattice vectors refuse no position. Missing: a bound of the errors of the normals for general lattices."},
{"property": "C115", "status": "partial", "theorems": ["Verif.Props.RoundedMask.C115_plain", "Verif.Props.RoundedMask.C115_only", "Verif.Props.RoundedMask.C115_turn_violated"], "note": "Ranges within [0, 360) are proved, without loss and up to 2^-41 degrees. False for ranges of a full turn: with (30, 390) the rounded ends differ by 2e-14 degrees and the mask selects nothing else, where exact arithmetic selects 30 to 360 (itself short of the full turn, C28)."},
{"property": "C116", "status": "partial", "theorems": ["Verif.Props.RoundedMask.C116_box", "Verif.Props.RoundedMask.C116_centered_partial", "Verif.Props.RoundedMask.C116_end_violated"], "note": "Proved for the closed box, and below the upper face for boxes around the origin. The upper face is reached for other centers: 1200 in the box of side 1200 around 600."},
{"property": "C117", "status": "partial", "theorems": ["Verif.Props.RoundedLattice.C117_exact", "Verif.Props.RoundedLattice.C117_maxcomb", "Verif.Props.RoundedLattice.C117_same_size_violated"], "note": "C117_exact and C117_maxcomb hold for any format with sizes as computed. One entry per size is violated in double precision (C117_same_size_violated). Overflow is left out."},
{"property": "C118", "status": "partial", "theorems": ["Verif.Props.SplineValues.C118_unique", "Verif.Props.SplineValues.C118_linear", "Verif.Props.SplineValues.C118_cubic", "Verif.Props.SplineValues.C118_reproduces", "Verif.Props.SplineValues.C118_overshoot", "Verif.Props.SplineValues.C118_nonneg", "Verif.Props.SplineValues.C118_negative_violated"], "note": "Orders 1 and 3. Determined by the nodes (C118_unique), linear (C118_linear, C118_nonneg), cubic spline (C118_cubic), reproduction of cubic polynomials, distance to the linear interpolation. Violated with order 3: negative densities (C118_negative_violated)."},
{"property": "C119", "status": "partial", "theorems": ["Verif.Props.BoxInit.C119_arguments", "Verif.Props.BoxInit.C119_size", "Verif.Props.BoxInit.C119_center_partial", "Verif.Props.BoxInit.C119_center_violated"], "note": "Violated by the default arguments: boxcenter=0. hides the centre of attrs, whereas boxsize=None does not hide their size (C119_center_violated); C119_center_partial is for boxcenter=None."},
{"property": "C120", "status": "proved", "theorems": ["Verif.Props.LagrangianLaw.C120_process", "Verif.Props.LagrangianLaw.C120_homogeneous"], "note": "the laws of draws and the homogeneity of noise are hypotheses (contracts of numpy and pmesh); the readout of pmesh is any function that is periodic and relative to nodes"},
{"property": "C121", "status": "partial", "theorems": ["Verif.Props.Ranks.C121_no_infinite", "Verif.Props.Ranks.C121_order", "Verif.Props.Ranks.C121_sample", "Verif.Props.Ranks.C121_sample_long", "Verif.Props.Ranks.C121_random_box", "Verif.Props.Ranks.C121_random_cutsky", "Verif.Props.Ranks.C121_normalize", "Verif.Props.Ranks.C121_file_partial", "Verif.Props.Ranks.C121_file_violated"], "note": "Holds for sampling, random catalogs and normalisation in every order of execution and whatever other ranks do. Refuted for tables read from a file that cannot be read: the first rank raises and the others wait. Partial for readable files."},
{"property": "C122", "status": "partial", "theorems": ["Verif.Props.Communicators.C122_mock_partial", "Verif.Props.Communicators.C122_mock_current_partial", "Verif.Props.Communicators.C122_mock_violated", "Verif.Props.Communicators.C122_mock_same_violated", "Verif.Props.Communicators.C122_density_partial", "Verif.Props.Communicators.C122_density_current_partial", "Verif.Props.Communicators.C122_density_violated", "Verif.Props.Communicators.C122_density_mixed_violated", "Verif.Props.Communicators.C122_shuffle_current_partial", "Verif.Props.Communicators.C122_png_current_partial", "Verif.Props.Communicators.C122_blinding_violated", "Verif.Props.RankErrors.C122_bricks_violated"], "note": "Refuted: without seed, with default bins, in shuffle, in png and for brick quantities, calls go to the current communicator instead of that of the object: ranks wait for others, or different groups of ranks share a seed or a width of bins. Partial: with a seed or given bins, or if the communicator is the current one."},
{"property": "C123", "status": "proved", "theorems": ["Verif.Props.PoissonRanks.C123_catalog", "Verif.Props.PoissonRanks.C123_negative", "Verif.Props.PoissonRanks.C123_mask", "Verif.Props.PoissonRanks.C123_smear", "Verif.Props.PoissonRanks.C123_sample"], "note": "Streams of mpytools, ravel and unravel of pmesh and mpsort are modelled from their documented behaviour: the draw of a row depends on the seed, its global number and the arguments of all rows; a ValueError of numpy is taken to end all ranks."},
{"property": "C124", "status": "partial", "theorems": ["Verif.Props.RankErrors.C124_mask_partial", "Verif.Props.RankErrors.C124_mask_violated", "Verif.Props.RankErrors.C124_healpix_violated", "Verif.Props.RankErrors.C124_poisson_partial", "Verif.Props.RankErrors.C124_poisson_small_partial", "Verif.Props.RankErrors.C124_poisson_violated", "Verif.Props.RankErrors.C124_bricks_violated", "Verif.Props.RankErrors.C124_bricks_partial", "Verif.Props.RankErrors.C124_fiber_partial", "Verif.Props.RankErrors.C124_fiber_violated", "Verif.Props.RankErrors.C124_weights"], "note": "fails: when the probabilities of a mask cannot be computed on a process (Healpix mask with a declination that is not a number), when a mean density is negative and the mesh is larger than a chunk, when a column of bricks is unknown and a process has no rows, or when the assignment of a tile raises, other processes wait for ever. Proved where no process raises, for completeness weights, and for negative means in one chunk."},
{"property": "C125", "status": "partial", "theorems": ["Verif.Props.RoundedMock.C125_lower", "Verif.Props.RoundedMock.C125_nodes_partial", "Verif.Props.RoundedMock.C125_upper_partial", "Verif.Props.RoundedMock.C125_error", "Verif.Props.RoundedMock.C125_above_violated", "Verif.Props.RoundedMock.C125_end_violated"], "note": "The lower face holds always (C125_lower), positions are those of exact arithmetic to within 16 rounding errors (C125_error), and objects stay in their closed cell if nodes are floats (C125_nodes_partial, C125_upper_partial). Otherwise an object may be above the upper face, or on it (C125_above_violated, C125_end_violated)."},
{"property": "C126", "status": "partial", "theorems": ["Verif.Props.SmearSpline.C126_unique", "Verif.Props.SmearSpline.C126_cubic", "Verif.Props.SmearSpline.C126_range_partial", "Verif.Props.SmearSpline.C126_uniform", "Verif.Props.SmearSpline.C126_range_violated"], "note": "Errors depend on the table only (C126_unique), are exact for percent points that are polynomials of degree 3 (C126_cubic, C126_uniform), and are in the range of errors to within 5/8 of the largest second difference of tabulated percent points (C126_range_partial). Refuted: a draw between tabulated probabilities may give an error outside of the support, below that of a smaller draw (C126_range_violated)."},
{"property": "C127", "status": "partial", "theorems": ["Verif.Props.Seeds.C127_apart_partial", "Verif.Props.Seeds.C127_uniform", "Verif.Props.Seeds.C127_shared_violated", "Verif.Props.Seeds.C127_next_violated", "Verif.Props.Seeds.C127_independent", "Verif.Props.Seeds.C127_same_seed_violated", "Verif.Props.Seeds.C127_same_seed_probability_violated", "Verif.Props.Seeds.C127_repeat", "Verif.Props.Seeds.C127_script_seeds", "Verif.Props.Seeds.C127_script_redshifts_partial"], "note": "Violated for masks that reject points: each round of rejection adds one to the seed, and the sample with seed s consists of the points kept in its first rounds followed by those of the sample with seed s+k (C127_shared_violated, exact on one process for masks with probabilities 0 and 1). Masks called with the same seed decide with the same draws (C127_same_seed_violated). Proved: samples with seeds further apart than the number of rounds share no point, uniform masks for all different seeds; independence of generators of different seeds is an assumption on mpytools and numpy."},
{"property": "C128", "status": "proved", "theorems": ["Verif.Props.RoundedIsometry.C128_history", "Verif.Props.RoundedIsometry.C128_concatenate", "Verif.Props.RoundedIsometry.C128_separation", "Verif.Props.RoundedIsometry.C128_coordinate_axes", "Verif.Props.RoundedIsometry.C128_axis", "Verif.Props.RoundedIsometry.C128_rotation", "Verif.Props.RoundedIsometry.C128_double", "Verif.Props.RoundedIsometry.C128_double_rotation"], "note": "Any format, any order of summation, with or without fused multiply-add, no overflow. C128_rotation covers any axis (divided by its length twice, as the code does) and angles in degrees or radians, with the errors of np.cos and np.sin as hypotheses; formats of at least 10 bits. In double precision the constants are worked out for angles up to a turn and up to a million calls."},
{"property": "C129", "status": "partial", "theorems": ["Verif.Props.RoundedIsometry.C129_accuracy", "Verif.Props.RoundedIsometry.C129_double", "Verif.Props.RoundedIsometry.C129_opposite_violated"], "note": "Violated for vectors in nearly opposite directions (C129_opposite_violated: the first coordinate 10 should become -10 and stays 10). C129_accuracy bounds the error for all angles below 180 degrees, by an amount that grows as tan(\u03b8/2), for formats of at least 10 bits and without underflow in the vector product; C129_double needs no hypothesis on underflow, for coordinates that are zero or between 1e-20 and 1e20."},
{"property": "C130", "status": "partial", "theorems": ["Verif.Props.RoundedBack.C130_sky_far", "Verif.Props.RoundedBack.C130_back_partial", "Verif.Props.RoundedBack.C130_back_double_partial", "Verif.Props.RoundedSky.C130_sky", "Verif.Props.RoundedSky.C130_position", "Verif.Props.RoundedSky.C130_round_trip_partial", "Verif.Props.RoundedSky.C130_double_partial", "Verif.Props.RoundedSky.C130_pole_violated"], "note": "Violated close to the poles (C130_pole_violated: at a distance of 2 ** 27, an object at 1 from the axis comes back on it). C130_sky and C130_position bound the error of each of the two functions everywhere; C130_round_trip_partial gives back z up to 21 rounding errors everywhere, and x and y up to 60 plus some over the cosine of Dec, the sum being below the square root of 28 rounding errors; C130_back_partial gives back the distance up to 55 rounding errors, RA and Dec up to some hundreds over the cosine of Dec, and Dec up to the square root of some hundreds; C130_double_partial and C130_back_double_partial give numbers."},
{"property": "C131", "status": "proved", "theorems": ["Verif.Props.RoundedRsd.C131_global", "Verif.Props.RoundedRsd.C131_local", "Verif.Props.RoundedRsd.C131_axis", "Verif.Props.RoundedRsd.C131_double"], "note": "The factor is a number. The origin with the local line of sight, where the code divides zero by zero, is left out; so are lines of sight with coordinates whose squares underflow."},
{"property": "C132", "status": "partial", "theorems": ["Verif.Props.RoundedBox.C132_grid", "Verif.Props.RoundedBox.C132_accuracy", "Verif.Props.RoundedBox.C132_arguments", "Verif.Props.RoundedBox.C132_contained", "Verif.Props.RoundedBox.C132_whole_partial", "Verif.Props.RoundedBox.C132_whole_violated"], "note": "The range from 0 to 1 loses particles when the edges of the box are not floats (C132_whole_violated, a box of size 1.1 centred at 10); it keeps all of them otherwise (C132_whole_partial), such as boxes centred at the origin or with a corner there."},
{"property": "C133", "status": "partial", "theorems": ["Verif.Props.RoundedMoves.C133_translate", "Verif.Props.RoundedMoves.C133_recenter", "Verif.Props.RoundedMoves.C133_history", "Verif.Props.RoundedMoves.C133_contained_partial", "Verif.Props.RoundedMoves.C133_rotate_violated"], "note": "Moves in place of BoxCatalog in binary64 for histories of any length; translate and recenter for every binary format. Particles stay in the box up to 6e-12 of the coordinates per call (C133_contained_partial), not exactly: a quarter turn makes the side of a box of 1000 shorter and leaves a particle of the edge out (C133_rotate_violated). Coordinates met on the way are bounded by M and velocities by V, at least 1e-100; overflows, infinities and nan are not modelled."},
{"property": "C134", "status": "proved", "theorems": ["Verif.Props.RoundedBlinding.C134_ap", "Verif.Props.RoundedBlinding.C134_ap_distance", "Verif.Props.RoundedBlinding.C134_shuffle", "Verif.Props.RoundedBlinding.C134_fraction", "Verif.Props.RoundedBlinding.C134_refused", "Verif.Props.RoundedBlinding.C134_rsd"], "note": "One process (ranks in C48); values of cosmological functions and displacements of reconstruction are arguments; the cosmological distance of blinded redshifts itself is not rounded here."},
{"property": "C135", "status": "partial", "theorems": ["Verif.Props.RoundedDensity.C135_number", "Verif.Props.RoundedDensity.C135_default_partial", "Verif.Props.RoundedDensity.C135_default_violated", "Verif.Props.RoundedDensity.C135_weights", "Verif.Props.RoundedDensity.C135_unweighted", "Verif.Props.RoundedDensity.C135_total", "Verif.Props.RoundedDensity.C135_centers", "Verif.Props.RoundedDensity.C135_weights_violated"], "note": "Number of bins: every object in one bin (C135_number, C135_total), for redshifts that do not differ by the smallest floats only. Default bins: objects above the last edge are in no bin and are within four rounding errors of the highest redshift (C135_default_partial); refuted: for some redshifts and width the object of highest redshift is lost (C135_default_violated; the width of the rule is an argument). Weights: accuracy relative to the total weight (C135_weights); refuted: a bin with objects may have weight 0 (C135_weights_violated), since numpy takes differences of cumulative sums. One process; volumes of shells are in C36 without rounding."},
{"property": "C136", "status": "proved", "theorems": ["Verif.Props.Rounds.C136_bound", "Verif.Props.Rounds.C136_rounds", "Verif.Props.Rounds.C136_single", "Verif.Props.Rounds.C136_more", "Verif.Props.Rounds.C136_mask"], "note": "Draws are taken to be independent with the same law, whatever the seeds of rounds and ranks; the generator of numpy is not modelled."},
{"property": "C137", "status": "proved", "theorems": ["Verif.Props.RoundedLognormal.C137_sampled", "Verif.Props.RoundedLognormal.C137_order", "Verif.Props.RoundedLognormal.C137_cell", "Verif.Props.RoundedLognormal.C137_accuracy", "Verif.Props.RoundedLognormal.C137_mean", "Verif.Props.RoundedLognormal.C137_empty", "Verif.Props.RoundedLognormal.C137_count", "Verif.Props.RoundedLognormal.C137_count_limit"], "note": "Overflow is left out. Exponentials of the C library are assumed to be floats, not negative, and accurate to a relative error. What pmesh does between writing numbers of objects to the mesh and reading them is taken to be exact."},
{"property": "C138", "status": "partial", "theorems": ["Verif.Props.RoundedLayout.C138_axis", "Verif.Props.RoundedLayout.C138_equal", "Verif.Props.RoundedLayout.C138_size", "Verif.Props.RoundedLayout.C138_number", "Verif.Props.RoundedLayout.C138_exactly", "Verif.Props.RoundedLayout.C138_single", "Verif.Props.RoundedLayout.C138_default_violated", "Verif.Props.RoundedLayout.C138_boxes"], "note": "Violated for default margins: 8 sub-boxes of size 360 fit in a box of size 3000, yet in double precision the rescaling factor of equal margins is rounded below 1 and an AssertionError is raised (C138_default_violated). The rest holds: sizes of sub-boxes, margins up to slack = u (24 B + 2 |c|), equal margins by default, exact number of sub-boxes, no error with margins given or a single sub-box."},
{"property": "C139", "status": "proved", "theorems": ["Verif.Props.RoundedCutsky.C139_columns", "Verif.Props.RoundedCutsky.C139_kept", "Verif.Props.RoundedCutsky.C139_dropped", "Verif.Props.RoundedCutsky.C139_catalog", "Verif.Props.RoundedCutsky.C139_moved"], "note": "positions given within an error (C128 for the isometry); RA ranges within [0, 360); draws that are exactly 0 and overflow are left out"},
{"property": "C140", "status": "proved", "theorems": ["Verif.Props.RoundedPlacement.C140_boxsize", "Verif.Props.RoundedPlacement.C140_isometry", "Verif.Props.RoundedPlacement.C140_covered", "Verif.Props.RoundedPlacement.C140_survey"], "note": "RA ranges within [0, 360), Dec within [-90, 90]; coordinates whose squares underflow and overflow are left out"},
{"property": "C141", "status": "proved", "theorems": ["Verif.Props.RoundedOutputs.C141_survey", "Verif.Props.RoundedOutputs.C141_inside", "Verif.Props.RoundedOutputs.C141_disjoint", "Verif.Props.RoundedOutputs.C141_returned"], "note": "for RA ranges within [0, 360) from the first to the second bound, Dec within 60 degrees and both masks; that the box covers the survey is C21 (proved for surveys centred on the equator that reach the observer); without internal margins nothing is proved"},
{"property": "C142", "status": "proved", "theorems": ["Verif.Props.RoundedOpenings.C142_inside", "Verif.Props.RoundedOpenings.C142_widest", "Verif.Props.RoundedOpenings.C142_rejected", "Verif.Props.RoundedOpenings.C142_outside"], "note": "that the ranges are as wide as the box allows is proved for observers in the box; squares are taken as rounded exact squares; the library is taken to return arc sines that are not negative for numbers that are not negative"}
]}
