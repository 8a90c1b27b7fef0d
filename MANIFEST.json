{
 "claims": [
  {
   "property": "C01",
   "status": "proved",
   "theorems": [
    "Pointpats.Props.C01_attributes_history_independent"
   ],
   "note": ""
  },
  {
   "property": "C02",
   "status": "partial",
   "theorems": [
    "Pointpats.Props.C02_lambda_window_partial",
    "Pointpats.Props.C02_lambda_window_frozen",
    "Pointpats.Props.C02_lambda_window_refuted"
   ],
   "note": "False of the code (C02_lambda_window_refuted: the cached value survives a window assignment); proved for histories that do not read it before the last window assignment."
  },
  {
   "property": "C03",
   "status": "proved",
   "theorems": [
    "Pointpats.Props.C03_default_window"
   ],
   "note": ""
  },
  {
   "property": "C04",
   "status": "partial",
   "theorems": [
    "Pointpats.Props.C04_constructor_arguments_partial",
    "Pointpats.Props.C04_constructor_arguments_refuted"
   ],
   "note": "False of the code (C04_constructor_arguments_refuted); the partial theorem gives the exact condition."
  },
  {
   "property": "C05",
   "status": "partial",
   "theorems": [
    "Pointpats.Props.C05_add_marks_partial",
    "Pointpats.Props.C05_add_marks_refuted"
   ],
   "note": "False when the user chose a name of the generated form (C05_add_marks_refuted); proved for all other histories."
  },
  {
   "property": "C06",
   "status": "proved",
   "theorems": [
    "Pointpats.Props.C06_unique"
   ],
   "note": ""
  },
  {
   "property": "C07",
   "status": "partial",
   "theorems": [
    "Pointpats.Props.C07_unique_window_refuted",
    "Pointpats.Props.C07_window_handed_on_partial"
   ],
   "note": "False for every pattern: C07_unique_window_refuted. Proved: handing the window on by hand repairs the result (C07_window_handed_on_partial)."
  },
  {
   "property": "C08",
   "status": "proved",
   "theorems": [
    "Pointpats.Props.C08_superimpose"
   ],
   "note": ""
  },
  {
   "property": "C09",
   "status": "proved",
   "theorems": [
    "Pointpats.Props.C09_explode"
   ],
   "note": ""
  },
  {
   "property": "C10",
   "status": "proved",
   "theorems": [
    "Pointpats.Props.C10_flip_coordinates"
   ],
   "note": ""
  },
  {
   "property": "C11",
   "status": "proved",
   "theorems": [
    "Pointpats.Props.C11_knn"
   ],
   "note": ""
  },
  {
   "property": "C12",
   "status": "partial",
   "theorems": [
    "Pointpats.Props.C12_not_own_neighbour_partial",
    "Pointpats.Props.C12_own_neighbour_refuted"
   ],
   "note": "False of the code when two events coincide (C12_own_neighbour_refuted: a correct index may list the coincident event first); C12_not_own_neighbour_partial proves it for patterns without coincident events."
  },
  {
   "property": "C13",
   "status": "proved",
   "theorems": [
    "Pointpats.Props.C13_nnd",
    "Pointpats.Props.C13_nnd_summaries",
    "Pointpats.Props.C13_knn_other"
   ],
   "note": ""
  },
  {
   "property": "C14",
   "status": "proved",
   "theorems": [
    "Pointpats.Props.C14_find_pairs"
   ],
   "note": ""
  },
  {
   "property": "C15",
   "status": "proved",
   "theorems": [
    "Pointpats.Props.C15_hull_area_invariance",
    "Pointpats.Props.C15_hull_area_nonneg",
    "Pointpats.Props.C15_hull_area_rectangle"
   ],
   "note": ""
  },
  {
   "property": "C16",
   "status": "partial",
   "theorems": [
    "Pointpats.Props.C16_contains_partial",
    "Pointpats.Props.C16_contains_refuted"
   ],
   "note": "False when the coordinate columns are not the first two (C16_contains_refuted); proved otherwise, for histories without add_marks (which could overwrite a coordinate column)."
  },
  {
   "property": "C17",
   "status": "proved",
   "theorems": [
    "Pointpats.Props.C17_to_ccf",
    "Pointpats.Props.C17_to_ccf_empty",
    "Pointpats.Props.C17_poly_from_bbox"
   ],
   "note": ""
  },
  {
   "property": "C18",
   "status": "proved",
   "theorems": [
    "Pointpats.Props.C18_filter_contained"
   ],
   "note": ""
  },
  {
   "property": "C19",
   "status": "proved",
   "theorems": [
    "Pointpats.Props.C19_bbox_smallest",
    "Pointpats.Props.C19_bbox_contains_points",
    "Pointpats.Props.C19_bbox_of_corners",
    "Pointpats.Props.C19_same_numbers"
   ],
   "note": ""
  },
  {
   "property": "C20",
   "status": "proved",
   "theorems": [
    "Pointpats.Props.C20_area",
    "Pointpats.Props.C20_contains",
    "Pointpats.Props.C20_area_geometry"
   ],
   "note": ""
  },
  {
   "property": "C21",
   "status": "proved",
   "theorems": [
    "Pointpats.Props.C21_k_neighbors"
   ],
   "note": ""
  },
  {
   "property": "C22",
   "status": "proved",
   "theorems": [
    "Pointpats.Props.C22_build_best_tree"
   ],
   "note": ""
  },
  {
   "property": "C23",
   "status": "proved",
   "theorems": [
    "Pointpats.Props.C23_prepare_hull"
   ],
   "note": ""
  },
  {
   "property": "C24",
   "status": "proved",
   "theorems": [
    "Pointpats.Props.C24_mean_center"
   ],
   "note": ""
  },
  {
   "property": "C25",
   "status": "proved",
   "theorems": [
    "Pointpats.Props.C25_weighted_mean_center",
    "Pointpats.Props.C25_integer_weights"
   ],
   "note": ""
  },
  {
   "property": "C26",
   "status": "proved",
   "theorems": [
    "Pointpats.Props.C26_manhattan_median"
   ],
   "note": ""
  },
  {
   "property": "C27",
   "status": "proved",
   "theorems": [
    "Pointpats.Props.C27_std_distance"
   ],
   "note": ""
  },
  {
   "property": "C28",
   "status": "proved",
   "theorems": [
    "Pointpats.Props.C28_C29_ellipse"
   ],
   "note": "Exact arithmetic, at least three events, weights non-negative with positive sum (or none)."
  },
  {
   "property": "C29",
   "status": "proved",
   "theorems": [
    "Pointpats.Props.C28_C29_ellipse",
    "Pointpats.Props.C29_ellipse_errors"
   ],
   "note": ""
  },
  {
   "property": "C30",
   "status": "proved",
   "theorems": [
    "Pointpats.Props.C30_dtot",
    "Pointpats.Props.C30_euclidean_median",
    "Pointpats.Props.C30_collinear",
    "Pointpats.Props.C30_optimiser_arguments"
   ],
   "note": "SciPy's optimiser is a parameter: the theorem on euclidean_median assumes that it stops at a local minimum of the total distance."
  },
  {
   "property": "C31",
   "status": "proved",
   "theorems": [
    "Pointpats.Props.C31_circumcircle"
   ],
   "note": ""
  },
  {
   "property": "C32",
   "status": "proved",
   "theorems": [
    "Pointpats.Props.C32_lists_stop",
    "Pointpats.Props.C32_numba_stops"
   ],
   "note": ""
  },
  {
   "property": "C33",
   "status": "partial",
   "theorems": [
    "Pointpats.Props.C33_smallest_circle_partial",
    "Pointpats.Props.C33_contains_refuted"
   ],
   "note": "False as stated: a hull corner within 1e-5 of a straight angle is given the circle on the segment of its neighbours, and the result can miss an event (C33_contains_refuted, with and without numba). Proved for every hull in which the sine of every angle between three vertices is at least 1e-5; exact arithmetic; SciPy's hull by its specification IsHullOf."
  },
  {
   "property": "C34",
   "status": "proved",
   "theorems": [
    "Pointpats.Props.C34_same_circle",
    "Pointpats.Props.C34_choices",
    "Pointpats.Props.C34_same_if_unique"
   ],
   "note": ""
  },
  {
   "property": "C35",
   "status": "proved",
   "theorems": [
    "Pointpats.Props.C35_angle",
    "Pointpats.Props.C35_all_listings"
   ],
   "note": "Shapely's rectangle is an input."
  },
  {
   "property": "C36",
   "status": "proved",
   "theorems": [
    "Pointpats.Props.C36_poisson_process",
    "Pointpats.Props.C36_poisson_process_box"
   ],
   "note": ""
  },
  {
   "property": "C37",
   "status": "proved",
   "theorems": [
    "Pointpats.Props.C37_runif_in_circle",
    "Pointpats.Props.C37_runif_in_circle_ends"
   ],
   "note": ""
  },
  {
   "property": "C38",
   "status": "partial",
   "theorems": [
    "Pointpats.Props.C38_cluster_process_refuted",
    "Pointpats.Props.C38_conditioned_refuted",
    "Pointpats.Props.C38_cluster_round_partial"
   ],
   "note": "False of the code (C38_cluster_process_refuted, and C38_conditioned_refuted for drawn numbers of parents); C38_cluster_round_partial proves the part about one round of children."
  },
  {
   "property": "C39",
   "status": "proved",
   "theorems": [
    "Pointpats.Props.C39_size_and_intensity",
    "Pointpats.Props.C39_box",
    "Pointpats.Props.C39_zero_area",
    "Pointpats.Props.C39_flat_box"
   ],
   "note": ""
  },
  {
   "property": "C40",
   "status": "proved",
   "theorems": [
    "Pointpats.Props.C40_poisson",
    "Pointpats.Props.C40_poisson_ends",
    "Pointpats.Props.C40_poisson_box"
   ],
   "note": ""
  },
  {
   "property": "C41",
   "status": "proved",
   "theorems": [
    "Pointpats.Props.C41_replications",
    "Pointpats.Props.C41_successive"
   ],
   "note": ""
  },
  {
   "property": "C42",
   "status": "partial",
   "theorems": [
    "Pointpats.Props.C42_shape_refuted",
    "Pointpats.Props.C42_single_refuted",
    "Pointpats.Props.C42_shape_partial"
   ],
   "note": "False for sizes or replication counts of one (C42_shape_refuted: the axes of length one are squeezed away); C42_shape_partial gives the shape otherwise."
  },
  {
   "property": "C43",
   "status": "partial",
   "theorems": [
    "Pointpats.Props.C43_covariance_refuted",
    "Pointpats.Props.C43_correlation_refuted",
    "Pointpats.Props.C43_covariance_partial",
    "Pointpats.Props.C43_normal_points",
    "Pointpats.Props.C43_normal_argument"
   ],
   "note": "The default covariance is not the documented one (C43_covariance_refuted, C43_correlation_refuted); C43_covariance_partial, C43_normal_points and C43_normal_argument say what does hold."
  },
  {
   "property": "C44",
   "status": "partial",
   "theorems": [
    "Pointpats.Props.C44_cluster_poisson_partial",
    "Pointpats.Props.C44_cluster_poisson_refuted",
    "Pointpats.Props.C44_one_seed_refuted"
   ],
   "note": "False of the code (C44_cluster_poisson_refuted, C44_one_seed_refuted); C44_cluster_poisson_partial proves the rest."
  },
  {
   "property": "C45",
   "status": "partial",
   "theorems": [
    "Pointpats.Props.C45_cluster_normal_points",
    "Pointpats.Props.C45_cluster_normal_partial",
    "Pointpats.Props.C45_replications_refuted"
   ],
   "note": "False with several replications (C45_replications_refuted); C45_cluster_normal_partial proves the rest."
  },
  {
   "property": "C46",
   "status": "partial",
   "theorems": [
    "Pointpats.Props.C46_strauss_partial",
    "Pointpats.Props.C46_strauss_errors",
    "Pointpats.Props.C46_strauss_refuted",
    "Pointpats.Props.C46_strauss_ends",
    "Pointpats.Props.C46_strauss_succeeds",
    "Pointpats.Props.C46_strauss_small_hull",
    "Pointpats.Props.C46_strauss_ends_surely"
   ],
   "note": "The claim on exceptions is false for initial patterns of one point (C46_strauss_refuted: ValueError for every stream) and for small hulls (C46_strauss_small_hull). Proved: the count and containment, the exceptions otherwise, termination on boxes for every stream of draws and on all hulls with probability one, and when a pattern is sure to be returned (C46_strauss_succeeds)."
  },
  {
   "property": "C47",
   "status": "partial",
   "theorems": [
    "Pointpats.Props.C47_hard_core_partial",
    "Pointpats.Props.C47_hard_core_refuted"
   ],
   "note": "False of the code (C47_hard_core_refuted: close pairs of the initial pattern stay); C47_hard_core_partial proves that the chain adds none."
  },
  {
   "property": "C48",
   "status": "proved",
   "theorems": [
    "Pointpats.Props.C48_rectangle_counts_conserve",
    "Pointpats.Props.C48_rectangle_counts_robust_to_rounding"
   ],
   "note": ""
  },
  {
   "property": "C49",
   "status": "proved",
   "theorems": [
    "Pointpats.Props.C49_rectangle_cell_counts"
   ],
   "note": ""
  },
  {
   "property": "C50",
   "status": "partial",
   "theorems": [
    "Pointpats.Props.C50_degenerate_refuted",
    "Pointpats.Props.C50_counted_partial"
   ],
   "note": "False for every pattern of zero extent (C50_degenerate_refuted). Proved: all points are counted exactly if two of them differ in x and two in y, and the counting raises otherwise (C50_counted_partial)."
  },
  {
   "property": "C51",
   "status": "partial",
   "theorems": [
    "Pointpats.Props.C51_C52_exact_partial",
    "Pointpats.Props.C51_C52_hexagon_counts_partial",
    "Pointpats.Props.C51_hexagon_counts_refuted"
   ],
   "note": "False on cell boundaries (C51_hexagon_counts_refuted). C51_C52_exact_partial says exactly which events on the upper and right border of the box make the counting fail or go to a wrong cell; without such events everything is proved."
  },
  {
   "property": "C52",
   "status": "partial",
   "theorems": [
    "Pointpats.Props.C51_C52_exact_partial",
    "Pointpats.Props.C51_C52_hexagon_counts_partial",
    "Pointpats.Props.C52_hexagon_assignment_refuted"
   ],
   "note": "False on cell boundaries (C52_hexagon_assignment_refuted). C51_C52_exact_partial says exactly for which events."
  },
  {
   "property": "C53",
   "status": "partial",
   "theorems": [
    "Pointpats.Props.C53_hexagon_num_partial",
    "Pointpats.Props.C53_hexagon_num_refuted"
   ],
   "note": "False in general (C53_hexagon_num_refuted); C53_hexagon_num_partial gives the exact condition."
  },
  {
   "property": "C54",
   "status": "proved",
   "theorems": [
    "Pointpats.Props.C54_chi_square",
    "Pointpats.Props.C54_chi_square_perm"
   ],
   "note": ""
  },
  {
   "property": "C55",
   "status": "partial",
   "theorems": [
    "Pointpats.Props.C55_pvalue_partial",
    "Pointpats.Props.C55_pvalue_perm",
    "Pointpats.Props.C55_pvalue_antitone",
    "Pointpats.Props.C55_one_realization_refuted"
   ],
   "note": "The constructor never returns with one realization, or for a pattern of one point (C55_one_realization_refuted); everything else is proved."
  },
  {
   "property": "C56",
   "status": "proved",
   "theorems": [
    "Pointpats.Props.C56_edge_correction",
    "Pointpats.Props.C56_support",
    "Pointpats.Props.C56_errors",
    "Pointpats.Props.C56_other_supports"
   ],
   "note": ""
  },
  {
   "property": "C57",
   "status": "proved",
   "theorems": [
    "Pointpats.Props.C57_g",
    "Pointpats.Props.C57_g_given",
    "Pointpats.Props.C57_g_returns"
   ],
   "note": ""
  },
  {
   "property": "C58",
   "status": "proved",
   "theorems": [
    "Pointpats.Props.C58_f",
    "Pointpats.Props.C58_f_given"
   ],
   "note": ""
  },
  {
   "property": "C59",
   "status": "partial",
   "theorems": [
    "Pointpats.Props.C59_g_refuted",
    "Pointpats.Props.C59_g_partial"
   ],
   "note": "False when the support does not cover all distances (C59_g_refuted); proved when it does."
  },
  {
   "property": "C60",
   "status": "proved",
   "theorems": [
    "Pointpats.Props.C60_j",
    "Pointpats.Props.C60_j_truncate"
   ],
   "note": ""
  },
  {
   "property": "C61",
   "status": "proved",
   "theorems": [
    "Pointpats.Props.C61_k",
    "Pointpats.Props.C61_k_returns",
    "Pointpats.Props.C61_k_shape",
    "Pointpats.Props.C61_k_order",
    "Pointpats.Props.C61_k_given"
   ],
   "note": ""
  },
  {
   "property": "C62",
   "status": "proved",
   "theorems": [
    "Pointpats.Props.C62_l"
   ],
   "note": ""
  },
  {
   "property": "C63",
   "status": "partial",
   "theorems": [
    "Pointpats.Props.C63_pvalue_partial",
    "Pointpats.Props.C63_first_pvalue_refuted"
   ],
   "note": "The p-value at the first distance is 0 in every F and G test (C63_first_pvalue_refuted); the formula and the range [0, 1/2] are proved."
  },
  {
   "property": "C64",
   "status": "proved",
   "theorems": [
    "Pointpats.Props.C64_order",
    "Pointpats.Props.C64_schedule"
   ],
   "note": ""
  },
  {
   "property": "C65",
   "status": "partial",
   "theorems": [
    "Pointpats.Props.C65_f_test_refuted",
    "Pointpats.Props.C65_f_test_partial"
   ],
   "note": "False for the first locations, for which f_test leaves out one event (C65_f_test_refuted); C65_f_test_partial says what the statistic is."
  },
  {
   "property": "C66",
   "status": "partial",
   "theorems": [
    "Pointpats.Props.C66_knox_counts_pairs_partial",
    "Pointpats.Props.C66_no_close_pair_refuted",
    "Pointpats.Props.C66_times_rearranged_partial",
    "Pointpats.Props.C66_inputs_modified_refuted",
    "Pointpats.Props.C66_negative_tau_refuted"
   ],
   "note": "False in three ways: knox raises when no pair is close in space (C66_no_close_pair_refuted), rearranges the caller's times while it permutes them (C66_inputs_modified_refuted), and takes a negative time threshold for its absolute value (C66_negative_tau_refuted). The count is proved when some pair is close and tau is not negative."
  },
  {
   "property": "C67",
   "status": "partial",
   "theorems": [
    "Pointpats.Props.C67_mantel_pvalue",
    "Pointpats.Props.C67_jacquez_pvalue",
    "Pointpats.Props.C67_knox_pvalue_partial",
    "Pointpats.Props.C67_knox_all_larger_refuted",
    "Pointpats.Props.C67_knox_order_refuted",
    "Pointpats.Props.C67_modified_knox_pvalue"
   ],
   "note": "Range, invariance and the value when all permuted statistics are as large are proved for jacquez, mantel and modified_knox; for knox the p-value of an all-larger set of permutations is flipped (C67_knox_all_larger_refuted)."
  },
  {
   "property": "C68",
   "status": "proved",
   "theorems": [
    "Pointpats.Props.C68_mantel_order",
    "Pointpats.Props.C68_knox_order",
    "Pointpats.Props.C68_modified_knox_order"
   ],
   "note": ""
  },
  {
   "property": "C69",
   "status": "proved",
   "theorems": [
    "Pointpats.Props.C69_shuffle_matrix_relabels",
    "Pointpats.Props.C69_inverse_restores",
    "Pointpats.Props.C69_inverse_exists",
    "Pointpats.Props.C69_shuffles_times"
   ],
   "note": ""
  },
  {
   "property": "C70",
   "status": "proved",
   "theorems": [
    "Pointpats.Props.C70_mantel_is_correlation",
    "Pointpats.Props.C70_mantel_symmetric",
    "Pointpats.Props.C70_defined",
    "Pointpats.Props.C70_correlation_affine",
    "Pointpats.Props.C70_space_units",
    "Pointpats.Props.C70_time_units",
    "Pointpats.Props.C70_undefined",
    "Pointpats.Props.C70_constant"
   ],
   "note": ""
  },
  {
   "property": "C71",
   "status": "proved",
   "theorems": [
    "Pointpats.Props.C71_jacquez_counts",
    "Pointpats.Props.C71_jacquez_nearest"
   ],
   "note": ""
  },
  {
   "property": "C72",
   "status": "proved",
   "theorems": [
    "Pointpats.Props.C72_modified_knox_formula"
   ],
   "note": ""
  },
  {
   "property": "C73",
   "status": "proved",
   "theorems": [
    "Pointpats.Props.C73_observed_table",
    "Pointpats.Props.C73_expected_table"
   ],
   "note": ""
  },
  {
   "property": "C74",
   "status": "proved",
   "theorems": [
    "Pointpats.Props.C74_knox_counts_pairs",
    "Pointpats.Props.C74_counts_grow",
    "Pointpats.Props.C74_agrees_with_knox"
   ],
   "note": ""
  },
  {
   "property": "C75",
   "status": "proved",
   "theorems": [
    "Pointpats.Props.C75_permutations_relabel_time"
   ],
   "note": ""
  },
  {
   "property": "C76",
   "status": "proved",
   "theorems": [
    "Pointpats.Props.C76_local_counts",
    "Pointpats.Props.C76_global_test"
   ],
   "note": ""
  },
  {
   "property": "C77",
   "status": "proved",
   "theorems": [
    "Pointpats.Props.C77_focal_event_kept"
   ],
   "note": ""
  },
  {
   "property": "C78",
   "status": "proved",
   "theorems": [
    "Pointpats.Props.C78_adjacency_list"
   ],
   "note": ""
  },
  {
   "property": "C79",
   "status": "partial",
   "theorems": [
    "Pointpats.Props.C79_hotspots_partial",
    "Pointpats.Props.C79_linked_events_split_refuted"
   ],
   "note": "The table is right for the graph the code builds, but that graph links an event only with its first neighbour, so linked events can be split over clusters (C79_linked_events_split_refuted)."
  },
  {
   "property": "C80",
   "status": "proved",
   "theorems": [
    "Pointpats.Props.C80_simulated_pvalues",
    "Pointpats.Props.C80_analytical_pvalues"
   ],
   "note": ""
  },
  {
   "property": "C81",
   "status": "partial",
   "theorems": [
    "Pointpats.Props.C81_density_grid",
    "Pointpats.Props.C81_grid_covers",
    "Pointpats.Props.C81_resolution",
    "Pointpats.Props.C81_frames",
    "Pointpats.Props.C81_fft_grid_partial",
    "Pointpats.Props.C81_fft_tuple_refuted"
   ],
   "note": "Proved with the statsmodels engine; with the KDEpy engine a resolution given as a tuple raises TypeError (C81_fft_tuple_refuted) and the grid is the one the library chooses (C81_fft_grid_partial)."
  },
  {
   "property": "C82",
   "status": "proved",
   "theorems": [
    "Pointpats.Props.C82_plot_contributions",
    "Pointpats.Props.C82_rectangle_plot",
    "Pointpats.Props.C82_hexagon_plot"
   ],
   "note": ""
  },
  {
   "property": "C83",
   "status": "partial",
   "theorems": [
    "Pointpats.Props.C83_j_test_refuted",
    "Pointpats.Props.C83_j_test_cut",
    "Pointpats.Props.C83_j_test_partial"
   ],
   "note": "False for a support of one distance (C83_j_test_refuted: None is returned); proved for two or more."
  },
  {
   "property": "C84",
   "status": "partial",
   "theorems": [
    "Pointpats.Props.C84_matrix_refuted",
    "Pointpats.Props.C84_matrix_partial"
   ],
   "note": "False for the matrix with its zero diagonal (C84_matrix_refuted); proved when the diagonal is filled with large values."
  },
  {
   "property": "C85",
   "status": "partial",
   "theorems": [
    "Pointpats.Props.C85_region_refuted",
    "Pointpats.Props.C85_region_partial"
   ],
   "note": "False for a hull other than the bounding box (C85_region_refuted)."
  },
  {
   "property": "C86",
   "status": "partial",
   "theorems": [
    "Pointpats.Props.C86_k_test_partial",
    "Pointpats.Props.C86_k_test_refuted"
   ],
   "note": "False for a hull other than the bounding box (C86_k_test_refuted)."
  },
  {
   "property": "C87",
   "status": "partial",
   "theorems": [
    "Pointpats.Props.C87_simulations_refuted",
    "Pointpats.Props.C87_simulations_partial"
   ],
   "note": "False: replications are cut instead (C87_simulations_refuted)."
  },
  {
   "property": "C88",
   "status": "proved",
   "theorems": [
    "Pointpats.Props.C88_plot_colours",
    "Pointpats.Props.C88_other_inference"
   ],
   "note": ""
  },
  {
   "property": "C89",
   "status": "proved",
   "theorems": [
    "Pointpats.Props.C89_local_from_dataframe",
    "Pointpats.Props.C89_knox_from_dataframe",
    "Pointpats.Props.C89_refused_frames"
   ],
   "note": ""
  },
  {
   "property": "C90",
   "status": "partial",
   "theorems": [
    "Pointpats.Props.C90_events_partial",
    "Pointpats.Props.C90_sizes",
    "Pointpats.Props.C90_database_refuted"
   ],
   "note": "The database is looked up by its name among libpysal's example files, so that the one beside the shape file can be ignored (C90_database_refuted); the rest is proved when the two agree."
  },
  {
   "property": "C91",
   "status": "proved",
   "theorems": [
    "Pointpats.Props.C91_float_counts"
   ],
   "note": ""
  },
  {
   "property": "C92",
   "status": "partial",
   "theorems": [
    "Pointpats.Props.C92_float_drawn_cells_partial",
    "Pointpats.Props.C92_float_drawn_cells_refuted"
   ],
   "note": "False as stated (C92_float_drawn_cells_refuted: an event at the right edge lies outside the last rectangle drawn); proved with an allowance of 2^-49 of the size of the numbers."
  },
  {
   "property": "C93",
   "status": "partial",
   "theorems": [
    "Pointpats.Props.C93_float_mean_center_partial",
    "Pointpats.Props.C93_float_mean_center_refuted"
   ],
   "note": "The bounding box claim is false (C93_float_mean_center_refuted: three coincident events at 0.1); the error bound is proved."
  },
  {
   "property": "C94",
   "status": "partial",
   "theorems": [
    "Pointpats.Props.C94_float_std_distance_partial",
    "Pointpats.Props.C94_float_std_distance_refuted"
   ],
   "note": "False for coincident events (C94_float_std_distance_refuted: nan); proved when the spread exceeds the rounding error."
  },
  {
   "property": "C95",
   "status": "partial",
   "theorems": [
    "Pointpats.Props.C95_float_angle_partial",
    "Pointpats.Props.C95_float_angle_refuted"
   ],
   "note": "False in the limit (C95_float_angle_refuted: exactly 90 for an edge a tiny angle below the axis); the closed range and the angle up to rounding are proved. The direction in degrees is an arbitrary float here; atan2 is not modelled."
  },
  {
   "property": "C96",
   "status": "proved",
   "theorems": [
    "Pointpats.Props.C96_float_support"
   ],
   "note": ""
  },
  {
   "property": "C97",
   "status": "proved",
   "theorems": [
    "Pointpats.Props.C97_float_pvalues"
   ],
   "note": ""
  },
  {
   "property": "C98",
   "status": "proved",
   "theorems": [
    "Pointpats.Props.C98_float_time_threshold"
   ],
   "note": ""
  },
  {
   "property": "C99",
   "status": "proved",
   "theorems": [
    "Pointpats.Props.C99_minimum_bounding_rectangle"
   ],
   "note": ""
  },
  {
   "property": "C100",
   "status": "proved",
   "theorems": [
    "Pointpats.Props.C100_ellipse_polygon"
   ],
   "note": ""
  },
  {
   "property": "C101",
   "status": "partial",
   "theorems": [
    "Pointpats.Props.C101_circle_polygon_partial",
    "Pointpats.Props.C101_circle_polygon_refuted"
   ],
   "note": "False: the polygon is inscribed in the circle and misses events on it (C101_circle_polygon_refuted); that it lies in the circle and contains the inner disc is proved."
  },
  {
   "property": "C102",
   "status": "partial",
   "theorems": [
    "Pointpats.Props.C102_float_simulated_size_partial",
    "Pointpats.Props.C102_float_simulated_size_refuted"
   ],
   "note": "False: 29 events in a window of area 100 give simulated patterns of 28 points (C102_float_simulated_size_refuted); n or n-1, and exactness when n/area is a float, are proved."
  },
  {
   "property": "C103",
   "status": "partial",
   "theorems": [
    "Pointpats.Props.C103_same_number_partial",
    "Pointpats.Props.C103_same_quadrats_refuted",
    "Pointpats.Props.C103_same_cells_refuted",
    "Pointpats.Props.C103_own_quadrats_partial"
   ],
   "note": "False: the grid is laid anew over the bounding box of every simulated pattern (C103_same_quadrats_refuted for rectangles, C103_same_cells_refuted for hexagons, where even the number of quadrats differs). Proved for rectangles: every simulated statistic divides its own bounding box into the observed numbers of columns and rows (C103_own_quadrats_partial)."
  },
  {
   "property": "C104",
   "status": "partial",
   "theorems": [
    "Pointpats.Props.C104_knox_class_level",
    "Pointpats.Props.C104_modified_knox_level",
    "Pointpats.Props.C104_jacquez_level",
    "Pointpats.Props.C104_mantel_level_partial",
    "Pointpats.Props.C104_mantel_level_refuted",
    "Pointpats.Props.C104_knox_level_refuted",
    "Pointpats.Props.C104_knox_level_partial"
   ],
   "note": "Proved for the Knox class, modified_knox and jacquez. False for knox, which replaces a count of larger statistics by its complement (C104_knox_level_refuted; what holds is C104_knox_level_partial), and for mantel when the correlation is nan (C104_mantel_level_refuted; C104_mantel_level_partial otherwise). Exchangeability is expressed by a uniform rearrangement of the times; ideal uniform shuffles, not NumPy's generator."
  },
  {
   "property": "C105",
   "status": "proved",
   "theorems": [
    "Pointpats.Props.C105_local_level",
    "Pointpats.Props.C105_expected_number"
   ],
   "note": ""
  },
  {
   "property": "C106",
   "status": "partial",
   "theorems": [
    "Pointpats.Props.C106_quadrat_level_partial",
    "Pointpats.Props.C106_width_refuted"
   ],
   "note": "False for rectangles given by width and height: the observed statistic and the simulated ones use different grids (C106_width_refuted). Proved for rectangles by number of columns and rows and for hexagons of given side. Patterns are random elements with countably many values."
  },
  {
   "property": "C107",
   "status": "partial",
   "theorems": [
    "Pointpats.Props.C107_ripley_level_partial",
    "Pointpats.Props.C107_level_refuted"
   ],
   "note": "False: the p-value is folded to min(p, 1-p) without doubling (C107_level_refuted: 0 with probability 1/2 for one simulation). Proved: at most 2 alpha + 1/(R+1) when ties have probability zero."
  },
  {
   "property": "C108",
   "status": "proved",
   "theorems": [
    "Pointpats.Props.C108_poisson_uniform",
    "Pointpats.Props.C108_poisson_returns"
   ],
   "note": ""
  },
  {
   "property": "C109",
   "status": "proved",
   "theorems": [
    "Pointpats.Props.C109_process_uniform",
    "Pointpats.Props.C109_process_ends"
   ],
   "note": ""
  },
  {
   "property": "C110",
   "status": "proved",
   "theorems": [
    "Pointpats.Props.C110_circle_uniform",
    "Pointpats.Props.C110_runif_in_circle_uniform",
    "Pointpats.Props.C110_runif_in_circle_returns"
   ],
   "note": ""
  },
  {
   "property": "C111",
   "status": "partial",
   "theorems": [
    "Pointpats.Props.C111_lines_partial",
    "Pointpats.Props.C111_missing_line_refuted"
   ],
   "note": "False: only the first neighbour of every event of a hot spot gets a line (C111_missing_line_refuted). Proved: exactly one line for every event of a hot spot, to an event close in space and time, one of the two being significant."
  },
  {
   "property": "C112",
   "status": "partial",
   "theorems": [
    "Pointpats.Props.C112_plot_palette",
    "Pointpats.Props.C112_explore_palette_partial",
    "Pointpats.Props.C112_explore_palette_refuted",
    "Pointpats.Props.C112_explore_neighbors"
   ],
   "note": "False for explore, which draws events that are not significant in grey whatever colour is asked (C112_explore_palette_refuted). Proved for plot, for explore with grey, and for the neighbours explore shows."
  },
  {
   "property": "C113",
   "status": "partial",
   "theorems": [
    "Pointpats.Props.C113_cluster_poisson_first_points",
    "Pointpats.Props.C113_shared_centres_refuted",
    "Pointpats.Props.C113_cluster_normal_first_point",
    "Pointpats.Props.C113_cluster_poisson_refuted",
    "Pointpats.Props.C113_cluster_normal_refuted"
   ],
   "note": "False: the centres come from a generator seeded with one of 100000 integers, so the first point lies in a fixed set of area zero, and replications that draw the same integer share it (C113_cluster_poisson_refuted, C113_cluster_normal_refuted, C113_shared_centres_refuted). Proved: the first point is a function of that integer."
  },
  {
   "property": "C114",
   "status": "partial",
   "theorems": [
    "Pointpats.Props.C114_direction",
    "Pointpats.Props.C114_first_vertex",
    "Pointpats.Props.C114_rectangle_partial",
    "Pointpats.Props.C114_triangle",
    "Pointpats.Props.C114_centroid_refuted",
    "Pointpats.Props.C114_border_refuted",
    "Pointpats.Props.C114_simulation_partial"
   ],
   "note": "False for the centroid (mean of the corners for a ConvexHull, C114_centroid_refuted) and on the border (not contained in a polygon, C114_border_refuted). Proved: independence of the first vertex and of the direction; boxes in all three forms; triangles; poisson draw by draw. Polygons are modelled as convex without holes."
  },
  {
   "property": "C115",
   "status": "partial",
   "theorems": [
    "Pointpats.Props.C115_hexagons_partial",
    "Pointpats.Props.C115_gap_refuted"
   ],
   "note": "False for events on one horizontal line: the odd columns then have no cells and the drawn hexagons leave gaps (C115_gap_refuted). Proved: regular hexagons without overlap always; covering whenever two events differ in y. The drawing itself (matplotlib) is a list of polygons."
  },
  {
   "property": "C116",
   "status": "proved",
   "theorems": [
    "Pointpats.Props.C116_rectangles"
   ],
   "note": ""
  },
  {
   "property": "C117",
   "status": "partial",
   "theorems": [
    "Pointpats.Props.C117_centres",
    "Pointpats.Props.C117_distances",
    "Pointpats.Props.C117_dtot_partial",
    "Pointpats.Props.C117_dtot_refuted",
    "Pointpats.Props.C117_weights_partial",
    "Pointpats.Props.C117_weights_refuted"
   ],
   "note": "False for dtot, which chooses its implementation by the type of the location alone, so that dtot(mean_center(list), list) raises (C117_dtot_refuted), and for weights, which are matched with coordinates and not with rows (C117_weights_refuted). Proved for the other measures in full, for dtot with matching kinds, and for weights with one point in every row."
  },
  {
   "property": "C118",
   "status": "proved",
   "theorems": [
    "Pointpats.Props.C118_inputs",
    "Pointpats.Props.C118_refusals"
   ],
   "note": ""
  },
  {
   "property": "C119",
   "status": "proved",
   "theorems": [
    "Pointpats.Props.C119_seed",
    "Pointpats.Props.C119_generator",
    "Pointpats.Props.C119_random_state",
    "Pointpats.Props.C119_fresh",
    "Pointpats.Props.C119_seed_sequence",
    "Pointpats.Props.C119_refused"
   ],
   "note": ""
  },
  {
   "property": "C120",
   "status": "proved",
   "theorems": [
    "Pointpats.Props.C120_outline"
   ],
   "note": ""
  },
  {
   "property": "C121",
   "status": "partial",
   "theorems": [
    "Pointpats.Props.C121_patterns_partial",
    "Pointpats.Props.C121_empty_refuted"
   ],
   "note": "False if a random size is zero: asPP=True then raises ValueError (C121_empty_refuted). Proved for positive sizes."
  },
  {
   "property": "C122",
   "status": "proved",
   "theorems": [
    "Pointpats.Props.C122_same_function",
    "Pointpats.Props.C122_shape"
   ],
   "note": ""
  },
  {
   "property": "C123",
   "status": "proved",
   "theorems": [
    "Pointpats.Props.C123_random",
    "Pointpats.Props.C123_process",
    "Pointpats.Props.C123_quadrat_test",
    "Pointpats.Props.C123_distance_functions",
    "Pointpats.Props.C123_distance_tests",
    "Pointpats.Props.C123_own_generator"
   ],
   "note": ""
  },
  {
   "property": "C124",
   "status": "proved",
   "theorems": [
    "Pointpats.Props.C124_rectangles",
    "Pointpats.Props.C124_hexagons",
    "Pointpats.Props.C124_quadrat_test",
    "Pointpats.Props.C124_order_rectangles",
    "Pointpats.Props.C124_order_hexagons",
    "Pointpats.Props.C124_order_test"
   ],
   "note": ""
  },
  {
   "property": "C125",
   "status": "proved",
   "theorems": [
    "Pointpats.Props.C125_order_ellipse",
    "Pointpats.Props.C125_mean_center",
    "Pointpats.Props.C125_weighted_mean_center",
    "Pointpats.Props.C125_std_distance",
    "Pointpats.Props.C125_dtot",
    "Pointpats.Props.C125_euclidean_median",
    "Pointpats.Props.C125_manhattan_median",
    "Pointpats.Props.C125_manhattan_median_axes",
    "Pointpats.Props.C125_ellipse_turns",
    "Pointpats.Props.C125_ellipse_mirrored",
    "Pointpats.Props.C125_order"
   ],
   "note": ""
  },
  {
   "property": "C126",
   "status": "proved",
   "theorems": [
    "Pointpats.Props.C126_g",
    "Pointpats.Props.C126_k_l",
    "Pointpats.Props.C126_f_j",
    "Pointpats.Props.C126_tests"
   ],
   "note": ""
  },
  {
   "property": "C127",
   "status": "partial",
   "theorems": [
    "Pointpats.Props.C127_functions",
    "Pointpats.Props.C127_tests_partial",
    "Pointpats.Props.C127_f_test_refuted"
   ],
   "note": "Proved for F, G, J, K, L and for the tests of G, K and L. False for the tests of F and J: the i-th random location leaves out the i-th event (C127_f_test_refuted). Distances computed by the code, not given ones, which are tied to the order."
  },
  {
   "property": "C128",
   "status": "partial",
   "theorems": [
    "Pointpats.Props.C128_turned_partial",
    "Pointpats.Props.C128_turned_refuted"
   ],
   "note": "False for K (and L): the area is that of the bounding box along the axes (C128_turned_refuted). Proved: G is unchanged, K is multiplied by the factor by which the area of the bounding box changes."
  },
  {
   "property": "C129",
   "status": "proved",
   "theorems": [
    "Pointpats.Props.C129_knox",
    "Pointpats.Props.C129_modified_knox",
    "Pointpats.Props.C129_jacquez",
    "Pointpats.Props.C129_knox_class",
    "Pointpats.Props.C129_knox_local",
    "Pointpats.Props.C129_mantel",
    "Pointpats.Props.C129_mantel_plain",
    "Pointpats.Props.C129_mantel_default_constants"
   ],
   "note": ""
  },
  {
   "property": "C130",
   "status": "partial",
   "theorems": [
    "Pointpats.Props.C130_start_refuted",
    "Pointpats.Props.C130_order_partial",
    "Pointpats.Props.C130_similarity_partial",
    "Pointpats.Props.C130_turned",
    "Pointpats.Props.C130_rectangle_turned",
    "Pointpats.Props.C130_rectangle_mirrored"
   ],
   "note": "False of hulls with corners that are flat up to 1e-5: the circle depends on the vertex the hull begins with, with and without numba (C130_start_refuted). Order, reflection and the start of the hull: proved for hulls in which the sine of every angle between three vertices is at least 1e-5 (as in C33). Rotations, translations and changes of unit: proved for every ring of different vertices (C130_turned)."
  },
  {
   "property": "C131",
   "status": "proved",
   "theorems": [
    "Pointpats.Props.C131_units",
    "Pointpats.Props.C131_turned",
    "Pointpats.Props.C131_order",
    "Pointpats.Props.C131_default_window",
    "Pointpats.Props.C131_box_not_turned"
   ],
   "note": ""
  },
  {
   "property": "C132",
   "status": "partial",
   "theorems": [
    "Pointpats.Props.C132_poisson",
    "Pointpats.Props.C132_normal",
    "Pointpats.Props.C132_cluster_poisson",
    "Pointpats.Props.C132_cluster_normal",
    "Pointpats.Props.C132_runif_in_circle",
    "Pointpats.Props.C132_poisson_process",
    "Pointpats.Props.C132_strauss_partial",
    "Pointpats.Props.C132_strauss_refuted"
   ],
   "note": "False for strauss: with a unit twice as long the same simulation raises instead of returning (C132_strauss_refuted); proved for translations. Proved for poisson, normal, cluster_normal, runif_in_circle and PoissonPointProcess, and for cluster_poisson unless it has one seed."
  },
  {
   "property": "C133",
   "status": "proved",
   "theorems": [
    "Pointpats.Props.C133_cluster_poisson_ok",
    "Pointpats.Props.C133_cluster_poisson_too_many",
    "Pointpats.Props.C133_cluster_poisson_arguments",
    "Pointpats.Props.C133_cluster_normal_ok",
    "Pointpats.Props.C133_cluster_normal_too_many",
    "Pointpats.Props.C133_cluster_normal_one_seed"
   ],
   "note": ""
  },
  {
   "property": "C134",
   "status": "partial",
   "theorems": [
    "Pointpats.Props.C134_same_number",
    "Pointpats.Props.C134_refused_partial",
    "Pointpats.Props.C134_labels",
    "Pointpats.Props.C134_not_arrays",
    "Pointpats.Props.C134_mantel",
    "Pointpats.Props.C134_knox_refuted",
    "Pointpats.Props.C134_jacquez_refuted"
   ],
   "note": "False of the code for every call of knox with more times than places and every call of jacquez with more places than times (C134_knox_refuted, C134_jacquez_refuted): they return a result. Refusal is proved for Knox, KnoxLocal, mantel and modified_knox, for jacquez with more times than places, and for knox when a close pair of places lacks a time."
  },
  {
   "property": "C135",
   "status": "proved",
   "theorems": [
    "Pointpats.Props.C135_g",
    "Pointpats.Props.C135_k_l",
    "Pointpats.Props.C135_f",
    "Pointpats.Props.C135_j",
    "Pointpats.Props.C135_tests"
   ],
   "note": ""
  },
  {
   "property": "C136",
   "status": "partial",
   "theorems": [
    "Pointpats.Props.C136_rectangles",
    "Pointpats.Props.C136_hexagons_partial",
    "Pointpats.Props.C136_negative_side_refuted",
    "Pointpats.Props.C136_quadrat_test"
   ],
   "note": "False of hexagons with a negative side: every pattern is accepted with some negative side, and counted in one hexagon (C136_negative_side_refuted). Proved for rectangles (exact condition), a side of zero, patterns without points and unknown shapes."
  },
  {
   "property": "C137",
   "status": "partial",
   "theorems": [
    "Pointpats.Props.C137_hull_partial",
    "Pointpats.Props.C137_order",
    "Pointpats.Props.C137_rotated_rectangle_partial",
    "Pointpats.Props.C137_rectangle",
    "Pointpats.Props.C137_circle",
    "Pointpats.Props.C137_ellipse",
    "Pointpats.Props.C137_ellipse_polygon",
    "Pointpats.Props.C137_several_points_refuted"
   ],
   "note": "False for GeoPandas objects with several points in a row, for which hull and minimum_rotated_rectangle raise a TypeError (C137_several_points_refuted). Everything else is proved, for the answers of SciPy and Shapely given as specifications."
  },
  {
   "property": "C138",
   "status": "partial",
   "theorems": [
    "Pointpats.Props.C138_neighbours_partial",
    "Pointpats.Props.C138_missing_neighbours_refuted",
    "Pointpats.Props.C138_missing_other_refuted"
   ],
   "note": "Proved for k < n (knn) and k <= n (knn_other). For larger k it is false for every pattern: the rows end with entries whose id is no event and whose distance is infinite (C138_missing_neighbours_refuted, C138_missing_other_refuted)."
  },
  {
   "property": "C139",
   "status": "partial",
   "theorems": [
    "Pointpats.Props.C139_mean_center",
    "Pointpats.Props.C139_manhattan_median",
    "Pointpats.Props.C139_weighted_partial",
    "Pointpats.Props.C139_weighted_refuted",
    "Pointpats.Props.C139_std_distance",
    "Pointpats.Props.C139_ellipse",
    "Pointpats.Props.C139_ellipse_one",
    "Pointpats.Props.C139_ellipse_empty"
   ],
   "note": "False of weighted_mean_center without events, which returns the origin (C139_weighted_refuted); proved for all other cases."
  },
  {
   "property": "C140",
   "status": "partial",
   "theorems": [
    "Pointpats.Props.C140_knox_pairs",
    "Pointpats.Props.C140_k_partial",
    "Pointpats.Props.C140_k_refuted",
    "Pointpats.Props.C140_nnd_g"
   ],
   "note": "False of k, which leaves out pairs exactly at the distance (C140_k_refuted); proved for Knox, for nnd and g, and for k at all other distances."
  },
  {
   "property": "C141",
   "status": "partial",
   "theorems": [
    "Pointpats.Props.C141_knox_class",
    "Pointpats.Props.C141_knox_local",
    "Pointpats.Props.C141_modified_knox",
    "Pointpats.Props.C141_jacquez_partial",
    "Pointpats.Props.C141_jacquez_refuted",
    "Pointpats.Props.C141_knox_refuted",
    "Pointpats.Props.C141_mantel_refuted"
   ],
   "note": "False of knox and mantel, which report the smallest possible p-value (C141_knox_refuted, C141_mantel_refuted), and of jacquez for equal locations, where the index breaks ties (C141_jacquez_refuted). Proved for Knox, KnoxLocal and modified_knox, and for jacquez with equal times."
  },
  {
   "property": "C142",
   "status": "partial",
   "theorems": [
    "Pointpats.Props.C142_balance_partial",
    "Pointpats.Props.C142_one_point",
    "Pointpats.Props.C142_two_points_refuted"
   ],
   "note": "False of hulls of area 2 and more, where points are born two or more at a time and die one by one (C142_two_points_refuted). Proved whenever the proposal is a single point, which C142_one_point shows for areas from 1 to 2."
  },
  {
   "property": "C143",
   "status": "proved",
   "theorems": [
    "Pointpats.Props.C143_gamma_one"
   ],
   "note": ""
  },
  {
   "property": "C144",
   "status": "partial",
   "theorems": [
    "Pointpats.Props.C144_hull",
    "Pointpats.Props.C144_uniform_partial",
    "Pointpats.Props.C144_box",
    "Pointpats.Props.C144_refuted"
   ],
   "note": "False of initial patterns of one point (C144_refuted): the same point is returned twice. Proved for all other initial patterns, given that strauss returns; it returns with probability one when the initial patterns are not too small (C144_box, C144_hull)."
  },
  {
   "property": "C145",
   "status": "proved",
   "theorems": [
    "Pointpats.Props.C145_names_given",
    "Pointpats.Props.C145_no_names"
   ],
   "note": ""
  },
  {
   "property": "C146",
   "status": "proved",
   "theorems": [
    "Pointpats.Props.C146_holes"
   ],
   "note": ""
  },
  {
   "property": "C147",
   "status": "proved",
   "theorems": [
    "Pointpats.Props.C147_one_outcome",
    "Pointpats.Props.C147_independent"
   ],
   "note": ""
  },
  {
   "property": "C148",
   "status": "proved",
   "theorems": [
    "Pointpats.Props.C148_cluster_poisson",
    "Pointpats.Props.C148_seeds"
   ],
   "note": ""
  },
  {
   "property": "C149",
   "status": "proved",
   "theorems": [
    "Pointpats.Props.C149_normal_points",
    "Pointpats.Props.C149_normal_returns"
   ],
   "note": ""
  },
  {
   "property": "C150",
   "status": "proved",
   "theorems": [
    "Pointpats.Props.C150_quadrat_csr_level",
    "Pointpats.Props.C150_quadrat_csr_reports"
   ],
   "note": ""
  },
  {
   "property": "C151",
   "status": "proved",
   "theorems": [
    "Pointpats.Props.C151_high",
    "Pointpats.Props.C151_low",
    "Pointpats.Props.C151_pvalue",
    "Pointpats.Props.C151_returns"
   ],
   "note": ""
  },
  {
   "property": "C152",
   "status": "partial",
   "theorems": [
    "Pointpats.Props.C152_nan_refuted",
    "Pointpats.Props.C152_g_test_refuted",
    "Pointpats.Props.C152_numbers_partial"
   ],
   "note": "False of the code: where the observed curve is nan the reported p-value is 1 / (simulations + 1), for every pattern and every simulation. g_test does so whenever no event has its nearest neighbour within the support. The curves of k_test and l_test are shown to be numbers everywhere."
  },
  {
   "property": "C153",
   "status": "proved",
   "theorems": [
    "Pointpats.Props.C153_knox",
    "Pointpats.Props.C153_modified_knox",
    "Pointpats.Props.C153_jacquez",
    "Pointpats.Props.C153_knox_local",
    "Pointpats.Props.C153_mantel"
   ],
   "note": ""
  },
  {
   "property": "C154",
   "status": "proved",
   "theorems": [
    "Pointpats.Props.C154_rectangles",
    "Pointpats.Props.C154_hexagons",
    "Pointpats.Props.C154_grids"
   ],
   "note": ""
  },
  {
   "property": "C155",
   "status": "partial",
   "theorems": [
    "Pointpats.Props.C155_returns_partial",
    "Pointpats.Props.C155_single_refuted",
    "Pointpats.Props.C155_single_raises"
   ],
   "note": "False for one event: simulated patterns of one event have shape (2,), on which the tests raise, although k and l return for the pattern itself. Proved for two or more events."
  },
  {
   "property": "C156",
   "status": "partial",
   "theorems": [
    "Pointpats.Props.C156_arrays",
    "Pointpats.Props.C156_series_partial",
    "Pointpats.Props.C156_series_aligned",
    "Pointpats.Props.C156_series_refuted",
    "Pointpats.Props.C156_rows"
   ],
   "note": "False for a pandas Series on a pattern whose row labels are not 0, 1, 2, … (after unique, superimpose or explode): events get the value of another event or nan. Proved for lists and arrays, and for a Series with the labels of the pattern."
  },
  {
   "property": "C157",
   "status": "proved",
   "theorems": [
    "Pointpats.Props.C157_shares",
    "Pointpats.Props.C157_compare",
    "Pointpats.Props.C157_g",
    "Pointpats.Props.C157_j",
    "Pointpats.Props.C157_k"
   ],
   "note": ""
  },
  {
   "property": "C158",
   "status": "partial",
   "theorems": [
    "Pointpats.Props.C158_kind",
    "Pointpats.Props.C158_order_partial",
    "Pointpats.Props.C158_pvalue_partial",
    "Pointpats.Props.C158_ties_refuted"
   ],
   "note": "False of ties: the summands are added in the order of the cells, and eight events in three cells have another computed statistic than their mirror image, which is therefore not counted. Proved: sign, zero, nan, and that strict orders are kept, so the computed p-value is between those that count no ties and all ties."
  },
  {
   "property": "C159",
   "status": "partial",
   "theorems": [
    "Pointpats.Props.C159_order_partial",
    "Pointpats.Props.C159_pvalue_partial",
    "Pointpats.Props.C159_ties_refuted"
   ],
   "note": "False of ties: seven events and a permutation with the same exact statistic 13/12 but a smaller computed one, which is therefore not counted (p-value 1/2 instead of 1). Proved: strict orders are kept, so the computed p-value is between those that count no ties (except permutations that leave the close pairs unchanged) and all ties."
  },
  {
   "property": "C160",
   "status": "proved",
   "theorems": [
    "Pointpats.Props.C160_k_l_tests"
   ],
   "note": ""
  },
  {
   "property": "C161",
   "status": "partial",
   "theorems": [
    "Pointpats.Props.C161_cluster_points_partial",
    "Pointpats.Props.C161_copies_refuted",
    "Pointpats.Props.C161_birthday"
   ],
   "note": "The points of each cluster are proved. That two clusters are independent is refuted: each is drawn by a generator made from one of 100000 integers, and equal integers give copies; the probability of a repetition is that of the birthday problem."
  },
  {
   "property": "C162",
   "status": "proved",
   "theorems": [
    "Pointpats.Props.C162_analytic_exact",
    "Pointpats.Props.C162_analytic_level"
   ],
   "note": ""
  },
  {
   "property": "C163",
   "status": "partial",
   "theorems": [
    "Pointpats.Props.C163_simulated_mean",
    "Pointpats.Props.C163_conditional_partial",
    "Pointpats.Props.C163_conditional_refuted"
   ],
   "note": "False in general: the simulated p-value keeps the time of the event, the analytical one averages over all times (four events: 1/2 and 2/3). Proved: the mean of the simulated p-value over all permutations, and that the two agree if all events have equally many time neighbours."
  },
  {
   "property": "C164",
   "status": "proved",
   "theorems": [
    "Pointpats.Props.C164_expected_is_mean",
    "Pointpats.Props.C164_modified_knox_centred"
   ],
   "note": ""
  },
  {
   "property": "C165",
   "status": "partial",
   "theorems": [
    "Pointpats.Props.C165_poisson_partial",
    "Pointpats.Props.C165_poisson_refuted"
   ],
   "note": "False: the code computes the probability of more close pairs than observed, not of at least as many. Without any close pair the p-value is 0 instead of 1. Proved: the exact relation of the two."
  },
  {
   "property": "C166",
   "status": "partial",
   "theorems": [
    "Pointpats.Props.C166_mean_partial",
    "Pointpats.Props.C166_mean_refuted"
   ],
   "note": "False: the mean of k is smaller than the area of the disc, and the mean of the linearized l is negative, for every positive distance, window and number of events. Proved: the mean of k is at most (n-1)/n times the area of the disc."
  },
  {
   "property": "C167",
   "status": "proved",
   "theorems": [
    "Pointpats.Props.C167_mantel_mean",
    "Pointpats.Props.C167_jacquez_mean"
   ],
   "note": ""
  },
  {
   "property": "C168",
   "status": "partial",
   "theorems": [
    "Pointpats.Props.C168_mean_partial",
    "Pointpats.Props.C168_mean_refuted"
   ],
   "note": "False, because the cells divide the bounding box of the events: the outermost events are always in the outermost cells. Proved: the mean is the degrees of freedom for cells given beforehand."
  },
  {
   "property": "C169",
   "status": "partial",
   "theorems": [
    "Pointpats.Props.C169_head_tail",
    "Pointpats.Props.C169_head_marks",
    "Pointpats.Props.C169_summary_partial",
    "Pointpats.Props.C169_summary_refuted"
   ],
   "note": "False for the intensity line: the first summary stores the intensity, and a second one after a change of window prints it beside the new area. Proved: everything else for all histories, and the intensity if it was not read before the last window assignment."
  },
  {
   "property": "C170",
   "status": "partial",
   "theorems": [
    "Pointpats.Props.C170_median_partial",
    "Pointpats.Props.C170_optimisers_agree",
    "Pointpats.Props.C170_unique_refuted",
    "Pointpats.Props.C170_stopping",
    "Pointpats.Props.C170_start"
   ],
   "note": "Uniqueness is false for two events: every location between them is a median. Proved: existence, position in the convex hull, uniqueness unless all events are on a line, agreement of optimisers, and the error left by the stopping rule and by the start."
  },
  {
   "property": "C171",
   "status": "partial",
   "theorems": [
    "Pointpats.Props.C171_mean",
    "Pointpats.Props.C171_centred_partial",
    "Pointpats.Props.C171_centred_refuted"
   ],
   "note": "False unless every cell has the same share of the window, as the notes of the class hint. Proved: the exact mean, and that it is centred if and only if the shares are equal."
  },
  {
   "property": "C172",
   "status": "partial",
   "theorems": [
    "Pointpats.Props.C172_spread",
    "Pointpats.Props.C172_circle_share",
    "Pointpats.Props.C172_ellipse_partial",
    "Pointpats.Props.C172_ellipse_refuted"
   ],
   "note": "False for the uncorrected ellipse of Yuill, which holds none of the corners of a square. Proved: the relation of the two spreads, the bounds on the shares outside, and that the CrimeStat ellipse holds at least two events."
  },
  {
   "property": "C173",
   "status": "partial",
   "theorems": [
    "Pointpats.Props.C173_some_event_partial",
    "Pointpats.Props.C173_some_event_refuted"
   ],
   "note": "False: with many events the chance of some false report exceeds crit; four events suffice. Proved: it is at most the number of events times crit, so dividing crit by the number of events controls it."
  },
  {
   "property": "C174",
   "status": "partial",
   "theorems": [
    "Pointpats.Props.C174_minimisers",
    "Pointpats.Props.C174_silence",
    "Pointpats.Props.C174_warning_partial",
    "Pointpats.Props.C174_warning_refuted"
   ],
   "note": "The warning is given for every even pattern, also where the two middle coordinates agree and the median is unique. Proved: silence implies uniqueness, a tie implies the warning, and the exact condition for a tie."
  },
  {
   "property": "C175",
   "status": "partial",
   "theorems": [
    "Pointpats.Props.C175_between_partial",
    "Pointpats.Props.C175_between_refuted"
   ],
   "note": "False at the last distance of the support: the histogram behind G includes its upper end, K counts distances strictly below. Proved: at all other distances."
  },
  {
   "property": "C176",
   "status": "proved",
   "theorems": [
    "Pointpats.Props.C176_band"
   ],
   "note": ""
  },
  {
   "property": "C177",
   "status": "partial",
   "theorems": [
    "Pointpats.Props.C177_rectangle",
    "Pointpats.Props.C177_circle_partial",
    "Pointpats.Props.C177_knox",
    "Pointpats.Props.C177_median",
    "Pointpats.Props.C177_spread_partial",
    "Pointpats.Props.C177_spread_refuted"
   ],
   "note": "Rectangle, Knox statistic and smallest total distance: proved in full. Circle: for patterns without hull vertices almost on a line (see C33). Standard distance: n times its square does not fall; C177_spread_refuted shows that the standard distance itself can fall when an event is added."
  },
  {
   "property": "C178",
   "status": "partial",
   "theorems": [
    "Pointpats.Props.C178_k",
    "Pointpats.Props.C178_l",
    "Pointpats.Props.C178_g_partial",
    "Pointpats.Props.C178_g_refuted"
   ],
   "note": "K and L: proved in full. G: proved for supports with the same first distance that cover all nearest neighbours, and up to the number of events within the support for the others; f with given distances uses the same shares. C178_g_refuted shows that the value of g and of f depends on where the support ends."
  },
  {
   "property": "C179",
   "status": "partial",
   "theorems": [
    "Pointpats.Props.C179_plotted_partial",
    "Pointpats.Props.C179_plotted_refuted"
   ],
   "note": "Proved for all histories with an even number of flip_coordinates calls in which no mark takes the name of a coordinate column; with an odd number the mirrored locations are drawn. C179_plotted_refuted: after a flip, or after a mark took the name of a coordinate column, plot draws the events outside the bounding box of the pattern."
  },
  {
   "property": "C180",
   "status": "partial",
   "theorems": [
    "Pointpats.Props.C180_groups",
    "Pointpats.Props.C180_superimposed_partial",
    "Pointpats.Props.C180_superimposed_refuted"
   ],
   "note": "Proved for tables in which no row is twice. C180_superimposed_refuted: an event that both patterns have is counted once, so the number and the mean centre are not those of the two groups combined."
  },
  {
   "property": "C181",
   "status": "proved",
   "theorems": [
    "Pointpats.Props.C181_counts",
    "Pointpats.Props.C181_statistic"
   ],
   "note": ""
  },
  {
   "property": "C182",
   "status": "partial",
   "theorems": [
    "Pointpats.Props.C182_knn_distances",
    "Pointpats.Props.C182_knn_partial",
    "Pointpats.Props.C182_knn_refuted",
    "Pointpats.Props.C182_jacquez_partial",
    "Pointpats.Props.C182_jacquez_bounds",
    "Pointpats.Props.C182_jacquez_refuted"
   ],
   "note": "Proved: the distances listed by knn(k) are a prefix of those for a larger k, ties or not; the bounds of the jacquez statistic, ties or not; without ties the neighbours of knn(k) are a prefix and the jacquez statistic grows with k. With ties the full property is false: correct index answers for k and k+1 may contradict each other (C182_knn_refuted, C182_jacquez_refuted)."
  },
  {
   "property": "C183",
   "status": "proved",
   "theorems": [
    "Pointpats.Props.C183_grouping",
    "Pointpats.Props.C183_parts"
   ],
   "note": ""
  },
  {
   "property": "C184",
   "status": "proved",
   "theorems": [
    "Pointpats.Props.C184_mean_center",
    "Pointpats.Props.C184_weighted_mean_center",
    "Pointpats.Props.C184_euclidean_median",
    "Pointpats.Props.C184_manhattan_median",
    "Pointpats.Props.C184_medians_near",
    "Pointpats.Props.C184_circle"
   ],
   "note": ""
  },
  {
   "property": "C185",
   "status": "proved",
   "theorems": [
    "Pointpats.Props.C185_areas",
    "Pointpats.Props.C185_intensities",
    "Pointpats.Props.C185_default_window",
    "Pointpats.Props.C185_geometry"
   ],
   "note": ""
  },
  {
   "property": "C186",
   "status": "proved",
   "theorems": [
    "Pointpats.Props.C186_hull_area",
    "Pointpats.Props.C186_geometry",
    "Pointpats.Props.C186_more_events",
    "Pointpats.Props.C186_disc"
   ],
   "note": ""
  },
  {
   "property": "C187",
   "status": "proved",
   "theorems": [
    "Pointpats.Props.C187_hull",
    "Pointpats.Props.C187_polygon",
    "Pointpats.Props.C187_box",
    "Pointpats.Props.C187_poisson"
   ],
   "note": ""
  },
  {
   "property": "C188",
   "status": "proved",
   "theorems": [
    "Pointpats.Props.C188_window",
    "Pointpats.Props.C188_convex_window"
   ],
   "note": ""
  },
  {
   "property": "C189",
   "status": "proved",
   "theorems": [
    "Pointpats.Props.C189_centroid",
    "Pointpats.Props.C189_clockwise"
   ],
   "note": ""
  },
  {
   "property": "C190",
   "status": "partial",
   "theorems": [
    "Pointpats.Props.C190_mean_partial",
    "Pointpats.Props.C190_hull_refuted"
   ],
   "note": "False for a ConvexHull, whose centroid is the mean of its corners (C190_hull_refuted, a trapezium). Proved for bounding boxes and for convex polygons listed in either direction (C190_mean_partial)."
  },
  {
   "property": "C191",
   "status": "proved",
   "theorems": [
    "Pointpats.Props.C191_expectation",
    "Pointpats.Props.C191_completely_random"
   ],
   "note": ""
  },
  {
   "property": "C192",
   "status": "partial",
   "theorems": [
    "Pointpats.Props.C192_mean_center",
    "Pointpats.Props.C192_std_distance_partial",
    "Pointpats.Props.C192_std_distance_refuted",
    "Pointpats.Props.C192_ellipse"
   ],
   "note": "False for std_distance: the expectation of its square is smaller than the spread of the region for every region and every n (C192_std_distance_refuted); the exact factor 1 - 1/n is proved (C192_std_distance_partial). Proved for mean_center, with its mean squared error."
  },
  {
   "property": "C193",
   "status": "proved",
   "theorems": [
    "Pointpats.Props.C193_pattern",
    "Pointpats.Props.C193_samplers"
   ],
   "note": ""
  },
  {
   "property": "C194",
   "status": "proved",
   "theorems": [
    "Pointpats.Props.C194_consistent",
    "Pointpats.Props.C194_limit"
   ],
   "note": ""
  },
  {
   "property": "C195",
   "status": "proved",
   "theorems": [
    "Pointpats.Props.C195_binomial"
   ],
   "note": ""
  },
  {
   "property": "C196",
   "status": "proved",
   "theorems": [
    "Pointpats.Props.C196_empty_disc"
   ],
   "note": ""
  },
  {
   "property": "C197",
   "status": "proved",
   "theorems": [
    "Pointpats.Props.C197_isolated"
   ],
   "note": ""
  }
 ]
}