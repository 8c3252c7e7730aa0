{
 "claims": [
  {
   "property": "C01",
   "status": "proved",
   "theorems": [
    "Verif.C01_eval_eq_curve",
    "Verif.C01_eval_eq_curve_at_end",
    "Verif.C01_eval_after_set",
    "Verif.C01_zero_width_end_returns_zero"
   ],
   "note": "All orders, all nondecreasing knots. A time closer than 1e-10 to the end must lie in the last segment (hard-coded end tolerance of the lookup)."
  },
  {
   "property": "C02",
   "status": "proved",
   "theorems": [
    "Verif.C02_convex_combination"
   ],
   "note": ""
  },
  {
   "property": "C03",
   "status": "proved",
   "theorems": [
    "Verif.C03_local_support",
    "Verif.C03_reported_indices"
   ],
   "note": ""
  },
  {
   "property": "C04",
   "status": "proved",
   "theorems": [
    "Verif.C04_derivative",
    "Verif.C04_iterated_derivative",
    "Verif.C04_high_and_negative_orders",
    "Verif.C04_regular"
   ],
   "note": ""
  },
  {
   "property": "C05",
   "status": "proved",
   "theorems": [
    "Verif.C05_smooth_at_knots"
   ],
   "note": ""
  },
  {
   "property": "C06",
   "status": "partial",
   "theorems": [
    "Verif.C06_throws_iff_partial",
    "Verif.C06_no_out_of_range",
    "Verif.C06_containing_segment_partial",
    "Verif.C06_accepts_just_past_end",
    "Verif.C06_narrow_last_segment"
   ],
   "note": "Exact characterisation of what the code does. The full statement fails within 1e-10 past the end and for a last segment narrower than 1e-10; both are shown by witnesses."
  },
  {
   "property": "C07",
   "status": "proved",
   "theorems": [
    "Verif.C07_jacobian_consistent",
    "Verif.C07_jacobian_defined",
    "Verif.C07_jacobian_is_derivative"
   ],
   "note": ""
  },
  {
   "property": "C08",
   "status": "proved",
   "theorems": [
    "Verif.C08_integral_laws",
    "Verif.C08_integral"
   ],
   "note": "For splines whose last segment is at least as long as the end tolerance; the dropped remainders below 1e-16 are bounded explicitly."
  },
  {
   "property": "C09",
   "status": "proved",
   "theorems": [
    "Verif.C09_quadratic_integral",
    "Verif.C09_symmetric",
    "Verif.C09_psd",
    "Verif.C09_rejects_asymmetric",
    "Verif.C09_diagonal",
    "Verif.C09_sparse",
    "Verif.C09_diagonal_sparse"
   ],
   "note": ""
  },
  {
   "property": "C10",
   "status": "proved",
   "theorems": [
    "Verif.C10_segment_views",
    "Verif.C10_segment_views_rejected",
    "Verif.C10_segment_views_by_time",
    "Verif.C10_vector_round_trip",
    "Verif.C10_views_agree",
    "Verif.C10_local_write",
    "Verif.C10_write_sequences"
   ],
   "note": ""
  },
  {
   "property": "C11",
   "status": "proved",
   "theorems": [
    "Verif.C11_knot_arithmetics",
    "Verif.C11_manifold_counts",
    "Verif.C11_counts",
    "Verif.C11_accepted",
    "Verif.C11_tiling",
    "Verif.C11_reachable_consistent"
   ],
   "note": ""
  },
  {
   "property": "C12",
   "status": "partial",
   "theorems": [
    "Verif.C12_rejects_invalid_partial",
    "Verif.C12_sizes_partial",
    "Verif.C12_unsorted_accepted",
    "Verif.C12_shorter_reads_out_of_range"
   ],
   "note": "False in general: the check loops over the length of the old knot vector. Witnesses: a new spline accepts decreasing knots; replacing a longer vector by a shorter valid one reads out of range. Proved when the stored knot count equals the new one."
  },
  {
   "property": "C13",
   "status": "partial",
   "theorems": [
    "Verif.C13_interval",
    "Verif.C13_remove_keeps_curve_partial",
    "Verif.C13_remove_changes_nonuniform_curve",
    "Verif.C13_removing_only_segment"
   ],
   "note": "False in general: cached basis matrices are not shifted. Witness on a non-uniform spline; proved for uniform knots and any number of removals."
  },
  {
   "property": "C14",
   "status": "partial",
   "theorems": [
    "Verif.C14_append",
    "Verif.C14_rejects",
    "Verif.C14_preserves_partial",
    "Verif.C14_preserves_cubic",
    "Verif.C14_early_segments",
    "Verif.C14_full_false"
   ],
   "note": "Interval and interpolation proved for every order, knot vector (last segment of positive width) and end time. Preservation of the existing curve as documented proved up to order 4 (cubic), for higher orders if the next knots continue with equal steps; false from order 5 on (witness). The QR solve is modelled as: solves every regular square system."
  },
  {
   "property": "C15",
   "status": "partial",
   "theorems": [
    "Verif.C15_two_points_partial",
    "Verif.C15_rejects",
    "Verif.C15_reinit_reads_out_of_range"
   ],
   "note": "Every order from 2 up; for a spline that holds at most as many knots as it is going to hold. Re-initialising a spline with more knots reads out of range (witness). The QR solve is modelled as: solves every regular square system."
  },
  {
   "property": "C16",
   "status": "proved",
   "theorems": [
    "Verif.C16_constant_init"
   ],
   "note": "For a spline that holds at most as many knots as it is going to hold (see C12 for why)."
  },
  {
   "property": "C17",
   "status": "proved",
   "theorems": [
    "Verif.C17_affine_invariance"
   ],
   "note": ""
  },
  {
   "property": "C18",
   "status": "proved",
   "theorems": [
    "Verif.C18_time_scaling"
   ],
   "note": "Times closer than 1e-10 to the end must lie in the last segment, in both splines."
  },
  {
   "property": "C19",
   "status": "proved",
   "theorems": [
    "Verif.C19_optimal",
    "Verif.C19_rejects",
    "Verif.C19_given_knots_rejects",
    "Verif.C19_sparse_eq_dense",
    "Verif.C19_sparse_optimal",
    "Verif.C19_given_knots_optimal"
   ],
   "note": "The solve is modelled as: solves every solvable symmetric positive semidefinite system (exact arithmetic)."
  },
  {
   "property": "C20",
   "status": "partial",
   "theorems": [
    "Verif.C20_basis_vector_partial",
    "Verif.C20_cumulative_vector_partial",
    "Verif.C20_vector_is_truncated"
   ],
   "note": "False in general: the returned vectors have one entry per segment instead of one per coefficient (witness). All existing entries proved right."
  },
  {
   "property": "C21",
   "status": "proved",
   "theorems": [
    "Verif.MSpline.C21_sorted",
    "Verif.MSpline.C21_first_wins",
    "Verif.MSpline.C21_duplicate",
    "Verif.MSpline.C21_order_irrelevant"
   ],
   "note": ""
  },
  {
   "property": "C22",
   "status": "partial",
   "theorems": [
    "Verif.MSpline.C22_no_undefined_behaviour",
    "Verif.MSpline.C22_evaluable_iff_initialised",
    "Verif.MSpline.C22_needs_init",
    "Verif.MSpline.C22_init_twice",
    "Verif.MSpline.C22_failed_init",
    "Verif.MSpline.C22_init_iff",
    "Verif.MSpline.C22_rejects_point",
    "Verif.MSpline.C22_rejects_points",
    "Verif.MSpline.C22_rejects_sizes",
    "Verif.MSpline.C22_adds_points",
    "Verif.MSpline.C22_on_manifold_partial",
    "Verif.MSpline.C22_append_unchecked",
    "Verif.MSpline.C22_add_after_init",
    "Verif.MSpline.C22_append_duplicate",
    "Verif.MSpline.C22_set_before_init"
   ],
   "note": "Every call sequence of the public life-cycle API. Violations proved: appended values are not checked, addControlVertex/setControlVertices do not check the state, a duplicate knot on append is silently dropped (witnesses)."
  },
  {
   "property": "C23",
   "status": "partial",
   "theorems": [
    "Verif.MSpline.C23_past",
    "Verif.MSpline.C23_past_end_partial",
    "Verif.MSpline.C23_vertices",
    "Verif.MSpline.C23_repeatedly",
    "Verif.MSpline.C23_uniform",
    "Verif.MSpline.C23_order_one_end",
    "Verif.MSpline.C23_rejects_loose_knot"
   ],
   "note": "Every order from 2 on including the old maximum time; for order 1 the value at the old maximum time itself changes (witness)."
  },
  {
   "property": "C24",
   "status": "proved",
   "theorems": [
    "Verif.World.C24_separate",
    "Verif.World.C24_independent",
    "Verif.World.C24_call_effect",
    "Verif.World.C24_copy_equal"
   ],
   "note": "Worlds with arbitrarily many spline objects, any operation sequence, maps on a heap."
  },
  {
   "property": "C25",
   "status": "proved",
   "theorems": [
    "Verif.MSpline.C25_lookup",
    "Verif.MSpline.C25_outside"
   ],
   "note": ""
  },
  {
   "property": "C26",
   "status": "proved",
   "theorems": [
    "Verif.MSpline.C26_cumulative",
    "Verif.MSpline.C26_weighted_sum",
    "Verif.MSpline.C26_plain_class"
   ],
   "note": "Every state and time for cumulative = weighted form; every order from 2, every derivative for equality with the plain class (whose lookup has a 1e-10 end tolerance)."
  },
  {
   "property": "C27",
   "status": "proved",
   "theorems": [
    "Verif.MSpline.C27_stays_in_group",
    "Verif.MSpline.C27_left_invariant",
    "Verif.MSpline.C27_right_invariant",
    "Verif.MSpline.C27_constant"
   ],
   "note": "Any group (laws only on the subset the vertices live in) with any logarithm; multiplication from the right additionally needs a logarithm compatible with conjugation, shown for quaternions."
  },
  {
   "property": "C28",
   "status": "proved",
   "theorems": [
    "Verif.MSpline.C28_norm_bounds",
    "Verif.MSpline.C28_unit",
    "Verif.MSpline.C28_is_in_manifold"
   ],
   "note": "Any logarithm function; also a bound for vertices that are unit only up to the tolerance of the manifold check."
  },
  {
   "property": "C29",
   "status": "partial",
   "theorems": [
    "Verif.MSpline.C29_derivatives_partial",
    "Verif.MSpline.C29_one_sided_partial",
    "Verif.MSpline.C29_special_agrees",
    "Verif.MSpline.C29_recursive_value",
    "Verif.MSpline.C29_unsupported_rejected",
    "Verif.MSpline.C29_order_one_undefined"
   ],
   "note": "Orders from 2, at all times of the valid range (inside segments two sided, one sided at the knots). Violated for order 1: the second and third derivative read outside empty arrays (C29_order_one_undefined)."
  },
  {
   "property": "C30",
   "status": "partial",
   "theorems": [
    "Verif.MSpline.C30_angular_velocity",
    "Verif.MSpline.C30_angular_acceleration_partial",
    "Verif.MSpline.C30_order_one_undefined"
   ],
   "note": "Angular velocity for all orders; angular acceleration and its derivative for orders from 2. Violated for order 1 (C30_order_one_undefined)."
  },
  {
   "property": "C31",
   "status": "partial",
   "theorems": [
    "Verif.MSpline.C31_rejected",
    "Verif.MSpline.C31_exact_partial",
    "Verif.MSpline.C31_safe",
    "Verif.MSpline.C31_from_start",
    "Verif.MSpline.C31_negative_clipped",
    "Verif.MSpline.C31_negative_undefined",
    "Verif.MSpline.C31_positive_overrun",
    "Verif.MSpline.C31_layouts",
    "Verif.MSpline.C31_bad_shape",
    "Verif.MSpline.C31_one_dimensional_undefined"
   ],
   "note": "Offsets that stay inside the spline: exact. Violations proved: a negative offset is clipped or walks off the front, a positive one can overrun, a one-dimensional matrix is read out of range (witnesses)."
  },
  {
   "property": "C32",
   "status": "partial",
   "theorems": [
    "Verif.C32_interval_generator",
    "Verif.C32_rejects",
    "Verif.C32_unique",
    "Verif.C32_integer_clock_partial",
    "Verif.C32_integer_repeats"
   ],
   "note": "Exact (floating) time: full statement. Integer clocks: knots strictly increasing only if the interval has at least as many ticks as segments; witness of repeated knots."
  },
  {
   "property": "C33",
   "status": "proved",
   "theorems": [
    "Verif.C33_delta_generator",
    "Verif.C33_too_short",
    "Verif.C33_diverges",
    "Verif.C33_extend"
   ],
   "note": "Termination for a positive step; a non-positive step never terminates (proved). The valid interval ends at the first grid knot not before the requested end."
  },
  {
   "property": "C34",
   "status": "partial",
   "theorems": [
    "Verif.C34_roundtrip",
    "Verif.C34_bracket",
    "Verif.C34_integer_roundtrip_partial",
    "Verif.C34_integer_off_by_one",
    "Verif.C34_integer_false"
   ],
   "note": "Exact time: full statement, plus bracketing for all later times. Integer clocks: holds iff-style partial (segments divide the duration), off by at most one otherwise, with a witness of a wrong index."
  },
  {
   "property": "C35",
   "status": "partial",
   "theorems": [
    "Verif.C35_without_queue",
    "Verif.C35_continued",
    "Verif.C35_extend_without_queue",
    "Verif.C35_increasing",
    "Verif.C35_no_skip",
    "Verif.C35_queue_sorted",
    "Verif.C35_terminates",
    "Verif.C35_contains_queue",
    "Verif.C35_extend_partial",
    "Verif.C35_extend_ub",
    "Verif.C35_drops_knots"
   ],
   "note": "Order, no skipped queued knot and termination over all call sequences; without predefined knots the generator is the uniform one (C35_without_queue, C35_continued, C35_extend_without_queue). Violations proved: extending when all predefined knots are before the time reads an empty deque; extending drops predefined knots that were not emitted."
  },
  {
   "property": "C36",
   "status": "proved",
   "theorems": [
    "Verif.C36_trapezoidal_exact",
    "Verif.C36_simpson_exact",
    "Verif.C36_constant_exact",
    "Verif.C36_linear",
    "Verif.C36_equal_bounds",
    "Verif.C36_swap",
    "Verif.C36_wrapper",
    "Verif.C36_simpson_integral",
    "Verif.C36_trapezoidal_integral",
    "Verif.C36_integer_clock_false"
   ],
   "note": "Proved for every exact (real valued) argument type. With an integer argument type the step is truncated and the rule is wrong: C36_integer_clock_false."
  },
  {
   "property": "C37",
   "status": "partial",
   "theorems": [
    "Verif.CacheState.C37_distinct_storage",
    "Verif.CacheState.C37_read_back",
    "Verif.CacheState.C37_refines_partial",
    "Verif.CacheState.C37_no_release_partial",
    "Verif.CacheState.C37_stale_value",
    "Verif.CacheState.C37_type_confusion"
   ],
   "note": "Distinct storage and read-back hold for all programs. A new slot is not clean when its index has left over entries (two witnesses); otherwise the cache refines the specification."
  },
  {
   "property": "C38",
   "status": "partial",
   "theorems": [
    "Verif.MSpline.C38_shifted",
    "Verif.MSpline.C38_optimal_partial",
    "Verif.MSpline.C38_rejects",
    "Verif.MSpline.C38_fixed_regularised_wrong",
    "Verif.MSpline.C38_init_optimal"
   ],
   "note": "Optimality for all data, weights, backends, vertices or offsets, with fixed vertices if there is no regularisation or with regularisation if there are no fixed vertices; also for the initial fit, where vertices that no data depend on keep the default point. The combination of both is violated (C38_fixed_regularised_wrong); C38_shifted says for all inputs what is minimised then: the regularisation is that of a curve whose free vertices come too early by the number of fixed ones. That the fit succeeds and fixed vertices keep their values is proved for all combinations. Weights multiply the residuals, so they enter the cost squared. Solver assumed to solve solvable semidefinite systems."
  },
  {
   "property": "C39",
   "status": "partial",
   "theorems": [
    "Verif.MSpline.C39_data_partial",
    "Verif.MSpline.C39_pairs",
    "Verif.MSpline.C39_fit_partial",
    "Verif.MSpline.C39_extremes",
    "Verif.MSpline.C39_start_gap"
   ],
   "note": "Proved when the number of retained samples equals the number counted. Violated near the start of the spline (C39_start_gap)."
  },
  {
   "property": "C40",
   "status": "proved",
   "theorems": [
    "Verif.Pose.C40_round_trip",
    "Verif.Pose.C40_inverse",
    "Verif.Pose.C40_init",
    "Verif.Pose.C40_append"
   ],
   "note": ""
  },
  {
   "property": "C41",
   "status": "proved",
   "theorems": [
    "Verif.Pose.C41_derivatives",
    "Verif.Pose.C41_body_frame"
   ],
   "note": ""
  },
  {
   "property": "C42",
   "status": "partial",
   "theorems": [
    "Verif.SplineVars.C42_mirror",
    "Verif.SplineVars.C42_update",
    "Verif.SplineVars.C42_revert",
    "Verif.SplineVars.C42_remove",
    "Verif.SplineVars.C42_add",
    "Verif.SplineVars.C42_add2",
    "Verif.SplineVars.C42_memory_partial",
    "Verif.SplineVars.C42_violated",
    "Verif.SplineVars.C42_expression_remove",
    "Verif.SplineVars.C42_expression_add"
   ],
   "note": "The correspondence is an invariant over all operations; every surviving variable denotes the same coefficient and points into the live buffer. False only for removing from a spline without coefficients, which is undefined behaviour (C42_violated)."
  },
  {
   "property": "C43",
   "status": "partial",
   "theorems": [
    "Verif.OptWorld.C43_list_partial",
    "Verif.OptWorld.C43_window_partial",
    "Verif.OptWorld.C43_change_partial",
    "Verif.OptWorld.C43_init_with_knots_violated",
    "Verif.OptWorld.C43_assign_violated"
   ],
   "note": "False for initWithKnots / initWithKnotsAndControlVertices (list stays empty) and for assignment (list points into the source). Proved for every other sequence of initialisations, extensions, copies and updates."
  },
  {
   "property": "C44",
   "status": "partial",
   "theorems": [
    "Verif.C44_bounds_checked",
    "Verif.C44_out_of_bounds",
    "Verif.C44_value_partial",
    "Verif.C44_stale_evaluator",
    "Verif.C44_violated"
   ],
   "note": "The declared bounds are always checked. The value is wrong when the time moves from inside a segment to its left knot (witness); proved exactly when it does not."
  },
  {
   "property": "C45",
   "status": "proved",
   "theorems": [
    "Verif.Pose.C45_window",
    "Verif.Pose.C45_defined"
   ],
   "note": "The window expression announces all coefficients of the segments between t - lower and t + upper; C45_window shows that for every time in the half-open window every coefficient that influences the value is announced and each emitted block belongs to its coefficient (others zero). At exactly the maximum time the node throws (C45_defined states the times where it is defined). The rotation parametrisation is a parameter."
  },
  {
   "property": "C46",
   "status": "partial",
   "theorems": [
    "Verif.MotionError.C46_error",
    "Verif.MotionError.C46_rejects",
    "Verif.MotionError.C46_default",
    "Verif.MotionError.C46_hessian",
    "Verif.MotionError.C46_inactive",
    "Verif.MotionError.C46_upper_partial",
    "Verif.MotionError.C46_rhs",
    "Verif.MotionError.C46_violated_order",
    "Verif.MotionError.C46_violated"
   ],
   "note": "Value, Hessian and right hand side proved for every spline, symmetric weight, activity pattern and block placement. False: orders of 2^31 or more act like order 0, and blocks land below the diagonal if the solver orders the blocks differently (witnesses)."
  },
  {
   "property": "C47",
   "status": "partial",
   "theorems": [
    "Verif.C47_factors",
    "Verif.C47_empty",
    "Verif.C47_rejects",
    "Verif.C47_squared_errors_partial",
    "Verif.C47_reversed_nan"
   ],
   "note": "Holds for a <= b; for reversed bounds every expression error term is NaN (proved)."
  },
  {
   "property": "C48",
   "status": "proved",
   "theorems": [
    "Verif.C48_revert_restores",
    "Verif.C48_defined",
    "Verif.C48_first_revert_undefined",
    "Verif.C48_stays_on_manifold",
    "Verif.C48_quaternion_unit",
    "Verif.C48_minimal_difference",
    "Verif.C48_minimal_difference_zero",
    "Verif.C48_quaternion_difference"
   ],
   "note": "For every sequence of updates; revert before any update reads an uninitialised point (shown). Minimal difference proved for Euclidean and unit quaternion vertices, the latter with a logarithm that inverts exp on the ball of radius pi."
  },
  {
   "property": "C49",
   "status": "proved",
   "theorems": [
    "Verif.Pose.C49_rolling_shutter_blocks",
    "Verif.Pose.C49_rolling_shutter",
    "Verif.Pose.C49_time_offset"
   ],
   "note": "Exact two-sided derivative wherever the spline is regular (inside segments and at knots of low enough multiplicity), for the rolling shutter line delay and for the time offset. The rotation parametrisation is a parameter with its S matrix law."
  },
  {
   "property": "C50",
   "status": "partial",
   "theorems": [
    "Verif.Pose.C50_partial",
    "Verif.Pose.C50_violated"
   ],
   "note": "False in general: the Jacobian emitted by the body frame acceleration node omits the change of the body frame (witness). Proved: the exact derivative, and that the emitted blocks equal it exactly when the omitted term vanishes."
  },
  {
   "property": "C51",
   "status": "partial",
   "theorems": [
    "Verif.C51_interval",
    "Verif.C51_interpolates_partial",
    "Verif.C51_rejects",
    "Verif.C51_full_false",
    "Verif.C51_minimises"
   ],
   "note": "The documented interpolation is false for a nonzero weight (witness on a straight line); proved for weight zero or order 2, plus the exact minimisation the code performs for every weight."
  },
  {
   "property": "C52",
   "status": "proved",
   "theorems": [
    "Verif.C52_straight_lines"
   ],
   "note": ""
  },
  {
   "property": "C53",
   "status": "proved",
   "theorems": [
    "Verif.C53_optimal"
   ],
   "note": "The solve is modelled as: solves every solvable symmetric positive semidefinite system (exact arithmetic)."
  },
  {
   "property": "C54",
   "status": "proved",
   "theorems": [
    "Verif.MSpline.C54_integral_laws",
    "Verif.MSpline.C54_integral"
   ],
   "note": "Exact when the 1e-16 tolerances of the code do not matter at the bounds; in any case an explicit error bound."
  },
  {
   "property": "C55",
   "status": "proved",
   "theorems": [
    "Verif.MSpline.C55_init_with_vertices"
   ],
   "note": "All orders from 1."
  },
  {
   "property": "C56",
   "status": "proved",
   "theorems": [
    "Verif.Pose.C56_transformation",
    "Verif.Pose.C56_transform_vector",
    "Verif.Pose.C56_orientation",
    "Verif.Pose.C56_inverse_orientation",
    "Verif.Pose.C56_inverse_transformation",
    "Verif.Pose.C56_linear_acceleration",
    "Verif.Pose.C56_angular",
    "Verif.Pose.C56_angular_body"
   ],
   "note": "The rotation parametrisation is a parameter with its S matrix assumed to be its derivative; satisfied by the Rodrigues parametrisation (proved)."
  },
  {
   "property": "C57",
   "status": "proved",
   "theorems": [
    "Verif.Pose.C57_angular_velocity"
   ],
   "note": "The rotation parametrisation is a parameter (hypothesis Sound, satisfied by Rodrigues parameters, proved)."
  },
  {
   "property": "C58",
   "status": "partial",
   "theorems": [
    "Verif.Pose.C58_partial",
    "Verif.Pose.C58_violated"
   ],
   "note": "False: angularVelocityAndJacobian returns the negative of angularVelocity (witness). All other pairs agree."
  },
  {
   "property": "C59",
   "status": "partial",
   "theorems": [
    "Verif.Pose.C59_partial",
    "Verif.Pose.C59_violated",
    "Verif.Pose.C59_world_partial"
   ],
   "note": "False in general: the derivative of the parameters inside the S matrix is dropped (witness). Proved: the true derivative, and that the query equals it exactly when the dropped term vanishes."
  },
  {
   "property": "C60",
   "status": "proved",
   "theorems": [
    "Verif.Pose.C60_within",
    "Verif.Pose.C60_transformation",
    "Verif.Pose.C60_rotation",
    "Verif.Pose.C60_euclidean",
    "Verif.Pose.C60_angular",
    "Verif.Pose.C60_vector"
   ],
   "note": ""
  },
  {
   "property": "C61",
   "status": "partial",
   "theorems": [
    "Verif.MSpline.C61_jacobian_partial",
    "Verif.MSpline.C61_single_vertex_partial",
    "Verif.MSpline.C61_order_one_undefined",
    "Verif.MSpline.C61_unsupported_rejected"
   ],
   "note": "Proved for the value at any order and for first and second derivatives from order two on; negative and higher derivatives throw. False for order one: the value's derivative is zero but its Jacobian reads outside empty arrays (C61_order_one_undefined). expDiffMat and logDiffMat (external) are parameters assumed to be the derivatives of exponential and logarithm; shown satisfiable."
  },
  {
   "property": "C62",
   "status": "partial",
   "theorems": [
    "Verif.MSpline.C62_angular_jacobian_partial"
   ],
   "note": "Proved from order two on under the same assumptions on expDiffMat and logDiffMat; for order one it inherits the undefined behaviour of C61."
  },
  {
   "property": "C63",
   "status": "partial",
   "theorems": [
    "Verif.C63_history",
    "Verif.C63_value_const_partial",
    "Verif.C63_value_timed_partial",
    "Verif.C63_angular_const_partial",
    "Verif.C63_angular_timed_partial",
    "Verif.C63_angular_variable_without_block",
    "Verif.C63_euclidean_const",
    "Verif.C63_euclidean_timed_partial"
   ],
   "note": "Euclidean splines at constant times in full. At variable times: any history, times that are not knots (at knots the cached evaluator can be wrong, see C44). Quaternion splines: derivatives need order at least two. Violated for angular velocity and acceleration nodes at variable times: announced variables outside the current window get no block; shown by C63_angular_variable_without_block."
  },
  {
   "property": "C64",
   "status": "partial",
   "theorems": [
    "Verif.C64_root",
    "Verif.C64_segment",
    "Verif.C64_terms",
    "Verif.C64_total",
    "Verif.C64_minus",
    "Verif.C64_same_as_motion_error_partial",
    "Verif.C64_rejects",
    "Verif.C64_indefinite_differs",
    "Verif.MotionError.C64_high_order",
    "Verif.MotionError.C64_order_violated"
   ],
   "note": "Every singular value decomposition is covered (hypothesis SvdSound, shown satisfiable by exists_svd). The sign convention of the external MarginalizationPriorErrorTerm is not assumed: C64_total is for e = d + R Delta, C64_minus says what e = R Delta - d gives instead. Indefinite symmetric weights are accepted by the code but are outside the claim (C64_indefinite_differs). The agreement with BSplineMotionError holds for derivative orders below the spline order (C64_same_as_motion_error_partial) and is violated above (C64_order_violated): there the terms of the factory add up to zero for all coefficients, while BSplineMotionError reduces the order and penalises the highest nonzero derivative (C64_high_order). Everything else in the statement is proved for every order below 2^31."
  },
  {
   "property": "C65",
   "status": "partial",
   "theorems": [
    "Verif.CovError.C65_jacobian_iff",
    "Verif.CovError.C65_line_delay",
    "Verif.CovError.C65_propagation_partial",
    "Verif.CovError.C65_weight",
    "Verif.CovError.C65_singular",
    "Verif.CovError.C65_shape",
    "Verif.CovError.C65_no_spline",
    "Verif.CovError.C65_point_jacobian",
    "Verif.CovError.C65_violated"
   ],
   "note": "Violated as stated: the code omits the rotation from world to camera in the propagated noise (C65_violated). C65_jacobian_iff says exactly when A is the Jacobian; C65_propagation_partial: identity orientation at the observation time. The claims on error, weight, cost, singular A and the case without spline (keypoint covariance ignored) are proved in full. The camera model is a parameter whose reported Jacobian is assumed to be its derivative (shown satisfiable by a pinhole camera)."
  },
  {
   "property": "C66",
   "status": "partial",
   "theorems": [
    "Verif.RSVars.C66_refinement",
    "Verif.RSVars.C66_active_indices",
    "Verif.RSVars.C66_value",
    "Verif.RSVars.C66_announced_partial",
    "Verif.SplineVars.C66_euclidean",
    "Verif.RSVars.C66_violated"
   ],
   "note": "C66_refinement (no undefined behaviour, simulation of the table), C66_active_indices, C66_value and C66_euclidean are proved in full. The clause on announced variables is violated when the line delay moves the observation into another segment (C66_violated); C66_announced_partial needs the observation to be in the same segment at both moments."
  },
  {
   "property": "C67",
   "status": "proved",
   "theorems": [
    "Verif.MSpline.C67_init_constant",
    "Verif.MSpline.C67_uniform",
    "Verif.MSpline.C67_rejects",
    "Verif.MSpline.C67_delta",
    "Verif.MSpline.C67_euclidean_constant",
    "Verif.MSpline.C67_group_constant"
   ],
   "note": "Exact time arithmetic (the field policy for the uniform version, as in C32/C33). Constancy on a group needs exp(c log 1) = 1; derivatives of the constant curve are covered for Euclidean splines only."
  },
  {
   "property": "C68",
   "status": "proved",
   "theorems": [
    "Verif.SimpleErrors.C68_expression",
    "Verif.SimpleErrors.C68_dimension",
    "Verif.SimpleErrors.C68_error"
   ],
   "note": "Proved over the reals. The error term is modelled for dimension one, the only one for which ErrorTermFs<1> fits and the only one instantiated. The statement is about times and derivative orders at which the curve has a value."
  },
  {
   "property": "C69",
   "status": "partial",
   "theorems": [
    "Verif.MSpline.C69_affine",
    "Verif.Tutorial.C69_build_partial",
    "Verif.Tutorial.C69_counts",
    "Verif.Tutorial.C69_violated",
    "Verif.Tutorial.C69_negative",
    "Verif.Tutorial.C69_terms",
    "Verif.Tutorial.C69_start",
    "Verif.Tutorial.C69_truth",
    "Verif.Tutorial.C69_weights",
    "Verif.Tutorial.C69_dead_reckoning"
   ],
   "note": "With zero steps the program has undefined behaviour (C69_violated), so C69_build_partial needs at least one step; the other clauses are proved in full. The optimiser itself and the arithmetic of scalar expressions are external."
  },
  {
   "property": "C70",
   "status": "proved",
   "theorems": [
    "Verif.MSpline.C70_quaternion_continuous",
    "Verif.MSpline.C70_quaternion_derivative",
    "Verif.MSpline.C70_continuous_iff",
    "Verif.MSpline.C70_angular",
    "Verif.MSpline.C70_euclidean_continuous",
    "Verif.MSpline.C70_euclidean_derivative"
   ],
   "note": "The quaternion logarithm is external: that it inverts the exponential on the steps is a hypothesis, shown necessary by C70_continuous_iff. Reals instead of floating point."
  },
  {
   "property": "C71",
   "status": "proved",
   "theorems": [
    "Verif.MSpline.C71_construct",
    "Verif.MSpline.C71_request",
    "Verif.MSpline.C71_in_place",
    "Verif.MSpline.C71_euclidean_queries",
    "Verif.MSpline.C71_quaternion_queries"
   ],
   "note": "Refinement: the programs on buffers give the outcomes of the value models used by the other claims. The spline is not changed while the evaluator lives. Negative derivative orders of the weights are undefined behaviour in the model (debug assertion only) and not requested by the modelled code."
  },
  {
   "property": "C72",
   "status": "partial",
   "theorems": [
    "Verif.Sized.C72_construct",
    "Verif.Sized.C72_product",
    "Verif.Sized.C72_arrays_partial",
    "Verif.Sized.C72_no_leak",
    "Verif.Sized.C72_copy_violated",
    "Verif.Sized.C72_exceptions",
    "Verif.Sized.C72_cache"
   ],
   "note": "Violated as stated: the implicit copy constructor of an array with run time size copies the pointer, so that copy and original share their elements and the second destructor deletes the block again (C72_copy_violated; the modelled code never copies such an array). C72_arrays_partial: every program that copies arrays of compile time size only. Sizes, leaks and the cache are proved in full. Also shown: a wrong compile time size throws a pointer (C72_exceptions)."
  },
  {
   "property": "C73",
   "status": "partial",
   "theorems": [
    "Verif.MSpline.C73_uninitialised_violated",
    "Verif.MSpline.C73_euclidean_eval",
    "Verif.MSpline.C73_relevant_knots",
    "Verif.MSpline.C73_restore",
    "Verif.MSpline.C73_set_partial",
    "Verif.MSpline.C73_fit",
    "Verif.MSpline.C73_extend",
    "Verif.MSpline.C73_weights",
    "Verif.MSpline.C73_quaternion_coefficients_violated",
    "Verif.MSpline.C73_quaternion_fit_violated",
    "Verif.MSpline.C73_set_violated",
    "Verif.MSpline.C73_quaternion_eval"
   ],
   "note": "Violated as stated: queries before initialisation dereference an invalid iterator instead of throwing (C73_uninitialised_violated); a square matrix of coefficients is set transposed (C73_set_violated, C73_set_partial otherwise); for quaternion splines coefficients() writes points of four components into rows of three, and fitSpline/extendAndFitSpline reject every matrix of quaternions, so they never succeed (C73_quaternion_coefficients_violated, C73_quaternion_fit_violated). Queries of both kinds of splines, relevant knots, rebuilding, and fitting of Euclidean splines are proved in full. initUniformSpline* is C74."
  },
  {
   "property": "C74",
   "status": "partial",
   "theorems": [
    "Verif.MSpline.C74_uniform",
    "Verif.MSpline.C74_line",
    "Verif.MSpline.C74_two_points",
    "Verif.MSpline.C74_delta",
    "Verif.MSpline.C74_delta_line",
    "Verif.MSpline.C74_rejects",
    "Verif.MSpline.C74_total",
    "Verif.MSpline.C74_empty_violated",
    "Verif.MSpline.C74_distance_violated",
    "Verif.MSpline.C74_retry_violated",
    "Verif.MSpline.C74_python",
    "Verif.MSpline.C74_rows_violated"
   ],
   "note": "Violated as stated: a knot distance of zero, or a small negative one, makes the call run for ever (C74_distance_violated); two points with the same time and a knot distance throw but leave knots in the spline, so that a later valid call makes a wrong spline without notice (C74_retry_violated); the call with a given interval reads the first of no times (C74_empty_violated); from Python the number of rows is not checked (C74_rows_violated). Success, knots, interval, optimality, straight lines (order two on for the points, three on everywhere with regularisation), the generator returned, and the rejections of the call with a number of segments are proved."
  },
  {
   "property": "C75",
   "status": "partial",
   "theorems": [
    "Verif.C75_knots",
    "Verif.C75_degree",
    "Verif.C75_bi_function",
    "Verif.C75_cumulative_function",
    "Verif.C75_basis_matrix",
    "Verif.C75_segment_partial",
    "Verif.C75_segment_violated"
   ],
   "note": "Violated as stated: segmentCoefficientVector is bound to the function for a time, so that a segment number is taken as a time (C75_segment_violated); C75_segment_partial says which segment is returned. Everything else in the statement is proved."
  },
  {
   "property": "C76",
   "status": "partial",
   "theorems": [
    "Verif.C76_pose_fit",
    "Verif.C76_pose_fit_at_knots",
    "Verif.C76_pose_fit_knots",
    "Verif.C76_pose_append",
    "Verif.C76_reproduces",
    "Verif.C76_unique",
    "Verif.C76_fit",
    "Verif.C76_fit_knots",
    "Verif.C76_fit_at_knots",
    "Verif.C76_order_two_violated"
   ],
   "note": "Violated as stated: for order two the penalty acts on the first derivative, so that lines are not reproduced (C76_order_two_violated, for every solver). The whole interval is proved for orders from three on with the penalty integral, and for orders three and four with the penalty at the knots (initSpline2). Existence, uniqueness, meeting of data and the pose versions are proved."
  },
  {
   "property": "C77",
   "status": "proved",
   "theorems": [
    "Verif.C77_dexp",
    "Verif.C77_dlog",
    "Verif.C77_inverse",
    "Verif.C77_difference_jacobian",
    "Verif.C77_at_reference",
    "Verif.C77_sizes",
    "Verif.C77_euclidean",
    "Verif.C77_quaternion"
   ],
   "note": "For unit quaternions quatExpJacobian and quatLogJacobian2 of sm_kinematics are parameters, assumed to be the derivatives of the exponential and, along unit quaternions, of the logarithm; both assumptions are shown satisfiable (expJac, logJac) for all points that are not a full turn apart."
  },
  {
   "property": "C78",
   "status": "partial",
   "theorems": [
    "Verif.MSpline.C78_interval",
    "Verif.MSpline.C78_set",
    "Verif.MSpline.C78_get",
    "Verif.MSpline.C78_set_get",
    "Verif.MSpline.C78_get_set",
    "Verif.MSpline.C78_rejects",
    "Verif.MSpline.C78_value",
    "Verif.MSpline.C78_local",
    "Verif.MSpline.C78_distance",
    "Verif.MSpline.C78_before_init_violated",
    "Verif.MSpline.C78_manifold_violated",
    "Verif.MSpline.C78_point_size_violated"
   ],
   "note": "Violated as stated: before initialisation the iterators are read without a check (C78_before_init_violated); points off the manifold are stored (C78_manifold_violated); with points of dynamic size a wrong point size is accepted, size zero empties vertices the curve does not depend on, and reading with a wrong or negative size is undefined (C78_point_size_violated). Everything else is proved."
  },
  {
   "property": "C79",
   "status": "proved",
   "theorems": [
    "Verif.C79_unique",
    "Verif.C79_determined",
    "Verif.C79_map",
    "Verif.C79_linear",
    "Verif.C79_translate",
    "Verif.C79_knots",
    "Verif.C79_time"
   ],
   "note": "Over the reals. Assumptions are those of C19 (sorted times, segments at least 1e-10 wide, no more knots before than after) and a positive weight; for knots given by the caller no segment of the valid interval may be empty. With weight zero the normal equations can be singular and the coefficients are not determined."
  },
  {
   "property": "C80",
   "status": "partial",
   "theorems": [
    "Verif.BSpline.C80_numbers",
    "Verif.BSpline.C80_arithmetic",
    "Verif.BSpline.C80_infinite",
    "Verif.BSpline.C80_lookup_partial",
    "Verif.BSpline.C80_violated",
    "Verif.BSpline.C80_init_numbers",
    "Verif.BSpline.C80_init_partial",
    "Verif.BSpline.C80_init_violated",
    "Verif.BSpline.C80_fit_numbers",
    "Verif.BSpline.C80_fit_violated",
    "Verif.BSpline.C80_fit_partial",
    "Verif.BSpline.C80_fit_infinite",
    "Verif.BSpline.C80_verify_numbers",
    "Verif.BSpline.C80_order_violated",
    "Verif.C80_bounds_numbers",
    "Verif.C80_bounds_partial",
    "Verif.C80_bounds_violated",
    "Verif.MSpline.C80_manifold_numbers",
    "Verif.MSpline.C80_manifold_partial",
    "Verif.MSpline.C80_manifold_violated"
   ],
   "note": "Proved for numbers and infinite times of lookups for either form of the external assertion macros, and for NaN if the macros throw unless the condition is true. If they throw only when the opposite is true (as we believe sm_common does), the property is violated: every lookup of NaN and every initialisation with NaN reads behind the last knot (C80_violated, C80_init_violated, C80_fit_violated, C80_manifold_violated), an infinite last observation time is accepted (C80_fit_infinite), and NaN hides a wrong order (C80_order_violated, C80_bounds_violated). Inserting NaN as a key of a std::map is not modelled. C80_arithmetic: the laws of infinities and NaN used."
  },
  {
   "property": "C81",
   "status": "partial",
   "theorems": [
    "Verif.C81_knots_partial",
    "Verif.C81_knots_violated",
    "Verif.C81_count_violated",
    "Verif.C81_count_rejected",
    "Verif.C81_lookup_partial",
    "Verif.C81_lookup_violated",
    "Verif.C81_assertion",
    "Verif.C81_documented_limit",
    "Verif.C81_documented_example",
    "Verif.C81_violated",
    "Verif.C81_assertion_violated",
    "Verif.C81_index_partial",
    "Verif.C81_delta_partial",
    "Verif.C81_dmul",
    "Verif.C81_dmul_orders_partial",
    "Verif.C81_dmul_violated"
   ],
   "note": "Exact limits proved: knots are right if duration times (segments + order - 1), the first and last knot and the number of knots fit, and computing them is undefined for orders from two on if that product does not fit; lookups likewise with duration times segments; the assertion holds exactly within the limit of lookups; steps of constant distance never overflow if the extended interval fits; the factor of derivatives is right exactly if it is below 2^31, so always for orders up to 13. The unrestricted property is violated: one hour at one kilohertz (C81_violated), the assertion does not protect the knots (C81_assertion_violated), too many segments (C81_count_violated), the eleventh derivative of order 14 (C81_dmul_violated). The conversion of a quotient to int is modelled as wrapping."
  },
  {
   "property": "C82",
   "status": "proved",
   "theorems": [
    "Verif.BSpline.C82_derivative_spline",
    "Verif.BSpline.C82_velocity_between",
    "Verif.BSpline.C82_velocity_hull",
    "Verif.BSpline.C82_displacement",
    "Verif.BSpline.C82_speed_limit",
    "Verif.BSpline.C82_monotone",
    "Verif.BSpline.C82_jumps"
   ],
   "note": "C82_derivative_spline holds for every order from three on and every time including rejected ones; velocity bounds for every order; displacement, speed limit and monotonicity need a last segment of at least 1e-10 (see C06) and inner knots repeated less often than the order; C82_jumps shows that the latter is needed."
  },
  {
   "property": "C83",
   "status": "proved",
   "theorems": [
    "Verif.MSpline.C83_rate_limit",
    "Verif.MSpline.C83_turn_limit",
    "Verif.MSpline.C83_steady"
   ],
   "note": "The logarithm is a parameter; the limit of the angle between two times needs a logarithm that is undone by the exponential for the steps of the spline (see C70 for why), the limit of the rate needs nothing, the constant rate needs a logarithm that undoes the exponential for the steps. The examples use the logarithm of Props/QuaternionJacobian and attain the limits."
  },
  {
   "property": "C84",
   "status": "partial",
   "theorems": [
    "Verif.Rounding.C84_lookup",
    "Verif.Rounding.C84_position",
    "Verif.Rounding.C84_rejects",
    "Verif.Rounding.C84_knots",
    "Verif.Rounding.C84_data_partial",
    "Verif.Rounding.C84_strict_partial",
    "Verif.Rounding.C84_append",
    "Verif.Rounding.C84_exact",
    "Verif.C84_strict_violated",
    "Verif.C84_data_violated"
   ],
   "note": "Only arithmetic on times is rounded; no overflow, no NaN (see C80). Order of the knots, lookup, relative position, rejection and appending hold for every rounding. C84_data_partial: a fit accepts its data for times up to 1e5; C84_data_violated: false for data from 0 to 1e6 with 29 segments, the last data time is rejected. C84_strict_partial: different knots if their distance is not too small; C84_strict_violated. C84_exact: without rounding the functions are those of the exact model."
  },
  {
   "property": "C85",
   "status": "partial",
   "theorems": [
    "Verif.Rounding.C85_generator",
    "Verif.Rounding.C85_strict_partial",
    "Verif.Rounding.C85_resolver_mono",
    "Verif.Rounding.C85_resolver_partial",
    "Verif.Rounding.C85_assertion",
    "Verif.C85_fit_partial",
    "Verif.C85_strict_violated",
    "Verif.C85_resolver_violated",
    "Verif.C85_fit_violated",
    "Verif.C85_exact"
   ],
   "note": "Only arithmetic on times is rounded. Number and order of the knots, the valid interval, and that the index is monotone, hold for every rounding. The index is at most one off and exact away from the boundaries of segments (C85_resolver_partial), so the fit is optimal if no data time is within the rounding error of an inner boundary and the assertion holds if the last time is the end (C85_fit_partial). C85_resolver_violated: three segments between 1 and 2 give the wrong index at the first inner knot although the assertion of line 41 holds; three segments between 0 and 0.7 give the wrong index at the end. C85_fit_violated: the fits of points at these times miss them, without any error. C85_exact: without rounding the functions are those of the exact model."
  },
  {
   "property": "C86",
   "status": "partial",
   "theorems": [
    "Verif.Rounding.C86_ends",
    "Verif.Rounding.C86_stuck",
    "Verif.Rounding.C86_extend",
    "Verif.Rounding.C86_generator_partial",
    "Verif.Rounding.C86_integers",
    "Verif.C86_fit_partial",
    "Verif.C86_ends_violated",
    "Verif.C86_interval_violated",
    "Verif.C86_fit_violated",
    "Verif.C86_exact"
   ],
   "note": "Only arithmetic on times is rounded. Generating in two parts (C86_extend) and when the loop ends (C86_ends, C86_stuck) hold for every rounding; in full for integer times (C86_integers). In general, for distances not too small, the loop ends and the interval is right up to a few rounding errors (C86_generator_partial), and the fit is optimal if the interval contains the data (C86_fit_partial). C86_ends_violated: knots every 1e-7 from 1.5e9 on, the loop never ends. C86_interval_violated and C86_fit_violated: knots every 0.3 from 0 to 0.9 end before 0.9, and from 10 to 11 start after 10; the fit throws for its own data and leaves the spline initialised. C86_exact: without rounding the functions are those of the exact model."
  },
  {
   "property": "C87",
   "status": "partial",
   "theorems": [
    "Verif.BSpline.C87_refines",
    "Verif.BSpline.C87_unchanged_partial",
    "Verif.BSpline.C87_given_knots",
    "Verif.BSpline.C87_history_partial",
    "Verif.BSpline.C87_violated",
    "Verif.C87_generator_refines",
    "Verif.C87_generator",
    "Verif.C87_generator_violated"
   ],
   "note": "C87_unchanged_partial covers all calls with nondecreasing given knots except a fit with given knots that do not cover the data: there the spline has been replaced by zero when the exception is thrown (C87_given_knots for all such calls, C87_violated). The calls on objects refine the functions of the other models (C87_refines). extendBeyondTime loses the predefined knots before the time (C87_generator, C87_generator_violated)."
  },
  {
   "property": "C88",
   "status": "partial",
   "theorems": [
    "Verif.MSpline.C88_left_behind",
    "Verif.MSpline.C88_kept",
    "Verif.MSpline.C88_initialised",
    "Verif.MSpline.C88_unchanged_partial",
    "Verif.MSpline.C88_history_partial",
    "Verif.MSpline.C88_fit",
    "Verif.MSpline.C88_extend",
    "Verif.MSpline.C88_fit_init",
    "Verif.MSpline.C88_violated",
    "Verif.MSpline.C88_knots_violated",
    "Verif.MSpline.C88_constant_violated",
    "Verif.MSpline.C88_extend_violated"
   ],
   "note": "Proved for initialised splines (C88_initialised, C88_fit) and, in construction, for vertices on the manifold and enough distinct knots (C88_unchanged_partial, C88_history_partial). Otherwise the calls that take several knots leave some or all of them behind: C88_left_behind says exactly which, C88_violated, C88_knots_violated and C88_constant_violated show that a second, correct call then makes another spline. extendAndFitSpline may leave the appended segments (C88_extend, C88_extend_violated), initSpline of the fitter the knots (C88_fit_init, C74_retry_violated)."
  },
  {
   "property": "C89",
   "status": "proved",
   "theorems": [
    "Verif.Rounding.C89_basis",
    "Verif.Rounding.C89_derivative",
    "Verif.Rounding.C89_value",
    "Verif.Rounding.C89_cubic",
    "Verif.Rounding.C89_exact",
    "Verif.C89_jacobian_differs"
   ],
   "note": "C89_basis bounds the basis matrices, C89_derivative all derivatives and the weights of the Jacobian, C89_value and C89_cubic the values. Hypotheses: knots, coefficients and time are doubles, the time is in the interval, the last segment is at least 1e-10 wide, powers of the segment width do not underflow; overflow is not modelled. Without rounding the definitions are those of Model/BSpline (C89_exact). evalD and evalDAndJacobian multiply in different orders and can return different values (C89_jacobian_differs), so equalities between queries such as C07 hold for exact arithmetic only."
  },
  {
   "property": "C90",
   "status": "partial",
   "theorems": [
    "Verif.MSpline.C90_euclidean_partial",
    "Verif.MSpline.C90_quaternion_partial",
    "Verif.MSpline.C90_same_evaluator_partial",
    "Verif.MSpline.C90_end_violated"
   ],
   "note": "C90_euclidean_partial and C90_quaternion_partial for all queries, C90_same_evaluator_partial for everything an evaluator holds. Missing is the evaluator for the last time of the spline when segments are appended: its derivatives are those from the left from then on, a new evaluator's those from the right (C90_end_violated). Changes are the calls of a regular client and arbitrary writes of vertices; assigning to the spline object or destroying it is not among them."
  },
  {
   "property": "C91",
   "status": "partial",
   "theorems": [
    "Verif.RefWorld.C91_own_partial",
    "Verif.RefWorld.C91_inherited",
    "Verif.RefWorld.C91_copy_violated",
    "Verif.RefWorld.C91_assign_violated",
    "Verif.RefWorld.C91_copy_partial",
    "Verif.RefWorld.C91_freed"
   ],
   "note": "C91_own_partial: holds for splines made by the constructor and never assigned to. The design variables of a copy (or of an object assigned to) refer to the manifold of the spline object that created them (C91_inherited): they can be updated while that object lives (C91_copy_partial), and refer to a destroyed object afterwards (C91_copy_violated, C91_assign_violated), e.g. for a spline kept after the one it was copied from goes out of scope. Undefined here means that the member of a destroyed object is used; for unit quaternions the functions called on it read no member, for Euclidean spaces of dynamic size they read the dimension. C91_freed: assigning to a spline, also to itself, leaves all pointers into it dangling."
  },
  {
   "property": "C92",
   "status": "partial",
   "theorems": [
    "Verif.VarWorld.C92_constructed_partial",
    "Verif.VarWorld.C92_copy_value",
    "Verif.VarWorld.C92_copy_violated",
    "Verif.VarWorld.C92_dangling",
    "Verif.VarWorld.C92_assign_violated",
    "Verif.VarWorld.C92_renewed",
    "Verif.VarWorld.C92_copy_keeps"
   ],
   "note": "Holds for objects made by the constructor and not assigned to, whatever is done with their copies (C92_constructed_partial), and for every object after its first addSegment, addSegment2 or removeSegment that succeeds (C92_renewed). Violated for copies: C92_copy_violated (updating a design variable of the copy moves the coefficient of the source and not of the copy), C92_dangling (undefined behaviour once the source is destroyed, grows or shrinks), C92_assign_violated. The spline of a copy is the source's and keeps its value whatever happens to others (C92_copy_value, C92_copy_keeps). Assumes that the copy constructor of the external class DesignVariableMappedVector is the implicit one."
  },
  {
   "property": "C93",
   "status": "partial",
   "theorems": [
    "Verif.SplineVars.C93_same_partial",
    "Verif.SplineVars.C93_faithful_partial",
    "Verif.SplineVars.C93_end",
    "Verif.SplineVars.C93_transformation_partial",
    "Verif.SplineVars.C93_window_partial",
    "Verif.SplineVars.C93_end_violated",
    "Verif.SplineVars.C93_window_violated",
    "Verif.SplineVars.C93_rotation_partial",
    "Verif.SplineVars.C93_vector_partial"
   ],
   "note": "Holds for expressions for a constant time that is before the end of the spline, by the tolerance of the lookup, when the expression is made (C93_same_partial, C93_faithful_partial, C93_transformation_partial, C93_rotation_partial, C93_vector_partial; the Jacobians of the acceleration in the body frame are wrong even without changes, C50_violated, so for it only definedness is shown); when the time is removed, value and Jacobian throw, but the expression still announces a destroyed design variable (last clause of C93_faithful_partial). Violated at the end of the spline: adding a segment there shifts the design variables of that time by one (C93_end), and the old expression has wrong Jacobians (C93_end_violated). The expression for a moving time stays right as long as no segment is removed (C93_window_partial, wide last segments assumed); after a removal its indices denote other design variables (C93_window_violated)."
  },
  {
   "property": "C94",
   "status": "partial",
   "theorems": [
    "Verif.C94_euclidean_const_partial",
    "Verif.C94_euclidean_timed_partial",
    "Verif.C94_quaternion_const_partial",
    "Verif.C94_quaternion_timed_partial",
    "Verif.C94_euclidean_derivative_partial",
    "Verif.C94_end_violated",
    "Verif.C94_knot_violated",
    "Verif.C94_quaternion_derivative_partial",
    "Verif.C94_angular_derivative_partial"
   ],
   "note": "Constant time: holds if the time is before the end of the spline the factory was made for or nothing is appended (C94_euclidean_const_partial, C94_quaternion_const_partial); violated at the end (C94_end_violated). Variable time: holds for programs that do not ask at a knot after asking at another time of the knot interval that begins there (C94_euclidean_timed_partial, C94_quaternion_timed_partial); violated otherwise (C94_knot_violated). Blocks are the derivative at any point of such a program off the knots, for Euclidean splines (C94_euclidean_derivative_partial), for rotations and their derivatives (C94_quaternion_derivative_partial) and for angular rates (C94_angular_derivative_partial; there not every announced variable gets a block, see C63)."
  },
  {
   "property": "C95",
   "status": "partial",
   "theorems": [
    "Verif.DSpline.C95_redimension",
    "Verif.DSpline.C95_fits",
    "Verif.DSpline.C95_rejected_partial",
    "Verif.DSpline.C95_stacked",
    "Verif.DSpline.C95_dimension",
    "Verif.DSpline.C95_program",
    "Verif.DSpline.C95_weights",
    "Verif.DSpline.C95_diagonal_weights",
    "Verif.DSpline.C95_violated"
   ],
   "note": "Proved for all calls (C95_fits, C95_redimension, C95_rejected_partial, C95_stacked, C95_dimension), whole programs (C95_program) and the quadratic integrals (C95_weights, C95_diagonal_weights). Violated for vectors without entries, which the fits do not reject, and by the sparse integrals of a spline without rows, which do not return (C95_violated). A vector of another size written through vvCoefficientVector is undefined behaviour."
  },
  {
   "property": "C96",
   "status": "partial",
   "theorems": [
    "Verif.WideVars.C96_same",
    "Verif.WideVars.C96_free_iff",
    "Verif.WideVars.C96_frozen",
    "Verif.WideVars.C96_overlap",
    "Verif.WideVars.C96_expressions",
    "Verif.WideVars.C96_expressions_same",
    "Verif.WideVars.C96_violated"
   ],
   "note": "For matching dimensions the class is that of C42 (C96_same, C96_expressions_same). The design variables are the coefficients exactly for matching dimensions (C96_free_iff). Other dimensions are not refused (C96_violated): components beyond the size never move (C96_frozen), or updates change the next coefficient and the last one is outside of the memory (C96_overlap). Only the vector expression is refused (C96_expressions)."
  },
  {
   "property": "C97",
   "status": "partial",
   "theorems": [
    "Verif.DPose.C97_six",
    "Verif.DPose.C97_programs_partial",
    "Verif.DPose.C97_add_rejected",
    "Verif.DPose.C97_selected",
    "Verif.DPose.C97_small",
    "Verif.DPose.C97_jacobian",
    "Verif.DPose.C97_violated",
    "Verif.DPose.C97_knots_violated"
   ],
   "note": "Proved for programs of pose calls whose points have six rows (C97_programs_partial; only initPoseSplineSparseKnots takes other points), dimension six (C97_six) and additions (C97_add_rejected). Violated for splines initialised through the base class (C97_violated) or with initPoseSplineSparseKnots (C97_knots_violated): queries are not refused but answered with the first and last three components (C97_selected), undefined behaviour below three dimensions (C97_small) and in every Jacobian (C97_jacobian)."
  },
  {
   "property": "C98",
   "status": "proved",
   "theorems": [
    "Verif.C98_zero_iff",
    "Verif.C98_polynomial",
    "Verif.C98_each",
    "Verif.C98_observable_iff",
    "Verif.C98_multiple_knots"
   ],
   "note": "C98_zero_iff, C98_polynomial, C98_each and C98_observable_iff. The order of the derivative is the one of C46: the order asked for, at most one less than the order of the spline. C98_multiple_knots shows that the knots must be distinct."
  },
  {
   "property": "C99",
   "status": "partial",
   "theorems": [
    "Verif.C99_uniform_partial",
    "Verif.C99_cost",
    "Verif.C99_order_two_violated",
    "Verif.C99_knots_partial",
    "Verif.C99_ends_violated"
   ],
   "note": "C99_uniform_partial and C99_knots_partial: proved for orders from three on and, with knots given, for data that begin in the first and end in the last segment of the valid interval. C99_cost: without a regularisation, where the solution is not determined, the sums of squared residuals agree; with one so do the costs. C99_order_two_violated: for order two the plain class penalises the first derivative, the manifold class the second, which is zero, and the results differ for every line that is not constant. C99_ends_violated: the manifold fitter leaves vertices that no data depend on at zero although the regularisation determines them."
  },
  {
   "property": "C100",
   "status": "proved",
   "theorems": [
    "Verif.MSpline.C100_interval",
    "Verif.MSpline.C100_value",
    "Verif.MSpline.C100_euclidean",
    "Verif.MSpline.C100_integral",
    "Verif.MSpline.C100_quaternion",
    "Verif.MSpline.C100_angular",
    "Verif.BSpline.C100_backwards",
    "Verif.BSpline.C100_plain_integral",
    "Verif.BSpline.C100_cost",
    "Verif.Pose.C100_pose",
    "Verif.MSpline.C100_euclidean_backwards",
    "Verif.MSpline.C100_quaternion_not_reversible"
   ],
   "note": "C100_interval, C100_value: manifold splines over any manifold. C100_euclidean, C100_quaternion, C100_angular: derivatives (quaternion derivatives up to the third, the highest the program computes, C29). C100_integral, C100_plain_integral: away from the absolute tolerance of the integrals (C08, C54). C100_cost: the quadratic cost. C100_pose: pose splines. C100_backwards, C100_euclidean_backwards: reversal. C100_quaternion_not_reversible: three unit quaternions whose spline run backwards passes another rotation. Values and derivatives of plain splines in other units: C18_time_scaling."
  },
  {
   "property": "C101",
   "status": "proved",
   "theorems": [
    "Verif.BSpline.C101_crossings",
    "Verif.BSpline.C101_turns",
    "Verif.BSpline.C101_inflections",
    "Verif.BSpline.C101_monotone",
    "Verif.BSpline.C101_convex",
    "Verif.MSpline.C101_euclidean"
   ],
   "note": "C101_crossings (plain splines), C101_euclidean (Euclidean manifold splines), C101_turns (order from three on), C101_inflections (order from four on), C101_monotone (also with knots of full multiplicity, where C82_monotone needs a curve without jumps), C101_convex. The times are those at which the lookup is right (C06: valid, and not within 1e-10 of the end if the last segment is shorter than that)."
  },
  {
   "property": "C102",
   "status": "partial",
   "theorems": [
    "Verif.PyLife.C102_lifetime",
    "Verif.PyLife.C102_use_partial",
    "Verif.PyLife.C102_safe",
    "Verif.PyLife.C102_careful_partial",
    "Verif.PyLife.C102_offered",
    "Verif.PyLife.C102_violated"
   ],
   "note": "The code violates the property (C102_violated): expressions, motion errors, simple errors and problems with motion error terms hold no reference to the object they were made from. C102_use_partial: using an object is undefined exactly if something it needs is held no longer; C102_careful_partial: programs that hold what their objects need never read freed memory; C102_safe: design variables, copies of splines and expressions of rolling shutter objects (whose inner objects are never deleted) are always safe; C102_lifetime: memory is given back exactly when the program can no longer get at the object."
  },
  {
   "property": "C103",
   "status": "proved",
   "theorems": [
    "Verif.MSpline.C103_near_controls",
    "Verif.MSpline.C103_local",
    "Verif.MSpline.C103_constant"
   ],
   "note": "C103_near_controls (mean of polygon lengths), C103_local (longest polygon in use, as an angle and as a chord), C103_constant. As in C70 and C83 the logarithm is a parameter that is inverse to the exponential on the steps between neighbours. An example shows that the bound is attained."
  },
  {
   "property": "C104",
   "status": "proved",
   "theorems": [
    "Verif.C104_trapezoidal_error",
    "Verif.C104_simpson_error",
    "Verif.C104_simpson_error_second",
    "Verif.C104_modulus",
    "Verif.C104_converges",
    "Verif.MSpline.C104_spline_total",
    "Verif.MSpline.C104_spline_converges",
    "Verif.MSpline.C104_spline_error",
    "Verif.MSpline.C104_spline_rate"
   ],
   "note": "C104_trapezoidal_error, C104_simpson_error, C104_simpson_error_second (examples attain the first two bounds), C104_modulus, C104_converges for the rules; C104_spline_total (when integration along a spline returns), C104_spline_converges, C104_spline_error, C104_spline_rate. Fewer than two points divide by zero in the code (the check is a debug assertion) and are not covered."
  },
  {
   "property": "C105",
   "status": "partial",
   "theorems": [
    "Verif.BothSplines.C105_built",
    "Verif.BothSplines.C105_sessions_partial",
    "Verif.BothSplines.C105_past_end_violated",
    "Verif.BothSplines.C105_integrals_partial",
    "Verif.BothSplines.C105_narrow_violated",
    "Verif.BothSplines.C105_equal_knots_violated"
   ],
   "note": "C105_built: strictly increasing knots with a last interval of at least 1e-10 are accepted by both. C105_sessions_partial: all sequences of calls are answered alike unless a time lies less than 1e-10 after the valid range. C105_integrals_partial: at any point of such a session integrals are equal where no tolerance matters and differ by at most 4e-16 L M otherwise. The full statement fails: C105_past_end_violated (all splines: less than 1e-10 after the range one returns, the other throws), C105_narrow_violated (short last interval: different values inside the range), C105_equal_knots_violated (the manifold spline silently drops a repeated knot with its vertex)."
  },
  {
   "property": "C106",
   "status": "partial",
   "theorems": [
    "Verif.Threads.C106_euclidean_partial",
    "Verif.Threads.C106_quaternion_partial",
    "Verif.Threads.C106_buffer_violated",
    "Verif.Threads.C106_timed_violated",
    "Verif.Threads.C106_deleted_violated"
   ],
   "note": "C106_euclidean_partial and C106_quaternion_partial: no race, right answers and termination for all schedules if different threads share a factory only for a constant time with order and maximal derivative known at compile time and ask only for derivatives the evaluator prepares (Euclidean: all values, and blocks up to the order). For variable times the condition of C94 (kept evaluators at knots) applies to each thread. The full statement fails: C106_buffer_violated (order known at run time: a thread that asks for the value gets the velocity another thread asked for, through the shared vector _tmp), C106_timed_violated (a factory for a variable time: a thread uses the evaluator another one deleted) and C106_deleted_violated (two threads delete the same evaluator, or one reads a prepared vector of an evaluator another one is deleting). The accesses are those of the sequential model: EuclideanCall.script_toBufM, QuaternionCall.script_toBufM."
  },
  {
   "property": "C107",
   "status": "proved",
   "theorems": [
    "Verif.Rounding.C107_euclidean",
    "Verif.Rounding.C107_euclidean_cubic",
    "Verif.Rounding.C107_weights",
    "Verif.Rounding.C107_rejects",
    "Verif.Rounding.C107_exact",
    "Verif.QuatFloat.C107_quaternion",
    "Verif.QuatFloat.C107_quaternion_cubic",
    "Verif.QuatFloat.C107_update",
    "Verif.QuatFloat.C107_update_isIn",
    "Verif.QuatFloat.C107_drift"
   ],
   "note": "C107_euclidean (all derivatives), C107_euclidean_cubic (values to within 1e-12 of the control vertices), C107_weights (cumulative weights), C107_quaternion and C107_quaternion_cubic (values), C107_update, C107_update_isIn and C107_drift (updates), C107_rejects (times outside). Hypotheses: times of type double, order at least two, powers of the segment width do not underflow; overflow is not modelled. The external product, exponential and norm of quaternions are parameters with error bounds, and for the logarithm the error at the pairs of control vertices in use is a hypothesis (LogNear); the derivatives of quaternion splines are not treated. Without rounding the definitions are those of Model/ManifoldSpline and Model/EuclideanSpline (C107_exact)."
  },
  {
   "property": "C108",
   "status": "proved",
   "theorems": [
    "Verif.C108_unique",
    "Verif.C108_ambiguous",
    "Verif.C108_interpolates",
    "Verif.C108_fit",
    "Verif.C108_fit_ambiguous",
    "Verif.C108_knots",
    "Verif.C108_few",
    "Verif.C108_enough"
   ],
   "note": "C108_unique and C108_ambiguous (the minimisers), C108_fit (initSpline3, initSplineSparse and the fitter for manifold splines have one common result, also for order two), C108_fit_ambiguous (initSpline3: another solver, another result), C108_knots (initSplineSparseKnots), C108_interpolates, C108_few (at least as many different times as coefficients) and C108_enough (as many times as the order in one segment and one in each other segment suffice). The two directions of the Schoenberg-Whitney theorem are proved for the polynomial pieces in Props/Zeros and Props/SchoenbergWhitney."
  },
  {
   "property": "C109",
   "status": "proved",
   "theorems": [
    "Verif.C109_reported",
    "Verif.C109_at_knot",
    "Verif.C109_segment",
    "Verif.C109_curve",
    "Verif.MSpline.C109_group",
    "Verif.MSpline.C109_quaternion"
   ],
   "note": "C109_reported, C109_at_knot, C109_segment and C109_curve for BSpline over the real numbers; C109_group for manifold splines of order two and more with values in a group, C109_quaternion for unit quaternions. The logarithm of quaternions is a parameter, as in C27: it must be undone by the exponential, give turns of at most one full turn, be zero at one and change its sign for the inverse of at least one other quaternion; turnLog in the example meets this."
  },
  {
   "property": "C110",
   "status": "proved",
   "theorems": [
    "Verif.C110_weight",
    "Verif.C110_energy",
    "Verif.C110_stable",
    "Verif.C110_moments",
    "Verif.C110_polynomial",
    "Verif.C110_second"
   ],
   "note": "C110_weight, C110_stable, C110_energy, C110_moments, C110_polynomial, for results of initSpline3, initSplineSparse and initSplineSparseKnots (FitResult); the penalised derivative is the second one, for order two the first. For the same solver class initSpline3 and initSplineSparse do return a result (C19). C110_second: the same dependence on the weight for initSpline2, which penalises the second derivatives at the knots."
  },
  {
   "property": "C111",
   "status": "partial",
   "theorems": [
    "Verif.IntegralProblem.C111_added",
    "Verif.IntegralProblem.C111_failed",
    "Verif.IntegralProblem.C111_points",
    "Verif.IntegralProblem.C111_points_violated",
    "Verif.IntegralProblem.C111_spline",
    "Verif.IntegralProblem.C111_violated",
    "Verif.IntegralProblem.C111_cost_partial",
    "Verif.IntegralProblem.C111_python",
    "Verif.IntegralProblem.C111_cost_violated"
   ],
   "note": "C111_added, C111_failed (exactly which error terms stay behind), C111_points, C111_spline and C111_python in full; C111_cost_partial for increasing bounds and at least two points. Violated: a call that throws at a later point leaves the error terms of the earlier points in the problem, so that a second, correct call makes a wrong cost (C111_violated; C111_spline: whenever the first bound is a time of the spline and the second is not); asked for -1, 0 or 1 points the default rule adds one error term of infinite weight instead of throwing (C111_points_violated, C111_cost_violated)."
  },
  {
   "property": "C112",
   "status": "partial",
   "theorems": [
    "Verif.Pose.C112_times",
    "Verif.Pose.C112_points",
    "Verif.Pose.C112_zero",
    "Verif.Pose.C112_negative_violated"
   ],
   "note": "C112_times and C112_points for all positive distances, in exact arithmetic; C112_zero: a distance of zero raises an exception. Violated: for every negative distance the last point alone is drawn without an error (C112_negative_violated). numpy.arange is external: start + i * step below ceil((stop - start) / step) steps."
  },
  {
   "property": "C113",
   "status": "partial",
   "theorems": [
    "Verif.MSpline.C113_optimal",
    "Verif.MSpline.C113_improves",
    "Verif.MSpline.C113_again",
    "Verif.MSpline.C113_fewer_fixed",
    "Verif.MSpline.C113_weight",
    "Verif.MSpline.C113_meets",
    "Verif.MSpline.C113_total",
    "Verif.MSpline.C113_local",
    "Verif.MSpline.C113_violated"
   ],
   "note": "C113_optimal, C113_improves, C113_again, C113_fewer_fixed, C113_weight, and C113_meets in exact arithmetic for fits without a regularisation or without fixed vertices; C113_total and C113_local for all weights and numbers of fixed vertices, also in the history; a regularisation together with offsets is refused. Violated when vertices are fixed and there is a regularisation (C113_violated, the cause is that of C38): a spline of cost zero is moved off the point."
  },
  {
   "property": "C114",
   "status": "partial",
   "theorems": [
    "Verif.Tutorial.C114_errors",
    "Verif.Tutorial.C114_partial",
    "Verif.Tutorial.C114_violated",
    "Verif.Tutorial.C114_further_violated",
    "Verif.Tutorial.C114_truth",
    "Verif.Tutorial.C114_column"
   ],
   "note": "C114_partial and C114_truth: with two steps or more, the wall not at the origin and all observations defined, the wall and all vertices but the last are determined. C114_errors gives every error from the vertices. C114_violated: the last vertex is a variable of the problem on which no term depends, for every number of steps, so that the position at the end of the spline is arbitrary; C114_column: its column in the Jacobians is zero. C114_further_violated: with one step, or with the wall at the origin, further vertices are not determined. What the optimiser does with a zero column is not modelled."
  },
  {
   "property": "C115",
   "status": "proved",
   "theorems": [
    "Verif.MotionError.C115_step",
    "Verif.MotionError.C115_exists",
    "Verif.MotionError.C115_once",
    "Verif.MotionError.C115_ambiguous"
   ],
   "note": "C115_step, C115_exists, C115_once and C115_ambiguous, in exact arithmetic. The completion of the Hessian is explicit in the statement: which half a block is in depends on the order of the blocks (C46_upper_partial). The linear solver and the update loop of the optimiser are external."
  },
  {
   "property": "C116",
   "status": "partial",
   "theorems": [
    "Verif.C116_unique_partial",
    "Verif.C116_determined_partial",
    "Verif.C116_map_partial",
    "Verif.C116_translate_partial",
    "Verif.C116_high_order_violated",
    "Verif.C116_order_two_violated",
    "Verif.C116_iff",
    "Verif.C116_interlaced"
   ],
   "note": "Orders three and four in full (C116_unique_partial, also for uneven knots, C116_determined_partial, C116_map_partial, C116_translate_partial). C116_iff says for all orders and weights when a minimum is the only one; a data time for each coefficient suffices (C116_interlaced). Violated for order two, where the weight has no effect (C116_order_two_violated), and from order five on with at most order - 3 different data times, for any number of segments and any weight (C116_high_order_violated): each solver has another one, as good as the first, with another result. Exact arithmetic."
  },
  {
   "property": "C117",
   "status": "partial",
   "theorems": [
    "Verif.MSpline.C117_iff_partial",
    "Verif.MSpline.C117_same_partial",
    "Verif.MSpline.C117_recovers_partial",
    "Verif.MSpline.C117_linear_partial",
    "Verif.MSpline.C117_stable_partial",
    "Verif.MSpline.C117_interlaced",
    "Verif.MSpline.C117_interlaced_iff",
    "Verif.MSpline.C117_regularised"
   ],
   "note": "The conditions (C117_interlaced, C117_interlaced_iff, C117_regularised) in full for orders from two on. C117_iff_partial, C117_same_partial, C117_recovers_partial, C117_linear_partial and C117_stable_partial for fits without a regularisation or without fixed vertices. Missing: both together, where the code does not minimise the cost (C38_fixed_regularised_wrong, C113_violated: a straight curve through the only point is not kept). Exact arithmetic."
  },
  {
   "property": "C118",
   "status": "proved",
   "theorems": [
    "Verif.C118_straight_iff",
    "Verif.C118_iff",
    "Verif.C118_order_two",
    "Verif.C118_exchange",
    "Verif.C118_strict",
    "Verif.C118_straight_all",
    "Verif.C118_knots_iff"
   ],
   "note": "C118_straight_iff, C118_iff, C118_order_two (for order two no data with different values are met, also not on a line; generalises C76_order_two_violated), C118_exchange, C118_strict, C118_straight_all for the three fits with a penalty integral; C118_knots_iff for initSpline2. Exact arithmetic; the solver is assumed to solve semidefinite systems that have a solution."
  },
  {
   "property": "C119",
   "status": "proved",
   "theorems": [
    "Verif.C119_chord",
    "Verif.C119_best_exists",
    "Verif.C119_best_line",
    "Verif.C119_small_data",
    "Verif.C119_small",
    "Verif.C119_fitter_knots",
    "Verif.C119_fitter_knots_small",
    "Verif.C119_knots",
    "Verif.C119_knots_small",
    "Verif.C119_fitter",
    "Verif.C119_fitter_small"
   ],
   "note": "C119_chord, C119_best_exists, C119_best_line (growing weight), C119_small_data, C119_small (falling weight) for the three fits with a penalty integral; C119_knots for initSpline2, orders three and four (for order two its weight has no effect, for higher orders see C116), C119_knots_small for falling weights and all orders from two on. C119_fitter and C119_fitter_small (falling weight) for the uniform manifold fit in Euclidean space, orders from three on; C119_fitter_knots (growing weight) and C119_fitter_knots_small (falling weight) with given knots if the data reach the first and last segment (otherwise see C99_ends_violated). The constants are not given explicitly, except for C119_small_data. Exact arithmetic; the solver is assumed to solve semidefinite systems that have a solution."
  },
  {
   "property": "C120",
   "status": "proved",
   "theorems": [
    "Verif.C120_regularised",
    "Verif.C120_interlaced",
    "Verif.C120_knots",
    "Verif.C120_knots_interlaced",
    "Verif.C120_fitter",
    "Verif.C120_fitter_knots"
   ],
   "note": "C120_regularised, C120_interlaced for the three fits with a penalty integral; C120_knots (orders three and four), C120_knots_interlaced for initSpline2 (penalty at the knots); C120_fitter for the fitter of the manifold splines in Euclidean space (evenly spaced knots, orders from three on, positive weight), C120_fitter_knots with given knots if the data reach the first and last segment. The constants are not given explicitly. C110_stable has the constant one at the data times. Exact arithmetic; the solver is assumed to solve semidefinite systems that have a solution."
  }
 ]
}