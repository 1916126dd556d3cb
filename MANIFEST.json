{
 "claims": [
  {
   "property": "C01",
   "status": "proved",
   "theorems": [
    "Ubitrack.C01_rotation_rigid",
    "Ubitrack.C01_rotation_is_sandwich",
    "Ubitrack.C01_axis",
    "Ubitrack.C01_angle"
   ],
   "note": ""
  },
  {
   "property": "C02",
   "status": "proved",
   "theorems": [
    "Ubitrack.C02_product_is_quaternion_product",
    "Ubitrack.C02_rotation_group_action",
    "Ubitrack.C02_needs_unit",
    "Ubitrack.C02_faithful",
    "Ubitrack.C02_reach"
   ],
   "note": ""
  },
  {
   "property": "C03",
   "status": "proved",
   "theorems": [
    "Ubitrack.C03_quaternion_to_matrix",
    "Ubitrack.C03_group"
   ],
   "note": ""
  },
  {
   "property": "C04",
   "status": "proved",
   "theorems": [
    "Ubitrack.C04_group",
    "Ubitrack.C04_every_rotation_matrix",
    "Ubitrack.C04_unique",
    "Ubitrack.C04_matrix_to_quaternion",
    "Ubitrack.C04_matrix_roundtrip"
   ],
   "note": ""
  },
  {
   "property": "C05",
   "status": "proved",
   "theorems": [
    "Ubitrack.C05_exp_unit",
    "Ubitrack.C05_log_length",
    "Ubitrack.C05_exp_log",
    "Ubitrack.C05_exp_log_near_identity",
    "Ubitrack.C05_log_exp",
    "Ubitrack.C05_log_exp_cutoff_gap",
    "Ubitrack.C05_log_exp_all",
    "Ubitrack.C05_log_exp_long"
   ],
   "note": ""
  },
  {
   "property": "C06",
   "status": "proved",
   "theorems": [
    "Ubitrack.C06_slerp_endpoints_unit",
    "Ubitrack.C06_slerp_double_cover",
    "Ubitrack.C06_slerp_constant_speed",
    "Ubitrack.C06_slerp_reverse",
    "Ubitrack.C06_slerp_frames",
    "Ubitrack.C06_slerp_approaches",
    "Ubitrack.C06_slerp_leaves",
    "Ubitrack.C06_slerp_between"
   ],
   "note": ""
  },
  {
   "property": "C07",
   "status": "proved",
   "theorems": [
    "Ubitrack.C07_negate_if_closer",
    "Ubitrack.C07_same_side"
   ],
   "note": ""
  },
  {
   "property": "C08",
   "status": "proved",
   "theorems": [
    "Ubitrack.C08_every_motion",
    "Ubitrack.C08_pose_action",
    "Ubitrack.C08_pose_group",
    "Ubitrack.C08_pose_inverse_undoes",
    "Ubitrack.C08_pose_isometry"
   ],
   "note": ""
  },
  {
   "property": "C09",
   "status": "proved",
   "theorems": [
    "Ubitrack.C09_pose_matrix_apply",
    "Ubitrack.C09_pose_matrix_product",
    "Ubitrack.C09_pose_from_rigid_matrix",
    "Ubitrack.C09_pose_from_matrix"
   ],
   "note": ""
  },
  {
   "property": "C10",
   "status": "proved",
   "theorems": [
    "Ubitrack.C10_pose_vector_roundtrip",
    "Ubitrack.C10_pose_interpolation",
    "Ubitrack.C10_pose_list_interpolation",
    "Ubitrack.C10_interpolation_frames",
    "Ubitrack.C10_interpolation_body_frame"
   ],
   "note": ""
  },
  {
   "property": "C11",
   "status": "proved",
   "theorems": [
    "Ubitrack.Meas.C11_clone_is_independent",
    "Ubitrack.Meas.C11_copy_aliases",
    "Ubitrack.Meas.C11_write_read",
    "Ubitrack.Meas.C11_invalidate",
    "Ubitrack.Meas.C11_invalid_iff_time_zero",
    "Ubitrack.Meas.C11_constructors"
   ],
   "note": ""
  },
  {
   "property": "C12",
   "status": "proved",
   "theorems": [
    "Ubitrack.TSync.C12_restart",
    "Ubitrack.TSync.C12_first_event_unchanged",
    "Ubitrack.TSync.C12_budget_bounded",
    "Ubitrack.TSync.C12_warmup_never_rejects",
    "Ubitrack.TSync.C12_no_lockout",
    "Ubitrack.TSync.C12_rejects_three_sigma"
   ],
   "note": ""
  },
  {
   "property": "C13",
   "status": "proved",
   "theorems": [
    "Ubitrack.TSync.C13_origins",
    "Ubitrack.TSync.C13_covariance_positive_definite",
    "Ubitrack.TSync.C13_no_overshoot",
    "Ubitrack.TSync.C13_exact_event_accepted",
    "Ubitrack.TSync.C13_native_unit"
   ],
   "note": ""
  },
  {
   "property": "C14",
   "status": "partial",
   "theorems": [
    "Ubitrack.TSyncLS.C14_divisor_zero",
    "Ubitrack.TSyncLS.C14_divisor_positive",
    "Ubitrack.TSyncLS.C14_same_time_refuted",
    "Ubitrack.TSyncLS.C14_local_origin",
    "Ubitrack.TSyncLS.C14_restart",
    "Ubitrack.TSyncLS.C14_warmup_identity",
    "Ubitrack.TSyncLS.C14_budget_bounded",
    "Ubitrack.TSyncLS.C14_first_hundred_accepted",
    "Ubitrack.TSyncLS.C14_no_lockout",
    "Ubitrack.TSyncLS.C14_warmup_means",
    "Ubitrack.TSyncLS.C14_variance_nonneg",
    "Ubitrack.TSyncLS.C14_linear_clock_exact",
    "Ubitrack.TSyncLS.C14_prediction",
    "Ubitrack.TSyncLS.C14_outlier",
    "Ubitrack.TSyncLS.C14_update",
    "Ubitrack.TSyncLS.C14_native_unit"
   ],
   "note": "Proved for all histories; refuted that the returned time is always defined: after more than ten events with one and the same sensor time the next one is computed as zero divided by zero (C14_same_time_refuted). C14_divisor_zero and C14_divisor_positive say exactly when this happens."
  },
  {
   "property": "C15",
   "status": "proved",
   "theorems": [
    "Ubitrack.Ros.C15_roundtrip",
    "Ubitrack.Ros.C15_read_elsewhere",
    "Ubitrack.Ros.C15_too_small_throws",
    "Ubitrack.Ros.C15_advertised_length"
   ],
   "note": ""
  },
  {
   "property": "C16",
   "status": "partial",
   "theorems": [
    "Ubitrack.Ros.C16_memory_safe_partial",
    "Ubitrack.Ros.C16_reads_memory_safe",
    "Ubitrack.Ros.C16_huge_string_refuted",
    "Ubitrack.Ros.C16_overrun_sticky"
   ],
   "note": "Bounds checks hold; the 32-bit wrap of len*size is refuted with a witness."
  },
  {
   "property": "C17",
   "status": "partial",
   "theorems": [
    "Ubitrack.Msgpack.C17_values_roundtrip",
    "Ubitrack.Msgpack.C17_measurement_roundtrip",
    "Ubitrack.Msgpack.C17_null_measurement_refuted",
    "Ubitrack.Msgpack.C17_matrix_roundtrip_iff_refuted",
    "Ubitrack.Msgpack.C17_dynamic_vector_partial",
    "Ubitrack.Msgpack.C17_dynamic_vector_refuted",
    "Ubitrack.Msgpack.C17_as_measurement_refuted",
    "Ubitrack.Msgpack.C17_as_number_refuted",
    "Ubitrack.Msgpack.C17_zone_vector_refuted"
   ],
   "note": "Round trip proved for all types except non-square matrices, for which it is refuted with a witness. The conversion of a stored measurement by as, which returns the time stamp as the value, is refuted too (C17_as_number_refuted)."
  },
  {
   "property": "C18",
   "status": "partial",
   "theorems": [
    "Ubitrack.Arch.C18_roundtrip_partial",
    "Ubitrack.Arch.C18_empty_throws",
    "Ubitrack.Arch.C18_blank_char_refuted",
    "Ubitrack.Arch.C18_counter_wrap_refuted"
   ],
   "note": "Round trip proved for archives of fewer than 2^32 values without blank characters; the two excluded cases are refuted with witnesses."
  },
  {
   "property": "C19",
   "status": "partial",
   "theorems": [
    "Ubitrack.Calib.C19_drop_measurement_partial",
    "Ubitrack.Calib.C19_plain_partial",
    "Ubitrack.Calib.C19_plain_outcome",
    "Ubitrack.Calib.C19_parse_failure_refuted",
    "Ubitrack.Calib.C19_measurement_refuted",
    "Ubitrack.Calib.C19_measurement_forgets_refuted",
    "Ubitrack.Calib.C19_header_exception_refuted",
    "Ubitrack.Calib.C19_success",
    "Ubitrack.Calib.C19_truncated_fails"
   ],
   "note": "Holds for the plain and the measurement-dropping readers in the cases stated; refuted with witnesses for the rest."
  },
  {
   "property": "C20",
   "status": "partial",
   "theorems": [
    "Ubitrack.Munkres.C20_terminates_iff",
    "Ubitrack.Munkres.C20_optimal_partial",
    "Ubitrack.Munkres.C20_colMatchList_partial",
    "Ubitrack.Munkres.C20_loops_forever_refuted",
    "Ubitrack.Munkres.C20_rectangular_refuted"
   ],
   "note": "The solver terminates exactly when the first-fit matching on row minima is perfect; in this case the result is optimal. Termination for all matrices is refuted with a witness."
  },
  {
   "property": "C21",
   "status": "proved",
   "theorems": [
    "Ubitrack.Ransac.C21_ransac",
    "Ubitrack.Ransac.C21_ransac2",
    "Ubitrack.Ransac.C21_final_estimate_refuted",
    "Ubitrack.Ransac.C21_zero_required_refuted",
    "Ubitrack.Ransac.C21_ransacV",
    "Ubitrack.Ransac.C21_ransacV_failure"
   ],
   "note": "Proved for the quantifier given; the refuted theorems document behaviour outside of it (ignored return value of the final estimate, zero inliers required)."
  },
  {
   "property": "C22",
   "status": "proved",
   "theorems": [
    "Ubitrack.Ransac.C22_early_exit",
    "Ubitrack.Ransac.C22_huge_refuted"
   ],
   "note": "Proved for fewer than 2^31 points; C22_huge_refuted shows that the bound is sharp."
  },
  {
   "property": "C23",
   "status": "proved",
   "theorems": [
    "Ubitrack.LM.C23_step",
    "Ubitrack.LM.C23_result",
    "Ubitrack.LM.C23_exception",
    "Ubitrack.LM.C23_terminates",
    "Ubitrack.LM.C23_extra_pass_refuted",
    "Ubitrack.LM.C23_unlimited_refuted",
    "Ubitrack.LM.C23_damped_step",
    "Ubitrack.LM.C23_reachable",
    "Ubitrack.LM.C23_tukey_nonneg"
   ],
   "note": "Over exact reals; linear solver arbitrary. The refuted theorems show that the extra pass and the need for a limit are real."
  },
  {
   "property": "C24",
   "status": "proved",
   "theorems": [
    "Ubitrack.Simplex.C24_indices",
    "Ubitrack.Simplex.C24_invariant",
    "Ubitrack.Simplex.C24_result",
    "Ubitrack.Simplex.C24_terminates",
    "Ubitrack.Simplex.C24_zero_coordinate_stuck",
    "Ubitrack.Simplex.C24_trial",
    "Ubitrack.Simplex.C24_step",
    "Ubitrack.Simplex.C24_normalised",
    "Ubitrack.Simplex.C24_initial_simplex"
   ],
   "note": ""
  },
  {
   "property": "C25",
   "status": "partial",
   "theorems": [
    "Ubitrack.KMeans.C25_centroid_is_mean",
    "Ubitrack.KMeans.C25_labels_partial",
    "Ubitrack.KMeans.C25_objective_decreases",
    "Ubitrack.KMeans.C25_empty_cluster_refuted",
    "Ubitrack.KMeans.C25_seeds_from_data",
    "Ubitrack.KMeans.C25_seeds_distinct",
    "Ubitrack.KMeans.C25_zero_draw_refuted",
    "Ubitrack.KMeans.C25_passes"
   ],
   "note": "Labels are nearest unless the first centroid is NaN (empty cluster); that case and a duplicate seed for a draw of exactly 0 are refuted with witnesses. Additionally: centroids are means, the objective never increases."
  },
  {
   "property": "C26",
   "status": "partial",
   "theorems": [
    "Ubitrack.Average.C26_vector_mean",
    "Ubitrack.Average.C26_quat_mean",
    "Ubitrack.Average.C26_quat_unit",
    "Ubitrack.Average.C26_order",
    "Ubitrack.Average.C26_quat_sign",
    "Ubitrack.Average.C26_quat_const",
    "Ubitrack.Average.C26_quat_halfturn_refuted",
    "Ubitrack.Average.C26_pose",
    "Ubitrack.Average.C26_covariance",
    "Ubitrack.Average.C26_covariance_psd",
    "Ubitrack.Average.C26_errorPose",
    "Ubitrack.Average.C26_errorPose_psd",
    "Ubitrack.Average.C26_vector_frames",
    "Ubitrack.Average.C26_quat_frames_refuted",
    "Ubitrack.Average.C26_quat_within",
    "Ubitrack.Average.C26_quat_near_halfturn_refuted"
   ],
   "note": "Proved for data with some real part that is not zero, and C26_quat_within (the average is not farther from any rotation than the data) for positive real parts. Refuted at and near half turns: the average of two turns as close as you like to each other and to a half turn is no turn at all (C26_quat_near_halfturn_refuted), and at half turns it depends on the signs (C26_quat_halfturn_refuted). For the same reason turning the rotations need not turn their average (C26_quat_frames_refuted); for vectors C26_vector_frames holds."
  },
  {
   "property": "C27",
   "status": "proved",
   "theorems": [
    "Ubitrack.Average.C27_pearson",
    "Ubitrack.Average.C27_bounded",
    "Ubitrack.Average.C27_symmetric",
    "Ubitrack.Average.C27_empty",
    "Ubitrack.Average.C27_self",
    "Ubitrack.Average.C27_affine",
    "Ubitrack.Average.C27_extreme"
   ],
   "note": ""
  },
  {
   "property": "C28",
   "status": "proved",
   "theorems": [
    "Ubitrack.Stochastic.C28_binary_samples",
    "Ubitrack.Stochastic.C28_samples",
    "Ubitrack.Stochastic.C28_range_samples",
    "Ubitrack.Stochastic.C28_transform",
    "Ubitrack.Stochastic.C28_psd",
    "Ubitrack.Stochastic.C28_range",
    "Ubitrack.Stochastic.C28_range_psd"
   ],
   "note": ""
  },
  {
   "property": "C29",
   "status": "proved",
   "theorems": [
    "Ubitrack.Stochastic.C29_textbook",
    "Ubitrack.Stochastic.C29_perfect_prediction",
    "Ubitrack.Stochastic.C29_identity",
    "Ubitrack.Stochastic.C29_psd_and_shrinks",
    "Ubitrack.Stochastic.C29_optimal",
    "Ubitrack.Stochastic.C29_invertible",
    "Ubitrack.Stochastic.C29_information",
    "Ubitrack.Stochastic.C29_least_squares",
    "Ubitrack.Stochastic.C29_order"
   ],
   "note": ""
  },
  {
   "property": "C30",
   "status": "proved",
   "theorems": [
    "Ubitrack.Camera.C30_inverse",
    "Ubitrack.Camera.C30_project_matrix",
    "Ubitrack.Camera.C30_zero_distortion",
    "Ubitrack.Camera.C30_principal_point",
    "Ubitrack.Camera.C30_models_agree"
   ],
   "note": ""
  },
  {
   "property": "C31",
   "status": "proved",
   "theorems": [
    "Ubitrack.Camera.C31_distort6",
    "Ubitrack.Camera.C31_distort4"
   ],
   "note": ""
  },
  {
   "property": "C32",
   "status": "partial",
   "theorems": [
    "Ubitrack.RotationFunction.C32_wrt_q",
    "Ubitrack.RotationFunction.C32_evaluate",
    "Ubitrack.RotationFunction.C32_tangent",
    "Ubitrack.RotationFunction.C32_evaluate_refuted",
    "Ubitrack.RotationFunction.C32_wrt_v",
    "Ubitrack.RotationFunction.C32_wrt_error",
    "Ubitrack.RotationFunction.C32_invert_velocity"
   ],
   "note": "Jacobians are those of q v q* for every quaternion, and of the evaluated function at unit quaternions in tangent directions; the radial direction is refuted."
  },
  {
   "property": "C33",
   "status": "partial",
   "theorems": [
    "Ubitrack.ErrorPose.C33_multiplication",
    "Ubitrack.ErrorPose.C33_times_vector",
    "Ubitrack.ErrorPose.C33_inversion_partial",
    "Ubitrack.ErrorPose.C33_psd",
    "Ubitrack.ErrorPose.C33_inversion_refuted",
    "Ubitrack.ErrorPose.C33_invertMultiply_refuted",
    "Ubitrack.ErrorPose.C33_errorVector_refuted",
    "Ubitrack.ErrorPose.C33_additive_roundtrip",
    "Ubitrack.ErrorPose.C33_additive_refuted"
   ],
   "note": "Multiplication and point application are proved exact to first order. Inversion is proved up to the sign of the rotation block and refuted as written; invertMultiply, the product with an uncertain point and the additive conversion are refuted with witnesses."
  },
  {
   "property": "C34",
   "status": "partial",
   "theorems": [
    "Ubitrack.Conic.C34_matrix",
    "Ubitrack.Conic.C34_roundtrip",
    "Ubitrack.Conic.C34_pixel",
    "Ubitrack.Conic.C34_determinant",
    "Ubitrack.Conic.C34_inverse",
    "Ubitrack.Conic.C34_translate",
    "Ubitrack.Conic.C34_scale",
    "Ubitrack.Conic.C34_flip",
    "Ubitrack.Conic.C34_center",
    "Ubitrack.Conic.C34_center_refuted",
    "Ubitrack.Conic.C34_upper_lower",
    "Ubitrack.Conic.C34_upper_lower_exists",
    "Ubitrack.Conic.C34_left_right",
    "Ubitrack.Conic.C34_intersection",
    "Ubitrack.Conic.C34_intersection_none",
    "Ubitrack.Conic.C34_ellipse",
    "Ubitrack.Conic.C34_hyperbola",
    "Ubitrack.Conic.C34_circle",
    "Ubitrack.Conic.C34_parabola",
    "Ubitrack.Conic.C34_classes",
    "Ubitrack.Conic.C34_degenerate",
    "Ubitrack.Conic.C34_axes",
    "Ubitrack.Conic.C34_axes_exist",
    "Ubitrack.Conic.C34_area",
    "Ubitrack.Conic.C34_major_partial",
    "Ubitrack.Conic.C34_major_refuted",
    "Ubitrack.Conic.C34_eccentricity_partial",
    "Ubitrack.Conic.C34_eccentricity_refuted"
   ],
   "note": "Matrix form, determinant, inverse, translation, scaling, flip, pixel test, limits, intersections, classification, axes, area proved. Refuted with witnesses: the centre of a parabola does not throw, the first axis is the minor one for equal squares' coefficients, circles have no axes (NaN), eccentricity with a mixed term."
  },
  {
   "property": "C35",
   "status": "proved",
   "theorems": [
    "Ubitrack.Quadric.C35_project",
    "Ubitrack.Quadric.C35_ellipsoid",
    "Ubitrack.Quadric.C35_outline",
    "Ubitrack.Quadric.C35_spheroid"
   ],
   "note": "Proved, including that the conic is the outline of the ellipsoid (image of the points whose tangential plane goes through the camera)."
  },
  {
   "property": "C36",
   "status": "proved",
   "theorems": [
    "Ubitrack.Geometry.C36_apply",
    "Ubitrack.Geometry.C36_apply_inverse",
    "Ubitrack.Geometry.C36_mutually_inverse",
    "Ubitrack.Geometry.C36_estimate",
    "Ubitrack.Geometry.C36_normalised_data"
   ],
   "note": ""
  },
  {
   "property": "C37",
   "status": "partial",
   "theorems": [
    "Ubitrack.Geometry.C37_project",
    "Ubitrack.Geometry.C37_transform_partial",
    "Ubitrack.Geometry.C37_transform44_refuted",
    "Ubitrack.Geometry.C37_transform_points",
    "Ubitrack.Geometry.C37_project_points"
   ],
   "note": "All projection functors and all transformation functors except 4x4 times 4-vector; that one is characterised exactly and refuted with a witness (PointTransformation.h l.181)."
  },
  {
   "property": "C38",
   "status": "proved",
   "theorems": [
    "Ubitrack.C38_pose_optimal",
    "Ubitrack.C38_rotation_optimal",
    "Ubitrack.C38_fails_iff",
    "Ubitrack.C38_exact",
    "Ubitrack.C38_unique",
    "Ubitrack.C38_old_entry_point",
    "Ubitrack.C38_scale",
    "Ubitrack.C38_residual"
   ],
   "note": "Real arithmetic; LAPACK syev is a parameter with the contract SymmetricEigensolver (a solver with that contract is shown to exist)."
  },
  {
   "property": "C39",
   "status": "proved",
   "theorems": [
    "Ubitrack.C39_system",
    "Ubitrack.C39_optimal",
    "Ubitrack.C39_exact",
    "Ubitrack.C39_full_rank",
    "Ubitrack.C39_unique",
    "Ubitrack.C39_error",
    "Ubitrack.C39_refinement",
    "Ubitrack.C39_ransac"
   ],
   "note": "Real arithmetic; LAPACK gels is a parameter with the contract LeastSquaresSolver (a solver with that contract is shown to exist). The optimiser is covered for real-valued Jacobians only, see C58."
  },
  {
   "property": "C40",
   "status": "partial",
   "theorems": [
    "Ubitrack.HandEye.C40_round_trip",
    "Ubitrack.HandEye.C40_product",
    "Ubitrack.HandEye.C40_negated",
    "Ubitrack.HandEye.C40_exact_partial",
    "Ubitrack.HandEye.C40_returns_partial",
    "Ubitrack.HandEye.C40_incremental",
    "Ubitrack.HandEye.C40_returns_refuted",
    "Ubitrack.HandEye.C40_sign_refuted"
   ],
   "note": "Conversion, product and null space proved; LAPACK gesvd is a parameter with the contract SingularValueSolver. A pose returned from exact data is exact if the quaternion signs are consistent; refuted otherwise (a half turn instead of the identity). Returning a pose is refuted: a decomposition whose seventh row has perpendicular halves makes the quadratic equation degenerate; characterised exactly."
  },
  {
   "property": "C41",
   "status": "proved",
   "theorems": [
    "Ubitrack.Linear.C41_homography_rows",
    "Ubitrack.Linear.C41_homography",
    "Ubitrack.Linear.C41_homography_recovered",
    "Ubitrack.Linear.C41_square",
    "Ubitrack.Linear.C41_square_invertible",
    "Ubitrack.Linear.C41_projection_rows",
    "Ubitrack.Linear.C41_projection",
    "Ubitrack.Linear.C41_projection_recovered",
    "Ubitrack.Linear.C41_epipolar_distance",
    "Ubitrack.Linear.C41_epipolar_distance_zero",
    "Ubitrack.Linear.C41_two_views",
    "Ubitrack.Linear.C41_two_views_recovered",
    "Ubitrack.Linear.C41_views",
    "Ubitrack.Linear.C41_views_recovered",
    "Ubitrack.Linear.C41_views_rejects"
   ],
   "note": "Real arithmetic; LAPACK gesvd is a parameter with the contract SingularValueSolver (shown satisfiable). Exact data are recovered under the stated general-position hypotheses; division by zero in the normalisation is a separate outcome."
  },
  {
   "property": "C42",
   "status": "partial",
   "theorems": [
    "Ubitrack.ProjectionMatrix.C42_depth",
    "Ubitrack.ProjectionMatrix.C42_opengl",
    "Ubitrack.ProjectionMatrix.C42_planes",
    "Ubitrack.ProjectionMatrix.C42_volume",
    "Ubitrack.ProjectionMatrix.C42_opengl3",
    "Ubitrack.ProjectionMatrix.C42_origin_involutive",
    "Ubitrack.ProjectionMatrix.C42_origin_mirrors",
    "Ubitrack.ProjectionMatrix.C42_origin_mirrors_refuted",
    "Ubitrack.ProjectionMatrix.C42_off_axis"
   ],
   "note": "OpenGL, off-axis and origin properties proved for all parameters without zero denominators; mirroring the origin is refuted for calibration matrices with a non-zero (1,0) entry."
  },
  {
   "property": "C43",
   "status": "partial",
   "theorems": [
    "Ubitrack.Tracking.C43_position",
    "Ubitrack.Tracking.C43_angular_velocity",
    "Ubitrack.Tracking.C43_flow",
    "Ubitrack.Tracking.C43_zero",
    "Ubitrack.Tracking.C43_inverse",
    "Ubitrack.Tracking.C43_orientation_partial",
    "Ubitrack.Tracking.C43_orientation_acceleration_refuted",
    "Ubitrack.Tracking.C43_jacobian",
    "Ubitrack.Tracking.C43_orientation_steps"
   ],
   "note": "Positions, linear and angular derivatives follow the polynomial motion exactly and compose; the orientation does for constant angular velocity, exactly if no turn is below the threshold of 1e-12, and in any number of steps with an error of at most 5e-13 for each (C43_orientation_steps). With an angular acceleration the orientation update is refuted (dt^2 instead of dt^2/2, and no composition)."
  },
  {
   "property": "C44",
   "status": "proved",
   "theorems": [
    "Ubitrack.Tracking.C44_position",
    "Ubitrack.Tracking.C44_orientation",
    "Ubitrack.Tracking.C44_cover",
    "Ubitrack.Tracking.C44_sizes",
    "Ubitrack.Tracking.C44_history",
    "Ubitrack.Tracking.C44_noise"
   ],
   "note": ""
  },
  {
   "property": "C45",
   "status": "partial",
   "theorems": [
    "Ubitrack.Tracking.C45_predict_error",
    "Ubitrack.Tracking.C45_pose_filter",
    "Ubitrack.Tracking.C45_rotation_filter_partial",
    "Ubitrack.Tracking.RotationFilter.C45_predict_later",
    "Ubitrack.Tracking.RotationFilter.C45_predict_earlier_refuted"
   ],
   "note": "The pose filter is right for earlier and later times. The rotation filter's prediction is right for later times, for all of them within a distance of 5e-13 (C45_predict_error); for earlier times the unsigned difference wraps around, refuted with a witness."
  },
  {
   "property": "C46",
   "status": "proved",
   "theorems": [
    "Ubitrack.HandEye.C46_all_pairs",
    "Ubitrack.HandEye.C46_count",
    "Ubitrack.HandEye.C46_adjacent",
    "Ubitrack.HandEye.C46_new_pairs",
    "Ubitrack.HandEye.C46_history",
    "Ubitrack.HandEye.C46_no_overrun"
   ],
   "note": "Every history of growing lists of at least three poses; a shorter list than before is outside the property (the code moves an iterator past the end)."
  },
  {
   "property": "C47",
   "status": "partial",
   "theorems": [
    "Ubitrack.BlockTimer.C47_accounting",
    "Ubitrack.BlockTimer.C47_program",
    "Ubitrack.BlockTimer.C47_location_kept",
    "Ubitrack.BlockTimer.C47_location",
    "Ubitrack.BlockTimer.C47_location_refuted"
   ],
   "note": "Counts, ticks and averages proved for every properly nested run with 64-bit wrap-around stated. The code location is right for blocks that do not nest the same timer and refuted for nested ones."
  },
  {
   "property": "C48",
   "status": "proved",
   "theorems": [
    "Ubitrack.Geometry.C48_det",
    "Ubitrack.Geometry.C48_inverse2",
    "Ubitrack.Geometry.C48_inverse3"
   ],
   "note": ""
  },
  {
   "property": "C49",
   "status": "proved",
   "theorems": [
    "Ubitrack.Blas.C49_inner_fixed",
    "Ubitrack.Blas.C49_inner_dynamic",
    "Ubitrack.Blas.C49_norm_1",
    "Ubitrack.Blas.C49_norm_2",
    "Ubitrack.Blas.C49_outer",
    "Ubitrack.Blas.C49_matrix_vector",
    "Ubitrack.Blas.C49_matrix_matrix"
   ],
   "note": "All sizes (positive inner dimension for the products), any previous contents of the result. The result must not share memory with an operand, as in the code's own use."
  },
  {
   "property": "C50",
   "status": "partial",
   "theorems": [
    "Ubitrack.Geometry.C50_identity",
    "Ubitrack.Geometry.C50_index_size",
    "Ubitrack.Geometry.C50_index_diverges_refuted",
    "Ubitrack.Geometry.C50_index_first_refuted"
   ],
   "note": "Constant iterator proved. The indexed iterator is refuted: it never terminates when an index matches and visits an unselected element otherwise; its announced size is right."
  },
  {
   "property": "C51",
   "status": "partial",
   "theorems": [
    "Ubitrack.Camera.C51_pinhole",
    "Ubitrack.Camera.C51_project_then_distort_partial",
    "Ubitrack.Camera.C51_righthanded_partial",
    "Ubitrack.Camera.C51_righthanded_refuted"
   ],
   "note": "Holds for cameras with K(2,2)=1 and for K(2,2)=-1 without tangential distortion; refuted with a witness otherwise."
  },
  {
   "property": "C52",
   "status": "partial",
   "theorems": [
    "Ubitrack.FunctionComposition.C52_addition",
    "Ubitrack.FunctionComposition.C52_subtraction",
    "Ubitrack.FunctionComposition.C52_linear",
    "Ubitrack.FunctionComposition.C52_store",
    "Ubitrack.FunctionComposition.C52_dehomogenization",
    "Ubitrack.FunctionComposition.C52_dehomogenization_new",
    "Ubitrack.FunctionComposition.C52_camera",
    "Ubitrack.FunctionComposition.C52_camera_new",
    "Ubitrack.FunctionComposition.C52_norm",
    "Ubitrack.FunctionComposition.C52_norm_refuted",
    "Ubitrack.FunctionComposition.C52_normalize",
    "Ubitrack.FunctionComposition.C52_lie_new",
    "Ubitrack.RotationFunction.C52_lie_value",
    "Ubitrack.RotationFunction.C52_lie_jacobian",
    "Ubitrack.RotationFunction.C52_lie_zero_partial",
    "Ubitrack.RotationFunction.C52_lie_small_partial",
    "Ubitrack.RotationFunction.C52_lie_zero_refuted",
    "Ubitrack.RotationFunction.C52_hec_measurement",
    "Ubitrack.RotationFunction.C52_hec_combine_partial",
    "Ubitrack.RotationFunction.C52_hec_combine_refuted",
    "Ubitrack.RotationFunction.C52_velocity_unit_refuted",
    "Ubitrack.RotationFunction.C52_velocity_zero_partial",
    "Ubitrack.RotationFunction.C52_velocity_jacobian_partial",
    "Ubitrack.RotationFunction.C52_velocity_jacobian_refuted"
   ],
   "note": "Exact for addition, subtraction, linear maps, dehomogenisation, normalisation, norm (single row), camera multiplication, hand-eye measurement, exponential map from 1e-6 radians on, and up to four times the angle below (C52_lie_small_partial). Refuted with witnesses: second Jacobian of the hand-eye residual, velocity integration, exponential map at zero as evaluated, norm inside of multi-row functions."
  },
  {
   "property": "C53",
   "status": "partial",
   "theorems": [
    "Ubitrack.Tracking.C53_in_place",
    "Ubitrack.Tracking.C53_orientation",
    "Ubitrack.Tracking.C53_unit",
    "Ubitrack.Tracking.C53_jacobian_order0",
    "Ubitrack.Tracking.C53_jacobian_complete",
    "Ubitrack.Tracking.C53_jacobian_orientation_partial",
    "Ubitrack.Tracking.C53_jacobian_orientation_refuted",
    "Ubitrack.Tracking.C53_inside_out_partial",
    "Ubitrack.Tracking.C53_inside_out_jacobian_partial",
    "Ubitrack.Tracking.C53_inside_out_refuted"
   ],
   "note": "Values proved for every order, Jacobian for the linear parts and the orientation by its own quaternion; the Jacobian of the orientation by the angular velocity agrees only along the direction of the velocity and is refuted otherwise; the inside-out position update is refuted (rotation threshold)."
  },
  {
   "property": "C54",
   "status": "partial",
   "theorems": [
    "Ubitrack.FunctionComposition.C54_evaluate",
    "Ubitrack.FunctionComposition.C54_jacobian",
    "Ubitrack.FunctionComposition.C54_jacobian_zeroed",
    "Ubitrack.FunctionComposition.C54_shared_refuted",
    "Ubitrack.FunctionComposition.C54_pose_objective"
   ],
   "note": "Proved for expressions in which no parameter occurs twice; shared parameters are refuted with a witness."
  },
  {
   "property": "C55",
   "status": "proved",
   "theorems": [
    "Ubitrack.ProjectionFunction.C55_point_evaluate",
    "Ubitrack.ProjectionFunction.C55_point_jacobian",
    "Ubitrack.ProjectionFunction.C55_point_tangent",
    "Ubitrack.ProjectionFunction.C55_point_error",
    "Ubitrack.ProjectionFunction.C55_camera_error",
    "Ubitrack.ProjectionFunction.C55_camera_error_art",
    "Ubitrack.ProjectionFunction.C55_camera_evaluate",
    "Ubitrack.ProjectionFunction.C55_camera_jacobian",
    "Ubitrack.ProjectionFunction.C55_single_evaluate",
    "Ubitrack.ProjectionFunction.C55_single_jacobian"
   ],
   "note": "The Jacobians of the projection objective functions are exact in every parameter at unit quaternions; for an arbitrary quaternion in the tangent directions."
  },
  {
   "property": "C56",
   "status": "partial",
   "theorems": [
    "Ubitrack.BundleAdjustment.C56_layout",
    "Ubitrack.BundleAdjustment.C56_evaluate",
    "Ubitrack.BundleAdjustment.C56_jacobian",
    "Ubitrack.BundleAdjustment.C56_unit",
    "Ubitrack.BundleAdjustment.C56_observations",
    "Ubitrack.BundleAdjustment.C56_ragged_refuted",
    "Ubitrack.BundleAdjustment.C56_writeBack",
    "Ubitrack.BundleAdjustment.C56_writeBack_unit"
   ],
   "note": "Layout, values, Jacobian, observation vector and write-back are proved for data sets in which every camera has the same number of observations (the code's assumption); differing numbers are refuted with a witness."
  },
  {
   "property": "C57",
   "status": "proved",
   "theorems": [
    "Ubitrack.Tracking.RotationFilter.C57_rotation_filter_step",
    "Ubitrack.Tracking.RotationFilter.C57_rotation_filter",
    "Ubitrack.Tracking.RotationFilter.C57_rotation_measurement_succeeds",
    "Ubitrack.Tracking.RotationFilter.C57_rotation_first",
    "Ubitrack.Tracking.PoseFilter.C57_pose_filter_step",
    "Ubitrack.Tracking.PoseFilter.C57_pose_filter_init",
    "Ubitrack.Tracking.PoseFilter.C57_pose_filter",
    "Ubitrack.Tracking.PoseFilter.C57_pose_filter_time",
    "Ubitrack.Tracking.PoseFilter.C57_pose_filter_rotation_succeeds",
    "Ubitrack.Tracking.PoseFilter.C57_predict_throws",
    "Ubitrack.Tracking.PoseFilter.C57_predict_covariance",
    "Ubitrack.Tracking.PoseFilter.C57_predict_now",
    "Ubitrack.Tracking.PoseFilter.C57_pose_first"
   ],
   "note": "Real arithmetic; failures (division by zero) are a separate outcome. Velocity and later pose measurements can fail only if the fused quaternion is exactly zero or (pose) the innovation covariance is singular."
  },
  {
   "property": "C58",
   "status": "partial",
   "theorems": [
    "Ubitrack.PoseRefinement.C58_not_worse",
    "Ubitrack.PoseRefinement.C58_jacobian_partial",
    "Ubitrack.PoseRefinement.C58_jacobian_refuted",
    "Ubitrack.ToolTip.C58_tip_jacobian",
    "Ubitrack.ToolTip.C58_tip_jacobian_refuted"
   ],
   "note": "Never worse proved. The 3D-3D Jacobian is right in its first two rows and refuted in the third; the tool-tip Jacobian is the derivative where no residual component is zero and refuted elsewhere (0/0)."
  },
  {
   "property": "C59",
   "status": "partial",
   "theorems": [
    "Ubitrack.ProjectionMatrix.C59_recovered_partial",
    "Ubitrack.ProjectionMatrix.C59_behind_refuted",
    "Ubitrack.ProjectionMatrix.C59_decompose_partial",
    "Ubitrack.ProjectionMatrix.C59_recompose_partial",
    "Ubitrack.ProjectionMatrix.C59_recompose_refuted"
   ],
   "note": "LAPACK gerqf/orgrq are a parameter with the contract IsRQ (shown satisfiable). Recomposition holds for viewing directions of length one and is refuted otherwise: k is rescaled before the translation is solved for. The parts of a composed camera are recovered when the origin is in front of the camera (the translation up to the size of the factor); for every camera with the origin behind it the decomposition gives another calibration and rotation (C59_behind_refuted)."
  },
  {
   "property": "C60",
   "status": "proved",
   "theorems": [
    "Ubitrack.MatrixOperations.C60_determinant",
    "Ubitrack.MatrixOperations.C60_inverse",
    "Ubitrack.MatrixOperations.C60_pseudo_inverse",
    "Ubitrack.MatrixOperations.C60_unique",
    "Ubitrack.MatrixOperations.C60_one_sided"
   ],
   "note": "LAPACK getrf, getri and gesvd are parameters with the contracts LUFactorisation, LUInverse and ThinSVD, each shown satisfiable. Inverting a singular matrix is outside the property: the code returns whatever getri leaves."
  },
  {
   "property": "C61",
   "status": "partial",
   "theorems": [
    "Ubitrack.Epipolar.C61_singular",
    "Ubitrack.Epipolar.C61_rejects",
    "Ubitrack.Epipolar.C61_recovered",
    "Ubitrack.Epipolar.C61_step_refuted",
    "Ubitrack.Epipolar.C61_from_poses",
    "Ubitrack.Epipolar.C61_from_poses_nonzero"
   ],
   "note": "LAPACK routines are parameters with contracts, each shown satisfiable. Refuted with a witness: the check for eight correspondences ignores the step size, so that a matrix is returned from fewer equations."
  },
  {
   "property": "C62",
   "status": "proved",
   "theorems": [
    "Ubitrack.Epipolar.C62_valid",
    "Ubitrack.Epipolar.C62_recovered",
    "Ubitrack.Epipolar.C62_round_trip"
   ],
   "note": "Exact data; the image point must not belong to a point on the baseline or equally far from both camera centres (there the triangulation with a wrong candidate divides by zero)."
  },
  {
   "property": "C63",
   "status": "partial",
   "theorems": [
    "Ubitrack.RotationCast.C63_axis_angle_to_matrix",
    "Ubitrack.RotationCast.C63_axis_angle_to_quaternion",
    "Ubitrack.RotationCast.C63_quaternion_to_matrix",
    "Ubitrack.RotationCast.C63_quaternion_to_axis_angle",
    "Ubitrack.RotationCast.C63_quaternion_identity_refuted",
    "Ubitrack.RotationCast.C63_vector",
    "Ubitrack.RotationCast.C63_vector_short",
    "Ubitrack.RotationCast.C63_axis_angle_to_vector",
    "Ubitrack.RotationCast.C63_axis_angle_vector_turn",
    "Ubitrack.RotationCast.C63_quaternion_to_vector",
    "Ubitrack.RotationCast.C63_matrix_to_quaternion_partial",
    "Ubitrack.RotationCast.C63_matrix_to_axis_angle_partial",
    "Ubitrack.RotationCast.C63_matrix_to_quaternion_refuted",
    "Ubitrack.RotationCast.C63_matrix_to_axis_angle_refuted",
    "Ubitrack.RotationCast.C63_matrix_to_vector_partial",
    "Ubitrack.RotationCast.C63_constructor_axis_angle",
    "Ubitrack.RotationCast.C63_to_axis_angle_round_trip",
    "Ubitrack.RotationCast.C63_to_axis_angle_partial",
    "Ubitrack.RotationCast.C63_to_axis_angle_refuted",
    "Ubitrack.RotationCast.C63_constructor_three_angles"
   ],
   "note": "Exact for axis/angle, quaternion and vector in all directions. From matrices: all rotation matrices except half turns, where the conversion is refuted (wrong quaternion, NaN axis, zero vector); the identity quaternion has a NaN axis; toAxisAngle does not normalise the axis of small angles."
  },
  {
   "property": "C64",
   "status": "partial",
   "theorems": [
    "Ubitrack.RotationCast.C64_euler_partial",
    "Ubitrack.RotationCast.C64_euler_north_pole_partial",
    "Ubitrack.RotationCast.C64_euler_at_north_pole",
    "Ubitrack.RotationCast.C64_euler_near_pole_refuted",
    "Ubitrack.RotationCast.C64_euler_south_pole_refuted",
    "Ubitrack.RotationCast.C64_kuka_partial"
   ],
   "note": "Proved for all six sequences away from the poles and at the pole with the second angle +90 degrees, with an error bound near it. Refuted: at the other pole the first angle has the wrong sign; near the poles the angles are only approximate."
  },
  {
   "property": "C65",
   "status": "partial",
   "theorems": [
    "Ubitrack.Gaussian.C65_weighted",
    "Ubitrack.Gaussian.C65_unweighted",
    "Ubitrack.Gaussian.C65_empty",
    "Ubitrack.Gaussian.C65_index_partial",
    "Ubitrack.Gaussian.C65_index_refuted",
    "Ubitrack.Gaussian.C65_covariance"
   ],
   "note": "Exact arithmetic, any dimension and number of values. Refuted: the estimation for an index without values divides by zero (no test, unlike the other two)."
  },
  {
   "property": "C66",
   "status": "partial",
   "theorems": [
    "Ubitrack.Gaussian.C66_density_partial",
    "Ubitrack.Gaussian.C66_pass",
    "Ubitrack.Gaussian.C66_result",
    "Ubitrack.Gaussian.C66_density_refuted",
    "Ubitrack.Gaussian.C66_degenerate_refuted"
   ],
   "note": "Proved for mixtures none of whose weighted distributions becomes degenerate (determinant at most 1e-10) in a pass. Refuted: the density is off by a constant factor (wrong power of 2 pi, so the returned number is off by a constant), and a degenerate distribution makes the likelihood the logarithm of zero."
  },
  {
   "property": "C67",
   "status": "proved",
   "theorems": [
    "Ubitrack.Gaussian.C67_value",
    "Ubitrack.Gaussian.C67_zero",
    "Ubitrack.Gaussian.C67_euclidean",
    "Ubitrack.Gaussian.C67_affine",
    "Ubitrack.Gaussian.C67_singular",
    "Ubitrack.Gaussian.C67_metric"
   ],
   "note": "Exact arithmetic, any dimension."
  },
  {
   "property": "C68",
   "status": "partial",
   "theorems": [
    "Ubitrack.TsaiLenz.C68_exact_partial",
    "Ubitrack.TsaiLenz.C68_result_rotation",
    "Ubitrack.TsaiLenz.C68_too_few",
    "Ubitrack.TsaiLenz.C68_half_turn_refuted",
    "Ubitrack.TsaiLenz.C68_hand_half_turn_refuted"
   ],
   "note": "Proved for mountings and compared hand motions that are not half turns, any number of poses and both selections of pairs. Refuted: a mounting that is a half turn is never returned (division by the scalar part), and one half turn of the hand gives a wrong result for exact data (the sign of the quaternion is arbitrary)."
  },
  {
   "property": "C69",
   "status": "partial",
   "theorems": [
    "Ubitrack.DataSelection.C69_round_trip",
    "Ubitrack.DataSelection.C69_nearest",
    "Ubitrack.DataSelection.C69_chosen",
    "Ubitrack.DataSelection.C69_selected_partial",
    "Ubitrack.DataSelection.C69_assigned",
    "Ubitrack.DataSelection.C69_flipped_refuted",
    "Ubitrack.DataSelection.C69_indices_partial",
    "Ubitrack.DataSelection.C69_no_values",
    "Ubitrack.DataSelection.C69_get_selection",
    "Ubitrack.DataSelection.C69_indices_refuted",
    "Ubitrack.DataSelection.C69_update"
   ],
   "note": "Any number of poses, any draws. Refuted: a motion of the eye whose quaternion has a negative scalar part is turned into the inverse rotation; resetIndices keeps the first member of each cluster instead of the nearest one. A pair for a cluster without member is never assigned (modelled as none)."
  },
  {
   "property": "C70",
   "status": "partial",
   "theorems": [
    "Ubitrack.RotationHandEye.C70_least_squares",
    "Ubitrack.RotationHandEye.C70_result",
    "Ubitrack.RotationHandEye.C70_exact_partial",
    "Ubitrack.RotationHandEye.C70_convergence_partial",
    "Ubitrack.RotationHandEye.C70_half_turn_refuted"
   ],
   "note": "Any history. Refuted: for half turns (scalar part zero) the sign of the quaternion is arbitrary, and two exact pairs give nearly the opposite of the mounting."
  },
  {
   "property": "C71",
   "status": "partial",
   "theorems": [
    "Ubitrack.RotationHandEye.C71_valid",
    "Ubitrack.RotationHandEye.C71_fixed_partial",
    "Ubitrack.RotationHandEye.C71_first_partial",
    "Ubitrack.RotationHandEye.C71_first_refuted"
   ],
   "note": "Any history for validity. The fixed point and the first step need turns by less than 90 degrees; refuted for larger ones: negateIfCloser may take the wrong representative, and one exact pair moves the state away from the mounting."
  },
  {
   "property": "C72",
   "status": "partial",
   "theorems": [
    "Ubitrack.C72_identity_valid",
    "Ubitrack.C72_identity",
    "Ubitrack.C72_identity_inverse",
    "Ubitrack.C72_diagonal_partial",
    "Ubitrack.C72_diagonal_refuted",
    "Ubitrack.C72_general_partial",
    "Ubitrack.C72_general_refuted"
   ],
   "note": "Identity version: proved for all shapes, given that singular values are zero or at least 1e-8 of the largest (the cut-off of the code). Refuted: the diagonal version scales only as many rows as there are parameters, and the general version multiplies by the eigenvectors instead of their transpose; both are proved where these defects do not matter."
  },
  {
   "property": "C73",
   "status": "partial",
   "theorems": [
    "Ubitrack.CovarianceEstimation.C73_jacobian",
    "Ubitrack.CovarianceEstimation.C73_determined",
    "Ubitrack.CovarianceEstimation.C73_covariance",
    "Ubitrack.CovarianceEstimation.C73_exact",
    "Ubitrack.CovarianceEstimation.C73_units_refuted"
   ],
   "note": "Any number of points. Refuted: the residual is a mean distance, used as a variance; under a change of unit by c the covariance is off by 1/c."
  },
  {
   "property": "C74",
   "status": "partial",
   "theorems": [
    "Ubitrack.VectorMatrix.C74_less",
    "Ubitrack.VectorMatrix.C74_equal",
    "Ubitrack.VectorMatrix.C74_order",
    "Ubitrack.VectorMatrix.C74_nan_refuted",
    "Ubitrack.VectorMatrix.C74_interpolate_int_refuted",
    "Ubitrack.VectorMatrix.C74_interpolate",
    "Ubitrack.VectorMatrix.C74_distance",
    "Ubitrack.VectorMatrix.C74_normalize",
    "Ubitrack.VectorMatrix.C74_cross",
    "Ubitrack.VectorMatrix.C74_handedness",
    "Ubitrack.VectorMatrix.C74_handedness_product",
    "Ubitrack.VectorMatrix.C74_row_major"
   ],
   "note": "Proved for linearly ordered elements and real vectors. Refuted: with a component that is not a number the comparison of floating point vectors has a cycle; interpolation of integral vectors gives zero, because the weights are rounded."
  },
  {
   "property": "C75",
   "status": "partial",
   "theorems": [
    "Ubitrack.Intrinsics.C75_load",
    "Ubitrack.Intrinsics.C75_roundtrip",
    "Ubitrack.Intrinsics.C75_constructors",
    "Ubitrack.Intrinsics.C75_parameters",
    "Ubitrack.Intrinsics.C75_stored",
    "Ubitrack.Intrinsics.C75_three_parameters_refuted",
    "Ubitrack.Intrinsics.C75_fisheye_refuted",
    "Ubitrack.Intrinsics.C75_reload_refuted",
    "Ubitrack.Intrinsics.C75_size_refuted",
    "Ubitrack.Intrinsics.C75_flip",
    "Ubitrack.Intrinsics.C75_angles",
    "Ubitrack.Intrinsics.C75_diagonal_refuted",
    "Ubitrack.Intrinsics.C75_default"
   ],
   "note": "Proved for cameras whose type agrees with the number of parameters, and for the horizontal and vertical angle. Refuted: the constructor for three parameters records two, so that the third is lost and saving changes the type; the fish-eye constructor leaves two parameters uninitialised; loading into a used object keeps old parameters; the general constructor ignores the image size; the diagonal angle is too small for every camera."
  },
  {
   "property": "C76",
   "status": "partial",
   "theorems": [
    "Ubitrack.GaussNewton.C76_fixed_point",
    "Ubitrack.GaussNewton.C76_descent",
    "Ubitrack.GaussNewton.C76_linear",
    "Ubitrack.GaussNewton.C76_iterations",
    "Ubitrack.GaussNewton.C76_normalized",
    "Ubitrack.GaussNewton.C76_discrete_linear",
    "Ubitrack.GaussNewton.C76_discrete_limit",
    "Ubitrack.GaussNewton.C76_discrete_gauss_newton",
    "Ubitrack.GaussNewton.C76_cycle_refuted"
   ],
   "note": "Proved except for \"never makes the error larger\", which is refuted by a cubic equation for which the iterations cycle between two points for ever."
  },
  {
   "property": "C77",
   "status": "partial",
   "theorems": [
    "Ubitrack.RotationVelocity.C77_reaches",
    "Ubitrack.RotationVelocity.C77_shortest",
    "Ubitrack.RotationVelocity.C77_recovered",
    "Ubitrack.RotationVelocity.C77_additive_partial",
    "Ubitrack.RotationVelocity.C77_small_refuted",
    "Ubitrack.RotationVelocity.C77_axis",
    "Ubitrack.RotationVelocity.C77_interpolation",
    "Ubitrack.RotationVelocity.C77_steps",
    "Ubitrack.RotationVelocity.C77_reaches_all"
   ],
   "note": "Proved for turns by more than the threshold 1e-12 of the logarithm, and for all turns with an error: C77_steps with at most 5e-13 for each step, C77_reaches_all with at most a squared distance of 2e-24. C77_interpolation for rotations that are not almost equal (there the code interpolates linearly). Refuted below the threshold: a slow motion integrated in short intervals never moves."
  },
  {
   "property": "C78",
   "status": "partial",
   "theorems": [
    "Ubitrack.PlanarPose.C78_homography",
    "Ubitrack.PlanarPose.C78_rotation",
    "Ubitrack.PlanarPose.C78_nearest",
    "Ubitrack.PlanarPose.C78_plain",
    "Ubitrack.PlanarPose.C78_planar",
    "Ubitrack.PlanarPose.C78_offset_refuted",
    "Ubitrack.PlanarPose.C78_behind_refuted",
    "Ubitrack.PlanarPose.C78_any_plane",
    "Ubitrack.PlanarPose.C78_narrow_refuted",
    "Ubitrack.PlanarPose.C78_projection",
    "Ubitrack.PlanarPose.C78_scale_refuted",
    "Ubitrack.PlanarPose.C78_result",
    "Ubitrack.PlanarPose.C78_normalize",
    "Ubitrack.PlanarPose.C78_normalize_refuted"
   ],
   "note": "Proved for points on the plane z = 0 in front of the camera in the convention of negative z, for any plane not parallel to it whose first points span an angle with cosine at most 0.8, and for six points in general position under a camera matrix with last row (0, 0, 1) or (0, 0, -1). Refuted: a common z other than zero is dropped; a plane at positive z gives a mirrored pose; a narrow triangle is rejected; a camera matrix scaled by a factor scales the translation by its square; normalising a pose changes the images."
  },
  {
   "property": "C79",
   "status": "partial",
   "theorems": [
    "Ubitrack.BundleAdjustment.C79_not_worse_partial",
    "Ubitrack.BundleAdjustment.C79_ends",
    "Ubitrack.BundleAdjustment.C79_exact",
    "Ubitrack.BundleAdjustment.C79_gauge",
    "Ubitrack.BundleAdjustment.C79_start",
    "Ubitrack.BundleAdjustment.C79_defined",
    "Ubitrack.BundleAdjustment.C79_visibility_refuted",
    "Ubitrack.BundleAdjustment.C79_damping",
    "Ubitrack.BundleAdjustment.C79_worse_refuted"
   ],
   "note": "The error is proved not to grow for the quaternions the optimiser ends with; they are normalised afterwards. Refuted: after this the images can be much worse than at the start, even with an exact solver (C79_worse_refuted); cameras may miss points."
  },
  {
   "property": "C80",
   "status": "partial",
   "theorems": [
    "Ubitrack.SerialPort.C80_open",
    "Ubitrack.SerialPort.C80_unsupported",
    "Ubitrack.SerialPort.C80_attributes",
    "Ubitrack.SerialPort.C80_format_refuted",
    "Ubitrack.SerialPort.C80_leak_refuted",
    "Ubitrack.SerialPort.C80_close",
    "Ubitrack.SerialPort.C80_restores",
    "Ubitrack.SerialPort.C80_open_forever_refuted",
    "Ubitrack.SerialPort.C80_reopen_refuted",
    "Ubitrack.SerialPort.C80_close_twice_refuted",
    "Ubitrack.SerialPort.C80_device_partial",
    "Ubitrack.SerialPort.C80_bytes_refuted",
    "Ubitrack.SerialPort.C80_send",
    "Ubitrack.SerialPort.C80_read",
    "Ubitrack.SerialPort.C80_send_refuted",
    "Ubitrack.SerialPort.C80_flush_refuted"
   ],
   "note": "Proved for opening, closing once, errors for unsupported rates, and reading and sending over every history before the port is closed. Refuted: data bits and parity; failed attempts leak a descriptor each; a closed port counts as open forever, cannot be opened again, and the second close closes a file of somebody else; a failed send reports the largest number there is; a failed question for the number of waiting bytes returns an uninitialised value; flushing a port that was never opened."
  },
  {
   "property": "C81",
   "status": "proved",
   "theorems": [
    "Ubitrack.ObjectSpacePose.C81_distance",
    "Ubitrack.ObjectSpacePose.C81_defined",
    "Ubitrack.ObjectSpacePose.C81_result",
    "Ubitrack.ObjectSpacePose.C81_decreasing",
    "Ubitrack.ObjectSpacePose.C81_enough",
    "Ubitrack.ObjectSpacePose.C81_zero",
    "Ubitrack.ObjectSpacePose.C81_frontal"
   ],
   "note": "Convergence to the true pose is proved for points at the same depth only."
  },
  {
   "property": "C82",
   "status": "partial",
   "theorems": [
    "Ubitrack.MultiCameraPose.C82_result",
    "Ubitrack.MultiCameraPose.C82_few",
    "Ubitrack.MultiCameraPose.C82_not_worse",
    "Ubitrack.MultiCameraPose.C82_ends",
    "Ubitrack.MultiCameraPose.C82_exact",
    "Ubitrack.MultiCameraPose.C82_ignored",
    "Ubitrack.MultiCameraPose.C82_check",
    "Ubitrack.MultiCameraPose.C82_inconsistent",
    "Ubitrack.MultiCameraPose.C82_no_camera_refuted",
    "Ubitrack.MultiCameraPose.C82_negative_refuted",
    "Ubitrack.MultiCameraPose.C82_slice",
    "Ubitrack.MultiCameraPose.C82_bundles",
    "Ubitrack.MultiCameraPose.C82_empty_bundle_refuted",
    "Ubitrack.MultiCameraPose.C82_start_partial",
    "Ubitrack.MultiCameraPose.C82_start_refuted"
   ],
   "note": "Refuted in parts: the start without an initial pose (camera pose instead of its inverse), no cameras, a negative minimum, an empty first bundle. Proved: result, error, exact data, bundles, independence of unobserved points."
  },
  {
   "property": "C83",
   "status": "partial",
   "theorems": [
    "Ubitrack.Camera.C83_not_worse",
    "Ubitrack.Camera.C83_pixels",
    "Ubitrack.Camera.C83_ends",
    "Ubitrack.Camera.C83_fixed",
    "Ubitrack.Camera.C83_zero",
    "Ubitrack.Camera.C83_agree",
    "Ubitrack.Camera.C83_close",
    "Ubitrack.Camera.C83_radial_close",
    "Ubitrack.Camera.C83_inverse_refuted",
    "Ubitrack.Camera.C83_point_distorts",
    "Ubitrack.Camera.C83_point_partial",
    "Ubitrack.Camera.C83_point_refuted"
   ],
   "note": "Refuted in parts: undistortion as an inverse (distortion need not be injective), and the third implementation in utMath/Geometry, which distorts once more. Proved: never worse, result exists, fixed points, agreement, distance to the true point."
  },
  {
   "property": "C84",
   "status": "partial",
   "theorems": [
    "Ubitrack.ImageLookup.C84_bilinear",
    "Ubitrack.ImageLookup.C84_pixel",
    "Ubitrack.ImageLookup.C84_outside",
    "Ubitrack.ImageLookup.C84_defined",
    "Ubitrack.ImageLookup.C84_between",
    "Ubitrack.ImageLookup.C84_continuous",
    "Ubitrack.ImageLookup.C84_plane",
    "Ubitrack.ImageLookup.C84_slope",
    "Ubitrack.ImageLookup.C84_slope_outside",
    "Ubitrack.ImageLookup.C84_slope_defined",
    "Ubitrack.ImageLookup.C84_slope_plane",
    "Ubitrack.ImageLookup.C84_border_refuted",
    "Ubitrack.ImageLookup.C84_overflow_refuted",
    "Ubitrack.ImageLookup.C84_derivative_refuted",
    "Ubitrack.ImageLookup.C84_slope_border_refuted",
    "Ubitrack.ImageLookup.C84_rows_refuted"
   ],
   "note": "Refuted in parts: last row and column, coordinates outside the type int, the derivative of the value, the last but one row and column for the derivative, more than one row of the left factor. The rest is proved."
  },
  {
   "property": "C85",
   "status": "partial",
   "theorems": [
    "Ubitrack.ConicCovariance.C85_defined",
    "Ubitrack.ConicCovariance.C85_result",
    "Ubitrack.ConicCovariance.C85_covariance",
    "Ubitrack.ConicCovariance.C85_scale_free",
    "Ubitrack.ConicCovariance.C85_scale",
    "Ubitrack.ConicCovariance.C85_order",
    "Ubitrack.ConicCovariance.C85_repeat",
    "Ubitrack.ConicCovariance.C85_noise_refuted",
    "Ubitrack.ConicCovariance.C85_convention_refuted"
   ],
   "note": "Refuted in parts: the noise constant is used as a variance, and the coefficients follow another convention than the other conic functions. The rest is proved."
  },
  {
   "property": "C86",
   "status": "partial",
   "theorems": [
    "Ubitrack.Clock.C86_short",
    "Ubitrack.Clock.C86_short_order",
    "Ubitrack.Clock.C86_long",
    "Ubitrack.Clock.C86_long_text",
    "Ubitrack.Clock.C86_long_injective",
    "Ubitrack.Clock.C86_now",
    "Ubitrack.Clock.C86_now_monotone",
    "Ubitrack.Clock.C86_sleep_partial",
    "Ubitrack.Clock.C86_sleep_refuted"
   ],
   "note": "Refuted in part: sleeping with nanoseconds that add up to a second or more does not sleep. The rest is proved."
  },
  {
   "property": "C87",
   "status": "partial",
   "theorems": [
    "Ubitrack.GlobFiles.C87_result",
    "Ubitrack.GlobFiles.C87_order",
    "Ubitrack.GlobFiles.C87_missing",
    "Ubitrack.GlobFiles.C87_file_refuted",
    "Ubitrack.GlobFiles.C87_nothing_refuted"
   ],
   "note": "Refuted in parts: the path of a single file is added whatever the kind, and finding nothing is no failure if the list was not empty before. The rest is proved."
  },
  {
   "property": "C88",
   "status": "partial",
   "theorems": [
    "Ubitrack.RandomValues.C88_unit",
    "Ubitrack.RandomValues.C88_every",
    "Ubitrack.RandomValues.C88_uniform",
    "Ubitrack.RandomValues.C88_invariant",
    "Ubitrack.RandomValues.C88_certain",
    "Ubitrack.RandomValues.C88_direction",
    "Ubitrack.RandomValues.C88_vector",
    "Ubitrack.RandomValues.C88_vector_scalar",
    "Ubitrack.RandomValues.C88_matrix",
    "Ubitrack.RandomValues.C88_vector_order_refuted",
    "Ubitrack.RandomValues.C88_normal",
    "Ubitrack.RandomValues.C88_covariance_refuted",
    "Ubitrack.RandomValues.C88_independent_refuted",
    "Ubitrack.RandomValues.C88_sequence"
   ],
   "note": "Refuted in parts: limits given as vectors are not ordered, a given covariance is ignored and uninitialised memory is used instead, and every source file has its own generator with the same start. The rest, in particular uniformity, is proved."
  },
  {
   "property": "C89",
   "status": "partial",
   "theorems": [
    "Ubitrack.Reconstruction.C89_pairing",
    "Ubitrack.Reconstruction.C89_recovered",
    "Ubitrack.Reconstruction.C89_empty",
    "Ubitrack.Reconstruction.C89_unequal_refuted",
    "Ubitrack.Reconstruction.C89_same_plane_refuted",
    "Ubitrack.Reconstruction.C89_noise_refuted"
   ],
   "note": "Refuted in parts: different numbers of points make the call read uninitialised memory; with measurement errors the call can run for ever; two points in one plane with the cameras are paired in the order of the lists. The rest is proved."
  },
  {
   "property": "C90",
   "status": "partial",
   "theorems": [
    "Ubitrack.Logging.C90_one_answer",
    "Ubitrack.Logging.C90_delivery",
    "Ubitrack.Logging.C90_at_most_once",
    "Ubitrack.Logging.C90_default",
    "Ubitrack.Logging.C90_twice_refuted",
    "Ubitrack.Logging.C90_beyond_notset_refuted",
    "Ubitrack.Logging.C90_appender",
    "Ubitrack.Logging.C90_exception",
    "Ubitrack.Logging.C90_exception_refuted",
    "Ubitrack.Logging.C90_interleaved_refuted"
   ],
   "note": "Refuted in parts: initLogging() called twice writes every message twice; a priority beyond NOTSET cuts a category off from later changes above it; a category created while the priority of its parent is set in another thread can keep the old priority; an exception without file name streams a null pointer when debug logging is enabled. The rest is proved for all histories."
  },
  {
   "property": "C91",
   "status": "partial",
   "theorems": [
    "Ubitrack.LogLayout.C91_pattern",
    "Ubitrack.LogLayout.C91_width",
    "Ubitrack.LogLayout.C91_default_line",
    "Ubitrack.LogLayout.C91_named_times",
    "Ubitrack.LogLayout.C91_milliseconds",
    "Ubitrack.LogLayout.C91_filename",
    "Ubitrack.LogLayout.C91_priority",
    "Ubitrack.LogLayout.C91_category",
    "Ubitrack.LogLayout.C91_precision_refuted",
    "Ubitrack.LogLayout.C91_leading_dot_refuted",
    "Ubitrack.LogLayout.C91_width_carried_refuted",
    "Ubitrack.LogLayout.C91_percent_brace_refuted",
    "Ubitrack.LogLayout.C91_error_refuted",
    "Ubitrack.LogLayout.C91_time_refuted"
   ],
   "note": "Refuted in parts: a width given to %n or %% is applied to the next specifier; braces after %% swallow text; %c{0}, a negative or non-numeric precision makes every log call throw; names that begin with a dot are cut wrongly; a rejected pattern destroys the former one; times of 100 characters or more are undetermined. The rest is proved for all patterns."
  },
  {
   "property": "C92",
   "status": "partial",
   "theorems": [
    "Ubitrack.Xml.C92_attribute",
    "Ubitrack.Xml.C92_text",
    "Ubitrack.Xml.C92_text_kept",
    "Ubitrack.Xml.C92_safe",
    "Ubitrack.Xml.C92_hexadecimal",
    "Ubitrack.Xml.C92_decimal",
    "Ubitrack.Xml.C92_reference_refuted",
    "Ubitrack.Xml.C92_escape_refuted",
    "Ubitrack.Xml.C92_wrap_refuted",
    "Ubitrack.Xml.C92_malformed_refuted",
    "Ubitrack.Xml.C92_ampersand_refuted",
    "Ubitrack.Xml.C92_incomplete_refuted"
   ],
   "note": "Refuted in parts: values with \"&#x\" are written unescaped, so they come back different or break the file; numbers of references are taken modulo 2^32; an '&' that starts no reference is lost silently; an incomplete UTF-8 character swallows the closing quote or reads outside of the text. Proved for all values without \"&#x\" (UTF-8 values in UTF-8 files)."
  },
  {
   "property": "C93",
   "status": "partial",
   "theorems": [
    "Ubitrack.Xml.C93_line_breaks",
    "Ubitrack.Xml.C93_end_tag",
    "Ubitrack.Xml.C93_lines",
    "Ubitrack.Xml.C93_round_trip",
    "Ubitrack.Xml.C93_duplicate_refuted",
    "Ubitrack.Xml.C93_trailing_refuted",
    "Ubitrack.Xml.C93_closed_refuted",
    "Ubitrack.Xml.C93_texts_refuted",
    "Ubitrack.Xml.C93_raw_refuted",
    "Ubitrack.Xml.C93_empty"
   ],
   "note": "Round trip proved for all well formed documents; lines for documents without texts beside other children and without characters to be escaped (C93_lines). Refuted: files with doubled attributes, with text after the last node, or with an element closed twice load without an error, in part with loss of what follows; blank and neighbouring texts, comments with \"-->\" and CDATA with \"]]>\" do not survive."
  },
  {
   "property": "C94",
   "status": "partial",
   "theorems": [
    "Ubitrack.Xml.C94_ends",
    "Ubitrack.Xml.C94_position",
    "Ubitrack.Xml.C94_line_breaks",
    "Ubitrack.Xml.C94_steps",
    "Ubitrack.Xml.C94_stamp_ends",
    "Ubitrack.Xml.C94_hang_refuted",
    "Ubitrack.Xml.C94_outside_refuted"
   ],
   "note": "Proved: the parser itself ends for every file; positions are right for every text with line feeds, no matter where counting began; counting ends unless EF is one of the last two bytes. Refuted: with EF there an error report hangs; files that end within a comment, CDATA, an attribute value or a character make the reader read behind the end of the text."
  },
  {
   "property": "C95",
   "status": "partial",
   "theorems": [
    "Ubitrack.PoseOptimization.C95_result",
    "Ubitrack.PoseOptimization.C95_ends",
    "Ubitrack.PoseOptimization.C95_exact",
    "Ubitrack.PoseOptimization.C95_nan_refuted"
   ],
   "note": "Proved for every result that is not NaN, for all solver behaviours. Refuted that results are always numbers: a step that moves a point into the centre of the camera gives NaN, which the comparison of residuals does not reject (C95_nan_refuted)."
  },
  {
   "property": "C96",
   "status": "partial",
   "theorems": [
    "Ubitrack.PoseOptimization.C96_single",
    "Ubitrack.PoseOptimization.C96_multiple",
    "Ubitrack.PoseOptimization.C96_scale",
    "Ubitrack.PoseOptimization.C96_compute",
    "Ubitrack.PoseOptimization.C96_variance_refuted",
    "Ubitrack.PoseOptimization.C96_exact",
    "Ubitrack.PoseOptimization.C96_planar"
   ],
   "note": "Proved for one and for several cameras. Refuted for computePose: it passes the sum of all squared residuals where the variance of one image coordinate is expected, so its covariance is too large by the number of coordinates (C96_variance_refuted)."
  },
  {
   "property": "C97",
   "status": "partial",
   "theorems": [
    "Ubitrack.LogConfig.C97_line",
    "Ubitrack.LogConfig.C97_silent",
    "Ubitrack.LogConfig.C97_variables",
    "Ubitrack.LogConfig.C97_read",
    "Ubitrack.LogConfig.C97_last_line",
    "Ubitrack.LogConfig.C97_save",
    "Ubitrack.LogConfig.C97_save_refuted",
    "Ubitrack.LogConfig.C97_long_line_refuted",
    "Ubitrack.LogConfig.C97_appenders",
    "Ubitrack.LogConfig.C97_priority",
    "Ubitrack.LogConfig.C97_priority_refused",
    "Ubitrack.LogConfig.C97_configure",
    "Ubitrack.LogConfig.C97_appender",
    "Ubitrack.LogConfig.C97_appender_refused",
    "Ubitrack.LogConfig.C97_fallback",
    "Ubitrack.LogConfig.C97_root_priority_refuted",
    "Ubitrack.LogConfig.C97_half_configured_refuted",
    "Ubitrack.LogConfig.C97_names_refuted"
   ],
   "note": "Lines, variables, appenders with names of letters, digits and underscores, successful configurations and the fallback are proved without bounds. Refuted: a line of 256 characters ends the file (C97_long_line_refuted), names such as A and A-B cannot be used together (C97_names_refuted), a root without a priority ends the program instead of falling back (C97_root_priority_refuted), a failure midway leaves a half configured logger (C97_half_configured_refuted), and a saved value that contains # (which only the environment can give) is cut off when loaded (C97_save_refuted)."
  },
  {
   "property": "C98",
   "status": "partial",
   "theorems": [
    "Ubitrack.RollingFile.C98_event",
    "Ubitrack.RollingFile.C98_order",
    "Ubitrack.RollingFile.C98_roll",
    "Ubitrack.RollingFile.C98_other_files",
    "Ubitrack.RollingFile.C98_sizes",
    "Ubitrack.RollingFile.C98_kept",
    "Ubitrack.RollingFile.C98_kept_characters",
    "Ubitrack.RollingFile.C98_kept_crash_refuted",
    "Ubitrack.RollingFile.C98_no_backups",
    "Ubitrack.RollingFile.C98_no_backups_refuted",
    "Ubitrack.RollingFile.C98_truncate_refuted",
    "Ubitrack.RollingFile.C98_fewer_backups_refuted"
   ],
   "note": "Order, sizes, roll-over and frame are proved for all histories with crashes. A write cut short by a crash is the event `crash` with the part of the message that reached the disk. Missing: other failures of system calls are not modelled. Refuted: after a crash less than the promised amount is kept (C98_kept_crash_refuted); with 0 backups the limit has no effect (C98_no_backups_refuted); without appending, or with a number of backups that is reduced for some time, messages are missing in the middle (C98_truncate_refuted, C98_fewer_backups_refuted)."
  },
  {
   "property": "C99",
   "status": "partial",
   "theorems": [
    "Ubitrack.DiagnosticContext.C99_contexts",
    "Ubitrack.DiagnosticContext.C99_threads",
    "Ubitrack.DiagnosticContext.C99_nesting",
    "Ubitrack.DiagnosticContext.C99_inherit",
    "Ubitrack.DiagnosticContext.C99_pop_refuted"
   ],
   "note": "Proved for all interleavings. Refuted: leaving without a context, documented to give the empty string, is undefined behaviour (C99_pop_refuted)."
  },
  {
   "property": "C100",
   "status": "partial",
   "theorems": [
    "Ubitrack.Props.XmlEdit.C100_clone",
    "Ubitrack.Props.XmlEdit.C100_clone_document",
    "Ubitrack.Props.XmlEdit.C100_insert_end",
    "Ubitrack.Props.XmlEdit.C100_insert_before",
    "Ubitrack.Props.XmlEdit.C100_insert_after",
    "Ubitrack.Props.XmlEdit.C100_remove",
    "Ubitrack.Props.XmlEdit.C100_replace",
    "Ubitrack.Props.XmlEdit.C100_link",
    "Ubitrack.Props.XmlEdit.C100_refused",
    "Ubitrack.Props.XmlEdit.C100_find",
    "Ubitrack.Props.XmlEdit.C100_delete",
    "Ubitrack.Props.XmlEdit.C100_history",
    "Ubitrack.Props.XmlEdit.C100_link_again_refuted",
    "Ubitrack.Props.XmlEdit.C100_link_below_refuted",
    "Ubitrack.Props.XmlEdit.C100_document_refuted"
   ],
   "note": "Proved for all trees and histories, with trees to copy that have children below elements only (as the parser makes them) and no nameless attributes. Refuted: linking a child again, which the assertion allows, makes it its own successor (C100_link_again_refuted); linking a root below itself makes a cycle (C100_link_below_refuted); ReplaceChild accepts documents, which all other calls refuse (C100_document_refuted)."
  },
  {
   "property": "C101",
   "status": "partial",
   "theorems": [
    "Ubitrack.Props.XmlAttribute.C101_history",
    "Ubitrack.Props.XmlAttribute.C101_visited",
    "Ubitrack.Props.XmlAttribute.C101_visited_refuted",
    "Ubitrack.Props.XmlAttribute.C101_rename_refuted",
    "Ubitrack.Props.XmlAttribute.C101_int",
    "Ubitrack.Props.XmlAttribute.C101_missing",
    "Ubitrack.Props.XmlAttribute.C101_starts",
    "Ubitrack.Props.XmlAttribute.C101_wrong_type",
    "Ubitrack.Props.XmlAttribute.C101_wrong_type_refuted",
    "Ubitrack.Props.XmlAttribute.C101_double_partial",
    "Ubitrack.Props.XmlAttribute.C101_double_exact",
    "Ubitrack.Props.XmlAttribute.C101_double_refuted",
    "Ubitrack.Props.XmlAttribute.C101_double_large_refuted"
   ],
   "note": "The map, its order and integers are proved for all histories. Missing: doubles are rational numbers here, and are read back only up to half a millionth (C101_double_partial). Refuted: small doubles become 0 and large ones lose digits and magnitude (C101_double_refuted, C101_double_large_refuted); an attribute without name and value hides those behind it (C101_visited_refuted); 12.7 pixels is accepted as an integer (C101_wrong_type_refuted); renaming can give two attributes one name (C101_rename_refuted)."
  },
  {
   "property": "C102",
   "status": "partial",
   "theorems": [
    "Ubitrack.Xml.C102_layout",
    "Ubitrack.Xml.C102_file",
    "Ubitrack.Xml.C102_end_tag_refuted",
    "Ubitrack.Xml.C102_lines",
    "Ubitrack.Xml.C102_like_file",
    "Ubitrack.Xml.C102_print",
    "Ubitrack.Xml.C102_stream",
    "Ubitrack.Xml.C102_again",
    "Ubitrack.Xml.C102_mark_refuted"
   ],
   "note": "Proved for all well-formed documents and layouts (C102_layout, C102_file) and all printers with white space for indentation and line breaks (C102_print, C102_stream, C102_again; exact text: C102_lines, C102_like_file). Refuted: white space before the '>' of an end tag, which XML allows, is an error and what follows is lost (C102_end_tag_refuted); a printer does not print the byte order mark (C102_mark_refuted)."
  },
  {
   "property": "C103",
   "status": "partial",
   "theorems": [
    "Ubitrack.Xml.C103_read",
    "Ubitrack.Xml.C103_sequence",
    "Ubitrack.Xml.C103_out_in",
    "Ubitrack.Xml.C103_end",
    "Ubitrack.Xml.C103_comment_refuted",
    "Ubitrack.Xml.C103_inside_refuted",
    "Ubitrack.Xml.C103_declaration_refuted",
    "Ubitrack.Xml.C103_behind_refuted",
    "Ubitrack.Xml.C103_unknown_refuted",
    "Ubitrack.Xml.C103_null_refuted"
   ],
   "note": "Proved for all documents whose comments do not begin with '>' or '->', whose declaration has no '>' and whose unknown tags do not look like end tags (C103_read, C103_sequence, C103_out_in, C103_end). Refuted: such comments (C103_comment_refuted: the parser reads beyond the end; C103_inside_refuted: the next document is swallowed), such declarations (C103_declaration_refuted) and tags (C103_unknown_refuted); nodes behind the element stay in the stream (C103_behind_refuted); a null character in an element is an endless loop (C103_null_refuted)."
  },
  {
   "property": "C104",
   "status": "partial",
   "theorems": [
    "Ubitrack.SimpleConfigProps.C104_configure",
    "Ubitrack.SimpleConfigProps.C104_wrong",
    "Ubitrack.SimpleConfigProps.C104_short",
    "Ubitrack.SimpleConfigProps.C104_no_file",
    "Ubitrack.SimpleConfigProps.C104_incomplete_refuted",
    "Ubitrack.SimpleConfigProps.C104_facility_refuted",
    "Ubitrack.SimpleConfigProps.C104_long_pattern_refuted",
    "Ubitrack.SimpleConfigProps.C104_no_pattern_refuted",
    "Ubitrack.SimpleConfigProps.C104_remote_refuted"
   ],
   "note": "Proved for all files of complete commands (C104_configure), for wrong commands (C104_wrong) and for most files that end within a command (C104_short, C104_no_file). Refuted: a file that ends within the first words of an appender command is accepted (C104_incomplete_refuted); a facility left out, which has a default, ends the configuration silently (C104_facility_refuted), as does a pattern of more than 999 characters (C104_long_pattern_refuted); without a pattern, the next command is taken as the pattern (C104_no_pattern_refuted); the facility of a remote system log is not the number that a local one takes (C104_remote_refuted)."
  },
  {
   "property": "C105",
   "status": "partial",
   "theorems": [
    "Ubitrack.SyslogProps.C105_severity",
    "Ubitrack.SyslogProps.C105_packets",
    "Ubitrack.SyslogProps.C105_settings",
    "Ubitrack.SyslogProps.C105_local",
    "Ubitrack.SyslogProps.C105_address_refuted",
    "Ubitrack.SyslogProps.C105_unresolved_refuted",
    "Ubitrack.SyslogProps.C105_name_refuted",
    "Ubitrack.SyslogProps.C105_default_refuted"
   ],
   "note": "Proved: the packets for every message, without access outside of the buffer (C105_packets), the severities (C105_severity), the settings of the constructor (C105_settings), the local log (C105_local). Refuted: the packets go to another address than that of the host (C105_address_refuted), or to the standard input if the host is unknown (C105_unresolved_refuted); the name for the system log is not sent (C105_name_refuted); the default facility of a property file is negative (C105_default_refuted). Failures of system calls are not modelled."
  },
  {
   "property": "C106",
   "status": "partial",
   "theorems": [
    "Ubitrack.FixedContextProps.C106_delivery",
    "Ubitrack.FixedContextProps.C106_one_answer",
    "Ubitrack.FixedContextProps.C106_others",
    "Ubitrack.FixedContextProps.C106_own_priority_refuted",
    "Ubitrack.FixedContextProps.C106_root_refuted",
    "Ubitrack.FixedContextProps.C106_destroyed_refuted"
   ],
   "note": "Proved: C106_delivery for every history, C106_one_answer (there is exactly one priority in force), C106_others. Refuted: the priority of the category of the same name does not apply (C106_own_priority_refuted); an object for the root category logs everything (C106_root_refuted); a destroyed object is still called when the priority of the category above it is set (C106_destroyed_refuted). One object per history; several are not modelled."
  },
  {
   "property": "C107",
   "status": "partial",
   "theorems": [
    "Ubitrack.LogStreamProps.C107_messages",
    "Ubitrack.LogStreamProps.C107_disabled",
    "Ubitrack.LogStreamProps.C107_disabled_refuted",
    "Ubitrack.LogStreamProps.C107_empty_refuted",
    "Ubitrack.LogStreamProps.C107_copy_refuted",
    "Ubitrack.LogStreamProps.C107_streams"
   ],
   "note": "Proved for all programs in which eol and left are only used within a message: C107_messages (enabled), C107_disabled (not enabled, without eol, left and width), C107_streams (two streams in any order). Refuted: eol, left and width on a disabled stream dereference a null pointer (C107_disabled_refuted), eol and left at the start of a message do (C107_empty_refuted), copies of a stream share its buffer, which is then used after deletion (C107_copy_refuted). Values other than strings are taken as the characters they are printed as."
  },
  {
   "property": "C108",
   "status": "partial",
   "theorems": [
    "Ubitrack.FiltersProps.C108_decide",
    "Ubitrack.FiltersProps.C108_append",
    "Ubitrack.FiltersProps.C108_set",
    "Ubitrack.FiltersProps.C108_replace",
    "Ubitrack.FiltersProps.C108_same",
    "Ubitrack.FiltersProps.C108_circle_refuted",
    "Ubitrack.FiltersProps.C108_shorten_refuted",
    "Ubitrack.FiltersProps.C108_shared_refuted"
   ],
   "note": "Proved for chains without common filters: C108_decide, C108_append, C108_set, C108_same, C108_replace. Refuted for others: appending a filter that is in the chain already closes a circle, in which decide never returns (C108_circle_refuted); setting a filter from further down the chain as the next one deletes it (C108_shorten_refuted); a filter given to two appenders is deleted twice (C108_shared_refuted)."
  },
  {
   "property": "C109",
   "status": "partial",
   "theorems": [
    "Ubitrack.XmlHandleProps.C109_child",
    "Ubitrack.XmlHandleProps.C109_calls",
    "Ubitrack.XmlHandleProps.C109_negative_refuted",
    "Ubitrack.XmlHandleProps.C109_element"
   ],
   "note": "Proved: C109_calls for rows of calls in every sound tree (those of C100), C109_child for one call, C109_element. Refuted for negative indices, which lead to the first child (C109_negative_refuted)."
  },
  {
   "property": "C110",
   "status": "partial",
   "theorems": [
    "Ubitrack.LogTextProps.C110_basic",
    "Ubitrack.LogTextProps.C110_simple",
    "Ubitrack.LogTextProps.C110_lines",
    "Ubitrack.LogTextProps.C110_forged_refuted",
    "Ubitrack.LogTextProps.C110_category_refuted",
    "Ubitrack.LogTextProps.C110_priority_refuted"
   ],
   "note": "Proved: C110_basic if no field contains its separator, C110_simple for all events, C110_lines if no field contains a line break. Refuted otherwise: a message with a line break looks like two events (C110_forged_refuted), a blank in a category's name (C110_category_refuted), priorities between the levels (C110_priority_refuted)."
  },
  {
   "property": "C111",
   "status": "partial",
   "theorems": [
    "Ubitrack.LogTextProps.C111_formatted",
    "Ubitrack.LogTextProps.C111_long_refuted",
    "Ubitrack.LogTextProps.C111_null_refuted",
    "Ubitrack.LogTextProps.C111_queue",
    "Ubitrack.LogTextProps.C111_pop",
    "Ubitrack.LogTextProps.C111_empty_refuted"
   ],
   "note": "Proved: C111_formatted for texts of less than 1024 characters without null characters, C111_queue and C111_pop for all histories. Refuted: longer texts and conversion errors use the list of arguments twice, which is undefined behaviour (C111_long_refuted); a null character ends the message (C111_null_refuted); an empty message cannot be told from an empty queue (C111_empty_refuted)."
  },
  {
   "property": "C112",
   "status": "proved",
   "theorems": [
    "Ubitrack.C112_equality",
    "Ubitrack.C112_equivalence",
    "Ubitrack.C112_motion",
    "Ubitrack.C112_inverse"
   ],
   "note": "Comparison is exact on numbers; NaN and rounding are not modelled. Only the sign of the quaternion separates poses that move all points alike."
  },
  {
   "property": "C113",
   "status": "partial",
   "theorems": [
    "Ubitrack.TSync.C113_forward_partial",
    "Ubitrack.TSync.C113_backwards_refuted",
    "Ubitrack.TSyncLS.C113_least_squares_refuted",
    "Ubitrack.TSyncLS.C113_least_squares_warmup"
   ],
   "note": "Holds for every event that is not received before the time returned last, with a non-negative estimated ratio of the clocks; refuted for a burst of three events with increasing sensor times and increasing times of receipt (C113_backwards_refuted): the estimate is ahead of the clock after the second event and is corrected backwards by the third. The least-squares synchronisation keeps the order for its first eleven events; the twelfth is refuted (C113_least_squares_refuted)."
  }
 ]
}