{
 "claims": [
  {
   "property": "C01",
   "status": "partial",
   "theorems": [
    "Verif.Tsc.C01_index_partial",
    "Verif.Tsc.C01_index_violated",
    "Verif.Tsc.C01_columns",
    "Verif.Tsc.C01_typed"
   ],
   "note": "Accepted iff valid, for indices without NaN/NaT time values; the constructor accepts NaN float times (C01_index_violated). Columns and typed constructor: full equivalence."
  },
  {
   "property": "C02",
   "status": "proved",
   "theorems": [
    "Verif.Tsc.C02_from_tensor",
    "Verif.Tsc.C02_default",
    "Verif.Tsc.C02_rejects"
   ],
   "note": "sort_index(level=0) is the lexicographic sort"
  },
  {
   "property": "C03",
   "status": "partial",
   "theorems": [
    "Verif.Tsc.C03_shift_matrices_partial",
    "Verif.Tsc.C03_rejects",
    "Verif.Tsc.C03_violated"
   ],
   "note": "Holds if IDs ascend in the index or all series have equal length; violated for unsorted IDs with unequal lengths (C03_violated). The constant-delta check is separate (C11)."
  },
  {
   "property": "C04",
   "status": "partial",
   "theorems": [
    "Verif.Tsc.C04_round_trip",
    "Verif.Tsc.C04_rejects",
    "Verif.Tsc.C04_orientation_partial",
    "Verif.Tsc.C04_transpose",
    "Verif.Tsc.C04_shapes",
    "Verif.Tsc.C04_complex_violated",
    "Verif.Tsc.C04_case_violated"
   ],
   "note": "Proved for real arrays of every shape in both orientations. The imaginary parts of complex arrays are discarded; the name of the orientation may be written in capitals only when a collection is made, not when it is read."
  },
  {
   "property": "C05",
   "status": "proved",
   "theorems": [
    "Verif.Tsc.C05_accepts",
    "Verif.Tsc.C05_step",
    "Verif.Tsc.C05_history"
   ],
   "note": "any history of insertions"
  },
  {
   "property": "C06",
   "status": "proved",
   "theorems": [
    "Verif.Tsc.C06_initial",
    "Verif.Tsc.C06_final"
   ],
   "note": ""
  },
  {
   "property": "C07",
   "status": "partial",
   "theorems": [
    "Verif.Tsc.C07_drop_last",
    "Verif.Tsc.C07_rejects",
    "Verif.Tsc.C07_nonnegative_partial",
    "Verif.Tsc.C07_negative_violated"
   ],
   "note": "Proved for all non-negative n. Negative n are accepted and drop_last_n_samples(-k) keeps the first k samples of each series."
  },
  {
   "property": "C08",
   "status": "proved",
   "theorems": [
    "Verif.Tsc.C08_assign_ids_sequential"
   ],
   "note": ""
  },
  {
   "property": "C09",
   "status": "proved",
   "theorems": [
    "Verif.Tsc.C09_description",
    "Verif.Tsc.C09_degenerate"
   ],
   "note": ""
  },
  {
   "property": "C10",
   "status": "proved",
   "theorems": [
    "Verif.Tsc.C10_same_time_values"
   ],
   "note": ""
  },
  {
   "property": "C11",
   "status": "partial",
   "theorems": [
    "Verif.Tsc.C11_int_partial",
    "Verif.Tsc.C11_regular",
    "Verif.Tsc.C11_per_id_partial",
    "Verif.Tsc.C11_all_irregular",
    "Verif.Tsc.C11_datetime_partial",
    "Verif.Tsc.C11_datetime_violated",
    "Verif.Tsc.C11_tolerance_violated",
    "Verif.Tsc.C11_labels_violated"
   ],
   "note": "Regular collections of any interval; integer time with moderate steps: full equivalence. Violated for datetimes, for huge steps (tolerance) and for unsorted IDs of equal length."
  },
  {
   "property": "C12",
   "status": "partial",
   "theorems": [
    "Verif.Tsc.C12_normalize",
    "Verif.Tsc.C12_is_normalized",
    "Verif.Tsc.C12_rejects",
    "Verif.Tsc.C12_tolerance_violated"
   ],
   "note": "Integer time. Constantly sampled collections: all intervals. Rejection of others and is_normalized_time: intervals below 3e11; above, the tolerance of C11 accepts different intervals as equal."
  },
  {
   "property": "C13",
   "status": "proved",
   "theorems": [
    "Verif.Tsc.C13_per_series",
    "Verif.Tsc.C13_global",
    "Verif.Tsc.C13_windows",
    "Verif.Tsc.C13_rejects"
   ],
   "note": "integer/datetime time; the global variant for ascending IDs (pandas' selection order)"
  },
  {
   "property": "C14",
   "status": "proved",
   "theorems": [
    "Verif.Tsc.C14_kfold_series",
    "Verif.Tsc.C14_accepts"
   ],
   "note": "with and without shuffling (any order of the series)"
  },
  {
   "property": "C15",
   "status": "proved",
   "theorems": [
    "Verif.Tsc.C15_kfold_time",
    "Verif.Tsc.C15_accepts"
   ],
   "note": ""
  },
  {
   "property": "C16",
   "status": "proved",
   "theorems": [
    "Verif.Tsc.C16_train_test",
    "Verif.Tsc.C16_accepts"
   ],
   "note": ""
  },
  {
   "property": "C17",
   "status": "proved",
   "theorems": [
    "Verif.Tsc.C17_const_delta",
    "Verif.Tsc.C17_total"
   ],
   "note": "integer/datetime time values, exact arithmetic"
  },
  {
   "property": "C18",
   "status": "proved",
   "theorems": [
    "Verif.Takens.C18_takens",
    "Verif.Takens.C18_accepts",
    "Verif.Takens.C18_kappa"
   ],
   "note": "exact arithmetic; integer and datetime time values"
  },
  {
   "property": "C19",
   "status": "proved",
   "theorems": [
    "Verif.Takens.C19_round_trip"
   ],
   "note": ""
  },
  {
   "property": "C20",
   "status": "proved",
   "theorems": [
    "Verif.Transform.C20_apply_lambdas"
   ],
   "note": "lambdas keep the number of samples; the order advertised by get_feature_names_out is C65"
  },
  {
   "property": "C21",
   "status": "proved",
   "theorems": [
    "Verif.Takens.C21_delay_indices",
    "Verif.Takens.C21_accepts"
   ],
   "note": ""
  },
  {
   "property": "C22",
   "status": "partial",
   "theorems": [
    "Verif.Utils.C22_projection_partial",
    "Verif.Utils.C22_in_order",
    "Verif.Utils.C22_rejects",
    "Verif.Utils.C22_projection_violated"
   ],
   "note": "the order of the selection is ignored: violated for re-ordered selections"
  },
  {
   "property": "C23",
   "status": "partial",
   "theorems": [
    "Verif.Utils.C23_permutation",
    "Verif.Utils.C23_order",
    "Verif.Utils.C23_magnitude_partial",
    "Verif.Utils.C23_magnitude_violated"
   ],
   "note": "sorted by complex value, not magnitude; agrees for non-negative real eigenvalues only"
  },
  {
   "property": "C24",
   "status": "partial",
   "theorems": [
    "Verif.Utils.C24_is_integer_partial",
    "Verif.Utils.C24_is_integer_violated",
    "Verif.Utils.C24_is_scalar"
   ],
   "note": "floats of Python in (-1,1), inf and nan raise, the zero of numpy is not recognised"
  },
  {
   "property": "C64",
   "status": "proved",
   "theorems": [
    "Verif.Utils.C64_random_subsample"
   ],
   "note": ""
  },
  {
   "property": "C65",
   "status": "partial",
   "theorems": [
    "Verif.Transform.C65_takens",
    "Verif.Transform.C65_identity",
    "Verif.Transform.C65_moving_average",
    "Verif.Transform.C65_feature_select",
    "Verif.Transform.C65_lambdas_partial",
    "Verif.Transform.C65_lambdas_violated",
    "Verif.Transform.C65_finite_difference_violated",
    "Verif.Transform.C65_identity_violated"
   ],
   "note": "violated by TSCApplyLambdas, TSCFiniteDifference and TSCIdentity(include_const) with a feature named const"
  },
  {
   "property": "C66",
   "status": "partial",
   "theorems": [
    "Verif.Transform.C66_identity_partial",
    "Verif.Transform.C66_identity_violated"
   ],
   "note": "violated with rename_features=True"
  },
  {
   "property": "C67",
   "status": "partial",
   "theorems": [
    "Verif.Transform.C67_refit_partial",
    "Verif.Transform.C67_refit_violated"
   ],
   "note": "the attributes of the first fit are kept"
  },
  {
   "property": "C68",
   "status": "partial",
   "theorems": [
    "Verif.Transform.C68_argument_partial",
    "Verif.Transform.C68_argument_violated"
   ],
   "note": "integer labels of the argument become strings"
  },
  {
   "property": "C69",
   "status": "proved",
   "theorems": [
    "Verif.Transform.C69_moving_average"
   ],
   "note": "exact arithmetic"
  },
  {
   "property": "C70",
   "status": "proved",
   "theorems": [
    "Verif.Utils.C70_diag_products"
   ],
   "note": ""
  },
  {
   "property": "C71",
   "status": "partial",
   "theorems": [
    "Verif.Utils.C71_remove_noise",
    "Verif.Utils.C71_sparse_partial",
    "Verif.Utils.C71_sparse_violated",
    "Verif.Utils.C71_stored_zero_violated"
   ],
   "note": "sparse matrices with non-symmetric structure are wrong (noted in the code)"
  },
  {
   "property": "C25",
   "status": "partial",
   "theorems": [
    "Verif.Dyn.C25_honours_partial",
    "Verif.Dyn.C25_accepts",
    "Verif.Dyn.C25_violated"
   ],
   "note": "violated for controlled differential systems in matrix mode: the control input is ignored"
  },
  {
   "property": "C26",
   "status": "proved",
   "theorems": [
    "Verif.Dyn.C26_flowmap",
    "Verif.Dyn.C26_semigroup",
    "Verif.Dyn.C26_rejects",
    "Verif.Dyn.C26_differential"
   ],
   "note": "time values at multiples of the sampling rate (fractional powers not modelled); differential systems at all real times"
  },
  {
   "property": "C27",
   "status": "proved",
   "theorems": [
    "Verif.Dyn.C27_flowmap",
    "Verif.Dyn.C27_differential"
   ],
   "note": "exact complex arithmetic; spectral states by left eigenvectors or least squares"
  },
  {
   "property": "C28",
   "status": "proved",
   "theorems": [
    "Verif.Dyn.C28_controlled",
    "Verif.Dyn.C28_causal",
    "Verif.Dyn.C28_spectral_controlled"
   ],
   "note": "series of U in ascending ID order (see C72)"
  },
  {
   "property": "C29",
   "status": "partial",
   "theorems": [
    "Verif.Dyn.C29_format_partial",
    "Verif.Dyn.C29_violated"
   ],
   "note": "violated for unsigned integers (wrap around) and datetimes more than 292 years apart; the prepended reference is C74"
  },
  {
   "property": "C72",
   "status": "partial",
   "theorems": [
    "Verif.Dyn.C28_controlled",
    "Verif.Dyn.C72_violated"
   ],
   "note": "violated if the series inside U are not in ascending ID order"
  },
  {
   "property": "C73",
   "status": "partial",
   "theorems": [
    "Verif.Dyn.C73_regular_partial",
    "Verif.Dyn.C73_only_length_counts",
    "Verif.Dyn.C73_violated"
   ],
   "note": "Proved for time values spaced by the interval of the model (integer time, control series with ascending IDs and equal time values). Violated otherwise: the code ignores the spacing of the time values, only their number counts."
  },
  {
   "property": "C74",
   "status": "partial",
   "theorems": [
    "Verif.Dyn.C74_given",
    "Verif.Dyn.C74_given_control",
    "Verif.Dyn.C74_default",
    "Verif.Dyn.C74_rejects",
    "Verif.Dyn.C74_default_control",
    "Verif.Dyn.C74_array_partial",
    "Verif.Dyn.C74_array_violated"
   ],
   "note": "violated for floating point time with an array of control inputs: one time value too many"
  },
  {
   "property": "C75",
   "status": "partial",
   "theorems": [
    "Verif.Dyn.C75_left_partial",
    "Verif.Dyn.C75_violated"
   ],
   "note": "violated for singular system matrices"
  },
  {
   "property": "C76",
   "status": "partial",
   "theorems": [
    "Verif.Dyn.C76_violated"
   ],
   "note": "the code rejects every array; the negation is proved"
  },
  {
   "property": "C30",
   "status": "partial",
   "theorems": [
    "Verif.Dmd.C30_least_squares_partial",
    "Verif.Dmd.C30_exists",
    "Verif.Dmd.C30_recovery_partial",
    "Verif.Dmd.C30_reconstruct",
    "Verif.Dmd.C30_reconstruct_spectral",
    "Verif.Dmd.C30_order_violated"
   ],
   "note": "Full rank case in exact arithmetic: every minimiser recovers the system if the IDs ascend or all series are equally long. Otherwise snapshots of different series are paired and the system is not recovered. The reduced rank variant is C78."
  },
  {
   "property": "C31",
   "status": "partial",
   "theorems": [
    "Verif.Dmd.C31_least_squares_partial",
    "Verif.Dmd.C31_recovery_partial",
    "Verif.Dmd.C31_rejects",
    "Verif.Dmd.C31_order_violated"
   ],
   "note": "Exact arithmetic; a fit is any least squares solution. True if the IDs ascend or all series are equally long; otherwise snapshots of different series are paired (see C03) and the matrices are wrong."
  },
  {
   "property": "C77",
   "status": "proved",
   "theorems": [
    "Verif.Tsc.C77_iter",
    "Verif.Tsc.C77_reconstruct",
    "Verif.Tsc.C77_mixed_partial"
   ],
   "note": "series with a constant sampling interval; a single sample per initial condition or n samples. C77_mixed_partial: every series has its own interval (below 3e11, IDs in ascending order or series of different lengths, see C11)."
  },
  {
   "property": "C78",
   "status": "proved",
   "theorems": [
    "Verif.Dmd.C78_exact",
    "Verif.Dmd.C78_projected",
    "Verif.Dmd.C78_recovery",
    "Verif.Dmd.C78_predict"
   ],
   "note": "exact arithmetic; the singular value decomposition and the eigenbasis are given"
  },
  {
   "property": "C79",
   "status": "partial",
   "theorems": [
    "Verif.Dmd.C79_measures",
    "Verif.Dmd.C79_filter_partial",
    "Verif.Dmd.C79_violated"
   ],
   "note": "violated: the filter tests the modes instead of the coefficients of the eigenfunctions; correct for left eigenvectors (e.g. symmetric matrices)"
  },
  {
   "property": "C80",
   "status": "partial",
   "theorems": [
    "Verif.Dmd.C80_generator_partial",
    "Verif.Dmd.C80_prediction",
    "Verif.Dmd.C80_violated"
   ],
   "note": "violated at the initial time if the flow map has an eigenvalue zero (nan)"
  },
  {
   "property": "C81",
   "status": "proved",
   "theorems": [
    "Verif.Dmd.C81_least_squares",
    "Verif.Dmd.C81_recovery"
   ],
   "note": "for given time derivatives"
  },
  {
   "property": "C32",
   "status": "partial",
   "theorems": [
    "Verif.Dmd.C32_batch_partial",
    "Verif.Dmd.C32_cut",
    "Verif.Dmd.C32_ready",
    "Verif.Dmd.C32_exists",
    "Verif.Dmd.C32_default_partial",
    "Verif.Dmd.C32_default_violated",
    "Verif.Dmd.C32_deficient_violated"
   ],
   "note": "exact arithmetic. Holds for models started with a batch whose states span the space; violated by the default start (random matrix with a small penalty, what it minimises is proved) and by rank deficient batches (never updated again)"
  },
  {
   "property": "C33",
   "status": "partial",
   "theorems": [
    "Verif.Dmd.C33_rank",
    "Verif.Dmd.C33_batch_partial",
    "Verif.Dmd.C33_recovery",
    "Verif.Dmd.C33_modes",
    "Verif.Dmd.C33_compressed",
    "Verif.Dmd.C33_compressed_y",
    "Verif.Dmd.C33_keeps_smallest",
    "Verif.Dmd.C33_violated"
   ],
   "note": "the rank bound holds; violated: the compression keeps the directions with the smallest eigenvalues. Without compression (tolerance 0) streaming equals the projected batch method"
  },
  {
   "property": "C82",
   "status": "partial",
   "theorems": [
    "Verif.Dmd.C82_pairs_partial",
    "Verif.Dmd.C82_violated"
   ],
   "note": "violated if the first series of the first call has more than two samples: one pair is lost"
  },
  {
   "property": "C34",
   "status": "partial",
   "theorems": [
    "Verif.Edmd.C34_matrix_mode",
    "Verif.Edmd.C34_matrix_values",
    "Verif.Edmd.C34_spectral_values",
    "Verif.Edmd.C34_spectral_partial",
    "Verif.Edmd.C34_spectral_iff",
    "Verif.Edmd.C34_rejects",
    "Verif.Edmd.C34_violated"
   ],
   "note": "matrix mode is right for all selections; spectral mode exactly for selections in the order of the features, other orders are mislabelled"
  },
  {
   "property": "C35",
   "status": "partial",
   "theorems": [
    "Verif.Edmd.C35_reconstruct_partial",
    "Verif.Edmd.C35_violated",
    "Verif.Edmd.C35_violated_unsorted"
   ],
   "note": "holds for ascending IDs and series that do not get shorter; violated otherwise: predictions are written to the wrong series"
  },
  {
   "property": "C36",
   "status": "partial",
   "theorems": [
    "Verif.Edmd.C36_accepts_iff",
    "Verif.Edmd.C36_partial",
    "Verif.Edmd.C36_violated"
   ],
   "note": "the exact decision is proved; violated with include_id_state=False and dictionaries that hold the states"
  },
  {
   "property": "C37",
   "status": "proved",
   "theorems": [
    "Verif.Edmd.C37_prediction",
    "Verif.Edmd.C37_dictionary",
    "Verif.Edmd.C37_sorted",
    "Verif.Edmd.C37_importance"
   ],
   "note": ""
  },
  {
   "property": "C83",
   "status": "partial",
   "theorems": [
    "Verif.Edmd.C83_attached",
    "Verif.Edmd.C83_preserved_partial",
    "Verif.Edmd.C83_violated"
   ],
   "note": "violated for dictionaries that hold the states in another order than the input"
  },
  {
   "property": "C84",
   "status": "partial",
   "theorems": [
    "Verif.Edmd.C84_recovery_partial",
    "Verif.Edmd.C84_prediction_partial",
    "Verif.Edmd.C84_modes",
    "Verif.Edmd.C84_order_violated"
   ],
   "note": "Exact arithmetic; point-wise dictionaries. True if the IDs ascend or all series are equally long; otherwise snapshots of different series are paired (see C03) and the model is wrong."
  },
  {
   "property": "C85",
   "status": "partial",
   "theorems": [
    "Verif.Edmd.C85_shift_partial",
    "Verif.Edmd.C85_nonneg",
    "Verif.Edmd.C85_violated",
    "Verif.Edmd.C85_violated_silent"
   ],
   "note": "ascending IDs or equal lengths; violated otherwise"
  },
  {
   "property": "C86",
   "status": "partial",
   "theorems": [
    "Verif.Edmd.C86_unchanged_partial",
    "Verif.Edmd.C86_violated",
    "Verif.Edmd.C86_shift_mutates"
   ],
   "note": "true if reconstruct returns; violated if a prediction raises"
  },
  {
   "property": "C38",
   "status": "proved",
   "theorems": [
    "Verif.Mpc.C38_prediction"
   ],
   "note": "exact arithmetic"
  },
  {
   "property": "C39",
   "status": "partial",
   "theorems": [
    "Verif.Mpc.C39_objective_partial",
    "Verif.Mpc.C39_optimal_partial",
    "Verif.Mpc.C39_unique",
    "Verif.Mpc.C39_exists",
    "Verif.Mpc.C39_default",
    "Verif.Mpc.C39_violated"
   ],
   "note": "exact arithmetic; the QP solver is a relation (returns a minimiser if there is one). Violated for a terminal cost of zero, which is replaced by the running cost"
  },
  {
   "property": "C40",
   "status": "partial",
   "theorems": [
    "Verif.Mpc.C40_feasible_partial",
    "Verif.Mpc.C40_violated"
   ],
   "note": "holds for bounds given as (min, max); with the documented order (max, min) nothing is feasible"
  },
  {
   "property": "C41",
   "status": "partial",
   "theorems": [
    "Verif.Mpc.C41_state_iff",
    "Verif.Mpc.C41_input_iff",
    "Verif.Mpc.C41_violated"
   ],
   "note": "the gradients are right exactly for weights 0 and 1"
  },
  {
   "property": "C87",
   "status": "partial",
   "theorems": [
    "Verif.Mpc.C87_selection_iff",
    "Verif.Mpc.C87_violated"
   ],
   "note": "right exactly if the selection is in the order of the features"
  },
  {
   "property": "C88",
   "status": "partial",
   "theorems": [
    "Verif.Mpc.C88_optimal_partial",
    "Verif.Mpc.C88_violated"
   ],
   "note": "one input and a target at rest; violated (exception) for several inputs"
  },
  {
   "property": "C89",
   "status": "proved",
   "theorems": [
    "Verif.Mpc.C89_affine_bounds"
   ],
   "note": ""
  },
  {
   "property": "C42",
   "status": "proved",
   "theorems": [
    "Verif.Kernel.C42_pairwise",
    "Verif.Kernel.C42_componentwise",
    "Verif.Kernel.C42_sparse",
    "Verif.Kernel.C42_rejects"
   ],
   "note": "exact arithmetic"
  },
  {
   "property": "C43",
   "status": "proved",
   "theorems": [
    "Verif.Kernel.C43_conjugate",
    "Verif.Kernel.C43_onto"
   ],
   "note": "exact arithmetic"
  },
  {
   "property": "C44",
   "status": "partial",
   "theorems": [
    "Verif.Kernel.C44_agree",
    "Verif.Kernel.C44_gaussian",
    "Verif.Kernel.C44_embedding_partial",
    "Verif.Kernel.C44_violated",
    "Verif.Kernel.C44_violated_silent"
   ],
   "note": "exact arithmetic; transform and fit_transform always have the same outcome; violated: with a time exponent and target coordinates both raise or silently scale with the wrong eigenvalues"
  },
  {
   "property": "C45",
   "status": "proved",
   "theorems": [
    "Verif.Kernel.C45_gaussian",
    "Verif.Kernel.C45_matrix",
    "Verif.Kernel.C45_rejects",
    "Verif.Kernel.C45_sparse"
   ],
   "note": "exact arithmetic; also positive semi-definite"
  },
  {
   "property": "C46",
   "status": "partial",
   "theorems": [
    "Verif.Kernel.C46_scale_partial",
    "Verif.Kernel.C46_sqrt_two",
    "Verif.Kernel.C46_violated"
   ],
   "note": "violated for all tolerances and cut-offs: the kernel is sqrt(tol) at the cut-off"
  },
  {
   "property": "C90",
   "status": "partial",
   "theorems": [
    "Verif.Kernel.C90_outlier_partial",
    "Verif.Kernel.C90_accepts",
    "Verif.Kernel.C90_violated"
   ],
   "note": "true for alpha = 0; violated for alpha > 0"
  },
  {
   "property": "C91",
   "status": "proved",
   "theorems": [
    "Verif.Kernel.C91_spectrum",
    "Verif.Kernel.C91_psd",
    "Verif.Kernel.C91_gaussian"
   ],
   "note": "real eigenvalues"
  },
  {
   "property": "C92",
   "status": "partial",
   "theorems": [
    "Verif.Kernel.C92_preimage_partial",
    "Verif.Kernel.C92_rejects",
    "Verif.Kernel.C92_violated"
   ],
   "note": "violated for time exponents other than zero"
  },
  {
   "property": "C93",
   "status": "partial",
   "theorems": [
    "Verif.Kernel.C93_refit_partial",
    "Verif.Kernel.C93_violated",
    "Verif.Kernel.C93_violated_example"
   ],
   "note": "violated: the coefficients of the first fit are kept"
  },
  {
   "property": "C94",
   "status": "proved",
   "theorems": [
    "Verif.Kernel.C94_target_coords",
    "Verif.Kernel.C94_sorted"
   ],
   "note": ""
  },
  {
   "property": "C95",
   "status": "partial",
   "theorems": [
    "Verif.Kernel.C95_first_partial",
    "Verif.Kernel.C95_violated",
    "Verif.Kernel.C95_violated_example"
   ],
   "note": "violated: the first value replaces the callable"
  },
  {
   "property": "C96",
   "status": "proved",
   "theorems": [
    "Verif.Kernel.C96_inverse",
    "Verif.Kernel.C96_growing",
    "Verif.Kernel.C96_thinplate"
   ],
   "note": "exact arithmetic"
  },
  {
   "property": "C55",
   "status": "proved",
   "theorems": [
    "Verif.Kernel.C55_projection",
    "Verif.Kernel.C55_orthonormal",
    "Verif.Kernel.C55_extension",
    "Verif.Kernel.C55_zero_eigenvalue"
   ],
   "note": "exact arithmetic; eigensolver as relation"
  },
  {
   "property": "C56",
   "status": "partial",
   "theorems": [
    "Verif.Kernel.C56_scaled",
    "Verif.Kernel.C56_agree_partial",
    "Verif.Kernel.C56_violated",
    "Verif.Kernel.C56_selected"
   ],
   "note": "agreement for time exponent zero; violated otherwise because fit_transform does not scale with the singular values"
  },
  {
   "property": "C57",
   "status": "partial",
   "theorems": [
    "Verif.Kernel.C57_threshold",
    "Verif.Kernel.C57_dim",
    "Verif.Kernel.C57_dim_first_partial",
    "Verif.Kernel.C57_violated"
   ],
   "note": "strategy dim leaves out the first eigenvector if enough later residuals exceed one"
  },
  {
   "property": "C97",
   "status": "partial",
   "theorems": [
    "Verif.Kernel.C97_reproduces_iff",
    "Verif.Kernel.C97_violated"
   ],
   "note": "holds exactly if the eigenvectors are orthonormal"
  },
  {
   "property": "C98",
   "status": "partial",
   "theorems": [
    "Verif.Kernel.C98_shape_partial",
    "Verif.Kernel.C98_violated"
   ],
   "note": "squeezed if there is one sample or one target"
  },
  {
   "property": "C99",
   "status": "partial",
   "theorems": [
    "Verif.Kernel.C99_score_partial",
    "Verif.Kernel.C99_violated"
   ],
   "note": "sample weights are ignored"
  },
  {
   "property": "C100",
   "status": "proved",
   "theorems": [
    "Verif.Kernel.C100_dense",
    "Verif.Kernel.C100_sparse"
   ],
   "note": ""
  },
  {
   "property": "C101",
   "status": "partial",
   "theorems": [
    "Verif.Kernel.C101_graph_partial",
    "Verif.Kernel.C101_violated_one",
    "Verif.Kernel.C101_violated_all"
   ],
   "note": "violated for k_neighbor=1 and for k_neighbor equal to the number of points"
  },
  {
   "property": "C102",
   "status": "proved",
   "theorems": [
    "Verif.Kernel.C102_diffusion",
    "Verif.Kernel.C102_outlier"
   ],
   "note": "exact arithmetic; svd as relation"
  },
  {
   "property": "C103",
   "status": "partial",
   "theorems": [
    "Verif.Kernel.C103_violated"
   ],
   "note": "violated for every alpha > 0: the call raises"
  },
  {
   "property": "C104",
   "status": "proved",
   "theorems": [
    "Verif.Kernel.C104_dependent",
    "Verif.Kernel.C104_nonneg"
   ],
   "note": "exact arithmetic; without subsampling"
  },
  {
   "property": "C47",
   "status": "proved",
   "theorems": [
    "Verif.Dist.C47_stored",
    "Verif.Dist.C47_diagonal"
   ],
   "note": "exact arithmetic"
  },
  {
   "property": "C48",
   "status": "partial",
   "theorems": [
    "Verif.Dist.C48_brute",
    "Verif.Dist.C48_brute_rejects",
    "Verif.Dist.C48_tree",
    "Verif.Dist.C48_agree_partial",
    "Verif.Dist.C48_violated",
    "Verif.Dist.C48_cut_off"
   ],
   "note": "violated exactly if a distance equals the cut-off"
  },
  {
   "property": "C49",
   "status": "partial",
   "theorems": [
    "Verif.Dist.C49_pairwise_partial",
    "Verif.Dist.C49_same_partial",
    "Verif.Dist.C49_violated",
    "Verif.Dist.C49_violated_example"
   ],
   "note": "violated: component-wise calls reuse the points of an earlier call"
  },
  {
   "property": "C50",
   "status": "partial",
   "theorems": [
    "Verif.Dist.C50_count",
    "Verif.Dist.C50_euclidean_partial",
    "Verif.Dist.C50_handle_partial",
    "Verif.Dist.C50_violated",
    "Verif.Dist.C50_dense_violated",
    "Verif.Dist.C50_rejects"
   ],
   "note": "true for the Euclidean metric; violated for squared distances; exception without cut-off"
  },
  {
   "property": "C51",
   "status": "partial",
   "theorems": [
    "Verif.Dist.C51_setter_partial",
    "Verif.Dist.C51_violated"
   ],
   "note": "violated for every argument: default settings are used; only the setter works"
  },
  {
   "property": "C52",
   "status": "partial",
   "theorems": [
    "Verif.Dist.C52_range_partial",
    "Verif.Dist.C52_dense_partial",
    "Verif.Dist.C52_rejects",
    "Verif.Dist.C52_violated_range",
    "Verif.Dist.C52_violated_dense"
   ],
   "note": "violated: a point counts as its own neighbour with a cut-off; duplicates are not counted without"
  },
  {
   "property": "C53",
   "status": "partial",
   "theorems": [
    "Verif.Dist.C53_greedy_partial",
    "Verif.Dist.C53_cover",
    "Verif.Dist.C53_violated",
    "Verif.Dist.C53_violated_one",
    "Verif.Dist.C53_violated_default"
   ],
   "note": "violated: the loop stops at a block that adds nothing; exception without cut-off and for blocks of one point"
  },
  {
   "property": "C105",
   "status": "partial",
   "theorems": [
    "Verif.Dist.C105_pairwise",
    "Verif.Dist.C105_componentwise",
    "Verif.Dist.C105_one"
   ],
   "note": "violated only for k=1 in the pair-wise case, which is rejected"
  },
  {
   "property": "C106",
   "status": "partial",
   "theorems": [
    "Verif.Dist.C106_select_partial",
    "Verif.Dist.C106_violated",
    "Verif.Dist.C106_required",
    "Verif.Dist.C106_options_dropped"
   ],
   "note": "violated for the nearest neighbour algorithm; options dropped by guess_optimal"
  },
  {
   "property": "C107",
   "status": "partial",
   "theorems": [
    "Verif.Dist.C107_default_partial",
    "Verif.Dist.C107_violated_kmin",
    "Verif.Dist.C107_violated_tree"
   ],
   "note": "only the cut-off with the default algorithm is used"
  },
  {
   "property": "C108",
   "status": "partial",
   "theorems": [
    "Verif.Dist.C108_new_partial",
    "Verif.Dist.C108_violated"
   ],
   "note": "violated for slices"
  },
  {
   "property": "C54",
   "status": "partial",
   "theorems": [
    "Verif.Kernel.C54_residual_partial",
    "Verif.Kernel.C54_residual",
    "Verif.Kernel.C54_violated"
   ],
   "note": "full for tolerances >= 1e-15; violated below because of the hard-coded threshold"
  },
  {
   "property": "C109",
   "status": "partial",
   "theorems": [
    "Verif.Kernel.C109_distinct_partial",
    "Verif.Kernel.C109_violated",
    "Verif.Kernel.C109_violated_auto"
   ],
   "note": "proved for pairwise distinct points, mu>1, no auto-adaptive mode; violated for coinciding points with different targets and in auto-adaptive mode for a constant target"
  },
  {
   "property": "C110",
   "status": "proved",
   "theorems": [
    "Verif.Kernel.C110_loocv"
   ],
   "note": ""
  },
  {
   "property": "C58",
   "status": "proved",
   "theorems": [
    "Verif.Kernel.C58_orthonormal"
   ],
   "note": "two splits; SVD as a relation"
  },
  {
   "property": "C111",
   "status": "proved",
   "theorems": [
    "Verif.Kernel.C111_energy"
   ],
   "note": ""
  },
  {
   "property": "C112",
   "status": "partial",
   "theorems": [
    "Verif.Kernel.C112_nystrom_partial",
    "Verif.Kernel.C112_violated"
   ],
   "note": "violated: factor (1+sigma)/2; rejected if fewer functions than requested"
  },
  {
   "property": "C59",
   "status": "proved",
   "theorems": [
    "Verif.Utils.C59_stop",
    "Verif.Utils.C59_best",
    "Verif.Utils.C59_stays"
   ],
   "note": ""
  },
  {
   "property": "C113",
   "status": "partial",
   "theorems": [
    "Verif.Utils.C113_diverging_partial",
    "Verif.Utils.C113_violated_drift",
    "Verif.Utils.C113_violated_nan"
   ],
   "note": "violated for delta>0 and nan"
  },
  {
   "property": "C60",
   "status": "partial",
   "theorems": [
    "Verif.Utils.C60_channels_partial",
    "Verif.Utils.C60_last_column",
    "Verif.Utils.C60_violated"
   ],
   "note": "Holds for one channel and for one-step predictions; with several channels and several steps every channel receives the last column (late binding of the loop variable), proved for all inputs and with a witness. The ODE solver is not modelled."
  },
  {
   "property": "C61",
   "status": "partial",
   "theorems": [
    "Verif.Utils.C61_rk4_partial",
    "Verif.Utils.C61_linear_partial",
    "Verif.Utils.C61_violated"
   ],
   "note": "False: the fourth stage is evaluated at k1 instead of k3. Proved: exactly when the step is still the classical one, its expansion for linear systems (correct to second order only), and a witness for the DC motor."
  },
  {
   "property": "C114",
   "status": "proved",
   "theorems": [
    "Verif.Utils.C114_own_control",
    "Verif.Utils.C114_time_values"
   ],
   "note": "Exact integer time values; the step function is arbitrary."
  },
  {
   "property": "C62",
   "status": "partial",
   "theorems": [
    "Verif.Tsc.C62_check_tsc_partial",
    "Verif.Tsc.C62_order",
    "Verif.Tsc.C62_datetime_violated",
    "Verif.Tsc.C62_attribute_error"
   ],
   "note": "Integer time values with intervals below 3e11 and required delta below 1e12; false for datetimes (different intervals accepted as constant) and with an AttributeError for datetimes with another delta."
  },
  {
   "property": "C115",
   "status": "proved",
   "theorems": [
    "Verif.Tsc.C115_required_ids",
    "Verif.Tsc.C115_required_ids_order",
    "Verif.Tsc.C115_non_overlapping"
   ],
   "note": ""
  },
  {
   "property": "C116",
   "status": "partial",
   "theorems": [
    "Verif.Tsc.C116_equal_delta_const",
    "Verif.Tsc.C116_equal_delta_mixed_partial",
    "Verif.Tsc.C116_ambiguous_violated",
    "Verif.Tsc.C116_reflexive_violated"
   ],
   "note": "Proved for require_const and integer time; reflexivity fails for degenerate series, and one order of the arguments raises a ValueError instead of the TSCException."
  },
  {
   "property": "C63",
   "status": "partial",
   "theorems": [
    "Verif.Tsc.C63_metric_partial",
    "Verif.Tsc.C63_weights",
    "Verif.Tsc.C63_score_partial",
    "Verif.Tsc.C63_medae_violated",
    "Verif.Tsc.C63_median",
    "Verif.Tsc.C63_median_even",
    "Verif.Tsc.C63_medae_partial",
    "Verif.Tsc.C63_l2_normalize_violated"
   ],
   "note": "All metrics, modes and scalings but medae and l2_normalize, where the property is false; a median error of zero means that at least half of the errors vanish."
  },
  {
   "property": "C117",
   "status": "partial",
   "theorems": [
    "Verif.Tsc.C117_accepts_partial",
    "Verif.Tsc.C117_violated"
   ],
   "note": "False for l2, linf, rrmse with two or more features and for max."
  },
  {
   "property": "C118",
   "status": "partial",
   "theorems": [
    "Verif.Tsc.C118_rrmse_partial",
    "Verif.Tsc.C118_violated"
   ],
   "note": "False: the value for n samples is 1/sqrt(n), because a mean is divided by a sum."
  },
  {
   "property": "C119",
   "status": "partial",
   "theorems": [
    "Verif.Tsc.C119_shift_partial",
    "Verif.Tsc.C119_compose",
    "Verif.Tsc.C119_argument_violated"
   ],
   "note": "The returned collection is right; the given collection is changed too, whenever the shift is not zero."
  },
  {
   "property": "C120",
   "status": "partial",
   "theorems": [
    "Verif.Tsc.C120_one",
    "Verif.Tsc.C120_several_partial",
    "Verif.Tsc.C120_violated"
   ],
   "note": "False if the IDs are not sorted along the rows."
  },
  {
   "property": "C121",
   "status": "partial",
   "theorems": [
    "Verif.Tsc.C121_rows",
    "Verif.Tsc.C121_labels_partial",
    "Verif.Tsc.C121_labels_violated"
   ],
   "note": "The array is right; the labels are wrong if the IDs are not sorted along the rows."
  },
  {
   "property": "C122",
   "status": "partial",
   "theorems": [
    "Verif.Tsc.C122_fill_partial",
    "Verif.Tsc.C122_rejects",
    "Verif.Tsc.C122_violated"
   ],
   "note": "Proved for a series with ID 0; false for every other ID."
  },
  {
   "property": "C123",
   "status": "partial",
   "theorems": [
    "Verif.Tsc.C123_grid",
    "Verif.Tsc.C123_contains_partial",
    "Verif.Tsc.C123_contains_violated"
   ],
   "note": "The grid is proved; it contains all time values if the series are aligned, not in general."
  },
  {
   "property": "C124",
   "status": "partial",
   "theorems": [
    "Verif.Tsc.C124_augment_partial",
    "Verif.Tsc.C124_violated"
   ],
   "note": "Proved if the first series does not have ID 1; every collection whose first ID is 1 is rejected."
  },
  {
   "property": "C125",
   "status": "proved",
   "theorems": [
    "Verif.Tsc.C125_frame_list",
    "Verif.Tsc.C125_single"
   ],
   "note": "from_frame_list for frames and collections, from_single_timeseries."
  },
  {
   "property": "C126",
   "status": "partial",
   "theorems": [
    "Verif.Tsc.C126_result_partial",
    "Verif.Tsc.C126_argument_violated",
    "Verif.Tsc.C126_ids_violated",
    "Verif.Tsc.C126_merge_violated"
   ],
   "note": "The returned collection is right; the inserted frame is changed, and a collection of several series is merged into one."
  },
  {
   "property": "C127",
   "status": "partial",
   "theorems": [
    "Verif.Tsc.C127_validate",
    "Verif.Tsc.C127_from_tsc",
    "Verif.Tsc.C127_from_array",
    "Verif.Tsc.C127_tolerance_violated"
   ],
   "note": "Integer time values with steps below 3e11; above, a different interval is accepted as the required one."
  },
  {
   "property": "C128",
   "status": "partial",
   "theorems": [
    "Verif.Tsc.C128_accepts",
    "Verif.Tsc.C128_labels",
    "Verif.Tsc.C128_exact",
    "Verif.Tsc.C128_tolerance_violated"
   ],
   "note": "For integer time values, exact arithmetic, and coefficients that solve the linear system from which findiff computes them. Irregular series are rejected if the steps are below 3e11; above, series whose intervals differ by less than 3e-12 of their size are accepted and the derivative is wrong (tolerance of delta_time)."
  },
  {
   "property": "C129",
   "status": "proved",
   "theorems": [
    "Verif.Tsc.C129_causal"
   ],
   "note": ""
  },
  {
   "property": "C130",
   "status": "partial",
   "theorems": [
    "Verif.Tsc.C130_folds_partial",
    "Verif.Tsc.C130_windows",
    "Verif.Tsc.C130_accepts",
    "Verif.Tsc.C130_order_violated",
    "Verif.Tsc.C130_skip_violated"
   ],
   "note": "Proved for collections with ascending IDs along the index and splits without exception: folds = windows counted from the end, train rows = exactly the rows in long enough stretches outside the window; accepted input characterised without a minimum. The full claim is false: for other ID orders a window mixes series, and folds whose too short pieces differ in length raise instead of being skipped."
  },
  {
   "property": "C131",
   "status": "partial",
   "theorems": [
    "Verif.Transform.C131_fit_transform",
    "Verif.Transform.C131_transform",
    "Verif.Transform.C131_unfitted",
    "Verif.Transform.C131_accepts",
    "Verif.Transform.C131_centers",
    "Verif.Transform.C131_round_trip_partial",
    "Verif.Transform.C131_never_updated",
    "Verif.Transform.C131_refit_violated"
   ],
   "note": "fit_transform and centers proved for all inputs; round trip proved for histories without a fit after an inverse_transform; negation proved for a refit (stale matrix), for every normalised kernel and every solver."
  },
  {
   "property": "C132",
   "status": "proved",
   "theorems": [
    "Verif.Transform.C132_powers",
    "Verif.Transform.C132_values",
    "Verif.Transform.C132_names"
   ],
   "note": "scikit-learn's combinations, powers_ and transform are modelled by their documented result; the datafold parts (filtered powers_, mask, names) as coded."
  },
  {
   "property": "C133",
   "status": "partial",
   "theorems": [
    "Verif.Kernel.C133_neighbours_partial",
    "Verif.Kernel.C133_all_points",
    "Verif.Kernel.C133_given",
    "Verif.Kernel.C133_rejects",
    "Verif.Kernel.C133_few_points",
    "Verif.Kernel.C133_one_violated",
    "Verif.Kernel.C133_truncated_violated",
    "Verif.Kernel.C133_subsample_violated"
   ],
   "note": "Minimality proved for n >= 10 points and k not larger than the subsample. The check of k uses 'and' instead of 'or': k=1 is accepted (cut-off always 0), non-integers above 1 are truncated; k is limited by the subsample size although all points are searched; below ten points k is ignored."
  },
  {
   "property": "C134",
   "status": "partial",
   "theorems": [
    "Verif.Kernel.C134_matrix",
    "Verif.Kernel.C134_rejects",
    "Verif.Kernel.C134_nlsa_partial",
    "Verif.Kernel.C134_computed",
    "Verif.Kernel.C134_alignment_violated",
    "Verif.Kernel.C134_resting",
    "Verif.Kernel.C134_history_partial",
    "Verif.Kernel.C134_stale_violated"
   ],
   "note": "Symmetry, range and agreement of pdist/cdist proved. The documented formula only holds for zeta=0: the code applies np.cos to the cosine, which reverses the effect of the angle (proved for all zeta in (0,1)). Component-wise evaluations with new reference data use stale derivatives."
  },
  {
   "property": "C135",
   "status": "partial",
   "theorems": [
    "Verif.Kernel.C135_operator_partial",
    "Verif.Kernel.C135_formula",
    "Verif.Kernel.C135_unsymmetrised",
    "Verif.Kernel.C135_generator_violated",
    "Verif.Kernel.C135_parameters",
    "Verif.Kernel.C135_parameters_violated"
   ],
   "note": "Formulas, symmetry, spectral bound and row sums proved for symmetrize_kernel=True. Without symmetrisation the kernel is not divided by its row sums: constants are not annihilated for every cloud of two points. The constructor's checks test the type of expected_dim with 'and', so negative epsilon, k and dimensions are accepted."
  },
  {
   "property": "C136",
   "status": "partial",
   "theorems": [
    "Verif.Kernel.C136_eigenpairs_partial",
    "Verif.Kernel.C136_unsymmetric",
    "Verif.Kernel.C136_full_violated",
    "Verif.Kernel.C136_dmap",
    "Verif.Kernel.C136_svd"
   ],
   "note": "Correct and sorted for kernels whose matrix is symmetric whenever they are flagged symmetric. If all eigenpairs are requested the flag alone decides (not the symmetry of the distance): eigh then reads the lower triangle of an unsymmetric matrix, and no returned pair need be an eigenpair."
  },
  {
   "property": "C137",
   "status": "partial",
   "theorems": [
    "Verif.Dyn.C137_fit_partial",
    "Verif.Dyn.C137_fit_condition",
    "Verif.Dyn.C137_offset_violated",
    "Verif.Dyn.C137_history_partial",
    "Verif.Dyn.C137_failed_fit_violated",
    "Verif.Dyn.C137_failed_names_violated",
    "Verif.Dyn.C137_partial_fit_partial",
    "Verif.Dyn.C137_partial_fit_violated"
   ],
   "note": "False for series whose offsets are no multiple of the interval (assertion, depending on which series ends last), after failed calls of fit (names and interval are overwritten before the checks) and for irregular series in partial_fit (nan is never different)."
  },
  {
   "property": "C138",
   "status": "partial",
   "theorems": [
    "Verif.Utils.C138_accepts",
    "Verif.Utils.C138_partial",
    "Verif.Utils.C138_array",
    "Verif.Utils.C138_ids_violated",
    "Verif.Utils.C138_start_violated",
    "Verif.Utils.C138_default_violated"
   ],
   "note": "The full property is false: IDs are renumbered 0..n-1, the time of the initial conditions is ignored and the default for time_values raises UnboundLocalError. Proved for IDs 0..n-1 and arrays; the ODE solver is a parameter, integer time values."
  },
  {
   "property": "C139",
   "status": "partial",
   "theorems": [
    "Verif.Utils.C139_partial",
    "Verif.Utils.C139_uncontrolled",
    "Verif.Utils.C139_reference",
    "Verif.Utils.C139_array_shape",
    "Verif.Utils.C139_array_steps",
    "Verif.Utils.C139_array_series",
    "Verif.Utils.C139_given_start",
    "Verif.Utils.C139_ids_violated",
    "Verif.Utils.C139_order_violated",
    "Verif.Utils.C139_start_violated",
    "Verif.Utils.C139_one_step_violated"
   ],
   "note": "The full property is false: controls are paired by position, result IDs are 0..n-1, an earlier initial condition is moved to the first control time, several one-step controls as collection are rejected. Proved for IDs 0..n-1 in order; callable controls are in C234; integer time values."
  },
  {
   "property": "C140",
   "status": "partial",
   "theorems": [
    "Verif.Utils.C140_angle",
    "Verif.Utils.C140_solution",
    "Verif.Utils.C140_rows",
    "Verif.Utils.C140_euler",
    "Verif.Utils.C140_start_violated"
   ],
   "note": "False for the first row: the starting radius is increased by 1e-10. Everything else is proved for all points with norm at least 1e-15; exact real arithmetic."
  },
  {
   "property": "C141",
   "status": "partial",
   "theorems": [
    "Verif.Utils.C141_polar_partial",
    "Verif.Utils.C141_polar_violated",
    "Verif.Utils.C141_frame",
    "Verif.Utils.C141_array_violated",
    "Verif.Utils.C141_flow"
   ],
   "note": "False for arrays of polar initial conditions (not converted), for data frames (overwritten) and for the radius on the second axis (division by cos theta = 0)."
  },
  {
   "property": "C142",
   "status": "partial",
   "theorems": [
    "Verif.Utils.C142_roundtrip",
    "Verif.Utils.C142_violated"
   ],
   "note": "Proved as equivalence: states are recovered iff angle and angular velocity are in (-pi, pi]; false for larger angular velocities."
  },
  {
   "property": "C143",
   "status": "partial",
   "theorems": [
    "Verif.Utils.C143_rest_violated",
    "Verif.Utils.C143_input_violated",
    "Verif.Utils.C143_partial"
   ],
   "note": "False: the gain is added to the voltage in the cart equation and replaces it in the pendulum equation. The partial theorem gives the exact difference to the documented right-hand side."
  },
  {
   "property": "C144",
   "status": "proved",
   "theorems": [
    "Verif.Utils.C144_energy",
    "Verif.Utils.C144_position"
   ],
   "note": "Exact solutions; the ODE solver is not modelled."
  },
  {
   "property": "C145",
   "status": "partial",
   "theorems": [
    "Verif.Utils.C145_mass",
    "Verif.Utils.C145_symmetry",
    "Verif.Utils.C145_constant",
    "Verif.Utils.C145_period_violated",
    "Verif.Utils.C145_step_violated"
   ],
   "note": "False for the period (both ends of the domain are nodes) and the implicit step (its residual is -dt times the right-hand side, so Newton's method searches a stationary state; the Jacobian it uses reads an attribute that does not exist and is not modelled)."
  },
  {
   "property": "C146",
   "status": "partial",
   "theorems": [
    "Verif.Utils.C146_three",
    "Verif.Utils.C146_stable_violated",
    "Verif.Utils.C146_lorenz",
    "Verif.Utils.C146_closed",
    "Verif.Utils.C146_symmetric"
   ],
   "note": "False for the stability: the origin of ThreeStablePoints has the eigenvalue 1."
  },
  {
   "property": "C147",
   "status": "partial",
   "theorems": [
    "Verif.Dyn.C147_accepts",
    "Verif.Dyn.C147_spectral_partial",
    "Verif.Dyn.C147_together",
    "Verif.Dyn.C147_history",
    "Verif.Dyn.C147_refit_violated",
    "Verif.Dyn.C147_rejected_violated",
    "Verif.Dyn.C147_left_violated",
    "Verif.Dyn.C147_mode_violated"
   ],
   "note": "False in matrix mode: a fitted model rejects every later fit; a rejected set up leaves the system half set up. Left eigenvectors are not checked, and a system in spectral mode accepts a system matrix. The spectral mode is proved for all histories."
  },
  {
   "property": "C148",
   "status": "partial",
   "theorems": [
    "Verif.Dyn.C148_accepts_partial",
    "Verif.Dyn.C148_names_violated",
    "Verif.Dyn.C148_times_violated"
   ],
   "note": "Proved for real-valued time values and given feature names; the default feature names are rejected for every matrix that is not square, and arrays that are not numbers pass the check of the time values (and instead of or)."
  },
  {
   "property": "C149",
   "status": "partial",
   "theorems": [
    "Verif.Dyn.C149_arguments",
    "Verif.Dyn.C149_post_map",
    "Verif.Dyn.C149_matrix_violated",
    "Verif.Dyn.C149_controlled_violated"
   ],
   "note": "Proved for uncontrolled flow maps in spectral mode; false for controlled systems in spectral mode (the map is applied in every step) and for the overwritten matrix in matrix mode."
  },
  {
   "property": "C150",
   "status": "partial",
   "theorems": [
    "Verif.Edmd.C150_windows",
    "Verif.Edmd.C150_rejects",
    "Verif.Edmd.C150_cover_partial",
    "Verif.Edmd.C150_dropped_violated"
   ],
   "note": "Values, IDs and time values proved for every model; with the documented offset test samples do not overlap, but the last samples are dropped whenever their number is not a multiple of the offset."
  },
  {
   "property": "C151",
   "status": "partial",
   "theorems": [
    "Verif.Edmd.C151_reconstruct_partial",
    "Verif.Edmd.C151_start_violated",
    "Verif.Edmd.C151_lengths_violated",
    "Verif.Edmd.C151_windows_partial",
    "Verif.Edmd.C151_windows_start_violated",
    "Verif.Edmd.C151_window_violated",
    "Verif.Edmd.C151_score_violated"
   ],
   "note": "Proved for series of equal length that start at time zero; raises for every other start time and for different lengths; windows proved if the control input is sampled at all time values of the states and the first series starts at time zero, raises for every other start; a window that covers the series and the score of windows never work with control."
  },
  {
   "property": "C152",
   "status": "partial",
   "theorems": [
    "Verif.Edmd.C152_stepwise_partial",
    "Verif.Edmd.C152_direct",
    "Verif.Edmd.C152_single_violated"
   ],
   "note": "Proved for initial conditions whose IDs increase along the rows (needed by expand_time_values) and any one-step prediction; the step itself is computed by the model for point-wise dictionaries only. A single requested time value raises for one initial condition. Control input: C236."
  },
  {
   "property": "C153",
   "status": "proved",
   "theorems": [
    "Verif.Edmd.C153_eigenfunctions"
   ],
   "note": "For point-wise dictionaries."
  },
  {
   "property": "C154",
   "status": "partial",
   "theorems": [
    "Verif.Mpc.C154_closed_loop_partial",
    "Verif.Mpc.C154_end_violated",
    "Verif.Mpc.C154_plain_violated",
    "Verif.Mpc.C154_simulated"
   ],
   "note": "Proved with attached control input for every controller and system (also for the simulated systems). False without attached control input (the default), where the first step raises, and for the last sample of the reference, which is never reached."
  },
  {
   "property": "C155",
   "status": "partial",
   "theorems": [
    "Verif.Dict.C155_dictionary",
    "Verif.Dict.C155_initial",
    "Verif.Dict.C155_rejects",
    "Verif.Dict.C155_short_violated",
    "Verif.Dict.takens_causal",
    "Verif.Dict.row_causal",
    "Verif.Dict.average_causal",
    "Verif.Dict.takens_rejects"
   ],
   "note": "Proved for integer time values and all chains of the three kinds of transformers. Series that are too short raise in the delay embedding but are left out without notice by the moving average."
  },
  {
   "property": "C156",
   "status": "partial",
   "theorems": [
    "Verif.Dict.C156_attached",
    "Verif.Dict.C156_kept",
    "Verif.Dict.takens_keeps",
    "Verif.Dict.C156_scaled_partial",
    "Verif.Dict.C156_scaled_violated",
    "Verif.Dict.C156_flag",
    "Verif.Dict.C156_scaler"
   ],
   "note": "Proved for attached states and for chains of delay embeddings. With a scaler, which keeps the names and changes the values, the scaled values are returned (the documentation of dict_preserves_id_state warns that only names are compared)."
  },
  {
   "property": "C157",
   "status": "partial",
   "theorems": [
    "Verif.Edmd.C157_scores_partial",
    "Verif.Edmd.C157_train_partial",
    "Verif.Edmd.C157_accepts",
    "Verif.Edmd.C157_best",
    "Verif.Edmd.C157_raises",
    "Verif.Edmd.C157_attached_violated"
   ],
   "note": "Proved for the score function of the class. A score function that adapt_model attached to the estimator is lost in clone: it is not used for the selection, although the selected estimator has it. Control input is not passed to the score (not modelled)."
  },
  {
   "property": "C158",
   "status": "partial",
   "theorems": [
    "Verif.Dict.C158_joined",
    "Verif.Dict.C158_accepts",
    "Verif.Dict.C158_parts",
    "Verif.Dict.C158_memory",
    "Verif.Dict.C158_count_partial",
    "Verif.Dict.C158_count_violated"
   ],
   "note": "Proved for transformers that are given by column names and integer time values. n_features_out_ raises if a column has no transformer, because the string 'drop' is then an entry of transformers_."
  },
  {
   "property": "C159",
   "status": "partial",
   "theorems": [
    "Verif.Dyn.C159_validate_partial",
    "Verif.Dyn.C159_numpy_violated",
    "Verif.Dyn.C159_features_violated",
    "Verif.Dyn.C159_result"
   ],
   "note": "Proved for numeric data and integer time values. A plain frame passes although a numpy array is required (the exception is created but not raised), and the number of features of a collection is not checked."
  },
  {
   "property": "C160",
   "status": "proved",
   "theorems": [
    "Verif.Dyn.C160_fit_params"
   ],
   "note": ""
  },
  {
   "property": "C161",
   "status": "partial",
   "theorems": [
    "Verif.Kernel.C161_smoothest",
    "Verif.Kernel.C161_transform_partial",
    "Verif.Kernel.C161_transform_violated",
    "Verif.Kernel.C161_count_violated"
   ],
   "note": "Optimality among all functions proved for any number of splits, given the leading singular triplets (relation). transform multiplies the functions by sigma^2/K at the training points, so it differs from fit_transform for every function that is not in the span of every split; it raises if fewer functions than requested exist."
  },
  {
   "property": "C162",
   "status": "partial",
   "theorems": [
    "Verif.Transform.C162_roundtrip_partial",
    "Verif.Transform.C162_training",
    "Verif.Transform.C162_array_violated",
    "Verif.Transform.C162_labels_violated"
   ],
   "note": "Round trip proved for scalers fitted to frames. A scaler fitted to an array cannot map back (the attribute feature_names_in_ is read but does not exist), and inverse_transform accepts columns with any labels in any order and relabels them. Exact real arithmetic."
  },
  {
   "property": "C163",
   "status": "partial",
   "theorems": [
    "Verif.Transform.C163_projection",
    "Verif.Transform.C163_decorrelated",
    "Verif.Transform.C163_whiten",
    "Verif.Transform.C163_optimal",
    "Verif.Transform.C163_full",
    "Verif.Transform.C163_history_partial",
    "Verif.Transform.C163_refit_violated",
    "Verif.Transform.C163_array_violated"
   ],
   "note": "Optimality among all affine spaces proved, given the leading singular vectors (relation). inverse_transform raises after a second fit with another number of components (n_features_out_ is set once) and for every model that was fitted to an array."
  },
  {
   "property": "C164",
   "status": "partial",
   "theorems": [
    "Verif.Transform.C164_positions_partial",
    "Verif.Transform.C164_names_violated",
    "Verif.Transform.C164_array_violated"
   ],
   "note": "Proved for positions. Selection by names is rejected for all data: the dtype of an array of strings never equals np.str_."
  },
  {
   "property": "C165",
   "status": "partial",
   "theorems": [
    "Verif.Transform.C165_kernel",
    "Verif.Transform.C165_unbiased",
    "Verif.Transform.C165_fit_violated",
    "Verif.Transform.C165_network_violated"
   ],
   "note": "The kernel identities are proved for the transformation. fit raises a TypeError for Fourier features unless the keyword argument fit_params={} is passed, and a new sampled network never passes the check at the start of fit."
  },
  {
   "property": "C166",
   "status": "partial",
   "theorems": [
    "Verif.Dmd.C166_least_squares",
    "Verif.Dmd.C166_recovery",
    "Verif.Dmd.C166_full",
    "Verif.Dmd.C166_affine",
    "Verif.Dmd.C166_affine_partial",
    "Verif.Dmd.C166_affine_violated"
   ],
   "note": "Least squares and recovery proved for all data. Pairing: gDMDFull pairs each derivative with its own sample; gDMDAffine selects by the time values of all series, so it raises a shape error (and nothing else happens) exactly if some series has a sample, but no derivative, at a time where another series has one."
  },
  {
   "property": "C167",
   "status": "partial",
   "theorems": [
    "Verif.Dmd.C167_kept",
    "Verif.Dmd.C167_threshold_partial",
    "Verif.Dmd.C167_zero_violated",
    "Verif.Dmd.C167_keep_partial",
    "Verif.Dmd.C167_keep_violated",
    "Verif.Dmd.C167_refit",
    "Verif.Dmd.C167_parameter_violated"
   ],
   "note": "The threshold zero is taken for a missing option and raises; keep_n keeps more than n components if residuals tie (as for complex conjugate pairs); fit overwrites a numeric parameter with a dictionary, without an effect on later fits. The quantile function is a parameter."
  },
  {
   "property": "C168",
   "status": "partial",
   "theorems": [
    "Verif.Dmd.C168_reduced_measures",
    "Verif.Dmd.C168_reduced_partial",
    "Verif.Dmd.C168_full_violated"
   ],
   "note": "True for models with a rank (the residual is computed for the conjugate eigenvalue and right instead of left eigenvectors, the two errors cancel for normal matrices). Without a rank the squared residual of a true mode is 4 Im(eigenvalue)^2."
  },
  {
   "property": "C169",
   "status": "partial",
   "theorems": [
    "Verif.Dmd.C169_positive",
    "Verif.Dmd.C169_full",
    "Verif.Dmd.C169_reduced",
    "Verif.Dmd.C169_eigfuncs_violated"
   ],
   "note": "The residuals are proved to be the minimum over all observables (exact arithmetic; eigh and eigs are relations). The returned pseudo eigenfunctions are not transformed back with the inverse root of the Gram matrix and do not have the reported residual."
  },
  {
   "property": "C170",
   "status": "partial",
   "theorems": [
    "Verif.Dmd.C170_last_partial",
    "Verif.Dmd.C170_refused",
    "Verif.Dmd.C170_plain_violated",
    "Verif.Dmd.C170_measure_violated",
    "Verif.Dmd.C170_message_violated",
    "Verif.Dmd.C170_history_violated"
   ],
   "note": "True for compute_pseudospectrum together with a rank or a residual filter. Otherwise the matrices are None or missing; the ValueError is hidden by an AttributeError (typo in its message); switching compute_pseudospectrum off leaves the matrices of an earlier fit in use."
  },
  {
   "property": "C171",
   "status": "partial",
   "theorems": [
    "Verif.Dmd.C171_weights",
    "Verif.Dmd.C171_value_partial",
    "Verif.Dmd.C171_single_partial",
    "Verif.Dmd.C171_violated",
    "Verif.Dmd.C171_argument_violated"
   ],
   "note": "The weights exist and are unique. The value is right if Z^2 g = g for the matrix Z of the QZ decomposition, otherwise not: the fourth result of scipy.linalg.qz is Z, but is used as its transpose. The observable of the caller is divided by its norm in place."
  },
  {
   "property": "C172",
   "status": "partial",
   "theorems": [
    "Verif.Tsc.C172_reports_partial",
    "Verif.Tsc.C172_interval_violated",
    "Verif.Tsc.C172_derived_violated",
    "Verif.Tsc.C172_normalize_partial",
    "Verif.Tsc.C172_normalize_violated",
    "Verif.Tsc.C172_display_partial",
    "Verif.Tsc.C172_display_violated"
   ],
   "note": "True for time_values, delta_time and time_interval(). time_interval(id) reports the integers of the index; frames selected from the collection lose the interval; normalize_time mixes scaled and unscaled times and raises unless the collection starts at (nearly) zero; the display flag is inverted and the scaled display swaps times of different series. Intervals are exact rationals."
  },
  {
   "property": "C173",
   "status": "partial",
   "theorems": [
    "Verif.Mpc.C173_lift_partial",
    "Verif.Mpc.C173_violated"
   ],
   "note": "True if the caller never overwrites an array it has passed before. The cache stores a reference to the array, so a state that is updated in place is compared with itself and the lift of the first state is used for ever."
  },
  {
   "property": "C174",
   "status": "partial",
   "theorems": [
    "Verif.Mpc.C174_adjoint_partial",
    "Verif.Mpc.C174_last_violated",
    "Verif.Mpc.C174_witness_violated"
   ],
   "note": "The Jacobian is proved to be the derivative of the cost integral (first variation, adjoint equation with exact solutions and jumps of the input). The cost that is handed to the optimiser is a sum over the time values; the reference at the last time never enters the Jacobian, for a horizon of one step the tracking cost has no influence at all."
  },
  {
   "property": "C175",
   "status": "partial",
   "theorems": [
    "Verif.Tsc.C175_condition_partial",
    "Verif.Tsc.C175_mask",
    "Verif.Tsc.C175_empty_violated",
    "Verif.Tsc.C175_index",
    "Verif.Tsc.C175_aligned",
    "Verif.Tsc.C175_order_violated",
    "Verif.Tsc.C175_fallback_violated",
    "Verif.Tsc.C175_positions",
    "Verif.Tsc.C175_iloc",
    "Verif.Tsc.C175_cross_section",
    "Verif.Tsc.C175_assign_partial",
    "Verif.Tsc.C175_assign_violated"
   ],
   "note": "True for non-empty selections in an order that forms a collection, and for cross sections. A condition that no row meets raises an IndexError, other orders raise an AttributeError: the intended fallback to a plain frame is unreachable. Lists of numbers cannot be assigned. pandas' own selection is described, not modelled."
  },
  {
   "property": "C176",
   "status": "partial",
   "theorems": [
    "Verif.Dmd.C176_score_partial",
    "Verif.Dmd.C176_exact_partial",
    "Verif.Dmd.C176_order_violated",
    "Verif.Dmd.C176_unavailable_violated"
   ],
   "note": "For the classes with a score, it is a number iff the series are stored by first time value, last time value and ID; then it is at most 0, and 0 iff the reconstruction is exact. Otherwise score raises, even for exact reconstructions, because reconstruct returns the series in the order of the groups. Five of the eight classes have no score at all."
  },
  {
   "property": "C177",
   "status": "partial",
   "theorems": [
    "Verif.Dmd.C177_flowmap_partial",
    "Verif.Dmd.C177_differential_partial",
    "Verif.Dmd.C177_normalised",
    "Verif.Dmd.C177_singular_violated",
    "Verif.Dmd.C177_dimension",
    "Verif.Dmd.C177_dimension_violated",
    "Verif.Dmd.C177_wrapper_partial",
    "Verif.Dmd.C177_dmdc_violated",
    "Verif.Dmd.C177_alignment_violated"
   ],
   "note": "True for diagonalisable matrices that are invertible if left eigenvectors are asked for. Singular matrices raise with left eigenvectors; fit accepts data with another number of features, all predictions then raise; the wrapped DMDc model can never predict and gets the control input shifted by one step."
  },
  {
   "property": "C178",
   "status": "partial",
   "theorems": [
    "Verif.Edmd.C178_error",
    "Verif.Edmd.C178_initial_violated",
    "Verif.Edmd.C178_best",
    "Verif.Edmd.C178_choice",
    "Verif.Edmd.C178_refused",
    "Verif.Edmd.C178_fit_violated"
   ],
   "note": "The error time series is the absolute difference at all keys but the first of the frame; with several series the initial states of all series but the first stay in. fit_transform raises a TypeError whenever its checks and fits succeed, because the inverse map is called without a required argument: no error observable can be obtained."
  },
  {
   "property": "C179",
   "status": "partial",
   "theorems": [
    "Verif.Edmd.C179_transform",
    "Verif.Edmd.C179_recovery",
    "Verif.Edmd.C179_predict_violated"
   ],
   "note": "transform and the fitted matrices are right (svd, pinv and lstsq are relations, exact arithmetic); fit_predict raises for every input because the forcing is handed over in the shape (samples, 1, 1), which is read as that many initial conditions."
  },
  {
   "property": "C180",
   "status": "partial",
   "theorems": [
    "Verif.Kernel.C180_gradient_partial",
    "Verif.Kernel.C180_violated",
    "Verif.Kernel.C180_column",
    "Verif.Kernel.C180_column_violated"
   ],
   "note": "For Gaussian kernels gradient returns -epsilon times the gradient of the kernel sum weighted with the target values. The prediction is weighted with the fitted coefficients; a family of examples with the opposite sign is given. The authors mark the method as wrong without saying how."
  },
  {
   "property": "C181",
   "status": "partial",
   "theorems": [
    "Verif.Kernel.C181_symmetric",
    "Verif.Kernel.C181_value_partial",
    "Verif.Kernel.C181_dense_violated",
    "Verif.Kernel.C181_neighbour_violated",
    "Verif.Kernel.C181_query_violated",
    "Verif.Kernel.C181_points_violated"
   ],
   "note": "True for pairs stored in both directions and stored zeros on the diagonal. Dense distance matrices lose their zeros: the diagonal of the kernel is zero. Pairs stored once get half the value. Query points are replaced by reference points. A given epsilon only (no estimation)."
  },
  {
   "property": "C182",
   "status": "partial",
   "theorems": [
    "Verif.Kernel.C182_outcome",
    "Verif.Kernel.C182_two",
    "Verif.Kernel.C182_many_violated",
    "Verif.Kernel.C182_witness_violated",
    "Verif.Kernel.C182_score_violated"
   ],
   "note": "True for two splits and at least three requested functions. For more splits the unshuffled eigenvectors are used and the threshold can exceed every possible energy; fewer than three functions raise an IndexError; score_ returns a dict_values object. Singular value decompositions are relations; arrays only (data frames are not modelled)."
  },
  {
   "property": "C183",
   "status": "partial",
   "theorems": [
    "Verif.Edmd.C183_score",
    "Verif.Edmd.C183_exact_partial",
    "Verif.Edmd.C183_violated"
   ],
   "note": "True if no series is shorter than one before it and the IDs ascend. Otherwise the rows of the reconstruction carry the labels of other series and an exact model has a negative score."
  },
  {
   "property": "C184",
   "status": "proved",
   "theorems": [
    "Verif.Edmd.C184_slice",
    "Verif.Edmd.C184_step"
   ],
   "note": "Non-negative bounds. An empty slice raises an IndexError."
  },
  {
   "property": "C185",
   "status": "partial",
   "theorems": [
    "Verif.Dyn.C185_flowmap",
    "Verif.Dyn.C185_controlled",
    "Verif.Dyn.C185_zero_partial",
    "Verif.Dyn.C185_start_violated",
    "Verif.Dyn.C185_order_violated"
   ],
   "note": "True without control. With control the initial condition is the state at the first given time value, whatever it is, and time values out of order get the wrong states."
  },
  {
   "property": "C186",
   "status": "partial",
   "theorems": [
    "Verif.Transform.C186_fit",
    "Verif.Transform.C186_transform",
    "Verif.Transform.C186_exact",
    "Verif.Transform.C186_spacing_violated",
    "Verif.Transform.C186_partial_fit_violated"
   ],
   "note": "True with spacing 'dt'. With a number as spacing fit always raises a TypeError (check_scalar is called without a name); a second partial_fit checks nothing."
  },
  {
   "property": "C187",
   "status": "partial",
   "theorems": [
    "Verif.Kernel.C187_collection",
    "Verif.Kernel.C187_collection_many",
    "Verif.Kernel.C187_fit_transform",
    "Verif.Kernel.C187_frame_violated",
    "Verif.Kernel.C187_array_violated"
   ],
   "note": "True for collections. pandas frames are never accepted; for arrays fewer functions are returned without notice and transform of such a model raises."
  },
  {
   "property": "C188",
   "status": "partial",
   "theorems": [
    "Verif.Dist.C188_objects_partial",
    "Verif.Dist.C188_objects_sound",
    "Verif.Dist.C188_default",
    "Verif.Dist.C188_dense_violated",
    "Verif.Dist.C188_dict_violated",
    "Verif.Dist.C188_dict_k",
    "Verif.Dist.C188_backend_violated",
    "Verif.Dist.C188_shared_violated"
   ],
   "note": "True for algorithm objects that state a number of neighbours, and without the argument. The dense algorithm is refused; in a dictionary kmin has no effect (only the undocumented key k has, and is not compared), backend raises, and the dictionary of the caller is changed."
  },
  {
   "property": "C189",
   "status": "partial",
   "theorems": [
    "Verif.Kernel.C189_before_partial",
    "Verif.Kernel.C189_after_partial",
    "Verif.Kernel.C189_values",
    "Verif.Kernel.C189_callable_violated",
    "Verif.Kernel.C189_callable_example",
    "Verif.Kernel.C189_evaluate_violated"
   ],
   "note": "True for internal kernels without state. A refused component-wise evaluation fixes a callable bandwidth of an internal Gaussian kernel; evaluate never accepts pair-wise distances for an internal continuous nearest neighbour kernel."
  },
  {
   "property": "C190",
   "status": "proved",
   "theorems": [
    "Verif.Edmd.C190_takens",
    "Verif.Edmd.C190_observed",
    "Verif.Edmd.C190_exists"
   ],
   "note": "Exact arithmetic, integer time values, full rank least squares system matrix (relation), prediction with the system matrix. C190_recovery_partial and C190_prediction_partial state the same for every dictionary with memory that is closed under the dynamics; there the IDs must ascend or the series have equal lengths (for the embedding this holds by itself)."
  },
  {
   "property": "C191",
   "status": "proved",
   "theorems": [
    "Verif.Edmd.C191_takens",
    "Verif.Edmd.C191_recovery_partial",
    "Verif.Edmd.C191_prediction_partial",
    "Verif.Edmd.C191_exists",
    "Verif.Edmd.C191_rejects"
   ],
   "note": "At least one delay, exact arithmetic, integer time values, full rank least squares system (relation). C191_recovery_partial and C191_prediction_partial state the same for every dictionary with memory that is closed under the controlled dynamics. The initial conditions and control inputs of a prediction have ascending IDs."
  },
  {
   "property": "C192",
   "status": "partial",
   "theorems": [
    "Verif.Mpc.C192_optimal_partial",
    "Verif.Mpc.C192_exists",
    "Verif.Mpc.C192_tracks"
   ],
   "note": "Quantities of interest in the order of the dictionary (other orders: C87), terminal weights not all zero (C39), bounds as (lower, upper) pairs (C40). Exact arithmetic; least squares and the quadratic solver are relations."
  },
  {
   "property": "C193",
   "status": "partial",
   "theorems": [
    "Verif.Mpc.C193_receding_partial",
    "Verif.Mpc.C193_tracks",
    "Verif.Mpc.C193_lifts"
   ],
   "note": "Receding-horizon optimality for the real system in every step of the closed loop and exact tracking. Missing: the last sample of the reference is never reached (C154_end_violated), augment_control=False fails (C154_plain_violated); the solver is assumed to return a solution of the quadratic program, and one for every lifted state (no infeasible problems on the way)."
  },
  {
   "property": "C194",
   "status": "proved",
   "theorems": [
    "Verif.Kernel.C194_formula",
    "Verif.Kernel.C194_terminates",
    "Verif.Kernel.C194_independent"
   ],
   "note": "alpha between 0 and 1; exact real arithmetic."
  },
  {
   "property": "C195",
   "status": "proved",
   "theorems": [
    "Verif.Kernel.C195_order",
    "Verif.Kernel.C195_order_iff",
    "Verif.Kernel.C195_isometry",
    "Verif.Kernel.C195_units",
    "Verif.Kernel.C195_points",
    "Verif.Kernel.C195_points_iff",
    "Verif.Kernel.C195_harmonics",
    "Verif.Kernel.C195_pyramids",
    "Verif.Kernel.C195_pyramids_end"
   ],
   "note": "Dense distances, kernel bandwidths given as numbers, exact arithmetic; the eigensolver is a relation. All normalisations of the diffusion kernel and all radial kernels."
  },
  {
   "property": "C196",
   "status": "partial",
   "theorems": [
    "Verif.Dmd.C196_coordinates",
    "Verif.Dmd.C196_predict",
    "Verif.Dmd.C196_spectrum",
    "Verif.Dmd.C196_control",
    "Verif.Dmd.C196_minimal_similar",
    "Verif.Dmd.C196_minimal_determined",
    "Verif.Dmd.C196_arrangement_partial",
    "Verif.Dmd.C196_minimal_violated",
    "Verif.Edmd.C196_dictionary_fit",
    "Verif.Edmd.C196_dictionary_predict"
   ],
   "note": "The theorems hold for all minimisers of the least squares problems. scikit-learn returns the one of minimal norm: it does not depend on the coordinates if the data determine the matrix or if the coordinates are rotated or scaled by a common factor, but C196_minimal_violated gives data that do not span the state space and a shear for which it does. The arrangement theorem needs ascending IDs or series of equal lengths: C30_order_violated shows that otherwise the order of the series changes the fit."
  },
  {
   "property": "C197",
   "status": "partial",
   "theorems": [
    "Verif.Dist.C197_symmetric_brute",
    "Verif.Dist.C197_symmetric_tree",
    "Verif.Dist.C197_knn_unsymmetric",
    "Verif.Dist.C197_sparse_partial",
    "Verif.Dist.C197_sparse_violated",
    "Verif.Dist.C197_constructor",
    "Verif.Dist.C197_attributes",
    "Verif.Dist.C197_zero_violated",
    "Verif.Dist.C197_data",
    "Verif.Dist.C197_query",
    "Verif.Dist.C197_vector_violated"
   ],
   "note": "Symmetry, constructors and two-dimensional data proved. is_sparse is True for every object without cut-off although arrays are returned; kmin=0 (the default of PCManifold) is rejected by the tree algorithms; one-dimensional arrays are n points as reference but one point as query, so dist(x, x) raises where dist(x) works."
  },
  {
   "property": "C198",
   "status": "partial",
   "theorems": [
    "Verif.Utils.C198_mesh",
    "Verif.Utils.C198_box_partial",
    "Verif.Utils.C198_one_value_violated",
    "Verif.Utils.C198_initial_conditions",
    "Verif.Utils.C198_symmetric",
    "Verif.Utils.C198_symmetric_exact",
    "Verif.Utils.C198_eigenvectors_partial",
    "Verif.Utils.C198_eigenvectors_tolerance",
    "Verif.Utils.C198_columns_violated"
   ],
   "note": "Exact arithmetic. One value on an axis leaves out the upper side of the box; columns beyond those of the narrower matrix are not compared."
  },
  {
   "property": "C199",
   "status": "partial",
   "theorems": [
    "Verif.Utils.C199_construct_partial",
    "Verif.Utils.C199_set_params_partial",
    "Verif.Utils.C199_clone_partial",
    "Verif.Utils.C199_sys_mode_violated",
    "Verif.Utils.C199_prediction_violated",
    "Verif.Utils.C199_generator_violated",
    "Verif.Utils.C199_kwargs_violated",
    "Verif.Utils.C199_clone_violated",
    "Verif.Utils.C199_variable_violated",
    "Verif.Utils.C199_edmd_partial",
    "Verif.Utils.C199_edmd_violated"
   ],
   "note": "Proved for the 24 estimators whose constructor only stores its parameters. DMDStandard, gDMDFull, DMDControl and PretrainedDMD select their solver in the constructor, so set_params of the mode keeps the old solver; approx_generator likewise; DMDControl ignores unknown keywords; PyDMDWrapper loses its additional parameters in a clone; DiffusionMapsVariable does not store a parameter, so get_params, set_params and clone raise; EDMD keeps dict_steps and steps apart. Nested parameters are not modelled."
  },
  {
   "property": "C200",
   "status": "partial",
   "theorems": [
    "Verif.Kernel.C200_training_partial",
    "Verif.Kernel.C200_span_violated",
    "Verif.Kernel.C200_condition_violated"
   ],
   "note": "Proved if all eigenpairs are computed and the loop ends. The code computes 300 eigenpairs and measures the error only on them, so a target outside their span is accepted with any error; with the default condition, or one that no ratio reaches, no eigenvector is used and fit never ends. The call of the fitted object reads an attribute that is never set (outofsample.py 471)."
  },
  {
   "property": "C201",
   "status": "partial",
   "theorems": [
    "Verif.Edmd.C201_round_trip_partial",
    "Verif.Edmd.C201_prediction_partial",
    "Verif.Edmd.C201_attached_violated",
    "Verif.Edmd.C201_control_violated"
   ],
   "note": "Round trip and exact prediction are proved for dictionaries of any number of transformers without memory whose states are not attached. With the default include_id_state=True and a dictionary with other labels the original states are attached and never removed before the transformers are undone, so every prediction fails (for all data and models); the control input is not handed to the DMD model, so with a controlled model every prediction fails. Restricted by the order of IDs as C30."
  },
  {
   "property": "C202",
   "status": "partial",
   "theorems": [
    "Verif.Utils.C202_cart_partial",
    "Verif.Utils.C202_energy",
    "Verif.Utils.C202_parameters_violated",
    "Verif.Utils.C202_motor",
    "Verif.Utils.C202_vdp_input",
    "Verif.Utils.C202_vdp",
    "Verif.Utils.C202_duffing"
   ],
   "note": "Proved for fixed constants of the second inverted pendulum; its documented parameters have no effect (all constants are local variables of the right-hand side). The motor agrees with the documented equations up to the rounding of its coefficients, with explicit bounds."
  },
  {
   "property": "C203",
   "status": "partial",
   "theorems": [
    "Verif.Kernel.C203_before",
    "Verif.Kernel.C203_after",
    "Verif.Kernel.C203_values",
    "Verif.Kernel.C203_diffusion",
    "Verif.Kernel.C203_diffusion_values",
    "Verif.Kernel.C203_reference_violated"
   ],
   "note": "The history is proved completely, also inside a diffusion kernel with stochastic normalisation. Other reference points are refused only if their number differs: a cloud with the same number of points is accepted and silently combined with the neighbour distances of the first one (concrete points on the line)."
  },
  {
   "property": "C204",
   "status": "partial",
   "theorems": [
    "Verif.Edmd.C204_dictionary",
    "Verif.Edmd.C204_least_squares",
    "Verif.Edmd.C204_fit",
    "Verif.Edmd.C204_exact_partial",
    "Verif.Edmd.C204_exists",
    "Verif.Edmd.C204_default_partial",
    "Verif.Edmd.C204_default_violated",
    "Verif.Edmd.C204_adaptive_violated"
   ],
   "note": "Proved for transformers that are fitted once (all with partial_fit except TSCIncrementalPCA) and a first batch that is fitted together and spans the dictionary space. With the default start the matrix is never exact, whatever exact data are given (proved, with a bound of the error); with TSCIncrementalPCA each batch is handed over in the coordinates of that moment, and the result is not the least squares solution for the final dictionary. Restricted by the order of IDs as C30."
  },
  {
   "property": "C205",
   "status": "partial",
   "theorems": [
    "Verif.Utils.C205_diffusion_partial",
    "Verif.Utils.C205_diffusion_violated",
    "Verif.Utils.C205_landmarks",
    "Verif.Utils.C205_landmarks_range",
    "Verif.Utils.C205_landmarks_violated",
    "Verif.Utils.C205_rank",
    "Verif.Utils.C205_streaming_partial",
    "Verif.Utils.C205_streaming_violated",
    "Verif.Utils.C205_online_partial",
    "Verif.Utils.C205_online_violated",
    "Verif.Utils.C205_finite_differences",
    "Verif.Utils.C205_operators",
    "Verif.Utils.C205_shared_violated"
   ],
   "note": "the accepted settings are characterized exactly. Violated: nan passes every range check; Roseland refuses numpy integers and float32 that DiffusionMaps takes; the tolerance of StreamingDMD must be a float; the default kernel of the class methods is one object shared by all models"
  },
  {
   "property": "C206",
   "status": "partial",
   "theorems": [
    "Verif.Dmd.C206_accepted",
    "Verif.Dmd.C206_used",
    "Verif.Dmd.C206_scale",
    "Verif.Dmd.C206_uniform",
    "Verif.Dmd.C206_counts_partial",
    "Verif.Dmd.C206_residuals",
    "Verif.Dmd.C206_samples_violated",
    "Verif.Dmd.C206_negative_violated"
   ],
   "note": "The minimisation itself is C30_least_squares_partial. Violated: the weights belong to the pairs of consecutive samples, so one weight per sample is never accepted, and negative weights are accepted and can give the model with the largest error. The counting theorem needs ascending IDs or series of equal lengths (C03)."
  },
  {
   "property": "C207",
   "status": "partial",
   "theorems": [
    "Verif.Kernel.C207_owned",
    "Verif.Kernel.C207_parameter",
    "Verif.Kernel.settles_gauss",
    "Verif.Kernel.settles_gauss_bare",
    "Verif.Kernel.settles_cknn",
    "Verif.Kernel.settles_cknn_bare",
    "Verif.Kernel.C207_shared_partial",
    "Verif.Kernel.C207_changed_violated",
    "Verif.Kernel.C207_callable_violated",
    "Verif.Kernel.C207_callable_example",
    "Verif.Kernel.C207_once_violated"
   ],
   "note": "Proved for diffusion maps and jointly smooth functions (they copy the kernel), for every history. Geometric harmonics use the object of the user: proved for histories that do not change it; a changed bandwidth changes the predictions without a fit, a callable bandwidth is replaced by the number of the first data, and a continuous nearest neighbour kernel can be used for one fit only."
  },
  {
   "property": "C208",
   "status": "partial",
   "theorems": [
    "Verif.Kernel.C208_validated",
    "Verif.Kernel.C208_refused_partial",
    "Verif.Kernel.C208_solver_violated",
    "Verif.Kernel.C208_solver_example",
    "Verif.Kernel.C208_jointly_violated"
   ],
   "note": "Proved for refused data (nothing changes) and for diffusion maps and geometric harmonics refused before the eigenproblem (the model cannot be used). Negation: if the eigenproblem cannot be solved the old eigenpairs are combined with the new kernel matrix; jointly smooth functions combine the old kernel and eigenvectors with the new data after every refusal that comes after the validation."
  },
  {
   "property": "C209",
   "status": "partial",
   "theorems": [
    "Verif.Edmd.C209_accepted_partial",
    "Verif.Edmd.C209_data_partial",
    "Verif.Edmd.C209_refused_partial",
    "Verif.Edmd.C209_mixed_violated",
    "Verif.Edmd.C209_prefix_violated",
    "Verif.Edmd.C209_mode_violated",
    "Verif.Edmd.C209_values_violated",
    "Verif.Edmd.C209_system_violated"
   ],
   "note": "Proved: accepted calls give the model of a new object after every history of fits; refused data change nothing; the inverse map survives every refusal. Negation: the transformers are fitted in place, so that after a refusal new transformers are combined with the old DMD model and inverse map (other transform and predictions, with numbers), or a new system with the old inverse map; a refused first call of fit excludes partial_fit for ever, and the other way round."
  },
  {
   "property": "C210",
   "status": "partial",
   "theorems": [
    "Verif.Edmd.C210_predict",
    "Verif.Edmd.C210_fitted_partial",
    "Verif.Edmd.C210_ignored_violated",
    "Verif.Edmd.C210_refused_violated"
   ],
   "note": "Proved for accepted calls with DMD models that use the control input exactly if it is given. Negation: with a DMD model that ignores the control input fit succeeds and predict never does; a refused fit without control input, or a refused partial_fit, makes a controlled model unable to predict. With use_transform_inverse=True see C201."
  },
  {
   "property": "C211",
   "status": "partial",
   "theorems": [
    "Verif.Dist.C211_one_partial",
    "Verif.Dist.C211_default",
    "Verif.Dist.C211_object",
    "Verif.Dist.C211_same_partial",
    "Verif.Dist.C211_history_violated",
    "Verif.Dist.C211_repeated_violated",
    "Verif.Dist.C211_contradiction_violated",
    "Verif.Dist.C211_neighbours_violated"
   ],
   "note": "Proved for one kernel, for algorithm objects and for any number of kernels with the same metric. Negation: the constructor writes its metric into the dictionary of the caller and removes it when it refuses; in a sequence a kernel is refused exactly if the kernel before was accepted and has another metric (all sequences), repeating a refused call succeeds, and a continuous nearest neighbour kernel silently gets the squared metric of a Gaussian kernel."
  },
  {
   "property": "C212",
   "status": "partial",
   "theorems": [
    "Verif.Utils.C212_pixels",
    "Verif.Utils.C212_square_partial",
    "Verif.Utils.C212_order",
    "Verif.Utils.C212_unknown",
    "Verif.Utils.C212_shape_violated",
    "Verif.Utils.C212_place_violated"
   ],
   "note": "Proved for equal resolutions. For different resolutions the array is reshaped with exchanged axes: the picture has the wrong shape and the pixels show the density at other points. The array handed to imshow is modelled (row = vertical axis with origin lower); drawing is not modelled."
  },
  {
   "property": "C213",
   "status": "partial",
   "theorems": [
    "Verif.Utils.C213_accepted",
    "Verif.Utils.C213_rows",
    "Verif.Utils.C213_euler",
    "Verif.Utils.C213_zero_partial",
    "Verif.Utils.C213_drift_partial",
    "Verif.Utils.C213_single_violated",
    "Verif.Utils.C213_labels_violated",
    "Verif.Utils.C213_shift_violated"
   ],
   "note": "Proved for equally spaced time values from 0 on. The labels always start at 0, a shifted request gets the same answer, a single time value is refused. Steps that agree only after rounding drift by at most 1e-10 per row."
  },
  {
   "property": "C214",
   "status": "partial",
   "theorems": [
    "Verif.Tsc.C214_regular",
    "Verif.Tsc.C214_sound_partial",
    "Verif.Tsc.C214_per_id",
    "Verif.Tsc.C214_normalize_partial",
    "Verif.Tsc.C214_first_violated",
    "Verif.Tsc.C214_degenerate_violated",
    "Verif.Tsc.C214_normalize_violated"
   ],
   "note": "Exact arithmetic. Soundness is proved for series of different lengths and for equal lengths if no series has a first interval longer than all its other intervals. Otherwise the first interval is never compared (times 0, 1.9, 2.9 have the interval 1 and are normalised to 0, 1, 2). A series with one sample beside a longer one makes delta_time raise."
  },
  {
   "property": "C215",
   "status": "partial",
   "theorems": [
    "Verif.Dmd.C215_least_squares_partial",
    "Verif.Dmd.C215_exists",
    "Verif.Dmd.C215_unique_partial",
    "Verif.Dmd.C215_recovery_partial",
    "Verif.Dmd.C215_constant_partial",
    "Verif.Dmd.C215_names",
    "Verif.Dmd.C215_transform_partial",
    "Verif.Dmd.C215_network",
    "Verif.Dmd.C215_params",
    "Verif.Dmd.C215_exact_violated",
    "Verif.Dmd.C215_constant_violated",
    "Verif.Dmd.C215_features_out_violated",
    "Verif.Dmd.C215_hidden_violated"
   ],
   "note": "Proved for every network and all data with ascending IDs or equally long series (C03): the matrix minimises error plus penalty, exists, is unique for a positive regularisation, recovers closed dictionaries and keeps the constant without regularisation; names, columns, layers and number of parameters. The code violates: with a regularisation the constant function (and every other function that is not zero) is mispredicted at some training sample, for all data; n_features_out_ is always too small; the network has one hidden layer more than n_hidden_layer; features called const or psi0 are refused."
  },
  {
   "property": "C216",
   "status": "partial",
   "theorems": [
    "Verif.Dmd.C216_fit",
    "Verif.Dmd.C216_stops",
    "Verif.Dmd.C216_refused_iff",
    "Verif.Dmd.C216_scheduler_violated",
    "Verif.Dmd.C216_validation_violated",
    "Verif.Dmd.C216_refused_violated",
    "Verif.Dmd.C216_best_violated",
    "Verif.Dmd.C216_records_violated",
    "Verif.Dmd.C216_stale_violated"
   ],
   "note": "Proved for every optimiser: which settings work, number of epochs, stored network and matrix belong together, records. The code violates: a scheduler without X_val and X_val without scheduler or early stopping (with the default progress bar) always raise UnboundLocalError; a refused call leaves the new network with the old matrix; early stopping never returns the best network; nan losses vanish from the records; the validation loss is computed with the matrix of the previous network."
  },
  {
   "property": "C217",
   "status": "partial",
   "theorems": [
    "Verif.Edmd.C217_first_partial",
    "Verif.Edmd.C217_states_violated",
    "Verif.Edmd.C217_matrix_violated",
    "Verif.Edmd.C217_refit_violated",
    "Verif.Edmd.C217_projection_violated"
   ],
   "note": "Proved: after the first fit dictionary and matrix belong together, if no states have to be attached. The code violates: no later fit ever changes the system matrix although it retrains the network; with attached states every transform and prediction raises; a network that does not pass the states on is refused after the training, and the model is changed nevertheless."
  },
  {
   "property": "C218",
   "status": "partial",
   "theorems": [
    "Verif.Tsc.C218_valid",
    "Verif.Tsc.C218_frame_partial",
    "Verif.Tsc.C218_new",
    "Verif.Tsc.C218_insert",
    "Verif.Tsc.C218_alias_violated",
    "Verif.Tsc.C218_self_violated",
    "Verif.Tsc.C218_refused_violated"
   ],
   "note": "operations of the accessor and the collection over a heap of objects with integer or datetime time values; missing: frames returned by pandas itself. Violated: shifts return the collection itself, insert_ts changes its argument, refused calls leave changes"
  },
  {
   "property": "C219",
   "status": "partial",
   "theorems": [
    "Verif.Tsc.C219_shift_partial",
    "Verif.Tsc.C219_roundtrip_partial",
    "Verif.Tsc.C219_rejects",
    "Verif.Tsc.C219_order_violated",
    "Verif.Tsc.C219_mixture_violated",
    "Verif.Tsc.C219_argument_violated"
   ],
   "note": "for IDs in ascending order along the rows; violated otherwise, and the collection itself is changed"
  },
  {
   "property": "C220",
   "status": "partial",
   "theorems": [
    "Verif.Kernel.C220_positive_definite",
    "Verif.Kernel.C220_duplicates",
    "Verif.Kernel.C220_eigenvalues",
    "Verif.Kernel.C220_embedding",
    "Verif.Kernel.C220_interpolation_violated",
    "Verif.Kernel.C220_solvable",
    "Verif.Kernel.C220_growing_violated",
    "Verif.Kernel.C220_multiquadric_violated",
    "Verif.Kernel.C220_cutoff_violated"
   ],
   "note": "Exact arithmetic. Holds for the three families of falling kernels without cut-off; kernels that grow with the distance and kernels with a cut-off violate it. fit of GeometricHarmonicsInterpolator refuses as many eigenpairs as samples, so it never interpolates all targets."
  },
  {
   "property": "C221",
   "status": "partial",
   "theorems": [
    "Verif.Kernel.C221_harmonic",
    "Verif.Kernel.C221_trivial",
    "Verif.Kernel.C221_first",
    "Verif.Kernel.C221_falling",
    "Verif.Kernel.C221_disconnected_violated",
    "Verif.Kernel.C221_cutoff_example"
   ],
   "note": "full for kernel matrices whose samples are joined by paths; violated if the samples fall apart (cut-off). The eigensolver is a relation (C136); that eigenvalue one is among the computed ones is a hypothesis of C221_first."
  },
  {
   "property": "C222",
   "status": "partial",
   "theorems": [
    "Verif.Kernel.C222_stationary",
    "Verif.Kernel.C222_bounds_partial",
    "Verif.Kernel.C222_uniform",
    "Verif.Kernel.C222_distance_violated",
    "Verif.Kernel.C222_line_violated"
   ],
   "note": "two-sided bounds for every symmetric kernel matrix, equality for doubly stochastic chains; exact proportionality is violated because each eigenvector is normalised to Euclidean length one. Orthonormality of the eigenvectors of the symmetric matrix is the documented behaviour of scipy.linalg.eigh."
  },
  {
   "property": "C223",
   "status": "partial",
   "theorems": [
    "Verif.Kernel.C223_fit_partial",
    "Verif.Kernel.C223_scaling",
    "Verif.Kernel.C223_density",
    "Verif.Kernel.C223_constant_violated",
    "Verif.Kernel.C223_power_violated"
   ],
   "note": "the claim about the eigenpairs for symmetrize_kernel=True and positive eigenvalues; violated for the default symmetrize_kernel=False; the scaling law in full"
  },
  {
   "property": "C224",
   "status": "partial",
   "theorems": [
    "Verif.Tsc.C224_roundtrip",
    "Verif.Tsc.C224_complex_violated",
    "Verif.Tsc.C224_dates_violated",
    "Verif.Tsc.C224_labels_violated",
    "Verif.Tsc.C224_exact_partial"
   ],
   "note": "the collections that survive are characterised exactly; pandas' writer and reader modelled by their documented behaviour; text of floating point numbers is a parameter"
  },
  {
   "property": "C225",
   "status": "proved",
   "theorems": [
    "Verif.Transform.C225_initial",
    "Verif.Transform.C225_final",
    "Verif.Transform.C225_drop_last",
    "Verif.Transform.C225_takens",
    "Verif.Transform.C225_moving_average",
    "Verif.Transform.C225_derivative",
    "Verif.Transform.C225_finite_difference",
    "Verif.Transform.C225_lambdas",
    "Verif.Dmd.C225_predict",
    "Verif.Dmd.C225_predict_control",
    "Verif.Dmd.C225_reconstruct"
   ],
   "note": "selection as filter of the rows by ID; for transformers the collection is sampled with one interval (any interval for Takens and moving averages, integer or datetime)"
  },
  {
   "property": "C226",
   "status": "proved",
   "theorems": [
    "Verif.Dmd.C226_error",
    "Verif.Dmd.C226_bound",
    "Verif.Dmd.C226_noise",
    "Verif.Dmd.C226_contracting"
   ],
   "note": "The fit is the relation of C30 (every least squares solution); exact real arithmetic; no sample weights; system matrix mode (by C27 the spectral mode gives the same predictions)."
  },
  {
   "property": "C227",
   "status": "proved",
   "theorems": [
    "Verif.Kernel.C227_bandwidth",
    "Verif.Kernel.C227_residual",
    "Verif.Kernel.C227_unique",
    "Verif.Kernel.C227_signs",
    "Verif.Kernel.C227_order",
    "Verif.Kernel.C227_dependent",
    "Verif.Kernel.C227_transform"
   ],
   "note": "Exact arithmetic: the cut-off rcond of the least squares solver is ignored; without subsampling; eps_med_scale > 0; residuals that are nan (an eigenvector of zeros) count as failed fit."
  },
  {
   "property": "C228",
   "status": "proved",
   "theorems": [
    "Verif.Dmd.C228_shift",
    "Verif.Dmd.C228_states",
    "Verif.Dmd.C228_sampling",
    "Verif.Dmd.C228_fit",
    "Verif.Dmd.C228_fit_control",
    "Verif.Dmd.C228_predict",
    "Verif.Dmd.C228_predict_control",
    "Verif.Dmd.C228_reconstruct",
    "Verif.Dmd.C228_takens",
    "Verif.Dmd.C228_moving_average",
    "Verif.Dmd.C228_derivative"
   ],
   "note": "The theorems hold for all shifts; the code refuses negative integer time values when the collection is constructed (C119), so for integers only shifts that keep them non-negative can be formed. Integer and datetime time values in exact arithmetic."
  },
  {
   "property": "C229",
   "status": "proved",
   "theorems": [
    "Verif.Mpc.C229_decrease",
    "Verif.Mpc.C229_total_cost",
    "Verif.Mpc.C229_stable",
    "Verif.Mpc.C229_zero_weight"
   ],
   "note": "Closed loop with the lifted linear model and one input (with several inputs control_sequence raises, C88); the solver of the Riccati equation is a relation."
  },
  {
   "property": "C230",
   "status": "partial",
   "theorems": [
    "Verif.Kernel.C230_dmap",
    "Verif.Kernel.C230_harmonics",
    "Verif.Kernel.C230_pyramids",
    "Verif.Kernel.C230_cutoff_violated"
   ],
   "note": "Proved for dense kernels without cut-off distance; with a cut-off the coordinates jump where a training point enters the neighbourhood. Time exponents other than zero without target coordinates (see C44)."
  },
  {
   "property": "C231",
   "status": "proved",
   "theorems": [
    "Verif.Edmd.C231_error",
    "Verif.Edmd.C231_bound",
    "Verif.Edmd.C231_contracting",
    "Verif.Edmd.C231_training"
   ],
   "note": "Exact real arithmetic; matrix mode (by C84_modes the spectral mode predicts the same); the fit is a relation (every least squares solution)."
  },
  {
   "property": "C232",
   "status": "proved",
   "theorems": [
    "Verif.Dmd.C232_dmd",
    "Verif.Dmd.C232_consistent",
    "Verif.Dmd.C232_excited",
    "Verif.Dmd.C232_control",
    "Verif.Edmd.C232_edmd"
   ],
   "note": "Exact real arithmetic; a fit is any least squares solution (C30, C31); sample weights for DMD without control."
  },
  {
   "property": "C233",
   "status": "partial",
   "theorems": [
    "Verif.Dmd.C233_content",
    "Verif.Dmd.C233_states",
    "Verif.Dmd.C233_sampling",
    "Verif.Dmd.C233_fit",
    "Verif.Dmd.C233_fit_control",
    "Verif.Dmd.C233_predict",
    "Verif.Dmd.C233_predict_control",
    "Verif.Dmd.C233_reconstruct",
    "Verif.Dmd.C233_takens",
    "Verif.Dmd.C233_moving_average",
    "Verif.Dmd.C233_derivative",
    "Verif.Dmd.C233_any_names_partial",
    "Verif.Dmd.C233_order_violated"
   ],
   "note": "Proved for renamings that keep the order of the IDs (results and refusals are equal); for other injective renamings the contents and, with equally long series, the shift matrices. Violated otherwise: exchanging two IDs of series with different lengths changes the snapshot pairs of the fit."
  },
  {
   "property": "C234",
   "status": "partial",
   "theorems": [
    "Verif.Utils.C234_array",
    "Verif.Utils.C234_collection",
    "Verif.Utils.C234_times",
    "Verif.Utils.C234_reference",
    "Verif.Utils.C234_constant_violated",
    "Verif.Utils.C234_ids_violated"
   ],
   "note": "Proved for vectorised functions, with an exact description of the accepted calls. Violated: a function that works for single states but returns one row for stacked states (a constant control) is refused after the integration; results are numbered 0..n-1 instead of by the IDs of the initial conditions. Integer sampling times; the solver is a parameter."
  },
  {
   "property": "C235",
   "status": "partial",
   "theorems": [
    "Verif.Dmd.C235_features",
    "Verif.Dmd.C235_dictionary",
    "Verif.Dmd.C235_control",
    "Verif.Dmd.C235_rank",
    "Verif.Dmd.C235_exact_violated"
   ],
   "note": "Exact arithmetic, no sample weights; least squares, svd and eig are relations. The order of the ranks holds for projected modes (reconstruct_mode='project'); with the default exact modes a higher rank can fit the training data worse (errors 40 and 42.5), because the spectral states are least squares solutions with the modes."
  },
  {
   "property": "C236",
   "status": "partial",
   "theorems": [
    "Verif.Edmd.C236_stepwise",
    "Verif.Edmd.C236_direct",
    "Verif.Edmd.C236_memory_violated"
   ],
   "note": "Proved for point-wise dictionaries (one sample per initial condition), IDs increasing along the rows, integer time, matrix mode. Violated for dictionaries with memory (several samples per initial condition): every stepwise prediction with control at three or more time values raises, because the control handed to the second step starts before the state."
  },
  {
   "property": "C237",
   "status": "proved",
   "theorems": [
    "Verif.Edmd.C237_memory",
    "Verif.Edmd.C237_takens",
    "Verif.Edmd.C237_plain"
   ],
   "note": "Exact arithmetic; least squares as a relation (every minimiser), integer time. Sums of squared errors; with mean errors the statement would be wrong in general, the larger embedding has fewer training pairs."
  },
  {
   "property": "C238",
   "status": "proved",
   "theorems": [
    "Verif.Mpc.C238_feedback",
    "Verif.Mpc.C238_lqr",
    "Verif.Mpc.C238_limit"
   ],
   "note": "real arithmetic; the quadratic program is any solution of the solver; the reference belongs to a state at which the uncontrolled model rests (as for LQR in C88). LQR itself only handles one input (C88), its formula is compared for any number"
  },
  {
   "property": "C239",
   "status": "proved",
   "theorems": [
    "Verif.Mpc.C239_bound",
    "Verif.Mpc.C239_lipschitz"
   ],
   "note": "real arithmetic; every solution of the program. With state bounds only changes of the reference are covered, as stated"
  },
  {
   "property": "C240",
   "status": "partial",
   "theorems": [
    "Verif.Mpc.C240_terminal_partial",
    "Verif.Mpc.C240_long_partial",
    "Verif.Mpc.C240_violated"
   ],
   "note": "violated for short horizons with terminal weights that do not decrease: the closed loop can run away although no bound is active. Proved for terminal weights that decrease and for long horizons"
  },
  {
   "property": "C241",
   "status": "partial",
   "theorems": [
    "Verif.Tsc.C241_scaled_partial",
    "Verif.Tsc.C241_plain",
    "Verif.Tsc.C241_relative_partial",
    "Verif.Tsc.C241_score_partial",
    "Verif.Tsc.C241_score_plain",
    "Verif.Tsc.C241_constant_violated",
    "Verif.Tsc.C241_refused_violated"
   ],
   "note": "The absolute metrics scale with the unit. The result with learned scaling is the same in all units if every feature varies in the true values, but not for constant features; rrmse agrees in all units in which it is returned, but is refused in units in which the data is small. Negative factors and mape are not treated."
  },
  {
   "property": "C242",
   "status": "partial",
   "theorems": [
    "Verif.Mpc.C242_answered",
    "Verif.Mpc.C242_recursive_partial",
    "Verif.Mpc.C242_viable_partial",
    "Verif.Mpc.C242_inputs",
    "Verif.Mpc.C242_violated"
   ],
   "note": "A call is answered exactly if the bounds can be respected over the horizon. The loop never stops without state bounds, with bounds that can be kept, or with a horizon that sees all dead ends; in general a controller with state bounds can run into a state from which every call is refused, because the quadratic program has no terminal constraint. The loop is that of controller and linear model."
  },
  {
   "property": "C243",
   "status": "proved",
   "theorems": [
    "Verif.Tsc.C243_timeseries",
    "Verif.Tsc.C243_timestep",
    "Verif.Tsc.C243_lengths_matter"
   ],
   "note": "Both parts are proved for all scalings. Without the assumption on lengths and time values the modes disagree (C243_lengths_matter): a short time series weighs more than its samples."
  },
  {
   "property": "C244",
   "status": "partial",
   "theorems": [
    "Verif.Tsc.C244_symmetric_partial",
    "Verif.Tsc.C244_triangle_partial",
    "Verif.Tsc.C244_scores_partial",
    "Verif.Tsc.C244_squares_violated",
    "Verif.Tsc.C244_median_violated",
    "Verif.Tsc.C244_scaled_violated",
    "Verif.Tsc.C244_relative_violated"
   ],
   "note": "Symmetry holds for the absolute errors without scaling, the triangle inequality for rmse, mae, max, l2 and linf with weights that are not negative. The violations show that mse and medae have no triangle inequality, and that with a scaling or with the relative errors the order of the collections matters."
  },
  {
   "property": "C245",
   "status": "proved",
   "theorems": [
    "Verif.Dyn.C245_initial",
    "Verif.Dyn.C245_control",
    "Verif.Dyn.C245_response"
   ],
   "note": "Exact arithmetic; flow map systems in matrix mode at multiples of the sampling interval."
  },
  {
   "property": "C246",
   "status": "partial",
   "theorems": [
    "Verif.Dyn.C246_bounded_partial",
    "Verif.Dyn.C246_decay_partial",
    "Verif.Dyn.C246_matrix_partial",
    "Verif.Dyn.C246_decay_matrix",
    "Verif.Dyn.C246_growth",
    "Verif.Dyn.C246_differential_partial",
    "Verif.Dyn.C246_violated"
   ],
   "note": "Boundedness in spectral mode (flow map and differential systems) and for diagonalisable matrices; decay for all matrices. Matrix mode with a matrix that cannot be diagonalised: the predictions of a shear grow without bound although its only eigenvalue is 1 (C246_violated)."
  },
  {
   "property": "C247",
   "status": "partial",
   "theorems": [
    "Verif.Kernel.C247_equal_partial",
    "Verif.Kernel.C247_query",
    "Verif.Kernel.C247_function",
    "Verif.Kernel.C247_distinct",
    "Verif.Kernel.C247_injective",
    "Verif.Kernel.C247_violated"
   ],
   "note": "Equal coordinates if no eigenvalue is zero. C247_violated holds for all data with a repeated sample: with all eigenpairs an eigenvalue is zero, a coordinate separates the equal samples and transform refuses every sample."
  },
  {
   "property": "C248",
   "status": "partial",
   "theorems": [
    "Verif.Dmd.C248_step",
    "Verif.Dmd.C248_predict_partial",
    "Verif.Dmd.C248_violated",
    "Verif.Edmd.C248_edmd_partial"
   ],
   "note": "One step for all data; predictions if the samples (dictionary values) with a successor span the space. C248_violated: for two samples that conserve the sum of the features the model taken by the code predicts the sums 1, 1, 0."
  },
  {
   "property": "C249",
   "status": "proved",
   "theorems": [
    "Verif.Edmd.C249_coefficients",
    "Verif.Edmd.C249_model",
    "Verif.Edmd.C249_predict"
   ],
   "note": "Exact arithmetic; lag 0, consecutive delays, no weights, at least one delay; full rank least squares DMD model, predictions in matrix mode."
  },
  {
   "property": "C250",
   "status": "proved",
   "theorems": [
    "Verif.Edmd.C250_coefficients",
    "Verif.Edmd.C250_predict",
    "Verif.Edmd.C250_origin",
    "Verif.Edmd.C250_violated"
   ],
   "note": "Exact arithmetic; full rank least squares DMD model, predictions in matrix mode. C250_violated proves the last sentence, that DMD without the constant depends on the origin."
  },
  {
   "property": "C251",
   "status": "partial",
   "theorems": [
    "Verif.Dmd.C251_sampling",
    "Verif.Dmd.C251_fit",
    "Verif.Dmd.C251_fit_control",
    "Verif.Dmd.C251_predict",
    "Verif.Dmd.C251_predict_control",
    "Verif.Dmd.C251_derivative",
    "Verif.Dmd.C251_float_partial",
    "Verif.Dmd.C251_violated"
   ],
   "note": "Proved for integer and datetime time values in exact arithmetic and for positive integer factors. For floating point time values (exact rationals in the model) it holds for data sampled with exactly one interval; C251_violated: because of the absolute tolerance in delta_time, unevenly sampled data count as evenly sampled in a unit that is large enough."
  },
  {
   "property": "C252",
   "status": "proved",
   "theorems": [
    "Verif.Mpc.C252_weights",
    "Verif.Mpc.C252_coordinates",
    "Verif.Mpc.C252_time"
   ],
   "note": "Exact arithmetic; the quadratic program solver is a relation (any solution). C252_time is stated for returned inputs; refusals compare the first reference time with the time of the state plus the sampling interval and are covered by the equivalence."
  },
  {
   "property": "C253",
   "status": "partial",
   "theorems": [
    "Verif.Tsc.C253_sorted_partial",
    "Verif.Tsc.C253_unsigned_violated",
    "Verif.Tsc.C253_far_violated",
    "Verif.Tsc.C253_missing_violated",
    "Verif.Tsc.C253_missing_refused"
   ],
   "note": "Holds for signed integers, floating point numbers and datetimes less than 146 years away from 1970, without missing values. With unsigned integers every order is accepted (C253_unsigned_violated, for all collections); datetimes more than 292 years apart are refused (C253_far_violated); NaT behind a datetime after 1970 is accepted (C253_missing_violated). C01 subtracts time values exactly and states nothing about missing ones."
  },
  {
   "property": "C254",
   "status": "proved",
   "theorems": [
    "Verif.Dmd.C254_step",
    "Verif.Dmd.C254_predict",
    "Verif.Dmd.C254_total"
   ],
   "note": "Exact arithmetic; the pseudo-inverse is a relation (any least squares solution). Flow is zero for r = 0."
  },
  {
   "property": "C255",
   "status": "partial",
   "theorems": [
    "Verif.Tsc.C255_accepted_partial",
    "Verif.Tsc.C255_infinite_last",
    "Verif.Tsc.C255_infinite_violated",
    "Verif.Tsc.C255_nan_violated",
    "Verif.Tsc.C255_negative"
   ],
   "note": "Without nan: accepted iff valid in the order of the numbers with infinity and not negative; so an infinite time value passes, but only at the end of a series (C255_infinite_violated, C255_infinite_last). One nan per series passes at any place, and then the values before it are not compared with those behind it (C255_nan_violated). Negative infinity is refused."
  },
  {
   "property": "C256",
   "status": "proved",
   "theorems": [
    "Verif.Tsc.C256_kept",
    "Verif.Tsc.C256_three",
    "Verif.Tsc.C256_regular"
   ],
   "note": "Integer time values. C256_three is the case in which the code drops two samples with one interval."
  },
  {
   "property": "C257",
   "status": "proved",
   "theorems": [
    "Verif.Tsc.C257_raises",
    "Verif.Tsc.C257_regular",
    "Verif.Tsc.C257_again",
    "Verif.Tsc.C257_same"
   ],
   "note": "Integer time values (also datetimes as integers)."
  }
 ]
}