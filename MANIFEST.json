{
 "claims": [
  {
   "property": "C01",
   "status": "proved",
   "theorems": [
    "Verif.C01_nrg_is_integral",
    "Verif.C01_nrg_weighted_is_integral"
   ],
   "note": "Both paths, weighted and unweighted, any number of members; the specification is the Lebesgue integral of (F(z) - 1{y<=z})^2."
  },
  {
   "property": "C02",
   "status": "proved",
   "theorems": [
    "Verif.C02_qd_int_eq_nrg",
    "Verif.C02_qd_int_are_integral",
    "Verif.C02_weighted"
   ],
   "note": "Unweighted and weighted, sorted flag included."
  },
  {
   "property": "C03",
   "status": "proved",
   "theorems": [
    "Verif.C03_pwm_eq_fair",
    "Verif.C03_single_member_nan"
   ],
   "note": "Two or more members: both equal the fair score; one member: both NaN."
  },
  {
   "property": "C04",
   "status": "proved",
   "theorems": [
    "Verif.C04_backends_agree",
    "Verif.C04_result_is_finite"
   ],
   "note": "All seven estimators on finite data."
  },
  {
   "property": "C05",
   "status": "partial",
   "theorems": [
    "Verif.C05_backends_agree_weighted_partial",
    "Verif.C05_akr_circperm_disagrees"
   ],
   "note": "False for akr_circperm with an even number of members (C05_akr_circperm_disagrees, numba 0 against array 1); proved for everything else."
  },
  {
   "property": "C06",
   "status": "proved",
   "theorems": [
    "Verif.C06_nonneg_and_zero_iff",
    "Verif.C06_weighted"
   ],
   "note": "nrg, qd, int; weighted version counts only members with non-zero weight."
  },
  {
   "property": "C07",
   "status": "proved",
   "theorems": [
    "Verif.C07_permutation",
    "Verif.C07_permutation_weighted"
   ],
   "note": "nrg, fair, pwm, qd, int, weighted and unweighted."
  },
  {
   "property": "C08",
   "status": "partial",
   "theorems": [
    "Verif.C08_equivariance",
    "Verif.C08_equivariance_weighted_partial",
    "Verif.C08_weighted_pwm_reflection_fails"
   ],
   "note": "Unweighted: all estimators, all real c and d. Weighted: false for pwm with negative c (C08_weighted_pwm_reflection_fails); proved for everything else."
  },
  {
   "property": "C09",
   "status": "partial",
   "theorems": [
    "Verif.C09_constant_weights_partial",
    "Verif.C09_akr_circperm_differs"
   ],
   "note": "False for akr_circperm on the array path with an even number of members (C09_akr_circperm_differs); proved for everything else."
  },
  {
   "property": "C10",
   "status": "proved",
   "theorems": [
    "Verif.C10_weight_scale",
    "Verif.C10_normalisation_idempotent"
   ],
   "note": "For all float weights, including NaN and infinities, all policies and estimators."
  },
  {
   "property": "C11",
   "status": "partial",
   "theorems": [
    "Verif.C11_omit_weighted_partial",
    "Verif.C11_omit_partial",
    "Verif.C11_none_left_weighted",
    "Verif.C11_none_left",
    "Verif.C11_sorted_leading_nan"
   ],
   "note": "All NaN patterns, weighted and unweighted, both paths, with and without sorted_ensemble; NaN when nothing is left. Only the numba qd kernel with sorted_ensemble=True is excluded: it is wrong with a leading NaN (C11_sorted_leading_nan)."
  },
  {
   "property": "C12",
   "status": "partial",
   "theorems": [
    "Verif.C12_raise_nan",
    "Verif.C12_raise_no_nan",
    "Verif.C12_unknown_policy",
    "Verif.C12_propagate",
    "Verif.C12_propagate_weighted_partial",
    "Verif.C12_int_numba_ignores_nan_weight"
   ],
   "note": "raise and unknown policies at array level; propagate for every estimator and path. False for numba int with one member and NaN weight (C12_int_numba_ignores_nan_weight)."
  },
  {
   "property": "C13",
   "status": "proved",
   "theorems": [
    "Verif.C13_omit_not_implemented"
   ],
   "note": "omit raises NotImplementedError for the estimators whose kernels are not covered by it (akr, akr_circperm, int), at array level, both paths."
  },
  {
   "property": "C14",
   "status": "proved",
   "theorems": [
    "Verif.C14_slicewise",
    "Verif.C14_error",
    "Verif.C14_total",
    "Verif.C14_axis_irrelevant",
    "Verif.C14_nrg_array"
   ],
   "note": "All ranks and axes, weighted and unweighted, all estimators; value and error behaviour of every slice."
  },
  {
   "property": "C15",
   "status": "proved",
   "theorems": [
    "Verif.C15_shape_mismatch"
   ],
   "note": "Any rank, any valid axis."
  },
  {
   "property": "C16",
   "status": "partial",
   "theorems": [
    "Verif.C16_weight_shape",
    "Verif.C16_negative_weight_partial",
    "Verif.C16_omit_accepts_negative",
    "Verif.C16_omit_broadcasts_weights"
   ],
   "note": "Wrong-shaped weights raise for propagate/raise. False in part: with omit a negative weight on a NaN member is accepted (C16_omit_accepts_negative) and broadcastable weights are accepted (C16_omit_broadcasts_weights)."
  },
  {
   "property": "C17",
   "status": "partial",
   "theorems": [
    "Verif.C17_documented_accepted",
    "Verif.C17_documented_accepted_weighted",
    "Verif.C17_unknown_rejected_partial",
    "Verif.C17_numba_table_leaks_names"
   ],
   "note": "All documented names accepted. False in part: the numba table also contains ownrg/vrnrg, which give a TypeError instead of the documented ValueError (C17_numba_table_leaks_names)."
  },
  {
   "property": "C18",
   "status": "proved",
   "theorems": [
    "Verif.C18_sorted_flag",
    "Verif.C18_any_sorting_permutation"
   ],
   "note": "Stated for all float ensembles in ascending order; ties covered by C18_any_sorting_permutation."
  },
  {
   "property": "C19",
   "status": "proved",
   "theorems": [
    "Verif.C19_proper",
    "Verif.C19_proper_weighted"
   ],
   "note": "With and without weights, gap given as an integral."
  },
  {
   "property": "C20",
   "status": "proved",
   "theorems": [
    "Verif.C20_fair_unbiased"
   ],
   "note": "Exact average over all N^M samples."
  },
  {
   "property": "C21",
   "status": "proved",
   "theorems": [
    "Verif.C21_twcrps_is_restricted_integral",
    "Verif.C21_twcrps_weighted",
    "Verif.C21_only_the_side_matters"
   ],
   "note": "Any bounds a <= b (finite or infinite), nrg, qd and int, weighted and unweighted, both paths; C21_only_the_side_matters for all estimators."
  },
  {
   "property": "C22",
   "status": "partial",
   "theorems": [
    "Verif.C22_twcrps_default",
    "Verif.C22_ow_trivial",
    "Verif.C22_ow_trivial_weighted",
    "Verif.C22_vr_trivial_partial"
   ],
   "note": "vr on the array path only for two-dimensional forecasts, see C24."
  },
  {
   "property": "C23",
   "status": "proved",
   "theorems": [
    "Verif.C23_ow_value",
    "Verif.C23_ow_value_weighted",
    "Verif.C23_vr_value_weighted",
    "Verif.C23_ow_nonneg",
    "Verif.C23_ow_homogeneous",
    "Verif.C23_vr_homogeneous",
    "Verif.C23_vr_homogeneous_weighted",
    "Verif.C23_negative_weight",
    "Verif.C23_default_weight",
    "Verif.C23_ow_default"
   ],
   "note": "Value formulas, non-negativity, homogeneity, negative weights rejected."
  },
  {
   "property": "C24",
   "status": "partial",
   "theorems": [
    "Verif.C24_vr_value_partial",
    "Verif.C24_false_scalar",
    "Verif.C24_false_rank3",
    "Verif.C24_false_silent"
   ],
   "note": "False: the array path without ensemble weights averages over axis 1 (vr_ensemble, crps/_approx.py:173). It raises for one-dimensional forecasts (C24_false_scalar) and for most higher ranks (C24_false_rank3), and silently returns a wrong value for square ones (C24_false_silent). Proved for the numba path and for two-dimensional forecasts."
  },
  {
   "property": "C25",
   "status": "partial",
   "theorems": [
    "Verif.C25_false_omit_raises",
    "Verif.C25_omit_last_ok",
    "Verif.C25_false_omit_silent",
    "Verif.C25_ow_axis_partial",
    "Verif.C25_ow_axis_weighted_partial",
    "Verif.C25_vr_axis_partial",
    "Verif.C25_vr_axis_weighted_partial"
   ],
   "note": "False for nan_policy=omit: ValueError (C25_false_omit_raises) or a transposed mask (C25_false_omit_silent). Proved for propagate."
  },
  {
   "property": "C26",
   "status": "proved",
   "theorems": [
    "Verif.C26_quantile_score_value",
    "Verif.C26_quantile_score_raises",
    "Verif.C26_pinball_properties",
    "Verif.C26_crps_quantile_value",
    "Verif.C26_crps_quantile_raises"
   ],
   "note": "Any broadcastable shapes for quantile_score; any rank and axis for crps_quantile, both paths."
  },
  {
   "property": "C27",
   "status": "proved",
   "theorems": [
    "Verif.C27_interval_is_quantile_sum",
    "Verif.C27_interval_score_array",
    "Verif.C27_interval_score_squeeze",
    "Verif.C27_interval_score_cases",
    "Verif.C27_interval_score_scalar",
    "Verif.C27_shape_mismatch"
   ],
   "note": "Single numbers and arrays of cases with several intervals (no axis of length one, where np.squeeze does nothing)."
  },
  {
   "property": "C28",
   "status": "partial",
   "theorems": [
    "Verif.C28_wis_numba",
    "Verif.C28_wis_array_partial",
    "Verif.C28_false_array",
    "Verif.C28_default_weights"
   ],
   "note": "False on the array path: core/interval/_score.py:39 adds w_median*median instead of w_median*|obs-median| (C28_false_array). Proved for the numba path; C28_wis_array_partial states what the array path returns."
  },
  {
   "property": "C29",
   "status": "proved",
   "theorems": [
    "Verif.C29_quantile_score_consistent",
    "Verif.C29_only_quantiles_are_optimal"
   ],
   "note": "Both directions: quantiles are optimal and only quantiles are optimal."
  },
  {
   "property": "C30",
   "status": "proved",
   "theorems": [
    "Verif.C30_brier_value",
    "Verif.C30_brier_range",
    "Verif.C30_brier_strictly_proper",
    "Verif.C30_log_value",
    "Verif.C30_log_strictly_proper",
    "Verif.C30_log_excluding_report",
    "Verif.C30_invalid_inputs"
   ],
   "note": "Any broadcastable shapes; strict propriety, infinite log scores included. NaN observations raise although the message lists them as allowed."
  },
  {
   "property": "C31",
   "status": "proved",
   "theorems": [
    "Verif.C31_rps_value",
    "Verif.C31_onehot_same",
    "Verif.C31_two_categories",
    "Verif.C31_rps_proper",
    "Verif.C31_invalid_probability"
   ],
   "note": "Any rank and category axis; strict propriety."
  },
  {
   "property": "C32",
   "status": "proved",
   "theorems": [
    "Verif.C32_rls_value",
    "Verif.C32_rls_proper"
   ],
   "note": "Any rank and category axis, infinite scores included; strict propriety for positive forecasts."
  },
  {
   "property": "C33",
   "status": "proved",
   "theorems": [
    "Verif.C33_value",
    "Verif.C33_value_weighted",
    "Verif.C33_paths",
    "Verif.C33_univariate",
    "Verif.C33_nonneg",
    "Verif.C33_zero_iff",
    "Verif.C33_perm",
    "Verif.C33_isometry",
    "Verif.C33_translation",
    "Verif.C33_scale"
   ],
   "note": "Energy score: all documented estimators; the value is related to an independent kernel-mean formula over Euclidean vectors; zero iff all members (with positive weight) equal the observation."
  },
  {
   "property": "C34",
   "status": "partial",
   "theorems": [
    "Verif.C34_paths_unweighted",
    "Verif.C34_paths_weighted_partial",
    "Verif.C34_circperm_weighted_differs",
    "Verif.C34_constant_weights",
    "Verif.C34_owes_value",
    "Verif.C34_vres_value",
    "Verif.C34_vres_weighted",
    "Verif.C34_owes_weighted_array",
    "Verif.C34_owes_weighted_partial",
    "Verif.C34_owes_weighted_differs"
   ],
   "note": "Paths agree without weights for every estimator and, with weights, for every estimator but akr_circperm with odd M (differs: witness) ; weighted owes numba kernel uses mean(fw) instead of the weighted mean (differs: witness). The model reads `ow = ow[0]` in the weighted gufuncs as unpacking the scalar argument."
  },
  {
   "property": "C35",
   "status": "proved",
   "theorems": [
    "Verif.C35_proper",
    "Verif.C35_proper_weighted"
   ],
   "note": "Propriety over finitely supported distributions in R^D, unweighted and weighted; uses conditional negative definiteness of the Euclidean distance, proved in Lemmas/PosDef."
  },
  {
   "property": "C36",
   "status": "proved",
   "theorems": [
    "Verif.C36_value",
    "Verif.C36_value_weighted",
    "Verif.C36_fair_value",
    "Verif.C36_default_weights",
    "Verif.C36_paths",
    "Verif.C36_paths_weighted",
    "Verif.C36_constant_weights",
    "Verif.C36_nonneg",
    "Verif.C36_nonneg_weighted",
    "Verif.C36_translation",
    "Verif.C36_translation_fair",
    "Verif.C36_perm",
    "Verif.C36_perfect",
    "Verif.C36_scale",
    "Verif.C36_proper",
    "Verif.C36_owvs_value",
    "Verif.C36_vrvs_value",
    "Verif.C36_owvs_weighted",
    "Verif.C36_vrvs_weighted"
   ],
   "note": "Values, path agreement (unweighted and weighted, nrg and fair), non-negativity, translation, permutation, zero, homogeneity, propriety, default pair weights, and the outcome-weighted and vertically re-scaled variants are proved."
  },
  {
   "property": "C37",
   "status": "partial",
   "theorems": [
    "Verif.C37_gksuv_value",
    "Verif.C37_gksmv_value",
    "Verif.C37_gksuv_fair",
    "Verif.C37_gksmv_fair",
    "Verif.C37_gksuv_weighted_value",
    "Verif.C37_gksmv_weighted_value",
    "Verif.C37_gksuv_paths",
    "Verif.C37_gksmv_paths",
    "Verif.C37_gksuv_paths_weighted_partial",
    "Verif.C37_gksmv_paths_weighted_partial",
    "Verif.C37_gksuv_circperm_differs",
    "Verif.C37_gksuv_circperm_w",
    "Verif.C37_gksuv_fair_weighted",
    "Verif.C37_gksuv_fair_differs",
    "Verif.C37_gksmv_fair_weighted",
    "Verif.C37_gksmv_fair_differs",
    "Verif.C37_gksuv_constant_weights_partial",
    "Verif.C37_gksuv_constant_fair",
    "Verif.C37_gksmv_constant_weights_partial",
    "Verif.C37_gksuv_nonneg",
    "Verif.C37_gksuv_nonneg_weighted",
    "Verif.C37_gksmv_nonneg",
    "Verif.C37_gksmv_nonneg_weighted",
    "Verif.C37_gksuv_zero",
    "Verif.C37_gksmv_zero",
    "Verif.C37_gksuv_fair_zero",
    "Verif.C37_one_variable",
    "Verif.C37_one_variable_weighted_partial",
    "Verif.C37_owgksuv_value",
    "Verif.C37_vrgksuv_value",
    "Verif.C37_owgksuv_weighted",
    "Verif.C37_vrgksuv_weighted",
    "Verif.C37_owgksmv_value",
    "Verif.C37_vrgksmv_value",
    "Verif.C37_owgksmv_weighted",
    "Verif.C37_vrgksmv_weighted_partial",
    "Verif.C37_vrgksmv_weighted_fails",
    "Verif.C37_gksuv_slicewise",
    "Verif.C37_gksmv_slicewise"
   ],
   "note": "Proved: values of nrg/fair, agreement of the paths without weights for all four estimators, non-negativity (positive definiteness of the Gaussian kernel in every dimension), zero at the observation, one variable = univariate, outcome-weighted and re-scaled values, slice-wise application. False parts proved as negations: weighted akr_circperm is rejected by the array path (dispatch tests for akr_circperm_w), weighted fair keeps the diagonal on the array path (paths differ; constant weights differ from no weights), vrgksmv with weights always fails on numba."
  },
  {
   "property": "C38",
   "status": "proved",
   "theorems": [
    "Verif.C38_value",
    "Verif.C38_paths",
    "Verif.C38_affine",
    "Verif.C38_translation",
    "Verif.C38_proper",
    "Verif.C38_slicewise"
   ],
   "note": "Proved for every ensemble of positive variance, both paths and both variance conventions; agreement of the paths for all inputs including missing and infinite values."
  },
  {
   "property": "C39",
   "status": "partial",
   "theorems": [
    "Verif.C39_value",
    "Verif.C39_paths",
    "Verif.C39_nonneg",
    "Verif.C39_affine",
    "Verif.C39_translation",
    "Verif.C39_reflection",
    "Verif.C39_slicewise_partial",
    "Verif.C39_squeeze",
    "Verif.C39_squeeze_values"
   ],
   "note": "Values proved for every ensemble of at least three members not all equal; reflection, translation and homogeneity follow from one affine law. False part: the array path drops axes of length one from the result and the numba path does not, so the shapes differ (C39_squeeze)."
  },
  {
   "property": "C40",
   "status": "proved",
   "theorems": [
    "Verif.C40_init",
    "Verif.C40_available",
    "Verif.C40_reregister",
    "Verif.C40_unavailable",
    "Verif.C40_active"
   ],
   "note": "Proved over every finite history of register, lookup, set_active and active operations. Which libraries are installed is a parameter, taken not to change during a session."
  },
  {
   "property": "C41",
   "status": "partial",
   "theorems": [
    "Verif.C41_exponentialM_partial",
    "Verif.C41_exponential2_partial",
    "Verif.C41_exponentialM_writes",
    "Verif.C41_exponential2_writes",
    "Verif.C41_second_call_differs"
   ],
   "note": "False for a float array whose location is subtracted in place: crps_exponentialM and logs_exponential2 change the caller's observations (C41_exponentialM_writes, C41_exponential2_writes, C41_second_call_differs). The partial theorems give the cases in which the caller's data are left alone."
  },
  {
   "property": "C42",
   "status": "partial",
   "theorems": [
    "Verif.C42_crps_partial",
    "Verif.C42_float",
    "Verif.C42_truncates",
    "Verif.C42_towards_zero",
    "Verif.C42_witness",
    "Verif.C42_energy_raises",
    "Verif.C42_energy_fair_raises",
    "Verif.C42_energy_truncates",
    "Verif.C42_energy_partial",
    "Verif.C42_exponentialM_raises",
    "Verif.C42_exponential2_raises"
   ],
   "note": "False: integer observations truncate the CRPS on the paths whose gufunc kernel writes into an array typed like the input (C42_witness) and raise on others; proved for float data and for every unaffected estimator. Energy score: nrg and fair without weights raise, every other case truncates."
  },
  {
   "property": "C43",
   "status": "proved",
   "theorems": [
    "Verif.C43_uniform"
   ],
   "note": "Closed.uniform on scalars (elementwise function); real arithmetic; the CRPS integral converges and equals the closed form for all admissible parameters and every real observation."
  },
  {
   "property": "C44",
   "status": "proved",
   "theorems": [
    "Verif.C44_exponential"
   ],
   "note": "Closed.exponential on scalars (elementwise function); real arithmetic; the CRPS integral converges and equals the closed form for all admissible parameters and every real observation."
  },
  {
   "property": "C45",
   "status": "proved",
   "theorems": [
    "Verif.C45_exponentialM"
   ],
   "note": "Closed.exponentialM on scalars (elementwise function); real arithmetic; the CRPS integral converges and equals the closed form for all admissible parameters and every real observation."
  },
  {
   "property": "C46",
   "status": "proved",
   "theorems": [
    "Verif.C46_laplace"
   ],
   "note": "Closed.laplace on scalars (elementwise function); real arithmetic; the CRPS integral converges and equals the closed form for all admissible parameters and every real observation."
  },
  {
   "property": "C47",
   "status": "proved",
   "theorems": [
    "Verif.C47_2pexponential"
   ],
   "note": "Closed.twopexponential on scalars (elementwise function); real arithmetic; the CRPS integral converges and equals the closed form for all admissible parameters and every real observation."
  },
  {
   "property": "C48",
   "status": "proved",
   "theorems": [
    "Verif.C48_logistic"
   ],
   "note": "Closed.logistic on scalars (elementwise function); real arithmetic; the CRPS integral converges and equals the closed form for all admissible parameters and every real observation."
  },
  {
   "property": "C49",
   "status": "proved",
   "theorems": [
    "Verif.C49_gpd"
   ],
   "note": "Closed.gpd on scalars (elementwise function); real arithmetic; the CRPS integral converges and equals the closed form for all admissible parameters and every real observation."
  },
  {
   "property": "C50",
   "status": "proved",
   "theorems": [
    "Verif.C50_normal"
   ],
   "note": "Closed.normal on scalars (elementwise function); real arithmetic; the CRPS integral converges and equals the closed form for all admissible parameters and every real observation."
  },
  {
   "property": "C51",
   "status": "proved",
   "theorems": [
    "Verif.C51_normal",
    "Verif.C51_logistic",
    "Verif.C51_laplace",
    "Verif.C51_t",
    "Verif.C51_gpd",
    "Verif.C51_gev",
    "Verif.C51_gtclogistic",
    "Verif.C51_gtcnormal",
    "Verif.C51_gtct",
    "Verif.C51_truncated_censored",
    "Verif.C51_exponentialM",
    "Verif.C51_logs_logistic",
    "Verif.C51_logs_laplace",
    "Verif.C51_logs_t",
    "Verif.C51_logs_gpd",
    "Verif.C51_logs_gev",
    "Verif.C51_logs_tlogistic",
    "Verif.C51_logs_tnormal",
    "Verif.C51_logs_normal",
    "Verif.C51_logs_exponential2",
    "Verif.C51_2pexponential",
    "Verif.C51_uniform",
    "Verif.C51_logs_2pexponential",
    "Verif.C51_logs_2pnormal",
    "Verif.C51_logs_uniform"
   ],
   "note": "All location-scale families of the closed-form scores: normal, logistic, Laplace, t, GPD, GEV, the generalised, truncated and censored normal, logistic and t for every float observation and bound; exponentialM, two-piece exponential and uniform for finite ones. Log scores: normal, logistic, Laplace, t, GPD, GEV, truncated normal and logistic, exponential2, two-piece exponential, two-piece normal, uniform."
  },
  {
   "property": "C52",
   "status": "proved",
   "theorems": [
    "Verif.C52_gtct_t",
    "Verif.C52_2pexponential_laplace",
    "Verif.C52_exponentialM_exponential",
    "Verif.C52_gpd_exponential",
    "Verif.C52_gtcnormal_normal",
    "Verif.C52_gtclogistic_logistic",
    "Verif.C52_mixnorm_normal",
    "Verif.C52_2pnormal_normal"
   ],
   "note": "For finite observations. At infinite observations the generalised families return NaN where the plain ones return an infinity."
  },
  {
   "property": "C53",
   "status": "partial",
   "theorems": [
    "Verif.C53_false",
    "Verif.C53_false_truncated",
    "Verif.C53_partial"
   ],
   "note": "False: with one finite bound the logistic formulas return NaN for every input (C53_false)."
  },
  {
   "property": "C54",
   "status": "partial",
   "theorems": [
    "Verif.C54_false",
    "Verif.C54_false_truncated",
    "Verif.C54_partial",
    "Verif.C54_bounds_partial"
   ],
   "note": "False: a bound at the location gives NaN (C54_false). The partial theorems cover no bounds and every bound other than the location."
  },
  {
   "property": "C55",
   "status": "partial",
   "theorems": [
    "Verif.C55_partial",
    "Verif.C55_false"
   ],
   "note": "False: the sum runs over 0..n with n the number of failure states (C55_false). Holds when min(m,k) is at most n."
  },
  {
   "property": "C56",
   "status": "partial",
   "theorems": [
    "Verif.C56_crps_partial",
    "Verif.C56_false_value",
    "Verif.C56_false",
    "Verif.C56_partial"
   ],
   "note": "False: NaN at every non-positive observation (C56_false, C56_false_value); at positive observations it is the CRPS."
  },
  {
   "property": "C57",
   "status": "proved",
   "theorems": [
    "Verif.C57_beta",
    "Verif.C57_gamma",
    "Verif.C57_gev",
    "Verif.C57_exponential",
    "Verif.C57_exponential2",
    "Verif.C57_2pexponential",
    "Verif.C57_laplace",
    "Verif.C57_logistic",
    "Verif.C57_uniform",
    "Verif.C57_gpd",
    "Verif.C57_gpd_endpoint",
    "Verif.C57_normal",
    "Verif.C57_lognormal",
    "Verif.C57_loglogistic",
    "Verif.C57_loglaplace",
    "Verif.C57_2pnormal",
    "Verif.C57_mixnorm",
    "Verif.C57_tnormal",
    "Verif.C57_tlogistic",
    "Verif.C57_tnormal_lower",
    "Verif.C57_tnormal_upper",
    "Verif.C57_tlogistic_lower",
    "Verif.C57_tlogistic_upper",
    "Verif.C57_t",
    "Verif.C57_tt",
    "Verif.C57_tt_lower",
    "Verif.C57_tt_upper"
   ],
   "note": "All eight listed families, and also lognormal, loglogistic, loglaplace, two-piece normal, gamma, generalised extreme value, beta (off the end points), t, normal mixtures, truncated normal and truncated logistic and truncated t (two-sided and one-sided bounds). Each theorem also identifies the distribution function. The unbounded end point of a generalised Pareto density with shape below -1 is C57_gpd_endpoint."
  },
  {
   "property": "C58",
   "status": "partial",
   "theorems": [
    "Verif.C58_binomial_partial",
    "Verif.C58_binomial_noninteger",
    "Verif.C58_binomial_nan",
    "Verif.C58_poisson",
    "Verif.C58_negbinom_partial",
    "Verif.C58_negbinom_small_size",
    "Verif.C58_negbinom_fails",
    "Verif.C58_hypergeometric_partial",
    "Verif.C58_hypergeometric_noninteger"
   ],
   "note": "False in places: logs_negbinom is +inf everywhere for size below one (C58_negbinom_fails), logs_binomial and logs_hypergeometric are finite at some non-integers, logs_binomial is NaN beyond n when prob=1. Proved for everything else; Poisson in full."
  },
  {
   "property": "C59",
   "status": "proved",
   "theorems": [
    "Verif.C59_exclusive",
    "Verif.C59_accepts",
    "Verif.C59_agree"
   ],
   "note": "Every combination of given and omitted arguments."
  },
  {
   "property": "C60",
   "status": "proved",
   "theorems": [
    "Verif.C60_decomposition",
    "Verif.C60_cep_mean",
    "Verif.C60_cep_range"
   ],
   "note": "Isotonic regression (scipy) is a parameter assumed to return the least-squares monotone fit; its existence is proved. Also: fitted probabilities keep the mean and range of the outcomes."
  },
  {
   "property": "C61",
   "status": "proved",
   "theorems": [
    "Verif.C61_duplication",
    "Verif.C61_fair_eq_nrg_minus"
   ],
   "note": "Any replication factor; difference formula between fair and nrg."
  },
  {
   "property": "C62",
   "status": "proved",
   "theorems": [
    "Verif.C62_zero_weight_member"
   ],
   "note": "Zero-weight member at any position, five estimators."
  },
  {
   "property": "C63",
   "status": "proved",
   "theorems": [
    "Verif.C63_silverman",
    "Verif.C63_logs",
    "Verif.C63_clogs",
    "Verif.C63_default",
    "Verif.C63_outside"
   ],
   "note": "Values of logs_ensemble and clogs_ensemble for all shapes, axes and bandwidths (given or Silverman), scalar thresholds; defaults coincide; at or outside the thresholds zero with cens=False."
  },
  {
   "property": "C64",
   "status": "partial",
   "theorems": [
    "Verif.C64_es_axes",
    "Verif.C64_vs_axes",
    "Verif.C64_gksmv_axes",
    "Verif.C64_es_weights_partial",
    "Verif.C64_vs_weights_partial",
    "Verif.C64_gksmv_weights_partial",
    "Verif.C64_weights_last_axis_fails",
    "Verif.C64_weights_silently_wrong"
   ],
   "note": "Proved for the energy, variogram and Gaussian kernel scores: without ensemble weights every pair of distinct axes (positive or negative) gives the score of the moved array; with weights the same holds when the ensemble axis precedes the variable axis. False otherwise, proved as negations: with the variable axis first the weights are moved by the wrong axis, which fails with an axis error when the ensemble axis is the last one and silently yields a wrong number otherwise (witness)."
  },
  {
   "property": "C65",
   "status": "partial",
   "theorems": [
    "Verif.C65_weighted_pwm_fair_partial",
    "Verif.C65_weighted_pwm_ne_fair"
   ],
   "note": "False as stated (C65_weighted_pwm_ne_fair); the exact difference is proved."
  },
  {
   "property": "C66",
   "status": "partial",
   "theorems": [
    "Verif.C66_out_of_range_axis_partial",
    "Verif.C66_out_of_range_axis_accepted"
   ],
   "note": "False as stated: m_axis=-3 is accepted on a 2x2 forecast (C66_out_of_range_axis_accepted). Proved for m_axis >= ndim or m_axis < -2 ndim."
  },
  {
   "property": "C67",
   "status": "partial",
   "theorems": [
    "Verif.C67_false_error",
    "Verif.C67_false",
    "Verif.C67_partial"
   ],
   "note": "False: per-observation thresholds raise ValueError (C67_false_error) or, when n = M, are paired with members (C67_false). Holds for scalar thresholds."
  },
  {
   "property": "C68",
   "status": "partial",
   "theorems": [
    "Verif.C68_partial",
    "Verif.C68_false"
   ],
   "note": "False with tied forecasts (C68_false); holds when forecasts are distinct."
  },
  {
   "property": "C69",
   "status": "proved",
   "theorems": [
    "Verif.C69_gtcnormal",
    "Verif.C69_gtcnormal_upper",
    "Verif.C69_gtcnormal_lower",
    "Verif.C69_tnormal",
    "Verif.C69_cnormal",
    "Verif.C69_full_mass_nan"
   ],
   "note": "All bounds finite or infinite; masses adding up to one give NaN (C69_full_mass_nan)."
  },
  {
   "property": "C70",
   "status": "proved",
   "theorems": [
    "Verif.C70_gtclogistic",
    "Verif.C70_tlogistic_clogistic"
   ],
   "note": ""
  },
  {
   "property": "C71",
   "status": "proved",
   "theorems": [
    "Verif.C71_2pnormal"
   ],
   "note": ""
  },
  {
   "property": "C72",
   "status": "proved",
   "theorems": [
    "Verif.C72_mixnorm"
   ],
   "note": ""
  },
  {
   "property": "C73",
   "status": "partial",
   "theorems": [
    "Verif.C73_false_negative",
    "Verif.C73_partial"
   ],
   "note": "False at negative observations (NaN); the CRPS at all others."
  },
  {
   "property": "C74",
   "status": "partial",
   "theorems": [
    "Verif.C74_false_negative",
    "Verif.C74_partial"
   ],
   "note": "False at negative observations (NaN); the CRPS at all others."
  },
  {
   "property": "C75",
   "status": "proved",
   "theorems": [
    "Verif.C75_gamma",
    "Verif.C75_api"
   ],
   "note": "Gamma CRPS closed form proved equal to the integral for all parameters and observations; public function with rate or scale."
  },
  {
   "property": "C76",
   "status": "partial",
   "theorems": [
    "Verif.C76_false_negative",
    "Verif.C76_partial",
    "Verif.C76_api_partial"
   ],
   "note": "Proved for non-negative observations and for non-positive shift. False otherwise: with a positive shift and a negative observation the code returns a value strictly below the CRPS (C76_false_negative)."
  },
  {
   "property": "C77",
   "status": "partial",
   "theorems": [
    "Verif.C77_false_outside",
    "Verif.C77_partial"
   ],
   "note": "Proved for observations in [lower, upper]. False outside: the code returns NaN where the CRPS is finite (C77_false_outside)."
  },
  {
   "property": "C78",
   "status": "proved",
   "theorems": [
    "Verif.C78_t"
   ],
   "note": "Proved for df>1 (finite mean) and every observation."
  },
  {
   "property": "C79",
   "status": "partial",
   "theorems": [
    "Verif.C79_binomial_partial",
    "Verif.C79_prob_one_fails"
   ],
   "note": "Equal up to a stated error below 1e-36 scale for prob < 1. False for prob = 1: three times the score below n, minus the score above (C79_prob_one_fails)."
  },
  {
   "property": "C80",
   "status": "proved",
   "theorems": [
    "Verif.C80_poisson"
   ],
   "note": "Proved for every mean >= 0 and every real observation."
  },
  {
   "property": "C81",
   "status": "proved",
   "theorems": [
    "Verif.C81_negbinom",
    "Verif.C81_negbinom_mu"
   ],
   "note": "Proved for every size > 0, probability in (0,1] and real observation, and for the parametrisation by the mean."
  },
  {
   "property": "C82",
   "status": "proved",
   "theorems": [
    "Verif.C82_gev",
    "Verif.C82_gumbel",
    "Verif.C82_gumbel_bound"
   ],
   "note": "Shape other than zero: exact equality with the CRPS integral. Shape zero: the code uses a decimal expansion of Euler's constant; the difference is stated exactly and bounded by 1e-7 times the scale."
  },
  {
   "property": "C83",
   "status": "partial",
   "theorems": [
    "Verif.C83_gtct_partial",
    "Verif.C83_gtct_upper_partial",
    "Verif.C83_gtct_lower_partial",
    "Verif.C83_tt_partial",
    "Verif.C83_ct_partial",
    "Verif.C83_false"
   ],
   "note": "False with a bound at the location (C83_false: the code returns NaN where the CRPS exists). Proved for two, one and no bounds otherwise."
  },
  {
   "property": "C84",
   "status": "partial",
   "theorems": [
    "Verif.C84_value_partial",
    "Verif.C84_false",
    "Verif.C84_one_variable_raises",
    "Verif.C84_singular",
    "Verif.C84_few_members",
    "Verif.C84_univariate",
    "Verif.C84_paths",
    "Verif.C84_perm",
    "Verif.C84_affine",
    "Verif.C84_proper",
    "Verif.C84_slices",
    "Verif.C84_empty_batch",
    "Verif.C84_slice_by_slice"
   ],
   "note": "False for one variable on the array path (C84_false, C84_one_variable_raises). Proved: value, singular ensembles, both paths agree, affine equivariance, permutation, strict propriety, arrays of any shape including when the call raises (C84_slice_by_slice). Linear algebra is exact; a single member is not modelled on numba."
  },
  {
   "property": "C85",
   "status": "proved",
   "theorems": [
    "Verif.C85_crps",
    "Verif.C85_logs"
   ],
   "note": "Reduces to C72 on every slice."
  },
  {
   "property": "C86",
   "status": "partial",
   "theorems": [
    "Verif.C86_gamma",
    "Verif.C86_gamma_negative",
    "Verif.C86_factorial",
    "Verif.C86_comb",
    "Verif.C86_comb_above",
    "Verif.C86_comb_jax",
    "Verif.C86_comb_real",
    "Verif.C86_negbinom_partial",
    "Verif.C86_negbinom_false",
    "Verif.C86_binomial",
    "Verif.C86_binomial_jax",
    "Verif.C86_hypergeometric_jax",
    "Verif.C86_numpy",
    "Verif.C86_poisson"
   ],
   "note": "False for non-integer sizes on jax and torch, for k > n on jax, and for negative arguments of gamma on torch (C86_negbinom_false, C86_comb_jax, C86_gamma_negative). Proved for positive arguments and natural k <= n."
  },
  {
   "property": "C87",
   "status": "partial",
   "theorems": [
    "Verif.C87_partial",
    "Verif.C87_false",
    "Verif.C87_fallback_shape"
   ],
   "note": "False when vmap refuses the function (C87_false). Proved for the vmap branch."
  },
  {
   "property": "C88",
   "status": "proved",
   "theorems": [
    "Verif.C88_akr",
    "Verif.C88_akr_circperm",
    "Verif.C88_infinite"
   ],
   "note": "For real members and NaN; with infinite members the two differ (C88_infinite)."
  },
  {
   "property": "C89",
   "status": "proved",
   "theorems": [
    "Verif.C89_raise",
    "Verif.C89_omit",
    "Verif.C89_other",
    "Verif.C89_check"
   ],
   "note": ""
  },
  {
   "property": "C90",
   "status": "partial",
   "theorems": [
    "Verif.C90_scalar_n_partial",
    "Verif.C90_single",
    "Verif.C90_array_n_partial",
    "Verif.C90_lengths",
    "Verif.C90_matrix_raises",
    "Verif.C90_false"
   ],
   "note": "False for arrays of rank two (C90_false, C90_matrix_raises). Proved for scalars and one-dimensional arrays."
  },
  {
   "property": "C91",
   "status": "partial",
   "theorems": [
    "Verif.C91_scalar_n",
    "Verif.C91_array_n_partial",
    "Verif.C91_broadcast_raises",
    "Verif.C91_false"
   ],
   "note": "False when n has to be broadcast (C91_false, C91_broadcast_raises). Proved for scalar n with all shapes and for n of the full shape."
  },
  {
   "property": "C92",
   "status": "proved",
   "theorems": [
    "Verif.C92_owes",
    "Verif.C92_vres",
    "Verif.C92_owvs",
    "Verif.C92_vrvs",
    "Verif.C92_owgksmv",
    "Verif.C92_vrgksmv",
    "Verif.C92_owgksuv",
    "Verif.C92_vrgksuv",
    "Verif.C92_owgksuv_weighted",
    "Verif.C92_vrgksuv_weighted"
   ],
   "note": "Proved for all shapes, axes and weight functions, including the exact condition under which the call raises."
  },
  {
   "property": "C93",
   "status": "partial",
   "theorems": [
    "Verif.C93_owes_partial",
    "Verif.C93_vres_partial",
    "Verif.C93_owvs_partial",
    "Verif.C93_vrvs_partial",
    "Verif.C93_owgksmv_partial",
    "Verif.C93_vrgksmv_partial",
    "Verif.C93_vrgksmv_numba_raises",
    "Verif.C93_vrgksmv_numba_kind",
    "Verif.C93_false"
   ],
   "note": "Proved when the ensemble axis precedes the variable axis. False for the ensemble axis last (C93_false: AxisError although the weights have the documented shape) and for vrgksmv_ensemble with numba (C93_vrgksmv_numba_raises)."
  },
  {
   "property": "C94",
   "status": "proved",
   "theorems": [
    "Verif.C94_es",
    "Verif.C94_gksmv",
    "Verif.C94_vs",
    "Verif.C94_gksuv",
    "Verif.C94_es_weighted",
    "Verif.C94_gksmv_weighted",
    "Verif.C94_vs_weighted",
    "Verif.C94_gksuv_weighted"
   ],
   "note": "Proved. For the weighted multivariate calls with the other axis order see C64."
  },
  {
   "property": "C95",
   "status": "proved",
   "theorems": [
    "Verif.C95_estimators",
    "Verif.C95_weighted",
    "Verif.C95_slices",
    "Verif.C95_outcome",
    "Verif.C95_quantile",
    "Verif.C95_vr",
    "Verif.C95_vr_rank2"
   ],
   "note": "Proved for the literal array code (Model/CrpsNp over the numpy operations of Model/Np), both against the one-slice formulas and as a statement about the array code alone (C95_slices)."
  },
  {
   "property": "C96",
   "status": "proved",
   "theorems": [
    "Verif.C96_estimators",
    "Verif.C96_weighted",
    "Verif.C96_outcome",
    "Verif.C96_slices"
   ],
   "note": "Proved for the literal array code (Model/EnergyNp over the numpy operations of Model/Np), both against the one-vector formulas and as a statement about the array code alone (C96_slices)."
  },
  {
   "property": "C97",
   "status": "proved",
   "theorems": [
    "Verif.C97_estimators",
    "Verif.C97_shared_weights",
    "Verif.C97_outcome",
    "Verif.C97_slices"
   ],
   "note": "Proved for the literal array code (Model/VariogramNp), with pair weights per batch entry or one shared matrix (C97_shared_weights)."
  },
  {
   "property": "C98",
   "status": "proved",
   "theorems": [
    "Verif.C98_uv_estimators",
    "Verif.C98_uv_weighted",
    "Verif.C98_uv_outcome",
    "Verif.C98_mv_estimators",
    "Verif.C98_mv_weighted",
    "Verif.C98_mv_outcome",
    "Verif.C98_slices"
   ],
   "note": "Proved for the literal array code (Model/KernelNp), univariate and multivariate, both against the one-slice formulas and as a statement about the array code alone (C98_slices)."
  },
  {
   "property": "C99",
   "status": "proved",
   "theorems": [
    "Verif.C99_crps",
    "Verif.C99_twcrps",
    "Verif.C99_owcrps",
    "Verif.C99_vrcrps",
    "Verif.C99_quantile",
    "Verif.C99_gksuv",
    "Verif.C99_twgksuv",
    "Verif.C99_owgksuv",
    "Verif.C99_vrgksuv",
    "Verif.C99_es",
    "Verif.C99_twes",
    "Verif.C99_owes",
    "Verif.C99_vres",
    "Verif.C99_gksmv",
    "Verif.C99_twgksmv",
    "Verif.C99_owgksmv",
    "Verif.C99_vrgksmv",
    "Verif.C99_vs",
    "Verif.C99_twvs",
    "Verif.C99_owvs",
    "Verif.C99_vrvs"
   ],
   "note": "Proved: the whole call on arrays (checks followed by the literal array code) has the same outcome as the slice-wise model; univariate functions without hypotheses, multivariate ones for two different in-range axes."
  },
  {
   "property": "C100",
   "status": "proved",
   "theorems": [
    "Verif.C100_vs",
    "Verif.C100_vs_weights",
    "Verif.C100_owvs",
    "Verif.C100_owvs_weights",
    "Verif.C100_vrvs",
    "Verif.C100_vrvs_weights",
    "Verif.C100_shared"
   ],
   "note": "Both paths; one matrix of pair weights per observation, or one for all."
  },
  {
   "property": "C101",
   "status": "proved",
   "theorems": [
    "Verif.C101_uniform",
    "Verif.C101_exponential",
    "Verif.C101_exponentialM",
    "Verif.C101_laplace",
    "Verif.C101_2pexponential",
    "Verif.C101_logistic",
    "Verif.C101_normal",
    "Verif.C101_gpd",
    "Verif.C101_gamma",
    "Verif.C101_gev",
    "Verif.C101_gtcnormal",
    "Verif.C101_gtcnormal_upper",
    "Verif.C101_gtcnormal_lower",
    "Verif.C101_gtclogistic",
    "Verif.C101_2pnormal",
    "Verif.C101_mixnorm",
    "Verif.C101_t",
    "Verif.C101_gtct",
    "Verif.C101_lognormal",
    "Verif.C101_loglogistic",
    "Verif.C101_loglaplace",
    "Verif.C101_csg0",
    "Verif.C101_poisson",
    "Verif.C101_hypergeometric",
    "Verif.C101_negbinom",
    "Verif.C101_beta",
    "Verif.C101_ensemble",
    "Verif.C101_ensemble_weighted",
    "Verif.C101_truth_wins",
    "Verif.C101_normal_parameters",
    "Verif.C101_logistic_parameters"
   ],
   "note": "Mean score under every law with finite mean = entropy + Cramér distance, zero distance iff equal distribution functions. GEV with shape 0 and the binomial are left out: their values carry a decimal Euler constant and a 1e-36 offset."
  },
  {
   "property": "C102",
   "status": "proved",
   "theorems": [
    "Verif.C102_exponential",
    "Verif.C102_exponential2",
    "Verif.C102_2pexponential",
    "Verif.C102_laplace",
    "Verif.C102_logistic",
    "Verif.C102_uniform",
    "Verif.C102_gpd",
    "Verif.C102_normal",
    "Verif.C102_lognormal",
    "Verif.C102_loglogistic",
    "Verif.C102_loglaplace",
    "Verif.C102_2pnormal",
    "Verif.C102_mixnorm",
    "Verif.C102_tnormal",
    "Verif.C102_tlogistic",
    "Verif.C102_tnormal_lower",
    "Verif.C102_tnormal_upper",
    "Verif.C102_tlogistic_lower",
    "Verif.C102_tlogistic_upper",
    "Verif.C102_gev",
    "Verif.C102_t",
    "Verif.C102_tt",
    "Verif.C102_tt_lower",
    "Verif.C102_tt_upper",
    "Verif.C102_gamma",
    "Verif.C102_beta",
    "Verif.C102_normal_mean",
    "Verif.C102_normal_parameters",
    "Verif.C102_binomial",
    "Verif.C102_poisson",
    "Verif.C102_negbinom",
    "Verif.C102_hypergeometric"
   ],
   "note": "Means have to exist as hypotheses; the negative binomial score with size below one is +inf everywhere (C58), so nothing is claimed there."
  },
  {
   "property": "C103",
   "status": "proved",
   "theorems": [
    "Verif.C103_gksuv",
    "Verif.C103_gksuv_weighted",
    "Verif.C103_gksmv",
    "Verif.C103_gksmv_weighted",
    "Verif.C103_truth_wins",
    "Verif.C103_owgksuv",
    "Verif.C103_owgksuv_weighted",
    "Verif.C103_owgksmv",
    "Verif.C103_owgksmv_weighted",
    "Verif.C103_vrgksuv",
    "Verif.C103_vrgksuv_weighted",
    "Verif.C103_vrgksmv",
    "Verif.C103_vrgksmv_weighted_array"
   ],
   "note": "Values from C37; the kernel distance of two finite measures vanishes only if they are equal. With ensemble weights the multivariate vertically re-scaled score is covered on the array path only, since the numba path raises (C37)."
  },
  {
   "property": "C104",
   "status": "proved",
   "theorems": [
    "Verif.C104_es",
    "Verif.C104_es_weighted",
    "Verif.C104_owes",
    "Verif.C104_owes_weighted_array",
    "Verif.C104_vres",
    "Verif.C104_vres_weighted",
    "Verif.C104_owcrps",
    "Verif.C104_owcrps_weighted",
    "Verif.C104_vrcrps",
    "Verif.C104_vrcrps_weighted"
   ],
   "note": "Values from C23, C24, C33, C34. The numba path of the outcome-weighted energy score with ensemble weights is left out because it returns another value (C34); the array path of the unweighted vertically re-scaled CRPS is covered for two-dimensional forecasts (C24)."
  },
  {
   "property": "C105",
   "status": "proved",
   "theorems": [
    "Verif.C105_gksuv",
    "Verif.C105_gksmv",
    "Verif.C105_owgksuv",
    "Verif.C105_vrgksuv",
    "Verif.C105_owgksmv",
    "Verif.C105_vrgksmv",
    "Verif.C105_es",
    "Verif.C105_owes",
    "Verif.C105_vres",
    "Verif.C105_vs",
    "Verif.C105_vs_order_zero",
    "Verif.C105_owvs",
    "Verif.C105_vrvs"
   ],
   "note": "Any call that returns a number on data with a NaN returns NaN; order zero of the variogram score is the proved exception. owvs/vrvs are stated for given pair weights."
  },
  {
   "property": "C106",
   "status": "partial",
   "theorems": [
    "Verif.C106_crps_elementary",
    "Verif.C106_crps_other",
    "Verif.C106_logs_partial",
    "Verif.C106_logs_uniform_false",
    "Verif.C106_logs_negbinom_false",
    "Verif.C106_logs_gpd_false",
    "Verif.C106_logs_gev_false",
    "Verif.C106_logs_hypergeometric_false",
    "Verif.C106_logs_beta_false",
    "Verif.C106_logs_beta_partial"
   ],
   "note": "False for six log scores (uniform, beta with shapes one, negative binomial, GPD, GEV with shape not zero, hypergeometric): witnesses C106_logs_*_false. Proved for every CRPS family and the other log scores. That scipy's comb is zero on NaN is taken from its source as remembered, not run."
  },
  {
   "property": "C107",
   "status": "partial",
   "theorems": [
    "Verif.C107_binary_obs",
    "Verif.C107_binary_fct",
    "Verif.C107_ranked",
    "Verif.C107_rps_category_false",
    "Verif.C107_quantile",
    "Verif.C107_interval",
    "Verif.C107_interval_score",
    "Verif.C107_wis_numba",
    "Verif.C107_wis_array_partial",
    "Verif.C107_wis_array_false",
    "Verif.C107_crps_quantile",
    "Verif.C107_dss",
    "Verif.C107_ess",
    "Verif.C107_dssmv",
    "Verif.C107_logs_ensemble",
    "Verif.C107_clogs_false",
    "Verif.C107_clogs_cens_false",
    "Verif.C107_clogs_member_partial"
   ],
   "note": "False for a missing category (rps_score, rls_score), for a missing observation in clogs_ensemble, and for the array weighted interval score without intervals; witnesses end in _false. Proved for the other scores."
  },
  {
   "property": "C108",
   "status": "partial",
   "theorems": [
    "Verif.C108_quantile",
    "Verif.C108_interval",
    "Verif.C108_crps_quantile",
    "Verif.C108_wis_partial",
    "Verif.C108_wis_array_false"
   ],
   "note": "False of weighted_interval_score on the array backends, where no report is a best one (C108_wis_array_false, a consequence of C28); proved on the numba path and for the other scores on all paths."
  },
  {
   "property": "C109",
   "status": "proved",
   "theorems": [
    "Verif.C109_twcrps",
    "Verif.C109_twcrps_weighted",
    "Verif.C109_twcrps_chain",
    "Verif.C109_twgksuv",
    "Verif.C109_twes",
    "Verif.C109_twes_weighted",
    "Verif.C109_twgksmv",
    "Verif.C109_twgksuv_weighted",
    "Verif.C109_twgksmv_weighted"
   ],
   "note": ""
  },
  {
   "property": "C110",
   "status": "proved",
   "theorems": [
    "Verif.C110_vs",
    "Verif.C110_vs_weighted",
    "Verif.C110_not_strict",
    "Verif.C110_twvs",
    "Verif.C110_owvs",
    "Verif.C110_owvs_weighted",
    "Verif.C110_vrvs",
    "Verif.C110_vrvs_weighted"
   ],
   "note": ""
  },
  {
   "property": "C111",
   "status": "proved",
   "theorems": [
    "Verif.C111_crps_unbiased",
    "Verif.C111_crps_bias",
    "Verif.C111_es_unbiased",
    "Verif.C111_es_bias",
    "Verif.C111_gksuv_unbiased",
    "Verif.C111_gksuv_bias",
    "Verif.C111_gksmv_unbiased",
    "Verif.C111_gksmv_bias",
    "Verif.C111_vs_unbiased",
    "Verif.C111_vs_bias"
   ],
   "note": "Members drawn independently from any law; unweighted ensembles. pwm needs members not declared sorted."
  },
  {
   "property": "C112",
   "status": "proved",
   "theorems": [
    "Verif.C112_crps_weighted",
    "Verif.C112_crps",
    "Verif.C112_es_weighted",
    "Verif.C112_es",
    "Verif.C112_gksuv_weighted",
    "Verif.C112_gksuv",
    "Verif.C112_gksmv_weighted",
    "Verif.C112_gksmv",
    "Verif.C112_vs_weighted",
    "Verif.C112_vs"
   ],
   "note": ""
  },
  {
   "property": "C113",
   "status": "partial",
   "theorems": [
    "Verif.C113_gap",
    "Verif.C113_proper",
    "Verif.C113_symmetric_best",
    "Verif.C113_moments_partial",
    "Verif.C113_moments_false",
    "Verif.C113_copies_limit"
   ],
   "note": "Propriety and the exact gap proved. False for ensembles with the sample moments of the law (C113_moments_false): the skewness in the code lacks the factor M, and its term vanishes as members are added (C113_copies_limit)."
  },
  {
   "property": "C114",
   "status": "partial",
   "theorems": [
    "Verif.C114_default_is_array",
    "Verif.C114_named",
    "Verif.C114_by_name",
    "Verif.C114_unavailable",
    "Verif.C114_false",
    "Verif.C114_crps_partial"
   ],
   "note": "False of all functions that test the argument (C114_default_is_array, C114_false): with numba available the default is the array code, not numba. Proved for crps_quantile and weighted_interval_score, for named backends, for unavailable ones, and for the unweighted CRPS, where both paths agree."
  },
  {
   "property": "C115",
   "status": "proved",
   "theorems": [
    "Verif.C115_crps_is_integrated_brier",
    "Verif.C115_twcrps_is_integrated_brier",
    "Verif.C115_crps_quantile_is_crps",
    "Verif.C115_crps_is_integrated_quantile_score",
    "Verif.C115_rps_is_weighted_crps",
    "Verif.C115_dss_is_logs_normal",
    "Verif.C115_weighted_interval"
   ],
   "note": ""
  },
  {
   "property": "C116",
   "status": "partial",
   "theorems": [
    "Verif.C116_limit",
    "Verif.C116_exponential",
    "Verif.C116_exponentialM",
    "Verif.C116_2pexponential",
    "Verif.C116_laplace",
    "Verif.C116_normal",
    "Verif.C116_uniform",
    "Verif.C116_gpd",
    "Verif.C116_gamma",
    "Verif.C116_csg0",
    "Verif.C116_mixnorm",
    "Verif.C116_mixnorm_false",
    "Verif.C116_binomial",
    "Verif.C116_logistic_partial",
    "Verif.C116_logistic_false",
    "Verif.C116_gev_partial",
    "Verif.C116_gev_false",
    "Verif.C116_loglaw_partial",
    "Verif.C116_loglaw_false",
    "Verif.C116_counts_partial",
    "Verif.C116_poisson_false",
    "Verif.C116_hypergeometric_partial",
    "Verif.C116_hypergeometric_false",
    "Verif.C116_bounds_partial",
    "Verif.C116_bounds_false",
    "Verif.C116_default_bounds_false",
    "Verif.C116_others_false"
   ],
   "note": "Plus infinity in both directions: exponential, exponentialM, 2pexponential, laplace, normal, uniform, gpd, gamma, csg0, mixnorm (positive weights), binomial. One direction or some parameters only: logistic, gev, lognormal, loglogistic, poisson, negbinom, hypergeometric, truncated and censored families with finite bounds. NaN: logistic at minus infinity, Gumbel at plus infinity, loglaplace, t, 2pnormal, beta, most hypergeometric laws, truncated and censored families with default bounds."
  },
  {
   "property": "C117",
   "status": "partial",
   "theorems": [
    "Verif.C117_limit_obs",
    "Verif.C117_limit_member",
    "Verif.C117_nonfinite",
    "Verif.C117_obs_partial",
    "Verif.C117_obs_qd_numba_partial",
    "Verif.C117_obs_qd_false",
    "Verif.C117_obs_int_partial",
    "Verif.C117_obs_int_false",
    "Verif.C117_member_false",
    "Verif.C117_member_qd_partial",
    "Verif.C117_member_int_false"
   ],
   "note": "Never finite: proved for every estimator, path, weight, policy and flag. Plus infinity: infinite observation for nrg, fair, pwm, akr, akr_circperm (both paths), qd (numba), int (array, and numba at plus infinity); infinite member for qd (numba). NaN, so the claim is false: infinite observation for qd (array) and int (numba, minus infinity); infinite member for nrg, fair, pwm, akr, akr_circperm, qd (array), int (numba, minus infinity)."
  },
  {
   "property": "C118",
   "status": "proved",
   "theorems": [
    "Verif.C118_crps",
    "Verif.C118_crps_weighted",
    "Verif.C118_crps_sharp",
    "Verif.C118_es",
    "Verif.C118_gksuv",
    "Verif.C118_gksmv",
    "Verif.C118_quantile",
    "Verif.C118_interval"
   ],
   "note": "Constants are attained for the CRPS (C118_crps_sharp)."
  },
  {
   "property": "C119",
   "status": "partial",
   "theorems": [
    "Verif.C119_convex",
    "Verif.C119_median",
    "Verif.C119_uniform",
    "Verif.C119_exponential",
    "Verif.C119_exponentialM",
    "Verif.C119_laplace",
    "Verif.C119_2pexponential",
    "Verif.C119_logistic",
    "Verif.C119_normal",
    "Verif.C119_gpd",
    "Verif.C119_gamma",
    "Verif.C119_gev",
    "Verif.C119_gumbel",
    "Verif.C119_gtcnormal",
    "Verif.C119_gtcnormal_upper",
    "Verif.C119_gtcnormal_lower",
    "Verif.C119_gtclogistic",
    "Verif.C119_2pnormal",
    "Verif.C119_mixnorm",
    "Verif.C119_t",
    "Verif.C119_gtct",
    "Verif.C119_lognormal",
    "Verif.C119_loglogistic",
    "Verif.C119_loglaplace",
    "Verif.C119_csg0",
    "Verif.C119_poisson",
    "Verif.C119_hypergeometric",
    "Verif.C119_negbinom",
    "Verif.C119_beta",
    "Verif.C119_binomial_false",
    "Verif.C119_derivative"
   ],
   "note": "All closed-form families except crps_binomial, for which the property is false at probability one (C119_binomial_false); families with a restricted domain are covered on that domain."
  },
  {
   "property": "C120",
   "status": "proved",
   "theorems": [
    "Verif.C120_ok",
    "Verif.C120_error"
   ],
   "note": ""
  },
  {
   "property": "C121",
   "status": "proved",
   "theorems": [
    "Verif.C121_crps",
    "Verif.C121_es",
    "Verif.C121_gksuv",
    "Verif.C121_gksmv",
    "Verif.C121_vs",
    "Verif.C121_in_probability"
   ],
   "note": "Unweighted ensembles, members not declared sorted, nan_policy propagate. Almost sure convergence is not claimed."
  },
  {
   "property": "C122",
   "status": "proved",
   "theorems": [
    "Verif.C122_band",
    "Verif.C122_level",
    "Verif.C122_bandtype",
    "Verif.C122_alpha"
   ],
   "note": "Random numbers are arguments. The isotonic regression of scipy is characterised by its defining property, as in C60."
  },
  {
   "property": "C123",
   "status": "partial",
   "theorems": [
    "Verif.C123_partial",
    "Verif.C123_false"
   ],
   "note": "False when a replicate misses an extreme forecast (C123_false); proved when none does."
  },
  {
   "property": "C124",
   "status": "partial",
   "theorems": [
    "Verif.C124_partial",
    "Verif.C124_false",
    "Verif.C124_errors"
   ],
   "note": "False on torch (all eight) and on jax for the negative binomial (C124_false); proved for the other combinations. Values computed by torch before it raises are not modelled."
  },
  {
   "property": "C125",
   "status": "partial",
   "theorems": [
    "Verif.C125_partial",
    "Verif.C125_false",
    "Verif.C125_torch"
   ],
   "note": "False when torch is active and another backend is named (C125_false); proved when numpy or jax is active."
  },
  {
   "property": "C126",
   "status": "partial",
   "theorems": [
    "Verif.C126_crps_false",
    "Verif.C126_ends_false",
    "Verif.C126_logs_partial",
    "Verif.C126_logs_false",
    "Verif.C126_caught_partial"
   ],
   "note": "False of the CRPS functions and of the two-piece log scores; proved for the other log scores and for the parameters the code checks."
  },
  {
   "property": "C127",
   "status": "partial",
   "theorems": [
    "Verif.C127_line",
    "Verif.C127_half_line",
    "Verif.C127_bounded",
    "Verif.C127_tnormal_default",
    "Verif.C127_tt_default",
    "Verif.C127_gpd",
    "Verif.C127_hypergeometric",
    "Verif.C127_logistic_partial",
    "Verif.C127_logistic_false",
    "Verif.C127_gamma_partial",
    "Verif.C127_gamma_false",
    "Verif.C127_gev_partial",
    "Verif.C127_gev_false",
    "Verif.C127_counts_partial",
    "Verif.C127_counts_false",
    "Verif.C127_mixnorm"
   ],
   "note": "False for the logistic, gamma, extreme value and count families at one end of the line, where NaN is returned; proved for all others."
  },
  {
   "property": "C128",
   "status": "partial",
   "theorems": [
    "Verif.C128_crps_elementary",
    "Verif.C128_crps_other",
    "Verif.C128_crps_counts",
    "Verif.C128_logs_partial",
    "Verif.C128_logs_bounds_partial",
    "Verif.C128_gpd_false",
    "Verif.C128_gev_false",
    "Verif.C128_outside_false"
   ],
   "note": "Proved for every CRPS. False for the generalised Pareto and extreme value log scores and outside the support of the other log scores."
  },
  {
   "property": "C129",
   "status": "partial",
   "theorems": [
    "Verif.C129_exact",
    "Verif.C129_normal_false",
    "Verif.C129_laplace_false",
    "Verif.C129_exponential_false",
    "Verif.C129_logistic_false",
    "Verif.C129_mixnorm_false",
    "Verif.C129_crps_logistic_false",
    "Verif.C129_crps_gumbel_false",
    "Verif.C129_normal_partial",
    "Verif.C129_tnormal_false"
   ],
   "note": "False of the code: negations on whole regions for eight functions, for every rounding function with the stated properties; `C129_normal_partial` covers observations within 36 standard deviations."
  },
  {
   "property": "C130",
   "status": "partial",
   "theorems": [
    "Verif.C130_crps_false",
    "Verif.C130_crps_mean_false",
    "Verif.C130_logs_false",
    "Verif.C130_logs_partial"
   ],
   "note": "False of the code: negations for all observations from 171 on and all means from 746 on; `C130_logs_partial` covers counts up to 64."
  },
  {
   "property": "C131",
   "status": "proved",
   "theorems": [
    "Verif.C131_exact",
    "Verif.C131_brier",
    "Verif.C131_quantile",
    "Verif.C131_interval",
    "Verif.C131_nrg",
    "Verif.C131_fair"
   ],
   "note": ""
  },
  {
   "property": "C132",
   "status": "partial",
   "theorems": [
    "Verif.C132_normal",
    "Verif.C132_normal_formula",
    "Verif.C132_logistic",
    "Verif.C132_laplace",
    "Verif.C132_lognormal",
    "Verif.C132_gtcnormal_false",
    "Verif.C132_tnormal_false",
    "Verif.C132_tnormal_lower_false",
    "Verif.C132_gtcnormal_partial",
    "Verif.C132_tnormal_cnormal_partial",
    "Verif.C132_beta_values",
    "Verif.C132_beta_partial",
    "Verif.C132_beta_false",
    "Verif.C132_beta_default_false",
    "Verif.C132_logs_mixnorm",
    "Verif.C132_logs_ensemble",
    "Verif.C132_clogs_partial",
    "Verif.C132_clogs_false",
    "Verif.C132_clogs_bandwidth_false",
    "Verif.C132_clogs_empty_false",
    "Verif.C132_edge_values",
    "Verif.C132_exponential",
    "Verif.C132_exponentialM_partial",
    "Verif.C132_exponentialM_false",
    "Verif.C132_exponentialM_default_false",
    "Verif.C132_2pexponential_partial",
    "Verif.C132_2pexponential_false",
    "Verif.C132_uniform_partial",
    "Verif.C132_uniform_false",
    "Verif.C132_crps_obs",
    "Verif.C132_crps_member",
    "Verif.C132_es_partial",
    "Verif.C132_es_jax_false",
    "Verif.C132_es_false",
    "Verif.C132_gksmv_partial",
    "Verif.C132_gksmv_jax_false",
    "Verif.C132_gamma_values",
    "Verif.C132_special",
    "Verif.C132_gamma_partial",
    "Verif.C132_gamma_below_partial",
    "Verif.C132_gamma_false",
    "Verif.C132_csg0_partial",
    "Verif.C132_csg0_false",
    "Verif.C132_loglogistic",
    "Verif.C132_loglaplace",
    "Verif.C132_gtc_partial",
    "Verif.C132_tnormal_edge_false",
    "Verif.C132_tlogistic_edge_false",
    "Verif.C132_logs_normal",
    "Verif.C132_logs_normal_formula",
    "Verif.C132_logs_logistic",
    "Verif.C132_logs_laplace",
    "Verif.C132_logs_lognormal",
    "Verif.C132_logs_tnormal_partial",
    "Verif.C132_logs_tnormal_false",
    "Verif.C132_logs_tlogistic_partial",
    "Verif.C132_logs_tlogistic_false",
    "Verif.C132_gtclogistic_false",
    "Verif.C132_tlogistic_false",
    "Verif.C132_gtclogistic_partial",
    "Verif.C132_tlogistic_clogistic_partial",
    "Verif.C132_mixnorm_partial",
    "Verif.C132_mixnorm_torch_false",
    "Verif.C132_ess_partial",
    "Verif.C132_ess_torch_false",
    "Verif.C132_crps_estimators_obs",
    "Verif.C132_crps_estimators_member",
    "Verif.C132_gev_false",
    "Verif.C132_tail_values",
    "Verif.C132_gpd_partial",
    "Verif.C132_gpd_below_partial",
    "Verif.C132_gpd_false",
    "Verif.C132_gpd_shape_below_false",
    "Verif.C132_gpd_shape_zero_false",
    "Verif.C132_logs_gpd_partial",
    "Verif.C132_logs_gpd_false",
    "Verif.C132_logs_gev_partial",
    "Verif.C132_logs_gev_false",
    "Verif.C132_t_partial",
    "Verif.C132_t_false",
    "Verif.C132_vs_partial",
    "Verif.C132_vs_nan_false",
    "Verif.C132_vs_false"
   ],
   "note": "False of the truncated and censored normal and logistic distribution with infinite bounds (CRPS and logarithmic score), the energy and multivariate kernel score on jax, the variogram score with p < 1, crps_gev, the generalised Pareto scores and logs_gev with shape 0, crps_t at the location, clogs_ensemble with infinite or equal bounds, crps_tnormal, crps_tlogistic and crps_uniform at a bound, crps_2pexponential at the location, crps_gamma (rate) with shape at most one at observations that are not positive, crps_csg0 (rate) likewise without a shift, crps_exponentialM and crps_beta on jax at default parameter values, and on torch of the normal mixture and the error-spread score; proved for the other scores modelled with gradients."
  },
  {
   "property": "C133",
   "status": "proved",
   "theorems": [
    "Verif.C133_split",
    "Verif.C133_split_weighted",
    "Verif.C133_whole_line",
    "Verif.C133_monotone"
   ],
   "note": ""
  },
  {
   "property": "C134",
   "status": "partial",
   "theorems": [
    "Verif.C134_crps",
    "Verif.C134_es",
    "Verif.C134_weighted_partial",
    "Verif.C134_weighted_fair_false",
    "Verif.C134_fair_zero"
   ],
   "note": "False with weights for the estimator `fair` (`C134_weighted_fair_false`); proved without weights for every estimator and with weights for `nrg`, `qd` and `int`."
  },
  {
   "property": "C135",
   "status": "proved",
   "theorems": [
    "Verif.C135_brier",
    "Verif.C135_log",
    "Verif.C135_rps_reverse",
    "Verif.C135_rls_reverse",
    "Verif.C135_rps_merge",
    "Verif.C135_rls_merge"
   ],
   "note": ""
  },
  {
   "property": "C136",
   "status": "proved",
   "theorems": [
    "Verif.C136_gksuv",
    "Verif.C136_gksmv",
    "Verif.C136_fair_negative",
    "Verif.C136_vs",
    "Verif.C136_vs_weighted",
    "Verif.C136_quantile",
    "Verif.C136_interval"
   ],
   "note": ""
  },
  {
   "property": "C137",
   "status": "partial",
   "theorems": [
    "Verif.C137_exact",
    "Verif.C137_normal_false",
    "Verif.C137_laplace_false",
    "Verif.C137_exponential_false",
    "Verif.C137_logistic_false",
    "Verif.C137_crps_logistic_false",
    "Verif.C137_crps_gumbel_false",
    "Verif.C137_normal_partial",
    "Verif.C137_tnormal_false",
    "Verif.C137_crps_poisson_false",
    "Verif.C137_crps_poisson_mean_false",
    "Verif.C137_logs_poisson_false"
   ],
   "note": "False of the code: negations on whole regions for nine functions, for every rounding function with the stated properties; `C137_normal_partial` covers observations within 11 standard deviations."
  },
  {
   "property": "C138",
   "status": "partial",
   "theorems": [
    "Verif.C138_comb_false",
    "Verif.C138_logs_false",
    "Verif.C138_comb_partial",
    "Verif.C138_comb64_false"
   ],
   "note": "False of the code: comb(8, k) in binary32 and comb(5, k) in binary64 are one too small for every k strictly between 0 and n; `C138_comb_partial` covers k = 0 and k = n."
  },
  {
   "property": "C139",
   "status": "partial",
   "theorems": [
    "Verif.C139_logs_normal_false",
    "Verif.C139_weights_false",
    "Verif.C139_logs_mixnorm_false",
    "Verif.C139_crps_normal_false",
    "Verif.C139_crps_normal_partial",
    "Verif.C139_int_false"
   ],
   "note": "False of the code: constant errors of logs_normal and logs_mixnorm, wrong crps_normal at the centre, wrong weights and int estimates for every number that is not a power of two; `C139_crps_normal_partial` bounds the error of crps_normal everywhere."
  },
  {
   "property": "C140",
   "status": "partial",
   "theorems": [
    "Verif.C140_energy_false",
    "Verif.C140_energy_obs_false",
    "Verif.C140_kernel_false",
    "Verif.C140_weighted_partial",
    "Verif.C140_unweighted_partial",
    "Verif.C140_sums_partial",
    "Verif.C140_interval_partial",
    "Verif.C140_location_false",
    "Verif.C140_location_partial",
    "Verif.C140_kept"
   ],
   "note": "False of the code for the outcome-weighted and vertically re-scaled energy and multivariate kernel scores (in place on results of norm and exp) and for obs -= location; the `_partial` theorems cover all other functions with operations in place and the exact conditions."
  },
  {
   "property": "C141",
   "status": "partial",
   "theorems": [
    "Verif.C141_crps",
    "Verif.C141_boolean",
    "Verif.C141_jax",
    "Verif.C141_numpy_false",
    "Verif.C141_numpy_partial",
    "Verif.C141_torch_weights_false",
    "Verif.C141_torch_ensemble_false",
    "Verif.C141_torch_weighted_false",
    "Verif.C141_torch_partial"
   ],
   "note": "False on torch for weight functions that return booleans or integers and for integer ensembles in scores that use norm, mean or std, and on numpy for owcrps_ensemble with integer ensembles; the `_partial` theorems list what is accepted."
  },
  {
   "property": "C142",
   "status": "partial",
   "theorems": [
    "Verif.C142_quantile_false",
    "Verif.C142_quantile_partial",
    "Verif.C142_crps_quantile_refused_false",
    "Verif.C142_crps_quantile_false",
    "Verif.C142_crps_quantile_partial",
    "Verif.C142_interval_false",
    "Verif.C142_interval_partial",
    "Verif.C142_twcrps_false",
    "Verif.C142_twcrps_partial",
    "Verif.C142_crps_false",
    "Verif.C142_crps_partial"
   ],
   "note": "False on torch for levels, thresholds and observations given as Python numbers with double precision tensors; the `_partial` theorems bound the error."
  },
  {
   "property": "C143",
   "status": "partial",
   "theorems": [
    "Verif.C143_crps_partial",
    "Verif.C143_es_partial",
    "Verif.C143_logs_partial",
    "Verif.C143_logs_false",
    "Verif.C143_dss_false",
    "Verif.C143_ess_false"
   ],
   "note": "False for logs_ensemble with the default bandwidth (C143_logs_false), dssuv_ensemble (C143_dss_false) and error_spread_score (C143_ess_false); proved for crps_ensemble, es_ensemble and logs_ensemble with a positive bandwidth."
  },
  {
   "property": "C144",
   "status": "proved",
   "theorems": [
    "Verif.C144_energy",
    "Verif.C144_variogram"
   ],
   "note": ""
  },
  {
   "property": "C145",
   "status": "proved",
   "theorems": [
    "Verif.C145_crps_split",
    "Verif.C145_crps",
    "Verif.C145_crps_weighted",
    "Verif.C145_es",
    "Verif.C145_dss",
    "Verif.C145_ess"
   ],
   "note": ""
  },
  {
   "property": "C146",
   "status": "proved",
   "theorems": [
    "Verif.C146_crps_quantile",
    "Verif.C146_equal_levels",
    "Verif.C146_wis_numba",
    "Verif.C146_wis_array"
   ],
   "note": ""
  },
  {
   "property": "C147",
   "status": "partial",
   "theorems": [
    "Verif.C147_exact",
    "Verif.C147_logs_gpd_false",
    "Verif.C147_logs_gev_false",
    "Verif.C147_crps_gpd_false",
    "Verif.C147_logs_gpd_partial",
    "Verif.C147_crps_gpd_partial"
   ],
   "note": "False of the code for tiny shapes other than zero (`C147_logs_gpd_false`, `C147_logs_gev_false`, `C147_crps_gpd_false`); `C147_logs_gpd_partial` and `C147_crps_gpd_partial` bound the error for shape zero."
  },
  {
   "property": "C148",
   "status": "partial",
   "theorems": [
    "Verif.C148_same_axis",
    "Verif.C148_out_of_range_partial",
    "Verif.C148_accepted",
    "Verif.C148_wrong_score_false"
   ],
   "note": "False of the code for `v_axis` from `-2 * ndim + 1` to `-ndim - 1` (`C148_accepted`, with a wrong score in `C148_wrong_score_false`); proved for equal axes and for all other axes out of range."
  },
  {
   "property": "C149",
   "status": "proved",
   "theorems": [
    "Verif.C149_exact",
    "Verif.C149_laplace",
    "Verif.C149_logistic",
    "Verif.C149_normal",
    "Verif.C149_exp_cdf_neg",
    "Verif.C149_exp_cdf",
    "Verif.C149_exponential"
   ],
   "note": ""
  },
  {
   "property": "C150",
   "status": "partial",
   "theorems": [
    "Verif.C150_gpd",
    "Verif.C150_gev_partial",
    "Verif.C150_logs_gpd",
    "Verif.C150_logs_gev",
    "Verif.C150_tnormal",
    "Verif.C150_cnormal",
    "Verif.C150_tt_partial",
    "Verif.C150_ct_partial",
    "Verif.C150_logistic_partial",
    "Verif.C150_logistic_false",
    "Verif.C150_logs_truncated"
   ],
   "note": "False of crps_tlogistic and crps_clogistic with one infinite bound (NaN) and of crps_tt and crps_ct with a fixed bound at the location (NaN); for crps_gev the limit is reached up to the error of the decimal constant in the code, bounded by 1e-7 times the scale."
  },
  {
   "property": "C151",
   "status": "partial",
   "theorems": [
    "Verif.C151_laplace_partial",
    "Verif.C151_logistic_partial",
    "Verif.C151_normal_partial",
    "Verif.C151_exponential_partial",
    "Verif.C151_false"
   ],
   "note": "False where the computed density underflows or overflows (`C151_false`, from C129); proved for log-densities up to 680 in size."
  },
  {
   "property": "C152",
   "status": "proved",
   "theorems": [
    "Verif.C152_normal",
    "Verif.C152_laplace",
    "Verif.C152_logistic",
    "Verif.C152_t",
    "Verif.C152_gpd",
    "Verif.C152_exponentialM",
    "Verif.C152_uniform"
   ],
   "note": ""
  },
  {
   "property": "C153",
   "status": "partial",
   "theorems": [
    "Verif.C153_partial",
    "Verif.C153_zero_false",
    "Verif.C153_exponentialM_partial"
   ],
   "note": "False with scale zero, where the code returns NaN (`C153_zero_false`, at every observation); proved for positive scales with a rate, and for `crps_exponentialM` with scale zero away from the location."
  },
  {
   "property": "C154",
   "status": "partial",
   "theorems": [
    "Verif.C154_exact",
    "Verif.C154_nrg_partial",
    "Verif.C154_fair_partial",
    "Verif.C154_overflow_false",
    "Verif.C154_underflow_false"
   ],
   "note": "False for differences of 2^513 or more (infinite or NaN, `C154_overflow_false`) and up to 2^-540 (zero, `C154_underflow_false`); proved for coordinates up to 2^479, with an absolute error of 2^-500."
  },
  {
   "property": "C155",
   "status": "partial",
   "theorems": [
    "Verif.C155_crps",
    "Verif.C155_strict",
    "Verif.C155_tw",
    "Verif.C155_es",
    "Verif.C155_weighted_partial",
    "Verif.C155_weighted_false"
   ],
   "note": "With weights the claim is false for fair and akr (C155_weighted_false), therefore the theorem for nrg, qd and int is marked partial."
  },
  {
   "property": "C156",
   "status": "proved",
   "theorems": [
    "Verif.C156_normal",
    "Verif.C156_laplace",
    "Verif.C156_logistic",
    "Verif.C156_t",
    "Verif.C156_2pnormal",
    "Verif.C156_2pexponential",
    "Verif.C156_tnormal",
    "Verif.C156_tlogistic",
    "Verif.C156_tt",
    "Verif.C156_exponential",
    "Verif.C156_exponential2",
    "Verif.C156_gpd",
    "Verif.C156_gamma",
    "Verif.C156_gamma_small",
    "Verif.C156_beta",
    "Verif.C156_lognormal",
    "Verif.C156_loglaplace",
    "Verif.C156_loglaplace_large",
    "Verif.C156_loglogistic",
    "Verif.C156_loglogistic_large",
    "Verif.C156_gev",
    "Verif.C156_uniform",
    "Verif.C156_poisson",
    "Verif.C156_binomial",
    "Verif.C156_negbinom",
    "Verif.C156_hypergeometric"
   ],
   "note": ""
  },
  {
   "property": "C157",
   "status": "partial",
   "theorems": [
    "Verif.C157_brier",
    "Verif.C157_log",
    "Verif.C157_rps",
    "Verif.C157_rls",
    "Verif.C157_quantile",
    "Verif.C157_crps_quantile",
    "Verif.C157_interval",
    "Verif.C157_wis_partial",
    "Verif.C157_wis_false"
   ],
   "note": "False for weighted_interval_score on the array path (`C157_wis_false`); proved on the numba path and for all other scores."
  },
  {
   "property": "C158",
   "status": "partial",
   "theorems": [
    "Verif.C158_crps_partial",
    "Verif.C158_es",
    "Verif.C158_fair_false",
    "Verif.C158_akr_false"
   ],
   "note": "False for the weighted estimators fair and akr (`C158_fair_false`, `C158_akr_false`); proved for nrg, qd, int and the energy score."
  },
  {
   "property": "C159",
   "status": "proved",
   "theorems": [
    "Verif.C159_exact",
    "Verif.C159_nrg_uv",
    "Verif.C159_fair_uv",
    "Verif.C159_nrg_mv",
    "Verif.C159_fair_mv"
   ],
   "note": ""
  },
  {
   "property": "C160",
   "status": "partial",
   "theorems": [
    "Verif.C160_normal",
    "Verif.C160_laplace",
    "Verif.C160_logistic",
    "Verif.C160_t",
    "Verif.C160_gpd",
    "Verif.C160_exponentialM",
    "Verif.C160_uniform",
    "Verif.C160_gev",
    "Verif.C160_exponential",
    "Verif.C160_gamma",
    "Verif.C160_minimum",
    "Verif.C160_logs_false",
    "Verif.C160_members_partial",
    "Verif.C160_members_false",
    "Verif.C160_brier",
    "Verif.C160_log",
    "Verif.C160_rps",
    "Verif.C160_rls",
    "Verif.C160_quantile",
    "Verif.C160_crps_quantile",
    "Verif.C160_interval",
    "Verif.C160_wis"
   ],
   "note": "False for crps_ensemble in members of different order (`C160_members_false`; proved for ensembles in increasing order) and for the log score of the normal distribution (`C160_logs_false`)."
  },
  {
   "property": "C161",
   "status": "proved",
   "theorems": [
    "Verif.C161_normal",
    "Verif.C161_logistic",
    "Verif.C161_t",
    "Verif.C161_logs",
    "Verif.C161_censored"
   ],
   "note": ""
  },
  {
   "property": "C162",
   "status": "proved",
   "theorems": [
    "Verif.C162_close",
    "Verif.C162_bounded",
    "Verif.C162_closer",
    "Verif.C162_sharp"
   ],
   "note": ""
  },
  {
   "property": "C163",
   "status": "proved",
   "theorems": [
    "Verif.C163_t",
    "Verif.C163_negbinom",
    "Verif.C163_binomial",
    "Verif.C163_hypergeometric"
   ],
   "note": ""
  },
  {
   "property": "C164",
   "status": "partial",
   "theorems": [
    "Verif.C164_exact",
    "Verif.C164_nrg_partial",
    "Verif.C164_fair_partial",
    "Verif.C164_overflow_false"
   ],
   "note": ""
  },
  {
   "property": "C165",
   "status": "partial",
   "theorems": [
    "Verif.C165_exact",
    "Verif.C165_nrg_partial",
    "Verif.C165_fair_partial",
    "Verif.C165_qd_partial",
    "Verif.C165_int_partial",
    "Verif.C165_pwm_partial",
    "Verif.C165_akr_partial",
    "Verif.C165_pwm_false",
    "Verif.C165_overflow_false"
   ],
   "note": ""
  },
  {
   "property": "C166",
   "status": "partial",
   "theorems": [
    "Verif.C166_exact",
    "Verif.C166_qd_partial",
    "Verif.C166_int_partial",
    "Verif.C166_nrg_partial",
    "Verif.C166_fair_partial",
    "Verif.C166_pwm_partial",
    "Verif.C166_akr_partial",
    "Verif.C166_pwm_false",
    "Verif.C166_overflow_false"
   ],
   "note": ""
  },
  {
   "property": "C167",
   "status": "partial",
   "theorems": [
    "Verif.C167_exact",
    "Verif.C167_array_partial",
    "Verif.C167_loop_partial",
    "Verif.C167_overflow_false"
   ],
   "note": ""
  },
  {
   "property": "C168",
   "status": "partial",
   "theorems": [
    "Verif.C168_exact",
    "Verif.C168_nrg_partial",
    "Verif.C168_fair_partial",
    "Verif.C168_akr_partial",
    "Verif.C168_overflow_false"
   ],
   "note": ""
  },
  {
   "property": "C169",
   "status": "partial",
   "theorems": [
    "Verif.C169_exact",
    "Verif.C169_nrg_partial",
    "Verif.C169_fair_partial",
    "Verif.C169_overflow_false"
   ],
   "note": ""
  },
  {
   "property": "C170",
   "status": "proved",
   "theorems": [
    "Verif.C170_exact",
    "Verif.C170_rps",
    "Verif.C170_perfect"
   ],
   "note": ""
  },
  {
   "property": "C171",
   "status": "partial",
   "theorems": [
    "Verif.C171_exact",
    "Verif.C171_log_false",
    "Verif.C171_log_partial",
    "Verif.C171_rls_false",
    "Verif.C171_rls_partial"
   ],
   "note": ""
  },
  {
   "property": "C172",
   "status": "partial",
   "theorems": [
    "Verif.C172_exact",
    "Verif.C172_nrg_uv",
    "Verif.C172_fair_uv",
    "Verif.C172_akr_uv",
    "Verif.C172_mv_partial"
   ],
   "note": ""
  },
  {
   "property": "C173",
   "status": "partial",
   "theorems": [
    "Verif.C173_exact",
    "Verif.C173_const_partial",
    "Verif.C173_dss_false",
    "Verif.C173_ess_false"
   ],
   "note": ""
  },
  {
   "property": "C174",
   "status": "partial",
   "theorems": [
    "Verif.C174_finite_partial",
    "Verif.C174_overflow_false",
    "Verif.C174_underflow_false"
   ],
   "note": ""
  },
  {
   "property": "C175",
   "status": "partial",
   "theorems": [
    "Verif.C175_finite_partial",
    "Verif.C175_underflow_false"
   ],
   "note": ""
  }
 ]
}
