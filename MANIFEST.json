{
 "claims": [
  {
   "property": "C01",
   "status": "proved",
   "theorems": [
    "TD.Props.C01_unfold_entry",
    "TD.Props.C01_unfold_bijective"
   ],
   "note": "unfold places every entry where Kolda's matricization says"
  },
  {
   "property": "C02",
   "status": "proved",
   "theorems": [
    "TD.Props.C02_fold_unfold",
    "TD.Props.C02_unfold_fold"
   ],
   "note": "fold and unfold are mutually inverse"
  },
  {
   "property": "C03",
   "status": "proved",
   "theorems": [
    "TD.Props.C03_bad_mode_raises",
    "TD.Props.C03_unfold_succeeds_iff",
    "TD.Props.C03_fold_succeeds_iff"
   ],
   "note": "unfold and fold accept exactly the modes 0..order-1"
  },
  {
   "property": "C04",
   "status": "proved",
   "theorems": [
    "TD.Props.C04_t2mat_entry",
    "TD.Props.C04_t2mat_rest",
    "TD.Props.C04_unfold_eq_t2mat",
    "TD.Props.C04_t2mat_rejects"
   ],
   "note": "t2mat is the general matricization"
  },
  {
   "property": "C05",
   "status": "partial",
   "theorems": [
    "TD.Props.C05_list_argument_is_modified_false",
    "TD.Props.C05_arguments_unchanged_partial"
   ],
   "note": "False of the code: a list row_axis is extended in place (C05_list_argument_is_modified_false). Proved for the int and tuple cases."
  },
  {
   "property": "C06",
   "status": "partial",
   "theorems": [
    "TD.Props.C06_int_axis_partial",
    "TD.Props.C06_tuple_axis_raises_false",
    "TD.Props.C06_tuple_second_axis_raises_false"
   ],
   "note": "False of the code for tuple axes of mul (TypeError). Proved for int versus one-element list."
  },
  {
   "property": "C07",
   "status": "proved",
   "theorems": [
    "TD.Props.C07_vectorize_entry",
    "TD.Props.C07_vec_to_tensor_vectorize",
    "TD.Props.C07_vectorize_vec_to_tensor",
    "TD.Props.C07_vec_to_tensor_accepts_iff"
   ],
   "note": "vectorize and vec_to_tensor are inverse and row-major"
  },
  {
   "property": "C08",
   "status": "proved",
   "theorems": [
    "TD.Props.C08_mul_entry",
    "TD.Props.C08_mul_matrices"
   ],
   "note": "mul is tensor contraction"
  },
  {
   "property": "C09",
   "status": "partial",
   "theorems": [
    "TD.Props.C09_mul_accepts_iff_partial",
    "TD.Props.C09_mismatch_accepted_false"
   ],
   "note": "False of the code: mul only compares the products of the contracted dimensions, so different axis sizes with equal product are accepted."
  },
  {
   "property": "C10",
   "status": "proved",
   "theorems": [
    "TD.Props.C10_ttm_mode_products",
    "TD.Props.C10_ttm_default_axis",
    "TD.Props.C10_ttm_single",
    "TD.Props.C10_ttm_nothing_raises"
   ],
   "note": "ttm is the sequence of mode products"
  },
  {
   "property": "C11",
   "status": "proved",
   "theorems": [
    "TD.Props.C11_ttm_order_independent"
   ],
   "note": "ttm does not depend on the order in which the modes are listed"
  },
  {
   "property": "C12",
   "status": "proved",
   "theorems": [
    "TD.Props.C12_ttm_skip",
    "TD.Props.C12_axis_and_skip_raise",
    "TD.Props.C12_too_many_raise",
    "TD.Props.C12_count_raises"
   ],
   "note": "Skipped positions for every skip argument; C12_too_many_raise covers the lists longer than the order, C12_count_raises the lists that do not match the axes."
  },
  {
   "property": "C13",
   "status": "partial",
   "theorems": [
    "TD.Props.C13_ttm_any_order_partial",
    "TD.Props.C13_order_above_13_raises_false",
    "TD.Props.C13_silently_wrong_false"
   ],
   "note": "False of the code above order 13: the letters used for matrix rows collide with those of the tensor modes; the call raises or silently returns wrong entries. Proved whenever mode + order < 26 for all used modes (so for every product up to order 13)."
  },
  {
   "property": "C14",
   "status": "proved",
   "theorems": [
    "TD.Props.C14_inner_value",
    "TD.Props.C14_inner_shape_check",
    "TD.Props.C14_inner_comm",
    "TD.Props.C14_inner_linear",
    "TD.Props.C14_inner_unfold"
   ],
   "note": "inner is the sum of products and checks shapes"
  },
  {
   "property": "C15",
   "status": "proved",
   "theorems": [
    "TD.Props.C15_hadamard_entry",
    "TD.Props.C15_hadamard_perm",
    "TD.Props.C15_hadamard_empty",
    "TD.Props.C15_hadamard_accepts_iff",
    "TD.Props.C15_hadamard_perm_any"
   ],
   "note": "hadamard is the entrywise product of the kept matrices"
  },
  {
   "property": "C16",
   "status": "proved",
   "theorems": [
    "TD.Props.C16_kron_entry",
    "TD.Props.C16_kron_two",
    "TD.Props.C16_kron_limits",
    "TD.Props.C16_kron_accepts_iff"
   ],
   "note": "kron is the Kronecker product"
  },
  {
   "property": "C17",
   "status": "proved",
   "theorems": [
    "TD.Props.C17_kron_assoc",
    "TD.Props.C17_kron_mixed_product",
    "TD.Props.C17_kron_transpose"
   ],
   "note": "kron obeys the Kronecker laws"
  },
  {
   "property": "C18",
   "status": "proved",
   "theorems": [
    "TD.Props.C18_khatri_entry",
    "TD.Props.C18_khatri_accepts_iff",
    "TD.Props.C18_khatri_column",
    "TD.Props.C18_khatri_limits"
   ],
   "note": "Values for any commutative semiring. The domain theorem leaves out lists that mix one-column matrices with wider ones: einsum may broadcast them, the model does not."
  },
  {
   "property": "C19",
   "status": "proved",
   "theorems": [
    "TD.Props.C19_gram"
   ],
   "note": "Gram matrix of a Khatri-Rao product is the Hadamard product of Gram matrices"
  },
  {
   "property": "C20",
   "status": "proved",
   "theorems": [
    "TD.Props.C20_xcb"
   ],
   "note": "xcb equals the product of the mode-0 unfolding with the Khatri-Rao product"
  },
  {
   "property": "C21",
   "status": "proved",
   "theorems": [
    "TD.Props.C21_skip_means_kept",
    "TD.Props.C21_int_removes_position",
    "TD.Props.C21_out_of_range_removes_nothing",
    "TD.Props.C21_skip_means_kept_msv"
   ],
   "note": "skip_matrices_index means the same thing everywhere"
  },
  {
   "property": "C22",
   "status": "proved",
   "theorems": [
    "TD.Props.C22_lipschitz"
   ],
   "note": "max_single_value_mul bounds the Kronecker operator"
  },
  {
   "property": "C23",
   "status": "proved",
   "theorems": [
    "TD.Props.C23_extract_entry",
    "TD.Props.C23_no_factors"
   ],
   "note": "KTensor.extract is the weighted sum of rank-one tensors"
  },
  {
   "property": "C24",
   "status": "proved",
   "theorems": [
    "TD.Props.C24_unfold_kruskal"
   ],
   "note": "unfolding a Kruskal tensor factorizes through the Khatri-Rao product"
  },
  {
   "property": "C25",
   "status": "proved",
   "theorems": [
    "TD.Props.C25_rescale"
   ],
   "note": "rescaling a column and its weight does not change a Kruskal tensor"
  },
  {
   "property": "C26",
   "status": "partial",
   "theorems": [
    "TD.Props.C26_default_precision_false",
    "TD.Props.C26_float32_weights_partial"
   ],
   "note": "False of the code: numpy factors are stored as float32 but float64 weights keep their type, so extract raises TypeError for every choice of factors. Proved for float32 weights and for no weights."
  },
  {
   "property": "C27",
   "status": "proved",
   "theorems": [
    "TD.Props.C27_extract_entry",
    "TD.Props.C27_extract_mode_products",
    "TD.Props.C27_element_types"
   ],
   "note": "TTensor.extract is the Tucker reconstruction"
  },
  {
   "property": "C28",
   "status": "proved",
   "theorems": [
    "TD.Props.C28_unfold_tucker"
   ],
   "note": "unfolding a Tucker tensor factorizes through the Kronecker product"
  },
  {
   "property": "C29",
   "status": "partial",
   "theorems": [
    "TD.Props.C29_first_mode_wins_partial",
    "TD.Props.C29_same_mode_partial",
    "TD.Props.C29_later_mode_ignored_false",
    "TD.Props.C29_fails_generally_false"
   ],
   "note": "False of the code: the first unfold that returns is cached and every later call returns it whatever mode is asked. Proved: exactly that behaviour for every history, and the property for histories that ask for one mode only."
  },
  {
   "property": "C30",
   "status": "proved",
   "theorems": [
    "TD.Props.C30_add_entry",
    "TD.Props.C30_sub_entry",
    "TD.Props.C30_mul_entry",
    "TD.Props.C30_comm",
    "TD.Props.C30_raw_operand",
    "TD.Props.C30_add_sub_cancel",
    "TD.Props.C30_methods"
   ],
   "note": "DTensor operators agree with the functional operations"
  },
  {
   "property": "C31",
   "status": "proved",
   "theorems": [
    "TD.Props.C31_rmse_formula",
    "TD.Props.C31_nonneg",
    "TD.Props.C31_symm",
    "TD.Props.C31_zero_iff",
    "TD.Props.C31_triangle",
    "TD.Props.C31_l2"
   ],
   "note": "rmse is a normalized distance"
  },
  {
   "property": "C32",
   "status": "proved",
   "theorems": [
    "TD.Props.C32_formula",
    "TD.Props.C32_ignores_zeros",
    "TD.Props.C32_zero_iff",
    "TD.Props.C32_eq_rmse"
   ],
   "note": "rmse_ignore_zero looks only at nonzero entries of the reference"
  },
  {
   "property": "C33",
   "status": "proved",
   "theorems": [
    "TD.Props.C33_shape_check"
   ],
   "note": "the loss functions refuse tensors of different shapes"
  },
  {
   "property": "C34",
   "status": "partial",
   "theorems": [
    "TD.Props.C34_zero_reference_false",
    "TD.Props.C34_defined_iff_partial"
   ],
   "note": "False of the code for all-zero (or empty) references: 0/0. Proved: a number comes out iff the reference has a nonzero entry."
  },
  {
   "property": "C35",
   "status": "proved",
   "theorems": [
    "TD.Props.C35_read",
    "TD.Props.C35_read_shape"
   ],
   "note": "a coordinate file is read into the tensor it describes"
  },
  {
   "property": "C36",
   "status": "proved",
   "theorems": [
    "TD.Props.C36_inferred_shape"
   ],
   "note": "the inferred shape is the smallest that holds every row"
  },
  {
   "property": "C37",
   "status": "proved",
   "theorems": [
    "TD.Props.C37_row_order",
    "TD.Props.C37_blank_lines"
   ],
   "note": "row order and blank lines do not matter"
  },
  {
   "property": "C38",
   "status": "proved",
   "theorems": [
    "TD.Props.C38_round_trip"
   ],
   "note": "writing a tensor in coordinate form and reading it back gives the tensor"
  },
  {
   "property": "C39",
   "status": "partial",
   "theorems": [
    "TD.Props.C39_accepts_iff_partial",
    "TD.Props.C39_rows_accepted_iff_partial",
    "TD.Props.C39_unsupported_extension",
    "TD.Props.C39_empty_file",
    "TD.Props.C39_out_of_shape",
    "TD.Props.C39_negative_coordinate",
    "TD.Props.C39_ragged_rows_accepted_false"
   ],
   "note": "False of the code for ragged rows: rows with more fields than the first, or with exactly one less, are accepted. Proved: the exact acceptance condition of read, and every other rejection listed."
  },
  {
   "property": "C40",
   "status": "partial",
   "theorems": [
    "TD.Props.C40_entry_partial",
    "TD.Props.C40_out_of_bounds_partial",
    "TD.Props.C40_wrong_length_partial",
    "TD.Props.C40_empty_key_false",
    "TD.Props.C40_single_index_false",
    "TD.Props.C40_guarded_raises_false",
    "TD.Props.C40_guarded_zero_false",
    "TD.Props.C40_guarded_single_partial"
   ],
   "note": "False of the code for CP, NCP and NTUCKER (predict raises ValueError for every tensor with more than one entry) and for a single index into a tensor of order >= 2. Proved for HOSVD and HOOI with one index per mode, out-of-bounds and wrong-length keys."
  },
  {
   "property": "C41",
   "status": "partial",
   "theorems": [
    "TD.Props.C41_guarded_partial",
    "TD.Props.C41_bare_false",
    "TD.Props.C41_pitf_false"
   ],
   "note": "False of the code for HOSVD/HOOI (AttributeError) and PITF (NotImplementedError). Proved for CP, NCP, NTUCKER."
  },
  {
   "property": "C42",
   "status": "partial",
   "theorems": [
    "TD.Props.C42_flag_partial",
    "TD.Props.C42_hosvd_flag_partial",
    "TD.Props.C42_hooi_flag_partial",
    "TD.Props.C42_hooi_false"
   ],
   "note": "False of the code for HOOI, which never resets the flag. Proved for CP, NCP, NTUCKER and HOSVD over all histories; for HOOI what the flag means is proved."
  },
  {
   "property": "C43",
   "status": "proved",
   "theorems": [
    "TD.Props.C43_history"
   ],
   "note": "the returned history has one entry per executed step"
  },
  {
   "property": "C44",
   "status": "partial",
   "theorems": [
    "TD.Props.C44_zero_steps_raise_false"
   ],
   "note": "False of the code: every class raises UnboundLocalError for every steps <= 0."
  },
  {
   "property": "C45",
   "status": "proved",
   "theorems": [
    "TD.Props.C45_stop_rule",
    "TD.Props.C45_returns"
   ],
   "note": "training stops exactly when it should"
  },
  {
   "property": "C46",
   "status": "partial",
   "theorems": [
    "TD.Props.C46_tracking_stops_partial",
    "TD.Props.C46_constant_objective_never_stops_false",
    "TD.Props.C46_cp_witness_false",
    "TD.Props.C46_ncp_witness_false"
   ],
   "note": "False of the code for CP and HOOI (the previous objective is never updated) and for NCP/NTUCKER stalling above their minimum. Proved for NCP and NTUCKER stalling at the minimum."
  },
  {
   "property": "C47",
   "status": "partial",
   "theorems": [
    "TD.Props.C47_cp_full_partial",
    "TD.Props.C47_full_partial",
    "TD.Props.C47_reported_last_partial",
    "TD.Props.C47_stale_full_false"
   ],
   "note": "False of the code: full is the tensor of the last reported step, which need not be the last executed one. Proved whenever the last step was reported (all steps executed, verbose, or interval 1)."
  },
  {
   "property": "C48",
   "status": "partial",
   "theorems": [
    "TD.Props.C48_reported_partial",
    "TD.Props.C48_interval_zero_false"
   ],
   "note": "False of the code for interval 0 (ZeroDivisionError). Proved for every other interval."
  },
  {
   "property": "C49",
   "status": "proved",
   "theorems": [
    "TD.Props.C49_extrapolate"
   ],
   "note": "NCP and NTUCKER extrapolate only from improving iterates"
  },
  {
   "property": "C50",
   "status": "proved",
   "theorems": [
    "TD.Props.C50_least_squares",
    "TD.Props.C50_normalised",
    "TD.Props.C50_total"
   ],
   "note": "every CP mode update is a least-squares minimizer"
  },
  {
   "property": "C51",
   "status": "proved",
   "theorems": [
    "TD.Props.C51_objective_nonincreasing"
   ],
   "note": "CP_ALS never increases the objective"
  },
  {
   "property": "C52",
   "status": "partial",
   "theorems": [
    "TD.Props.C52_max_one_partial",
    "TD.Props.C52_extreme_one_partial",
    "TD.Props.C52_negative_false"
   ],
   "note": "False of the code: a column whose maximum is negative is divided by it, which makes its minimum 1. Proved: maximum 1 for columns with positive maximum; in general the extreme entry is 1."
  },
  {
   "property": "C53",
   "status": "proved",
   "theorems": [
    "TD.Props.C53_ntucker_nonneg",
    "TD.Props.C53_ncp_nonneg"
   ],
   "note": "NCP and NTUCKER results are nonnegative"
  },
  {
   "property": "C54",
   "status": "proved",
   "theorems": [
    "TD.Props.C54_ntucker_momentum",
    "TD.Props.C54_ncp_momentum"
   ],
   "note": "extrapolation weights stay in [0,1)"
  },
  {
   "property": "C55",
   "status": "proved",
   "theorems": [
    "TD.Props.C55_mode_update_descends",
    "TD.Props.C55_three_point"
   ],
   "note": "an NCP mode update without extrapolation does not increase the objective"
  },
  {
   "property": "C56",
   "status": "proved",
   "theorems": [
    "TD.Props.C56_hosvd_exact"
   ],
   "note": "HOSVD with full ranks reconstructs the tensor exactly"
  },
  {
   "property": "C57",
   "status": "proved",
   "theorems": [
    "TD.Props.C57_hosvd",
    "TD.Props.C57_hooi"
   ],
   "note": "Tucker factors are orthonormal and the residual is what the core misses"
  },
  {
   "property": "C58",
   "status": "proved",
   "theorems": [
    "TD.Props.C58_hooi_nonincreasing",
    "TD.Props.C58_first_step"
   ],
   "note": "HOOI never increases the objective"
  },
  {
   "property": "C59",
   "status": "proved",
   "theorems": [
    "TD.Props.C59_hosvd_error"
   ],
   "note": "HOSVD truncation error is bounded by the discarded singular values"
  },
  {
   "property": "C60",
   "status": "proved",
   "theorems": [
    "TD.Props.C60_cp_schedule",
    "TD.Props.C60_cp_completes",
    "TD.Props.C60_hooi_schedule",
    "TD.Props.C60_hooi_completes",
    "TD.Props.C60_ncp_schedule",
    "TD.Props.C60_ntucker_schedule",
    "TD.Props.C60_bcu_completes"
   ],
   "note": "a factor sweep gives the same result under every execution schedule"
  },
  {
   "property": "C61",
   "status": "proved",
   "theorems": [
    "TD.Props.C61_zero_column_sums",
    "TD.Props.C61_linear",
    "TD.Props.C61_fixed",
    "TD.Props.C61_idempotent",
    "TD.Props.C61_nearest"
   ],
   "note": "centralization removes the column means"
  },
  {
   "property": "C62",
   "status": "proved",
   "theorems": [
    "TD.Props.C62_modes_B_C",
    "TD.Props.C62_mode_A",
    "TD.Props.C62_other_modes",
    "TD.Props.C62_sample_rule4mat"
   ],
   "note": "subspace produces matrices satisfying the pairwise-interaction constraints"
  },
  {
   "property": "C63",
   "status": "proved",
   "theorems": [
    "TD.Props.C63_sampling_commutes"
   ],
   "note": "sampling a pairwise interaction tensor commutes with building it"
  },
  {
   "property": "C64",
   "status": "partial",
   "theorems": [
    "TD.Props.C64_adjoint_distinct_partial",
    "TD.Props.C64_adjoint_repeated_false"
   ],
   "note": "False of the code for draws that repeat a pair: only the last sample is kept. Proved for draws without repeated pairs."
  },
  {
   "property": "C65",
   "status": "partial",
   "theorems": [
    "TD.Props.C65_agree_partial",
    "TD.Props.C65_shrink_false"
   ],
   "note": "False of the code for shrink (TensorFlow multiplies by v instead of its transpose) on every pair of solvers. Proved for all other operators."
  },
  {
   "property": "C66",
   "status": "partial",
   "theorems": [
    "TD.Props.C66_numpy_shrink_zero_partial",
    "TD.Props.C66_tensorflow_false"
   ],
   "note": "False of the code for the TensorFlow version. Proved for the numpy version and every SVD choice."
  },
  {
   "property": "C67",
   "status": "proved",
   "theorems": [
    "TD.Props.C67_normal",
    "TD.Props.C67_complicated"
   ],
   "note": "shrink keeps the column-sum constraints and never grows"
  },
  {
   "property": "C68",
   "status": "partial",
   "theorems": [
    "TD.Props.C68_cone_projection",
    "TD.Props.C68_tensorflow_false"
   ],
   "note": "False of the code for the TensorFlow version (TypeError for every input). Fully proved for the numpy version."
  },
  {
   "property": "C69",
   "status": "partial",
   "theorems": [
    "TD.Props.C69_no_samples",
    "TD.Props.C69_tensorflow_resamples_false",
    "TD.Props.C69_records",
    "TD.Props.C69_zero_steps"
   ],
   "note": "False of the code for the TensorFlow version, which draws new samples in every run. Fully proved for exact_recovery."
  },
  {
   "property": "C70",
   "status": "proved",
   "theorems": [
    "TD.Props.C70_cp",
    "TD.Props.C70_tucker"
   ],
   "note": "synthetic data is nonnegative and of the requested shape"
  },
  {
   "property": "C71",
   "status": "proved",
   "theorems": [
    "TD.Props.C71_fresh",
    "TD.Props.C71_classes",
    "TD.Props.C71_hosvd"
   ],
   "note": "each train call starts from scratch"
  },
  {
   "property": "C72",
   "status": "proved",
   "theorems": [
    "TD.Props.C72_residual_at_most_one"
   ],
   "note": "CP_ALS never fits worse than the zero tensor"
  },
  {
   "property": "C73",
   "status": "proved",
   "theorems": [
    "TD.Props.C73_rank_one_positive",
    "TD.Props.C73_rank_one_needed"
   ],
   "note": "Exact arithmetic. C73_rank_one_needed: with rank 2, positive data and positive draws, the first step can divide by 0."
  },
  {
   "property": "C74",
   "status": "proved",
   "theorems": [
    "TD.Props.C74_too_few",
    "TD.Props.C74_hooi_admissible"
   ],
   "note": "HOOI runs exactly for admissible ranks"
  },
  {
   "property": "C75",
   "status": "proved",
   "theorems": [
    "TD.Props.C75_hooi_residual_at_most_one"
   ],
   "note": "HOOI never fits worse than the zero tensor"
  },
  {
   "property": "C76",
   "status": "proved",
   "theorems": [
    "TD.Props.C76_hosvd_entries"
   ],
   "note": "HOSVD core and full tensor are the Tucker contractions"
  },
  {
   "property": "C77",
   "status": "proved",
   "theorems": [
    "TD.Props.C77_core_update_descends",
    "TD.Props.C77_mode_update_descends"
   ],
   "note": "NTUCKER updates without extrapolation do not increase the objective"
  },
  {
   "property": "C78",
   "status": "proved",
   "theorems": [
    "TD.Props.C78_ntucker_first_two_steps",
    "TD.Props.C78_ncp_first_two_steps"
   ],
   "note": "the first two NCP and NTUCKER steps never worsen the fit"
  },
  {
   "property": "C79",
   "status": "proved",
   "theorems": [
    "TD.Props.C79_ntucker_exact_fit",
    "TD.Props.C79_ncp_exact_fit"
   ],
   "note": "NCP and NTUCKER recognise an exact initial fit"
  },
  {
   "property": "C80",
   "status": "proved",
   "theorems": [
    "TD.Props.C80_snapshot_race"
   ],
   "note": "factor sweeps rely on variables being read in place"
  },
  {
   "property": "C81",
   "status": "proved",
   "theorems": [
    "TD.Props.C81_cp_last_entry",
    "TD.Props.C81_hooi_last_entry",
    "TD.Props.C81_ncp_last_entry",
    "TD.Props.C81_ntucker_last_entry"
   ],
   "note": "the last history entry is the error of what the model exposes"
  },
  {
   "property": "C82",
   "status": "proved",
   "theorems": [
    "TD.Props.C82_prefix"
   ],
   "note": "shorter training returns a prefix of longer training"
  },
  {
   "property": "C83",
   "status": "proved",
   "theorems": [
    "TD.Props.C83_ncp_extrapolation",
    "TD.Props.C83_ntucker_extrapolation"
   ],
   "note": "NCP and NTUCKER extrapolate from the best iterate and restart from it"
  },
  {
   "property": "C84",
   "status": "proved",
   "theorems": [
    "TD.Props.C84_ncp_initial",
    "TD.Props.C84_ncp_first_residuals",
    "TD.Props.C84_ntucker_initial",
    "TD.Props.C84_ntucker_first_residuals"
   ],
   "note": "the random start of NCP and NTUCKER has the scale of the data"
  },
  {
   "property": "C85",
   "status": "partial",
   "theorems": [
    "TD.Props.C85_normal",
    "TD.Props.C85_complicated_partial",
    "TD.Props.C85_nonexpansive",
    "TD.Props.C85_complicated_false",
    "TD.Props.C85_tensorflow_false"
   ],
   "note": "Mode 'complicated' minimises ||N0||_* + |total|/sqrt(rc) (N0 = N without column means), not the nuclear norm (C85_complicated_false); the TensorFlow version is no proximal operator at all. Fully proved for mode 'normal' and for nonexpansiveness of the numpy version."
  },
  {
   "property": "C86",
   "status": "partial",
   "theorems": [
    "TD.Props.C86_error_decreases_partial",
    "TD.Props.C86_repeated_false"
   ],
   "note": "False of the code for draws that repeat a pair (C86_repeated_false). Proved for all draws without repeated pairs."
  },
  {
   "property": "C87",
   "status": "proved",
   "theorems": [
    "TD.Props.C87_converges",
    "TD.Props.C87_distinct_needed"
   ],
   "note": "C87_converges for draws without a repeated pair; C87_distinct_needed gives a 1 x 2 x 2 tensor with two samples sharing (i, j) where no step size leads to the minimiser (adjoint_operator keeps only the last value of a cell, C64)."
  },
  {
   "property": "C88",
   "status": "proved",
   "theorems": [
    "TD.Props.C88_cp_stop",
    "TD.Props.C88_hooi_stop",
    "TD.Props.C88_ncp_stop",
    "TD.Props.C88_ntucker_stop"
   ],
   "note": "the returned history alone tells why training stopped"
  },
  {
   "property": "C89",
   "status": "proved",
   "theorems": [
    "TD.Props.C89_cp_never_stalls",
    "TD.Props.C89_hooi_never_stalls"
   ],
   "note": "CP_ALS and HOOI never stop by stalling for small tolerances"
  },
  {
   "property": "C90",
   "status": "proved",
   "theorems": [
    "TD.Props.C90_hooi_full",
    "TD.Props.C90_hosvd_quasi_optimal",
    "TD.Props.C90_hosvd_exact",
    "TD.Props.C90_hooi_quasi_optimal",
    "TD.Props.C90_hooi_exact"
   ],
   "note": "HOSVD and HOOI are quasi-optimal and recover low-rank tensors"
  },
  {
   "property": "C91",
   "status": "proved",
   "theorems": [
    "TD.Props.C91_weights_optimal",
    "TD.Props.C91_rank_one_residuals",
    "TD.Props.C91_rank_one_one_step",
    "TD.Props.C91_rank_one_positive"
   ],
   "note": "CP_ALS recovers rank-one tensors in one step and its weights are optimal"
  },
  {
   "property": "C92",
   "status": "proved",
   "theorems": [
    "TD.Props.C92_ncp_op1",
    "TD.Props.C92_ntucker_op1",
    "TD.Props.C92_ncp_op2",
    "TD.Props.C92_ntucker_op2",
    "TD.Props.C92_ntucker_core",
    "TD.Props.C92_ncp_init",
    "TD.Props.C92_ntucker_init",
    "TD.Props.C92_op1_completes",
    "TD.Props.C92_op2_completes",
    "TD.Props.C92_init_completes",
    "TD.Props.C92_core_completes",
    "TD.Props.C92_hooi_init",
    "TD.Props.C92_hooi_init_completes",
    "TD.Props.C92_hosvd",
    "TD.Props.C92_hosvd_completes"
   ],
   "note": "the momentum, restart, core and initialization runs and the run of HOSVD do not depend on the schedule"
  },
  {
   "property": "C93",
   "status": "proved",
   "theorems": [
    "TD.Props.C93_hooi_train",
    "TD.Props.C93_cp_any_schedule",
    "TD.Props.C93_hooi_any_schedule",
    "TD.Props.C93_ncp_any_schedule",
    "TD.Props.C93_ntucker_any_schedule"
   ],
   "note": "training does not depend on the schedule of the graph operations"
  },
  {
   "property": "C94",
   "status": "partial",
   "theorems": [
    "TD.Props.C94_own_graphs_partial",
    "TD.Props.C94_alone_partial",
    "TD.Props.C94_alone_loop_partial",
    "TD.Props.C94_alone_hosvd_partial",
    "TD.Props.C94_second_model_false",
    "TD.Props.C94_independent_false",
    "TD.Props.C94_never_built"
   ],
   "note": "False of the code: two build_model calls in one default graph make every later training raise (C94_second_model_false, C94_independent_false). Proved for every history in which no graph holds two models. PITF, which has no placeholder, is not part of this model."
  },
  {
   "property": "C95",
   "status": "proved",
   "theorems": [
    "TD.Props.C95_cp_fixed",
    "TD.Props.C95_hooi_fixed",
    "TD.Props.C95_ncp_fixed",
    "TD.Props.C95_ntucker_fixed"
   ],
   "note": "a training that no longer moves has found a block-wise optimum"
  },
  {
   "property": "C96",
   "status": "proved",
   "theorems": [
    "TD.Props.C96_train",
    "TD.Props.C96_fails",
    "TD.Props.C96_no_samples"
   ],
   "note": "Training of the TensorFlow pairwise-interaction class"
  },
  {
   "property": "C97",
   "status": "partial",
   "theorems": [
    "TD.Props.C97_normal",
    "TD.Props.C97_complicated",
    "TD.Props.C97_same_run_partial"
   ],
   "note": "The agreement of the two classes is partial: it needs a solver that returns the right factor transposed and positions drawn once (both false of the code, C66 and C69). The invariants of the TensorFlow shrinkage are fully proved."
  },
  {
   "property": "C98",
   "status": "partial",
   "theorems": [
    "TD.Props.C98_rank",
    "TD.Props.C98_fails",
    "TD.Props.C98_total",
    "TD.Props.C98_thresholds_partial",
    "TD.Props.C98_drops_false",
    "TD.Props.C98_rows_false",
    "TD.Props.C98_tensorflow_false"
   ],
   "note": "Not the singular value thresholding: C98_drops_false (rank search stops one short) and C98_rows_false (rows instead of columns), for every solver. Rank, norm, errors and the total are fully proved. C98_tensorflow_false: the TensorFlow versions (marked 'no use' in the code) raise in all but trivial calls."
  },
  {
   "property": "C99",
   "status": "partial",
   "theorems": [
    "TD.Props.C99_cp_step",
    "TD.Props.C99_cp_train",
    "TD.Props.C99_cp_same",
    "TD.Props.C99_stopping_false"
   ],
   "note": "False as stated for the number of steps: the stall test |obj-obj0|/(obj0+1) is not scale free (C99_stopping_false: 7 steps for the identity, 3 for three times the identity). Everything else is proved, and the number of steps too when tol*(|X|^2/2+2) <= 1 in both units."
  },
  {
   "property": "C100",
   "status": "proved",
   "theorems": [
    "TD.Props.C100_hosvd",
    "TD.Props.C100_hooi_step",
    "TD.Props.C100_hooi_init",
    "TD.Props.C100_hooi_train",
    "TD.Props.C100_hooi_same"
   ],
   "note": "the result of HOSVD and HOOI does not depend on the unit of the data"
  },
  {
   "property": "C101",
   "status": "proved",
   "theorems": [
    "TD.Props.C101_ncp_train",
    "TD.Props.C101_ntucker_train",
    "TD.Props.C101_ncp_same",
    "TD.Props.C101_ntucker_same"
   ],
   "note": "the result of NCP_BCU and NTUCKER_BCU follows the unit of the data"
  },
  {
   "property": "C102",
   "status": "proved",
   "theorems": [
    "TD.Props.C102_cp_drops",
    "TD.Props.C102_hooi_drops",
    "TD.Props.C102_cp_converges",
    "TD.Props.C102_hooi_converges"
   ],
   "note": "CP_ALS and HOOI make only boundedly many large steps and their error converges"
  },
  {
   "property": "C103",
   "status": "proved",
   "theorems": [
    "TD.Props.C103_hooi_last",
    "TD.Props.C103_empty",
    "TD.Props.C103_equal",
    "TD.Props.C103_cp",
    "TD.Props.C103_hosvd"
   ],
   "note": "CP_ALS and HOSVD for every mode; HOOI for the last mode of the sweep only (a solver may mix null vectors into the factors of earlier modes)."
  },
  {
   "property": "C104",
   "status": "proved",
   "theorems": [
    "TD.Props.C104_cp_hosvd",
    "TD.Props.C104_tucker_hosvd",
    "TD.Props.C104_cp_hooi",
    "TD.Props.C104_tucker_hooi",
    "TD.Props.C104_noise_free"
   ],
   "note": "Decomposing synthetic data recovers it up to the added noise"
  },
  {
   "property": "C105",
   "status": "proved",
   "theorems": [
    "TD.Props.C105_cp",
    "TD.Props.C105_hosvd"
   ],
   "note": "An index that no line of the file names is predicted as zero"
  },
  {
   "property": "C106",
   "status": "proved",
   "theorems": [
    "TD.Props.C106_file_hooi"
   ],
   "note": "HOOI on a coordinate file succeeds and is near optimal"
  },
  {
   "property": "C107",
   "status": "proved",
   "theorems": [
    "TD.Props.C107_inner",
    "TD.Props.C107_mul",
    "TD.Props.C107_ttm",
    "TD.Props.C107_hadamard",
    "TD.Props.C107_kron",
    "TD.Props.C107_khatri",
    "TD.Props.C107_kruskal",
    "TD.Props.C107_tucker",
    "TD.Props.C107_gamma",
    "TD.Props.C107_underflow"
   ],
   "note": "No overflow, no underflow (C107_underflow: with underflow no such bound holds); that TensorFlow rounds each term at most once per product and once per addition is an assumption of the model."
  },
  {
   "property": "C108",
   "status": "proved",
   "theorems": [
    "TD.Props.C108_inner",
    "TD.Props.C108_mul",
    "TD.Props.C108_ttm",
    "TD.Props.C108_tucker",
    "TD.Props.C108_kron",
    "TD.Props.C108_khatri",
    "TD.Props.C108_hadamard",
    "TD.Props.C108_kruskal",
    "TD.Props.C108_float32",
    "TD.Props.C108_float32_underflow",
    "TD.Props.C108_sharp"
   ],
   "note": "Exactness proved for every format and evaluation order within the bound; C108_sharp shows the bound cannot be dropped. Also with gradual underflow (C108_float32_underflow)."
  },
  {
   "property": "C109",
   "status": "proved",
   "theorems": [
    "TD.Props.C109_mul",
    "TD.Props.C109_ttm",
    "TD.Props.C109_kruskal",
    "TD.Props.C109_tucker",
    "TD.Props.C109_kron",
    "TD.Props.C109_khatri"
   ],
   "note": "No overflow, no underflow (see C107)."
  },
  {
   "property": "C110",
   "status": "proved",
   "theorems": [
    "TD.Props.C110_cp",
    "TD.Props.C110_ncp",
    "TD.Props.C110_ntucker"
   ],
   "note": "CP_ALS, NCP_BCU and NTUCKER_BCU over the reals; the pseudo-inverse and the largest singular value are arbitrary routines (for CP_ALS one that returns the pseudo-inverse). HOSVD and HOOI are the subject of C123."
  },
  {
   "property": "C111",
   "status": "proved",
   "theorems": [
    "TD.Props.C111_same_rows",
    "TD.Props.C111_unambiguous",
    "TD.Props.C111_quote_all",
    "TD.Props.C111_round_trip",
    "TD.Props.C111_stray_quote",
    "TD.Props.C111_unclosed_quote"
   ],
   "note": "Quoted fields and line endings do not change what a coordinate file means"
  },
  {
   "property": "C112",
   "status": "proved",
   "theorems": [
    "TD.Props.C112_last_success",
    "TD.Props.C112_outcomes",
    "TD.Props.C112_data"
   ],
   "note": "A TensorReader always shows the data of its last successful read"
  },
  {
   "property": "C113",
   "status": "proved",
   "theorems": [
    "TD.Props.C113_cp",
    "TD.Props.C113_ncp",
    "TD.Props.C113_ntucker"
   ],
   "note": "The numbering of the components does not matter"
  },
  {
   "property": "C114",
   "status": "proved",
   "theorems": [
    "TD.Props.C114_report",
    "TD.Props.C114_line_count",
    "TD.Props.C114_readable",
    "TD.Props.C114_exact",
    "TD.Props.C114_tie",
    "TD.Props.C114_interrupted"
   ],
   "note": "Python's float formatting is modelled as correctly rounded (round half to even on the exact value) decimal output. Buffering: a killed process leaves some prefix of the text."
  },
  {
   "property": "C115",
   "status": "partial",
   "theorems": [
    "TD.Props.C115_arguments",
    "TD.Props.C115_command_line",
    "TD.Props.C115_command_line_raises",
    "TD.Props.C115_name",
    "TD.Props.C115_untouched",
    "TD.Props.C115_last",
    "TD.Props.C115_each_kept_false",
    "TD.Props.C115_each_kept_partial",
    "TD.Props.C115_shell",
    "TD.Props.C115_shell_kept",
    "TD.Props.C115_scripts_false",
    "TD.Props.C115_shell2"
   ],
   "note": "False: file names omit two of the three dimensions, and ex_no_noise.sh writes the same names as ex_20_shell.sh. Proved: exactly which experiments collide, and that the experiments of ex_20_shell.sh do not. ex_20_shell2.sh is modelled too: it makes exactly the planned calls, none with a file of ex_20_shell.sh."
  },
  {
   "property": "C116",
   "status": "proved",
   "theorems": [
    "TD.Props.C116_supplied",
    "TD.Props.C116_object",
    "TD.Props.C116_rebuild",
    "TD.Props.C116_no_data",
    "TD.Props.C116_unbuilt",
    "TD.Props.C116_out",
    "TD.Props.C116_not_current"
   ],
   "note": "Single-threaded scripts; arrays are objects with contents; PITF (which builds the tensor into its graph) is not included."
  },
  {
   "property": "C117",
   "status": "proved",
   "theorems": [
    "TD.Props.C117_reporting",
    "TD.Props.C117_full"
   ],
   "note": "`verbose=False` with interval 0 raises ZeroDivisionError and is excluded (C43/C82 describe it)."
  },
  {
   "property": "C118",
   "status": "proved",
   "theorems": [
    "TD.Props.C118_looser"
   ],
   "note": "A looser tolerance never trains longer"
  },
  {
   "property": "C119",
   "status": "proved",
   "theorems": [
    "TD.Props.C119_nan",
    "TD.Props.C119_first_nan"
   ],
   "note": "Only the comparisons and operations of the training loop; what the session returns after NaN is arbitrary. NaN handling of TensorFlow kernels is not modelled."
  },
  {
   "property": "C120",
   "status": "proved",
   "theorems": [
    "TD.Props.C120_relative",
    "TD.Props.C120_rmse",
    "TD.Props.C120_l2",
    "TD.Props.C120_rmse_ignore_zero",
    "TD.Props.C120_objective",
    "TD.Props.C120_residual",
    "TD.Props.C120_zero",
    "TD.Props.C120_zero_underflow",
    "TD.Props.C120_tolerance",
    "TD.Props.C120_training"
   ],
   "note": "Given the data and the reconstruction as stored (the rounding of the reconstruction itself is C107/C109). No overflow or underflow of squares; C120_zero_underflow: in float32 the residual of [1, 0] against [1, 2^-100] is reported as zero."
  },
  {
   "property": "C121",
   "status": "proved",
   "theorems": [
    "TD.Props.C121_first",
    "TD.Props.C121_scaled",
    "TD.Props.C121_rank_one"
   ],
   "note": "Exact arithmetic. Mode 0: no assumption at all. Rescaled columns: linear independence in the first step (stated on the factors the first step returns); discharged for rank 1 with positive data and factors."
  },
  {
   "property": "C122",
   "status": "proved",
   "theorems": [
    "TD.Props.C122_hosvd",
    "TD.Props.C122_hooi",
    "TD.Props.C122_needs_separated"
   ],
   "note": "Exact arithmetic; the SVD routine is any routine meeting the specification SvdOk. Separation is needed (C122_needs_separated) and is required of every matrix the training looks at; shown for diag(2,1)."
  },
  {
   "property": "C123",
   "status": "proved",
   "theorems": [
    "TD.Props.C123_hosvd",
    "TD.Props.C123_hosvd_renumber",
    "TD.Props.C123_hooi",
    "TD.Props.C123_hooi_renumber"
   ],
   "note": "Exact arithmetic, separated singular values. For general orthogonal matrices the loss column of the history (which skips zero entries) is not compared, only the relative residuals; for renumberings the whole history is."
  },
  {
   "property": "C124",
   "status": "proved",
   "theorems": [
    "TD.Props.C124_mul",
    "TD.Props.C124_ttm",
    "TD.Props.C124_hadamard",
    "TD.Props.C124_kron",
    "TD.Props.C124_khatri",
    "TD.Props.C124_kruskal",
    "TD.Props.C124_tucker",
    "TD.Props.C124_inner",
    "TD.Props.C124_mul_shows",
    "TD.Props.C124_kron_shows",
    "TD.Props.C124_khatri_shows",
    "TD.Props.C124_hadamard_shows",
    "TD.Props.C124_kruskal_shows",
    "TD.Props.C124_tucker_shows",
    "TD.Props.C124_ttm_shows"
   ],
   "note": "Overflow, gradual underflow, infinities and NaN; no signed zeros. Values of entries that are numbers: every input, also raising ones. The converse direction (what shows): the operands for which the operation is defined."
  },
  {
   "property": "C125",
   "status": "partial",
   "theorems": [
    "TD.Props.C125_l2",
    "TD.Props.C125_rmse",
    "TD.Props.C125_rmse_ignore_zero",
    "TD.Props.C125_objective",
    "TD.Props.C125_residual_partial",
    "TD.Props.C125_residual_false",
    "TD.Props.C125_ends_finite",
    "TD.Props.C125_bad_input"
   ],
   "note": "Proved: all losses and the objective, the visibility of infinities and NaN, the stopping behaviour. False: the value of the relative residual when the norm of the input overflows (C125_residual_false: float32, input 2^65, reconstruction 3*2^63, residual reported 0, exact 1/4); C125_residual_partial assumes that norm is a number. rmse assumes the number of entries is at most half the largest number, rmse_ignore_zero that the computed count is a number. Trainings: any main run that reports these scalars of its reconstruction; no signed zeros. The graphs of CP_ALS, NCP_BCU and NTUCKER_BCU satisfy the hypothesis on the reported numbers (cp_reports, ncp_reports, ntucker_reports in Lemmas/SpecialStop); see C138 for the consequence for the exposed factors."
  },
  {
   "property": "C126",
   "status": "proved",
   "theorems": [
    "TD.Props.C126_cp",
    "TD.Props.C126_ncp",
    "TD.Props.C126_ntucker",
    "TD.Props.C126_hooi",
    "TD.Props.C126_hooi_positive",
    "TD.Props.C126_agree",
    "TD.Props.C126_best"
   ],
   "note": "Spec/AlsOne.lean states the iteration on vectors and what a history entry says of a reconstruction; C126_best shows that its step is the least-squares fit. Real numbers; C126_hooi assumes the start is not orthogonal to the tensor (C126_hooi_positive discharges this for positive tensors; if it fails the core is zero and the SVD of a zero matrix decides the next vectors)."
  },
  {
   "property": "C127",
   "status": "proved",
   "theorems": [
    "TD.Props.C127_never_rises",
    "TD.Props.C127_ntucker",
    "TD.Props.C127_positive",
    "TD.Props.C127_core",
    "TD.Props.C127_ntucker_positive"
   ],
   "note": "Real numbers. Sharper than C54/C62, which guarantee a decrease only while the extrapolation weights are zero: with one component the update does not depend on the extrapolated point."
  },
  {
   "property": "C128",
   "status": "proved",
   "theorems": [
    "TD.Props.C128_corner",
    "TD.Props.C128_all_orthogonal"
   ],
   "note": "Exact real arithmetic; tf.svd is any function that returns a thin singular value decomposition (the same function in both runs). HOSVD only; HOOI recomputes its factors for every rank list and has no such corner property."
  },
  {
   "property": "C129",
   "status": "proved",
   "theorems": [
    "TD.Props.C129_kruskal",
    "TD.Props.C129_tucker",
    "TD.Props.C129_tolerance",
    "TD.Props.C129_nonneg"
   ],
   "note": "Composes C107/C109 (rounding of the reconstruction) with C120 (rounding of the reported numbers). No overflow or underflow. The factors are whatever the training exposes; how rounding inside the updates influences them is not analysed."
  },
  {
   "property": "C130",
   "status": "proved",
   "theorems": [
    "TD.Props.C130_compose",
    "TD.Props.C130_split",
    "TD.Props.C130_identity",
    "TD.Props.C130_linear",
    "TD.Props.C130_adjoint",
    "TD.Props.C130_isometry"
   ],
   "note": "Exact arithmetic over any commutative semiring. `C130_compose` takes the matrix products from `mul` itself. Orthonormality and the identity matrix are defined in Spec/TtmLaws.lean."
  },
  {
   "property": "C131",
   "status": "proved",
   "theorems": [
    "TD.Props.C131_same_numbers",
    "TD.Props.C131_coordinate",
    "TD.Props.C131_table"
   ],
   "note": "The grammar of integers is Spec/IntText.lean (ASCII; int() also knows other Unicode digits and blanks, and numpy limits the range to 64 bits: not modelled). The specification of coordinate files (Spec/Coord.lean), and with it C35-C39, C105, C106, C111, C112, is stated with this grammar instead of the model's int()."
  },
  {
   "property": "C132",
   "status": "proved",
   "theorems": [
    "TD.Props.C132_inner",
    "TD.Props.C132_superdiagonal",
    "TD.Props.C132_sum",
    "TD.Props.C132_tucker_inner",
    "TD.Props.C132_tucker_orthonormal"
   ],
   "note": "Exact arithmetic over any commutative semiring. The element types of weights and factors have to agree (otherwise extract raises, C26)."
  },
  {
   "property": "C133",
   "status": "proved",
   "theorems": [
    "TD.Props.C133_cp",
    "TD.Props.C133_ncp",
    "TD.Props.C133_hooi",
    "TD.Props.C133_ntucker",
    "TD.Props.C133_hosvd"
   ],
   "note": "Eckart-Young applied to every unfolding of the approximation behind each history entry (C82 reduces every entry to the last entry of a shorter training). Exact real arithmetic; singular values are those of any thin SVD of the unfolding the code computes."
  },
  {
   "property": "C134",
   "status": "proved",
   "theorems": [
    "TD.Props.C134_transpose",
    "TD.Props.C134_kruskal",
    "TD.Props.C134_tucker",
    "TD.Props.C134_losses",
    "TD.Props.C134_hosvd",
    "TD.Props.C134_cp_depends_on_order"
   ],
   "note": "Over any commutative semiring for the two forms; exact real arithmetic for the losses, HOSVD and CP_ALS. transpose is TensorFlow's, specified by Spec/Transposed.lean. Separation of singular values is needed because equal ones leave the choice of the subspace to the SVD routine (C122)."
  },
  {
   "property": "C135",
   "status": "proved",
   "theorems": [
    "TD.Props.C135_unique",
    "TD.Props.C135_read",
    "TD.Props.C135_accepts",
    "TD.Props.C135_round_trip",
    "TD.Props.C135_exact_text"
   ],
   "note": "Python's float() is modelled as a function on text after CPython's PyFloat_FromString, for ASCII characters; that contract is trusted. The grammar is in Spec/FloatText.lean. Rounding is that of Model/Special.lean: overflow to infinity, gradual underflow, no signed zeros."
  },
  {
   "property": "C136",
   "status": "proved",
   "theorems": [
    "TD.Props.C136_ncp_nonneg",
    "TD.Props.C136_ncp_completes",
    "TD.Props.C136_ntucker_nonneg",
    "TD.Props.C136_ntucker_completes"
   ],
   "note": "Model/SpecialBcu.lean is the text of Model/Bcu.lean on numbers with rounding, overflow, infinities and NaN (Model/Special.lean). Proved for NCP_BCU and NTUCKER_BCU: nothing exposed compares less than zero after any history, with any singular value routine (it may raise), and train returns if that routine is total. relu of NaN is modelled as NaN; the claim would hold as well if it were 0. Signed zeros are not modelled. NaN entries do occur: the claim says they do not raise and are not negative, not that the results are useful (C125 says when the reported errors reveal them)."
  },
  {
   "property": "C137",
   "status": "proved",
   "theorems": [
    "TD.Props.C137_columns",
    "TD.Props.C137_numbers",
    "TD.Props.C137_steps",
    "TD.Props.C137_raises",
    "TD.Props.C137_zero"
   ],
   "note": "Model/SpecialCp.lean runs the graph of CP_ALS on rounded numbers with infinities and NaN. The pseudo-inverse is any function that keeps the size of a square matrix; the parts about numbers assume that it raises on infinities and NaN, as numpy's does. Signed zeros are not modelled."
  },
  {
   "property": "C138",
   "status": "proved",
   "theorems": [
    "TD.Props.C138_cp",
    "TD.Props.C138_ncp",
    "TD.Props.C138_ntucker",
    "TD.Props.C138_hooi"
   ],
   "note": "Graphs of Model/SpecialBcu, Model/SpecialCp and Model/SpecialTucker inside the modelled training loop; floats as in C125/C136/C137 (rounding, overflow, gradual underflow, infinities, NaN; no signed zeros). The pseudo-inverse, the decomposition and the singular values are arbitrary functions. HOSVD has no loop."
  },
  {
   "property": "C139",
   "status": "proved",
   "theorems": [
    "TD.Props.C139_hooi_raises",
    "TD.Props.C139_hooi_returns",
    "TD.Props.C139_hooi_exposes",
    "TD.Props.C139_hosvd"
   ],
   "note": "Model/SpecialTucker.lean runs the graphs of HOSVD and HOOI on rounded numbers with infinities and NaN. One rank per mode (HOSVD: at least). The decomposition is any function that returns U of thin size or raises; no orthogonality is assumed. No signed zeros."
  },
  {
   "property": "C140",
   "status": "proved",
   "theorems": [
    "TD.Props.C140_ncp",
    "TD.Props.C140_ntucker",
    "TD.Props.C140_cp",
    "TD.Props.C140_hooi",
    "TD.Props.C140_hosvd",
    "TD.Props.C140_sv_rounded",
    "TD.Props.C140_pinv_rounded",
    "TD.Props.C140_cp_rank_one",
    "TD.Props.C140_few_ties"
   ],
   "note": "Specification in Spec/Limit.lean. The hypothesis NoTies excludes comparisons that are equalities in the exact run; C140_few_ties shows that for the tolerance these are finitely many values. HOOI and HOSVD assume convergent singular vectors (SvdTends), which real routines satisfy only up to signs and for simple singular values; an exact routine that raises elsewhere is allowed."
  },
  {
   "property": "C141",
   "status": "proved",
   "theorems": [
    "TD.Props.C141_tolerance",
    "TD.Props.C141_exact",
    "TD.Props.C141_rounded"
   ],
   "note": "A larger tolerance only stops the same training sooner"
  },
  {
   "property": "C142",
   "status": "partial",
   "theorems": [
    "TD.Props.C142_programs_partial",
    "TD.Props.C142_tensors_never_change",
    "TD.Props.C142_two_modes_false"
   ],
   "note": "True of every program that unfolds no object along two different modes (C142_programs_partial), false of the others because of the cache of DTensor.unfold (C142_two_modes_false, see C29). That the tensors in the objects never change holds of all programs."
  },
  {
   "property": "C143",
   "status": "partial",
   "theorems": [
    "TD.Props.C143_entry",
    "TD.Props.C143_raises",
    "TD.Props.C143_chain",
    "TD.Props.C143_iteration_partial",
    "TD.Props.C143_iteration_raises_false"
   ],
   "note": "Indexing as stated. Iteration is false: the class has no __iter__, Python ends a loop over __getitem__ only on IndexError, and TensorFlow raises ValueError, so every loop over a DTensor gets all slices and then raises."
  },
  {
   "property": "C144",
   "status": "proved",
   "theorems": [
    "TD.Props.C144_mean",
    "TD.Props.C144_adjoint",
    "TD.Props.C144_adjoint_tensorflow",
    "TD.Props.C144_first_loss"
   ],
   "note": "Assumes what the documentation of np.random.randint says: the three index vectors are drawn independently and uniformly. adjoint_operator overwrites repeated positions (C64), which is why the factor is the chance of being drawn at all instead of the expected number of draws."
  },
  {
   "property": "C145",
   "status": "proved",
   "theorems": [
    "TD.Props.C145_report",
    "TD.Props.C145_refuses",
    "TD.Props.C145_independent",
    "TD.Props.C145_completes"
   ],
   "note": "The rating scripts turn one table of ratings into four independent reports"
  },
  {
   "property": "C146",
   "status": "partial",
   "theorems": [
    "TD.Props.C146_mul_nat",
    "TD.Props.C146_ttm_nat",
    "TD.Props.C146_mul_raises",
    "TD.Props.C146_ttm_raises_partial",
    "TD.Props.C146_ttm_seven_false"
   ],
   "note": "mulZ/ttmZ are the integer-axis versions of the model; on natural numbers they are the functions of C08/C10 (C146_mul_nat, C146_ttm_nat). What tf.transpose does with a negative entry is a parameter, so no TensorFlow version is assumed. Missing: ttm on tensors with seven or more axes with an axis in -ndims..-7, where the claim is false of the code (C146_ttm_seven_false)."
  },
  {
   "property": "C147",
   "status": "partial",
   "theorems": [
    "TD.Props.C147_matrices",
    "TD.Props.C147_ab",
    "TD.Props.C147_ba_partial",
    "TD.Props.C147_ba_false",
    "TD.Props.C147_exchange"
   ],
   "note": "C147_ab and the transposed version of the second documented product are proved for all sizes (C147_matrices covers the four axis choices). The documented 'same as BA' is false: C147_ba_false, and C147_exchange says what the call returns instead."
  },
  {
   "property": "C148",
   "status": "proved",
   "theorems": [
    "TD.Props.C148_shrink_solver",
    "TD.Props.C148_solver",
    "TD.Props.C148_unit",
    "TD.Props.C148_relabel",
    "TD.Props.C148_order"
   ],
   "note": "Over the reals, with the decomposition a parameter required only to be a singular value decomposition. Solver independence from the uniqueness of the subgradient alignment (with C85); numbering and unit by transport through every step of the loop; order of draws under distinct pairs (with a repeated pair the last value wins, C64)."
  },
  {
   "property": "C149",
   "status": "partial",
   "theorems": [
    "TD.Props.C149_gram_partial",
    "TD.Props.C149_same_gram_partial",
    "TD.Props.C149_solver_false"
   ],
   "note": "Refuted from every correct solver: the solver with the second singular vectors negated is correct too and gives another matrix for [[1,1],[-1,-1]] at threshold 0. Proved: S S^T equals the numpy version's and is the same for all solvers."
  },
  {
   "property": "C150",
   "status": "proved",
   "theorems": [
    "TD.Props.C150_cp",
    "TD.Props.C150_hooi"
   ],
   "note": "Exact arithmetic, linear algebra routines as parameters with their defining properties. The iterates are tied to the step function as in C95."
  },
  {
   "property": "C151",
   "status": "proved",
   "theorems": [
    "TD.Props.C151_cp",
    "TD.Props.C151_hooi"
   ],
   "note": "Exact arithmetic. Convergence of factors means convergence of every entry. For CP_ALS existence of a convergent subsequence is not claimed (weights may diverge)."
  },
  {
   "property": "C152",
   "status": "proved",
   "theorems": [
    "TD.Props.C152_ncp",
    "TD.Props.C152_ntucker",
    "TD.Props.C152_ncp_one"
   ],
   "note": "Exact arithmetic. The disjunction is needed: after a step that does not improve, the reference point of the extrapolation stays where it was while the factors move on, so a limit without infinitely many improvements need not be optimal. C152_ncp_one has no such condition."
  },
  {
   "property": "C153",
   "status": "proved",
   "theorems": [
    "TD.Props.C153_ncp",
    "TD.Props.C153_ntucker"
   ],
   "note": "Exact arithmetic. Complements C79 (positive tolerance: one step)."
  },
  {
   "property": "C154",
   "status": "proved",
   "theorems": [
    "TD.Props.C154_ncp",
    "TD.Props.C154_ntucker",
    "TD.Props.C154_positive_needed"
   ],
   "note": "Exact arithmetic. Extends C127 (rank 1) to all ranks and to NTUCKER_BCU; C154_positive_needed shows a nonnegative tensor for which the first step divides by 0."
  },
  {
   "property": "C155",
   "status": "partial",
   "theorems": [
    "TD.Props.C155_reports",
    "TD.Props.C155_tucker_raises",
    "TD.Props.C155_shell2",
    "TD.Props.C155_shell_false",
    "TD.Props.C155_shell_partial",
    "TD.Props.C155_shell_never"
   ],
   "note": "Proved for ex_20_shell2.sh; false of ex_20_shell.sh, whose calls of tucker_ex.py with size 20 and ranks 21 to 25 always raise. Proved: exactly those calls fail, all others leave a report. The data generated is any tensor of the size asked for; the arithmetic rounds, overflows and has NaN."
  },
  {
   "property": "C156",
   "status": "proved",
   "theorems": [
    "TD.Props.C156_multigraph",
    "TD.Props.C156_single"
   ],
   "note": "The printed number of multigraph_demo.py is 0 in exact arithmetic (rounding makes it small). The other four: same argument as C155, in rounded arithmetic, for any data of the generated size."
  },
  {
   "property": "C157",
   "status": "proved",
   "theorems": [
    "TD.Props.C157_returns_iff",
    "TD.Props.C157_rank",
    "TD.Props.C157_run",
    "TD.Props.C157_files",
    "TD.Props.C157_refused",
    "TD.Props.C157_lost"
   ],
   "note": "Fully proved about the call with raw arguments (recover). Whether randint refuses an empty range when no number is asked for depends on the version of numpy (stated in the model); the call raises either way."
  },
  {
   "property": "C158",
   "status": "proved",
   "theorems": [
    "TD.Props.C158_ordered_core"
   ],
   "note": "Theorem over exact arithmetic for every solver meeting the contract of a thin SVD. The earlier modes are not covered: their factors belong to older factors of later modes."
  },
  {
   "property": "C159",
   "status": "proved",
   "theorems": [
    "TD.Props.C159_unique",
    "TD.Props.C159_samples_determine",
    "TD.Props.C159_generated",
    "TD.Props.C159_normal_form",
    "TD.Props.C159_distinct_undetermined"
   ],
   "note": "Normal form, uniqueness, determination by full samples, and non-determination by pairwise distinct samples, all over the reals."
  },
  {
   "property": "C160",
   "status": "partial",
   "theorems": [
    "TD.Props.C160_rank_partial",
    "TD.Props.C160_rank_false"
   ],
   "note": "C160_rank_partial: at most rank (B, C; also at most rows-1), at most rank+1 (A), both versions. C160_rank_false: a rank-1 request for 'A' giving an invertible 2x2 matrix. That generic draws reach these ranks (a probabilistic statement) is not claimed."
  },
  {
   "property": "C161",
   "status": "partial",
   "theorems": [
    "TD.Props.C161_written_partial",
    "TD.Props.C161_debug_false",
    "TD.Props.C161_silenced",
    "TD.Props.C161_silenced_false",
    "TD.Props.C161_later"
   ],
   "note": "C161_written_partial ('DEBUG', 'RELEASE' after create_logger) and C161_later (loggers of the application made after the import) hold for all states and histories; C161_debug_false and C161_silenced/C161_silenced_false refute the rest. Python's logging (getLogger, levels, propagation, fileConfig with disable_existing_loggers=True) is modelled and trusted; filters, logging.disable and the text written are not."
  },
  {
   "property": "C162",
   "status": "proved",
   "theorems": [
    "TD.Props.C162_matrix",
    "TD.Props.C162_matrix_else",
    "TD.Props.C162_adjoint",
    "TD.Props.C162_adjoint_else",
    "TD.Props.C162_tensor",
    "TD.Props.C162_tensor_else",
    "TD.Props.C162_pair",
    "TD.Props.C162_pair_else",
    "TD.Props.C162_typed"
   ],
   "note": "Raw-argument model (Model/PitfRaw.lean); C162_typed ties it to the operators used by all other pairwise-interaction theorems. The matrix has two axes, the tensor three."
  },
  {
   "property": "C163",
   "status": "proved",
   "theorems": [
    "TD.Props.C163_cp_moves",
    "TD.Props.C163_ncp_moves",
    "TD.Props.C163_ntucker_moves",
    "TD.Props.C163_hooi_moves",
    "TD.Props.C163_cp",
    "TD.Props.C163_ncp",
    "TD.Props.C163_ntucker",
    "TD.Props.C163_hooi"
   ],
   "note": "Exact arithmetic. What is shown about limits holds for every cluster point; that the whole sequence converges to one point is not claimed. Unlike C151 the convergent subsequence exists for CP_ALS too, because reconstructions, not factors, are followed, and optimality holds in every mode, not only in the first and last."
  },
  {
   "property": "C164",
   "status": "proved",
   "theorems": [
    "TD.Props.C164_moves",
    "TD.Props.C164_rest"
   ],
   "note": "Exact arithmetic. Convergence of the whole sequence of reconstructions is not claimed."
  },
  {
   "property": "C165",
   "status": "proved",
   "theorems": [
    "TD.Props.C165_cp_sparse",
    "TD.Props.C165_ncp_sparse",
    "TD.Props.C165_ntucker_sparse",
    "TD.Props.C165_cp",
    "TD.Props.C165_ncp",
    "TD.Props.C165_ntucker",
    "TD.Props.C165_cp_positive",
    "TD.Props.C165_ncp_positive",
    "TD.Props.C165_needed"
   ],
   "note": "SeesLeading, BestOuter and Approaches are in Spec/AlsOneLimit.lean. C165_cp, C165_ncp, C165_ntucker: convergence to a best outer product; C165_cp_positive/_ncp_positive and C165_cp_sparse/_ncp_sparse/_ntucker_sparse: the runs also return, for positive resp. nonnegative nonzero matrices and positive starts; C165_needed: without the condition the claim fails, with a run that exists shown beside C166."
  },
  {
   "property": "C166",
   "status": "proved",
   "theorems": [
    "TD.Props.C166_cp",
    "TD.Props.C166_ncp",
    "TD.Props.C166_ntucker",
    "TD.Props.C166_cp_sparse",
    "TD.Props.C166_ncp_sparse",
    "TD.Props.C166_ntucker_sparse"
   ],
   "note": "C166_cp and C166_ncp are equivalences; C166_ntucker gives the sufficient direction, with the success of the initialisation. C166_cp_sparse, C166_ncp_sparse and C166_ntucker_sparse are the case of positive initial vectors. Examples: a training on diag(2,1) that returns, one on a matrix with a single nonzero entry that raises, and data that meet the hypotheses of the sparse theorems."
  },
  {
   "property": "C167",
   "status": "proved",
   "theorems": [
    "TD.Props.C167_hosvd",
    "TD.Props.C167_hooi",
    "TD.Props.C167_hooi_steps",
    "TD.Props.C167_hosvd_needs_gap"
   ],
   "note": "Over the reals, with the SVD routine any function meeting its contract. BestOfRank and Gap (Spec/BestRank.lean) use Mathlib's matrix rank and the squared error over all entries. C167_hooi covers every successful training; C167_hooi_steps adds the number of steps for tolerances below 1/(|X|^2/2+2). C167_hosvd needs the gap, and C167_hosvd_needs_gap gives a matrix and a correct routine where HOSVD misses by the factor two."
  },
  {
   "property": "C168",
   "status": "proved",
   "theorems": [
    "TD.Props.C168_first_step",
    "TD.Props.C168_spanning",
    "TD.Props.C168_spanning_one_step",
    "TD.Props.C168_matrix"
   ],
   "note": "Exact arithmetic. C168_first_step compares every entry with every first factor and weights; C168_spanning (every entry (0, 0), stored reconstruction = data), C168_spanning_one_step, C168_matrix (row rank, Mathlib's rank). That train returns is a hypothesis, since a rank above 1 may break down (C73); eye_two_train shows a family of trainings that return."
  },
  {
   "property": "C169",
   "status": "proved",
   "theorems": [
    "TD.Props.C169_l2",
    "TD.Props.C169_zero",
    "TD.Props.C169_column",
    "TD.Props.C169_column_self",
    "TD.Props.C169_not_separating"
   ],
   "note": "Spec: Spec/Bcast.lean (alignment at the last axis). C169_l2 (domain and value), C169_zero, C169_column, C169_column_self, C169_not_separating (concrete pair of different tensors at l2 0)."
  },
  {
   "property": "C170",
   "status": "proved",
   "theorems": [
    "TD.Props.C170_repeat",
    "TD.Props.C170_all",
    "TD.Props.C170_entry",
    "TD.Props.C170_not_successive"
   ],
   "note": "Exact arithmetic over any commutative semiring; einsum by its documented meaning (TensorFlow sums a label shared by three operands over the product of all of them). Operands of one shape: see the note on broadcasting in DESIGN.md."
  },
  {
   "property": "C171",
   "status": "proved",
   "theorems": [
    "TD.Props.C171_ttm",
    "TD.Props.C171_kruskal",
    "TD.Props.C171_sensitivity"
   ],
   "note": "Identities over any commutative semiring, the bound in exact real arithmetic with the largest singular value given by contract (TopSvOk, satisfiable: exists_topSvOk). TTensor.extract is ttm when the element types agree (C27)."
  },
  {
   "property": "C172",
   "status": "proved",
   "theorems": [
    "TD.Props.C172_unfold",
    "TD.Props.C172_mul"
   ],
   "note": "Exact arithmetic over any commutative semiring. The matrix product is tf.matmul."
  },
  {
   "property": "C173",
   "status": "proved",
   "theorems": [
    "TD.Props.C173_cp",
    "TD.Props.C173_hooi",
    "TD.Props.C173_ncp",
    "TD.Props.C173_ntucker"
   ],
   "note": "Exact real arithmetic. countNonzero and onZeros are plain sums over the positions of the data. Each entry is reduced to the last entry of a shorter training (C82, C81)."
  },
  {
   "property": "C174",
   "status": "proved",
   "theorems": [
    "TD.Props.C174_tucker",
    "TD.Props.C174_kruskal"
   ],
   "note": "Exact arithmetic over any commutative semiring. Multiplied (in the same file) says V_n is what mul(M_n, U_n, 1, 0) returns."
  },
  {
   "property": "C175",
   "status": "proved",
   "theorems": [
    "TD.Props.C175_matrix",
    "TD.Props.C175_matrix_else",
    "TD.Props.C175_tensor",
    "TD.Props.C175_pair",
    "TD.Props.C175_adjoint",
    "TD.Props.C175_adjoint_else",
    "TD.Props.C175_adjoint_negative",
    "TD.Props.C175_typed"
   ],
   "note": "Model/PitfRawTf.lean: graph construction (lengths known) followed by the run (values known). Trusted: a tensor index below zero counts from the end in a slice, and tf.sparse_tensor_to_dense refuses indices outside the shape. C175_typed ties the model to the operators of the other pairwise-interaction theorems."
  },
  {
   "property": "C176",
   "status": "proved",
   "theorems": [
    "TD.Props.C176_hosvd",
    "TD.Props.C176_hosvd_hooi",
    "TD.Props.C176_hooi",
    "TD.Props.C176_cp",
    "TD.Props.C176_ncp",
    "TD.Props.C176_ntucker"
   ],
   "note": "C176_hosvd: two HOSVD runs in a row, possibly with different SVDs. C176_hosvd_hooi: HOOI after HOSVD. C176_hooi: HOSVD and HOOI after HOOI. C176_cp, C176_ncp, C176_ntucker: HOSVD after the other trainings. Exact arithmetic in the second run."
  },
  {
   "property": "C177",
   "status": "proved",
   "theorems": [
    "TD.Props.C177_hooi_hosvd",
    "TD.Props.C177_cp",
    "TD.Props.C177_ncp",
    "TD.Props.C177_ntucker"
   ],
   "note": "C177_hooi_hosvd: HOOI against HOSVD. C177_cp, C177_ncp, C177_ntucker: TuckerNear, that is HOSVD and HOOI against the three other methods. Exact real arithmetic in the graph operations; the stopping test uses any arithmetic."
  },
  {
   "property": "C178",
   "status": "proved",
   "theorems": [
    "TD.Props.C178_same",
    "TD.Props.C178_returns",
    "TD.Props.C178_verbose",
    "TD.Props.C178_raises",
    "TD.Props.C178_readable",
    "TD.Props.C178_outcome",
    "TD.Props.C178_hosvd"
   ],
   "note": "C178_returns, C178_verbose, C178_raises: the text. C178_readable: what can be read off it. Model/Console.lean repeats train with its print calls and the local variables step and loss_v; C178_same shows that it computes what train computes. Python's float formatting is modelled as in C114. C178_hosvd: the two lines of HOSVD. The pairwise-interaction classes are not covered; a print that fails itself is not modelled."
  },
  {
   "property": "C179",
   "status": "proved",
   "theorems": [
    "TD.Props.C179_hosvd",
    "TD.Props.C179_hooi",
    "TD.Props.C179_exact"
   ],
   "note": "C179_hosvd, C179_hooi, C179_exact. Exact real arithmetic. predict of the other classes raises for every tensor with more than one entry (C40)."
  },
  {
   "property": "C180",
   "status": "proved",
   "theorems": [
    "TD.Props.C180_same",
    "TD.Props.C180_says",
    "TD.Props.C180_files",
    "TD.Props.C180_account",
    "TD.Props.C180_proportional",
    "TD.Props.C180_determined",
    "TD.Props.C180_raises",
    "TD.Props.C180_prefix"
   ],
   "note": "Records are step numbers with values over the reals; the text numpy makes of an array (abbreviated above 1000 entries) is not modelled. Calls as in C157."
  },
  {
   "property": "C181",
   "status": "proved",
   "theorems": [
    "TD.Props.C181_trains",
    "TD.Props.C181_raises",
    "TD.Props.C181_count",
    "TD.Props.C181_again"
   ],
   "note": "Values over the reals; records are arrays, not the text numpy makes of them (the code writes the unformatted 'y:%s' before each). Buffered text that an exception leaves unflushed counts as written. The run is the one of C96; build_model with no samples raises there."
  }
 ]
}