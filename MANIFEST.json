{"claims": [
  {"property": "C01", "status": "proved", "theorems": ["T3f.C01_full_tensor", "T3f.C01_full_matrix", "T3f.C01_full_batch_tensor", "T3f.C01_full_batch_matrix"], "note": "full() of a well-formed object equals the product of core slices, entry by entry"},
  {"property": "C02", "status": "proved", "theorems": ["T3f.C02_tensor_train", "T3f.C02_tensor_train_wf", "T3f.C02_batch", "T3f.C02_empty", "T3f.C02_batch_sizes_unchecked"], "note": "Accept/reject boundary and reported metadata for all core lists whose first core has at least two axes (batch: three); unequal batch sizes are accepted (witness)"},
  {"property": "C03", "status": "proved", "theorems": ["T3f.C03_explicit", "T3f.C03_explicit_batch", "T3f.C03_unchecked"], "note": "Exact accept/reject boundary for metadata of fitting lengths; witnesses for the three kinds of accepted misfits"},
  {"property": "C04", "status": "proved", "theorems": ["T3f.C04_add", "T3f.C04_add_entries"], "note": "full(add(a,b)) is the broadcast sum; ranks add. The batch combinations add supports are spelled out in AddBatches (TensorTrain + batch is not one of them, see C05)"},
  {"property": "C05", "status": "proved", "theorems": ["T3f.C05_add_ok_iff", "T3f.C05_add_mixed_matrix", "T3f.C05_add_shape_mismatch", "T3f.C05_add_batch_mismatch", "T3f.C05_add_broken_broadcast", "T3f.C05_add_one_dim"], "note": "exact success condition of add; every failure is a ValueError; includes the undocumented failures (1-d operands, TensorTrain + batch)"},
  {"property": "C06", "status": "proved", "theorems": ["T3f.C06_sub", "T3f.C06_neg"], "note": "a-b and -a over the reals, all supported batch combinations"},
  {"property": "C07", "status": "proved", "theorems": ["T3f.C07_multiply", "T3f.C07_multiply_error"], "note": "elementwise product with batch broadcasting; nonzero mode sizes needed (reshape with -1 fails on empty tensors)"},
  {"property": "C08", "status": "proved", "theorems": ["T3f.C08_multiply_scalar"], "note": "multiply by any real number"},
  {"property": "C09", "status": "proved", "theorems": ["T3f.C09_matmul", "T3f.C09_matmul_single", "T3f.C09_matmul_error", "T3f.C09_matmul_inner_mismatch"], "note": ""},
  {"property": "C10", "status": "proved", "theorems": ["T3f.C10_tt_dense", "T3f.C10_dense_tt", "T3f.C10_tt_dense_error", "T3f.C10_tt_dense_mismatch", "T3f.C10_matmul_unsupported", "T3f.C10_dense_tt_mismatch", "T3f.C10_dense_tt_error"], "note": "Column (row) mode sizes must be nonzero because of the reshape with -1."},
  {"property": "C100", "status": "proved", "theorems": ["T3f.C100_round", "T3f.C100_matrix", "T3f.C100_indefinite"], "note": "Symmetry kept by round and to_tt_matrix without ties; positive definiteness lost with max_tt_rank=2 (finding)."},
  {"property": "C11", "status": "proved", "theorems": ["T3f.C11_flat_inner", "T3f.C11_flat_inner_comm", "T3f.C11_flat_inner_error", "T3f.C11_flat_inner_shape_mismatch"], "note": "All pairs of TT-objects with equal raw shape and compatible batches; a size-1 batch collapses to a scalar; shape mismatches are errors."},
  {"property": "C12", "status": "proved", "theorems": ["T3f.C12_sparse_tensor", "T3f.C12_sparse_matrix", "T3f.C12_sparse_matrix_wraps", "T3f.C12_sparse_tensor_out_of_range", "T3f.C12_unsupported"], "note": "TT x sparse proved for tensors and matrices; the unsupported mirrored and batch calls and the wrap-around of matrix coordinates are theorems."},
  {"property": "C13", "status": "proved", "theorems": ["T3f.C13_frobenius_norm_squared", "T3f.C13_frobenius_norm", "T3f.C13_frobenius_norm_floor", "T3f.C13_frobenius_norm_squared_diff"], "note": "Both implementations (QR based, for every correct QR routine, and differentiable), batches included; frobenius_norm with its epsilon."},
  {"property": "C14", "status": "proved", "theorems": ["T3f.C14_transpose", "T3f.C14_transpose_twice", "T3f.C14_transpose_error"], "note": ""},
  {"property": "C15", "status": "proved", "theorems": ["T3f.C15_bilinear_form", "T3f.C15_quadratic_form", "T3f.C15_bilinear_form_error", "T3f.C15_bilinear_form_mixed", "T3f.C15_bilinear_form_iff", "T3f.C15_bilinear_form_no_value_error", "T3f.C15_bilinear_form_extra_cores", "T3f.C15_bilinear_form_accepts_longer", "T3f.C15_bilinear_form_wrong_errors"], "note": "Proved for equal batch status; mixed batch arguments are proved to fail; the accepted arguments are characterized, and the documented ValueError for inconsistent shapes is refuted."},
  {"property": "C16", "status": "proved", "theorems": ["T3f.C16_bilinear_form_two_mat", "T3f.C16_bilinear_form_two_mat_iff", "T3f.C16_bilinear_form_two_mat_batch", "T3f.C16_bilinear_form_two_mat_batch_wrong", "T3f.C16_bilinear_form_two_mat_error"], "note": "Value without batches; exact condition for success; exact (wrong) value for batches, because the einsum letter p is used twice; ValueError for arguments that are not TT-matrices."},
  {"property": "C17", "status": "proved", "theorems": ["T3f.C17_cast", "T3f.C17_cast_truncation_wrong"], "note": "Conversions are modelled as functions on elements; ring homomorphisms proved, floor shown to break the claim."},
  {"property": "C18", "status": "proved", "theorems": ["T3f.C18_gather_nd", "T3f.C18_gather_nd_out_of_range", "T3f.C18_gather_nd_error"], "note": "2-D index arrays, tensors and batches, all error cases."},
  {"property": "C19", "status": "proved", "theorems": ["T3f.C19_renormalize", "T3f.C19_renormalize_small_core_wrong"], "note": "Real arithmetic; exp/log/sqrt are the real functions."},
  {"property": "C20", "status": "proved", "theorems": ["T3f.C20_getitem", "T3f.C20_getitem_errors", "T3f.C20_getitem_integers_fail", "T3f.C20_getitem_iff"], "note": "indexing a TT-tensor agrees with indexing full(tt); errors; integers-only subscripts raise IndexError"},
  {"property": "C21", "status": "proved", "theorems": ["T3f.C21_batch_dim", "T3f.C21_full_spec", "T3f.C21_errors", "T3f.C21_empty_slice", "T3f.C21_batch_dim_iff", "T3f.C21_integers_fail", "T3f.C21_full_spec_iff"], "note": "batch-only and full subscripts; the slice of the batch axis must select something (an empty one gives an object whose full raises: C21_empty_slice)"},
  {"property": "C22", "status": "proved", "theorems": ["T3f.C22_concat", "T3f.C22_concat_errors", "T3f.C22_multiply", "T3f.C22_multiply_mismatch", "T3f.C22_multiply_iff", "T3f.C22_multiply_finding"], "note": "concat for equal shapes and ranks; weights of length n or 1; all rejections; which weights are accepted"},
  {"property": "C23", "status": "proved", "theorems": ["T3f.C23_pairwise_flat_inner", "T3f.C23_gram_matrix", "T3f.C23_pairwise_flat_inner_matrix", "T3f.C23_pairwise_matrix_error", "T3f.C23_pairwise_matrix_shape_error", "T3f.C23_pairwise_flat_inner_iff", "T3f.C23_pairwise_flat_inner_errors", "T3f.C23_pairwise_matrix_iff", "T3f.C23_gram_matrix_with"], "note": ""},
  {"property": "C24", "status": "proved", "theorems": ["T3f.C24_tensor", "T3f.C24_matrix", "T3f.C24_eye", "T3f.C24_like", "T3f.C24_one_dim", "T3f.C24_errors"], "note": "Dense values of ones, zeros and eye (tensors, matrices, like); error cases; behaviour for one dimension."},
  {"property": "C25", "status": "proved", "theorems": ["T3f.C25_tensor", "T3f.C25_tensor_batch", "T3f.C25_matrix", "T3f.C25_matrix_batch", "T3f.C25_omitted", "T3f.C25_one_dim"], "note": "Exact error conditions of the random-core initializers with at least two dimensions; TypeError for one dimension."},
  {"property": "C26", "status": "proved", "theorems": ["T3f.C26_tensor", "T3f.C26_tensor_batch", "T3f.C26_matrix", "T3f.C26_matrix_batch", "T3f.C26_nn", "T3f.C26_mean_tensor", "T3f.C26_mean_matrix", "T3f.C26_not_independent"], "note": "First two moments of all entries, for independent standardized draws (existence proved from Gaussian draws)."},
  {"property": "C27", "status": "proved", "theorems": ["T3f.C27_determinant", "T3f.C27_slog_determinant", "T3f.C27_errors"], "note": "determinant and slog_determinant equal det, sign and log|det| of the dense matrix for every batch item (mode sizes positive); other inputs are rejected."},
  {"property": "C28", "status": "proved", "theorems": ["T3f.C28_inv", "T3f.C28_singular"], "note": "two-sided inverse of the dense matrix; singular matrices raise InvalidArgumentError."},
  {"property": "C29", "status": "proved", "theorems": ["T3f.C29_cholesky", "T3f.C29_not_posDef", "T3f.C29_needs_factors", "T3f.C29_lower_triangle", "T3f.C29_iff", "T3f.C29_nonsymmetric_accepted"], "note": "lower triangular with positive diagonal and L L^T = dense, for positive definite factors; other symmetric factors raise, even when the dense matrix is positive definite. For factors that need not be symmetric: exact condition for success (lower triangles), and the result is a factor of the dense matrix iff all factors are positive definite."},
  {"property": "C30", "status": "proved", "theorems": ["T3f.C30_left_to_right", "T3f.C30_right_to_left", "T3f.C30_batch_error"], "note": "All QR routines meeting the contract; positive mode sizes."},
  {"property": "C31", "status": "proved", "theorems": ["T3f.C31_ranks", "T3f.C31_exact"], "note": "Batches take a single bound; lists of bounds are for non-batches (see C34)."},
  {"property": "C32", "status": "proved", "theorems": ["T3f.C32_error", "T3f.C32_quasi_optimal"], "note": "Batches included."},
  {"property": "C33", "status": "proved", "theorems": ["T3f.C33_tensor_ranks", "T3f.C33_tensor_error", "T3f.C33_tensor_quasi_optimal", "T3f.C33_tensor_exact", "T3f.C33_tensor_lossless", "T3f.C33_tensor_small", "T3f.C33_matrix_error", "T3f.C33_matrix_quasi_optimal", "T3f.C33_matrix_exact", "T3f.C33_matrix_errors"], "note": "to_tt_tensor and to_tt_matrix: shape, ranks, exactness, orthogonal error, quasi-optimality, for every correct SVD routine; fewer than two dimensions raise."},
  {"property": "C34", "status": "proved", "theorems": ["T3f.C34_rank_errors", "T3f.C34_epsilon_error", "T3f.C34_inf_none_errors", "T3f.C34_epsilon_ignored"], "note": "The documented behaviour of epsilon and np.inf is refuted."},
  {"property": "C35", "status": "proved", "theorems": ["T3f.C35_ranks", "T3f.C35_exact", "T3f.C35_sum_of_ranks", "T3f.C35_short", "T3f.C35_one_dim"], "note": "Exactness under representability of the partial sums; sum-of-ranks corollary; one core and short lists treated separately."},
  {"property": "C36", "status": "proved", "theorems": ["T3f.C36_ranks", "T3f.C36_exact", "T3f.C36_sum_of_ranks", "T3f.C36_coef_errors"], "note": "No, vector and matrix coefficients by one predicate; error cases of coef."},
  {"property": "C37", "status": "proved", "theorems": ["T3f.C37_project", "T3f.C37_project_any", "T3f.C37_self", "T3f.C37_idempotent", "T3f.C37_self_adjoint", "T3f.C37_nearest", "T3f.C37_linear", "T3f.C37_errors", "T3f.C37_iff"], "note": "Orthogonal projection on the tangent space, for every batch item, for any correct QR routine; the tangent space is characterized for points with minimal ranks; idempotent, self-adjoint, linear, nearest, fixes the point without that hypothesis. One core is an error."},
  {"property": "C38", "status": "proved", "theorems": ["T3f.C38_project_sum", "T3f.C38_weights_error", "T3f.C38_errors", "T3f.C38_iff"], "note": "All accepted forms of the weights; all other weights are an error (also a matrix with one column)."},
  {"property": "C39", "status": "proved", "theorems": ["T3f.C39_project_matmul", "T3f.C39_orthogonal", "T3f.C39_errors", "T3f.C39_iff", "T3f.C39_ignored_cores"], "note": "Batches of TT-matrices with at least two cores; a single object as what raises ValueError although it is documented (proved). C39_iff: the exact success condition for TT-matrices M; C39_ignored_cores: further cores of M are ignored."},
  {"property": "C40", "status": "proved", "theorems": ["T3f.C40_add_n_projected", "T3f.C40_minimal", "T3f.C40_errors", "T3f.C40_unbalanced"], "note": "for all projections on one point (project, project_sum, project_matmul, add_n_projected), under the condition on the ranks of the two orthogonalizations; holds for minimal ranks; C40_unbalanced shows that for two cores the condition is needed"},
  {"property": "C41", "status": "proved", "theorems": ["T3f.C41_pairwise", "T3f.C41_pairwise_minimal", "T3f.C41_errors", "T3f.C41_unbalanced"], "note": "under the condition on the ranks of the two orthogonalizations; holds for minimal ranks; C41_unbalanced shows that the condition is necessary"},
  {"property": "C42", "status": "proved", "theorems": ["T3f.C42_from_deltas", "T3f.C42_roundtrip", "T3f.C42_projected", "T3f.C42_minimal", "T3f.C42_rank_error", "T3f.C42_last_rank", "T3f.C42_errors"], "note": "for all deltas of the right shapes; the conditions on the ranks of the two orthogonalizations hold for minimal ranks; C42_rank_error and C42_last_rank show that the functions fail without them"},
  {"property": "C43", "status": "proved", "theorems": ["T3f.C43_gradient", "T3f.C43_project", "T3f.C43_hessian", "T3f.C43_hessian_project", "T3f.C43_zero_value", "T3f.C43_rank_error", "T3f.C43_one_dim"], "note": "gradients is the orthogonal projection of the gradient in the elements on the tangent space (and equals project of it); hessian_vector_product is P H P z (and equals project of H P z); the derivative routine is a parameter with a specification; failures (value zero with the runtime check, different ranks of the two orthogonalizations, one core) are proved."},
  {"property": "C44", "status": "proved", "theorems": ["T3f.C44_unravel_index", "T3f.C44_unravel_index_wraps"], "note": "Exact, including the wrap-around of out of range indices."},
  {"property": "C45", "status": "proved", "theorems": ["T3f.C45_clean_raw_shape", "T3f.C45_degenerate"], "note": "All static forms of the shape argument"},
  {"property": "C46", "status": "proved", "theorems": ["T3f.C46_broadcasting", "T3f.C46_unknown_sizes", "T3f.C46_known"], "note": "Known and unknown sizes"},
  {"property": "C47", "status": "proved", "theorems": ["T3f.C47_expand", "T3f.C47_squeeze", "T3f.C47_squeeze_expand"], "note": "expand/squeeze and their round trip"},
  {"property": "C48", "status": "proved", "theorems": ["T3f.C48_get_variable", "T3f.C48_no_initializer", "T3f.C48_regularizer", "T3f.C48_assign", "T3f.C48_assign_error", "T3f.C48_not_variable", "T3f.C48_sequence", "T3f.C48_swap", "T3f.C48_more_cores"], "note": "Eager mode. assign is not atomic on errors; a value with more cores can be accepted (C48_more_cores); variables of one object cannot be swapped (C48_swap)."},
  {"property": "C49", "status": "proved", "theorems": ["T3f.C49_call", "T3f.C49_init", "T3f.C49_new_layer", "T3f.C49_variance", "T3f.C49_init_error", "T3f.C49_call_mismatch", "T3f.C49_one_dim"], "note": "The Keras base class is not modelled. With one dimension every call fails (C49_one_dim)."},
  {"property": "C50", "status": "proved", "theorems": ["T3f.C50_l2", "T3f.C50_scale_error", "T3f.C50_zero", "T3f.C50_cores", "T3f.C50_api2"], "note": "Under the TensorFlow 1 API; with the TensorFlow 2 API no regularizer works (C50_api2)."},
  {"property": "C51", "status": "proved", "theorems": ["T3f.C51_closure", "T3f.C51_ok_iff", "T3f.C51_same_value"], "note": "Expression language of 13 operations; other operations have well-formedness in their own theorems."},
  {"property": "C52", "status": "proved", "theorems": ["T3f.C52_add_comm", "T3f.C52_add_assoc", "T3f.C52_mul_comm", "T3f.C52_mul_assoc", "T3f.C52_mul_add", "T3f.C52_add_mul", "T3f.C52_sub_eq", "T3f.C52_smul_smul", "T3f.C52_smul_add", "T3f.C52_matmul_assoc", "T3f.C52_add_matmul", "T3f.C52_matmul_add", "T3f.C52_smul_matmul", "T3f.C52_transpose_matmul", "T3f.C52_transpose_transpose", "T3f.C52_transpose_add", "T3f.C52_inner_add", "T3f.C52_inner_smul", "T3f.C52_inner_comm", "T3f.C52_norm_inner"], "note": "Each law for all programs for which both sides run."},
  {"property": "C53", "status": "proved", "theorems": ["T3f.C53_matmul", "T3f.C53_flat_inner", "T3f.C53_bilinear_form", "T3f.C53_gram_matrix", "T3f.C53_pairwise", "T3f.C53_collapse"], "note": "True for sizes other than one, false for size one (C53_collapse)."},
  {"property": "C54", "status": "proved", "theorems": ["T3f.C54_accessors", "T3f.C54_batch_size"], "note": "for all valid objects"},
  {"property": "C55", "status": "proved", "theorems": ["T3f.C55_contract", "T3f.C55_routine", "T3f.C55_only_s", "T3f.C55_only_s_error", "T3f.C55_idempotent"], "note": "for every correct NumPy routine"},
  {"property": "C56", "status": "proved", "theorems": ["T3f.C56_round_ranks", "T3f.C56_update", "T3f.C56_error", "T3f.C56_stationary", "T3f.C56_target", "T3f.C56_step", "T3f.C56_loop", "T3f.C56_large_ranks", "T3f.C56_may_increase"], "note": "decrease of the functional in every step is disproved (C56_may_increase)"},
  {"property": "C57", "status": "proved", "theorems": ["T3f.C57_half_square", "T3f.C57_quadratic", "T3f.C57_distance", "T3f.C57_half_square_hessian", "T3f.C57_quadratic_hessian", "T3f.C57_distance_hessian"], "note": "gradients and Hessian products of three functions, for all arguments"},
  {"property": "C58", "status": "proved", "theorems": ["T3f.C58_tensor", "T3f.C58_matrix", "T3f.C58_data", "T3f.C58_full_ranks", "T3f.C58_one_bound", "T3f.C58_round", "T3f.C58_round_again", "T3f.C58_round_list"], "note": "Exact TT-ranks of to_tt_tensor, to_tt_matrix and round; finding for lists of bounds."},
  {"property": "C59", "status": "proved", "theorems": ["T3f.C59_new_layer", "T3f.C59_set_weights", "T3f.C59_compress", "T3f.C59_same_rank", "T3f.C59_count", "T3f.C59_get_set"], "note": "set_weights and compression of a dense layer; finding for ranks larger than the modes allow."},
  {"property": "C60", "status": "proved", "theorems": ["T3f.C60_two", "T3f.C60_two_dense", "T3f.C60_not_best"], "note": "Optimality for two cores for all competitors; failure for three cores for every correct QR and SVD."},
  {"property": "C61", "status": "proved", "theorems": ["T3f.C61_gather_loss", "T3f.C61_masked_loss", "T3f.C61_losses_agree", "T3f.C61_test_loss", "T3f.C61_contradiction", "T3f.C61_birthday", "T3f.C61_duplicates"], "note": "Masked and gather losses, agreement for distinct cells, lower bound for contradictory duplicates, probability of duplicates."},
  {"property": "C62", "status": "proved", "theorems": ["T3f.C62_linear", "T3f.C62_gradient", "T3f.C62_unique", "T3f.C62_unobserved", "T3f.C62_stationary", "T3f.C62_scale", "T3f.C62_training", "T3f.C62_gather", "T3f.C62_masked"], "note": "Multilinearity of full, exact core gradients, stationarity = optimality in one core, slices without observations never change."},
  {"property": "C63", "status": "proved", "theorems": ["T3f.C63_program", "T3f.C63_snapshot", "T3f.C63_same_variable", "T3f.C63_error", "T3f.C63_no_update_by_sum", "T3f.C63_alias"], "note": "Exact QR assumed as specified in Spec/Orth (as in C30). An assignment that does not fit is noticed except in the cases described in C48."},
  {"property": "C64", "status": "proved", "theorems": ["T3f.C64_python", "T3f.C64_typed", "T3f.C64_exact_iff", "T3f.C64_fraction", "T3f.C64_tenth", "T3f.C64_neg"], "note": "A finding: the product with a Python float is rounded to single precision."},
  {"property": "C65", "status": "proved", "theorems": ["T3f.C65_full", "T3f.C65_add", "T3f.C65_add_error", "T3f.C65_add_eager", "T3f.C65_sum_unusable", "T3f.C65_multiply", "T3f.C65_multiply_error", "T3f.C65_multiply_eager", "T3f.C65_matmul", "T3f.C65_matmul_error", "T3f.C65_flat_inner", "T3f.C65_flat_inner_error", "T3f.C65_tt_dense", "T3f.C65_tt_dense_mismatch", "T3f.C65_tt_dense_unknown_rank", "T3f.C65_dense_tt", "T3f.C65_dense_tt_mismatch", "T3f.C65_keras", "T3f.C65_keras_unknown"], "note": "Traced functions; mode sizes and ranks static. See DESIGN.md for the assumptions on tracing."},
  {"property": "C66", "status": "proved", "theorems": ["T3f.C66_best_order", "T3f.C66_greedy_valid", "T3f.C66_order_result", "T3f.C66_values", "T3f.C66_flat_inner", "T3f.C66_flat_inner_any_order", "T3f.C66_flat_inner_greedy", "T3f.C66_flat_inner_documented_false", "T3f.C66_pairwise", "T3f.C66_gram", "T3f.C66_pairwise_matrix", "T3f.C66_bilinear"], "note": "Bounds for strategies within a factor kappa of the best order, for all valid arguments; the documented bound is refuted for the default greedy order of tf.einsum. Contracting in pairs along any path is proved to give the einsum."},
  {"property": "C67", "status": "proved", "theorems": ["T3f.C67_values", "T3f.C67_orthogonalize", "T3f.C67_project", "T3f.C67_project_sum", "T3f.C67_project_sum_weights", "T3f.C67_project_matmul", "T3f.C67_pairwise_projected", "T3f.C67_project_sum_columns", "T3f.C67_project_sum_documented_false", "T3f.C67_project_greedy", "T3f.C67_project_documented_false"], "note": "Upper bounds for all contraction strategies within a factor of the best; the documented bounds are refuted for weights with many columns and for the default greedy order."},
  {"property": "C68", "status": "proved", "theorems": ["T3f.C68_exact_routines", "T3f.C68_routines_exist", "T3f.C68_contraction_orders", "T3f.C68_full", "T3f.C68_programs", "T3f.C68_flat_inner", "T3f.C68_flat_inner_programs", "T3f.C68_norm_squared", "T3f.C68_relative", "T3f.C68_gamma"], "note": "Rounding contract for matmul and einsums of two operands in Tf/Rounding.lean (standard model, any summation order), any contraction order of einsums; bounds for full, programs, flat_inner, norm; relative accuracy without cancellation. Not included: decompositions, orthogonalization (C78, C79), over/underflow."},
  {"property": "C69", "status": "proved", "theorems": ["T3f.C69_norm_nan", "T3f.C69_norm_number", "T3f.C69_norm_nonneg"], "note": "The claim of numerical stability of the differentiable norm is refuted by a concrete pair in single precision; sufficient conditions for a number."},
  {"property": "C70", "status": "proved", "theorems": ["T3f.C70_round_steps", "T3f.C70_tensor_steps", "T3f.C70_matrix_steps", "T3f.C70_round", "T3f.C70_tensor", "T3f.C70_matrix", "T3f.C70_two_cores", "T3f.C70_project", "T3f.C70_orthogonalize", "T3f.C70_tensor_tie", "T3f.C70_round_tie", "T3f.C70_project_depends", "T3f.C70_no_ties", "T3f.C70_tensor_gaps", "T3f.C70_round_gaps", "T3f.C70_matrix_gaps", "T3f.C70_round_matrix_gaps"], "note": "For all correct QR and SVD routines, rounding and the conversions are sequences of best approximations cut by cut; results are independent of the routines without ties, in particular with gaps of the singular values; counterexamples with ties and for project at a point with non-minimal ranks."},
  {"property": "C71", "status": "proved", "theorems": ["T3f.C71_programs", "T3f.C71_no_overflow", "T3f.C71_flat_inner", "T3f.C71_number", "T3f.C71_overflow"], "note": "w-bit integers with wrap-around; exact modulo 2^w, hence exact if the result fits; number multiplication is a TypeError."},
  {"property": "C72", "status": "proved", "theorems": ["T3f.C72_values", "T3f.C72_left_to_right", "T3f.C72_right_to_left", "T3f.C72_two_cores", "T3f.C72_norm_squared", "T3f.C72_norm_squared_differentiable", "T3f.C72_norm", "T3f.C72_minimal", "T3f.C72_gradients_norm", "T3f.C72_gradients_distance", "T3f.C72_gradients_differentiable"], "note": "Backward passes of orthogonalization, norms and t3f.gradients; exact arithmetic, conditions of the gradient functions of QR and sqrt in Tf/Tape.lean."},
  {"property": "C73", "status": "proved", "theorems": ["T3f.C73_programs", "T3f.C73_left_to_right", "T3f.C73_right_to_left", "T3f.C73_norm_squared", "T3f.C73_flags_agree_iff", "T3f.C73_norm", "T3f.C73_norm_zero", "T3f.C73_flat_inner_zero", "T3f.C73_real_times_complex", "T3f.C73_cast_to_real", "T3f.C73_round", "T3f.C73_to_tt_tensor", "T3f.C73_renormalize", "T3f.C73_project"], "note": "Ring operations at the complex numbers; complex versions of scaling, orthogonalization, norms, rounding. Findings: round, to_tt_tensor and renormalize_tt_cores raise, differentiable=True gives the sum of squares without conjugation, real TT times complex number loses the imaginary part. project does not conjugate: the projection of a nonzero tensor on itself can be zero."},
  {"property": "C74", "status": "proved", "theorems": ["T3f.C74_add_n", "T3f.C74_add_n_norm", "T3f.C74_reduce_sum_batch", "T3f.C74_reduce_sum_batch_norm", "T3f.C74_order", "T3f.C74_order_batch"], "note": "Error bound and norm bound for both functions; the dependence on the order is proved with concrete inputs."},
  {"property": "C75", "status": "proved", "theorems": ["T3f.C75_independent", "T3f.C75_factors", "T3f.C75_inv", "T3f.C75_cholesky"], "note": "whole-program relational theorem; exceptions of inv and cholesky shown to depend on the elements"},
  {"property": "C76", "status": "proved", "theorems": ["T3f.C76_returns_iff", "T3f.C76_value", "T3f.C76_not_documented", "T3f.C76_last_axis", "T3f.C76_vector", "T3f.C76_batch"], "note": "The documented behaviour for index arrays with three or more axes is refuted (C76_not_documented); C76_returns_iff and C76_value say for every shape when gather_nd returns and which elements."},
  {"property": "C77", "status": "proved", "theorems": ["T3f.C77_run", "T3f.C77_program", "T3f.C77_full", "T3f.C77_restrictions"], "note": "Invariant of all calls of the language PyCall; TT.Described allows empty axes. C77_restrictions shows that the restrictions are necessary."},
  {"property": "C78", "status": "proved", "theorems": ["T3f.C78_exact_routines", "T3f.C78_left_to_right", "T3f.C78_right_to_left", "T3f.C78_norm", "T3f.C78_orthonormal_argument", "T3f.C78_not_relative"], "note": ""},
  {"property": "C79", "status": "proved", "theorems": ["T3f.C79_exact_routines", "T3f.C79_quasi_optimal", "T3f.C79_no_truncation"], "note": "For all routines with backward errors of eps, relative to the product of the norms of the cores."},
  {"property": "C80", "status": "proved", "theorems": ["T3f.C80_array", "T3f.C80_single_entry", "T3f.C80_per_item", "T3f.C80_last_axis", "T3f.C80_own_shape", "T3f.C80_not_product", "T3f.C80_malformed"], "note": "Exact characterization for arrays with at most as many axes as the cores; for arrays with more axes the rejections C80_last_axis and C80_own_shape and the witness C80_malformed."},
  {"property": "C81", "status": "proved", "theorems": ["T3f.C81_exact_routines", "T3f.C81_tensor", "T3f.C81_tensor_exact", "T3f.C81_tensor_lossless", "T3f.C81_matrix"], "note": "Decompositions in floating point arithmetic, relative to the norm of the argument."},
  {"property": "C82", "status": "proved", "theorems": ["T3f.C82_recipe", "T3f.C82_tensor", "T3f.C82_matrix", "T3f.C82_batch_fails", "T3f.C82_random_batch_fails", "T3f.C82_batch_swapped"], "note": "recipe of the docstrings of the random initializers; found: it always raises ValueError for batches"},
  {"property": "C83", "status": "proved", "theorems": ["T3f.Dt.C83_tensor_train", "T3f.Dt.C83_batch", "T3f.Dt.C83_mixed_cores", "T3f.Dt.C83_programs", "T3f.Dt.C83_ok_iff", "T3f.Dt.C83_flat_inner", "T3f.Dt.C83_dense_matmul", "T3f.Dt.C83_round", "T3f.Dt.C83_project", "T3f.Dt.C83_project_sum", "T3f.Dt.C83_project_sum_weights", "T3f.Dt.C83_project_matmul", "T3f.Dt.C83_concat", "T3f.Dt.C83_weights", "T3f.Dt.C83_add_n", "T3f.Dt.C83_reduce_sum_batch"], "note": "data types float32 and float64; elements are exact reals"},
  {"property": "C84", "status": "proved", "theorems": ["T3f.C84_constructor", "T3f.C84_full", "T3f.C84_flat_inner", "T3f.C84_dense_matmul", "T3f.C84_unknown_rank", "T3f.C84_programs"], "note": "Batch sizes are known (unknown ones: C65). orthogonalize, round and sums of objects with unknown mode sizes are not modelled under tracing."},
  {"property": "C85", "status": "proved", "theorems": ["T3f.C85_unambiguous", "T3f.C85_prints", "T3f.C85_eager", "T3f.C85_size"], "note": "batch size known"},
  {"property": "C86", "status": "proved", "theorems": ["T3f.C86_log", "T3f.C86_iff", "T3f.C86_multiple", "T3f.C86_wrong"], "note": "Exact law for the logarithm of nonsingular matrices, necessary and sufficient condition, and a witness with 32 factors of size 2."},
  {"property": "C87", "status": "proved", "theorems": ["T3f.C87_shape", "T3f.C87_shape_iff", "T3f.C87_nn", "T3f.C87_he_wrong"], "note": "Exact laws; witnesses for he_initializer and shape."},
  {"property": "C88", "status": "proved", "theorems": ["T3f.C88_tensor_iff", "T3f.C88_tensor_value", "T3f.C88_batch_iff", "T3f.C88_batch_modes", "T3f.C88_batch_findings", "T3f.C88_none", "T3f.C88_ellipsis"], "note": "Full characterization for TT-tensors; for batches unless all TT-ranks are one; findings for those"},
  {"property": "C89", "status": "proved", "theorems": ["T3f.C89_programs", "T3f.C89_inner", "T3f.C89_tangent", "T3f.C89_tangent_larger", "T3f.C89_project", "T3f.C89_project_closer", "T3f.C89_project_nonminimal", "T3f.C89_round"], "note": "Results depend on the represented tensors only: programs, flat_inner, round (unique best approximations), tangent space and project (minimal TT-ranks of where); with larger TT-ranks project can differ and is at least as close."},
  {"property": "C90", "status": "proved", "theorems": ["T3f.C90_round_scale", "T3f.C90_round_transpose", "T3f.C90_tangent_scale", "T3f.C90_project_scale", "T3f.C90_project_transpose"], "note": "round and project against scaling and transposition"},
  {"property": "C91", "status": "proved", "theorems": ["T3f.C91_pick", "T3f.C91_single", "T3f.C91_programs", "T3f.C91_inner", "T3f.C91_project", "T3f.C91_round", "T3f.C91_converse"], "note": "programs, flat_inner, project and round against batch indexing"},
  {"property": "C92", "status": "proved", "theorems": ["T3f.C92_matmul", "T3f.C92_inv_matmul", "T3f.C92_inv", "T3f.C92_transpose", "T3f.C92_inv_transpose", "T3f.C92_cholesky"], "note": "Laws between compositions of kronecker.* with matmul and transpose."},
  {"property": "C93", "status": "proved", "theorems": ["T3f.C93_retraction", "T3f.C93_velocity", "T3f.C93_descent"], "note": "Retraction property of round and small steps of Riemannian descent."},
  {"property": "C94", "status": "proved", "theorems": ["T3f.C94_round", "T3f.C94_nonzero", "T3f.C94_sharp", "T3f.C94_tensor", "T3f.C94_matrix"], "note": "all QR and SVD routines that meet their contract; exact real arithmetic"},
  {"property": "C95", "status": "proved", "theorems": ["T3f.C95_not_monotone", "T3f.C95_single", "T3f.C95_limit", "T3f.C95_two_cores", "T3f.C95_tensor_limit", "T3f.C95_again"], "note": "Counterexamples to monotonicity (list of bounds and single number) for all routines; limits, two cores and idempotence proved."},
  {"property": "C96", "status": "proved", "theorems": ["T3f.C96_cauchy_schwarz", "T3f.C96_add", "T3f.C96_matmul", "T3f.C96_multiply", "T3f.C96_transpose", "T3f.C96_adjoint", "T3f.C96_gram"], "note": "Laws of norms and inner products across functions."},
  {"property": "C97", "status": "proved", "theorems": ["T3f.C97_different", "T3f.C97_limit"], "note": "Counterexample to equality for all routines; mutual limits and two cores proved."},
  {"property": "C98", "status": "proved", "theorems": ["T3f.C98_round", "T3f.C98_tensor", "T3f.C98_jump"], "note": "Stability at tensors within the bounds; discontinuity elsewhere."},
  {"property": "C99", "status": "proved", "theorems": ["T3f.C99_round", "T3f.C99_tensor", "T3f.C99_negative"], "note": "Nonnegative elements: kept by round and to_tt_tensor with max_tt_rank=1 without ties; lost with max_tt_rank=2 (finding)."}
]}
