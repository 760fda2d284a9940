# Axioms per theorem

Output of `#print axioms` for every theorem named in `MANIFEST.json`.

| Theorem | Axioms |
|---|---|
| `Verif.Tsc.C01_index_partial` | propext, Classical.choice, Quot.sound |
| `Verif.Tsc.C01_index_violated` | propext, Classical.choice, Quot.sound |
| `Verif.Tsc.C01_columns` | propext, Classical.choice, Quot.sound |
| `Verif.Tsc.C01_typed` | propext, Classical.choice, Quot.sound |
| `Verif.Tsc.C02_from_tensor` | propext, Classical.choice, Quot.sound |
| `Verif.Tsc.C02_default` | propext, Classical.choice, Quot.sound |
| `Verif.Tsc.C02_rejects` | propext, Classical.choice, Quot.sound |
| `Verif.Tsc.C03_shift_matrices_partial` | propext, Classical.choice, Quot.sound |
| `Verif.Tsc.C03_rejects` | propext, Classical.choice, Quot.sound |
| `Verif.Tsc.C03_violated` | propext, Classical.choice, Quot.sound |
| `Verif.Tsc.C04_round_trip` | propext, Classical.choice, Quot.sound |
| `Verif.Tsc.C04_rejects` | propext, Classical.choice, Quot.sound |
| `Verif.Tsc.C04_orientation_partial` | propext, Classical.choice, Quot.sound |
| `Verif.Tsc.C04_transpose` | propext, Classical.choice, Quot.sound |
| `Verif.Tsc.C04_shapes` | propext, Classical.choice, Quot.sound |
| `Verif.Tsc.C04_complex_violated` | propext, Classical.choice, Quot.sound |
| `Verif.Tsc.C04_case_violated` | propext, Classical.choice, Quot.sound |
| `Verif.Tsc.C05_accepts` | propext, Classical.choice, Quot.sound |
| `Verif.Tsc.C05_step` | propext, Classical.choice, Quot.sound |
| `Verif.Tsc.C05_history` | propext, Classical.choice, Quot.sound |
| `Verif.Tsc.C06_initial` | propext, Classical.choice, Quot.sound |
| `Verif.Tsc.C06_final` | propext, Classical.choice, Quot.sound |
| `Verif.Tsc.C07_drop_last` | propext, Classical.choice, Quot.sound |
| `Verif.Tsc.C07_rejects` | propext, Classical.choice, Quot.sound |
| `Verif.Tsc.C07_nonnegative_partial` | propext, Classical.choice, Quot.sound |
| `Verif.Tsc.C07_negative_violated` | propext, Classical.choice, Quot.sound |
| `Verif.Tsc.C08_assign_ids_sequential` | propext, Classical.choice, Quot.sound |
| `Verif.Tsc.C09_description` | propext, Classical.choice, Quot.sound |
| `Verif.Tsc.C09_degenerate` | propext, Classical.choice, Quot.sound |
| `Verif.Tsc.C10_same_time_values` | propext, Classical.choice, Quot.sound |
| `Verif.Tsc.C11_int_partial` | propext, Classical.choice, Quot.sound |
| `Verif.Tsc.C11_regular` | propext, Classical.choice, Quot.sound |
| `Verif.Tsc.C11_per_id_partial` | propext, Classical.choice, Quot.sound |
| `Verif.Tsc.C11_all_irregular` | propext, Classical.choice, Quot.sound |
| `Verif.Tsc.C11_datetime_partial` | propext, Classical.choice, Quot.sound |
| `Verif.Tsc.C11_datetime_violated` | propext, Classical.choice, Quot.sound |
| `Verif.Tsc.C11_tolerance_violated` | propext, Classical.choice, Quot.sound |
| `Verif.Tsc.C11_labels_violated` | propext, Classical.choice, Quot.sound |
| `Verif.Tsc.C12_normalize` | propext, Classical.choice, Quot.sound |
| `Verif.Tsc.C12_is_normalized` | propext, Classical.choice, Quot.sound |
| `Verif.Tsc.C12_rejects` | propext, Classical.choice, Quot.sound |
| `Verif.Tsc.C12_tolerance_violated` | propext, Classical.choice, Quot.sound |
| `Verif.Tsc.C13_per_series` | propext, Classical.choice, Quot.sound |
| `Verif.Tsc.C13_global` | propext, Classical.choice, Quot.sound |
| `Verif.Tsc.C13_windows` | propext, Classical.choice, Quot.sound |
| `Verif.Tsc.C13_rejects` | propext, Quot.sound |
| `Verif.Tsc.C14_kfold_series` | propext, Classical.choice, Quot.sound |
| `Verif.Tsc.C14_accepts` | propext, Classical.choice, Quot.sound |
| `Verif.Tsc.C15_kfold_time` | propext, Classical.choice, Quot.sound |
| `Verif.Tsc.C15_accepts` | propext, Classical.choice, Quot.sound |
| `Verif.Tsc.C16_train_test` | propext, Classical.choice, Quot.sound |
| `Verif.Tsc.C16_accepts` | propext, Classical.choice, Quot.sound |
| `Verif.Tsc.C17_const_delta` | propext, Classical.choice, Quot.sound |
| `Verif.Tsc.C17_total` | propext, Classical.choice, Quot.sound |
| `Verif.Takens.C18_takens` | propext, Classical.choice, Quot.sound |
| `Verif.Takens.C18_accepts` | propext, Classical.choice, Quot.sound |
| `Verif.Takens.C18_kappa` | propext, Classical.choice, Quot.sound |
| `Verif.Takens.C19_round_trip` | propext, Classical.choice, Quot.sound |
| `Verif.Transform.C20_apply_lambdas` | propext, Classical.choice, Quot.sound |
| `Verif.Takens.C21_delay_indices` | propext, Classical.choice, Quot.sound |
| `Verif.Takens.C21_accepts` | propext, Classical.choice, Quot.sound |
| `Verif.Utils.C22_projection_partial` | propext, Classical.choice, Quot.sound |
| `Verif.Utils.C22_in_order` | propext, Classical.choice, Quot.sound |
| `Verif.Utils.C22_rejects` | propext, Quot.sound |
| `Verif.Utils.C22_projection_violated` | propext, Classical.choice, Quot.sound |
| `Verif.Utils.C23_permutation` | propext, Classical.choice, Quot.sound |
| `Verif.Utils.C23_order` | propext, Quot.sound |
| `Verif.Utils.C23_magnitude_partial` | propext, Classical.choice, Quot.sound |
| `Verif.Utils.C23_magnitude_violated` | propext, Classical.choice, Quot.sound |
| `Verif.Utils.C24_is_integer_partial` | propext, Classical.choice, Quot.sound |
| `Verif.Utils.C24_is_integer_violated` | propext, Classical.choice, Quot.sound |
| `Verif.Utils.C24_is_scalar` | propext, Classical.choice, Quot.sound |
| `Verif.Utils.C64_random_subsample` | propext, Classical.choice, Quot.sound |
| `Verif.Transform.C65_takens` | propext, Classical.choice, Quot.sound |
| `Verif.Transform.C65_identity` | propext, Classical.choice, Quot.sound |
| `Verif.Transform.C65_moving_average` | propext |
| `Verif.Transform.C65_feature_select` | propext, Classical.choice, Quot.sound |
| `Verif.Transform.C65_lambdas_partial` | propext, Classical.choice, Quot.sound |
| `Verif.Transform.C65_lambdas_violated` | propext |
| `Verif.Transform.C65_finite_difference_violated` | propext, Classical.choice, Quot.sound |
| `Verif.Transform.C65_identity_violated` | propext |
| `Verif.Transform.C66_identity_partial` | propext, Classical.choice, Quot.sound |
| `Verif.Transform.C66_identity_violated` | propext, Classical.choice, Quot.sound |
| `Verif.Transform.C67_refit_partial` | propext, Quot.sound |
| `Verif.Transform.C67_refit_violated` | none |
| `Verif.Transform.C68_argument_partial` | propext, Quot.sound |
| `Verif.Transform.C68_argument_violated` | propext |
| `Verif.Transform.C69_moving_average` | propext, Classical.choice, Quot.sound |
| `Verif.Utils.C70_diag_products` | propext, Classical.choice, Quot.sound |
| `Verif.Utils.C71_remove_noise` | propext, Classical.choice, Quot.sound |
| `Verif.Utils.C71_sparse_partial` | propext, Classical.choice, Quot.sound |
| `Verif.Utils.C71_sparse_violated` | propext, Classical.choice, Quot.sound |
| `Verif.Utils.C71_stored_zero_violated` | propext, Quot.sound |
| `Verif.Dyn.C25_honours_partial` | propext |
| `Verif.Dyn.C25_accepts` | propext, Quot.sound |
| `Verif.Dyn.C25_violated` | propext |
| `Verif.Dyn.C26_flowmap` | propext, Classical.choice, Quot.sound |
| `Verif.Dyn.C26_semigroup` | propext, Classical.choice, Quot.sound |
| `Verif.Dyn.C26_rejects` | propext, Classical.choice, Quot.sound |
| `Verif.Dyn.C26_differential` | propext, Classical.choice, Quot.sound |
| `Verif.Dyn.C27_flowmap` | propext, Classical.choice, Quot.sound |
| `Verif.Dyn.C27_differential` | propext, Classical.choice, Quot.sound |
| `Verif.Dyn.C28_controlled` | propext, Classical.choice, Quot.sound |
| `Verif.Dyn.C28_causal` | propext, Classical.choice, Quot.sound |
| `Verif.Dyn.C28_spectral_controlled` | propext, Classical.choice, Quot.sound |
| `Verif.Dyn.C29_format_partial` | propext, Classical.choice, Quot.sound |
| `Verif.Dyn.C29_violated` | propext, Classical.choice, Quot.sound |
| `Verif.Dyn.C72_violated` | propext, Classical.choice, Quot.sound |
| `Verif.Dyn.C73_regular_partial` | propext, Classical.choice, Quot.sound |
| `Verif.Dyn.C73_only_length_counts` | propext, Classical.choice, Quot.sound |
| `Verif.Dyn.C73_violated` | propext, Classical.choice, Quot.sound |
| `Verif.Dyn.C74_given` | propext, Classical.choice, Quot.sound |
| `Verif.Dyn.C74_given_control` | propext, Classical.choice, Quot.sound |
| `Verif.Dyn.C74_default` | propext, Classical.choice, Quot.sound |
| `Verif.Dyn.C74_rejects` | propext, Classical.choice, Quot.sound |
| `Verif.Dyn.C74_default_control` | propext, Classical.choice, Quot.sound |
| `Verif.Dyn.C74_array_partial` | propext, Classical.choice, Quot.sound |
| `Verif.Dyn.C74_array_violated` | propext, Classical.choice, Quot.sound |
| `Verif.Dyn.C75_left_partial` | propext, Classical.choice, Quot.sound |
| `Verif.Dyn.C75_violated` | propext, Classical.choice, Quot.sound |
| `Verif.Dyn.C76_violated` | propext, Classical.choice, Quot.sound |
| `Verif.Dmd.C30_least_squares_partial` | propext, Classical.choice, Quot.sound |
| `Verif.Dmd.C30_exists` | propext, Classical.choice, Quot.sound |
| `Verif.Dmd.C30_recovery_partial` | propext, Classical.choice, Quot.sound |
| `Verif.Dmd.C30_reconstruct` | propext, Classical.choice, Quot.sound |
| `Verif.Dmd.C30_reconstruct_spectral` | propext, Classical.choice, Quot.sound |
| `Verif.Dmd.C30_order_violated` | propext, Classical.choice, Quot.sound |
| `Verif.Dmd.C31_least_squares_partial` | propext, Classical.choice, Quot.sound |
| `Verif.Dmd.C31_recovery_partial` | propext, Classical.choice, Quot.sound |
| `Verif.Dmd.C31_rejects` | propext, Classical.choice, Quot.sound |
| `Verif.Dmd.C31_order_violated` | propext, Classical.choice, Quot.sound |
| `Verif.Tsc.C77_iter` | propext, Classical.choice, Quot.sound |
| `Verif.Tsc.C77_reconstruct` | propext, Classical.choice, Quot.sound |
| `Verif.Tsc.C77_mixed_partial` | propext, Classical.choice, Quot.sound |
| `Verif.Dmd.C78_exact` | propext, Classical.choice, Quot.sound |
| `Verif.Dmd.C78_projected` | propext, Classical.choice, Quot.sound |
| `Verif.Dmd.C78_recovery` | propext, Classical.choice, Quot.sound |
| `Verif.Dmd.C78_predict` | propext, Classical.choice, Quot.sound |
| `Verif.Dmd.C79_measures` | propext, Classical.choice, Quot.sound |
| `Verif.Dmd.C79_filter_partial` | propext, Classical.choice, Quot.sound |
| `Verif.Dmd.C79_violated` | propext, Classical.choice, Quot.sound |
| `Verif.Dmd.C80_generator_partial` | propext, Classical.choice, Quot.sound |
| `Verif.Dmd.C80_prediction` | propext, Classical.choice, Quot.sound |
| `Verif.Dmd.C80_violated` | propext, Classical.choice, Quot.sound |
| `Verif.Dmd.C81_least_squares` | propext, Classical.choice, Quot.sound |
| `Verif.Dmd.C81_recovery` | propext, Classical.choice, Quot.sound |
| `Verif.Dmd.C32_batch_partial` | propext, Classical.choice, Quot.sound |
| `Verif.Dmd.C32_cut` | propext, Classical.choice, Quot.sound |
| `Verif.Dmd.C32_ready` | propext, Classical.choice, Quot.sound |
| `Verif.Dmd.C32_exists` | propext, Classical.choice, Quot.sound |
| `Verif.Dmd.C32_default_partial` | propext, Classical.choice, Quot.sound |
| `Verif.Dmd.C32_default_violated` | propext, Classical.choice, Quot.sound |
| `Verif.Dmd.C32_deficient_violated` | propext, Classical.choice, Quot.sound |
| `Verif.Dmd.C33_rank` | propext, Classical.choice, Quot.sound |
| `Verif.Dmd.C33_batch_partial` | propext, Classical.choice, Quot.sound |
| `Verif.Dmd.C33_recovery` | propext, Classical.choice, Quot.sound |
| `Verif.Dmd.C33_modes` | propext, Classical.choice, Quot.sound |
| `Verif.Dmd.C33_compressed` | propext, Classical.choice, Quot.sound |
| `Verif.Dmd.C33_compressed_y` | propext, Classical.choice, Quot.sound |
| `Verif.Dmd.C33_keeps_smallest` | propext, Classical.choice, Quot.sound |
| `Verif.Dmd.C33_violated` | propext, Classical.choice, Quot.sound |
| `Verif.Dmd.C82_pairs_partial` | propext, Classical.choice, Quot.sound |
| `Verif.Dmd.C82_violated` | propext, Classical.choice, Quot.sound |
| `Verif.Edmd.C34_matrix_mode` | propext, Classical.choice, Quot.sound |
| `Verif.Edmd.C34_matrix_values` | propext, Classical.choice, Quot.sound |
| `Verif.Edmd.C34_spectral_values` | propext, Classical.choice, Quot.sound |
| `Verif.Edmd.C34_spectral_partial` | propext, Classical.choice, Quot.sound |
| `Verif.Edmd.C34_spectral_iff` | propext, Classical.choice, Quot.sound |
| `Verif.Edmd.C34_rejects` | propext, Classical.choice, Quot.sound |
| `Verif.Edmd.C34_violated` | propext, Classical.choice, Quot.sound |
| `Verif.Edmd.C35_reconstruct_partial` | propext, Classical.choice, Quot.sound |
| `Verif.Edmd.C35_violated` | propext, Classical.choice, Quot.sound |
| `Verif.Edmd.C35_violated_unsorted` | propext, Classical.choice, Quot.sound |
| `Verif.Edmd.C36_accepts_iff` | propext, Classical.choice, Quot.sound |
| `Verif.Edmd.C36_partial` | propext, Classical.choice, Quot.sound |
| `Verif.Edmd.C36_violated` | propext, Classical.choice, Quot.sound |
| `Verif.Edmd.C37_prediction` | propext, Classical.choice, Quot.sound |
| `Verif.Edmd.C37_dictionary` | propext, Classical.choice, Quot.sound |
| `Verif.Edmd.C37_sorted` | propext, Classical.choice, Quot.sound |
| `Verif.Edmd.C37_importance` | propext, Classical.choice, Quot.sound |
| `Verif.Edmd.C83_attached` | propext, Classical.choice, Quot.sound |
| `Verif.Edmd.C83_preserved_partial` | propext, Classical.choice, Quot.sound |
| `Verif.Edmd.C83_violated` | propext, Classical.choice, Quot.sound |
| `Verif.Edmd.C84_recovery_partial` | propext, Classical.choice, Quot.sound |
| `Verif.Edmd.C84_prediction_partial` | propext, Classical.choice, Quot.sound |
| `Verif.Edmd.C84_modes` | propext, Classical.choice, Quot.sound |
| `Verif.Edmd.C84_order_violated` | propext, Classical.choice, Quot.sound |
| `Verif.Edmd.C85_shift_partial` | propext, Classical.choice, Quot.sound |
| `Verif.Edmd.C85_nonneg` | propext, Classical.choice, Quot.sound |
| `Verif.Edmd.C85_violated` | propext, Classical.choice, Quot.sound |
| `Verif.Edmd.C85_violated_silent` | propext, Classical.choice, Quot.sound |
| `Verif.Edmd.C86_unchanged_partial` | propext, Classical.choice, Quot.sound |
| `Verif.Edmd.C86_violated` | propext, Classical.choice, Quot.sound |
| `Verif.Edmd.C86_shift_mutates` | propext |
| `Verif.Mpc.C38_prediction` | propext, Classical.choice, Quot.sound |
| `Verif.Mpc.C39_objective_partial` | propext, Classical.choice, Quot.sound |
| `Verif.Mpc.C39_optimal_partial` | propext, Classical.choice, Quot.sound |
| `Verif.Mpc.C39_unique` | propext, Classical.choice, Quot.sound |
| `Verif.Mpc.C39_exists` | propext, Classical.choice, Quot.sound |
| `Verif.Mpc.C39_default` | propext, Classical.choice, Quot.sound |
| `Verif.Mpc.C39_violated` | propext, Classical.choice, Quot.sound |
| `Verif.Mpc.C40_feasible_partial` | propext, Classical.choice, Quot.sound |
| `Verif.Mpc.C40_violated` | propext, Classical.choice, Quot.sound |
| `Verif.Mpc.C41_state_iff` | propext, Classical.choice, Quot.sound |
| `Verif.Mpc.C41_input_iff` | propext, Classical.choice, Quot.sound |
| `Verif.Mpc.C41_violated` | propext, Classical.choice, Quot.sound |
| `Verif.Mpc.C87_selection_iff` | propext, Classical.choice, Quot.sound |
| `Verif.Mpc.C87_violated` | propext, Classical.choice, Quot.sound |
| `Verif.Mpc.C88_optimal_partial` | propext, Classical.choice, Quot.sound |
| `Verif.Mpc.C88_violated` | propext, Classical.choice, Quot.sound |
| `Verif.Mpc.C89_affine_bounds` | propext, Classical.choice, Quot.sound |
| `Verif.Kernel.C42_pairwise` | propext, Classical.choice, Quot.sound |
| `Verif.Kernel.C42_componentwise` | propext, Classical.choice, Quot.sound |
| `Verif.Kernel.C42_sparse` | propext, Classical.choice, Quot.sound |
| `Verif.Kernel.C42_rejects` | propext, Classical.choice, Quot.sound |
| `Verif.Kernel.C43_conjugate` | propext, Classical.choice, Quot.sound |
| `Verif.Kernel.C43_onto` | propext, Classical.choice, Quot.sound |
| `Verif.Kernel.C44_agree` | propext, Classical.choice, Quot.sound |
| `Verif.Kernel.C44_gaussian` | propext, Classical.choice, Quot.sound |
| `Verif.Kernel.C44_embedding_partial` | propext, Classical.choice, Quot.sound |
| `Verif.Kernel.C44_violated` | propext, Classical.choice, Quot.sound |
| `Verif.Kernel.C44_violated_silent` | propext, Classical.choice, Quot.sound |
| `Verif.Kernel.C45_gaussian` | propext, Classical.choice, Quot.sound |
| `Verif.Kernel.C45_matrix` | propext, Classical.choice, Quot.sound |
| `Verif.Kernel.C45_rejects` | propext, Classical.choice, Quot.sound |
| `Verif.Kernel.C45_sparse` | propext, Classical.choice, Quot.sound |
| `Verif.Kernel.C46_scale_partial` | propext, Classical.choice, Quot.sound |
| `Verif.Kernel.C46_sqrt_two` | propext, Classical.choice, Quot.sound |
| `Verif.Kernel.C46_violated` | propext, Classical.choice, Quot.sound |
| `Verif.Kernel.C90_outlier_partial` | propext, Classical.choice, Quot.sound |
| `Verif.Kernel.C90_accepts` | propext, Classical.choice, Quot.sound |
| `Verif.Kernel.C90_violated` | propext, Classical.choice, Quot.sound |
| `Verif.Kernel.C91_spectrum` | propext, Classical.choice, Quot.sound |
| `Verif.Kernel.C91_psd` | propext, Classical.choice, Quot.sound |
| `Verif.Kernel.C91_gaussian` | propext, Classical.choice, Quot.sound |
| `Verif.Kernel.C92_preimage_partial` | propext, Classical.choice, Quot.sound |
| `Verif.Kernel.C92_rejects` | propext, Classical.choice, Quot.sound |
| `Verif.Kernel.C92_violated` | propext, Classical.choice, Quot.sound |
| `Verif.Kernel.C93_refit_partial` | propext, Classical.choice, Quot.sound |
| `Verif.Kernel.C93_violated` | propext, Classical.choice, Quot.sound |
| `Verif.Kernel.C93_violated_example` | propext, Classical.choice, Quot.sound |
| `Verif.Kernel.C94_target_coords` | propext, Classical.choice, Quot.sound |
| `Verif.Kernel.C94_sorted` | propext, Classical.choice, Quot.sound |
| `Verif.Kernel.C95_first_partial` | propext, Classical.choice, Quot.sound |
| `Verif.Kernel.C95_violated` | propext, Classical.choice, Quot.sound |
| `Verif.Kernel.C95_violated_example` | propext, Classical.choice, Quot.sound |
| `Verif.Kernel.C96_inverse` | propext, Classical.choice, Quot.sound |
| `Verif.Kernel.C96_growing` | propext, Classical.choice, Quot.sound |
| `Verif.Kernel.C96_thinplate` | propext, Classical.choice, Quot.sound |
| `Verif.Kernel.C55_projection` | propext, Classical.choice, Quot.sound |
| `Verif.Kernel.C55_orthonormal` | propext, Classical.choice, Quot.sound |
| `Verif.Kernel.C55_extension` | propext, Classical.choice, Quot.sound |
| `Verif.Kernel.C55_zero_eigenvalue` | propext, Classical.choice, Quot.sound |
| `Verif.Kernel.C56_scaled` | propext, Classical.choice, Quot.sound |
| `Verif.Kernel.C56_agree_partial` | propext, Classical.choice, Quot.sound |
| `Verif.Kernel.C56_violated` | propext, Classical.choice, Quot.sound |
| `Verif.Kernel.C56_selected` | propext, Classical.choice, Quot.sound |
| `Verif.Kernel.C57_threshold` | propext, Classical.choice, Quot.sound |
| `Verif.Kernel.C57_dim` | propext, Classical.choice, Quot.sound |
| `Verif.Kernel.C57_dim_first_partial` | propext, Classical.choice, Quot.sound |
| `Verif.Kernel.C57_violated` | propext, Classical.choice, Quot.sound |
| `Verif.Kernel.C97_reproduces_iff` | propext, Classical.choice, Quot.sound |
| `Verif.Kernel.C97_violated` | propext, Classical.choice, Quot.sound |
| `Verif.Kernel.C98_shape_partial` | propext, Classical.choice, Quot.sound |
| `Verif.Kernel.C98_violated` | propext, Classical.choice, Quot.sound |
| `Verif.Kernel.C99_score_partial` | propext, Classical.choice, Quot.sound |
| `Verif.Kernel.C99_violated` | propext, Classical.choice, Quot.sound |
| `Verif.Kernel.C100_dense` | propext, Classical.choice, Quot.sound |
| `Verif.Kernel.C100_sparse` | propext, Classical.choice, Quot.sound |
| `Verif.Kernel.C101_graph_partial` | propext, Classical.choice, Quot.sound |
| `Verif.Kernel.C101_violated_one` | propext, Classical.choice, Quot.sound |
| `Verif.Kernel.C101_violated_all` | propext, Classical.choice, Quot.sound |
| `Verif.Kernel.C102_diffusion` | propext, Classical.choice, Quot.sound |
| `Verif.Kernel.C102_outlier` | propext, Classical.choice, Quot.sound |
| `Verif.Kernel.C103_violated` | propext, Classical.choice, Quot.sound |
| `Verif.Kernel.C104_dependent` | propext, Classical.choice, Quot.sound |
| `Verif.Kernel.C104_nonneg` | propext, Classical.choice, Quot.sound |
| `Verif.Dist.C47_stored` | propext, Classical.choice, Quot.sound |
| `Verif.Dist.C47_diagonal` | propext, Classical.choice, Quot.sound |
| `Verif.Dist.C48_brute` | propext, Classical.choice, Quot.sound |
| `Verif.Dist.C48_brute_rejects` | propext, Classical.choice, Quot.sound |
| `Verif.Dist.C48_tree` | propext, Classical.choice, Quot.sound |
| `Verif.Dist.C48_agree_partial` | propext, Classical.choice, Quot.sound |
| `Verif.Dist.C48_violated` | propext, Classical.choice, Quot.sound |
| `Verif.Dist.C48_cut_off` | propext, Classical.choice, Quot.sound |
| `Verif.Dist.C49_pairwise_partial` | propext, Classical.choice, Quot.sound |
| `Verif.Dist.C49_same_partial` | propext, Classical.choice, Quot.sound |
| `Verif.Dist.C49_violated` | propext, Classical.choice, Quot.sound |
| `Verif.Dist.C49_violated_example` | propext, Classical.choice, Quot.sound |
| `Verif.Dist.C50_count` | propext, Classical.choice, Quot.sound |
| `Verif.Dist.C50_euclidean_partial` | propext, Classical.choice, Quot.sound |
| `Verif.Dist.C50_handle_partial` | propext, Classical.choice, Quot.sound |
| `Verif.Dist.C50_violated` | propext, Classical.choice, Quot.sound |
| `Verif.Dist.C50_dense_violated` | propext, Classical.choice, Quot.sound |
| `Verif.Dist.C50_rejects` | propext, Classical.choice, Quot.sound |
| `Verif.Dist.C51_setter_partial` | propext, Classical.choice, Quot.sound |
| `Verif.Dist.C51_violated` | propext, Classical.choice, Quot.sound |
| `Verif.Dist.C52_range_partial` | propext, Classical.choice, Quot.sound |
| `Verif.Dist.C52_dense_partial` | propext, Classical.choice, Quot.sound |
| `Verif.Dist.C52_rejects` | propext, Classical.choice, Quot.sound |
| `Verif.Dist.C52_violated_range` | propext, Classical.choice, Quot.sound |
| `Verif.Dist.C52_violated_dense` | propext, Classical.choice, Quot.sound |
| `Verif.Dist.C53_greedy_partial` | propext, Classical.choice, Quot.sound |
| `Verif.Dist.C53_cover` | propext, Classical.choice, Quot.sound |
| `Verif.Dist.C53_violated` | propext, Classical.choice, Quot.sound |
| `Verif.Dist.C53_violated_one` | propext, Classical.choice, Quot.sound |
| `Verif.Dist.C53_violated_default` | propext, Classical.choice, Quot.sound |
| `Verif.Dist.C105_pairwise` | propext, Classical.choice, Quot.sound |
| `Verif.Dist.C105_componentwise` | propext, Classical.choice, Quot.sound |
| `Verif.Dist.C105_one` | propext, Classical.choice, Quot.sound |
| `Verif.Dist.C106_select_partial` | propext |
| `Verif.Dist.C106_violated` | propext |
| `Verif.Dist.C106_required` | propext, Classical.choice, Quot.sound |
| `Verif.Dist.C106_options_dropped` | propext |
| `Verif.Dist.C107_default_partial` | propext, Classical.choice, Quot.sound |
| `Verif.Dist.C107_violated_kmin` | propext, Classical.choice, Quot.sound |
| `Verif.Dist.C107_violated_tree` | propext, Classical.choice, Quot.sound |
| `Verif.Dist.C108_new_partial` | propext, Classical.choice, Quot.sound |
| `Verif.Dist.C108_violated` | propext, Classical.choice, Quot.sound |
| `Verif.Kernel.C54_residual_partial` | propext, Classical.choice, Quot.sound |
| `Verif.Kernel.C54_residual` | propext, Classical.choice, Quot.sound |
| `Verif.Kernel.C54_violated` | propext, Classical.choice, Quot.sound |
| `Verif.Kernel.C109_distinct_partial` | propext, Classical.choice, Quot.sound |
| `Verif.Kernel.C109_violated` | propext, Classical.choice, Quot.sound |
| `Verif.Kernel.C109_violated_auto` | propext, Classical.choice, Quot.sound |
| `Verif.Kernel.C110_loocv` | propext, Classical.choice, Quot.sound |
| `Verif.Kernel.C58_orthonormal` | propext, Classical.choice, Quot.sound |
| `Verif.Kernel.C111_energy` | propext, Classical.choice, Quot.sound |
| `Verif.Kernel.C112_nystrom_partial` | propext, Classical.choice, Quot.sound |
| `Verif.Kernel.C112_violated` | propext, Classical.choice, Quot.sound |
| `Verif.Utils.C59_stop` | propext, Classical.choice, Quot.sound |
| `Verif.Utils.C59_best` | propext, Classical.choice, Quot.sound |
| `Verif.Utils.C59_stays` | propext, Classical.choice, Quot.sound |
| `Verif.Utils.C113_diverging_partial` | propext, Classical.choice, Quot.sound |
| `Verif.Utils.C113_violated_drift` | propext, Classical.choice, Quot.sound |
| `Verif.Utils.C113_violated_nan` | propext, Classical.choice, Quot.sound |
| `Verif.Utils.C60_channels_partial` | propext, Classical.choice, Quot.sound |
| `Verif.Utils.C60_last_column` | propext, Classical.choice, Quot.sound |
| `Verif.Utils.C60_violated` | propext, Classical.choice, Quot.sound |
| `Verif.Utils.C61_rk4_partial` | propext, Classical.choice, Quot.sound |
| `Verif.Utils.C61_linear_partial` | propext, Classical.choice, Quot.sound |
| `Verif.Utils.C61_violated` | propext, Classical.choice, Quot.sound |
| `Verif.Utils.C114_own_control` | propext, Classical.choice, Quot.sound |
| `Verif.Utils.C114_time_values` | propext, Classical.choice, Quot.sound |
| `Verif.Tsc.C62_check_tsc_partial` | propext, Classical.choice, Quot.sound |
| `Verif.Tsc.C62_order` | propext, Quot.sound |
| `Verif.Tsc.C62_datetime_violated` | propext, Classical.choice, Quot.sound |
| `Verif.Tsc.C62_attribute_error` | propext, Classical.choice, Quot.sound |
| `Verif.Tsc.C115_required_ids` | propext, Classical.choice, Quot.sound |
| `Verif.Tsc.C115_required_ids_order` | propext, Classical.choice, Quot.sound |
| `Verif.Tsc.C115_non_overlapping` | propext, Classical.choice, Quot.sound |
| `Verif.Tsc.C116_equal_delta_const` | propext, Classical.choice, Quot.sound |
| `Verif.Tsc.C116_equal_delta_mixed_partial` | propext, Classical.choice, Quot.sound |
| `Verif.Tsc.C116_ambiguous_violated` | propext |
| `Verif.Tsc.C116_reflexive_violated` | propext, Classical.choice, Quot.sound |
| `Verif.Tsc.C63_metric_partial` | propext, Classical.choice, Quot.sound |
| `Verif.Tsc.C63_weights` | propext, Classical.choice, Quot.sound |
| `Verif.Tsc.C63_score_partial` | propext, Classical.choice, Quot.sound |
| `Verif.Tsc.C63_medae_violated` | propext, Classical.choice, Quot.sound |
| `Verif.Tsc.C63_median` | propext, Classical.choice, Quot.sound |
| `Verif.Tsc.C63_median_even` | propext, Classical.choice, Quot.sound |
| `Verif.Tsc.C63_medae_partial` | propext, Classical.choice, Quot.sound |
| `Verif.Tsc.C63_l2_normalize_violated` | propext, Classical.choice, Quot.sound |
| `Verif.Tsc.C117_accepts_partial` | propext, Classical.choice, Quot.sound |
| `Verif.Tsc.C117_violated` | propext, Classical.choice, Quot.sound |
| `Verif.Tsc.C118_rrmse_partial` | propext, Classical.choice, Quot.sound |
| `Verif.Tsc.C118_violated` | propext, Classical.choice, Quot.sound |
| `Verif.Tsc.C119_shift_partial` | propext, Classical.choice, Quot.sound |
| `Verif.Tsc.C119_compose` | propext, Classical.choice, Quot.sound |
| `Verif.Tsc.C119_argument_violated` | propext, Classical.choice, Quot.sound |
| `Verif.Tsc.C120_one` | propext, Classical.choice, Quot.sound |
| `Verif.Tsc.C120_several_partial` | propext, Classical.choice, Quot.sound |
| `Verif.Tsc.C120_violated` | propext, Classical.choice, Quot.sound |
| `Verif.Tsc.C121_rows` | propext, Classical.choice, Quot.sound |
| `Verif.Tsc.C121_labels_partial` | propext, Classical.choice, Quot.sound |
| `Verif.Tsc.C121_labels_violated` | propext, Classical.choice, Quot.sound |
| `Verif.Tsc.C122_fill_partial` | propext, Classical.choice, Quot.sound |
| `Verif.Tsc.C122_rejects` | propext, Quot.sound |
| `Verif.Tsc.C122_violated` | propext, Classical.choice, Quot.sound |
| `Verif.Tsc.C123_grid` | propext, Classical.choice, Quot.sound |
| `Verif.Tsc.C123_contains_partial` | propext, Classical.choice, Quot.sound |
| `Verif.Tsc.C123_contains_violated` | propext, Classical.choice, Quot.sound |
| `Verif.Tsc.C124_augment_partial` | propext, Classical.choice, Quot.sound |
| `Verif.Tsc.C124_violated` | propext, Classical.choice, Quot.sound |
| `Verif.Tsc.C125_frame_list` | propext, Classical.choice, Quot.sound |
| `Verif.Tsc.C125_single` | propext, Classical.choice, Quot.sound |
| `Verif.Tsc.C126_result_partial` | propext, Classical.choice, Quot.sound |
| `Verif.Tsc.C126_argument_violated` | propext, Quot.sound |
| `Verif.Tsc.C126_ids_violated` | propext, Classical.choice, Quot.sound |
| `Verif.Tsc.C126_merge_violated` | propext, Classical.choice, Quot.sound |
| `Verif.Tsc.C127_validate` | propext, Classical.choice, Quot.sound |
| `Verif.Tsc.C127_from_tsc` | propext, Classical.choice, Quot.sound |
| `Verif.Tsc.C127_from_array` | propext, Classical.choice, Quot.sound |
| `Verif.Tsc.C127_tolerance_violated` | propext, Classical.choice, Quot.sound |
| `Verif.Tsc.C128_accepts` | propext, Classical.choice, Quot.sound |
| `Verif.Tsc.C128_labels` | propext, Classical.choice, Quot.sound |
| `Verif.Tsc.C128_exact` | propext, Classical.choice, Quot.sound |
| `Verif.Tsc.C128_tolerance_violated` | propext, Classical.choice, Quot.sound |
| `Verif.Tsc.C129_causal` | propext, Classical.choice, Quot.sound |
| `Verif.Tsc.C130_folds_partial` | propext, Classical.choice, Quot.sound |
| `Verif.Tsc.C130_windows` | propext, Classical.choice, Quot.sound |
| `Verif.Tsc.C130_accepts` | propext, Classical.choice, Quot.sound |
| `Verif.Tsc.C130_order_violated` | propext, Classical.choice, Quot.sound |
| `Verif.Tsc.C130_skip_violated` | propext, Classical.choice, Quot.sound |
| `Verif.Transform.C131_fit_transform` | propext, Classical.choice, Quot.sound |
| `Verif.Transform.C131_transform` | propext, Classical.choice, Quot.sound |
| `Verif.Transform.C131_unfitted` | propext, Classical.choice, Quot.sound |
| `Verif.Transform.C131_accepts` | propext, Classical.choice, Quot.sound |
| `Verif.Transform.C131_centers` | propext, Classical.choice, Quot.sound |
| `Verif.Transform.C131_round_trip_partial` | propext, Classical.choice, Quot.sound |
| `Verif.Transform.C131_never_updated` | propext, Classical.choice, Quot.sound |
| `Verif.Transform.C131_refit_violated` | propext, Classical.choice, Quot.sound |
| `Verif.Transform.C132_powers` | propext, Classical.choice, Quot.sound |
| `Verif.Transform.C132_values` | propext, Classical.choice, Quot.sound |
| `Verif.Transform.C132_names` | propext, Classical.choice, Quot.sound |
| `Verif.Kernel.C133_neighbours_partial` | propext, Classical.choice, Quot.sound |
| `Verif.Kernel.C133_all_points` | propext, Classical.choice, Quot.sound |
| `Verif.Kernel.C133_given` | propext, Classical.choice, Quot.sound |
| `Verif.Kernel.C133_rejects` | propext, Classical.choice, Quot.sound |
| `Verif.Kernel.C133_few_points` | propext, Classical.choice, Quot.sound |
| `Verif.Kernel.C133_one_violated` | propext, Classical.choice, Quot.sound |
| `Verif.Kernel.C133_truncated_violated` | propext, Classical.choice, Quot.sound |
| `Verif.Kernel.C133_subsample_violated` | propext, Classical.choice, Quot.sound |
| `Verif.Kernel.C134_matrix` | propext, Classical.choice, Quot.sound |
| `Verif.Kernel.C134_rejects` | propext, Classical.choice, Quot.sound |
| `Verif.Kernel.C134_nlsa_partial` | propext, Classical.choice, Quot.sound |
| `Verif.Kernel.C134_computed` | propext, Classical.choice, Quot.sound |
| `Verif.Kernel.C134_alignment_violated` | propext, Classical.choice, Quot.sound |
| `Verif.Kernel.C134_resting` | propext, Classical.choice, Quot.sound |
| `Verif.Kernel.C134_history_partial` | propext, Classical.choice, Quot.sound |
| `Verif.Kernel.C134_stale_violated` | propext, Classical.choice, Quot.sound |
| `Verif.Kernel.C135_operator_partial` | propext, Classical.choice, Quot.sound |
| `Verif.Kernel.C135_formula` | propext, Classical.choice, Quot.sound |
| `Verif.Kernel.C135_unsymmetrised` | propext, Classical.choice, Quot.sound |
| `Verif.Kernel.C135_generator_violated` | propext, Classical.choice, Quot.sound |
| `Verif.Kernel.C135_parameters` | propext, Classical.choice, Quot.sound |
| `Verif.Kernel.C135_parameters_violated` | propext, Classical.choice, Quot.sound |
| `Verif.Kernel.C136_eigenpairs_partial` | propext, Classical.choice, Quot.sound |
| `Verif.Kernel.C136_unsymmetric` | propext, Classical.choice, Quot.sound |
| `Verif.Kernel.C136_full_violated` | propext, Classical.choice, Quot.sound |
| `Verif.Kernel.C136_dmap` | propext, Classical.choice, Quot.sound |
| `Verif.Kernel.C136_svd` | propext, Classical.choice, Quot.sound |
| `Verif.Dyn.C137_fit_partial` | propext, Classical.choice, Quot.sound |
| `Verif.Dyn.C137_fit_condition` | propext, Classical.choice, Quot.sound |
| `Verif.Dyn.C137_offset_violated` | propext, Classical.choice, Quot.sound |
| `Verif.Dyn.C137_history_partial` | propext, Classical.choice, Quot.sound |
| `Verif.Dyn.C137_failed_fit_violated` | propext, Classical.choice, Quot.sound |
| `Verif.Dyn.C137_failed_names_violated` | propext, Classical.choice, Quot.sound |
| `Verif.Dyn.C137_partial_fit_partial` | propext, Classical.choice, Quot.sound |
| `Verif.Dyn.C137_partial_fit_violated` | propext, Classical.choice, Quot.sound |
| `Verif.Utils.C138_accepts` | propext, Classical.choice, Quot.sound |
| `Verif.Utils.C138_partial` | propext, Classical.choice, Quot.sound |
| `Verif.Utils.C138_array` | propext, Classical.choice, Quot.sound |
| `Verif.Utils.C138_ids_violated` | propext |
| `Verif.Utils.C138_start_violated` | propext |
| `Verif.Utils.C138_default_violated` | propext |
| `Verif.Utils.C139_partial` | propext, Classical.choice, Quot.sound |
| `Verif.Utils.C139_uncontrolled` | propext, Classical.choice, Quot.sound |
| `Verif.Utils.C139_reference` | propext, Classical.choice, Quot.sound |
| `Verif.Utils.C139_array_shape` | propext, Quot.sound |
| `Verif.Utils.C139_array_steps` | propext, Classical.choice, Quot.sound |
| `Verif.Utils.C139_array_series` | propext, Classical.choice, Quot.sound |
| `Verif.Utils.C139_given_start` | propext, Classical.choice, Quot.sound |
| `Verif.Utils.C139_ids_violated` | propext, Quot.sound |
| `Verif.Utils.C139_order_violated` | propext, Quot.sound |
| `Verif.Utils.C139_start_violated` | propext, Quot.sound |
| `Verif.Utils.C139_one_step_violated` | propext, Classical.choice, Quot.sound |
| `Verif.Utils.C140_angle` | propext, Classical.choice, Quot.sound |
| `Verif.Utils.C140_solution` | propext, Classical.choice, Quot.sound |
| `Verif.Utils.C140_rows` | propext, Classical.choice, Quot.sound |
| `Verif.Utils.C140_euler` | propext, Classical.choice, Quot.sound |
| `Verif.Utils.C140_start_violated` | propext, Classical.choice, Quot.sound |
| `Verif.Utils.C141_polar_partial` | propext, Classical.choice, Quot.sound |
| `Verif.Utils.C141_polar_violated` | propext, Classical.choice, Quot.sound |
| `Verif.Utils.C141_frame` | propext, Classical.choice, Quot.sound |
| `Verif.Utils.C141_array_violated` | propext, Classical.choice, Quot.sound |
| `Verif.Utils.C141_flow` | propext, Classical.choice, Quot.sound |
| `Verif.Utils.C142_roundtrip` | propext, Classical.choice, Quot.sound |
| `Verif.Utils.C142_violated` | propext, Classical.choice, Quot.sound |
| `Verif.Utils.C143_rest_violated` | propext, Classical.choice, Quot.sound |
| `Verif.Utils.C143_input_violated` | propext, Classical.choice, Quot.sound |
| `Verif.Utils.C143_partial` | propext, Classical.choice, Quot.sound |
| `Verif.Utils.C144_energy` | propext, Classical.choice, Quot.sound |
| `Verif.Utils.C144_position` | propext, Classical.choice, Quot.sound |
| `Verif.Utils.C145_mass` | propext, Classical.choice, Quot.sound |
| `Verif.Utils.C145_symmetry` | propext, Classical.choice, Quot.sound |
| `Verif.Utils.C145_constant` | propext, Classical.choice, Quot.sound |
| `Verif.Utils.C145_period_violated` | propext, Classical.choice, Quot.sound |
| `Verif.Utils.C145_step_violated` | propext, Classical.choice, Quot.sound |
| `Verif.Utils.C146_three` | propext, Classical.choice, Quot.sound |
| `Verif.Utils.C146_stable_violated` | propext, Classical.choice, Quot.sound |
| `Verif.Utils.C146_lorenz` | propext, Classical.choice, Quot.sound |
| `Verif.Utils.C146_closed` | propext, Classical.choice, Quot.sound |
| `Verif.Utils.C146_symmetric` | propext, Classical.choice, Quot.sound |
| `Verif.Dyn.C147_accepts` | propext, Classical.choice, Quot.sound |
| `Verif.Dyn.C147_spectral_partial` | propext, Classical.choice, Quot.sound |
| `Verif.Dyn.C147_together` | propext, Classical.choice, Quot.sound |
| `Verif.Dyn.C147_history` | propext, Classical.choice, Quot.sound |
| `Verif.Dyn.C147_refit_violated` | propext |
| `Verif.Dyn.C147_rejected_violated` | propext, Classical.choice, Quot.sound |
| `Verif.Dyn.C147_left_violated` | propext, Classical.choice, Quot.sound |
| `Verif.Dyn.C147_mode_violated` | propext, Classical.choice, Quot.sound |
| `Verif.Dyn.C148_accepts_partial` | propext, Classical.choice, Quot.sound |
| `Verif.Dyn.C148_names_violated` | propext, Quot.sound |
| `Verif.Dyn.C148_times_violated` | propext, Quot.sound |
| `Verif.Dyn.C149_arguments` | none |
| `Verif.Dyn.C149_post_map` | propext, Classical.choice, Quot.sound |
| `Verif.Dyn.C149_matrix_violated` | propext, Classical.choice, Quot.sound |
| `Verif.Dyn.C149_controlled_violated` | propext, Classical.choice, Quot.sound |
| `Verif.Edmd.C150_windows` | propext, Classical.choice, Quot.sound |
| `Verif.Edmd.C150_rejects` | propext, Classical.choice, Quot.sound |
| `Verif.Edmd.C150_cover_partial` | propext, Classical.choice, Quot.sound |
| `Verif.Edmd.C150_dropped_violated` | propext, Classical.choice, Quot.sound |
| `Verif.Edmd.C151_reconstruct_partial` | propext, Classical.choice, Quot.sound |
| `Verif.Edmd.C151_start_violated` | propext, Classical.choice, Quot.sound |
| `Verif.Edmd.C151_lengths_violated` | propext, Classical.choice, Quot.sound |
| `Verif.Edmd.C151_windows_partial` | propext, Classical.choice, Quot.sound |
| `Verif.Edmd.C151_windows_start_violated` | propext, Classical.choice, Quot.sound |
| `Verif.Edmd.C151_window_violated` | propext, Classical.choice, Quot.sound |
| `Verif.Edmd.C151_score_violated` | propext, Classical.choice, Quot.sound |
| `Verif.Edmd.C152_stepwise_partial` | propext, Classical.choice, Quot.sound |
| `Verif.Edmd.C152_direct` | propext, Classical.choice, Quot.sound |
| `Verif.Edmd.C152_single_violated` | propext, Classical.choice, Quot.sound |
| `Verif.Edmd.C153_eigenfunctions` | propext, Classical.choice, Quot.sound |
| `Verif.Mpc.C154_closed_loop_partial` | propext, Classical.choice, Quot.sound |
| `Verif.Mpc.C154_end_violated` | propext, Classical.choice, Quot.sound |
| `Verif.Mpc.C154_plain_violated` | propext, Classical.choice, Quot.sound |
| `Verif.Mpc.C154_simulated` | propext, Classical.choice, Quot.sound |
| `Verif.Dict.C155_dictionary` | propext, Classical.choice, Quot.sound |
| `Verif.Dict.C155_initial` | propext, Classical.choice, Quot.sound |
| `Verif.Dict.C155_rejects` | propext, Classical.choice, Quot.sound |
| `Verif.Dict.C155_short_violated` | propext, Classical.choice, Quot.sound |
| `Verif.Dict.takens_causal` | propext, Classical.choice, Quot.sound |
| `Verif.Dict.row_causal` | propext, Classical.choice, Quot.sound |
| `Verif.Dict.average_causal` | propext, Classical.choice, Quot.sound |
| `Verif.Dict.takens_rejects` | propext, Classical.choice, Quot.sound |
| `Verif.Dict.C156_attached` | propext, Classical.choice, Quot.sound |
| `Verif.Dict.C156_kept` | propext, Classical.choice, Quot.sound |
| `Verif.Dict.takens_keeps` | propext, Classical.choice, Quot.sound |
| `Verif.Dict.C156_scaled_partial` | propext, Classical.choice, Quot.sound |
| `Verif.Dict.C156_scaled_violated` | propext, Classical.choice, Quot.sound |
| `Verif.Dict.C156_flag` | propext |
| `Verif.Dict.C156_scaler` | propext, Classical.choice, Quot.sound |
| `Verif.Edmd.C157_scores_partial` | propext, Classical.choice, Quot.sound |
| `Verif.Edmd.C157_train_partial` | propext, Classical.choice, Quot.sound |
| `Verif.Edmd.C157_accepts` | propext, Classical.choice, Quot.sound |
| `Verif.Edmd.C157_best` | propext, Classical.choice, Quot.sound |
| `Verif.Edmd.C157_raises` | propext, Classical.choice, Quot.sound |
| `Verif.Edmd.C157_attached_violated` | propext, Classical.choice, Quot.sound |
| `Verif.Dict.C158_joined` | propext, Classical.choice, Quot.sound |
| `Verif.Dict.C158_accepts` | propext, Classical.choice, Quot.sound |
| `Verif.Dict.C158_parts` | propext, Classical.choice, Quot.sound |
| `Verif.Dict.C158_memory` | propext, Classical.choice, Quot.sound |
| `Verif.Dict.C158_count_partial` | propext, Classical.choice, Quot.sound |
| `Verif.Dict.C158_count_violated` | propext, Classical.choice, Quot.sound |
| `Verif.Dyn.C159_validate_partial` | propext, Classical.choice, Quot.sound |
| `Verif.Dyn.C159_numpy_violated` | propext |
| `Verif.Dyn.C159_features_violated` | propext, Quot.sound |
| `Verif.Dyn.C159_result` | propext, Classical.choice, Quot.sound |
| `Verif.Dyn.C160_fit_params` | propext, Quot.sound |
| `Verif.Kernel.C161_smoothest` | propext, Classical.choice, Quot.sound |
| `Verif.Kernel.C161_transform_partial` | propext, Classical.choice, Quot.sound |
| `Verif.Kernel.C161_transform_violated` | propext, Classical.choice, Quot.sound |
| `Verif.Kernel.C161_count_violated` | propext, Classical.choice, Quot.sound |
| `Verif.Transform.C162_roundtrip_partial` | propext, Classical.choice, Quot.sound |
| `Verif.Transform.C162_training` | propext, Classical.choice, Quot.sound |
| `Verif.Transform.C162_array_violated` | propext, Classical.choice, Quot.sound |
| `Verif.Transform.C162_labels_violated` | propext, Classical.choice, Quot.sound |
| `Verif.Transform.C163_projection` | propext, Classical.choice, Quot.sound |
| `Verif.Transform.C163_decorrelated` | propext, Classical.choice, Quot.sound |
| `Verif.Transform.C163_whiten` | propext, Classical.choice, Quot.sound |
| `Verif.Transform.C163_optimal` | propext, Classical.choice, Quot.sound |
| `Verif.Transform.C163_full` | propext, Classical.choice, Quot.sound |
| `Verif.Transform.C163_history_partial` | propext, Quot.sound |
| `Verif.Transform.C163_refit_violated` | propext, Classical.choice, Quot.sound |
| `Verif.Transform.C163_array_violated` | propext, Quot.sound |
| `Verif.Transform.C164_positions_partial` | propext, Classical.choice, Quot.sound |
| `Verif.Transform.C164_names_violated` | propext, Classical.choice, Quot.sound |
| `Verif.Transform.C164_array_violated` | propext, Classical.choice, Quot.sound |
| `Verif.Transform.C165_kernel` | propext, Classical.choice, Quot.sound |
| `Verif.Transform.C165_unbiased` | propext, Classical.choice, Quot.sound |
| `Verif.Transform.C165_fit_violated` | propext, Classical.choice, Quot.sound |
| `Verif.Transform.C165_network_violated` | propext |
| `Verif.Dmd.C166_least_squares` | propext, Classical.choice, Quot.sound |
| `Verif.Dmd.C166_recovery` | propext, Classical.choice, Quot.sound |
| `Verif.Dmd.C166_full` | propext, Classical.choice, Quot.sound |
| `Verif.Dmd.C166_affine` | propext, Classical.choice, Quot.sound |
| `Verif.Dmd.C166_affine_partial` | propext, Classical.choice, Quot.sound |
| `Verif.Dmd.C166_affine_violated` | propext, Classical.choice, Quot.sound |
| `Verif.Dmd.C167_kept` | propext, Classical.choice, Quot.sound |
| `Verif.Dmd.C167_threshold_partial` | propext, Classical.choice, Quot.sound |
| `Verif.Dmd.C167_zero_violated` | propext, Classical.choice, Quot.sound |
| `Verif.Dmd.C167_keep_partial` | propext, Classical.choice, Quot.sound |
| `Verif.Dmd.C167_keep_violated` | propext, Classical.choice, Quot.sound |
| `Verif.Dmd.C167_refit` | propext, Classical.choice, Quot.sound |
| `Verif.Dmd.C167_parameter_violated` | propext, Classical.choice, Quot.sound |
| `Verif.Dmd.C168_reduced_measures` | propext, Classical.choice, Quot.sound |
| `Verif.Dmd.C168_reduced_partial` | propext, Classical.choice, Quot.sound |
| `Verif.Dmd.C168_full_violated` | propext, Classical.choice, Quot.sound |
| `Verif.Dmd.C169_positive` | propext, Classical.choice, Quot.sound |
| `Verif.Dmd.C169_full` | propext, Classical.choice, Quot.sound |
| `Verif.Dmd.C169_reduced` | propext, Classical.choice, Quot.sound |
| `Verif.Dmd.C169_eigfuncs_violated` | propext, Classical.choice, Quot.sound |
| `Verif.Dmd.C170_last_partial` | propext |
| `Verif.Dmd.C170_refused` | propext |
| `Verif.Dmd.C170_plain_violated` | propext |
| `Verif.Dmd.C170_measure_violated` | propext |
| `Verif.Dmd.C170_message_violated` | propext |
| `Verif.Dmd.C170_history_violated` | propext |
| `Verif.Dmd.C171_weights` | propext, Classical.choice, Quot.sound |
| `Verif.Dmd.C171_value_partial` | propext, Classical.choice, Quot.sound |
| `Verif.Dmd.C171_single_partial` | propext, Classical.choice, Quot.sound |
| `Verif.Dmd.C171_violated` | propext, Classical.choice, Quot.sound |
| `Verif.Dmd.C171_argument_violated` | propext, Classical.choice, Quot.sound |
| `Verif.Tsc.C172_reports_partial` | propext, Classical.choice, Quot.sound |
| `Verif.Tsc.C172_interval_violated` | propext, Classical.choice, Quot.sound |
| `Verif.Tsc.C172_derived_violated` | propext, Classical.choice, Quot.sound |
| `Verif.Tsc.C172_normalize_partial` | propext, Classical.choice, Quot.sound |
| `Verif.Tsc.C172_normalize_violated` | propext, Classical.choice, Quot.sound |
| `Verif.Tsc.C172_display_partial` | propext, Classical.choice, Quot.sound |
| `Verif.Tsc.C172_display_violated` | propext, Classical.choice, Quot.sound |
| `Verif.Mpc.C173_lift_partial` | propext, Quot.sound |
| `Verif.Mpc.C173_violated` | propext |
| `Verif.Mpc.C174_adjoint_partial` | propext, Classical.choice, Quot.sound |
| `Verif.Mpc.C174_last_violated` | propext, Classical.choice, Quot.sound |
| `Verif.Mpc.C174_witness_violated` | propext, Classical.choice, Quot.sound |
| `Verif.Tsc.C175_condition_partial` | propext, Classical.choice, Quot.sound |
| `Verif.Tsc.C175_mask` | propext, Classical.choice, Quot.sound |
| `Verif.Tsc.C175_empty_violated` | propext, Classical.choice, Quot.sound |
| `Verif.Tsc.C175_index` | propext, Classical.choice, Quot.sound |
| `Verif.Tsc.C175_aligned` | propext, Classical.choice, Quot.sound |
| `Verif.Tsc.C175_order_violated` | propext, Classical.choice, Quot.sound |
| `Verif.Tsc.C175_fallback_violated` | propext, Classical.choice, Quot.sound |
| `Verif.Tsc.C175_positions` | propext, Classical.choice, Quot.sound |
| `Verif.Tsc.C175_iloc` | propext, Classical.choice, Quot.sound |
| `Verif.Tsc.C175_cross_section` | propext, Classical.choice, Quot.sound |
| `Verif.Tsc.C175_assign_partial` | propext, Quot.sound |
| `Verif.Tsc.C175_assign_violated` | propext |
| `Verif.Dmd.C176_score_partial` | propext, Classical.choice, Quot.sound |
| `Verif.Dmd.C176_exact_partial` | propext, Classical.choice, Quot.sound |
| `Verif.Dmd.C176_order_violated` | propext, Classical.choice, Quot.sound |
| `Verif.Dmd.C176_unavailable_violated` | propext, Classical.choice, Quot.sound |
| `Verif.Dmd.C177_flowmap_partial` | propext, Classical.choice, Quot.sound |
| `Verif.Dmd.C177_differential_partial` | propext, Classical.choice, Quot.sound |
| `Verif.Dmd.C177_normalised` | propext, Classical.choice, Quot.sound |
| `Verif.Dmd.C177_singular_violated` | propext, Classical.choice, Quot.sound |
| `Verif.Dmd.C177_dimension` | propext, Classical.choice, Quot.sound |
| `Verif.Dmd.C177_dimension_violated` | propext, Classical.choice, Quot.sound |
| `Verif.Dmd.C177_wrapper_partial` | propext, Classical.choice, Quot.sound |
| `Verif.Dmd.C177_dmdc_violated` | propext |
| `Verif.Dmd.C177_alignment_violated` | propext |
| `Verif.Edmd.C178_error` | propext, Classical.choice, Quot.sound |
| `Verif.Edmd.C178_initial_violated` | propext, Classical.choice, Quot.sound |
| `Verif.Edmd.C178_best` | propext, Classical.choice, Quot.sound |
| `Verif.Edmd.C178_choice` | propext, Classical.choice, Quot.sound |
| `Verif.Edmd.C178_refused` | propext, Classical.choice, Quot.sound |
| `Verif.Edmd.C178_fit_violated` | propext, Classical.choice, Quot.sound |
| `Verif.Edmd.C179_transform` | propext, Classical.choice, Quot.sound |
| `Verif.Edmd.C179_recovery` | propext, Classical.choice, Quot.sound |
| `Verif.Edmd.C179_predict_violated` | propext, Quot.sound |
| `Verif.Kernel.C180_gradient_partial` | propext, Classical.choice, Quot.sound |
| `Verif.Kernel.C180_violated` | propext, Classical.choice, Quot.sound |
| `Verif.Kernel.C180_column` | propext, Classical.choice, Quot.sound |
| `Verif.Kernel.C180_column_violated` | propext, Classical.choice, Quot.sound |
| `Verif.Kernel.C181_symmetric` | propext, Classical.choice, Quot.sound |
| `Verif.Kernel.C181_value_partial` | propext, Classical.choice, Quot.sound |
| `Verif.Kernel.C181_dense_violated` | propext, Classical.choice, Quot.sound |
| `Verif.Kernel.C181_neighbour_violated` | propext, Classical.choice, Quot.sound |
| `Verif.Kernel.C181_query_violated` | propext |
| `Verif.Kernel.C181_points_violated` | propext, Classical.choice, Quot.sound |
| `Verif.Kernel.C182_outcome` | propext, Classical.choice, Quot.sound |
| `Verif.Kernel.C182_two` | propext, Classical.choice, Quot.sound |
| `Verif.Kernel.C182_many_violated` | propext, Classical.choice, Quot.sound |
| `Verif.Kernel.C182_witness_violated` | propext, Classical.choice, Quot.sound |
| `Verif.Kernel.C182_score_violated` | propext, Classical.choice, Quot.sound |
| `Verif.Edmd.C183_score` | propext, Classical.choice, Quot.sound |
| `Verif.Edmd.C183_exact_partial` | propext, Classical.choice, Quot.sound |
| `Verif.Edmd.C183_violated` | propext, Classical.choice, Quot.sound |
| `Verif.Edmd.C184_slice` | propext, Classical.choice, Quot.sound |
| `Verif.Edmd.C184_step` | propext |
| `Verif.Dyn.C185_flowmap` | propext, Classical.choice, Quot.sound |
| `Verif.Dyn.C185_controlled` | propext, Classical.choice, Quot.sound |
| `Verif.Dyn.C185_zero_partial` | propext, Classical.choice, Quot.sound |
| `Verif.Dyn.C185_start_violated` | propext, Classical.choice, Quot.sound |
| `Verif.Dyn.C185_order_violated` | propext, Classical.choice, Quot.sound |
| `Verif.Transform.C186_fit` | propext, Classical.choice, Quot.sound |
| `Verif.Transform.C186_transform` | propext, Classical.choice, Quot.sound |
| `Verif.Transform.C186_exact` | propext, Classical.choice, Quot.sound |
| `Verif.Transform.C186_spacing_violated` | propext, Classical.choice, Quot.sound |
| `Verif.Transform.C186_partial_fit_violated` | propext, Classical.choice, Quot.sound |
| `Verif.Kernel.C187_collection` | propext, Classical.choice, Quot.sound |
| `Verif.Kernel.C187_collection_many` | propext, Classical.choice, Quot.sound |
| `Verif.Kernel.C187_fit_transform` | propext, Classical.choice, Quot.sound |
| `Verif.Kernel.C187_frame_violated` | propext, Classical.choice, Quot.sound |
| `Verif.Kernel.C187_array_violated` | propext, Classical.choice, Quot.sound |
| `Verif.Dist.C188_objects_partial` | propext, Classical.choice, Quot.sound |
| `Verif.Dist.C188_objects_sound` | propext, Classical.choice, Quot.sound |
| `Verif.Dist.C188_default` | propext, Classical.choice, Quot.sound |
| `Verif.Dist.C188_dense_violated` | propext, Classical.choice, Quot.sound |
| `Verif.Dist.C188_dict_violated` | propext, Classical.choice, Quot.sound |
| `Verif.Dist.C188_dict_k` | propext, Classical.choice, Quot.sound |
| `Verif.Dist.C188_backend_violated` | propext, Classical.choice, Quot.sound |
| `Verif.Dist.C188_shared_violated` | propext, Classical.choice, Quot.sound |
| `Verif.Kernel.C189_before_partial` | propext, Classical.choice, Quot.sound |
| `Verif.Kernel.C189_after_partial` | propext, Classical.choice, Quot.sound |
| `Verif.Kernel.C189_values` | propext, Classical.choice, Quot.sound |
| `Verif.Kernel.C189_callable_violated` | propext, Classical.choice, Quot.sound |
| `Verif.Kernel.C189_callable_example` | propext, Classical.choice, Quot.sound |
| `Verif.Kernel.C189_evaluate_violated` | propext, Classical.choice, Quot.sound |
| `Verif.Edmd.C190_takens` | propext, Classical.choice, Quot.sound |
| `Verif.Edmd.C190_observed` | propext, Classical.choice, Quot.sound |
| `Verif.Edmd.C190_exists` | propext, Classical.choice, Quot.sound |
| `Verif.Edmd.C191_takens` | propext, Classical.choice, Quot.sound |
| `Verif.Edmd.C191_recovery_partial` | propext, Classical.choice, Quot.sound |
| `Verif.Edmd.C191_prediction_partial` | propext, Classical.choice, Quot.sound |
| `Verif.Edmd.C191_exists` | propext, Classical.choice, Quot.sound |
| `Verif.Edmd.C191_rejects` | propext, Classical.choice, Quot.sound |
| `Verif.Mpc.C192_optimal_partial` | propext, Classical.choice, Quot.sound |
| `Verif.Mpc.C192_exists` | propext, Classical.choice, Quot.sound |
| `Verif.Mpc.C192_tracks` | propext, Classical.choice, Quot.sound |
| `Verif.Mpc.C193_receding_partial` | propext, Classical.choice, Quot.sound |
| `Verif.Mpc.C193_tracks` | propext, Classical.choice, Quot.sound |
| `Verif.Mpc.C193_lifts` | propext, Classical.choice, Quot.sound |
| `Verif.Kernel.C194_formula` | propext, Classical.choice, Quot.sound |
| `Verif.Kernel.C194_terminates` | propext, Classical.choice, Quot.sound |
| `Verif.Kernel.C194_independent` | propext, Classical.choice, Quot.sound |
| `Verif.Kernel.C195_order` | propext, Classical.choice, Quot.sound |
| `Verif.Kernel.C195_order_iff` | propext, Classical.choice, Quot.sound |
| `Verif.Kernel.C195_isometry` | propext, Classical.choice, Quot.sound |
| `Verif.Kernel.C195_units` | propext, Classical.choice, Quot.sound |
| `Verif.Kernel.C195_points` | propext, Classical.choice, Quot.sound |
| `Verif.Kernel.C195_points_iff` | propext, Classical.choice, Quot.sound |
| `Verif.Kernel.C195_harmonics` | propext, Classical.choice, Quot.sound |
| `Verif.Kernel.C195_pyramids` | propext, Classical.choice, Quot.sound |
| `Verif.Kernel.C195_pyramids_end` | propext, Classical.choice, Quot.sound |
| `Verif.Dmd.C196_coordinates` | propext, Classical.choice, Quot.sound |
| `Verif.Dmd.C196_predict` | propext, Classical.choice, Quot.sound |
| `Verif.Dmd.C196_spectrum` | propext, Classical.choice, Quot.sound |
| `Verif.Dmd.C196_control` | propext, Classical.choice, Quot.sound |
| `Verif.Dmd.C196_minimal_similar` | propext, Classical.choice, Quot.sound |
| `Verif.Dmd.C196_minimal_determined` | propext, Classical.choice, Quot.sound |
| `Verif.Dmd.C196_arrangement_partial` | propext, Classical.choice, Quot.sound |
| `Verif.Dmd.C196_minimal_violated` | propext, Classical.choice, Quot.sound |
| `Verif.Edmd.C196_dictionary_fit` | propext, Classical.choice, Quot.sound |
| `Verif.Edmd.C196_dictionary_predict` | propext, Classical.choice, Quot.sound |
| `Verif.Dist.C197_symmetric_brute` | propext, Classical.choice, Quot.sound |
| `Verif.Dist.C197_symmetric_tree` | propext, Classical.choice, Quot.sound |
| `Verif.Dist.C197_knn_unsymmetric` | propext, Classical.choice, Quot.sound |
| `Verif.Dist.C197_sparse_partial` | propext, Classical.choice, Quot.sound |
| `Verif.Dist.C197_sparse_violated` | propext, Classical.choice, Quot.sound |
| `Verif.Dist.C197_constructor` | propext, Classical.choice, Quot.sound |
| `Verif.Dist.C197_attributes` | propext, Classical.choice, Quot.sound |
| `Verif.Dist.C197_zero_violated` | propext, Classical.choice, Quot.sound |
| `Verif.Dist.C197_data` | propext, Classical.choice, Quot.sound |
| `Verif.Dist.C197_query` | propext, Classical.choice, Quot.sound |
| `Verif.Dist.C197_vector_violated` | propext, Classical.choice, Quot.sound |
| `Verif.Utils.C198_mesh` | propext, Classical.choice, Quot.sound |
| `Verif.Utils.C198_box_partial` | propext, Classical.choice, Quot.sound |
| `Verif.Utils.C198_one_value_violated` | propext, Classical.choice, Quot.sound |
| `Verif.Utils.C198_initial_conditions` | propext, Classical.choice, Quot.sound |
| `Verif.Utils.C198_symmetric` | propext, Classical.choice, Quot.sound |
| `Verif.Utils.C198_symmetric_exact` | propext, Classical.choice, Quot.sound |
| `Verif.Utils.C198_eigenvectors_partial` | propext, Classical.choice, Quot.sound |
| `Verif.Utils.C198_eigenvectors_tolerance` | propext, Classical.choice, Quot.sound |
| `Verif.Utils.C198_columns_violated` | propext, Classical.choice, Quot.sound |
| `Verif.Utils.C199_construct_partial` | propext, Classical.choice, Quot.sound |
| `Verif.Utils.C199_set_params_partial` | propext, Classical.choice, Quot.sound |
| `Verif.Utils.C199_clone_partial` | propext, Classical.choice, Quot.sound |
| `Verif.Utils.C199_sys_mode_violated` | propext, Quot.sound |
| `Verif.Utils.C199_prediction_violated` | propext, Classical.choice, Quot.sound |
| `Verif.Utils.C199_generator_violated` | propext, Quot.sound |
| `Verif.Utils.C199_kwargs_violated` | propext, Classical.choice, Quot.sound |
| `Verif.Utils.C199_clone_violated` | propext, Quot.sound |
| `Verif.Utils.C199_variable_violated` | propext, Classical.choice, Quot.sound |
| `Verif.Utils.C199_edmd_partial` | propext, Quot.sound |
| `Verif.Utils.C199_edmd_violated` | propext |
| `Verif.Kernel.C200_training_partial` | propext, Classical.choice, Quot.sound |
| `Verif.Kernel.C200_span_violated` | propext, Classical.choice, Quot.sound |
| `Verif.Kernel.C200_condition_violated` | propext, Classical.choice, Quot.sound |
| `Verif.Edmd.C201_round_trip_partial` | propext, Classical.choice, Quot.sound |
| `Verif.Edmd.C201_prediction_partial` | propext, Classical.choice, Quot.sound |
| `Verif.Edmd.C201_attached_violated` | propext, Classical.choice, Quot.sound |
| `Verif.Edmd.C201_control_violated` | propext, Classical.choice, Quot.sound |
| `Verif.Utils.C202_cart_partial` | propext, Classical.choice, Quot.sound |
| `Verif.Utils.C202_energy` | propext, Classical.choice, Quot.sound |
| `Verif.Utils.C202_parameters_violated` | propext, Classical.choice, Quot.sound |
| `Verif.Utils.C202_motor` | propext, Classical.choice, Quot.sound |
| `Verif.Utils.C202_vdp_input` | propext, Classical.choice, Quot.sound |
| `Verif.Utils.C202_vdp` | propext, Classical.choice, Quot.sound |
| `Verif.Utils.C202_duffing` | propext, Classical.choice, Quot.sound |
| `Verif.Kernel.C203_before` | propext, Classical.choice, Quot.sound |
| `Verif.Kernel.C203_after` | propext, Classical.choice, Quot.sound |
| `Verif.Kernel.C203_values` | propext, Classical.choice, Quot.sound |
| `Verif.Kernel.C203_diffusion` | propext, Classical.choice, Quot.sound |
| `Verif.Kernel.C203_diffusion_values` | propext, Classical.choice, Quot.sound |
| `Verif.Kernel.C203_reference_violated` | propext, Classical.choice, Quot.sound |
| `Verif.Edmd.C204_dictionary` | propext, Classical.choice, Quot.sound |
| `Verif.Edmd.C204_least_squares` | propext, Classical.choice, Quot.sound |
| `Verif.Edmd.C204_fit` | propext, Classical.choice, Quot.sound |
| `Verif.Edmd.C204_exact_partial` | propext, Classical.choice, Quot.sound |
| `Verif.Edmd.C204_exists` | propext, Classical.choice, Quot.sound |
| `Verif.Edmd.C204_default_partial` | propext, Classical.choice, Quot.sound |
| `Verif.Edmd.C204_default_violated` | propext, Classical.choice, Quot.sound |
| `Verif.Edmd.C204_adaptive_violated` | propext, Classical.choice, Quot.sound |
| `Verif.Utils.C205_diffusion_partial` | propext, Classical.choice, Quot.sound |
| `Verif.Utils.C205_diffusion_violated` | propext, Classical.choice, Quot.sound |
| `Verif.Utils.C205_landmarks` | propext, Classical.choice, Quot.sound |
| `Verif.Utils.C205_landmarks_range` | propext, Classical.choice, Quot.sound |
| `Verif.Utils.C205_landmarks_violated` | propext, Classical.choice, Quot.sound |
| `Verif.Utils.C205_rank` | propext, Classical.choice, Quot.sound |
| `Verif.Utils.C205_streaming_partial` | propext, Classical.choice, Quot.sound |
| `Verif.Utils.C205_streaming_violated` | propext, Classical.choice, Quot.sound |
| `Verif.Utils.C205_online_partial` | propext, Classical.choice, Quot.sound |
| `Verif.Utils.C205_online_violated` | propext, Classical.choice, Quot.sound |
| `Verif.Utils.C205_finite_differences` | propext, Classical.choice, Quot.sound |
| `Verif.Utils.C205_operators` | propext, Classical.choice, Quot.sound |
| `Verif.Utils.C205_shared_violated` | propext, Classical.choice, Quot.sound |
| `Verif.Dmd.C206_accepted` | propext, Classical.choice, Quot.sound |
| `Verif.Dmd.C206_used` | propext, Classical.choice, Quot.sound |
| `Verif.Dmd.C206_scale` | propext, Classical.choice, Quot.sound |
| `Verif.Dmd.C206_uniform` | propext, Classical.choice, Quot.sound |
| `Verif.Dmd.C206_counts_partial` | propext, Classical.choice, Quot.sound |
| `Verif.Dmd.C206_residuals` | propext, Classical.choice, Quot.sound |
| `Verif.Dmd.C206_samples_violated` | propext, Classical.choice, Quot.sound |
| `Verif.Dmd.C206_negative_violated` | propext, Classical.choice, Quot.sound |
| `Verif.Kernel.C207_owned` | propext, Classical.choice, Quot.sound |
| `Verif.Kernel.C207_parameter` | propext, Classical.choice, Quot.sound |
| `Verif.Kernel.settles_gauss` | propext, Classical.choice, Quot.sound |
| `Verif.Kernel.settles_gauss_bare` | propext, Classical.choice, Quot.sound |
| `Verif.Kernel.settles_cknn` | propext, Classical.choice, Quot.sound |
| `Verif.Kernel.settles_cknn_bare` | propext, Classical.choice, Quot.sound |
| `Verif.Kernel.C207_shared_partial` | propext, Classical.choice, Quot.sound |
| `Verif.Kernel.C207_changed_violated` | propext, Classical.choice, Quot.sound |
| `Verif.Kernel.C207_callable_violated` | propext, Classical.choice, Quot.sound |
| `Verif.Kernel.C207_callable_example` | propext, Classical.choice, Quot.sound |
| `Verif.Kernel.C207_once_violated` | propext, Classical.choice, Quot.sound |
| `Verif.Kernel.C208_validated` | propext, Classical.choice, Quot.sound |
| `Verif.Kernel.C208_refused_partial` | propext, Classical.choice, Quot.sound |
| `Verif.Kernel.C208_solver_violated` | propext, Classical.choice, Quot.sound |
| `Verif.Kernel.C208_solver_example` | propext, Classical.choice, Quot.sound |
| `Verif.Kernel.C208_jointly_violated` | propext, Classical.choice, Quot.sound |
| `Verif.Edmd.C209_accepted_partial` | propext, Quot.sound |
| `Verif.Edmd.C209_data_partial` | propext |
| `Verif.Edmd.C209_refused_partial` | propext, Quot.sound |
| `Verif.Edmd.C209_mixed_violated` | propext, Quot.sound |
| `Verif.Edmd.C209_prefix_violated` | propext |
| `Verif.Edmd.C209_mode_violated` | propext, Quot.sound |
| `Verif.Edmd.C209_values_violated` | propext, Classical.choice, Quot.sound |
| `Verif.Edmd.C209_system_violated` | propext, Classical.choice, Quot.sound |
| `Verif.Edmd.C210_predict` | propext, Quot.sound |
| `Verif.Edmd.C210_fitted_partial` | propext, Quot.sound |
| `Verif.Edmd.C210_ignored_violated` | propext, Quot.sound |
| `Verif.Edmd.C210_refused_violated` | propext, Quot.sound |
| `Verif.Dist.C211_one_partial` | propext, Classical.choice, Quot.sound |
| `Verif.Dist.C211_default` | propext, Classical.choice, Quot.sound |
| `Verif.Dist.C211_object` | propext |
| `Verif.Dist.C211_same_partial` | propext, Classical.choice, Quot.sound |
| `Verif.Dist.C211_history_violated` | propext, Classical.choice, Quot.sound |
| `Verif.Dist.C211_repeated_violated` | propext, Classical.choice, Quot.sound |
| `Verif.Dist.C211_contradiction_violated` | propext, Classical.choice, Quot.sound |
| `Verif.Dist.C211_neighbours_violated` | propext, Classical.choice, Quot.sound |
| `Verif.Utils.C212_pixels` | propext, Classical.choice, Quot.sound |
| `Verif.Utils.C212_square_partial` | propext, Classical.choice, Quot.sound |
| `Verif.Utils.C212_order` | propext, Classical.choice, Quot.sound |
| `Verif.Utils.C212_unknown` | propext, Classical.choice, Quot.sound |
| `Verif.Utils.C212_shape_violated` | propext, Classical.choice, Quot.sound |
| `Verif.Utils.C212_place_violated` | propext, Classical.choice, Quot.sound |
| `Verif.Utils.C213_accepted` | propext, Classical.choice, Quot.sound |
| `Verif.Utils.C213_rows` | propext, Classical.choice, Quot.sound |
| `Verif.Utils.C213_euler` | propext, Classical.choice, Quot.sound |
| `Verif.Utils.C213_zero_partial` | propext, Classical.choice, Quot.sound |
| `Verif.Utils.C213_drift_partial` | propext, Classical.choice, Quot.sound |
| `Verif.Utils.C213_single_violated` | propext, Classical.choice, Quot.sound |
| `Verif.Utils.C213_labels_violated` | propext, Classical.choice, Quot.sound |
| `Verif.Utils.C213_shift_violated` | propext, Classical.choice, Quot.sound |
| `Verif.Tsc.C214_regular` | propext, Classical.choice, Quot.sound |
| `Verif.Tsc.C214_sound_partial` | propext, Classical.choice, Quot.sound |
| `Verif.Tsc.C214_per_id` | propext, Classical.choice, Quot.sound |
| `Verif.Tsc.C214_normalize_partial` | propext, Classical.choice, Quot.sound |
| `Verif.Tsc.C214_first_violated` | propext, Classical.choice, Quot.sound |
| `Verif.Tsc.C214_degenerate_violated` | propext, Classical.choice, Quot.sound |
| `Verif.Tsc.C214_normalize_violated` | propext, Classical.choice, Quot.sound |
| `Verif.Dmd.C215_least_squares_partial` | propext, Classical.choice, Quot.sound |
| `Verif.Dmd.C215_exists` | propext, Classical.choice, Quot.sound |
| `Verif.Dmd.C215_unique_partial` | propext, Classical.choice, Quot.sound |
| `Verif.Dmd.C215_recovery_partial` | propext, Classical.choice, Quot.sound |
| `Verif.Dmd.C215_constant_partial` | propext, Classical.choice, Quot.sound |
| `Verif.Dmd.C215_names` | propext, Classical.choice, Quot.sound |
| `Verif.Dmd.C215_transform_partial` | propext, Classical.choice, Quot.sound |
| `Verif.Dmd.C215_network` | propext, Classical.choice, Quot.sound |
| `Verif.Dmd.C215_params` | propext, Classical.choice, Quot.sound |
| `Verif.Dmd.C215_exact_violated` | propext, Classical.choice, Quot.sound |
| `Verif.Dmd.C215_constant_violated` | propext, Classical.choice, Quot.sound |
| `Verif.Dmd.C215_features_out_violated` | propext, Classical.choice, Quot.sound |
| `Verif.Dmd.C215_hidden_violated` | propext, Classical.choice, Quot.sound |
| `Verif.Dmd.C216_fit` | propext, Classical.choice, Quot.sound |
| `Verif.Dmd.C216_stops` | propext, Classical.choice, Quot.sound |
| `Verif.Dmd.C216_refused_iff` | propext, Classical.choice, Quot.sound |
| `Verif.Dmd.C216_scheduler_violated` | propext, Classical.choice, Quot.sound |
| `Verif.Dmd.C216_validation_violated` | propext, Classical.choice, Quot.sound |
| `Verif.Dmd.C216_refused_violated` | propext, Classical.choice, Quot.sound |
| `Verif.Dmd.C216_best_violated` | propext, Classical.choice, Quot.sound |
| `Verif.Dmd.C216_records_violated` | propext, Classical.choice, Quot.sound |
| `Verif.Dmd.C216_stale_violated` | propext, Classical.choice, Quot.sound |
| `Verif.Edmd.C217_first_partial` | propext, Quot.sound |
| `Verif.Edmd.C217_states_violated` | propext, Quot.sound |
| `Verif.Edmd.C217_matrix_violated` | propext |
| `Verif.Edmd.C217_refit_violated` | propext, Quot.sound |
| `Verif.Edmd.C217_projection_violated` | propext, Quot.sound |
| `Verif.Tsc.C218_valid` | propext, Classical.choice, Quot.sound |
| `Verif.Tsc.C218_frame_partial` | propext, Classical.choice, Quot.sound |
| `Verif.Tsc.C218_new` | propext, Classical.choice, Quot.sound |
| `Verif.Tsc.C218_insert` | propext, Classical.choice, Quot.sound |
| `Verif.Tsc.C218_alias_violated` | propext, Classical.choice, Quot.sound |
| `Verif.Tsc.C218_self_violated` | propext, Classical.choice, Quot.sound |
| `Verif.Tsc.C218_refused_violated` | propext, Classical.choice, Quot.sound |
| `Verif.Tsc.C219_shift_partial` | propext, Classical.choice, Quot.sound |
| `Verif.Tsc.C219_roundtrip_partial` | propext, Classical.choice, Quot.sound |
| `Verif.Tsc.C219_rejects` | propext |
| `Verif.Tsc.C219_order_violated` | propext, Classical.choice, Quot.sound |
| `Verif.Tsc.C219_mixture_violated` | propext, Classical.choice, Quot.sound |
| `Verif.Tsc.C219_argument_violated` | propext |
| `Verif.Kernel.C220_positive_definite` | propext, Classical.choice, Quot.sound |
| `Verif.Kernel.C220_duplicates` | propext, Classical.choice, Quot.sound |
| `Verif.Kernel.C220_eigenvalues` | propext, Classical.choice, Quot.sound |
| `Verif.Kernel.C220_embedding` | propext, Classical.choice, Quot.sound |
| `Verif.Kernel.C220_interpolation_violated` | propext, Classical.choice, Quot.sound |
| `Verif.Kernel.C220_solvable` | propext, Classical.choice, Quot.sound |
| `Verif.Kernel.C220_growing_violated` | propext, Classical.choice, Quot.sound |
| `Verif.Kernel.C220_multiquadric_violated` | propext, Classical.choice, Quot.sound |
| `Verif.Kernel.C220_cutoff_violated` | propext, Classical.choice, Quot.sound |
| `Verif.Kernel.C221_harmonic` | propext, Classical.choice, Quot.sound |
| `Verif.Kernel.C221_trivial` | propext, Classical.choice, Quot.sound |
| `Verif.Kernel.C221_first` | propext, Classical.choice, Quot.sound |
| `Verif.Kernel.C221_falling` | propext, Classical.choice, Quot.sound |
| `Verif.Kernel.C221_disconnected_violated` | propext, Classical.choice, Quot.sound |
| `Verif.Kernel.C221_cutoff_example` | propext, Classical.choice, Quot.sound |
| `Verif.Kernel.C222_stationary` | propext, Classical.choice, Quot.sound |
| `Verif.Kernel.C222_bounds_partial` | propext, Classical.choice, Quot.sound |
| `Verif.Kernel.C222_uniform` | propext, Classical.choice, Quot.sound |
| `Verif.Kernel.C222_distance_violated` | propext, Classical.choice, Quot.sound |
| `Verif.Kernel.C222_line_violated` | propext, Classical.choice, Quot.sound |
| `Verif.Kernel.C223_fit_partial` | propext, Classical.choice, Quot.sound |
| `Verif.Kernel.C223_scaling` | propext, Classical.choice, Quot.sound |
| `Verif.Kernel.C223_density` | propext, Classical.choice, Quot.sound |
| `Verif.Kernel.C223_constant_violated` | propext, Classical.choice, Quot.sound |
| `Verif.Kernel.C223_power_violated` | propext, Classical.choice, Quot.sound |
| `Verif.Tsc.C224_roundtrip` | propext, Classical.choice, Quot.sound |
| `Verif.Tsc.C224_complex_violated` | propext, Classical.choice, Quot.sound |
| `Verif.Tsc.C224_dates_violated` | propext, Classical.choice, Quot.sound |
| `Verif.Tsc.C224_labels_violated` | propext, Classical.choice, Quot.sound |
| `Verif.Tsc.C224_exact_partial` | propext, Classical.choice, Quot.sound |
| `Verif.Transform.C225_initial` | propext, Classical.choice, Quot.sound |
| `Verif.Transform.C225_final` | propext, Classical.choice, Quot.sound |
| `Verif.Transform.C225_drop_last` | propext, Classical.choice, Quot.sound |
| `Verif.Transform.C225_takens` | propext, Classical.choice, Quot.sound |
| `Verif.Transform.C225_moving_average` | propext, Classical.choice, Quot.sound |
| `Verif.Transform.C225_derivative` | propext, Classical.choice, Quot.sound |
| `Verif.Transform.C225_finite_difference` | propext, Classical.choice, Quot.sound |
| `Verif.Transform.C225_lambdas` | propext, Classical.choice, Quot.sound |
| `Verif.Dmd.C225_predict` | propext, Classical.choice, Quot.sound |
| `Verif.Dmd.C225_predict_control` | propext, Classical.choice, Quot.sound |
| `Verif.Dmd.C225_reconstruct` | propext, Classical.choice, Quot.sound |
| `Verif.Dmd.C226_error` | propext, Classical.choice, Quot.sound |
| `Verif.Dmd.C226_bound` | propext, Classical.choice, Quot.sound |
| `Verif.Dmd.C226_noise` | propext, Classical.choice, Quot.sound |
| `Verif.Dmd.C226_contracting` | propext, Classical.choice, Quot.sound |
| `Verif.Kernel.C227_bandwidth` | propext, Classical.choice, Quot.sound |
| `Verif.Kernel.C227_residual` | propext, Classical.choice, Quot.sound |
| `Verif.Kernel.C227_unique` | propext, Classical.choice, Quot.sound |
| `Verif.Kernel.C227_signs` | propext, Classical.choice, Quot.sound |
| `Verif.Kernel.C227_order` | propext, Classical.choice, Quot.sound |
| `Verif.Kernel.C227_dependent` | propext, Classical.choice, Quot.sound |
| `Verif.Kernel.C227_transform` | propext, Classical.choice, Quot.sound |
| `Verif.Dmd.C228_shift` | propext, Classical.choice, Quot.sound |
| `Verif.Dmd.C228_states` | propext, Classical.choice, Quot.sound |
| `Verif.Dmd.C228_sampling` | propext, Classical.choice, Quot.sound |
| `Verif.Dmd.C228_fit` | propext, Classical.choice, Quot.sound |
| `Verif.Dmd.C228_fit_control` | propext, Classical.choice, Quot.sound |
| `Verif.Dmd.C228_predict` | propext, Classical.choice, Quot.sound |
| `Verif.Dmd.C228_predict_control` | propext, Classical.choice, Quot.sound |
| `Verif.Dmd.C228_reconstruct` | propext, Classical.choice, Quot.sound |
| `Verif.Dmd.C228_takens` | propext, Classical.choice, Quot.sound |
| `Verif.Dmd.C228_moving_average` | propext, Classical.choice, Quot.sound |
| `Verif.Dmd.C228_derivative` | propext, Classical.choice, Quot.sound |
| `Verif.Mpc.C229_decrease` | propext, Classical.choice, Quot.sound |
| `Verif.Mpc.C229_total_cost` | propext, Classical.choice, Quot.sound |
| `Verif.Mpc.C229_stable` | propext, Classical.choice, Quot.sound |
| `Verif.Mpc.C229_zero_weight` | propext, Classical.choice, Quot.sound |
| `Verif.Kernel.C230_dmap` | propext, Classical.choice, Quot.sound |
| `Verif.Kernel.C230_harmonics` | propext, Classical.choice, Quot.sound |
| `Verif.Kernel.C230_pyramids` | propext, Classical.choice, Quot.sound |
| `Verif.Kernel.C230_cutoff_violated` | propext, Classical.choice, Quot.sound |
| `Verif.Edmd.C231_error` | propext, Classical.choice, Quot.sound |
| `Verif.Edmd.C231_bound` | propext, Classical.choice, Quot.sound |
| `Verif.Edmd.C231_contracting` | propext, Classical.choice, Quot.sound |
| `Verif.Edmd.C231_training` | propext, Classical.choice, Quot.sound |
| `Verif.Dmd.C232_dmd` | propext, Classical.choice, Quot.sound |
| `Verif.Dmd.C232_consistent` | propext, Classical.choice, Quot.sound |
| `Verif.Dmd.C232_excited` | propext, Classical.choice, Quot.sound |
| `Verif.Dmd.C232_control` | propext, Classical.choice, Quot.sound |
| `Verif.Edmd.C232_edmd` | propext, Classical.choice, Quot.sound |
| `Verif.Dmd.C233_content` | propext, Classical.choice, Quot.sound |
| `Verif.Dmd.C233_states` | propext, Classical.choice, Quot.sound |
| `Verif.Dmd.C233_sampling` | propext, Classical.choice, Quot.sound |
| `Verif.Dmd.C233_fit` | propext, Classical.choice, Quot.sound |
| `Verif.Dmd.C233_fit_control` | propext, Classical.choice, Quot.sound |
| `Verif.Dmd.C233_predict` | propext, Classical.choice, Quot.sound |
| `Verif.Dmd.C233_predict_control` | propext, Classical.choice, Quot.sound |
| `Verif.Dmd.C233_reconstruct` | propext, Classical.choice, Quot.sound |
| `Verif.Dmd.C233_takens` | propext, Classical.choice, Quot.sound |
| `Verif.Dmd.C233_moving_average` | propext, Classical.choice, Quot.sound |
| `Verif.Dmd.C233_derivative` | propext, Classical.choice, Quot.sound |
| `Verif.Dmd.C233_any_names_partial` | propext, Classical.choice, Quot.sound |
| `Verif.Dmd.C233_order_violated` | propext, Classical.choice, Quot.sound |
| `Verif.Utils.C234_array` | propext, Classical.choice, Quot.sound |
| `Verif.Utils.C234_collection` | propext, Classical.choice, Quot.sound |
| `Verif.Utils.C234_times` | propext |
| `Verif.Utils.C234_reference` | propext, Classical.choice, Quot.sound |
| `Verif.Utils.C234_constant_violated` | propext, Classical.choice, Quot.sound |
| `Verif.Utils.C234_ids_violated` | propext, Quot.sound |
| `Verif.Dmd.C235_features` | propext, Classical.choice, Quot.sound |
| `Verif.Dmd.C235_dictionary` | propext, Classical.choice, Quot.sound |
| `Verif.Dmd.C235_control` | propext, Classical.choice, Quot.sound |
| `Verif.Dmd.C235_rank` | propext, Classical.choice, Quot.sound |
| `Verif.Dmd.C235_exact_violated` | propext, Classical.choice, Quot.sound |
| `Verif.Edmd.C236_stepwise` | propext, Classical.choice, Quot.sound |
| `Verif.Edmd.C236_direct` | propext, Classical.choice, Quot.sound |
| `Verif.Edmd.C236_memory_violated` | propext, Classical.choice, Quot.sound |
| `Verif.Edmd.C237_memory` | propext, Classical.choice, Quot.sound |
| `Verif.Edmd.C237_takens` | propext, Classical.choice, Quot.sound |
| `Verif.Edmd.C237_plain` | propext, Classical.choice, Quot.sound |
| `Verif.Mpc.C238_feedback` | propext, Classical.choice, Quot.sound |
| `Verif.Mpc.C238_lqr` | propext, Classical.choice, Quot.sound |
| `Verif.Mpc.C238_limit` | propext, Classical.choice, Quot.sound |
| `Verif.Mpc.C239_bound` | propext, Classical.choice, Quot.sound |
| `Verif.Mpc.C239_lipschitz` | propext, Classical.choice, Quot.sound |
| `Verif.Mpc.C240_terminal_partial` | propext, Classical.choice, Quot.sound |
| `Verif.Mpc.C240_long_partial` | propext, Classical.choice, Quot.sound |
| `Verif.Mpc.C240_violated` | propext, Classical.choice, Quot.sound |
| `Verif.Tsc.C241_scaled_partial` | propext, Classical.choice, Quot.sound |
| `Verif.Tsc.C241_plain` | propext, Classical.choice, Quot.sound |
| `Verif.Tsc.C241_relative_partial` | propext, Classical.choice, Quot.sound |
| `Verif.Tsc.C241_score_partial` | propext, Classical.choice, Quot.sound |
| `Verif.Tsc.C241_score_plain` | propext, Classical.choice, Quot.sound |
| `Verif.Tsc.C241_constant_violated` | propext, Classical.choice, Quot.sound |
| `Verif.Tsc.C241_refused_violated` | propext, Classical.choice, Quot.sound |
| `Verif.Mpc.C242_answered` | propext, Classical.choice, Quot.sound |
| `Verif.Mpc.C242_recursive_partial` | propext, Classical.choice, Quot.sound |
| `Verif.Mpc.C242_viable_partial` | propext, Classical.choice, Quot.sound |
| `Verif.Mpc.C242_inputs` | propext, Classical.choice, Quot.sound |
| `Verif.Mpc.C242_violated` | propext, Classical.choice, Quot.sound |
| `Verif.Tsc.C243_timeseries` | propext, Classical.choice, Quot.sound |
| `Verif.Tsc.C243_timestep` | propext, Classical.choice, Quot.sound |
| `Verif.Tsc.C243_lengths_matter` | propext, Classical.choice, Quot.sound |
| `Verif.Tsc.C244_symmetric_partial` | propext, Classical.choice, Quot.sound |
| `Verif.Tsc.C244_triangle_partial` | propext, Classical.choice, Quot.sound |
| `Verif.Tsc.C244_scores_partial` | propext, Classical.choice, Quot.sound |
| `Verif.Tsc.C244_squares_violated` | propext, Classical.choice, Quot.sound |
| `Verif.Tsc.C244_median_violated` | propext, Classical.choice, Quot.sound |
| `Verif.Tsc.C244_scaled_violated` | propext, Classical.choice, Quot.sound |
| `Verif.Tsc.C244_relative_violated` | propext, Classical.choice, Quot.sound |
| `Verif.Dyn.C245_initial` | propext, Classical.choice, Quot.sound |
| `Verif.Dyn.C245_control` | propext, Classical.choice, Quot.sound |
| `Verif.Dyn.C245_response` | propext, Classical.choice, Quot.sound |
| `Verif.Dyn.C246_bounded_partial` | propext, Classical.choice, Quot.sound |
| `Verif.Dyn.C246_decay_partial` | propext, Classical.choice, Quot.sound |
| `Verif.Dyn.C246_matrix_partial` | propext, Classical.choice, Quot.sound |
| `Verif.Dyn.C246_decay_matrix` | propext, Classical.choice, Quot.sound |
| `Verif.Dyn.C246_growth` | propext, Classical.choice, Quot.sound |
| `Verif.Dyn.C246_differential_partial` | propext, Classical.choice, Quot.sound |
| `Verif.Dyn.C246_violated` | propext, Classical.choice, Quot.sound |
| `Verif.Kernel.C247_equal_partial` | propext, Classical.choice, Quot.sound |
| `Verif.Kernel.C247_query` | propext, Classical.choice, Quot.sound |
| `Verif.Kernel.C247_function` | propext, Classical.choice, Quot.sound |
| `Verif.Kernel.C247_distinct` | propext, Classical.choice, Quot.sound |
| `Verif.Kernel.C247_injective` | propext, Classical.choice, Quot.sound |
| `Verif.Kernel.C247_violated` | propext, Classical.choice, Quot.sound |
| `Verif.Dmd.C248_step` | propext, Classical.choice, Quot.sound |
| `Verif.Dmd.C248_predict_partial` | propext, Classical.choice, Quot.sound |
| `Verif.Dmd.C248_violated` | propext, Classical.choice, Quot.sound |
| `Verif.Edmd.C248_edmd_partial` | propext, Classical.choice, Quot.sound |
| `Verif.Edmd.C249_coefficients` | propext, Classical.choice, Quot.sound |
| `Verif.Edmd.C249_model` | propext, Classical.choice, Quot.sound |
| `Verif.Edmd.C249_predict` | propext, Classical.choice, Quot.sound |
| `Verif.Edmd.C250_coefficients` | propext, Classical.choice, Quot.sound |
| `Verif.Edmd.C250_predict` | propext, Classical.choice, Quot.sound |
| `Verif.Edmd.C250_origin` | propext, Classical.choice, Quot.sound |
| `Verif.Edmd.C250_violated` | propext, Classical.choice, Quot.sound |
| `Verif.Dmd.C251_sampling` | propext, Classical.choice, Quot.sound |
| `Verif.Dmd.C251_fit` | propext, Classical.choice, Quot.sound |
| `Verif.Dmd.C251_fit_control` | propext, Classical.choice, Quot.sound |
| `Verif.Dmd.C251_predict` | propext, Classical.choice, Quot.sound |
| `Verif.Dmd.C251_predict_control` | propext, Classical.choice, Quot.sound |
| `Verif.Dmd.C251_derivative` | propext, Classical.choice, Quot.sound |
| `Verif.Dmd.C251_float_partial` | propext, Classical.choice, Quot.sound |
| `Verif.Dmd.C251_violated` | propext, Classical.choice, Quot.sound |
| `Verif.Mpc.C252_weights` | propext, Classical.choice, Quot.sound |
| `Verif.Mpc.C252_coordinates` | propext, Classical.choice, Quot.sound |
| `Verif.Mpc.C252_time` | propext, Classical.choice, Quot.sound |
| `Verif.Tsc.C253_sorted_partial` | propext, Classical.choice, Quot.sound |
| `Verif.Tsc.C253_unsigned_violated` | propext, Classical.choice, Quot.sound |
| `Verif.Tsc.C253_far_violated` | propext, Classical.choice, Quot.sound |
| `Verif.Tsc.C253_missing_violated` | propext, Classical.choice, Quot.sound |
| `Verif.Tsc.C253_missing_refused` | propext, Classical.choice, Quot.sound |
| `Verif.Dmd.C254_step` | propext, Classical.choice, Quot.sound |
| `Verif.Dmd.C254_predict` | propext, Classical.choice, Quot.sound |
| `Verif.Dmd.C254_total` | propext, Classical.choice, Quot.sound |
| `Verif.Tsc.C255_accepted_partial` | propext, Classical.choice, Quot.sound |
| `Verif.Tsc.C255_infinite_last` | propext, Classical.choice, Quot.sound |
| `Verif.Tsc.C255_infinite_violated` | propext, Classical.choice, Quot.sound |
| `Verif.Tsc.C255_nan_violated` | propext, Classical.choice, Quot.sound |
| `Verif.Tsc.C255_negative` | propext, Classical.choice, Quot.sound |
| `Verif.Tsc.C256_kept` | propext, Classical.choice, Quot.sound |
| `Verif.Tsc.C256_three` | propext, Classical.choice, Quot.sound |
| `Verif.Tsc.C256_regular` | propext, Classical.choice, Quot.sound |
| `Verif.Tsc.C257_raises` | propext, Classical.choice, Quot.sound |
| `Verif.Tsc.C257_regular` | propext, Classical.choice, Quot.sound |
| `Verif.Tsc.C257_again` | propext, Classical.choice, Quot.sound |
| `Verif.Tsc.C257_same` | propext, Classical.choice, Quot.sound |
