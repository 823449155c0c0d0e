# Axioms each theorem depends on

Made with `#print axioms`.

| theorem | axioms |
|---|---|
| `Ra.Props.C01_at` | propext, Classical.choice, Quot.sound |
| `Ra.Props.C01_map` | propext, Classical.choice, Quot.sound |
| `Ra.Props.C01_traversal` | propext, Classical.choice, Quot.sound |
| `Ra.Props.C02_shape` | propext, Classical.choice, Quot.sound |
| `Ra.Props.C02_unique` | propext, Quot.sound |
| `Ra.Props.C03_agree` | propext, Classical.choice, Quot.sound |
| `Ra.Props.C03_perm` | propext, Classical.choice, Quot.sound |
| `Ra.Props.C03_rejects` | propext, Classical.choice, Quot.sound |
| `Ra.Props.C03_tree` | propext, Classical.choice, Quot.sound |
| `Ra.Props.C04_reject` | propext, Classical.choice, Quot.sound |
| `Ra.Props.C04_pass_partial` | propext, Classical.choice, Quot.sound |
| `Ra.Props.C04_check_partial` | propext, Classical.choice, Quot.sound |
| `Ra.Props.C04_negation` | propext, Classical.choice, Quot.sound |
| `Ra.Props.C04_exact` | propext, Classical.choice, Quot.sound |
| `Ra.Props.C05_ravel_visits` | propext, Classical.choice, Quot.sound |
| `Ra.Props.C05_history` | propext, Classical.choice, Quot.sound |
| `Ra.Props.C06_fixed_visits` | propext, Classical.choice, Quot.sound |
| `Ra.Props.C06_fixed_eq_ravel` | propext, Classical.choice, Quot.sound |
| `Ra.Props.C07_ravel_restores` | propext, Classical.choice, Quot.sound |
| `Ra.Props.C07_fixed_restores` | propext, Classical.choice, Quot.sound |
| `Ra.Props.C07_twice` | propext, Classical.choice, Quot.sound |
| `Ra.Props.C08_early` | propext, Classical.choice, Quot.sound |
| `Ra.Props.C09_fails` | propext |
| `Ra.Props.C09_negation` | propext |
| `Ra.Props.C09_outside` | propext |
| `Ra.Props.C09_partial` | propext, Classical.choice, Quot.sound |
| `Ra.Props.C10_increments` | propext, Classical.choice, Quot.sound |
| `Ra.Props.C10_stl_visits` | propext, Classical.choice, Quot.sound |
| `Ra.Props.C100_slice_partial` | propext, Classical.choice, Quot.sound |
| `Ra.Props.C100_partial` | propext, Classical.choice, Quot.sound |
| `Ra.Props.C100_chain_partial` | propext, Classical.choice, Quot.sound |
| `Ra.Props.C100_slice31_partial` | propext, Classical.choice, Quot.sound |
| `Ra.Props.C100_array_partial` | propext, Classical.choice, Quot.sound |
| `Ra.Props.C100_negation` | propext, Classical.choice, Quot.sound |
| `Ra.Props.C101_partial` | propext, Classical.choice, Quot.sound |
| `Ra.Props.C101_empty_partial` | propext, Classical.choice, Quot.sound |
| `Ra.Props.C101_negation` | propext |
| `Ra.Props.C102_partial` | propext, Classical.choice, Quot.sound |
| `Ra.Props.C102_negation` | propext |
| `Ra.Props.C102_big` | propext, Classical.choice, Quot.sound |
| `Ra.Props.C102_view` | propext |
| `Ra.Props.C102_write` | propext |
| `Ra.Props.C103_same_partial` | propext, Classical.choice, Quot.sound |
| `Ra.Props.C103_partial` | propext, Classical.choice, Quot.sound |
| `Ra.Props.C103_negation` | propext |
| `Ra.Props.C103_empty_negation` | propext |
| `Ra.Props.C104_races` | propext, Classical.choice, Quot.sound |
| `Ra.Props.C104_reads` | propext |
| `Ra.Props.C104_writes` | propext, Classical.choice, Quot.sound |
| `Ra.Props.C104_threads` | propext, Classical.choice, Quot.sound |
| `Ra.Props.C104_shared` | propext, Classical.choice, Quot.sound |
| `Ra.Props.C104_ends` | propext, Quot.sound |
| `Ra.Props.C105_create` | propext, Classical.choice, Quot.sound |
| `Ra.Props.C105_view` | propext, Classical.choice, Quot.sound |
| `Ra.Props.C105_resize` | propext, Classical.choice, Quot.sound |
| `Ra.Props.C105_reject` | propext, Classical.choice, Quot.sound |
| `Ra.Props.C105_mismatch_partial` | propext, Classical.choice, Quot.sound |
| `Ra.Props.C105_unchecked` | propext, Classical.choice, Quot.sound |
| `Ra.Props.C105_self_partial` | propext, Classical.choice, Quot.sound |
| `Ra.Props.C105_index` | propext, Classical.choice, Quot.sound |
| `Ra.Props.C105_index_reject` | propext, Classical.choice, Quot.sound |
| `Ra.Props.C105_index_mismatch_partial` | propext, Classical.choice, Quot.sound |
| `Ra.Props.C105_shape_negation` | propext, Classical.choice, Quot.sound |
| `Ra.Props.C105_index_negation` | propext, Classical.choice, Quot.sound |
| `Ra.Props.C105_alias_negation` | propext, Classical.choice, Quot.sound |
| `Ra.Props.C106_dims` | propext, Classical.choice, Quot.sound |
| `Ra.Props.C106_misfit` | propext, Classical.choice, Quot.sound |
| `Ra.Props.C106_reject` | propext, Classical.choice, Quot.sound |
| `Ra.Props.C106_convert` | propext, Classical.choice, Quot.sound |
| `Ra.Props.C106_unchecked` | propext, Classical.choice, Quot.sound |
| `Ra.Props.C106_unbounded` | propext, Classical.choice, Quot.sound |
| `Ra.Props.C106_rank_negation` | propext |
| `Ra.Props.C106_unchecked_negation` | propext, Classical.choice, Quot.sound |
| `Ra.Props.C107_gemm` | propext, Classical.choice, Quot.sound |
| `Ra.Props.C107_block` | propext, Classical.choice, Quot.sound |
| `Ra.Props.C107_dots` | propext, Classical.choice, Quot.sound |
| `Ra.Props.C107_block_mismatch` | propext, Classical.choice, Quot.sound |
| `Ra.Props.C107_raw` | propext, Classical.choice, Quot.sound |
| `Ra.Props.C107_verb` | propext, Classical.choice, Quot.sound |
| `Ra.Props.C107_verbs` | propext, Classical.choice, Quot.sound |
| `Ra.Props.C107_outer` | propext, Classical.choice, Quot.sound |
| `Ra.Props.C107_insert` | propext, Classical.choice, Quot.sound |
| `Ra.Props.C108_step` | propext, Classical.choice, Quot.sound |
| `Ra.Props.C108_steps` | propext, Classical.choice, Quot.sound |
| `Ra.Props.C108_same` | propext, Classical.choice, Quot.sound |
| `Ra.Props.C108_short` | propext, Quot.sound |
| `Ra.Props.C108_prods` | propext, Classical.choice, Quot.sound |
| `Ra.Props.C108_verb` | propext, Classical.choice, Quot.sound |
| `Ra.Props.C108_sums` | propext, Classical.choice, Quot.sound |
| `Ra.Props.C109_residual` | propext, Classical.choice, Quot.sound |
| `Ra.Props.C109_ends` | propext, Classical.choice, Quot.sound |
| `Ra.Props.C109_exact` | propext, Classical.choice, Quot.sound |
| `Ra.Props.C109_eigen` | propext, Classical.choice, Quot.sound |
| `Ra.Props.C109_definite` | propext, Classical.choice, Quot.sound |
| `Ra.Props.C109_stiff` | propext, Classical.choice, Quot.sound |
| `Ra.Props.C109_mass` | propext, Classical.choice, Quot.sound |
| `Ra.Props.C109_laplace` | propext, Classical.choice, Quot.sound |
| `Ra.Props.C11_reject` | propext, Classical.choice, Quot.sound |
| `Ra.Props.C11_scalar` | propext, Classical.choice, Quot.sound |
| `Ra.Props.C11_scalar_reject` | propext, Classical.choice, Quot.sound |
| `Ra.Props.C110_gemv` | propext, Classical.choice, Quot.sound |
| `Ra.Props.C110_gevm` | propext, Classical.choice, Quot.sound |
| `Ra.Props.C110_raw` | propext, Classical.choice, Quot.sound |
| `Ra.Props.C110_sideways` | propext, Classical.choice, Quot.sound |
| `Ra.Props.C110_match` | propext, Classical.choice, Quot.sound |
| `Ra.Props.C110_verb` | propext, Classical.choice, Quot.sound |
| `Ra.Props.C110_verbs` | propext, Classical.choice, Quot.sound |
| `Ra.Props.C110_rows` | propext, Classical.choice, Quot.sound |
| `Ra.Props.C110_scalar` | propext, Classical.choice, Quot.sound |
| `Ra.Props.C110_iter` | propext, Classical.choice, Quot.sound |
| `Ra.Props.C110_transpose` | propext, Classical.choice, Quot.sound |
| `Ra.Props.C110_accum` | propext, Classical.choice, Quot.sound |
| `Ra.Props.C110_sums` | propext, Classical.choice, Quot.sound |
| `Ra.Props.C110_order` | propext |
| `Ra.Props.C111_select` | propext, Classical.choice, Quot.sound |
| `Ra.Props.C111_assign` | propext, Classical.choice, Quot.sound |
| `Ra.Props.C111_update` | propext, Classical.choice, Quot.sound |
| `Ra.Props.C111_distinct` | propext, Classical.choice, Quot.sound |
| `Ra.Props.C111_gather` | propext, Classical.choice, Quot.sound |
| `Ra.Props.C111_count` | propext, Classical.choice, Quot.sound |
| `Ra.Props.C111_ways` | propext, Classical.choice, Quot.sound |
| `Ra.Props.C111_square` | propext, Classical.choice, Quot.sound |
| `Ra.Props.C112_diff` | propext, Classical.choice, Quot.sound |
| `Ra.Props.C112_field` | propext, Classical.choice, Quot.sound |
| `Ra.Props.C112_antisymmetric` | propext, Classical.choice, Quot.sound |
| `Ra.Props.C112_divergence` | propext, Classical.choice, Quot.sound |
| `Ra.Props.C112_step` | propext, Classical.choice, Quot.sound |
| `Ra.Props.C112_loop` | propext, Classical.choice, Quot.sound |
| `Ra.Props.C112_next` | propext, Classical.choice, Quot.sound |
| `Ra.Props.C112_prev` | propext, Classical.choice, Quot.sound |
| `Ra.Props.C112_empty` | propext, Classical.choice, Quot.sound |
| `Ra.Props.C113_step` | propext, Classical.choice, Quot.sound |
| `Ra.Props.C113_loop` | propext, Classical.choice, Quot.sound |
| `Ra.Props.C113_momentum` | propext, Classical.choice, Quot.sound |
| `Ra.Props.C113_centre` | propext, Classical.choice, Quot.sound |
| `Ra.Props.C114_cells` | propext, Classical.choice, Quot.sound |
| `Ra.Props.C114_put` | propext, Classical.choice, Quot.sound |
| `Ra.Props.C114_distinct` | propext, Classical.choice, Quot.sound |
| `Ra.Props.C115_elem` | propext, Quot.sound |
| `Ra.Props.C115_pack` | propext, Classical.choice, Quot.sound |
| `Ra.Props.C115_unpack` | propext, Classical.choice, Quot.sound |
| `Ra.Props.C115_round` | propext, Classical.choice, Quot.sound |
| `Ra.Props.C115_gather` | propext, Classical.choice, Quot.sound |
| `Ra.Props.C115_ways` | propext, Classical.choice, Quot.sound |
| `Ra.Props.C116_mult0` | propext, Classical.choice, Quot.sound |
| `Ra.Props.C116_mult1` | propext, Classical.choice, Quot.sound |
| `Ra.Props.C116_matrix` | propext, Classical.choice, Quot.sound |
| `Ra.Props.C116_cube` | propext, Classical.choice, Quot.sound |
| `Ra.Props.C116_tables` | propext, Classical.choice, Quot.sound |
| `Ra.Props.C116_definite` | propext, Classical.choice, Quot.sound |
| `Ra.Props.C116_elements` | propext, Classical.choice, Quot.sound |
| `Ra.Props.C116_bounds` | propext, Classical.choice, Quot.sound |
| `Ra.Props.C116_set` | propext, Classical.choice, Quot.sound |
| `Ra.Props.C116_solves0` | propext, Classical.choice, Quot.sound |
| `Ra.Props.C116_solves1` | propext, Classical.choice, Quot.sound |
| `Ra.Props.C117_map` | propext, Classical.choice, Quot.sound |
| `Ra.Props.C117_maps` | propext, Classical.choice, Quot.sound |
| `Ra.Props.C117_verb` | propext, Classical.choice, Quot.sound |
| `Ra.Props.C117_verbs` | propext, Classical.choice, Quot.sound |
| `Ra.Props.C117_loops` | propext, Classical.choice, Quot.sound |
| `Ra.Props.C117_raw` | propext, Classical.choice, Quot.sound |
| `Ra.Props.C117_sum` | propext, Classical.choice, Quot.sound |
| `Ra.Props.C117_total` | propext, Quot.sound |
| `Ra.Props.C117_subscripts` | propext, Classical.choice, Quot.sound |
| `Ra.Props.C117_at` | propext, Classical.choice, Quot.sound |
| `Ra.Props.C117_atSum` | propext, Classical.choice, Quot.sound |
| `Ra.Props.C118_range` | propext, Classical.choice, Quot.sound |
| `Ra.Props.C118_container` | propext, Classical.choice, Quot.sound |
| `Ra.Props.C118_index` | propext, Classical.choice, Quot.sound |
| `Ra.Props.C118_ways` | propext, Classical.choice, Quot.sound |
| `Ra.Props.C118_ravel` | propext, Classical.choice, Quot.sound |
| `Ra.Props.C118_counted` | propext, Classical.choice, Quot.sound |
| `Ra.Props.C118_total` | propext, Classical.choice, Quot.sound |
| `Ra.Props.C118_zeros` | propext, Classical.choice, Quot.sound |
| `Ra.Props.C119_points_same` | propext, Classical.choice, Quot.sound |
| `Ra.Props.C119_strips_same` | propext, Classical.choice, Quot.sound |
| `Ra.Props.C119_points` | propext, Classical.choice, Quot.sound |
| `Ra.Props.C119_strips` | propext, Classical.choice, Quot.sound |
| `Ra.Props.C119_circle` | propext, Classical.choice, Quot.sound |
| `Ra.Props.C119_circle_even` | propext, Classical.choice, Quot.sound |
| `Ra.Props.C119_disc` | propext, Classical.choice, Quot.sound |
| `Ra.Props.C12_range` | propext, Classical.choice, Quot.sound |
| `Ra.Props.C12_elements` | propext, Classical.choice, Quot.sound |
| `Ra.Props.C120_sample` | propext, Classical.choice, Quot.sound |
| `Ra.Props.C120_difference` | propext, Classical.choice, Quot.sound |
| `Ra.Props.C120_few` | propext, Quot.sound |
| `Ra.Props.C120_quartic` | propext, Classical.choice, Quot.sound |
| `Ra.Props.C120_error` | propext, Classical.choice, Quot.sound |
| `Ra.Props.C120_cosine` | propext, Classical.choice, Quot.sound |
| `Ra.Props.C121_pick` | propext, Classical.choice, Quot.sound |
| `Ra.Props.C121_bad` | propext, Classical.choice, Quot.sound |
| `Ra.Props.C121_update` | propext, Classical.choice, Quot.sound |
| `Ra.Props.C121_where` | propext, Classical.choice, Quot.sound |
| `Ra.Props.C121_mask` | propext, Classical.choice, Quot.sound |
| `Ra.Props.C121_disc` | propext, Classical.choice, Quot.sound |
| `Ra.Props.C121_strips` | propext, Classical.choice, Quot.sound |
| `Ra.Props.C122_order` | propext, Classical.choice, Quot.sound |
| `Ra.Props.C122_loops` | propext, Classical.choice, Quot.sound |
| `Ra.Props.C122_each` | propext, Classical.choice, Quot.sound |
| `Ra.Props.C123_update` | propext, Classical.choice, Quot.sound |
| `Ra.Props.C123_cells` | propext, Classical.choice, Quot.sound |
| `Ra.Props.C123_same` | propext, Classical.choice, Quot.sound |
| `Ra.Props.C123_elements` | propext, Classical.choice, Quot.sound |
| `Ra.Props.C123_none` | propext, Classical.choice, Quot.sound |
| `Ra.Props.C123_not` | propext, Classical.choice, Quot.sound |
| `Ra.Props.C124_steps` | propext, Quot.sound |
| `Ra.Props.C124_dots` | propext, Classical.choice, Quot.sound |
| `Ra.Props.C124_nothing` | propext, Quot.sound |
| `Ra.Props.C124_trailing` | propext, Quot.sound |
| `Ra.Props.C124_whole` | propext, Classical.choice, Quot.sound |
| `Ra.Props.C124_one` | propext, Classical.choice, Quot.sound |
| `Ra.Props.C124_ranges` | propext, Classical.choice, Quot.sound |
| `Ra.Props.C124_reverse` | propext, Classical.choice, Quot.sound |
| `Ra.Props.C124_fill` | propext, Classical.choice, Quot.sound |
| `Ra.Props.C125_arrays` | propext, Classical.choice, Quot.sound |
| `Ra.Props.C125_cells` | propext, Classical.choice, Quot.sound |
| `Ra.Props.C125_nested` | propext, Classical.choice, Quot.sound |
| `Ra.Props.C125_none` | propext |
| `Ra.Props.C125_reject` | propext, Classical.choice, Quot.sound |
| `Ra.Props.C125_axis` | propext, Classical.choice, Quot.sound |
| `Ra.Props.C126_flat` | propext, Classical.choice, Quot.sound |
| `Ra.Props.C126_last` | propext, Classical.choice, Quot.sound |
| `Ra.Props.C126_nested` | propext, Classical.choice, Quot.sound |
| `Ra.Props.C126_view` | propext, Classical.choice, Quot.sound |
| `Ra.Props.C127_same` | propext, Classical.choice, Quot.sound |
| `Ra.Props.C127_assign` | propext, Classical.choice, Quot.sound |
| `Ra.Props.C127_read` | propext, Classical.choice, Quot.sound |
| `Ra.Props.C127_early` | propext, Classical.choice, Quot.sound |
| `Ra.Props.C128_view` | propext, Quot.sound |
| `Ra.Props.C128_same` | propext, Classical.choice, Quot.sound |
| `Ra.Props.C128_assign` | propext, Classical.choice, Quot.sound |
| `Ra.Props.C128_update` | propext, Classical.choice, Quot.sound |
| `Ra.Props.C128_order` | propext, Classical.choice, Quot.sound |
| `Ra.Props.C129_assign` | propext, Classical.choice, Quot.sound |
| `Ra.Props.C129_copy` | propext, Classical.choice, Quot.sound |
| `Ra.Props.C129_forward` | propext, Classical.choice, Quot.sound |
| `Ra.Props.C129_smear` | propext, Classical.choice, Quot.sound |
| `Ra.Props.C129_backward` | propext, Classical.choice, Quot.sound |
| `Ra.Props.C129_update` | propext, Classical.choice, Quot.sound |
| `Ra.Props.C129_scan` | propext, Classical.choice, Quot.sound |
| `Ra.Props.C129_sums` | propext, Classical.choice, Quot.sound |
| `Ra.Props.C13_slice` | propext, Classical.choice, Quot.sound |
| `Ra.Props.C13_rank` | propext, Classical.choice, Quot.sound |
| `Ra.Props.C13_rank_axes` | propext, Classical.choice, Quot.sound |
| `Ra.Props.C13_dots` | propext, Quot.sound |
| `Ra.Props.C13_elided` | propext, Quot.sound |
| `Ra.Props.C13_insert` | propext, Classical.choice, Quot.sound |
| `Ra.Props.C13_too_many` | propext |
| `Ra.Props.C130_assign` | propext, Classical.choice, Quot.sound |
| `Ra.Props.C130_update` | propext, Classical.choice, Quot.sound |
| `Ra.Props.C130_both` | propext, Classical.choice, Quot.sound |
| `Ra.Props.C130_vector` | propext, Classical.choice, Quot.sound |
| `Ra.Props.C130_diagonal` | propext, Classical.choice, Quot.sound |
| `Ra.Props.C131_select` | propext, Classical.choice, Quot.sound |
| `Ra.Props.C131_assign` | propext, Classical.choice, Quot.sound |
| `Ra.Props.C131_copy` | propext, Classical.choice, Quot.sound |
| `Ra.Props.C131_operation` | propext, Classical.choice, Quot.sound |
| `Ra.Props.C131_whole` | propext, Classical.choice, Quot.sound |
| `Ra.Props.C14_grid` | propext, Classical.choice, Quot.sound |
| `Ra.Props.C14_grid_right` | propext, Classical.choice, Quot.sound |
| `Ra.Props.C14_grid_inside` | propext, Classical.choice, Quot.sound |
| `Ra.Props.C14_partial` | propext, Classical.choice, Quot.sound |
| `Ra.Props.C14_negation` | propext, Classical.choice, Quot.sound |
| `Ra.Props.C14_origin` | propext |
| `Ra.Props.C15_outer` | propext, Classical.choice, Quot.sound |
| `Ra.Props.C15_reject` | propext, Classical.choice, Quot.sound |
| `Ra.Props.C15_insert_fails` | propext, Quot.sound |
| `Ra.Props.C16_outer` | propext, Classical.choice, Quot.sound |
| `Ra.Props.C17_conjunction` | propext, Classical.choice, Quot.sound |
| `Ra.Props.C17_reject` | propext, Classical.choice, Quot.sound |
| `Ra.Props.C18_reframe` | propext, Classical.choice, Quot.sound |
| `Ra.Props.C18_at` | propext, Classical.choice, Quot.sound |
| `Ra.Props.C18_shape` | propext, Classical.choice, Quot.sound |
| `Ra.Props.C18_repeats_fail` | propext |
| `Ra.Props.C18_function` | propext, Classical.choice, Quot.sound |
| `Ra.Props.C19_reverse` | propext, Classical.choice, Quot.sound |
| `Ra.Props.C19_unbounded` | propext, Quot.sound |
| `Ra.Props.C19_axis_negation` | propext, Quot.sound |
| `Ra.Props.C19_partial` | propext, Classical.choice, Quot.sound |
| `Ra.Props.C20_elements` | propext, Classical.choice, Quot.sound |
| `Ra.Props.C20_shape_partial` | propext, Classical.choice, Quot.sound |
| `Ra.Props.C20_lengths` | propext, Classical.choice, Quot.sound |
| `Ra.Props.C20_lengths_right` | propext, Classical.choice, Quot.sound |
| `Ra.Props.C20_inverse` | propext, Classical.choice, Quot.sound |
| `Ra.Props.C20_reject` | propext, Classical.choice, Quot.sound |
| `Ra.Props.C20_negative_negation` | propext, Classical.choice, Quot.sound |
| `Ra.Props.C20_mixed_negation` | propext |
| `Ra.Props.C21_negative_negation` | propext |
| `Ra.Props.C21_placeholder` | propext, Classical.choice, Quot.sound |
| `Ra.Props.C21_placeholder_reject` | propext, Classical.choice, Quot.sound |
| `Ra.Props.C21_placeholder_negation` | propext, Quot.sound |
| `Ra.Props.C21_tile` | propext, Quot.sound |
| `Ra.Props.C21_suffix` | propext, Quot.sound |
| `Ra.Props.C21_partial` | propext, Classical.choice, Quot.sound |
| `Ra.Props.C21_reject` | propext, Classical.choice, Quot.sound |
| `Ra.Props.C21_negation` | propext, Quot.sound |
| `Ra.Props.C21_succeeds` | propext, Classical.choice, Quot.sound |
| `Ra.Props.C21_exact` | propext, Classical.choice, Quot.sound |
| `Ra.Props.C22_partial` | propext, Classical.choice, Quot.sound |
| `Ra.Props.C22_complete` | propext, Classical.choice, Quot.sound |
| `Ra.Props.C22_negation` | propext |
| `Ra.Props.C22_succeeds` | propext, Classical.choice, Quot.sound |
| `Ra.Props.C22_exact` | propext, Classical.choice, Quot.sound |
| `Ra.Props.C23_unit` | propext, Classical.choice, Quot.sound |
| `Ra.Props.C23_strided_complete` | propext, Classical.choice, Quot.sound |
| `Ra.Props.C23_strided_partial` | propext, Classical.choice, Quot.sound |
| `Ra.Props.C23_strided_negation` | propext, Classical.choice, Quot.sound |
| `Ra.Props.C23_strided_exact` | propext, Classical.choice, Quot.sound |
| `Ra.Props.C24_stencil` | propext, Classical.choice, Quot.sound |
| `Ra.Props.C24_reject` | propext, Classical.choice, Quot.sound |
| `Ra.Props.C25_collapse_scalar` | propext, Classical.choice, Quot.sound |
| `Ra.Props.C25_collapse_array` | propext, Classical.choice, Quot.sound |
| `Ra.Props.C25_explode` | propext, Classical.choice, Quot.sound |
| `Ra.Props.C25_roundtrip_partial` | propext, Classical.choice, Quot.sound |
| `Ra.Props.C25_explode_reject` | propext, Classical.choice, Quot.sound |
| `Ra.Props.C25_roundtrip_negation` | propext |
| `Ra.Props.C25_collapse_negation` | none |
| `Ra.Props.C25_explode_exact` | propext, Classical.choice, Quot.sound |
| `Ra.Props.C26_iter` | propext, Quot.sound |
| `Ra.Props.C26_iter_reject` | propext, Quot.sound |
| `Ra.Props.C26_at_view` | propext, Classical.choice, Quot.sound |
| `Ra.Props.C26_at_view_reject` | propext, Classical.choice, Quot.sound |
| `Ra.Props.C26_at_view_negation` | none |
| `Ra.Props.C26_at_view_many` | propext, Classical.choice, Quot.sound |
| `Ra.Props.C26_partial` | propext, Classical.choice, Quot.sound |
| `Ra.Props.C27_assign` | propext, Classical.choice, Quot.sound |
| `Ra.Props.C27_reject` | propext, Classical.choice, Quot.sound |
| `Ra.Props.C27_reject_tree` | propext, Classical.choice, Quot.sound |
| `Ra.Props.C27_view` | propext, Classical.choice, Quot.sound |
| `Ra.Props.C28_update` | propext, Classical.choice, Quot.sound |
| `Ra.Props.C28_prefix` | propext, Classical.choice, Quot.sound |
| `Ra.Props.C28_insert` | propext, Classical.choice, Quot.sound |
| `Ra.Props.C28_assign` | propext, Classical.choice, Quot.sound |
| `Ra.Props.C28_last` | propext, Classical.choice, Quot.sound |
| `Ra.Props.C29_gemm_new` | propext, Classical.choice, Quot.sound |
| `Ra.Props.C29_gemm_new_reject` | propext, Classical.choice, Quot.sound |
| `Ra.Props.C29_gemv_new` | propext, Classical.choice, Quot.sound |
| `Ra.Props.C29_gemv_new_expr` | propext, Classical.choice, Quot.sound |
| `Ra.Props.C29_gevm_new` | propext, Classical.choice, Quot.sound |
| `Ra.Props.C29_gemv_new_reject` | propext, Classical.choice, Quot.sound |
| `Ra.Props.C29_gemv_new_expr_reject` | propext, Classical.choice, Quot.sound |
| `Ra.Props.C29_gevm_new_reject` | propext, Classical.choice, Quot.sound |
| `Ra.Props.C29_gemm_slice` | propext, Classical.choice, Quot.sound |
| `Ra.Props.C29_gemm_iter` | propext, Classical.choice, Quot.sound |
| `Ra.Props.C29_gemv_b` | propext, Classical.choice, Quot.sound |
| `Ra.Props.C29_gemv_c` | propext, Classical.choice, Quot.sound |
| `Ra.Props.C29_gemv_iter` | propext, Classical.choice, Quot.sound |
| `Ra.Props.C29_gevm_c` | propext, Classical.choice, Quot.sound |
| `Ra.Props.C29_gevm_a` | propext, Classical.choice, Quot.sound |
| `Ra.Props.C29_gevm_iter` | propext, Classical.choice, Quot.sound |
| `Ra.Props.C29_gemm_slice_reject` | propext, Classical.choice, Quot.sound |
| `Ra.Props.C29_gemm_iter_reject` | propext, Classical.choice, Quot.sound |
| `Ra.Props.C29_gemv_b_reject` | propext, Classical.choice, Quot.sound |
| `Ra.Props.C29_gemv_c_reject` | propext, Classical.choice, Quot.sound |
| `Ra.Props.C29_gemv_iter_reject` | propext, Classical.choice, Quot.sound |
| `Ra.Props.C29_gevm_c_reject` | propext, Classical.choice, Quot.sound |
| `Ra.Props.C29_gevm_a_reject` | propext, Classical.choice, Quot.sound |
| `Ra.Props.C29_gevm_iter_reject` | propext, Classical.choice, Quot.sound |
| `Ra.Props.C30_elements` | propext, Classical.choice, Quot.sound |
| `Ra.Props.C30_invariant` | propext, Classical.choice, Quot.sound |
| `Ra.Props.C30_assign` | propext, Classical.choice, Quot.sound |
| `Ra.Props.C31_resize` | propext, Classical.choice, Quot.sound |
| `Ra.Props.C31_resize_runs` | propext, Classical.choice, Quot.sound |
| `Ra.Props.C31_resize_shape` | propext, Classical.choice, Quot.sound |
| `Ra.Props.C31_push_back` | propext, Classical.choice, Quot.sound |
| `Ra.Props.C31_pop_back` | propext, Classical.choice, Quot.sound |
| `Ra.Props.C31_pop_back_runs` | propext, Quot.sound |
| `Ra.Props.C31_copy` | propext, Classical.choice, Quot.sound |
| `Ra.Props.C32_failed_partial` | propext, Classical.choice, Quot.sound |
| `Ra.Props.C32_resize_breaks` | propext, Classical.choice, Quot.sound |
| `Ra.Props.C32_resize_shape_breaks` | propext, Quot.sound |
| `Ra.Props.C32_history` | propext |
| `Ra.Props.C32_others` | propext, Quot.sound |
| `Ra.Props.C33_swap` | propext, Classical.choice, Quot.sound |
| `Ra.Props.C33_reject` | propext |
| `Ra.Props.C34_assign` | propext, Classical.choice, Quot.sound |
| `Ra.Props.C34_assign_reject` | propext, Classical.choice, Quot.sound |
| `Ra.Props.C34_construct` | propext, Classical.choice, Quot.sound |
| `Ra.Props.C34_ragged` | propext, Classical.choice, Quot.sound |
| `Ra.Props.C35_any` | propext, Classical.choice, Quot.sound |
| `Ra.Props.C35_every` | propext, Classical.choice, Quot.sound |
| `Ra.Props.C35_index_found` | propext, Classical.choice, Quot.sound |
| `Ra.Props.C35_index_none` | propext, Classical.choice, Quot.sound |
| `Ra.Props.C36_lexical` | propext, Classical.choice, Quot.sound |
| `Ra.Props.C36_irrefl` | propext, Classical.choice, Quot.sound |
| `Ra.Props.C36_trans` | propext, Classical.choice, Quot.sound |
| `Ra.Props.C36_total` | propext, Classical.choice, Quot.sound |
| `Ra.Props.C37_amax_nan` | propext, Classical.choice, Quot.sound |
| `Ra.Props.C37_amin_nan` | propext, Classical.choice, Quot.sound |
| `Ra.Props.C37_amin` | propext, Classical.choice, Quot.sound |
| `Ra.Props.C37_amax` | propext, Classical.choice, Quot.sound |
| `Ra.Props.C38_refmin` | propext, Classical.choice, Quot.sound |
| `Ra.Props.C38_refmax` | propext, Classical.choice, Quot.sound |
| `Ra.Props.C38_empty` | propext, Classical.choice, Quot.sound |
| `Ra.Props.C39_sum_fold` | propext, Classical.choice, Quot.sound |
| `Ra.Props.C39_prod_fold` | propext, Classical.choice, Quot.sound |
| `Ra.Props.C39_dot_fold` | propext, Classical.choice, Quot.sound |
| `Ra.Props.C39_sum` | propext, Classical.choice, Quot.sound |
| `Ra.Props.C39_prod` | propext, Classical.choice, Quot.sound |
| `Ra.Props.C39_dot` | propext, Classical.choice, Quot.sound |
| `Ra.Props.C39_cdot` | propext, Classical.choice, Quot.sound |
| `Ra.Props.C39_sqrm` | propext, Classical.choice, Quot.sound |
| `Ra.Props.C39_mismatch` | propext, Classical.choice, Quot.sound |
| `Ra.Props.C40_pick` | propext, Classical.choice, Quot.sound |
| `Ra.Props.C40_pick_traversal` | propext, Classical.choice, Quot.sound |
| `Ra.Props.C40_where` | propext, Classical.choice, Quot.sound |
| `Ra.Props.C40_where_traversal` | propext, Classical.choice, Quot.sound |
| `Ra.Props.C40_bad` | propext, Classical.choice, Quot.sound |
| `Ra.Props.C41_and` | propext, Classical.choice, Quot.sound |
| `Ra.Props.C41_or` | propext, Classical.choice, Quot.sound |
| `Ra.Props.C41_pure` | propext, Classical.choice, Quot.sound |
| `Ra.Props.C41_traversal` | propext, Classical.choice, Quot.sound |
| `Ra.Props.C42_scalar` | propext, Quot.sound |
| `Ra.Props.C42_iotas` | propext, Classical.choice, Quot.sound |
| `Ra.Props.C42_mismatch_partial` | propext, Classical.choice, Quot.sound |
| `Ra.Props.C42_negation` | propext |
| `Ra.Props.C42_mismatch_exact` | propext, Classical.choice, Quot.sound |
| `Ra.Props.C42_expression` | propext, Classical.choice, Quot.sound |
| `Ra.Props.C42_expression_fails` | propext, Classical.choice, Quot.sound |
| `Ra.Props.C43_meaning` | propext, Quot.sound |
| `Ra.Props.C43_tree` | propext, Quot.sound |
| `Ra.Props.C43_arrays` | propext, Classical.choice, Quot.sound |
| `Ra.Props.C43_arrays_fails` | propext, Classical.choice, Quot.sound |
| `Ra.Props.C43_any_partial` | propext, Classical.choice, Quot.sound |
| `Ra.Props.C43_any_none` | propext, Quot.sound |
| `Ra.Props.C43_any_count` | propext, Quot.sound |
| `Ra.Props.C43_any_negation` | propext, Classical.choice, Quot.sound |
| `Ra.Props.C43_subscript` | propext, Quot.sound |
| `Ra.Props.C43_value` | propext |
| `Ra.Props.C44_binom` | propext, Classical.choice, Quot.sound |
| `Ra.Props.C44_machine` | propext, Classical.choice, Quot.sound |
| `Ra.Props.C44_limit` | propext, Classical.choice, Quot.sound |
| `Ra.Props.C45_combs` | propext, Classical.choice, Quot.sound |
| `Ra.Props.C45_combs_none` | propext, Quot.sound |
| `Ra.Props.C45_choose` | propext, Classical.choice, Quot.sound |
| `Ra.Props.C45_choose_sign` | propext, Classical.choice, Quot.sound |
| `Ra.Props.C45_choose_none` | propext, Quot.sound |
| `Ra.Props.C46_complement_list` | propext, Quot.sound |
| `Ra.Props.C46_complement` | propext, Quot.sound |
| `Ra.Props.C46_permsign` | propext, Classical.choice, Quot.sound |
| `Ra.Props.C46_sign_exists` | propext, Classical.choice, Quot.sound |
| `Ra.Props.C46_zero` | propext, Classical.choice, Quot.sound |
| `Ra.Props.C46_findcomb` | propext, Classical.choice, Quot.sound |
| `Ra.Props.C46_findcomb_none` | propext, Classical.choice, Quot.sound |
| `Ra.Props.C47_wedge` | propext, Classical.choice, Quot.sound |
| `Ra.Props.C47_components_unique` | propext, Classical.choice, Quot.sound |
| `Ra.Props.C47_basis` | propext, Classical.choice, Quot.sound |
| `Ra.Props.C47_linear_left` | propext, Classical.choice, Quot.sound |
| `Ra.Props.C47_anticommutative` | propext, Classical.choice, Quot.sound |
| `Ra.Props.C47_linear_right` | propext, Classical.choice, Quot.sound |
| `Ra.Props.C47_associative` | propext, Classical.choice, Quot.sound |
| `Ra.Props.C47_cross2` | propext, Classical.choice, Quot.sound |
| `Ra.Props.C47_cross3` | propext, Classical.choice, Quot.sound |
| `Ra.Props.C47_scalars` | propext, Classical.choice, Quot.sound |
| `Ra.Props.C48_hodgex` | propext, Classical.choice, Quot.sound |
| `Ra.Props.C48_hodge` | propext, Classical.choice, Quot.sound |
| `Ra.Props.C48_hodge1` | propext, Classical.choice, Quot.sound |
| `Ra.Props.C48_star` | propext, Classical.choice, Quot.sound |
| `Ra.Props.C48_twice` | propext, Classical.choice, Quot.sound |
| `Ra.Props.C49_sums` | propext, Classical.choice, Quot.sound |
| `Ra.Props.C49_inv` | propext, Classical.choice, Quot.sound |
| `Ra.Props.C49_div` | propext, Classical.choice, Quot.sound |
| `Ra.Props.C49_fma` | propext, Classical.choice, Quot.sound |
| `Ra.Props.C49_pow_int` | propext, Classical.choice, Quot.sound |
| `Ra.Props.C49_real` | propext, Classical.choice, Quot.sound |
| `Ra.Props.C49_real_pos` | propext, Classical.choice, Quot.sound |
| `Ra.Props.C49_tan_exact` | propext, Classical.choice, Quot.sound |
| `Ra.Props.C49_tan_negation` | propext, Classical.choice, Quot.sound |
| `Ra.Props.C49_abs_exact` | propext, Classical.choice, Quot.sound |
| `Ra.Props.C49_abs_negation` | propext, Classical.choice, Quot.sound |
| `Ra.Props.C49_xi_real` | propext, Classical.choice, Quot.sound |
| `Ra.Props.C49_partial` | propext, Classical.choice, Quot.sound |
| `Ra.Props.C49_derivative_partial` | propext, Classical.choice, Quot.sound |
| `Ra.Props.C49_complex` | propext, Classical.choice, Quot.sound |
| `Ra.Props.C49_xi_complex` | propext, Classical.choice, Quot.sound |
| `Ra.Props.C49_complex_slit` | propext, Classical.choice, Quot.sound |
| `Ra.Props.C50_static` | propext, Classical.choice, Quot.sound |
| `Ra.Props.C50_rank` | propext, Classical.choice, Quot.sound |
| `Ra.Props.C50_anyrank` | propext, Classical.choice, Quot.sound |
| `Ra.Props.C50_vector` | propext, Classical.choice, Quot.sound |
| `Ra.Props.C50_reject` | propext, Classical.choice, Quot.sound |
| `Ra.Props.C50_anyrank_reject` | propext, Classical.choice, Quot.sound |
| `Ra.Props.C50_bad_stream` | propext |
| `Ra.Props.C50_short_shape` | propext, Quot.sound |
| `Ra.Props.C50_short_shape_anyrank` | propext, Classical.choice, Quot.sound |
| `Ra.Props.C50_short_elements` | propext, Classical.choice, Quot.sound |
| `Ra.Props.C51_format` | propext, Classical.choice, Quot.sound |
| `Ra.Props.C51_values` | propext, Classical.choice, Quot.sound |
| `Ra.Props.C51_styles` | propext, Classical.choice, Quot.sound |
| `Ra.Props.C51_reject` | propext, Classical.choice, Quot.sound |
| `Ra.Props.C52_exact` | propext, Classical.choice, Quot.sound |
| `Ra.Props.C52_partial` | propext, Classical.choice, Quot.sound |
| `Ra.Props.C52_negation` | propext, Classical.choice, Quot.sound |
| `Ra.Props.C52_meaning` | propext, Classical.choice, Quot.sound |
| `Ra.Props.C53_counters` | propext, Classical.choice, Quot.sound |
| `Ra.Props.C53_once` | propext, Classical.choice, Quot.sound |
| `Ra.Props.C53_summary` | propext, Classical.choice, Quot.sound |
| `Ra.Props.C53_reports` | propext, Classical.choice, Quot.sound |
| `Ra.Props.C53_compare` | propext, Classical.choice, Quot.sound |
| `Ra.Props.C53_compare_mismatch` | propext, Classical.choice, Quot.sound |
| `Ra.Props.C54_upper` | propext, Quot.sound |
| `Ra.Props.C54_partial` | propext, Classical.choice, Quot.sound |
| `Ra.Props.C54_one_negation` | propext, Quot.sound |
| `Ra.Props.C54_even_negation` | propext, Classical.choice, Quot.sound |
| `Ra.Props.C55_view` | propext, Classical.choice, Quot.sound |
| `Ra.Props.C55_view_reject` | propext, Quot.sound |
| `Ra.Props.C55_array` | propext, Classical.choice, Quot.sound |
| `Ra.Props.C55_array_reject` | propext, Classical.choice, Quot.sound |
| `Ra.Props.C55_pointer` | propext, Classical.choice, Quot.sound |
| `Ra.Props.C56_shape` | propext, Classical.choice, Quot.sound |
| `Ra.Props.C56_big` | propext, Classical.choice, Quot.sound |
| `Ra.Props.C56_big_reject` | propext, Classical.choice, Quot.sound |
| `Ra.Props.C56_small` | propext, Classical.choice, Quot.sound |
| `Ra.Props.C56_value` | propext, Classical.choice, Quot.sound |
| `Ra.Props.C56_mismatch` | propext, Classical.choice, Quot.sound |
| `Ra.Props.C56_interrupted` | propext, Classical.choice, Quot.sound |
| `Ra.Props.C56_big_interrupted` | propext, Classical.choice, Quot.sound |
| `Ra.Props.C57_negation` | propext, Classical.choice, Quot.sound |
| `Ra.Props.C57_partial` | propext |
| `Ra.Props.C58_dims` | propext, Classical.choice, Quot.sound |
| `Ra.Props.C58_onto` | propext, Quot.sound |
| `Ra.Props.C58_negative` | propext, Quot.sound |
| `Ra.Props.C59_expr_partial` | propext, Classical.choice, Quot.sound |
| `Ra.Props.C59_pick_negation` | propext, Classical.choice, Quot.sound |
| `Ra.Props.C59_frame_negation` | propext, Classical.choice, Quot.sound |
| `Ra.Props.C59_reject` | propext, Classical.choice, Quot.sound |
| `Ra.Props.C59_at_traversal` | propext, Classical.choice, Quot.sound |
| `Ra.Props.C60_axis` | propext, Classical.choice, Quot.sound |
| `Ra.Props.C60_reject` | propext, Quot.sound |
| `Ra.Props.C60_len` | propext |
| `Ra.Props.C60_array` | propext, Classical.choice, Quot.sound |
| `Ra.Props.C61_static` | propext, Classical.choice, Quot.sound |
| `Ra.Props.C61_expr_size` | propext, Classical.choice, Quot.sound |
| `Ra.Props.C61_expr_unbounded` | propext, Classical.choice, Quot.sound |
| `Ra.Props.C61_size` | propext, Quot.sound |
| `Ra.Props.C61_unbounded` | propext, Classical.choice, Quot.sound |
| `Ra.Props.C61_empty` | propext, Quot.sound |
| `Ra.Props.C62_moved_to` | propext, Quot.sound |
| `Ra.Props.C62_moved_from_partial` | propext, Quot.sound |
| `Ra.Props.C63_scalar` | propext, Classical.choice, Quot.sound |
| `Ra.Props.C63_reject` | propext, Classical.choice, Quot.sound |
| `Ra.Props.C64_assign` | propext, Classical.choice, Quot.sound |
| `Ra.Props.C64_update` | propext, Classical.choice, Quot.sound |
| `Ra.Props.C65_partial` | propext, Classical.choice, Quot.sound |
| `Ra.Props.C65_exception_negation` | propext, Classical.choice, Quot.sound |
| `Ra.Props.C65_nested_negation` | propext |
| `Ra.Props.C66_threads` | propext, Classical.choice, Quot.sound |
| `Ra.Props.C66_assign` | propext, Classical.choice, Quot.sound |
| `Ra.Props.C66_update` | propext, Classical.choice, Quot.sound |
| `Ra.Props.C67_dims` | propext, Classical.choice, Quot.sound |
| `Ra.Props.C67_size` | propext, Classical.choice, Quot.sound |
| `Ra.Props.C67_partial` | propext, Classical.choice, Quot.sound |
| `Ra.Props.C67_negation` | propext, Classical.choice, Quot.sound |
| `Ra.Props.C67_index` | propext, Quot.sound |
| `Ra.Props.C68_partial` | propext, Classical.choice, Quot.sound |
| `Ra.Props.C68_array` | propext, Classical.choice, Quot.sound |
| `Ra.Props.C68_node` | propext |
| `Ra.Props.C68_reverse_negation` | propext, Classical.choice, Quot.sound |
| `Ra.Props.C68_column_negation` | propext, Classical.choice, Quot.sound |
| `Ra.Props.C68_fixed_exact` | propext, Classical.choice, Quot.sound |
| `Ra.Props.C68_ravel_exact` | propext, Classical.choice, Quot.sound |
| `Ra.Props.C68_prefix` | propext, Classical.choice, Quot.sound |
| `Ra.Props.C68_nodes` | propext |
| `Ra.Props.C69_partial` | propext, Classical.choice, Quot.sound |
| `Ra.Props.C69_too_many_arrays` | propext, Quot.sound |
| `Ra.Props.C69_negation` | propext, Quot.sound |
| `Ra.Props.C69_limit` | propext, Classical.choice, Quot.sound |
| `Ra.Props.C70_index` | propext, Classical.choice, Quot.sound |
| `Ra.Props.C70_map` | propext, Classical.choice, Quot.sound |
| `Ra.Props.C70_for_each` | propext, Classical.choice, Quot.sound |
| `Ra.Props.C70_select` | propext, Classical.choice, Quot.sound |
| `Ra.Props.C71_error` | propext, Classical.choice, Quot.sound |
| `Ra.Props.C71_rel_partial` | propext, Classical.choice, Quot.sound |
| `Ra.Props.C71_abs_partial` | propext, Classical.choice, Quot.sound |
| `Ra.Props.C71_nan` | propext, Classical.choice, Quot.sound |
| `Ra.Props.C71_empty` | propext, Classical.choice, Quot.sound |
| `Ra.Props.C72_partial` | propext, Classical.choice, Quot.sound |
| `Ra.Props.C72_array_partial` | propext, Classical.choice, Quot.sound |
| `Ra.Props.C72_negation` | propext |
| `Ra.Props.C72_empty_negation` | propext |
| `Ra.Props.C73_partial` | propext, Classical.choice, Quot.sound |
| `Ra.Props.C73_array_partial` | propext, Classical.choice, Quot.sound |
| `Ra.Props.C73_assign_partial` | propext, Classical.choice, Quot.sound |
| `Ra.Props.C73_negation` | propext, Classical.choice, Quot.sound |
| `Ra.Props.C74_shape` | propext, Classical.choice, Quot.sound |
| `Ra.Props.C74_check` | propext, Classical.choice, Quot.sound |
| `Ra.Props.C74_assoc` | propext, Classical.choice, Quot.sound |
| `Ra.Props.C75_values` | propext, Classical.choice, Quot.sound |
| `Ra.Props.C75_fails` | propext, Classical.choice, Quot.sound |
| `Ra.Props.C75_elementwise` | propext, Classical.choice, Quot.sound |
| `Ra.Props.C76_view` | propext, Classical.choice, Quot.sound |
| `Ra.Props.C76_container` | propext, Classical.choice, Quot.sound |
| `Ra.Props.C76_back` | propext, Classical.choice, Quot.sound |
| `Ra.Props.C76_as` | propext, Classical.choice, Quot.sound |
| `Ra.Props.C76_borrow` | propext, Quot.sound |
| `Ra.Props.C76_borrow_partial` | propext, Classical.choice, Quot.sound |
| `Ra.Props.C76_borrow_rank1` | propext, Quot.sound |
| `Ra.Props.C76_borrow_negation` | propext, Quot.sound |
| `Ra.Props.C76_back_negation` | propext |
| `Ra.Props.C77_values_partial` | propext, Classical.choice, Quot.sound |
| `Ra.Props.C77_assign_partial` | propext, Classical.choice, Quot.sound |
| `Ra.Props.C77_same_partial` | propext, Classical.choice, Quot.sound |
| `Ra.Props.C77_negation` | propext |
| `Ra.Props.C77_align_negation` | propext, Classical.choice, Quot.sound |
| `Ra.Props.C78_views` | propext, Classical.choice, Quot.sound |
| `Ra.Props.C79_values` | propext, Classical.choice, Quot.sound |
| `Ra.Props.C79_runs` | propext, Classical.choice, Quot.sound |
| `Ra.Props.C79_defined` | propext, Classical.choice, Quot.sound |
| `Ra.Props.C79_fails` | propext, Classical.choice, Quot.sound |
| `Ra.Props.C79_elementwise` | propext, Classical.choice, Quot.sound |
| `Ra.Props.C79_unique` | propext, Quot.sound |
| `Ra.Props.C80_sharing` | propext, Classical.choice, Quot.sound |
| `Ra.Props.C80_no_leak` | propext, Classical.choice, Quot.sound |
| `Ra.Props.C80_set` | propext, Classical.choice, Quot.sound |
| `Ra.Props.C80_alias` | propext, Classical.choice, Quot.sound |
| `Ra.Props.C81_partial` | propext, Classical.choice, Quot.sound |
| `Ra.Props.C81_copy` | propext |
| `Ra.Props.C81_negation` | propext |
| `Ra.Props.C81_full_partial` | propext, Classical.choice, Quot.sound |
| `Ra.Props.C81_full_unique` | propext, Quot.sound |
| `Ra.Props.C81_views_partial` | propext, Classical.choice, Quot.sound |
| `Ra.Props.C82_products` | propext, Classical.choice, Quot.sound |
| `Ra.Props.C82_norms` | propext, Classical.choice, Quot.sound |
| `Ra.Props.C82_real` | propext, Classical.choice, Quot.sound |
| `Ra.Props.C82_arg_partial` | propext, Classical.choice, Quot.sound |
| `Ra.Props.C82_arg_negation` | propext, Classical.choice, Quot.sound |
| `Ra.Props.C82_rel_error` | propext, Classical.choice, Quot.sound |
| `Ra.Props.C82_classify` | propext, Quot.sound |
| `Ra.Props.C82_odd` | propext, Quot.sound |
| `Ra.Props.C82_parts_read` | propext, Quot.sound |
| `Ra.Props.C82_parts_assign_real` | propext, Classical.choice, Quot.sound |
| `Ra.Props.C82_parts_assign_imag` | propext, Classical.choice, Quot.sound |
| `Ra.Props.C83_cat` | propext, Classical.choice, Quot.sound |
| `Ra.Props.C84_schedule` | propext, Quot.sound |
| `Ra.Props.C84_calls` | propext, Quot.sound |
| `Ra.Props.C84_partial` | propext, Classical.choice, Quot.sound |
| `Ra.Props.C84_mad_negation` | propext, Classical.choice, Quot.sound |
| `Ra.Props.C84_one_negation` | propext, Quot.sound |
| `Ra.Props.C84_lapse` | propext, Quot.sound |
| `Ra.Props.C84_lapse_negation` | propext, Quot.sound |
| `Ra.Props.C84_options` | propext, Quot.sound |
| `Ra.Props.C85_range` | propext, Classical.choice, Quot.sound |
| `Ra.Props.C85_builtin` | propext, Classical.choice, Quot.sound |
| `Ra.Props.C85_shape` | propext, Quot.sound |
| `Ra.Props.C85_ptr` | propext |
| `Ra.Props.C85_unbounded` | propext |
| `Ra.Props.C85_limits` | propext, Classical.choice, Quot.sound |
| `Ra.Props.C85_assign` | propext, Classical.choice, Quot.sound |
| `Ra.Props.C86_exclusive` | propext, Quot.sound |
| `Ra.Props.C86_chosen` | propext, Classical.choice, Quot.sound |
| `Ra.Props.C86_order` | propext, Quot.sound |
| `Ra.Props.C86_where` | propext, Quot.sound |
| `Ra.Props.C86_foreign` | propext, Quot.sound |
| `Ra.Props.C86_type` | propext, Classical.choice, Quot.sound |
| `Ra.Props.C86_mixed` | propext, Quot.sound |
| `Ra.Props.C86_value` | propext, Classical.choice, Quot.sound |
| `Ra.Props.C86_scalar` | propext, Classical.choice, Quot.sound |
| `Ra.Props.C87_values` | propext, Classical.choice, Quot.sound |
| `Ra.Props.C87_runs` | propext, Classical.choice, Quot.sound |
| `Ra.Props.C87_later` | propext, Classical.choice, Quot.sound |
| `Ra.Props.C87_now` | propext, Classical.choice, Quot.sound |
| `Ra.Props.C87_dangling` | propext, Classical.choice, Quot.sound |
| `Ra.Props.C88_types` | propext |
| `Ra.Props.C88_moves` | propext, Classical.choice, Quot.sound |
| `Ra.Props.C88_scalar` | propext, Classical.choice, Quot.sound |
| `Ra.Props.C88_iotas` | propext, Classical.choice, Quot.sound |
| `Ra.Props.C88_traversal` | propext, Classical.choice, Quot.sound |
| `Ra.Props.C88_traversal_negation` | propext, Classical.choice, Quot.sound |
| `Ra.Props.C88_wrapped` | propext, Classical.choice, Quot.sound |
| `Ra.Props.C88_wrapped_negation` | propext |
| `Ra.Props.C88_values` | propext, Classical.choice, Quot.sound |
| `Ra.Props.C89_agree_op` | propext, Classical.choice, Quot.sound |
| `Ra.Props.C89_map` | propext, Classical.choice, Quot.sound |
| `Ra.Props.C90_gather` | propext, Classical.choice, Quot.sound |
| `Ra.Props.C90_scatter` | propext, Classical.choice, Quot.sound |
| `Ra.Props.C90_update` | propext, Classical.choice, Quot.sound |
| `Ra.Props.C91_dual` | propext, Quot.sound |
| `Ra.Props.C91_text_partial` | propext, Classical.choice, Quot.sound |
| `Ra.Props.C91_end` | propext, Quot.sound |
| `Ra.Props.C91_as_C50` | propext, Quot.sound |
| `Ra.Props.C91_arrays` | propext, Classical.choice, Quot.sound |
| `Ra.Props.C91_short_array` | propext, Classical.choice, Quot.sound |
| `Ra.Props.C91_text_negation` | propext, Quot.sound |
| `Ra.Props.C92_defined` | propext, Classical.choice, Quot.sound |
| `Ra.Props.C92_values` | propext, Classical.choice, Quot.sound |
| `Ra.Props.C92_runs` | propext, Classical.choice, Quot.sound |
| `Ra.Props.C92_either` | propext, Classical.choice, Quot.sound |
| `Ra.Props.C92_fails` | propext, Classical.choice, Quot.sound |
| `Ra.Props.C92_make` | propext, Classical.choice, Quot.sound |
| `Ra.Props.C92_make_fails` | propext, Classical.choice, Quot.sound |
| `Ra.Props.C92_unique` | propext, Quot.sound |
| `Ra.Props.C92_elementwise` | propext, Classical.choice, Quot.sound |
| `Ra.Props.C93_hodgex_partial` | propext, Classical.choice, Quot.sound |
| `Ra.Props.C93_array` | propext, Classical.choice, Quot.sound |
| `Ra.Props.C93_wedge` | propext, Classical.choice, Quot.sound |
| `Ra.Props.C93_star_unique` | propext, Classical.choice, Quot.sound |
| `Ra.Props.C93_view_partial` | propext, Classical.choice, Quot.sound |
| `Ra.Props.C93_view_negation` | propext, Classical.choice, Quot.sound |
| `Ra.Props.C93_cast_negation` | propext, Classical.choice, Quot.sound |
| `Ra.Props.C94_append` | propext |
| `Ra.Props.C94_cons` | propext |
| `Ra.Props.C94_iota` | propext, Classical.choice, Quot.sound |
| `Ra.Props.C94_makelist` | propext, Quot.sound |
| `Ra.Props.C94_drop` | propext, Quot.sound |
| `Ra.Props.C94_take` | propext, Quot.sound |
| `Ra.Props.C94_ref` | propext, Quot.sound |
| `Ra.Props.C94_ref_path` | propext, Quot.sound |
| `Ra.Props.C94_get` | propext, Quot.sound |
| `Ra.Props.C94_indexif` | propext, Quot.sound |
| `Ra.Props.C94_index` | propext, Quot.sound |
| `Ra.Props.C94_apply` | propext |
| `Ra.Props.C94_tuple` | propext |
| `Ra.Props.C94_map` | propext, Classical.choice, Quot.sound |
| `Ra.Props.C94_map_one` | propext, Classical.choice, Quot.sound |
| `Ra.Props.C94_reverse` | propext |
| `Ra.Props.C94_filter` | propext, Quot.sound |
| `Ra.Props.C95_at_view` | propext, Classical.choice, Quot.sound |
| `Ra.Props.C95_cells` | propext, Classical.choice, Quot.sound |
| `Ra.Props.C95_all` | propext, Classical.choice, Quot.sound |
| `Ra.Props.C95_reverse` | propext, Classical.choice, Quot.sound |
| `Ra.Props.C95_outer` | propext, Classical.choice, Quot.sound |
| `Ra.Props.C95_repeats` | propext, Classical.choice, Quot.sound |
| `Ra.Props.C95_map_view` | propext, Classical.choice, Quot.sound |
| `Ra.Props.C95_sparse` | propext, Classical.choice, Quot.sound |
| `Ra.Props.C95_scalar` | propext, Classical.choice, Quot.sound |
| `Ra.Props.C95_gemm` | propext, Classical.choice, Quot.sound |
| `Ra.Props.C95_rows_verb` | propext, Classical.choice, Quot.sound |
| `Ra.Props.C95_rows_cells` | propext, Classical.choice, Quot.sound |
| `Ra.Props.C95_rows` | propext, Classical.choice, Quot.sound |
| `Ra.Props.C95_rows_transpose` | propext, Classical.choice, Quot.sound |
| `Ra.Props.C95_diagonals` | propext, Classical.choice, Quot.sound |
| `Ra.Props.C96_program` | propext, Classical.choice, Quot.sound |
| `Ra.Props.C96_views` | propext, Quot.sound |
| `Ra.Props.C96_cells` | propext |
| `Ra.Props.C96_shape` | propext, Quot.sound |
| `Ra.Props.C96_dims` | propext |
| `Ra.Props.C96_traversal` | propext |
| `Ra.Props.C96_range` | propext |
| `Ra.Props.C96_scalar` | propext |
| `Ra.Props.C96_list` | propext |
| `Ra.Props.C96_silent` | propext, Quot.sound |
| `Ra.Props.C97_compiles` | propext, Classical.choice, Quot.sound |
| `Ra.Props.C97_bindings` | propext, Classical.choice, Quot.sound |
| `Ra.Props.C97_vector` | propext, Classical.choice, Quot.sound |
| `Ra.Props.C98_views` | propext, Classical.choice, Quot.sound |
| `Ra.Props.C98_safe_partial` | propext, Classical.choice, Quot.sound |
| `Ra.Props.C98_caught_partial` | propext, Classical.choice, Quot.sound |
| `Ra.Props.C98_negation` | propext, Quot.sound |
| `Ra.Props.C98_ops` | propext, Classical.choice, Quot.sound |
| `Ra.Props.C98_inside_partial` | propext, Classical.choice, Quot.sound |
| `Ra.Props.C98_inside_caught_partial` | propext, Classical.choice, Quot.sound |
| `Ra.Props.C99_nested` | propext, Classical.choice, Quot.sound |
| `Ra.Props.C99_sequence` | propext, Classical.choice, Quot.sound |
| `Ra.Props.C99_print` | propext |
| `Ra.Props.C99_apart` | propext, Quot.sound |
