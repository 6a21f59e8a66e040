# Axioms per theorem

Generated by `tools/axioms.py`.

| theorem | axioms |
|---|---|
| `C01_background` | propext, Classical.choice, Quot.sound |
| `C01_clusters` | propext, Classical.choice, Quot.sound |
| `C02_connected` | propext, Classical.choice, Quot.sound |
| `C03_clusters` | propext, Classical.choice, Quot.sound |
| `C03_pattern` | propext, Classical.choice, Quot.sound |
| `C04_partition` | propext, Classical.choice, Quot.sound |
| `C04_equal_after_prune` | propext, Classical.choice, Quot.sound |
| `C05_age` | propext, Classical.choice, Quot.sound |
| `C06_stable` | propext, Classical.choice, Quot.sound |
| `C07_prune` | propext, Classical.choice, Quot.sound |
| `C07_prune_idempotent` | propext, Classical.choice, Quot.sound |
| `C08_reset` | propext, Classical.choice, Quot.sound |
| `C09_safe` | propext, Classical.choice, Quot.sound |
| `C10_add_sequence` | propext, Classical.choice, Quot.sound |
| `C100_cauchy_schwarz` | propext, Classical.choice, Quot.sound |
| `C100_monotone` | propext, Classical.choice, Quot.sound |
| `C100_triangle` | propext, Classical.choice, Quot.sound |
| `C100_complement` | propext, Classical.choice, Quot.sound |
| `C100_heightheight` | propext, Classical.choice, Quot.sound |
| `C101_center` | propext, Classical.choice, Quot.sound |
| `C101_center_of_mass` | propext, Classical.choice, Quot.sound |
| `C101_error` | propext, Classical.choice, Quot.sound |
| `C101_mass_error` | propext, Classical.choice, Quot.sound |
| `C101_between` | propext, Classical.choice, Quot.sound |
| `C101_labels` | propext, Classical.choice, Quot.sound |
| `C101_labels_mass` | propext, Classical.choice, Quot.sound |
| `C101_periodic` | propext, Classical.choice, Quot.sound |
| `C101_periodic_exceeds` | propext, Classical.choice, Quot.sound |
| `C101_real` | propext, Classical.choice, Quot.sound |
| `C102_map` | propext, Classical.choice, Quot.sound |
| `C102_sizes` | propext, Classical.choice, Quot.sound |
| `C102_balance` | propext, Classical.choice, Quot.sound |
| `C102_balance_mass` | propext, Classical.choice, Quot.sound |
| `C102_balance_names` | propext, Classical.choice, Quot.sound |
| `C102_dilate` | propext, Classical.choice, Quot.sound |
| `C103_equivalent` | propext, Classical.choice, Quot.sound |
| `C103_equivalent_mass` | propext, Classical.choice, Quot.sound |
| `C103_fraction_violated` | propext, Classical.choice, Quot.sound |
| `C103_path_partial` | propext, Classical.choice, Quot.sound |
| `C103_line_partial` | propext, Classical.choice, Quot.sound |
| `C103_double_partial` | propext, Classical.choice, Quot.sound |
| `C103_path_rejected` | propext, Classical.choice, Quot.sound |
| `C103_circles_partial` | propext, Classical.choice, Quot.sound |
| `C103_violated` | propext, Classical.choice, Quot.sound |
| `C104_S2` | propext, Classical.choice, Quot.sound |
| `C104_C2` | propext, Classical.choice, Quot.sound |
| `C104_heightheight` | propext, Classical.choice, Quot.sound |
| `C105_whole` | propext, Classical.choice, Quot.sound |
| `C105_partial` | propext, Classical.choice, Quot.sound |
| `C105_value` | propext, Classical.choice, Quot.sound |
| `C105_violated` | propext, Quot.sound |
| `C106_near` | propext, Classical.choice, Quot.sound |
| `C106_iff` | propext, Classical.choice, Quot.sound |
| `C106_partial` | propext, Classical.choice, Quot.sound |
| `C106_turn` | propext, Classical.choice, Quot.sound |
| `C106_violated` | propext, Classical.choice, Quot.sound |
| `C107_actual_in_full` | propext, Classical.choice, Quot.sound |
| `C107_double` | propext, Classical.choice, Quot.sound |
| `C107_equal` | propext, Classical.choice, Quot.sound |
| `C107_equal_double` | propext, Classical.choice, Quot.sound |
| `C107_bresenham_crossed` | propext, Classical.choice, Quot.sound |
| `C107_bresenham_stays` | propext, Classical.choice, Quot.sound |
| `C107_nested_partial` | propext, Classical.choice, Quot.sound |
| `C107_plane_partial` | propext, Classical.choice, Quot.sound |
| `C107_long_violated` | propext, Classical.choice, Quot.sound |
| `C108_data` | propext, Classical.choice, Quot.sound |
| `C108_result` | propext, Classical.choice, Quot.sound |
| `C108_variance` | propext, Classical.choice, Quot.sound |
| `C108_mean` | propext, Classical.choice, Quot.sound |
| `C108_heightheight` | propext, Classical.choice, Quot.sound |
| `C108_distance` | propext, Classical.choice, Quot.sound |
| `C108_center` | propext, Classical.choice, Quot.sound |
| `C108_center_of_mass` | propext, Classical.choice, Quot.sound |
| `C108_labels` | propext, Classical.choice, Quot.sound |
| `C108_labels_mass` | propext, Classical.choice, Quot.sound |
| `C109_rename_partial` | propext, Classical.choice, Quot.sound |
| `C109_rename_violated` | none |
| `C109_prune` | propext, Classical.choice, Quot.sound |
| `C109_prune_nonneg` | propext, Classical.choice, Quot.sound |
| `C109_prune_violated` | propext, Quot.sound |
| `C109_reorder_partial` | propext, Classical.choice, Quot.sound |
| `C109_reorder_violated` | none |
| `C109_sizes_partial` | propext, Classical.choice, Quot.sound |
| `C109_sizes_modulo` | propext, Quot.sound |
| `C109_sizes_overflow` | propext, Classical.choice, Quot.sound |
| `C109_sizes_violated` | propext, Quot.sound |
| `C109_names_partial` | propext, Classical.choice, Quot.sound |
| `C109_names_violated` | none |
| `C11_events` | propext, Classical.choice, Quot.sound |
| `C11_events_general` | propext, Classical.choice, Quot.sound |
| `C11_repeated` | propext |
| `C110_decided` | propext, Classical.choice, Quot.sound |
| `C110_same_partial` | propext, Classical.choice, Quot.sound |
| `C110_small` | propext, Classical.choice, Quot.sound |
| `C110_overflow` | propext, Classical.choice, Quot.sound |
| `C110_violated` | propext, Classical.choice, Quot.sound |
| `C111_labelled` | propext, Classical.choice, Quot.sound |
| `C111_joined` | propext, Classical.choice, Quot.sound |
| `C111_bounds` | propext, Classical.choice, Quot.sound |
| `C111_two` | propext, Classical.choice, Quot.sound |
| `C111_configuration` | propext, Classical.choice, Quot.sound |
| `C112_ends` | propext, Classical.choice, Quot.sound |
| `C112_endless` | propext, Classical.choice, Quot.sound |
| `C112_origin` | propext, Classical.choice, Quot.sound |
| `C112_ends_double` | propext, Classical.choice, Quot.sound |
| `C112_endless_double` | propext, Classical.choice, Quot.sound |
| `C113_labelled` | propext, Classical.choice, Quot.sound |
| `C113_joined` | propext, Classical.choice, Quot.sound |
| `C113_two` | propext, Classical.choice, Quot.sound |
| `C113_configuration` | propext, Classical.choice, Quot.sound |
| `C114_age` | propext, Classical.choice, Quot.sound |
| `C114_prune` | propext, Classical.choice, Quot.sound |
| `C114_prune_idempotent` | propext, Classical.choice, Quot.sound |
| `C114_equal_after_prune` | propext, Classical.choice, Quot.sound |
| `C114_stable` | propext, Classical.choice, Quot.sound |
| `C114_reset` | propext, Classical.choice, Quot.sound |
| `C114_add_sequence` | propext, Classical.choice, Quot.sound |
| `C114_events` | propext, Classical.choice, Quot.sound |
| `C115_labels` | propext, Classical.choice, Quot.sound |
| `C115_continued` | propext, Classical.choice, Quot.sound |
| `C115_added` | propext, Classical.choice, Quot.sound |
| `C115_again` | propext, Classical.choice, Quot.sound |
| `C116_corner_partial` | propext, Classical.choice, Quot.sound |
| `C116_farthest_partial` | propext, Classical.choice, Quot.sound |
| `C116_violated` | propext, Classical.choice, Quot.sound |
| `C117_line` | propext, Classical.choice, Quot.sound |
| `C117_regions` | propext, Classical.choice, Quot.sound |
| `C118_names` | propext, Classical.choice, Quot.sound |
| `C118_centres` | propext, Classical.choice, Quot.sound |
| `C118_masked` | propext, Classical.choice, Quot.sound |
| `C118_linear` | propext, Classical.choice, Quot.sound |
| `C118_between` | propext, Classical.choice, Quot.sound |
| `C119_one` | propext, Classical.choice, Quot.sound |
| `C119_sign_partial` | propext, Classical.choice, Quot.sound |
| `C119_throws_iff` | propext, Classical.choice, Quot.sound |
| `C119_ub_iff` | propext, Classical.choice, Quot.sound |
| `C119_violated` | propext, Quot.sound |
| `C12_inside_partial` | propext, Classical.choice, Quot.sound |
| `C12_violated` | propext, Quot.sound |
| `C12_iff` | propext, Classical.choice, Quot.sound |
| `C12_line` | propext, Classical.choice, Quot.sound |
| `C12_code` | propext, Classical.choice, Quot.sound |
| `C120_version` | propext, Quot.sound |
| `C121_partial` | propext, Classical.choice, Quot.sound |
| `C121_violated` | propext, Classical.choice, Quot.sound |
| `C122_axis` | propext, Classical.choice, Quot.sound |
| `C122_axis_h` | propext, Classical.choice, Quot.sound |
| `C122_distance` | propext, Classical.choice, Quot.sound |
| `C122_distance_h` | propext, Classical.choice, Quot.sound |
| `C123_same` | propext, Classical.choice, Quot.sound |
| `C123_ends` | propext, Classical.choice, Quot.sound |
| `C123_ends_double` | propext, Classical.choice, Quot.sound |
| `C123_right` | propext, Classical.choice, Quot.sound |
| `C123_endless` | propext, Classical.choice, Quot.sound |
| `C123_double` | propext, Classical.choice, Quot.sound |
| `C124_named` | propext, Classical.choice, Quot.sound |
| `C124_positional_partial` | propext, Classical.choice, Quot.sound |
| `C124_misread` | propext, Classical.choice, Quot.sound |
| `C124_ignored` | propext, Classical.choice, Quot.sound |
| `C124_violated` | propext, Classical.choice, Quot.sound |
| `C125_L` | propext, Classical.choice, Quot.sound |
| `C125_W2c` | propext, Classical.choice, Quot.sound |
| `C125_double` | propext, Classical.choice, Quot.sound |
| `C125_history` | propext, Classical.choice, Quot.sound |
| `C126_axis` | propext, Classical.choice, Quot.sound |
| `C126_axes` | propext, Classical.choice, Quot.sound |
| `C126_used` | propext, Classical.choice, Quot.sound |
| `C126_half` | propext, Quot.sound |
| `C126_pad` | propext, Classical.choice, Quot.sound |
| `C127_exact` | propext, Classical.choice, Quot.sound |
| `C127_iff` | propext, Classical.choice, Quot.sound |
| `C127_violated` | propext, Classical.choice, Quot.sound |
| `C128_partial` | propext, Classical.choice, Quot.sound |
| `C128_double_partial` | propext, Classical.choice, Quot.sound |
| `C128_iff` | propext, Classical.choice, Quot.sound |
| `C128_violated` | propext, Classical.choice, Quot.sound |
| `C129_gap` | propext, Classical.choice, Quot.sound |
| `C129_distance` | propext, Classical.choice, Quot.sound |
| `C129_default` | propext, Classical.choice, Quot.sound |
| `C13_modulo_partial` | propext, Classical.choice, Quot.sound |
| `C13_config_3d` | propext, Quot.sound |
| `C13_violated` | propext |
| `C13_reaches` | propext, Classical.choice, Quot.sound |
| `C13_iff` | propext, Classical.choice, Quot.sound |
| `C13_clusters` | propext, Classical.choice, Quot.sound |
| `C130_clusters` | propext, Classical.choice, Quot.sound |
| `C131_S2` | propext, Classical.choice, Quot.sound |
| `C131_C2` | propext, Classical.choice, Quot.sound |
| `C131_heightheight` | propext, Classical.choice, Quot.sound |
| `C131_W2` | propext, Classical.choice, Quot.sound |
| `C131_mean` | propext, Classical.choice, Quot.sound |
| `C132_dilate` | propext, Classical.choice, Quot.sound |
| `C132_default` | propext, Classical.choice, Quot.sound |
| `C132_support` | propext, Classical.choice, Quot.sound |
| `C132_support_default` | propext, Classical.choice, Quot.sound |
| `C133_centers` | propext, Classical.choice, Quot.sound |
| `C133_mass` | propext, Classical.choice, Quot.sound |
| `C134_distance` | propext, Classical.choice, Quot.sound |
| `C134_others` | propext, Classical.choice, Quot.sound |
| `C134_method` | propext, Classical.choice, Quot.sound |
| `C135_refused` | propext, Classical.choice, Quot.sound |
| `C135_rest` | propext, Quot.sound |
| `C136_dilate` | propext, Classical.choice, Quot.sound |
| `C136_clusters` | propext, Classical.choice, Quot.sound |
| `C136_labeller` | propext, Classical.choice, Quot.sound |
| `C137_structure` | propext, Classical.choice, Quot.sound |
| `C137_structure2` | propext, Classical.choice, Quot.sound |
| `C138_S2` | propext, Classical.choice, Quot.sound |
| `C138_C2` | propext, Classical.choice, Quot.sound |
| `C138_W2` | propext, Classical.choice, Quot.sound |
| `C138_heightheight` | propext, Classical.choice, Quot.sound |
| `C138_history` | propext, Classical.choice, Quot.sound |
| `C139_C2` | propext, Classical.choice, Quot.sound |
| `C139_S2` | propext, Classical.choice, Quot.sound |
| `C139_one` | propext, Classical.choice, Quot.sound |
| `C14_default_partial` | propext |
| `C14_default_configuration` | propext, Classical.choice, Quot.sound |
| `C14_violated` | propext |
| `C140_mean` | propext, Classical.choice, Quot.sound |
| `C140_again` | propext, Classical.choice, Quot.sound |
| `C15_offsets` | propext, Classical.choice, Quot.sound |
| `C15_symmetric` | propext, Classical.choice, Quot.sound |
| `C15_symmetric_adj` | propext, Classical.choice, Quot.sound |
| `C15_configuration` | propext, Classical.choice, Quot.sound |
| `C15_even_throws` | propext, Quot.sound |
| `C15_centre_throws` | propext, Classical.choice, Quot.sound |
| `C16_general` | propext, Classical.choice, Quot.sound |
| `C16_asymmetric` | propext |
| `C17_labels_map` | propext, Classical.choice, Quot.sound |
| `C17_labels_map_short` | propext, Classical.choice, Quot.sound |
| `C17_rename_map` | propext, Classical.choice, Quot.sound |
| `C18_labels_rename` | propext, Classical.choice, Quot.sound |
| `C18_labels_rename_throws` | propext, Classical.choice, Quot.sound |
| `C18_labels_rename_release` | propext, Classical.choice, Quot.sound |
| `C19_labels_prune` | propext, Classical.choice, Quot.sound |
| `C19_labels_prune_spec` | propext, Classical.choice, Quot.sound |
| `C19_labels_prune_idempotent` | propext, Classical.choice, Quot.sound |
| `C20_labels_reorder` | propext, Classical.choice, Quot.sound |
| `C20_labels_reorder_last` | propext, Classical.choice, Quot.sound |
| `C20_labels_reorder_throws` | propext, Classical.choice, Quot.sound |
| `C20_labels_reorder_duplicate` | none |
| `C21_labels_sizes` | propext, Classical.choice, Quot.sound |
| `C21_labels_sizes_total` | propext, Quot.sound |
| `C21_labels_sizes_names` | propext, Classical.choice, Quot.sound |
| `C22_keep` | propext, Classical.choice, Quot.sound |
| `C24_nearest` | propext, Classical.choice, Quot.sound |
| `C23_reach` | propext, Classical.choice, Quot.sound |
| `C23_least` | propext, Classical.choice, Quot.sound |
| `C23_same` | propext, Classical.choice, Quot.sound |
| `C23_nearest` | propext, Classical.choice, Quot.sound |
| `C24_own` | propext, Classical.choice, Quot.sound |
| `C24_zero` | propext, Classical.choice, Quot.sound |
| `C24_alone` | propext, Classical.choice, Quot.sound |
| `C24_alone_piece` | propext, Classical.choice, Quot.sound |
| `C24_all_alone` | propext, Classical.choice, Quot.sound |
| `C25_partial` | propext, Classical.choice, Quot.sound |
| `C25_throws` | propext, Classical.choice, Quot.sound |
| `C25_throws_iff` | propext, Classical.choice, Quot.sound |
| `C25_ub_iff` | propext, Classical.choice, Quot.sound |
| `C25_returns_iff` | propext, Classical.choice, Quot.sound |
| `C25_violated` | propext, Quot.sound |
| `C26_bresenham` | propext, Classical.choice, Quot.sound |
| `C27_line` | propext, Classical.choice, Quot.sound |
| `C27_unique` | propext, Quot.sound |
| `C27_half` | propext, Classical.choice, Quot.sound |
| `C28_translate` | propext, Classical.choice, Quot.sound |
| `C28_reflect` | propext, Classical.choice, Quot.sound |
| `C28_permute` | propext, Classical.choice, Quot.sound |
| `C29_single_partial` | propext, Classical.choice, Quot.sound |
| `C29_violated` | propext, Classical.choice, Quot.sound |
| `C30_origin_partial` | propext, Classical.choice, Quot.sound |
| `C30_translate_partial` | propext, Classical.choice, Quot.sound |
| `C30_violated` | propext, Classical.choice, Quot.sound |
| `C30_long_violated` | propext, Classical.choice, Quot.sound |
| `C31_full_partial` | propext, Classical.choice, Quot.sound |
| `C31_actual_partial` | propext, Classical.choice, Quot.sound |
| `C31_start_violated` | propext, Classical.choice, Quot.sound |
| `C32_actual_partial` | propext, Classical.choice, Quot.sound |
| `C32_actual_inside_partial` | propext, Classical.choice, Quot.sound |
| `C32_full_partial` | propext, Classical.choice, Quot.sound |
| `C32_long_violated` | propext, Classical.choice, Quot.sound |
| `C33_cover` | propext, Classical.choice, Quot.sound |
| `C33_centre` | propext, Classical.choice, Quot.sound |
| `C33_axis` | propext, Classical.choice, Quot.sound |
| `C33_distance` | propext, Classical.choice, Quot.sound |
| `C33_distance_h` | propext, Classical.choice, Quot.sound |
| `C33_axis_h` | propext, Classical.choice, Quot.sound |
| `C33_rejected` | propext, Quot.sound |
| `C33_axis_decided` | propext, Classical.choice, Quot.sound |
| `C33_h_decided` | propext, Classical.choice, Quot.sound |
| `C33_axis_h_decided` | propext, Classical.choice, Quot.sound |
| `C34_partial` | propext, Classical.choice, Quot.sound |
| `C34_code` | propext, Classical.choice, Quot.sound |
| `C34_unmasked` | propext, Classical.choice, Quot.sound |
| `C34_violated` | propext, Classical.choice, Quot.sound |
| `C35_S2_partial` | propext, Classical.choice, Quot.sound |
| `C35_C2_partial` | propext, Classical.choice, Quot.sound |
| `C35_W2_partial` | propext, Classical.choice, Quot.sound |
| `C35_heightheight_partial` | propext, Classical.choice, Quot.sound |
| `C35_mean` | propext, Classical.choice, Quot.sound |
| `C35_violated` | propext, Classical.choice, Quot.sound |
| `C36_zero` | propext, Classical.choice, Quot.sound |
| `C36_range` | propext, Classical.choice, Quot.sound |
| `C36_max` | propext, Classical.choice, Quot.sound |
| `C36_symmetric` | propext, Classical.choice, Quot.sound |
| `C36_ones` | propext, Classical.choice, Quot.sound |
| `C37_S2` | propext, Classical.choice, Quot.sound |
| `C37_C2` | propext, Classical.choice, Quot.sound |
| `C37_heightheight` | propext, Classical.choice, Quot.sound |
| `C37_W2` | propext, Classical.choice, Quot.sound |
| `C37_L` | propext, Classical.choice, Quot.sound |
| `C37_W2c` | propext, Classical.choice, Quot.sound |
| `C38_partial` | propext, Classical.choice, Quot.sound |
| `C38_code` | propext, Classical.choice, Quot.sound |
| `C38_unmasked` | propext, Classical.choice, Quot.sound |
| `C38_binary` | propext, Classical.choice, Quot.sound |
| `C38_violated` | propext, Classical.choice, Quot.sound |
| `C39_partial` | propext, Classical.choice, Quot.sound |
| `C39_code` | propext, Classical.choice, Quot.sound |
| `C39_unmasked` | propext, Classical.choice, Quot.sound |
| `C39_range` | propext, Classical.choice, Quot.sound |
| `C39_ones` | propext, Classical.choice, Quot.sound |
| `C39_ratio` | propext, Classical.choice, Quot.sound |
| `C39_violated` | propext, Classical.choice, Quot.sound |
| `C39_negative` | propext, Classical.choice, Quot.sound |
| `C40_partial` | propext, Classical.choice, Quot.sound |
| `C40_code` | propext, Classical.choice, Quot.sound |
| `C40_unmasked` | propext, Classical.choice, Quot.sound |
| `C40_zero` | propext, Classical.choice, Quot.sound |
| `C40_symmetric` | propext, Classical.choice, Quot.sound |
| `C40_affine` | propext, Classical.choice, Quot.sound |
| `C40_square` | propext, Classical.choice, Quot.sound |
| `C40_from_S2` | propext, Classical.choice, Quot.sound |
| `C40_violated` | propext, Classical.choice, Quot.sound |
| `C41_mean` | propext, Classical.choice, Quot.sound |
| `C42_order` | propext, Classical.choice, Quot.sound |
| `C42_sums` | propext, Classical.choice, Quot.sound |
| `C43_one_statistic` | propext, Classical.choice, Quot.sound |
| `C43_variance` | propext, Classical.choice, Quot.sound |
| `C43_release` | propext, Classical.choice, Quot.sound |
| `C43_release_data` | propext, Classical.choice, Quot.sound |
| `C43_release_result` | propext, Classical.choice, Quot.sound |
| `C43_release_variance` | propext, Classical.choice, Quot.sound |
| `C44_lineal_path` | propext, Classical.choice, Quot.sound |
| `C44_paths` | propext, Classical.choice, Quot.sound |
| `C45_bounds` | propext, Classical.choice, Quot.sound |
| `C45_both_nonzero` | propext, Classical.choice, Quot.sound |
| `C45_origin_partial` | propext, Classical.choice, Quot.sound |
| `C45_violated` | propext, Classical.choice, Quot.sound |
| `C46_defined` | propext, Classical.choice, Quot.sound |
| `C47_partial` | propext, Classical.choice, Quot.sound |
| `C47_code` | propext, Classical.choice, Quot.sound |
| `C47_unmasked` | propext, Classical.choice, Quot.sound |
| `C47_violated` | propext, Classical.choice, Quot.sound |
| `C48_partial` | propext, Classical.choice, Quot.sound |
| `C48_code` | propext, Classical.choice, Quot.sound |
| `C48_outside` | propext, Classical.choice, Quot.sound |
| `C48_violated` | propext, Classical.choice, Quot.sound |
| `C48_shift_violated` | propext, Classical.choice, Quot.sound |
| `C49_mean` | propext, Classical.choice, Quot.sound |
| `C49_perm` | propext, Classical.choice, Quot.sound |
| `C49_shift` | propext, Classical.choice, Quot.sound |
| `C49_empty` | propext, Classical.choice, Quot.sound |
| `C50_range` | propext, Classical.choice, Quot.sound |
| `C50_mean` | propext, Classical.choice, Quot.sound |
| `C50_shift` | propext, Classical.choice, Quot.sound |
| `C50_wrap` | propext, Classical.choice, Quot.sound |
| `C50_single` | propext, Classical.choice, Quot.sound |
| `C50_perm` | propext, Classical.choice, Quot.sound |
| `C50_cancel` | propext, Classical.choice, Quot.sound |
| `C51_flat` | propext, Classical.choice, Quot.sound |
| `C51_mean` | propext, Classical.choice, Quot.sound |
| `C51_equal` | propext, Classical.choice, Quot.sound |
| `C51_scale` | propext, Classical.choice, Quot.sound |
| `C51_zero` | propext, Classical.choice, Quot.sound |
| `C51_merge` | propext, Classical.choice, Quot.sound |
| `C51_perm` | propext, Classical.choice, Quot.sound |
| `C51_shift` | propext, Classical.choice, Quot.sound |
| `C52_centers` | propext, Classical.choice, Quot.sound |
| `C52_mass` | propext, Classical.choice, Quot.sound |
| `C52_enumerates` | propext, Classical.choice, Quot.sound |
| `C52_independent` | propext, Classical.choice, Quot.sound |
| `C52_mass_independent` | propext, Classical.choice, Quot.sound |
| `C53_pixels` | propext, Classical.choice, Quot.sound |
| `C53_disc` | propext, Classical.choice, Quot.sound |
| `C53_throws` | propext, Quot.sound |
| `C53_double` | propext, Classical.choice, Quot.sound |
| `C53_throws_iff` | propext, Quot.sound |
| `C53_returns_iff` | propext, Classical.choice, Quot.sound |
| `C54_shift` | propext, Classical.choice, Quot.sound |
| `C54_more` | propext, Classical.choice, Quot.sound |
| `C54_order` | propext, Classical.choice, Quot.sound |
| `C54_clipped` | propext, Classical.choice, Quot.sound |
| `C55_1d` | propext, Classical.choice, Quot.sound |
| `C55_second` | propext, Classical.choice, Quot.sound |
| `C55_2d_partial` | propext, Classical.choice, Quot.sound |
| `C55_2d_second_partial` | propext, Classical.choice, Quot.sound |
| `C55_code` | propext, Classical.choice, Quot.sound |
| `C55_parity` | propext, Classical.choice, Quot.sound |
| `C55_violated` | propext, Classical.choice, Quot.sound |
| `C55_junk_violated` | propext, Classical.choice, Quot.sound |
| `C55_integer_violated` | propext, Classical.choice, Quot.sound |
| `C56_crossed_partial` | propext, Classical.choice, Quot.sound |
| `C56_actual_exactly_partial` | propext, Classical.choice, Quot.sound |
| `C56_full_exactly_partial` | propext, Classical.choice, Quot.sound |
| `C56_stay_partial` | propext, Classical.choice, Quot.sound |
| `C56_long_violated` | propext, Classical.choice, Quot.sound |
| `C57_rejected` | propext, Classical.choice, Quot.sound |
| `C57_release` | propext, Classical.choice, Quot.sound |
| `C57_release_any` | propext, Classical.choice, Quot.sound |
| `C58_partial` | propext, Classical.choice, Quot.sound |
| `C58_single_partial` | propext, Classical.choice, Quot.sound |
| `C58_undisputed_partial` | propext, Classical.choice, Quot.sound |
| `C58_violated` | propext, Quot.sound |
| `C59_layers` | propext, Classical.choice, Quot.sound |
| `C59_periodic` | propext, Classical.choice, Quot.sound |
| `C60_rename` | propext, Classical.choice, Quot.sound |
| `C61_arc` | propext, Classical.choice, Quot.sound |
| `C61_mass` | propext, Classical.choice, Quot.sound |
| `C62_partial` | propext, Classical.choice, Quot.sound |
| `C62_near_partial` | propext, Classical.choice, Quot.sound |
| `C62_mass_partial` | propext, Classical.choice, Quot.sound |
| `C62_violated` | propext, Classical.choice, Quot.sound |
| `C63_partial` | propext, Classical.choice, Quot.sound |
| `C63_grid_partial` | propext, Classical.choice, Quot.sound |
| `C63_double_partial` | propext, Classical.choice, Quot.sound |
| `C63_throws_iff` | propext, Classical.choice, Quot.sound |
| `C63_violated` | propext, Classical.choice, Quot.sound |
| `C64_nonneg` | propext, Classical.choice, Quot.sound |
| `C64_symmetric` | propext, Classical.choice, Quot.sound |
| `C64_roll` | propext, Classical.choice, Quot.sound |
| `C64_constant` | propext, Classical.choice, Quot.sound |
| `C64_scale` | propext, Classical.choice, Quot.sound |
| `C64_parseval` | propext, Classical.choice, Quot.sound |
| `C65_qnorm` | propext, Classical.choice, Quot.sound |
| `C65_qnorm2` | propext, Classical.choice, Quot.sound |
| `C66_partial` | propext, Classical.choice, Quot.sound |
| `C66_negative_violated` | propext, Classical.choice, Quot.sound |
| `C66_violated` | propext, Classical.choice, Quot.sound |
| `C67_clusters` | propext, Classical.choice, Quot.sound |
| `C67_L_full` | propext, Classical.choice, Quot.sound |
| `C67_L_any` | propext, Classical.choice, Quot.sound |
| `C67_C2_le_S2` | propext, Classical.choice, Quot.sound |
| `C67_labeller` | propext, Classical.choice, Quot.sound |
| `C67_default_violated` | propext, Classical.choice, Quot.sound |
| `C68_swap_partial` | propext, Classical.choice, Quot.sound |
| `C68_swap_violated` | propext, Classical.choice, Quot.sound |
| `C68_S2_linear_left` | propext, Classical.choice, Quot.sound |
| `C68_S2_linear_right` | propext, Classical.choice, Quot.sound |
| `C68_W2_linear` | propext, Classical.choice, Quot.sound |
| `C68_W2_scale` | propext, Classical.choice, Quot.sound |
| `C68_C2_rename` | propext, Classical.choice, Quot.sound |
| `C69_monotone` | propext, Classical.choice, Quot.sound |
| `C69_pattern` | propext, Classical.choice, Quot.sound |
| `C70_monotone` | propext, Classical.choice, Quot.sound |
| `C70_periodic` | propext, Classical.choice, Quot.sound |
| `C70_count` | propext, Classical.choice, Quot.sound |
| `C71_symmetry` | propext, Classical.choice, Quot.sound |
| `C71_shift` | propext, Classical.choice, Quot.sound |
| `C71_reflect` | propext, Classical.choice, Quot.sound |
| `C71_axes` | propext, Classical.choice, Quot.sound |
| `C71_squeeze` | propext, Classical.choice, Quot.sound |
| `C72_rename_rename` | propext, Classical.choice, Quot.sound |
| `C72_prune_rename` | propext, Classical.choice, Quot.sound |
| `C72_sizes_rename` | propext, Classical.choice, Quot.sound |
| `C72_reorder_undo` | propext, Classical.choice, Quot.sound |
| `C72_prune_reorder` | propext, Classical.choice, Quot.sound |
| `C72_prune_clusters` | propext, Classical.choice, Quot.sound |
| `C73_S2` | propext, Classical.choice, Quot.sound |
| `C73_C2` | propext, Classical.choice, Quot.sound |
| `C73_W2` | propext, Classical.choice, Quot.sound |
| `C73_heightheight` | propext, Classical.choice, Quot.sound |
| `C73_history` | propext, Classical.choice, Quot.sound |
| `C73_mean` | propext, Classical.choice, Quot.sound |
| `C73_error` | propext, Classical.choice, Quot.sound |
| `C73_range` | propext, Classical.choice, Quot.sound |
| `C73_order` | propext, Classical.choice, Quot.sound |
| `C74_error_partial` | propext, Classical.choice, Quot.sound |
| `C74_nonneg_partial` | propext, Classical.choice, Quot.sound |
| `C74_binary` | propext, Classical.choice, Quot.sound |
| `C74_constant` | propext, Classical.choice, Quot.sound |
| `C74_violated` | propext, Classical.choice, Quot.sound |
| `C75_path` | propext, Classical.choice, Quot.sound |
| `C75_geometry` | propext, Classical.choice, Quot.sound |
| `C75_exactly` | propext, Classical.choice, Quot.sound |
| `C75_start` | propext, Classical.choice, Quot.sound |
| `C75_L` | propext, Classical.choice, Quot.sound |
| `C75_W2c` | propext, Classical.choice, Quot.sound |
| `C75_history` | propext, Classical.choice, Quot.sound |
| `C76_path` | propext, Classical.choice, Quot.sound |
| `C76_limit` | propext, Classical.choice, Quot.sound |
| `C77_whole_partial` | propext, Classical.choice, Quot.sound |
| `C77_W2c_whole_partial` | propext, Classical.choice, Quot.sound |
| `C77_float64_partial` | propext, Classical.choice, Quot.sound |
| `C77_W2c_float64_partial` | propext, Classical.choice, Quot.sound |
| `C77_masked` | propext, Classical.choice, Quot.sound |
| `C77_truncated` | propext, Classical.choice, Quot.sound |
| `C77_violated` | propext, Classical.choice, Quot.sound |
| `C78_iterations` | propext, Classical.choice, Quot.sound |
| `C78_image` | propext, Classical.choice, Quot.sound |
| `C78_labels` | propext, Classical.choice, Quot.sound |
| `C78_kernel` | propext, Classical.choice, Quot.sound |
| `C78_periodic` | propext, Classical.choice, Quot.sound |
| `C78_union` | propext, Classical.choice, Quot.sound |
| `C78_shift` | propext, Classical.choice, Quot.sound |
| `C78_reflect` | propext, Classical.choice, Quot.sound |
| `C78_symmetric` | propext, Classical.choice, Quot.sound |
| `C78_distance` | propext, Classical.choice, Quot.sound |
| `C78_fill` | propext, Classical.choice, Quot.sound |
| `C78_exact` | propext, Classical.choice, Quot.sound |
| `C78_axes` | propext, Classical.choice, Quot.sound |
| `C78_shift_labels` | propext, Classical.choice, Quot.sound |
| `C78_reflect_labels` | propext, Classical.choice, Quot.sound |
| `C78_axes_labels` | propext, Classical.choice, Quot.sound |
| `C79_q` | propext, Classical.choice, Quot.sound |
| `C79_distinct` | propext, Classical.choice, Quot.sound |
| `C79_q2` | propext, Classical.choice, Quot.sound |
| `C80_whole_partial` | propext, Classical.choice, Quot.sound |
| `C80_background` | propext, Classical.choice, Quot.sound |
| `C80_rank` | propext, Classical.choice, Quot.sound |
| `C80_violated` | propext, Classical.choice, Quot.sound |
| `C81_refused` | propext, Classical.choice, Quot.sound |
| `C81_ensemble` | propext, Quot.sound |
| `C81_history` | propext, Quot.sound |
| `C81_labeller_refused` | propext, Classical.choice, Quot.sound |
| `C81_labeller` | propext, Quot.sound |
| `C81_labeller_history` | propext, Quot.sound |
| `C81_structure_same` | propext, Classical.choice, Quot.sound |
| `C81_structure_partial` | propext, Classical.choice, Quot.sound |
| `C81_structure_violated` | propext, Classical.choice, Quot.sound |
| `C82_S2` | propext, Classical.choice, Quot.sound |
| `C82_S2Mask` | propext, Classical.choice, Quot.sound |
| `C82_C2` | propext, Classical.choice, Quot.sound |
| `C82_C2Mask` | propext, Classical.choice, Quot.sound |
| `C82_W2` | propext, Classical.choice, Quot.sound |
| `C82_W2Mask` | propext, Classical.choice, Quot.sound |
| `C82_heightheight` | propext, Classical.choice, Quot.sound |
| `C82_heightheightMask` | propext, Classical.choice, Quot.sound |
| `C82_same` | none |
| `C82_reflect` | propext, Classical.choice, Quot.sound |
| `C82_axes` | propext, Classical.choice, Quot.sound |
| `C82_squeeze` | propext, Classical.choice, Quot.sound |
| `C83_S2` | propext, Classical.choice, Quot.sound |
| `C83_C2` | propext, Classical.choice, Quot.sound |
| `C83_W2` | propext, Classical.choice, Quot.sound |
| `C83_heightheight` | propext, Classical.choice, Quot.sound |
| `C83_L` | propext, Classical.choice, Quot.sound |
| `C83_W2c` | propext, Classical.choice, Quot.sound |
| `C84_data` | propext, Classical.choice, Quot.sound |
| `C84_result` | propext, Classical.choice, Quot.sound |
| `C84_variance` | propext, Classical.choice, Quot.sound |
| `C84_count` | propext, Classical.choice, Quot.sound |
| `C84_norm` | propext, Classical.choice, Quot.sound |
| `C85_S2` | propext, Classical.choice, Quot.sound |
| `C85_C2` | propext, Classical.choice, Quot.sound |
| `C85_W2` | propext, Classical.choice, Quot.sound |
| `C85_heightheight` | propext, Classical.choice, Quot.sound |
| `C86_call_partial` | propext, Classical.choice, Quot.sound |
| `C86_history_partial` | propext, Classical.choice, Quot.sound |
| `C86_float64_partial` | propext, Classical.choice, Quot.sound |
| `C86_masked` | propext, Classical.choice, Quot.sound |
| `C86_arity` | propext, Classical.choice, Quot.sound |
| `C86_truncated` | propext, Classical.choice, Quot.sound |
| `C86_violated` | propext, Classical.choice, Quot.sound |
| `C87_reflect` | propext, Classical.choice, Quot.sound |
| `C87_permute_partial` | propext, Classical.choice, Quot.sound |
| `C87_permute_full_partial` | propext, Classical.choice, Quot.sound |
| `C87_L_reflect` | propext, Classical.choice, Quot.sound |
| `C87_L_axes_partial` | propext, Classical.choice, Quot.sound |
| `C87_W2c_reflect` | propext, Classical.choice, Quot.sound |
| `C87_W2c_axes_partial` | propext, Classical.choice, Quot.sound |
| `C87_violated` | propext, Classical.choice, Quot.sound |
| `C88_S2` | propext, Classical.choice, Quot.sound |
| `C88_S2_relative` | propext, Classical.choice, Quot.sound |
| `C88_heightheight` | propext, Classical.choice, Quot.sound |
| `C88_W2` | propext, Classical.choice, Quot.sound |
| `C88_W2c` | propext, Classical.choice, Quot.sound |
| `C88_history` | propext, Classical.choice, Quot.sound |
| `C88_history_W2` | propext, Classical.choice, Quot.sound |
| `C88_history_W2c` | propext, Classical.choice, Quot.sound |
| `C88_mean` | propext, Classical.choice, Quot.sound |
| `C89_reorder_partial` | propext, Classical.choice, Quot.sound |
| `C89_map_partial` | propext |
| `C89_rename` | propext, Classical.choice, Quot.sound |
| `C89_violated` | none |
| `C90_centers` | propext, Classical.choice, Quot.sound |
| `C90_mass` | propext, Classical.choice, Quot.sound |
| `C90_shift` | propext, Classical.choice, Quot.sound |
| `C90_reflect` | propext, Classical.choice, Quot.sound |
| `C90_axes` | propext, Classical.choice, Quot.sound |
| `C90_shift_mass` | propext, Classical.choice, Quot.sound |
| `C90_reflect_mass` | propext, Classical.choice, Quot.sound |
| `C90_axes_mass` | propext, Classical.choice, Quot.sound |
| `C90_clusters` | propext, Classical.choice, Quot.sound |
| `C90_clusters_shift` | propext, Classical.choice, Quot.sound |
| `C91_partial` | propext, Classical.choice, Quot.sound |
| `C91_undisputed_partial` | propext, Classical.choice, Quot.sound |
| `C91_violated` | propext, Classical.choice, Quot.sound |
| `C92_partial` | propext, Classical.choice, Quot.sound |
| `C92_undisputed_partial` | propext, Classical.choice, Quot.sound |
| `C92_violated` | propext, Classical.choice, Quot.sound |
| `C93_axis` | propext, Classical.choice, Quot.sound |
| `C93_decreasing` | propext, Classical.choice, Quot.sound |
| `C94_partial` | propext, Classical.choice, Quot.sound |
| `C94_farthest_partial` | propext, Classical.choice, Quot.sound |
| `C94_corner_actual_partial` | propext, Classical.choice, Quot.sound |
| `C94_violated` | propext, Classical.choice, Quot.sound |
| `C95_session` | propext, Classical.choice, Quot.sound |
| `C95_rejected` | propext, Classical.choice, Quot.sound |
| `C95_kernel` | propext, Classical.choice, Quot.sound |
| `C95_shape_partial` | propext, Classical.choice, Quot.sound |
| `C95_violated` | propext |
| `C96_labels_partial` | propext, Classical.choice, Quot.sound |
| `C96_rename_partial` | propext, Classical.choice, Quot.sound |
| `C96_rejected` | propext, Classical.choice, Quot.sound |
| `C96_violated` | propext, Classical.choice, Quot.sound |
| `C97_image` | propext, Classical.choice, Quot.sound |
| `C97_ensemble` | propext, Classical.choice, Quot.sound |
| `C97_structure` | propext, Classical.choice, Quot.sound |
| `C97_structure2` | propext, Classical.choice, Quot.sound |
| `C98_pixel` | propext, Classical.choice, Quot.sound |
| `C98_total` | propext, Classical.choice, Quot.sound |
| `C98_pixel_any` | propext, Classical.choice, Quot.sound |
| `C98_total_any` | propext, Classical.choice, Quot.sound |
| `C99_dilate` | propext, Classical.choice, Quot.sound |
| `C99_circles` | propext, Classical.choice, Quot.sound |
| `C99_centers` | propext, Classical.choice, Quot.sound |
| `C99_centers_of_mass` | propext, Classical.choice, Quot.sound |
| `C99_statistics` | propext, Classical.choice, Quot.sound |
