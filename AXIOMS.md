# Axioms of the property theorems

Generated by `tools/axioms.py` from `#print axioms`.

## none (3 theorems)

- `Pywt.C34_rbio`
- `Pywt.C69_reader_history_partial`
- `Pywt.C70_level_is_cover`

## propext (8 theorems)

- `Pywt.C06_idwt_none`
- `Pywt.C15_iswt_pairs`
- `Pywt.C23_bad_lists`
- `Pywt.C33_pad_rejects`
- `Pywt.C36_part_substring`
- `Pywt.C37_expand`
- `Pywt.C38_unknown`
- `Pywt.C39_pickle_loses_properties`

## propext, Classical.choice, Quot.sound (559 theorems)

- `Pywt.C01_dwt_is_filtered_extension`
- `Pywt.C02_dwt_periodization_is_circular`
- `Pywt.C03_downsampling_kernel_safe`
- `Pywt.C03_upsampling_full_kernel_safe`
- `Pywt.C03_dwt_never_misbehaves`
- `Pywt.C03_idwt_never_misbehaves`
- `Pywt.C03_swt_never_misbehaves`
- `Pywt.C04_dwt_lengths`
- `Pywt.C05_idwt_dwt`
- `Pywt.C06_idwt_is_synthesis`
- `Pywt.C06_idwt_periodization`
- `Pywt.C07_dwt_natural`
- `Pywt.C07_idwt_natural`
- `Pywt.C07_dwt_linear`
- `Pywt.C07_idwt_linear`
- `Pywt.C07_dwt_complex`
- `Pywt.C08_waverec_wavedec`
- `Pywt.C08_waverec_none`
- `Pywt.C09_wavedec_explicit_level`
- `Pywt.C09_wavedec_lengths`
- `Pywt.C10_downcoef_eq_wavedec`
- `Pywt.C11_upcoef_one_level`
- `Pywt.C11_upcoef_levels`
- `Pywt.C11_upcoef_take`
- `Pywt.C11_upcoef_sum_is_idwt`
- `Pywt.C12_dwt_max_level`
- `Pywt.C12_levels_not_dominated_by_edges`
- `Pywt.C12_default_level_accepted`
- `Pywt.C13_swt_max_level`
- `Pywt.C14_swt_accepts`
- `Pywt.C14_swt_negative`
- `Pywt.C14_swt_values`
- `Pywt.C14_swt_norm_and_default`
- `Pywt.C15_iswt_values`
- `Pywt.C15_iswt_swt`
- `Pywt.C15_iswt_swt_norm`
- `Pywt.C15_iswt_swt_sqrt2`
- `Pywt.C15_start_level_not_inverted`
- `Pywt.C16_swt_shift_equivariant`
- `Pywt.C17_wavedec_energy`
- `Pywt.C17_waverec_energy`
- `Pywt.C17_dwtn_energy`
- `Pywt.C17_dwtn_energy_complex`
- `Pywt.C17_wavedecn_energy`
- `Pywt.C17_idwtn_energy`
- `Pywt.C17_waverecn_energy`
- `Pywt.C17_dwt_energy`
- `Pywt.C17_swt_energy`
- `Pywt.C17_dwt_energy_complex`
- `Pywt.C18_dwtn_subbands`
- `Pywt.C18_dwtn_shape`
- `Pywt.C18_idwtn_dwtn`
- `Pywt.C18_idwtn_missing_is_zero`
- `Pywt.C18_idwtn_values`
- `Pywt.C19_order_of_axes`
- `Pywt.C19_dwt2_layout`
- `Pywt.C19_idwt2_dwt2`
- `Pywt.C20_wavedecn_explicit_level`
- `Pywt.C20_wavedecn_default_level`
- `Pywt.C20_waverecn_wavedecn`
- `Pywt.C20_wavedec2_explicit_level`
- `Pywt.C20_waverec2_wavedec2`
- `Pywt.C20_wavedec2_eq_wavedecn`
- `Pywt.C21_shapes_explicit_level`
- `Pywt.C21_shapes_default_level_partial`
- `Pywt.C21_size`
- `Pywt.C21_dwtn_max_level`
- `Pywt.C21_shapes_default_level_disagree`
- `Pywt.C22_placement`
- `Pywt.C22_tight`
- `Pywt.C22_not_tight`
- `Pywt.C22_edited`
- `Pywt.C22_wavedecn`
- `Pywt.C22_periodization`
- `Pywt.C22_wavedec2`
- `Pywt.C22_wavedec`
- `Pywt.C23_ravel`
- `Pywt.C23_ravel_any_order`
- `Pywt.C23_edited`
- `Pywt.C23_missing_detail`
- `Pywt.C23_wavedecn`
- `Pywt.C23_wavedec2`
- `Pywt.C23_wavedec`
- `Pywt.C24_fswavedecn`
- `Pywt.C24_set_get`
- `Pywt.C24_get_shape`
- `Pywt.C24_bad_key_rejected`
- `Pywt.C24_detail_keys`
- `Pywt.C24_approx`
- `Pywt.C24_fswaverecn`
- `Pywt.C24_set_coeffs`
- `Pywt.C24_fswavedecn_rejects`
- `Pywt.C24_items`
- `Pywt.C24_round_trip`
- `Pywt.C24_fswavedecn_bad_level`
- `Pywt.C24_repeated_axis_undetected`
- `Pywt.C25_mra_dwt`
- `Pywt.C25_mra_dwt_rejects`
- `Pywt.C25_mra_swt`
- `Pywt.C25_mra_swt_rejects`
- `Pywt.C25_mra_swt_sqrt2`
- `Pywt.C25_mran_dwtn`
- `Pywt.C25_mran_dwtn_rejects`
- `Pywt.C25_mra2_dwt2`
- `Pywt.C25_mra2_dwt2_rejects`
- `Pywt.C25_mran_swtn`
- `Pywt.C25_mra2_swt2`
- `Pywt.C25_mra_swt_axis`
- `Pywt.C25_swt_rejects`
- `Pywt.C25_mran_swtn_rejects`
- `Pywt.C25_default_level`
- `Pywt.C25_default_level_fails`
- `Pywt.C25_imran`
- `Pywt.C25_mran_swtn_sqrt2`
- `Pywt.C26_imra_leaves_arrays`
- `Pywt.C26_imran_disturbs`
- `Pywt.C27_hard`
- `Pywt.C27_soft_partial`
- `Pywt.C27_soft_undefined`
- `Pywt.C27_garrote_partial`
- `Pywt.C27_garrote_undefined`
- `Pywt.C27_garrote_real_partial`
- `Pywt.C27_greater`
- `Pywt.C27_less`
- `Pywt.C27_order`
- `Pywt.C28_firm_partial`
- `Pywt.C28_firm_shrinks_partial`
- `Pywt.C28_firm_odd`
- `Pywt.C28_firm_wrong`
- `Pywt.C28_firm_undefined`
- `Pywt.C29_all_words`
- `Pywt.C29_one_letter`
- `Pywt.C30_node_data`
- `Pywt.C30_node_data_2d`
- `Pywt.C30_node_data_nd`
- `Pywt.C30_nd_default_axes`
- `Pywt.C30_assigned_data_lost`
- `Pywt.C31_reconstruct`
- `Pywt.C31_reconstruct_node`
- `Pywt.C31_reconstruct_2d`
- `Pywt.C31_reconstruct_nd_partial`
- `Pywt.C31_reconstruct_nd_fails`
- `Pywt.C32_natural_order`
- `Pywt.C32_natural`
- `Pywt.C32_freq`
- `Pywt.C32_existing`
- `Pywt.C32_2d`
- `Pywt.C32_nd`
- `Pywt.C33_pad_is_window`
- `Pywt.C33_pad_is_window_partial`
- `Pywt.C33_right_width_zero_fails`
- `Pywt.C33_smooth_single_fails`
- `Pywt.C33_dwt_of_pad`
- `Pywt.C33_dwt_of_pad_periodization`
- `Pywt.C33_padn_is_window`
- `Pywt.C33_padn_is_window_partial`
- `Pywt.C33_padn_rejects`
- `Pywt.C33_padn_right_width_zero_fails`
- `Pywt.C34_PR_textbook`
- `Pywt.C34_qmf`
- `Pywt.C34_orthogonal_iff`
- `Pywt.C34_orthogonal`
- `Pywt.C34_loader`
- `Pywt.C34_inverse`
- `Pywt.C35_tables`
- `Pywt.C35_error_bound`
- `Pywt.C35_builtin_reconstructs`
- `Pywt.C35_builtin_reconstructs_samples`
- `Pywt.C35_loader_total`
- `Pywt.C35_names`
- `Pywt.C35_orthogonal_mirror`
- `Pywt.C35_dmey_not_orthogonal`
- `Pywt.C35_literals_accurate`
- `Pywt.C36_dwt_decides`
- `Pywt.C36_idwt_decides`
- `Pywt.C36_downcoef_decides_partial`
- `Pywt.C36_downcoef_endless`
- `Pywt.C36_upcoef_decides`
- `Pywt.C36_swt_decides`
- `Pywt.C36_idwt_shapes_rejected`
- `Pywt.C36_dwtn_decides`
- `Pywt.C36_dwtn_axis_unchecked`
- `Pywt.C36_dwtn_axis_negative`
- `Pywt.C36_dwtn_counts_rejected`
- `Pywt.C36_multilevel_axes_rejected`
- `Pywt.C36_too_few_dimensions`
- `Pywt.C36_wavedecn_alias_accepted`
- `Pywt.C36_waverec_fewer_axes_rejected`
- `Pywt.C37_modes`
- `Pywt.C37_modes_rejected`
- `Pywt.C37_dwtn_rejects`
- `Pywt.C37_wavedecn_rejects`
- `Pywt.C37_fswavedecn_rejects`
- `Pywt.C38_numbers`
- `Pywt.C38_idempotent`
- `Pywt.C39_accepts`
- `Pywt.C39_rejects`
- `Pywt.C39_wellformed`
- `Pywt.C39_roundtrip`
- `Pywt.C39_pickle`
- `Pywt.C40_values`
- `Pywt.C40_samples`
- `Pywt.C40_accepts`
- `Pywt.C40_rejects`
- `Pywt.C40_linear`
- `Pywt.C40_methods_agree`
- `Pywt.C40_axis_ignored`
- `Pywt.C41_dwt_axis_is_dwt_of_lines`
- `Pywt.C41_dwt_bad_length_rejected`
- `Pywt.C41_idwt_axis_is_idwt_of_lines`
- `Pywt.C41_idwt_missing`
- `Pywt.C41_bad_axis_rejected`
- `Pywt.C42_dwt_axis_layout`
- `Pywt.C43_wavedec_lines`
- `Pywt.C43_wavedec_rejects`
- `Pywt.C43_wavedec_default_level`
- `Pywt.C43_waverec_lines`
- `Pywt.C43_round_trip`
- `Pywt.C43_waverec_rejects_lengths`
- `Pywt.C43_waverec_none`
- `Pywt.C44_extension_determined`
- `Pywt.C44_dwt_filters_extension`
- `Pywt.C44_dwt_filters_periodization`
- `Pywt.C44_extension_determined_nd`
- `Pywt.C44_dwtn_filters_extension`
- `Pywt.C45_swt_axis_is_swt_of_lines`
- `Pywt.C45_swt_axis_accepts`
- `Pywt.C45_swt_bad_axis`
- `Pywt.C45_swt_any_layout`
- `Pywt.C45_swtn_values`
- `Pywt.C45_swtn_rejects_lengths`
- `Pywt.C45_swtn_rejects_axes`
- `Pywt.C45_swtn_level_zero`
- `Pywt.C45_swt2_values`
- `Pywt.C46_iswt_axis_is_iswt_of_lines`
- `Pywt.C46_iswt_swt_axis`
- `Pywt.C46_iswtn_values`
- `Pywt.C46_iswtn_values_dicts`
- `Pywt.C46_iswtn_level`
- `Pywt.C46_iswtn_swtn`
- `Pywt.C46_iswt2_swt2`
- `Pywt.C46_iswt2_values`
- `Pywt.C46_iswt2_values_pairs`
- `Pywt.C46_level_zero_not_inverted`
- `Pywt.C46_inverse_norm`
- `Pywt.C46_inverse_sqrt2`
- `Pywt.C47_iswtn_keeps_items`
- `Pywt.C47_iswtn_error_loses_approx`
- `Pywt.C48_tree`
- `Pywt.C48_assign`
- `Pywt.C48_read_existing`
- `Pywt.C48_assign_read`
- `Pywt.C48_delete`
- `Pywt.C48_leaf_nodes`
- `Pywt.C48_leaf_nodes_decompose`
- `Pywt.C48_leaf_nodes_decompose_2d`
- `Pywt.C48_leaf_nodes_decompose_nd`
- `Pywt.C48_maxlevel`
- `Pywt.C48_maxlevel_2d`
- `Pywt.C48_maxlevel_nd`
- `Pywt.C49_from_leaves_partial`
- `Pywt.C49_from_leaves_2d_partial`
- `Pywt.C49_from_leaves_nd_partial`
- `Pywt.C49_from_leaves_periodization`
- `Pywt.C49_from_leaves_2d_periodization`
- `Pywt.C49_from_leaves_nd_periodization`
- `Pywt.C49_from_leaves_fails`
- `Pywt.C49_from_leaves_longer`
- `Pywt.C50_unpickle_partial`
- `Pywt.C50_unpickle_2d_partial`
- `Pywt.C50_axis_lost`
- `Pywt.C50_assigned_lost`
- `Pywt.C50_leaves_lost`
- `Pywt.C51_waverecn_values`
- `Pywt.C51_waverec2_values`
- `Pywt.C51_waverecn_linear`
- `Pywt.C51_waverec2_linear`
- `Pywt.C51_waverecn_superposition`
- `Pywt.C51_waverecn_missing`
- `Pywt.C51_wavedecn_linear`
- `Pywt.C51_wavedec2_linear`
- `Pywt.C51_swtn_linear`
- `Pywt.C51_swt2_linear`
- `Pywt.C51_iswtn_linear`
- `Pywt.C51_iswt2_linear`
- `Pywt.C51_iswtn_missing`
- `Pywt.C52_gaus`
- `Pywt.C52_cgau`
- `Pywt.C52_mexh`
- `Pywt.C52_morl`
- `Pywt.C52_cmor`
- `Pywt.C52_shan`
- `Pywt.C52_fbsp`
- `Pywt.C53_case`
- `Pywt.C53_plain_names`
- `Pywt.C53_two_parameters`
- `Pywt.C53_three_parameters`
- `Pywt.C53_wrong_count`
- `Pywt.C53_bare_families`
- `Pywt.C53_number_formats`
- `Pywt.C53_pickle`
- `Pywt.C53_pickle_drops_edits`
- `Pywt.C53_wavefun_rejects`
- `Pywt.C53_zero_frequency`
- `Pywt.C54_dwt_idwt`
- `Pywt.C54_dwt_idwt_interior`
- `Pywt.C54_dwt_idwt_short`
- `Pywt.C54_wavedec_waverec`
- `Pywt.C54_dwtn_idwtn`
- `Pywt.C54_wavedecn_waverecn`
- `Pywt.C54_wavedec2_waverec2`
- `Pywt.C54_biorthogonal`
- `Pywt.C54_edges_not_recovered`
- `Pywt.C55_wavefun_orthogonal`
- `Pywt.C55_wavefun_biorthogonal`
- `Pywt.C55_wavefun_levels`
- `Pywt.C55_level_one`
- `Pywt.C55_level_one_biorthogonal`
- `Pywt.C55_two_scale`
- `Pywt.C55_two_scale_biorthogonal`
- `Pywt.C55_integrals`
- `Pywt.C55_integrals_biorthogonal`
- `Pywt.C55_partition_of_unity`
- `Pywt.C55_partition_of_unity_biorthogonal`
- `Pywt.C55_orthonormal`
- `Pywt.C55_biorthonormal`
- `Pywt.C55_pickle_changes_wavefun`
- `Pywt.C56_integrate_orthogonal`
- `Pywt.C56_integrate_biorthogonal`
- `Pywt.C56_integrate_continuous`
- `Pywt.C56_integrate_rejects`
- `Pywt.C56_central_frequency_orthogonal`
- `Pywt.C56_central_frequency_biorthogonal`
- `Pywt.C56_central_frequency_continuous`
- `Pywt.C56_central_frequency_rejects`
- `Pywt.C56_odd_peak`
- `Pywt.C56_scale_frequency`
- `Pywt.C56_central_frequency_pos`
- `Pywt.C56_named`
- `Pywt.C56_cwt_partial`
- `Pywt.C56_cwt_discrete_raises`
- `Pywt.C57_wavedec_polynomial`
- `Pywt.C57_wavedec_approx_polynomial`
- `Pywt.C57_dwt_moments`
- `Pywt.C57_swt_polynomial`
- `Pywt.C57_wavedec_constant`
- `Pywt.C57_wavedec_line`
- `Pywt.C57_builtin_moments_partial`
- `Pywt.C57_builtin_sums`
- `Pywt.C57_builtin_polynomial_partial`
- `Pywt.C57_rbio_misdeclared`
- `Pywt.C58_wavedec_local`
- `Pywt.C58_waverec_local`
- `Pywt.Heap.C59_concurrent_calls`
- `Pywt.Heap.C59_progress`
- `Pywt.Heap.C59_no_data_race`
- `Pywt.Heap.C59_isolation`
- `Pywt.Heap.C60_transforms`
- `Pywt.Heap.C60_custom_wavelet`
- `Pywt.Heap.C60_builtin_wavelet`
- `Pywt.Heap.C60_wrong_exception`
- `Pywt.Heap.C60_haar_null`
- `Pywt.Heap.C60_swt_axis_unchecked`
- `Pywt.C61_ieee`
- `Pywt.C61_dwt_rounding`
- `Pywt.C61_dwt_error`
- `Pywt.C61_idwt_rounding`
- `Pywt.C61_wavedec_rounding`
- `Pywt.C61_waverec_rounding`
- `Pywt.C61_gamma`
- `Pywt.C61_roundtrip`
- `Pywt.C61_multilevel_roundtrip`
- `Pywt.C61_builtin_roundtrip`
- `Pywt.C61_builtin_double`
- `Pywt.C61_success`
- `Pywt.C61_complex`
- `Pywt.C61_scaling`
- `Pywt.C61_sign`
- `Pywt.C62_swt`
- `Pywt.C62_complex_list`
- `Pywt.C62_dwtn`
- `Pywt.C62_idwtn`
- `Pywt.C62_iswtn_partial`
- `Pywt.C62_iswt2_partial`
- `Pywt.C62_pack_partial`
- `Pywt.C62_set_node_partial`
- `Pywt.C62_iswtn_drops`
- `Pywt.C62_iswtn_precision`
- `Pywt.C62_iswt2_drops`
- `Pywt.C62_pack_drops`
- `Pywt.C63_wavedec_isometry`
- `Pywt.C63_edit_error`
- `Pywt.C63_edit_error_nd`
- `Pywt.C63_wavedecn_isometry`
- `Pywt.C63_denoise`
- `Pywt.C63_soft_denoise_contracts`
- `Pywt.C63_best_terms`
- `Pywt.C63_wavedec_stable`
- `Pywt.C63_waverec_stable`
- `Pywt.C64_swt_holds_shifted_dwts`
- `Pywt.C64_swt_pairs_hold_shifted_dwts`
- `Pywt.C64_iswt_averages_shifts`
- `Pywt.C64_cycle_spinning`
- `Pywt.C65_builtin_near_orthogonal`
- `Pywt.C65_dwt_energy`
- `Pywt.C65_wavedec_energy`
- `Pywt.C65_wavedec_near_isometry`
- `Pywt.C65_waverec_energy`
- `Pywt.C65_edit_error`
- `Pywt.C65_round_trip`
- `Pywt.C65_builtin`
- `Pywt.C66_keeps`
- `Pywt.C66_swt_rounding`
- `Pywt.C66_iswt_rounding`
- `Pywt.C66_norm`
- `Pywt.C66_roundtrip`
- `Pywt.C66_builtin_roundtrip`
- `Pywt.C67_dwtn_rounding`
- `Pywt.C67_idwtn_rounding`
- `Pywt.C67_dwt2_rounding`
- `Pywt.C67_idwt2_rounding`
- `Pywt.C67_wavedecn_rounding`
- `Pywt.C67_waverecn_rounding`
- `Pywt.C67_wavedec2_rounding`
- `Pywt.C67_waverec2_rounding`
- `Pywt.C67_roundtrip`
- `Pywt.C67_roundtrip_levels`
- `Pywt.C67_builtin_roundtrip`
- `Pywt.C67_builtin_roundtrip_levels`
- `Pywt.C68_names`
- `Pywt.C68_case`
- `Pywt.C68_rejects_n`
- `Pywt.C68_fixed_length`
- `Pywt.C68_linchirps_length`
- `Pywt.C68_formula_length_partial`
- `Pywt.C68_formula_length_pow2`
- `Pywt.C68_one_too_many`
- `Pywt.C68_chirps_length_partial`
- `Pywt.C68_piece_length_partial`
- `Pywt.C68_riemann_length_partial`
- `Pywt.C68_riemann_fails`
- `Pywt.C68_hypchirps_length_partial`
- `Pywt.C68_hypchirps_fails`
- `Pywt.C68_sixteen`
- `Pywt.C68_piece_fails`
- `Pywt.C68_float_n`
- `Pywt.C68_bounded`
- `Pywt.C70_cover_spec`
- `Pywt.C70_cover_energy`
- `Pywt.C70_cover_energy_complex`
- `Pywt.C70_leaf_energy`
- `Pywt.C70_cover_energy_2d`
- `Pywt.C70_cover_energy_2d_complex`
- `Pywt.C70_leaf_energy_2d`
- `Pywt.C70_cover_energy_nd`
- `Pywt.C70_cover_energy_nd_complex`
- `Pywt.C70_leaf_energy_nd`
- `Pywt.C70_odd_size_fails`
- `Pywt.C71_dwt_adjoint`
- `Pywt.C71_wavedec_adjoint`
- `Pywt.C71_dwtn_adjoint`
- `Pywt.C71_wavedecn_adjoint`
- `Pywt.C71_symmetric_not_adjoint`
- `Pywt.C72_soft_minimises`
- `Pywt.C72_hard_minimises`
- `Pywt.C72_zeroing_projects`
- `Pywt.C72_shrink_nd`
- `Pywt.C73_max_level_edge_free`
- `Pywt.C73_wavedecn_warns`
- `Pywt.C73_wavedec2_warns`
- `Pywt.C73_warning_true_partial`
- `Pywt.C73_warning_overstates`
- `Pywt.C74_swt_adjoint`
- `Pywt.C74_iswt_least_squares`
- `Pywt.C74_edit_contracts`
- `Pywt.C75_swt_warns`
- `Pywt.C75_user_bank_warns`
- `Pywt.C75_swt_energy`
- `Pywt.C75_no_warning_partial`
- `Pywt.C75_warning_true`
- `Pywt.C75_warning_overstates`
- `Pywt.C75_dmey_silent`
- `Pywt.C76_swt_variance`
- `Pywt.C76_swtn`
- `Pywt.C76_swt2`
- `Pywt.C77_swtn_warns`
- `Pywt.C77_swt2_warns`
- `Pywt.C77_swtn_energy`
- `Pywt.C77_no_warning_partial`
- `Pywt.C78_swtn_adjoint`
- `Pywt.C78_iswtn_least_squares`
- `Pywt.C78_iswt2_least_squares`
- `Pywt.C78_edit_contracts`
- `Pywt.C79_dwtn_energy`
- `Pywt.C79_wavedecn_energy`
- `Pywt.C79_builtin`
- `Pywt.C80_cover_energy`
- `Pywt.C80_leaf_energy`
- `Pywt.C80_cover_energy_2d`
- `Pywt.C80_leaf_energy_2d`
- `Pywt.C80_cover_energy_nd`
- `Pywt.C80_leaf_energy_nd`
- `Pywt.C80_builtin`
- `Pywt.C80_builtin_nd`
- `Pywt.C81_waverecn_energy`
- `Pywt.C81_wavedecn_dist`
- `Pywt.C81_edit_error`
- `Pywt.C81_round_trip`
- `Pywt.C81_builtin`
- `Pywt.C82_waverec2_eq_waverecn`
- `Pywt.C82_wavedec2_energy`
- `Pywt.C82_waverec2_energy`
- `Pywt.C82_edit_error`
- `Pywt.C82_builtin`
- `Pywt.C83_dwt_shift`
- `Pywt.C83_idwt_shift`
- `Pywt.C83_wavedec_shift`
- `Pywt.C83_waverec_shift`
- `Pywt.C83_odd_shift_counterexample`
- `Pywt.C84_roll_values`
- `Pywt.C84_dwtn_roll`
- `Pywt.C84_wavedecn_roll`
- `Pywt.C84_wavedec2_roll`
- `Pywt.C84_wavedecn_roll_other_axis`
- `Pywt.C85_symmetric_flag`
- `Pywt.C85_dwt_reverse_approx`
- `Pywt.C85_dwt_reverse_detail`
- `Pywt.C85_dwt_reverse_half`
- `Pywt.C85_dwt_reverse_whole`
- `Pywt.C85_wavedec_reverse`
- `Pywt.C85_builtin`
- `Pywt.C86_transpose_values`
- `Pywt.C86_dwtn_transpose`
- `Pywt.C86_wavedecn_transpose`
- `Pywt.C86_dwt2_transpose`
- `Pywt.C86_wavedec2_transpose`
- `Pywt.C87_swtn_roll`
- `Pywt.C87_iswtn_roll`
- `Pywt.C88_swtn_transpose`
- `Pywt.C88_iswtn_transpose`
- `Pywt.C89_idwtn_transpose`
- `Pywt.C89_waverecn_transpose`
- `Pywt.C90_idwtn_roll`
- `Pywt.C90_waverecn_roll`
- `Pywt.C90_waverecn_roll_other_axis`
- `Pywt.C91_swt2_roll`
- `Pywt.C91_swt2_transpose`
- `Pywt.C91_iswt2_roll`
- `Pywt.C91_iswt2_transpose`
- `Pywt.C92_packet_roll`
- `Pywt.C92_packet2_roll`
- `Pywt.C92_packetn_roll`
- `Pywt.C92_packet_transpose`
- `Pywt.C92_packet2_transpose`
- `Pywt.C92_packetn_transpose`
- `Pywt.C93_waverec2_roll`
- `Pywt.C93_waverec2_transpose`
- `Pywt.C93_waverec2_axes_order`
- `Pywt.C93_waverec2_transpose_image`

## propext, Quot.sound (31 theorems)

- `Pywt.C04_dwt_coeff_len`
- `Pywt.C06_idwt_length_mismatch`
- `Pywt.C09_wavedec_default_level`
- `Pywt.C22_missing_detail`
- `Pywt.C26_imran_partial`
- `Pywt.C27_rejects`
- `Pywt.C28_rejects`
- `Pywt.C29_level_zero`
- `Pywt.C30_bad_path`
- `Pywt.C32_freq_level_zero`
- `Pywt.C32_too_deep`
- `Pywt.C33_empty_antisymmetric_hangs`
- `Pywt.C33_padn_widths`
- `Pywt.C34_orthogonal_odd`
- `Pywt.C36_idwtn_rejects`
- `Pywt.C36_coeffs_to_array_axes_rejected`
- `Pywt.C37_wavelets`
- `Pywt.C38_names`
- `Pywt.C38_aliases`
- `Pywt.C38_attribute_accepted`
- `Pywt.C48_assign_too_long`
- `Pywt.C48_delete_root`
- `Pywt.C62_dwt`
- `Pywt.C62_idwt`
- `Pywt.C62_coef`
- `Pywt.C62_wavedec`
- `Pywt.C62_waverec`
- `Pywt.C62_iswt`
- `Pywt.C62_set_node_drops`
- `Pywt.C69_writes_leak`
- `Pywt.C73_wavedec_warns`
