# Axioms of the theorems named in MANIFEST.json

Generated by tools/gen_axioms.sh with `#print axioms`.

## propext

- C45 `Sia.ragged_vector_reshaped`
- C53 `Sia.features_orderOnly`

## propext, Classical.choice, Quot.sound

- C01 `Sia.dequantization_undoes_noise`
- C02 `Sia.dequantization_undoes_noise_float`
- C02 `Sia.dequantization_double_counterexample`
- C03 `Sia.tolerance_tight_up`
- C03 `Sia.tolerance_tight_down`
- C04 `Sia.quantization_contract`
- C05 `Sia.dequantization_succeeds_iff`
- C05 `Sia.dequantization_ignores_rest`
- C05 `Sia.quantization_min_aborts`
- C06 `Sia.perturbation_bytes_format`
- C06 `Sia.perturbation_ignores_unused_bits`
- C07 `Sia.watermark_roundtrip`
- C08 `Sia.watermark_serialize_iff`
- C08 `Sia.watermark_serialize_length`
- C08 `Sia.watermark_serialize_layout`
- C08 `Sia.watermark_serialize_injective`
- C09 `Sia.watermark_parse_iff`
- C09 `Sia.watermark_parse_sections`
- C09 `Sia.watermark_parse_reserialize`
- C10 `Sia.data_roundtrip`
- C10 `Sia.data_parse_spec`
- C100 `Sia.shared_outputs`
- C100 `Sia.shared_same_command`
- C100 `Sia.shared_again`
- C100 `Sia.shared_ends`
- C100 `Sia.shared_settles`
- C100 `Sia.shared_bytes`
- C100 `Sia.shared_refines`
- C100 `Sia.shared_mixed`
- C100 `Sia.shared_killed`
- C101 `Sia.link_output_there`
- C101 `Sia.link_output_follows`
- C101 `Sia.link_output_is_file`
- C101 `Sia.links_safe`
- C101 `Sia.links_outputs_in_folder`
- C101 `Sia.link_batch`
- C101 `Sia.link_replaces`
- C101 `Sia.link_loop`
- C101 `Sia.toyLinks_batch`
- C101 `Sia.toyLinks_replaces`
- C102 `Sia.link_folders_made`
- C102 `Sia.link_folders_exactly`
- C102 `Sia.link_folder_there`
- C102 `Sia.link_in_the_way`
- C102 `Sia.link_folders_none`
- C102 `Sia.link_run_here`
- C102 `Sia.link_run_fails`
- C102 `Sia.link_run`
- C102 `Sia.link_run_safe`
- C102 `Sia.link_run_batch`
- C102 `Sia.link_folders_resume`
- C102 `Sia.toyLinks_makes`
- C102 `Sia.toyLinks_resume`
- C102 `Sia.toyLinks_run`
- C103 `Sia.hard_safe`
- C103 `Sia.hard_new`
- C103 `Sia.hard_batch`
- C103 `Sia.hard_backup`
- C103 `Sia.hard_input`
- C103 `Sia.toyHard_new`
- C103 `Sia.toyHard_backup`
- C103 `Sia.toyHard_input`
- C104 `Sia.link_main_status`
- C104 `Sia.link_main_no_words`
- C104 `Sia.link_main_usage`
- C104 `Sia.link_main_result`
- C104 `Sia.link_main_safe`
- C104 `Sia.link_main_changed`
- C104 `Sia.link_main_none`
- C104 `Sia.link_main_usual`
- C104 `Sia.link_process_ends`
- C104 `Sia.link_empty_output`
- C104 `Sia.toyLinks_main`
- C105 `Sia.hard_run_here`
- C105 `Sia.hard_run_fails`
- C105 `Sia.hard_run`
- C105 `Sia.hard_run_none`
- C105 `Sia.hard_run_safe`
- C105 `Sia.hard_run_new`
- C105 `Sia.toyHard_makes`
- C105 `Sia.toyHard_run`
- C106 `Sia.link_recovery`
- C106 `Sia.link_run_part`
- C106 `Sia.underway_step`
- C106 `Sia.toyLinks_recovers`
- C11 `Sia.decode_encode`
- C12 `Sia.decode_corrects_blocks`
- C12 `Sia.decode_corrects_bits`
- C13 `Sia.decode_encode_truncates`
- C13 `Sia.code_tables_agree`
- C14 `Sia.encode_format`
- C14 `Sia.encode_length`
- C15 `Sia.read_after_write_exact`
- C15 `Sia.read_after_write_float`
- C15 `Sia.read_write_rest`
- C16 `Sia.write_tall_aborts`
- C16 `Sia.read_wide_collides`
- C16 `Sia.write_wide_loses`
- C17 `Sia.read_write_noise`
- C17 `Sia.noise_margin_tight`
- C17 `Sia.read_write_noise_float`
- C18 `Sia.write_changes_exact`
- C18 `Sia.write_values_exact`
- C18 `Sia.write_changes_float`
- C18 `Sia.write_refuses_excess`
- C19 `Sia.dwt_perfect_reconstruction`
- C19 `Sia.dwt_succeeds_iff`
- C19 `Sia.dwt_reconstruction_float`
- C20 `Sia.dwt_preserves_energy`
- C21 `Sia.lowLow_is_block_sum`
- C21 `Sia.lowLow_change_spreads`
- C22 `Sia.extract_embed`
- C22 `Sia.extract_tolerates_noise_exact`
- C22 `Sia.extract_tolerates_noise_double`
- C23 `Sia.embed_distortion`
- C23 `Sia.embed_distortion_float`
- C24 `Sia.extract_tolerates_noise`
- C24 `Sia.extract_tolerates_noise_exact`
- C24 `Sia.extract_tolerates_noise_double`
- C25 `Sia.black_reads_ones`
- C25 `Sia.black_image_loses`
- C25 `Sia.black_image_counterexample`
- C26 `Sia.embed_succeeds_iff`
- C26 `Sia.embed_reports`
- C27 `Sia.accepted_but_lost`
- C27 `Sia.unsupported_capacity_loses`
- C28 `Sia.i64_bytes_format`
- C28 `Sia.i64_bytes_parse`
- C29 `Sia.decodeHex_encodeHex`
- C29 `Sia.encodeHex_format`
- C29 `Sia.encodeHex_injective`
- C29 `Sia.decodeHex_even_ascii`
- C29 `Sia.decodeHex_odd_ascii`
- C29 `Sia.decodeHex_case_and_plus`
- C30 `Sia.features_count`
- C30 `Sia.features_square`
- C30 `Sia.features_packed`
- C30 `Sia.columnImage_feature`
- C30 `Sia.features_abort`
- C30 `Sia.features_other_types`
- C30 `Sia.features_count_f64`
- C31 `Sia.features_symmetric`
- C32 `Sia.features_central`
- C32 `Sia.features_constant`
- C33 `Sia.radial_is_zernike`
- C33 `Sia.zernikeRadial_one`
- C33 `Sia.zernikeRadial_parity`
- C34 `Sia.toPolar_unit_disc`
- C35 `Sia.factorial_natural`
- C35 `Sia.factorial_negative_diverges`
- C35 `Sia.factorial_non_integer`
- C36 `Sia.watermark_keeps_shape_and_alpha`
- C36 `Sia.watermark_result_channels`
- C36 `Sia.luma_grey`
- C37 `Sia.watermark_accepts_channels`
- C37 `Sia.watermark_result_channels`
- C37 `Sia.watermark_channel_independent`
- C38 `Sia.marked_channel_authenticates`
- C38 `Sia.marked_channel_authenticates_float`
- C38 `Sia.marked_channel_verdict`
- C38 `Sia.marked_channel_authenticates_pixels`
- C38 `Sia.watermark_channels_authenticate`
- C38 `Sia.equalizedFeatures_exact`
- C39 `Sia.authenticate_iff`
- C39 `Sia.accepted_cells_are_signed`
- C39 `Sia.equalizedFeatures_exact`
- C40 `Sia.authenticate_checks_prefix`
- C40 `Sia.authenticate_no_bits`
- C40 `Sia.authenticate_too_many_bits`
- C40 `Sia.empty_record_authenticates`
- C41 `Sia.watermark_refuses_feature_counts`
- C41 `Sia.watermark_refuses_empty`
- C41 `Sia.watermark_refuses_portrait`
- C41 `Sia.watermark_square_iff`
- C41 `Sia.watermark_landscape_iff`
- C41 `Sia.watermark_refuses_landscape`
- C41 `Sia.watermark_accepts_iff`
- C41 `Sia.smallest_accepted_side`
- C41 `Sia.program_marks`
- C42 `Sia.generateUnit_spec`
- C42 `Sia.units_spec`
- C42 `Sia.generate_range`
- C42 `Sia.unit_maps_into_interval`
- C42 `Sia.generate_reaches_upper`
- C43 `Sia.batch_completes`
- C43 `Sia.batch_frame`
- C43 `Sia.batch_interrupted`
- C43 `Sia.batch_stops`
- C43 `Sia.batch_without_suffix`
- C43 `Sia.process_with_suffix`
- C43 `Sia.main_without_work`
- C43 `Sia.main_processes`
- C43 `Sia.equal_names_collide`
- C43 `Sia.later_input_overwritten`
- C43 `Sia.toyWorld_clean`
- C44 `Sia.elapsed_truncates`
- C45 `Sia.nested_vector_to_matrix`
- C46 `Sia.extract_black_aborts`
- C46 `Sia.extract_black_aborts_double`
- C46 `Sia.authenticate_black_aborts`
- C46 `Sia.authenticate_black_aborts_double`
- C47 `Sia.extract_corrects_damage`
- C47 `Sia.Ldpc.nearest_corrects`
- C48 `Sia.extract_misaligned_aborts`
- C48 `Sia.embed_accepts_misaligned`
- C49 `Sia.zernikeRadial_bound`
- C49 `Sia.features_bounded`
- C49 `Sia.features_lipschitz`
- C49 `Sia.features_bounded_255`
- C49 `Sia.marked_channel_authenticates_pixels`
- C50 `Sia.sign_verify_roundtrip`
- C51 `Sia.readableSide_iff`
- C51 `Sia.marked_unreadable_side`
- C51 `Sia.marked_readable_side`
- C51 `Sia.marked_channel_authenticates`
- C52 `Sia.authenticate_nonsquare_aborts`
- C53 `Sia.brightness_tolerated`
- C53 `Sia.equalizeExact_spec`
- C54 `Sia.watermarkChannel_distortion`
- C54 `Sia.watermarkChannel_distortion_float`
- C54 `Sia.watermark_distortion`
- C54 `Sia.watermark_distortion_float`
- C55 `Sia.double_quotient_floor`
- C55 `Sia.double_quotient_ceil`
- C55 `Sia.columnAndRow_double`
- C55 `Sia.getCapacity_double`
- C56 `Sia.assertApprox_sound`
- C56 `Sia.assertApprox1d_iff`
- C56 `Sia.assertApprox1d_nil`
- C56 `Sia.assertApproxPair_iff`
- C56 `Sia.assertApprox2d_iff`
- C57 `Sia.wavelet_details`
- C57 `Sia.lowLow_is_block_sum`
- C58 `Sia.atob_base64`
- C58 `Sia.atob_bad`
- C58 `Sia.atob_ignores_space`
- C58 `Sia.dataUrl_decoded`
- C58 `Sia.file_decoded`
- C59 `Sia.process_succeeds_iff`
- C59 `Sia.page_settings`
- C59 `Sia.process_images`
- C59 `Sia.canvases_draw`
- C59 `Sia.shown_distortion`
- C60 `Sia.shown_last_delivered`
- C60 `Sia.shown_origin`
- C60 `Sia.last_choice_shown`
- C60 `Sia.stale_choice_shown`
- C60 `Sia.demo_replaces_choice`
- C60 `Sia.no_demo_no_choice`
- C61 `Sia.extract_sees_block_sums`
- C61 `Sia.extract_ignores_arrangement`
- C61 `Sia.extract_ignores_depth_shift`
- C62 `Sia.embed_idempotent`
- C62 `Sia.embed_again_float`
- C62 `Sia.embed_again_double`
- C62 `Sia.embed_again_exact`
- C63 `Sia.embed_accepts_any_depth`
- C63 `Sia.embed_bad_depth`
- C63 `Sia.extract_bad_depth`
- C63 `Sia.extract_ignores_sign`
- C63 `Sia.write_negative_depth`
- C63 `Sia.negative_depth_complements`
- C64 `Sia.quantization_step_zero`
- C64 `Sia.quantization_step_zero_zero`
- C64 `Sia.quantization_step_zero_negative`
- C64 `Sia.step_zero_ignores_content`
- C64 `Sia.step_zero_accepts_everything`
- C65 `Sia.features_machine`
- C65 `Sia.features_machine_abort`
- C65 `Sia.features_f64_landscape`
- C65 `Sia.features_f64_packed`
- C65 `Sia.columnImage_feature_f64`
- C65 `Sia.features_f64_accurate`
- C65 `Sia.features_f64_vs_exact`
- C65 `Sia.features_f64_range`
- C65 `Sia.features_f64_symmetric`
- C65 `Sia.features_f64_lipschitz`
- C65 `Sia.features_f64_central`
- C65 `Sia.idealLibm_lawful`
- C65 `Sia.cornerImage_feature_f64`
- C66 `Sia.marked_channel_authenticates_pixels_f64`
- C66 `Sia.splitChannel_authenticates`
- C67 `Sia.factorial_f64_exact`
- C67 `Sia.factorial_f64_accurate`
- C67 `Sia.factorial_f64_overflow`
- C67 `Sia.factorial_f64_between`
- C67 `Sia.factorial_f64_huge`
- C67 `Sia.factorial_f64_negative`
- C67 `Sia.factorial_f64_fraction`
- C67 `Sia.factorial_f64_special`
- C68 `Sia.command_line_read`
- C68 `Sia.command_line_unambiguous`
- C68 `Sia.run_rejects`
- C68 `Sia.run_without_work`
- C68 `Sia.run_processes`
- C68 `Sia.usual_command_line`
- C69 `Sia.cli_output_authenticates`
- C69 `Sia.cli_batch_authenticates`
- C69 `Sia.losslessWorld_authenticates`
- C70 `Sia.report_is_true`
- C70 `Sia.report_counts`
- C70 `Sia.report_process`
- C70 `Sia.report_same_changes`
- C71 `Sia.record_transplant`
- C71 `Sia.text_not_covered`
- C71 `Sia.other_picture_authenticates`
- C71 `Sia.mirrored_features`
- C71 `Sia.same_features_same_record`
- C71 `Sia.mirrored_same_record`
- C72 `Sia.quantization_manySteps`
- C72 `Sia.dequantization_manySteps`
- C72 `Sia.tiny_step_accepts_everything`
- C72 `Sia.large_step_ignores_content`
- C72 `Sia.large_step_program`
- C73 `Sia.shown_authenticates`
- C73 `Sia.ready_file_processed`
- C73 `Sia.session_authenticates`
- C73 `Sia.flatWeb_session`
- C74 `Sia.exit_status`
- C74 `Sia.exit_zero_files`
- C74 `Sia.blocked_message`
- C75 `Sia.machine_embed`
- C75 `Sia.machine_extract`
- C75 `Sia.machine_watermark_channel`
- C75 `Sia.machine_authenticate_channel`
- C75 `Sia.machine_watermark`
- C75 `Sia.builds_agree`
- C75 `Sia.machine_no_features`
- C75 `Sia.quantization_builds`
- C75 `Sia.random_builds`
- C75 `Sia.machine_wide`
- C75 `Sia.machine_deep_inverse`
- C75 `Sia.splitChannel_every_build`
- C76 `Sia.image_kept`
- C76 `Sia.process_kept`
- C76 `Sia.array_kept`
- C76 `Sia.image_new_get`
- C76 `Sia.set_width_get`
- C76 `Sia.set_height_get`
- C76 `Sia.set_data_get`
- C76 `Sia.set_format_get`
- C76 `Sia.process_new`
- C76 `Sia.moved_forever`
- C76 `Sia.freed_forever`
- C76 `Sia.get_source_fresh`
- C76 `Sia.get_watermarked_fresh`
- C76 `Sia.bytes_shared`
- C76 `Sia.page_record`
- C76 `Sia.page_record_always`
- C76 `Sia.page_process`
- C76 `Sia.page_text`
- C77 `Sia.log_watermarkChannel`
- C77 `Sia.log_authenticateChannel`
- C77 `Sia.log_watermark`
- C77 `Sia.embed_lines`
- C77 `Sia.mark_log`
- C77 `Sia.mark_log_stage`
- C77 `Sia.mark_log_prefix`
- C77 `Sia.auth_log`
- C77 `Sia.auth_log_prefix`
- C77 `Sia.auth_log_without_verdict`
- C77 `Sia.record_reappears`
- C77 `Sia.image_log`
- C77 `Sia.library_line_is_no_report`
- C78 `Sia.effects_same`
- C78 `Sia.effects_process`
- C78 `Sia.output_closes`
- C78 `Sia.process_output_closes`
- C78 `Sia.closed_output_leaves_whole_files`
- C79 `Sia.features_count_f64`
- C79 `Sia.features_finite`
- C79 `Sia.many_features_lost`
- C79 `Sia.empty_picture_lost`
- C79 `Sia.single_pixel_lost`
- C79 `Sia.features_all_or_none`
- C79 `Sia.carefulLibm_lawful`
- C79 `Sia.carefulLibm_special`
- C80 `Sia.keyPair_of_secret`
- C80 `Sia.builtin_publicOf`
- C80 `Sia.builtin_keyPair`
- C80 `Sia.builtin_sign_verify`
- C80 `Sia.generated_sign_verify`
- C80 `Sia.marked_channel_authenticates_rfc8032`
- C80 `Sia.rfc8032_marks`
- C80 `Sia.empty_record_authenticates_rfc8032`
- C81 `Sia.signature_tail_unique`
- C81 `Sia.verify_iff_form`
- C81 `Sia.signature_of_two_messages`
- C81 `Sia.two_messages_collide`
- C81 `Sia.accepted_cells_collide`
- C81 `Sia.same_signature_same_cells`
- C82 `Sia.Ldpc.ccsds_systematic`
- C82 `Sia.Ldpc.codewords_satisfy_checks`
- C82 `Sia.Ldpc.codeword_unique`
- C82 `Sia.Ldpc.codeword_iff`
- C82 `Sia.LdpcCode.punctured_determined`
- C82 `Sia.Ldpc.codewords_far`
- C82 `Sia.Ldpc.ccsds_corrects_two`
- C82 `Sia.Ldpc.ccsds_decodesClean`
- C82 `Sia.Ldpc.ccsds_three_errors`
- C82 `Sia.Ldpc.ccsds_not_three`
- C82 `Sia.decode_encode_ccsds`
- C82 `Sia.decode_corrects_two_bits`
- C82 `Sia.extract_corrects_two_cells`
- C82 `Sia.actual_contracts`
- C82 `Sia.marked_channel_authenticates_actual`
- C82 `Sia.marked_channel_authenticates_pixels_actual`
- C82 `Sia.cli_output_authenticates_actual`
- C82 `Sia.session_authenticates_actual`
- C82 `Sia.actual_marks`
- C83 `Sia.rne32_nearest`
- C83 `Sia.equalizeSingle_formula`
- C83 `Sia.equalizeSingle_near`
- C83 `Sia.equalizeSingle_exact`
- C83 `Sia.equalizeSingle_inexact`
- C83 `Sia.equalizeSingle_order`
- C83 `Sia.equalizeSingle_orderOnly`
- C83 `Sia.equalizeSingle_idempotent`
- C83 `Sia.equalizeSingle_stable`
- C83 `Sia.program_features`
- C83 `Sia.program_authenticates`
- C83 `Sia.program_brightness`
- C83 `Sia.program_equalised_features`
- C83 `Sia.program_builds`
- C83 `Sia.rampChannel_authenticates`
- C83 `Sia.rampChannel_every_build`
- C84 `Sia.restored_cell_far`
- C84 `Sia.dequantization_notices`
- C84 `Sia.noticing_tight`
- C84 `Sia.tampered_channel_verdict`
- C84 `Sia.tampered_channel_authenticates`
- C84 `Sia.tampered_channel_noticed`
- C84 `Sia.program_notices`
- C84 `Sia.upper_half_readable`
- C84 `Sia.painted_white_noticed`
- C84 `Sia.plainChannel_painted`
- C85 `Sia.embed_outside`
- C85 `Sia.embed_block`
- C85 `Sia.watermarkChannel_outside`
- C85 `Sia.watermark_outside`
- C85 `Sia.lower_half_kept`
- C85 `Sia.flat_picture_rejected`
- C86 `Sia.dequantization_unchanged`
- C86 `Sia.same_features_authenticate`
- C86 `Sia.symmetric_cells`
- C86 `Sia.self_marking_picture`
- C86 `Sia.self_marking_image`
- C86 `Sia.cli_self_marking`
- C87 `Sia.extract_carries`
- C87 `Sia.carried_payload`
- C87 `Sia.carried_verdict`
- C87 `Sia.symmetric_accepted`
- C87 `Sia.symmetric_pictures_forgeable`
- C88 `Sia.watermark_colours`
- C88 `Sia.watermark_exchanges`
- C88 `Sia.watermark_grey`
- C88 `Sia.mixed_colours_authenticate`
- C89 `Sia.remarking_block`
- C89 `Sia.remarking_channel`
- C89 `Sia.remarking_exact`
- C89 `Sia.remarking_tool`
- C89 `Sia.remarking_program`
- C89 `Sia.program_marks`
- C89 `Sia.program_marks_again`
- C90 `Sia.embed_replaces`
- C90 `Sia.embed_again_exact`
- C90 `Sia.embed_many`
- C90 `Sia.last_marking`
- C90 `Sia.marking_again`
- C90 `Sia.last_marking_exact`
- C90 `Sia.last_marking_tool`
- C90 `Sia.marking_again_tool`
- C91 `Sia.cli_generations`
- C91 `Sia.clean_batch_writes`
- C91 `Sia.cli_again_and_again`
- C91 `Sia.cli_forever`
- C92 `Sia.mean_never_drifts`
- C92 `Sia.lossy_generations`
- C92 `Sia.dimmed_for_ever`
- C92 `Sia.cli_lossy_generations`
- C93 `Sia.concurrent_runs`
- C93 `Sia.concurrent_ends`
- C93 `Sia.concurrent_result`
- C93 `Sia.parallel_batch`
- C93 `Sia.shared_output_races`
- C94 `Sia.recovery`
- C94 `Sia.recovery_clean`
- C94 `Sia.rerun_differs`
- C95 `Sia.folders_made`
- C95 `Sia.folder_made_iff`
- C95 `Sia.tree_process`
- C95 `Sia.tree_sound`
- C95 `Sia.output_is_file`
- C95 `Sia.output_is_empty`
- C96 `Sia.output_resolves`
- C96 `Sia.outputs_in_folder`
- C96 `Sia.tree_batch`
- C96 `Sia.suffix_escapes`
- C96 `Sia.toyHost_escapes`
- C96 `Sia.own_folders_independent`
- C97 `Sia.main_status`
- C97 `Sia.main_no_words`
- C97 `Sia.main_result`
- C97 `Sia.main_safe`
- C97 `Sia.main_usage`
- C97 `Sia.usage_text`
- C97 `Sia.main_usual`
- C97 `Sia.toyHost_main`
- C98 `Sia.prepare_alone`
- C98 `Sia.prepare_ends`
- C98 `Sia.folder_race_safe`
- C98 `Sia.folder_race_ends`
- C98 `Sia.folder_race_made`
- C98 `Sia.folder_race_apart`
- C98 `Sia.folder_race_lost`
- C99 `Sia.tree_processes_safe`
- C99 `Sia.tree_processes_alone`
- C99 `Sia.tree_processes_end`
- C99 `Sia.tree_processes_apart`
- C99 `Sia.tree_processes_result`

## propext, Quot.sound

- C06 `Sia.perturbation_roundtrip`
- C10 `Sia.data_serialize_spec`
- C10 `Sia.data_empty_not_readable`
- C101 `Sia.follow_iff`
- C101 `Sia.links_none`
- C103 `Sia.hard_none`
- C12 `Sia.decode_ignores_trailing`
- C13 `Sia.decode_encode_unsupported`
- C13 `Sia.decode_never_long`
- C14 `Sia.decode_aborts`
- C16 `Sia.read_tall_aborts`
- C28 `Sia.u16_bytes_roundtrip`
- C28 `Sia.u16_bytes_format`
- C28 `Sia.u16_bytes_parse`
- C28 `Sia.u16_bytes_injective`
- C28 `Sia.i64_bytes_roundtrip`
- C28 `Sia.i64_bytes_length`
- C28 `Sia.i64_bytes_injective`
- C43 `Sia.output_name_differs`
- C45 `Sia.nested_vector_accepts_iff`
- C50 `Sia.sign_spec`
- C50 `Sia.verify_spec`
- C50 `Sia.verify_bad_length_aborts`
- C53 `Sia.equalizeExact_orderOnly`
- C76 `Sia.process_set`
- C77 `Sia.feature_lines`
- C77 `Sia.extract_lines`
- C96 `Sia.outName_injective`

