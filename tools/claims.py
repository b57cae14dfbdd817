c("C01", "proved", ["dequantization_undoes_noise"], "exact real arithmetic, features below 2^61 steps (i64 range)")
c("C03", "proved", ["tolerance_tight_up", "tolerance_tight_down"])
c("C04", "proved", ["quantization_contract"], "exact real arithmetic, features below 2^62 steps")
c("C05", "proved", ["dequantization_succeeds_iff", "dequantization_ignores_rest", "quantization_min_aborts"], "every float type")
c("C06", "proved", ["perturbation_roundtrip", "perturbation_bytes_format", "perturbation_ignores_unused_bits"])
c("C07", "proved", ["watermark_roundtrip"])
c("C08", "proved", ["watermark_serialize_iff", "watermark_serialize_length", "watermark_serialize_layout", "watermark_serialize_injective"])
c("C09", "proved", ["watermark_parse_iff", "watermark_parse_sections", "watermark_parse_reserialize"])
c("C10", "proved", ["data_serialize_spec", "data_roundtrip", "data_empty_not_readable", "data_parse_spec"])
c("C11", "proved", ["decode_encode"], "LDPC contract DecodesClean")
c("C12", "proved", ["decode_corrects_blocks", "decode_corrects_bits", "decode_ignores_trailing"])
c("C13", "proved", ["decode_encode_unsupported", "decode_encode_truncates", "decode_never_long", "code_tables_agree"])
c("C14", "proved", ["encode_format", "encode_length", "decode_aborts"])
c("C28", "proved", ["u16_bytes_roundtrip", "u16_bytes_format", "u16_bytes_parse", "u16_bytes_injective", "i64_bytes_roundtrip", "i64_bytes_length", "i64_bytes_format", "i64_bytes_parse", "i64_bytes_injective"])
c("C29", "proved", ["decodeHex_encodeHex", "encodeHex_format", "encodeHex_injective", "decodeHex_even_ascii", "decodeHex_odd_ascii", "decodeHex_case_and_plus"])
c("C15", "proved", ["read_after_write_exact", "read_after_write_float", "read_write_rest"])
c("C16", "proved", ["write_tall_aborts", "read_tall_aborts", "read_wide_collides", "write_wide_loses"])
c("C17", "proved", ["read_write_noise", "noise_margin_tight", "read_write_noise_float"])
c("C18", "proved", ["write_changes_exact", "write_values_exact", "write_changes_float", "write_refuses_excess"])

c("C02", "proved", ["dequantization_undoes_noise_float", "dequantization_double_counterexample"])
c("C19", "proved", ["dwt_perfect_reconstruction", "dwt_succeeds_iff", "dwt_reconstruction_float"])
c("C20", "proved", ["dwt_preserves_energy"])
c("C21", "proved", ["lowLow_is_block_sum", "lowLow_change_spreads"])
c("C22", "proved", ["extract_embed", "extract_tolerates_noise_exact", "extract_tolerates_noise_double"], "conditional on the LDPC contract DecodesClean")
c("C23", "proved", ["embed_distortion", "embed_distortion_float"])
c("C24", "proved", ["extract_tolerates_noise", "extract_tolerates_noise_exact", "extract_tolerates_noise_double"], "conditional on the LDPC contract DecodesClean")
c("C26", "proved", ["embed_succeeds_iff", "embed_reports"])
c("C27", "proved", ["accepted_but_lost", "unsupported_capacity_loses"])
c("C25", "proved", ["black_reads_ones", "black_image_loses", "black_image_counterexample"])
c("C46", "proved", ["extract_black_aborts", "extract_black_aborts_double", "authenticate_black_aborts", "authenticate_black_aborts_double"])
c("C47", "proved", ["extract_corrects_damage", "Ldpc.nearest_corrects"], "conditional on the LDPC contract CorrectsBits, shown satisfiable")
c("C48", "proved", ["extract_misaligned_aborts", "embed_accepts_misaligned"])
c("C30", "proved", ["features_count", "features_square", "features_packed", "columnImage_feature", "features_abort", "features_other_types", "features_count_f64"], "exact real/complex arithmetic, except features_count_f64 (doubles, all sizes)")
c("C31", "proved", ["features_symmetric"], "exact real/complex arithmetic")
c("C32", "proved", ["features_central", "features_constant"], "exact real/complex arithmetic")
c("C33", "proved", ["radial_is_zernike", "zernikeRadial_one", "zernikeRadial_parity"], "exact real arithmetic")
c("C34", "proved", ["toPolar_unit_disc"], "exact real arithmetic")
c("C35", "proved", ["factorial_natural", "factorial_negative_diverges", "factorial_non_integer"], "exact real arithmetic")

c("C36", "proved", ["watermark_keeps_shape_and_alpha", "watermark_result_channels", "luma_grey"])
c("C37", "proved", ["watermark_accepts_channels", "watermark_result_channels", "watermark_channel_independent"])
c("C38", "proved", ["marked_channel_authenticates", "marked_channel_authenticates_float", "marked_channel_verdict", "marked_channel_authenticates_pixels", "watermark_channels_authenticate", "equalizedFeatures_exact"], "conditional on the library contracts DecodesClean and Ed25519.KeyPair, shown satisfiable (testChannel_authenticates)")
c("C39", "proved", ["authenticate_iff", "accepted_cells_are_signed", "equalizedFeatures_exact"], "second half conditional on DecodesClean and Ed25519.KeyPair")
c("C40", "proved", ["authenticate_checks_prefix", "authenticate_no_bits", "authenticate_too_many_bits", "empty_record_authenticates"])
c("C41", "proved", ["watermark_refuses_feature_counts", "watermark_refuses_empty", "watermark_refuses_portrait", "watermark_square_iff", "watermark_landscape_iff", "watermark_refuses_landscape", "watermark_accepts_iff", "smallest_accepted_side", "program_marks"])
c("C49", "proved", ["zernikeRadial_bound", "features_bounded", "features_lipschitz", "features_bounded_255", "marked_channel_authenticates_pixels"], "exact real/complex arithmetic")
c("C50", "proved", ["sign_verify_roundtrip", "sign_spec", "verify_spec", "verify_bad_length_aborts"], "Ed25519 library is a parameter")
c("C51", "proved", ["readableSide_iff", "marked_unreadable_side", "marked_readable_side", "marked_channel_authenticates"])
c("C52", "proved", ["authenticate_nonsquare_aborts"])
c("C53", "proved", ["features_orderOnly", "brightness_tolerated", "equalizeExact_orderOnly", "equalizeExact_spec"], "contract OrderOnly on histogram equalisation, proved for its documented exact form")
c("C54", "proved", ["watermarkChannel_distortion", "watermarkChannel_distortion_float", "watermark_distortion", "watermark_distortion_float"])
c("C42", "proved", ["generateUnit_spec", "units_spec", "generate_range", "unit_maps_into_interval", "generate_reaches_upper"], "IEEE binary64")
c("C43", "proved", ["batch_completes", "batch_frame", "batch_interrupted", "batch_stops", "batch_without_suffix", "process_with_suffix", "main_without_work", "main_processes", "output_name_differs", "equal_names_collide", "later_input_overwritten", "toyWorld_clean"], "codecs and path resolution are parameters; argument parsing is C68")
c("C44", "proved", ["elapsed_truncates"])
c("C45", "proved", ["nested_vector_to_matrix", "nested_vector_accepts_iff", "ragged_vector_reshaped"])
c("C55", "proved", ["double_quotient_floor", "double_quotient_ceil", "columnAndRow_double", "getCapacity_double"])
c("C56", "proved", ["assertApprox_sound", "assertApprox1d_iff", "assertApprox1d_nil", "assertApproxPair_iff", "assertApprox2d_iff"])
c("C57", "proved", ["wavelet_details", "lowLow_is_block_sum"], "exact arithmetic")
c("C58", "proved", ["atob_base64", "atob_bad", "atob_ignores_space", "dataUrl_decoded", "file_decoded"], "browser's atob and readAsDataURL are modelled from their specifications; the file statement is for media types without a comma")
c("C59", "proved", ["process_succeeds_iff", "page_settings", "process_images", "canvases_draw", "shown_distortion"], "format recognition and decoding are a parameter")
c("C60", "proved", ["shown_last_delivered", "shown_origin", "last_choice_shown", "stale_choice_shown", "demo_replaces_choice", "no_demo_no_choice"])
c("C61", "proved", ["extract_sees_block_sums", "extract_ignores_arrangement", "extract_ignores_depth_shift"], "exact arithmetic")
c("C62", "proved", ["embed_idempotent", "embed_again_float", "embed_again_double", "embed_again_exact"])
c("C63", "proved", ["embed_accepts_any_depth", "embed_bad_depth", "extract_bad_depth", "extract_ignores_sign", "write_negative_depth", "negative_depth_complements"], "double arithmetic with the two zeros identified; the complement statement is for the coefficient matrix, the other statements for embed and extract")
c("C64", "proved", ["quantization_step_zero", "quantization_step_zero_zero", "quantization_step_zero_negative", "step_zero_ignores_content", "step_zero_accepts_everything"], "double arithmetic; step +0.0")
c("C65", "proved", ["features_machine", "features_machine_abort", "features_f64_landscape", "features_f64_packed", "columnImage_feature_f64", "features_f64_accurate", "features_f64_vs_exact", "features_f64_range", "features_f64_symmetric", "features_f64_lipschitz", "features_f64_central", "idealLibm_lawful", "cornerImage_feature_f64"], "the mathematical library is a parameter constrained to errors of one unit in the last place (a library meeting this is exhibited)")
c("C66", "proved", ["marked_channel_authenticates_pixels_f64", "splitChannel_authenticates"], "equalisation, code and signature enter through their contracts; a concrete channel meets all hypotheses")
c("C67", "proved", ["factorial_f64_exact", "factorial_f64_accurate", "factorial_f64_overflow", "factorial_f64_between", "factorial_f64_huge", "factorial_f64_negative", "factorial_f64_fraction", "factorial_f64_special"], "gamma is the crate's function, a parameter")
c("C68", "proved", ["command_line_read", "command_line_unambiguous", "run_rejects", "run_without_work", "run_processes", "usual_command_line"], "getopts 0.2.21 is modelled from its published source, specialised to the options declared in main")
c("C69", "proved", ["cli_output_authenticates", "cli_batch_authenticates", "losslessWorld_authenticates"], "codec, equalisation, code and signature enter through hypotheses; a concrete world meets all of them")
c("C70", "proved", ["report_is_true", "report_counts", "report_process", "report_same_changes"], "usage text, panic messages and the library's debugging output not modelled")
c("C71", "proved", ["record_transplant", "text_not_covered", "other_picture_authenticates", "mirrored_features", "same_features_same_record", "mirrored_same_record"], "the mirrored case assumes that histogram equalisation depends only on value and histogram (proved for its documented formula)")
c("C72", "proved", ["quantization_manySteps", "dequantization_manySteps", "tiny_step_accepts_everything", "large_step_ignores_content", "large_step_program"], "too small: doubles; too large: exact arithmetic, and the program in doubles")
c("C73", "proved", ["shown_authenticates", "ready_file_processed", "session_authenticates", "flatWeb_session"], "canvas bytes as handed to the canvas; browsers that premultiply alpha may round the colours of translucent pixels, which counts as noise")
c("C74", "proved", ["exit_status", "exit_zero_files", "blocked_message"], "101 is the status of a panicking Rust main; codecs and file system enter as parameters")
c("C75", "proved", ["machine_embed", "machine_extract", "machine_watermark_channel", "machine_authenticate_channel", "machine_watermark", "builds_agree", "machine_no_features", "quantization_builds", "random_builds", "machine_wide", "machine_deep_inverse", "splitChannel_every_build"], "double arithmetic; the moments enter as a parameter (moduli, or NaN)")
c("C76", "proved", ["image_kept", "process_kept", "array_kept", "image_new_get", "set_width_get", "set_height_get", "set_data_get", "set_format_get", "process_new", "process_set", "moved_forever", "freed_forever", "get_source_fresh", "get_watermarked_fresh", "bytes_shared", "page_record", "page_record_always", "page_process", "page_text"], "the generated glue code of wasm-bindgen is modelled from its documentation; it is not in /repo")
c("C77", "proved", ["log_watermarkChannel", "log_authenticateChannel", "log_watermark", "feature_lines", "embed_lines", "mark_log", "mark_log_stage", "mark_log_prefix", "extract_lines", "auth_log", "auth_log_prefix", "auth_log_without_verdict", "record_reappears", "image_log", "library_line_is_no_report"], "A line is its label and the values printed; the rendering of the values by {:?} is not modelled.")
c("C78", "proved", ["effects_same", "effects_process", "output_closes", "process_output_closes", "closed_output_leaves_whole_files"], "println! panics when standard output fails (Rust std); a line is accepted whole or not at all.")
c("C79", "proved", ["features_count_f64", "features_finite", "many_features_lost", "empty_picture_lost", "single_pixel_lost", "features_all_or_none", "carefulLibm_lawful", "carefulLibm_special"], "the mathematical library is a parameter constrained by Libm.Lawful and Libm.Special (IEEE rules for NaN and infinities); one meeting both is exhibited")
c("C80", "proved", ["keyPair_of_secret", "builtin_publicOf", "builtin_keyPair", "builtin_sign_verify", "generated_sign_verify", "marked_channel_authenticates_rfc8032", "rfc8032_marks", "empty_record_authenticates_rfc8032"], "Ed25519 and SHA-512 are modelled from RFC 8032 and FIPS 180-4 with the checks of ed25519-dalek 1.0.1 and ed25519 1.5.2 (whose source is not in /repo); test vectors of the standards are proved of the model; marked_channel_authenticates_rfc8032 is conditional on DecodesClean")
c("C81", "proved", ["signature_tail_unique", "verify_iff_form", "signature_of_two_messages", "two_messages_collide", "accepted_cells_collide", "same_signature_same_cells"], "as C80; the group law, the primality of 2^255-19 and of the order of the base point are proved, not assumed")
c("C82", "proved", ["Ldpc.ccsds_systematic", "Ldpc.codewords_satisfy_checks", "Ldpc.codeword_unique", "Ldpc.codeword_iff", "LdpcCode.punctured_determined", "Ldpc.codewords_far", "Ldpc.ccsds_corrects_two", "Ldpc.ccsds_decodesClean", "Ldpc.ccsds_three_errors", "Ldpc.ccsds_not_three", "decode_encode_ccsds", "decode_corrects_two_bits", "extract_corrects_two_cells", "actual_contracts", "marked_channel_authenticates_actual", "marked_channel_authenticates_pixels_actual", "cli_output_authenticates_actual", "session_authenticates_actual", "actual_marks"], "parity-check matrices and decoder are modelled from the CCSDS standards (the generators are proved to follow from the matrices) and the documentation of labrador_ldpc (source not in /repo); the repository's own test of four wrong bits holds on the model (Tests/RepoTests.lean)")
c("C83", "proved", ["rne32_nearest", "equalizeSingle_formula", "equalizeSingle_near", "equalizeSingle_exact", "equalizeSingle_inexact", "equalizeSingle_order", "equalizeSingle_orderOnly", "equalizeSingle_idempotent", "equalizeSingle_stable", "program_features", "program_authenticates", "program_brightness", "program_equalised_features", "program_builds", "rampChannel_authenticates", "rampChannel_every_build"], "equalize_histogram is modelled from imageproc 0.23 (whose source is not in /repo), with counters that do not overflow; what stays assumed is Libm.Lawful and, for the builds, that hypot is never negative; rampChannel_authenticates meets all conditions of program_authenticates for a concrete picture")
c("C84", "proved", ["restored_cell_far", "dequantization_notices", "noticing_tight", "tampered_channel_verdict", "tampered_channel_authenticates", "tampered_channel_noticed", "program_notices", "upper_half_readable", "painted_white_noticed", "plainChannel_painted"], "program_notices is about the program with all its libraries; the only assumption left is Libm.Lawful; the exception is an explicit SHA-512 collision modulo the order of the base point")
c("C85", "proved", ["embed_outside", "embed_block", "watermarkChannel_outside", "watermark_outside", "lower_half_kept", "flat_picture_rejected"], "for every LawfulFloat arithmetic, exact and binary64; the rounding slack is explicit (embedSlack, at most 2^-26 for three levels in doubles)")
c("C86", "proved", ["dequantization_unchanged", "same_features_authenticate", "symmetric_cells", "self_marking_picture", "self_marking_image", "cli_self_marking"], "the libraries put in are the actual ones; hypot must return no negative number (besides its contract), which every hypot satisfies")
c("C87", "proved", ["extract_carries", "carried_payload", "carried_verdict", "symmetric_accepted", "symmetric_pictures_forgeable"], "for every LawfulFloat arithmetic (first three) and for binary64 with the actual libraries (last two)")
c("C88", "proved", ["watermark_colours", "watermark_exchanges", "watermark_grey", "mixed_colours_authenticate"], "GreyPixels (the pixels of a picture without colour have equal samples) is what get_pixel of the image crate returns")
c("C89", "proved", ["remarking_block", "remarking_channel", "remarking_exact", "remarking_tool", "remarking_program", "program_marks", "program_marks_again"], "blocks of double precision whose sum leaves the remainder 8 modulo 16 are excluded from remarking_tool: there the exact result is a tie and rounding decides")
c("C90", "proved", ["embed_replaces", "embed_again_exact", "embed_many", "last_marking", "marking_again", "last_marking_exact", "last_marking_tool", "marking_again_tool"], "block by block; blocks of double precision whose sum leaves the remainder 8 modulo 16 are excluded from the theorems about the tool, see C89")
c("C91", "proved", ["cli_generations", "clean_batch_writes", "cli_again_and_again", "cli_forever"], "lossless formats only; a lossy codec between two runs is outside the hypotheses")
c("C92", "proved", ["mean_never_drifts", "lossy_generations", "dimmed_for_ever", "cli_lossy_generations"], "losses are arbitrary pictures of the same size; the room condition is on the block in each generation")
c("C93", "proved", ["concurrent_runs", "concurrent_ends", "concurrent_result", "parallel_batch", "shared_output_races"], "steps: reading an input, each change of a file; the output folder exists; paths denote the same files throughout")
c("C94", "proved", ["recovery", "recovery_clean", "rerun_differs"], "a crash point is any number of the changes of a file (creation, each write) a run makes; the output folder exists")
c("C95", "proved", ["folders_made", "folder_made_iff", "tree_process", "tree_sound", "output_is_file", "output_is_empty"], "trees without links; other refusals of the system are a fixed set of places; mkdir, create_dir_all and path resolution follow POSIX and the Rust standard library, whose sources are not in /repo")
c("C96", "proved", ["output_resolves", "outputs_in_folder", "outName_injective", "tree_batch", "suffix_escapes", "toyHost_escapes", "own_folders_independent"], "as C95; unix paths")
c("C97", "proved", ["main_status", "main_no_words", "main_result", "main_safe", "main_usage", "usage_text", "main_usual", "toyHost_main"], "as C95; arguments are Unicode; getopts 0.2.21's rendering of the usage text is modelled for descriptions of at most 54 characters, which the tool's are")
c("C98", "proved", ["prepare_alone", "prepare_ends", "folder_race_safe", "folder_race_ends", "folder_race_made", "folder_race_apart", "folder_race_lost"], "tree as in C95 (no links); each system call is taken to be atomic; create_dir_all as in the Rust standard library; calls that fail for other reasons than those of the tree (disk full) are outside the model")
c("C99", "proved", ["tree_processes_safe", "tree_processes_alone", "tree_processes_end", "tree_processes_apart", "tree_processes_result"], "tree as in C95 (no links); opening and reading an input and finding the place of its output is one step, and so is each change of a file")
c("C100", "proved", ["shared_outputs", "shared_same_command", "shared_again", "shared_ends", "shared_settles", "shared_bytes", "shared_refines", "shared_mixed", "shared_killed"], "opening and reading an input is one step; the encoder writes from the beginning to the end (`World.Appends`, not needed for shared_bytes); output folder there before")
c("C101", "proved", ["follow_iff", "links_none", "link_output_there", "link_output_follows", "link_output_is_file", "links_safe", "links_outputs_in_folder", "link_batch", "link_replaces", "link_loop", "toyLinks_batch", "toyLinks_replaces"], "the output folder is there before (C102 has the making of it); hard links are in C103; unix path resolution with Linux's limit of 40 links")
c("C102", "proved", ["link_folders_made", "link_folders_exactly", "link_folder_there", "link_in_the_way", "link_folders_none", "link_run_here", "link_run_fails", "link_run", "link_run_safe", "link_run_batch", "link_folders_resume", "toyLinks_makes", "toyLinks_resume", "toyLinks_run"], "as C101; link_folders_exactly and link_in_the_way are for paths whose parts are proper names (no dots or empty parts); mkdir and create_dir_all follow POSIX and the Rust standard library, whose sources are not in /repo")
c("C103", "proved", ["hard_none", "hard_safe", "hard_new", "hard_batch", "hard_backup", "hard_input", "toyHard_new", "toyHard_backup", "toyHard_input"], "as C101 (the output folder is there before, outputs' names are not those of symbolic links in the batch statements)")
c("C104", "proved", ["link_main_status", "link_main_no_words", "link_main_usage", "link_main_result", "link_main_safe", "link_main_changed", "link_main_none", "link_main_usual", "link_process_ends", "link_empty_output", "toyLinks_main"], "as C97 (Unicode arguments, the usage text) and C102 (mkdir, create_dir_all, at most 40 links)")
c("C105", "proved", ["hard_run_here", "hard_run_fails", "hard_run", "hard_run_none", "hard_run_safe", "hard_run_new", "toyHard_makes", "toyHard_run"], "as C102 and C103")
c("C106", "proved", ["link_recovery", "link_run_part", "underway_step", "toyLinks_recovers"], "as C102; the crash points are those between two changes of the tree (C102's folders, then C101's changes of files); the tree itself is not changed by anyone else in between")
