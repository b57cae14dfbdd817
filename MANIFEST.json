{
 "claims": [
  {
   "property": "C01",
   "status": "proved",
   "theorems": [
    "Sia.dequantization_undoes_noise"
   ],
   "note": "exact real arithmetic, features below 2^61 steps (i64 range)"
  },
  {
   "property": "C02",
   "status": "proved",
   "theorems": [
    "Sia.dequantization_undoes_noise_float",
    "Sia.dequantization_double_counterexample"
   ],
   "note": ""
  },
  {
   "property": "C03",
   "status": "proved",
   "theorems": [
    "Sia.tolerance_tight_up",
    "Sia.tolerance_tight_down"
   ],
   "note": ""
  },
  {
   "property": "C04",
   "status": "proved",
   "theorems": [
    "Sia.quantization_contract"
   ],
   "note": "exact real arithmetic, features below 2^62 steps"
  },
  {
   "property": "C05",
   "status": "proved",
   "theorems": [
    "Sia.dequantization_succeeds_iff",
    "Sia.dequantization_ignores_rest",
    "Sia.quantization_min_aborts"
   ],
   "note": "every float type"
  },
  {
   "property": "C06",
   "status": "proved",
   "theorems": [
    "Sia.perturbation_roundtrip",
    "Sia.perturbation_bytes_format",
    "Sia.perturbation_ignores_unused_bits"
   ],
   "note": ""
  },
  {
   "property": "C07",
   "status": "proved",
   "theorems": [
    "Sia.watermark_roundtrip"
   ],
   "note": ""
  },
  {
   "property": "C08",
   "status": "proved",
   "theorems": [
    "Sia.watermark_serialize_iff",
    "Sia.watermark_serialize_length",
    "Sia.watermark_serialize_layout",
    "Sia.watermark_serialize_injective"
   ],
   "note": ""
  },
  {
   "property": "C09",
   "status": "proved",
   "theorems": [
    "Sia.watermark_parse_iff",
    "Sia.watermark_parse_sections",
    "Sia.watermark_parse_reserialize"
   ],
   "note": ""
  },
  {
   "property": "C10",
   "status": "proved",
   "theorems": [
    "Sia.data_serialize_spec",
    "Sia.data_roundtrip",
    "Sia.data_empty_not_readable",
    "Sia.data_parse_spec"
   ],
   "note": ""
  },
  {
   "property": "C100",
   "status": "proved",
   "theorems": [
    "Sia.shared_outputs",
    "Sia.shared_same_command",
    "Sia.shared_again",
    "Sia.shared_ends",
    "Sia.shared_settles",
    "Sia.shared_bytes",
    "Sia.shared_refines",
    "Sia.shared_mixed",
    "Sia.shared_killed"
   ],
   "note": "opening and reading an input is one step; the encoder writes from the beginning to the end (`World.Appends`, not needed for shared_bytes); output folder there before"
  },
  {
   "property": "C101",
   "status": "proved",
   "theorems": [
    "Sia.follow_iff",
    "Sia.links_none",
    "Sia.link_output_there",
    "Sia.link_output_follows",
    "Sia.link_output_is_file",
    "Sia.links_safe",
    "Sia.links_outputs_in_folder",
    "Sia.link_batch",
    "Sia.link_replaces",
    "Sia.link_loop",
    "Sia.toyLinks_batch",
    "Sia.toyLinks_replaces"
   ],
   "note": "the output folder is there before (C102 has the making of it); hard links are in C103; unix path resolution with Linux's limit of 40 links"
  },
  {
   "property": "C102",
   "status": "proved",
   "theorems": [
    "Sia.link_folders_made",
    "Sia.link_folders_exactly",
    "Sia.link_folder_there",
    "Sia.link_in_the_way",
    "Sia.link_folders_none",
    "Sia.link_run_here",
    "Sia.link_run_fails",
    "Sia.link_run",
    "Sia.link_run_safe",
    "Sia.link_run_batch",
    "Sia.link_folders_resume",
    "Sia.toyLinks_makes",
    "Sia.toyLinks_resume",
    "Sia.toyLinks_run"
   ],
   "note": "as C101; link_folders_exactly and link_in_the_way are for paths whose parts are proper names (no dots or empty parts); mkdir and create_dir_all follow POSIX and the Rust standard library, whose sources are not in /repo"
  },
  {
   "property": "C103",
   "status": "proved",
   "theorems": [
    "Sia.hard_none",
    "Sia.hard_safe",
    "Sia.hard_new",
    "Sia.hard_batch",
    "Sia.hard_backup",
    "Sia.hard_input",
    "Sia.toyHard_new",
    "Sia.toyHard_backup",
    "Sia.toyHard_input"
   ],
   "note": "as C101 (the output folder is there before, outputs' names are not those of symbolic links in the batch statements)"
  },
  {
   "property": "C104",
   "status": "proved",
   "theorems": [
    "Sia.link_main_status",
    "Sia.link_main_no_words",
    "Sia.link_main_usage",
    "Sia.link_main_result",
    "Sia.link_main_safe",
    "Sia.link_main_changed",
    "Sia.link_main_none",
    "Sia.link_main_usual",
    "Sia.link_process_ends",
    "Sia.link_empty_output",
    "Sia.toyLinks_main"
   ],
   "note": "as C97 (Unicode arguments, the usage text) and C102 (mkdir, create_dir_all, at most 40 links)"
  },
  {
   "property": "C105",
   "status": "proved",
   "theorems": [
    "Sia.hard_run_here",
    "Sia.hard_run_fails",
    "Sia.hard_run",
    "Sia.hard_run_none",
    "Sia.hard_run_safe",
    "Sia.hard_run_new",
    "Sia.toyHard_makes",
    "Sia.toyHard_run"
   ],
   "note": "as C102 and C103"
  },
  {
   "property": "C106",
   "status": "proved",
   "theorems": [
    "Sia.link_recovery",
    "Sia.link_run_part",
    "Sia.underway_step",
    "Sia.toyLinks_recovers"
   ],
   "note": "as C102; the crash points are those between two changes of the tree (C102's folders, then C101's changes of files); the tree itself is not changed by anyone else in between"
  },
  {
   "property": "C11",
   "status": "proved",
   "theorems": [
    "Sia.decode_encode"
   ],
   "note": "LDPC contract DecodesClean"
  },
  {
   "property": "C12",
   "status": "proved",
   "theorems": [
    "Sia.decode_corrects_blocks",
    "Sia.decode_corrects_bits",
    "Sia.decode_ignores_trailing"
   ],
   "note": ""
  },
  {
   "property": "C13",
   "status": "proved",
   "theorems": [
    "Sia.decode_encode_unsupported",
    "Sia.decode_encode_truncates",
    "Sia.decode_never_long",
    "Sia.code_tables_agree"
   ],
   "note": ""
  },
  {
   "property": "C14",
   "status": "proved",
   "theorems": [
    "Sia.encode_format",
    "Sia.encode_length",
    "Sia.decode_aborts"
   ],
   "note": ""
  },
  {
   "property": "C15",
   "status": "proved",
   "theorems": [
    "Sia.read_after_write_exact",
    "Sia.read_after_write_float",
    "Sia.read_write_rest"
   ],
   "note": ""
  },
  {
   "property": "C16",
   "status": "proved",
   "theorems": [
    "Sia.write_tall_aborts",
    "Sia.read_tall_aborts",
    "Sia.read_wide_collides",
    "Sia.write_wide_loses"
   ],
   "note": ""
  },
  {
   "property": "C17",
   "status": "proved",
   "theorems": [
    "Sia.read_write_noise",
    "Sia.noise_margin_tight",
    "Sia.read_write_noise_float"
   ],
   "note": ""
  },
  {
   "property": "C18",
   "status": "proved",
   "theorems": [
    "Sia.write_changes_exact",
    "Sia.write_values_exact",
    "Sia.write_changes_float",
    "Sia.write_refuses_excess"
   ],
   "note": ""
  },
  {
   "property": "C19",
   "status": "proved",
   "theorems": [
    "Sia.dwt_perfect_reconstruction",
    "Sia.dwt_succeeds_iff",
    "Sia.dwt_reconstruction_float"
   ],
   "note": ""
  },
  {
   "property": "C20",
   "status": "proved",
   "theorems": [
    "Sia.dwt_preserves_energy"
   ],
   "note": ""
  },
  {
   "property": "C21",
   "status": "proved",
   "theorems": [
    "Sia.lowLow_is_block_sum",
    "Sia.lowLow_change_spreads"
   ],
   "note": ""
  },
  {
   "property": "C22",
   "status": "proved",
   "theorems": [
    "Sia.extract_embed",
    "Sia.extract_tolerates_noise_exact",
    "Sia.extract_tolerates_noise_double"
   ],
   "note": "conditional on the LDPC contract DecodesClean"
  },
  {
   "property": "C23",
   "status": "proved",
   "theorems": [
    "Sia.embed_distortion",
    "Sia.embed_distortion_float"
   ],
   "note": ""
  },
  {
   "property": "C24",
   "status": "proved",
   "theorems": [
    "Sia.extract_tolerates_noise",
    "Sia.extract_tolerates_noise_exact",
    "Sia.extract_tolerates_noise_double"
   ],
   "note": "conditional on the LDPC contract DecodesClean"
  },
  {
   "property": "C25",
   "status": "proved",
   "theorems": [
    "Sia.black_reads_ones",
    "Sia.black_image_loses",
    "Sia.black_image_counterexample"
   ],
   "note": ""
  },
  {
   "property": "C26",
   "status": "proved",
   "theorems": [
    "Sia.embed_succeeds_iff",
    "Sia.embed_reports"
   ],
   "note": ""
  },
  {
   "property": "C27",
   "status": "proved",
   "theorems": [
    "Sia.accepted_but_lost",
    "Sia.unsupported_capacity_loses"
   ],
   "note": ""
  },
  {
   "property": "C28",
   "status": "proved",
   "theorems": [
    "Sia.u16_bytes_roundtrip",
    "Sia.u16_bytes_format",
    "Sia.u16_bytes_parse",
    "Sia.u16_bytes_injective",
    "Sia.i64_bytes_roundtrip",
    "Sia.i64_bytes_length",
    "Sia.i64_bytes_format",
    "Sia.i64_bytes_parse",
    "Sia.i64_bytes_injective"
   ],
   "note": ""
  },
  {
   "property": "C29",
   "status": "proved",
   "theorems": [
    "Sia.decodeHex_encodeHex",
    "Sia.encodeHex_format",
    "Sia.encodeHex_injective",
    "Sia.decodeHex_even_ascii",
    "Sia.decodeHex_odd_ascii",
    "Sia.decodeHex_case_and_plus"
   ],
   "note": ""
  },
  {
   "property": "C30",
   "status": "proved",
   "theorems": [
    "Sia.features_count",
    "Sia.features_square",
    "Sia.features_packed",
    "Sia.columnImage_feature",
    "Sia.features_abort",
    "Sia.features_other_types",
    "Sia.features_count_f64"
   ],
   "note": "exact real/complex arithmetic, except features_count_f64 (doubles, all sizes)"
  },
  {
   "property": "C31",
   "status": "proved",
   "theorems": [
    "Sia.features_symmetric"
   ],
   "note": "exact real/complex arithmetic"
  },
  {
   "property": "C32",
   "status": "proved",
   "theorems": [
    "Sia.features_central",
    "Sia.features_constant"
   ],
   "note": "exact real/complex arithmetic"
  },
  {
   "property": "C33",
   "status": "proved",
   "theorems": [
    "Sia.radial_is_zernike",
    "Sia.zernikeRadial_one",
    "Sia.zernikeRadial_parity"
   ],
   "note": "exact real arithmetic"
  },
  {
   "property": "C34",
   "status": "proved",
   "theorems": [
    "Sia.toPolar_unit_disc"
   ],
   "note": "exact real arithmetic"
  },
  {
   "property": "C35",
   "status": "proved",
   "theorems": [
    "Sia.factorial_natural",
    "Sia.factorial_negative_diverges",
    "Sia.factorial_non_integer"
   ],
   "note": "exact real arithmetic"
  },
  {
   "property": "C36",
   "status": "proved",
   "theorems": [
    "Sia.watermark_keeps_shape_and_alpha",
    "Sia.watermark_result_channels",
    "Sia.luma_grey"
   ],
   "note": ""
  },
  {
   "property": "C37",
   "status": "proved",
   "theorems": [
    "Sia.watermark_accepts_channels",
    "Sia.watermark_result_channels",
    "Sia.watermark_channel_independent"
   ],
   "note": ""
  },
  {
   "property": "C38",
   "status": "proved",
   "theorems": [
    "Sia.marked_channel_authenticates",
    "Sia.marked_channel_authenticates_float",
    "Sia.marked_channel_verdict",
    "Sia.marked_channel_authenticates_pixels",
    "Sia.watermark_channels_authenticate",
    "Sia.equalizedFeatures_exact"
   ],
   "note": "conditional on the library contracts DecodesClean and Ed25519.KeyPair, shown satisfiable (testChannel_authenticates)"
  },
  {
   "property": "C39",
   "status": "proved",
   "theorems": [
    "Sia.authenticate_iff",
    "Sia.accepted_cells_are_signed",
    "Sia.equalizedFeatures_exact"
   ],
   "note": "second half conditional on DecodesClean and Ed25519.KeyPair"
  },
  {
   "property": "C40",
   "status": "proved",
   "theorems": [
    "Sia.authenticate_checks_prefix",
    "Sia.authenticate_no_bits",
    "Sia.authenticate_too_many_bits",
    "Sia.empty_record_authenticates"
   ],
   "note": ""
  },
  {
   "property": "C41",
   "status": "proved",
   "theorems": [
    "Sia.watermark_refuses_feature_counts",
    "Sia.watermark_refuses_empty",
    "Sia.watermark_refuses_portrait",
    "Sia.watermark_square_iff",
    "Sia.watermark_landscape_iff",
    "Sia.watermark_refuses_landscape",
    "Sia.watermark_accepts_iff",
    "Sia.smallest_accepted_side",
    "Sia.program_marks"
   ],
   "note": ""
  },
  {
   "property": "C42",
   "status": "proved",
   "theorems": [
    "Sia.generateUnit_spec",
    "Sia.units_spec",
    "Sia.generate_range",
    "Sia.unit_maps_into_interval",
    "Sia.generate_reaches_upper"
   ],
   "note": "IEEE binary64"
  },
  {
   "property": "C43",
   "status": "proved",
   "theorems": [
    "Sia.batch_completes",
    "Sia.batch_frame",
    "Sia.batch_interrupted",
    "Sia.batch_stops",
    "Sia.batch_without_suffix",
    "Sia.process_with_suffix",
    "Sia.main_without_work",
    "Sia.main_processes",
    "Sia.output_name_differs",
    "Sia.equal_names_collide",
    "Sia.later_input_overwritten",
    "Sia.toyWorld_clean"
   ],
   "note": "codecs and path resolution are parameters; argument parsing is C68"
  },
  {
   "property": "C44",
   "status": "proved",
   "theorems": [
    "Sia.elapsed_truncates"
   ],
   "note": ""
  },
  {
   "property": "C45",
   "status": "proved",
   "theorems": [
    "Sia.nested_vector_to_matrix",
    "Sia.nested_vector_accepts_iff",
    "Sia.ragged_vector_reshaped"
   ],
   "note": ""
  },
  {
   "property": "C46",
   "status": "proved",
   "theorems": [
    "Sia.extract_black_aborts",
    "Sia.extract_black_aborts_double",
    "Sia.authenticate_black_aborts",
    "Sia.authenticate_black_aborts_double"
   ],
   "note": ""
  },
  {
   "property": "C47",
   "status": "proved",
   "theorems": [
    "Sia.extract_corrects_damage",
    "Sia.Ldpc.nearest_corrects"
   ],
   "note": "conditional on the LDPC contract CorrectsBits, shown satisfiable"
  },
  {
   "property": "C48",
   "status": "proved",
   "theorems": [
    "Sia.extract_misaligned_aborts",
    "Sia.embed_accepts_misaligned"
   ],
   "note": ""
  },
  {
   "property": "C49",
   "status": "proved",
   "theorems": [
    "Sia.zernikeRadial_bound",
    "Sia.features_bounded",
    "Sia.features_lipschitz",
    "Sia.features_bounded_255",
    "Sia.marked_channel_authenticates_pixels"
   ],
   "note": "exact real/complex arithmetic"
  },
  {
   "property": "C50",
   "status": "proved",
   "theorems": [
    "Sia.sign_verify_roundtrip",
    "Sia.sign_spec",
    "Sia.verify_spec",
    "Sia.verify_bad_length_aborts"
   ],
   "note": "Ed25519 library is a parameter"
  },
  {
   "property": "C51",
   "status": "proved",
   "theorems": [
    "Sia.readableSide_iff",
    "Sia.marked_unreadable_side",
    "Sia.marked_readable_side",
    "Sia.marked_channel_authenticates"
   ],
   "note": ""
  },
  {
   "property": "C52",
   "status": "proved",
   "theorems": [
    "Sia.authenticate_nonsquare_aborts"
   ],
   "note": ""
  },
  {
   "property": "C53",
   "status": "proved",
   "theorems": [
    "Sia.features_orderOnly",
    "Sia.brightness_tolerated",
    "Sia.equalizeExact_orderOnly",
    "Sia.equalizeExact_spec"
   ],
   "note": "contract OrderOnly on histogram equalisation, proved for its documented exact form"
  },
  {
   "property": "C54",
   "status": "proved",
   "theorems": [
    "Sia.watermarkChannel_distortion",
    "Sia.watermarkChannel_distortion_float",
    "Sia.watermark_distortion",
    "Sia.watermark_distortion_float"
   ],
   "note": ""
  },
  {
   "property": "C55",
   "status": "proved",
   "theorems": [
    "Sia.double_quotient_floor",
    "Sia.double_quotient_ceil",
    "Sia.columnAndRow_double",
    "Sia.getCapacity_double"
   ],
   "note": ""
  },
  {
   "property": "C56",
   "status": "proved",
   "theorems": [
    "Sia.assertApprox_sound",
    "Sia.assertApprox1d_iff",
    "Sia.assertApprox1d_nil",
    "Sia.assertApproxPair_iff",
    "Sia.assertApprox2d_iff"
   ],
   "note": ""
  },
  {
   "property": "C57",
   "status": "proved",
   "theorems": [
    "Sia.wavelet_details",
    "Sia.lowLow_is_block_sum"
   ],
   "note": "exact arithmetic"
  },
  {
   "property": "C58",
   "status": "proved",
   "theorems": [
    "Sia.atob_base64",
    "Sia.atob_bad",
    "Sia.atob_ignores_space",
    "Sia.dataUrl_decoded",
    "Sia.file_decoded"
   ],
   "note": "browser's atob and readAsDataURL are modelled from their specifications; the file statement is for media types without a comma"
  },
  {
   "property": "C59",
   "status": "proved",
   "theorems": [
    "Sia.process_succeeds_iff",
    "Sia.page_settings",
    "Sia.process_images",
    "Sia.canvases_draw",
    "Sia.shown_distortion"
   ],
   "note": "format recognition and decoding are a parameter"
  },
  {
   "property": "C60",
   "status": "proved",
   "theorems": [
    "Sia.shown_last_delivered",
    "Sia.shown_origin",
    "Sia.last_choice_shown",
    "Sia.stale_choice_shown",
    "Sia.demo_replaces_choice",
    "Sia.no_demo_no_choice"
   ],
   "note": ""
  },
  {
   "property": "C61",
   "status": "proved",
   "theorems": [
    "Sia.extract_sees_block_sums",
    "Sia.extract_ignores_arrangement",
    "Sia.extract_ignores_depth_shift"
   ],
   "note": "exact arithmetic"
  },
  {
   "property": "C62",
   "status": "proved",
   "theorems": [
    "Sia.embed_idempotent",
    "Sia.embed_again_float",
    "Sia.embed_again_double",
    "Sia.embed_again_exact"
   ],
   "note": ""
  },
  {
   "property": "C63",
   "status": "proved",
   "theorems": [
    "Sia.embed_accepts_any_depth",
    "Sia.embed_bad_depth",
    "Sia.extract_bad_depth",
    "Sia.extract_ignores_sign",
    "Sia.write_negative_depth",
    "Sia.negative_depth_complements"
   ],
   "note": "double arithmetic with the two zeros identified; the complement statement is for the coefficient matrix, the other statements for embed and extract"
  },
  {
   "property": "C64",
   "status": "proved",
   "theorems": [
    "Sia.quantization_step_zero",
    "Sia.quantization_step_zero_zero",
    "Sia.quantization_step_zero_negative",
    "Sia.step_zero_ignores_content",
    "Sia.step_zero_accepts_everything"
   ],
   "note": "double arithmetic; step +0.0"
  },
  {
   "property": "C65",
   "status": "proved",
   "theorems": [
    "Sia.features_machine",
    "Sia.features_machine_abort",
    "Sia.features_f64_landscape",
    "Sia.features_f64_packed",
    "Sia.columnImage_feature_f64",
    "Sia.features_f64_accurate",
    "Sia.features_f64_vs_exact",
    "Sia.features_f64_range",
    "Sia.features_f64_symmetric",
    "Sia.features_f64_lipschitz",
    "Sia.features_f64_central",
    "Sia.idealLibm_lawful",
    "Sia.cornerImage_feature_f64"
   ],
   "note": "the mathematical library is a parameter constrained to errors of one unit in the last place (a library meeting this is exhibited)"
  },
  {
   "property": "C66",
   "status": "proved",
   "theorems": [
    "Sia.marked_channel_authenticates_pixels_f64",
    "Sia.splitChannel_authenticates"
   ],
   "note": "equalisation, code and signature enter through their contracts; a concrete channel meets all hypotheses"
  },
  {
   "property": "C67",
   "status": "proved",
   "theorems": [
    "Sia.factorial_f64_exact",
    "Sia.factorial_f64_accurate",
    "Sia.factorial_f64_overflow",
    "Sia.factorial_f64_between",
    "Sia.factorial_f64_huge",
    "Sia.factorial_f64_negative",
    "Sia.factorial_f64_fraction",
    "Sia.factorial_f64_special"
   ],
   "note": "gamma is the crate's function, a parameter"
  },
  {
   "property": "C68",
   "status": "proved",
   "theorems": [
    "Sia.command_line_read",
    "Sia.command_line_unambiguous",
    "Sia.run_rejects",
    "Sia.run_without_work",
    "Sia.run_processes",
    "Sia.usual_command_line"
   ],
   "note": "getopts 0.2.21 is modelled from its published source, specialised to the options declared in main"
  },
  {
   "property": "C69",
   "status": "proved",
   "theorems": [
    "Sia.cli_output_authenticates",
    "Sia.cli_batch_authenticates",
    "Sia.losslessWorld_authenticates"
   ],
   "note": "codec, equalisation, code and signature enter through hypotheses; a concrete world meets all of them"
  },
  {
   "property": "C70",
   "status": "proved",
   "theorems": [
    "Sia.report_is_true",
    "Sia.report_counts",
    "Sia.report_process",
    "Sia.report_same_changes"
   ],
   "note": "usage text, panic messages and the library's debugging output not modelled"
  },
  {
   "property": "C71",
   "status": "proved",
   "theorems": [
    "Sia.record_transplant",
    "Sia.text_not_covered",
    "Sia.other_picture_authenticates",
    "Sia.mirrored_features",
    "Sia.same_features_same_record",
    "Sia.mirrored_same_record"
   ],
   "note": "the mirrored case assumes that histogram equalisation depends only on value and histogram (proved for its documented formula)"
  },
  {
   "property": "C72",
   "status": "proved",
   "theorems": [
    "Sia.quantization_manySteps",
    "Sia.dequantization_manySteps",
    "Sia.tiny_step_accepts_everything",
    "Sia.large_step_ignores_content",
    "Sia.large_step_program"
   ],
   "note": "too small: doubles; too large: exact arithmetic, and the program in doubles"
  },
  {
   "property": "C73",
   "status": "proved",
   "theorems": [
    "Sia.shown_authenticates",
    "Sia.ready_file_processed",
    "Sia.session_authenticates",
    "Sia.flatWeb_session"
   ],
   "note": "canvas bytes as handed to the canvas; browsers that premultiply alpha may round the colours of translucent pixels, which counts as noise"
  },
  {
   "property": "C74",
   "status": "proved",
   "theorems": [
    "Sia.exit_status",
    "Sia.exit_zero_files",
    "Sia.blocked_message"
   ],
   "note": "101 is the status of a panicking Rust main; codecs and file system enter as parameters"
  },
  {
   "property": "C75",
   "status": "proved",
   "theorems": [
    "Sia.machine_embed",
    "Sia.machine_extract",
    "Sia.machine_watermark_channel",
    "Sia.machine_authenticate_channel",
    "Sia.machine_watermark",
    "Sia.builds_agree",
    "Sia.machine_no_features",
    "Sia.quantization_builds",
    "Sia.random_builds",
    "Sia.machine_wide",
    "Sia.machine_deep_inverse",
    "Sia.splitChannel_every_build"
   ],
   "note": "double arithmetic; the moments enter as a parameter (moduli, or NaN)"
  },
  {
   "property": "C76",
   "status": "proved",
   "theorems": [
    "Sia.image_kept",
    "Sia.process_kept",
    "Sia.array_kept",
    "Sia.image_new_get",
    "Sia.set_width_get",
    "Sia.set_height_get",
    "Sia.set_data_get",
    "Sia.set_format_get",
    "Sia.process_new",
    "Sia.process_set",
    "Sia.moved_forever",
    "Sia.freed_forever",
    "Sia.get_source_fresh",
    "Sia.get_watermarked_fresh",
    "Sia.bytes_shared",
    "Sia.page_record",
    "Sia.page_record_always",
    "Sia.page_process",
    "Sia.page_text"
   ],
   "note": "the generated glue code of wasm-bindgen is modelled from its documentation; it is not in /repo"
  },
  {
   "property": "C77",
   "status": "proved",
   "theorems": [
    "Sia.log_watermarkChannel",
    "Sia.log_authenticateChannel",
    "Sia.log_watermark",
    "Sia.feature_lines",
    "Sia.embed_lines",
    "Sia.mark_log",
    "Sia.mark_log_stage",
    "Sia.mark_log_prefix",
    "Sia.extract_lines",
    "Sia.auth_log",
    "Sia.auth_log_prefix",
    "Sia.auth_log_without_verdict",
    "Sia.record_reappears",
    "Sia.image_log",
    "Sia.library_line_is_no_report"
   ],
   "note": "A line is its label and the values printed; the rendering of the values by {:?} is not modelled."
  },
  {
   "property": "C78",
   "status": "proved",
   "theorems": [
    "Sia.effects_same",
    "Sia.effects_process",
    "Sia.output_closes",
    "Sia.process_output_closes",
    "Sia.closed_output_leaves_whole_files"
   ],
   "note": "println! panics when standard output fails (Rust std); a line is accepted whole or not at all."
  },
  {
   "property": "C79",
   "status": "proved",
   "theorems": [
    "Sia.features_count_f64",
    "Sia.features_finite",
    "Sia.many_features_lost",
    "Sia.empty_picture_lost",
    "Sia.single_pixel_lost",
    "Sia.features_all_or_none",
    "Sia.carefulLibm_lawful",
    "Sia.carefulLibm_special"
   ],
   "note": "the mathematical library is a parameter constrained by Libm.Lawful and Libm.Special (IEEE rules for NaN and infinities); one meeting both is exhibited"
  },
  {
   "property": "C80",
   "status": "proved",
   "theorems": [
    "Sia.keyPair_of_secret",
    "Sia.builtin_publicOf",
    "Sia.builtin_keyPair",
    "Sia.builtin_sign_verify",
    "Sia.generated_sign_verify",
    "Sia.marked_channel_authenticates_rfc8032",
    "Sia.rfc8032_marks",
    "Sia.empty_record_authenticates_rfc8032"
   ],
   "note": "Ed25519 and SHA-512 are modelled from RFC 8032 and FIPS 180-4 with the checks of ed25519-dalek 1.0.1 and ed25519 1.5.2 (whose source is not in /repo); test vectors of the standards are proved of the model; marked_channel_authenticates_rfc8032 is conditional on DecodesClean"
  },
  {
   "property": "C81",
   "status": "proved",
   "theorems": [
    "Sia.signature_tail_unique",
    "Sia.verify_iff_form",
    "Sia.signature_of_two_messages",
    "Sia.two_messages_collide",
    "Sia.accepted_cells_collide",
    "Sia.same_signature_same_cells"
   ],
   "note": "as C80; the group law, the primality of 2^255-19 and of the order of the base point are proved, not assumed"
  },
  {
   "property": "C82",
   "status": "proved",
   "theorems": [
    "Sia.Ldpc.ccsds_systematic",
    "Sia.Ldpc.codewords_satisfy_checks",
    "Sia.Ldpc.codeword_unique",
    "Sia.Ldpc.codeword_iff",
    "Sia.LdpcCode.punctured_determined",
    "Sia.Ldpc.codewords_far",
    "Sia.Ldpc.ccsds_corrects_two",
    "Sia.Ldpc.ccsds_decodesClean",
    "Sia.Ldpc.ccsds_three_errors",
    "Sia.Ldpc.ccsds_not_three",
    "Sia.decode_encode_ccsds",
    "Sia.decode_corrects_two_bits",
    "Sia.extract_corrects_two_cells",
    "Sia.actual_contracts",
    "Sia.marked_channel_authenticates_actual",
    "Sia.marked_channel_authenticates_pixels_actual",
    "Sia.cli_output_authenticates_actual",
    "Sia.session_authenticates_actual",
    "Sia.actual_marks"
   ],
   "note": "parity-check matrices and decoder are modelled from the CCSDS standards (the generators are proved to follow from the matrices) and the documentation of labrador_ldpc (source not in /repo); the repository's own test of four wrong bits holds on the model (Tests/RepoTests.lean)"
  },
  {
   "property": "C83",
   "status": "proved",
   "theorems": [
    "Sia.rne32_nearest",
    "Sia.equalizeSingle_formula",
    "Sia.equalizeSingle_near",
    "Sia.equalizeSingle_exact",
    "Sia.equalizeSingle_inexact",
    "Sia.equalizeSingle_order",
    "Sia.equalizeSingle_orderOnly",
    "Sia.equalizeSingle_idempotent",
    "Sia.equalizeSingle_stable",
    "Sia.program_features",
    "Sia.program_authenticates",
    "Sia.program_brightness",
    "Sia.program_equalised_features",
    "Sia.program_builds",
    "Sia.rampChannel_authenticates",
    "Sia.rampChannel_every_build"
   ],
   "note": "equalize_histogram is modelled from imageproc 0.23 (whose source is not in /repo), with counters that do not overflow; what stays assumed is Libm.Lawful and, for the builds, that hypot is never negative; rampChannel_authenticates meets all conditions of program_authenticates for a concrete picture"
  },
  {
   "property": "C84",
   "status": "proved",
   "theorems": [
    "Sia.restored_cell_far",
    "Sia.dequantization_notices",
    "Sia.noticing_tight",
    "Sia.tampered_channel_verdict",
    "Sia.tampered_channel_authenticates",
    "Sia.tampered_channel_noticed",
    "Sia.program_notices",
    "Sia.upper_half_readable",
    "Sia.painted_white_noticed",
    "Sia.plainChannel_painted"
   ],
   "note": "program_notices is about the program with all its libraries; the only assumption left is Libm.Lawful; the exception is an explicit SHA-512 collision modulo the order of the base point"
  },
  {
   "property": "C85",
   "status": "proved",
   "theorems": [
    "Sia.embed_outside",
    "Sia.embed_block",
    "Sia.watermarkChannel_outside",
    "Sia.watermark_outside",
    "Sia.lower_half_kept",
    "Sia.flat_picture_rejected"
   ],
   "note": "for every LawfulFloat arithmetic, exact and binary64; the rounding slack is explicit (embedSlack, at most 2^-26 for three levels in doubles)"
  },
  {
   "property": "C86",
   "status": "proved",
   "theorems": [
    "Sia.dequantization_unchanged",
    "Sia.same_features_authenticate",
    "Sia.symmetric_cells",
    "Sia.self_marking_picture",
    "Sia.self_marking_image",
    "Sia.cli_self_marking"
   ],
   "note": "the libraries put in are the actual ones; hypot must return no negative number (besides its contract), which every hypot satisfies"
  },
  {
   "property": "C87",
   "status": "proved",
   "theorems": [
    "Sia.extract_carries",
    "Sia.carried_payload",
    "Sia.carried_verdict",
    "Sia.symmetric_accepted",
    "Sia.symmetric_pictures_forgeable"
   ],
   "note": "for every LawfulFloat arithmetic (first three) and for binary64 with the actual libraries (last two)"
  },
  {
   "property": "C88",
   "status": "proved",
   "theorems": [
    "Sia.watermark_colours",
    "Sia.watermark_exchanges",
    "Sia.watermark_grey",
    "Sia.mixed_colours_authenticate"
   ],
   "note": "GreyPixels (the pixels of a picture without colour have equal samples) is what get_pixel of the image crate returns"
  },
  {
   "property": "C89",
   "status": "proved",
   "theorems": [
    "Sia.remarking_block",
    "Sia.remarking_channel",
    "Sia.remarking_exact",
    "Sia.remarking_tool",
    "Sia.remarking_program",
    "Sia.program_marks",
    "Sia.program_marks_again"
   ],
   "note": "blocks of double precision whose sum leaves the remainder 8 modulo 16 are excluded from remarking_tool: there the exact result is a tie and rounding decides"
  },
  {
   "property": "C90",
   "status": "proved",
   "theorems": [
    "Sia.embed_replaces",
    "Sia.embed_again_exact",
    "Sia.embed_many",
    "Sia.last_marking",
    "Sia.marking_again",
    "Sia.last_marking_exact",
    "Sia.last_marking_tool",
    "Sia.marking_again_tool"
   ],
   "note": "block by block; blocks of double precision whose sum leaves the remainder 8 modulo 16 are excluded from the theorems about the tool, see C89"
  },
  {
   "property": "C91",
   "status": "proved",
   "theorems": [
    "Sia.cli_generations",
    "Sia.clean_batch_writes",
    "Sia.cli_again_and_again",
    "Sia.cli_forever"
   ],
   "note": "lossless formats only; a lossy codec between two runs is outside the hypotheses"
  },
  {
   "property": "C92",
   "status": "proved",
   "theorems": [
    "Sia.mean_never_drifts",
    "Sia.lossy_generations",
    "Sia.dimmed_for_ever",
    "Sia.cli_lossy_generations"
   ],
   "note": "losses are arbitrary pictures of the same size; the room condition is on the block in each generation"
  },
  {
   "property": "C93",
   "status": "proved",
   "theorems": [
    "Sia.concurrent_runs",
    "Sia.concurrent_ends",
    "Sia.concurrent_result",
    "Sia.parallel_batch",
    "Sia.shared_output_races"
   ],
   "note": "steps: reading an input, each change of a file; the output folder exists; paths denote the same files throughout"
  },
  {
   "property": "C94",
   "status": "proved",
   "theorems": [
    "Sia.recovery",
    "Sia.recovery_clean",
    "Sia.rerun_differs"
   ],
   "note": "a crash point is any number of the changes of a file (creation, each write) a run makes; the output folder exists"
  },
  {
   "property": "C95",
   "status": "proved",
   "theorems": [
    "Sia.folders_made",
    "Sia.folder_made_iff",
    "Sia.tree_process",
    "Sia.tree_sound",
    "Sia.output_is_file",
    "Sia.output_is_empty"
   ],
   "note": "trees without links; other refusals of the system are a fixed set of places; mkdir, create_dir_all and path resolution follow POSIX and the Rust standard library, whose sources are not in /repo"
  },
  {
   "property": "C96",
   "status": "proved",
   "theorems": [
    "Sia.output_resolves",
    "Sia.outputs_in_folder",
    "Sia.outName_injective",
    "Sia.tree_batch",
    "Sia.suffix_escapes",
    "Sia.toyHost_escapes",
    "Sia.own_folders_independent"
   ],
   "note": "as C95; unix paths"
  },
  {
   "property": "C97",
   "status": "proved",
   "theorems": [
    "Sia.main_status",
    "Sia.main_no_words",
    "Sia.main_result",
    "Sia.main_safe",
    "Sia.main_usage",
    "Sia.usage_text",
    "Sia.main_usual",
    "Sia.toyHost_main"
   ],
   "note": "as C95; arguments are Unicode; getopts 0.2.21's rendering of the usage text is modelled for descriptions of at most 54 characters, which the tool's are"
  },
  {
   "property": "C98",
   "status": "proved",
   "theorems": [
    "Sia.prepare_alone",
    "Sia.prepare_ends",
    "Sia.folder_race_safe",
    "Sia.folder_race_ends",
    "Sia.folder_race_made",
    "Sia.folder_race_apart",
    "Sia.folder_race_lost"
   ],
   "note": "tree as in C95 (no links); each system call is taken to be atomic; create_dir_all as in the Rust standard library; calls that fail for other reasons than those of the tree (disk full) are outside the model"
  },
  {
   "property": "C99",
   "status": "proved",
   "theorems": [
    "Sia.tree_processes_safe",
    "Sia.tree_processes_alone",
    "Sia.tree_processes_end",
    "Sia.tree_processes_apart",
    "Sia.tree_processes_result"
   ],
   "note": "tree as in C95 (no links); opening and reading an input and finding the place of its output is one step, and so is each change of a file"
  }
 ]
}