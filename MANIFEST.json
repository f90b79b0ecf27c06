{
 "claims": [
  {
   "property": "C01",
   "status": "proved",
   "theorems": [
    "Hyp.ListUtils.C01_split_list_partition",
    "Hyp.ListUtils.C01_split_list_balanced",
    "Hyp.ListUtils.C01_split_list_out_of_range"
   ],
   "note": "Exact floor(idx*n/P) cut points in Nat arithmetic (Python computes them in float64: modelled as exact)."
  },
  {
   "property": "C02",
   "status": "proved",
   "theorems": [
    "Hyp.ListUtils.C02_group_split_partition",
    "Hyp.ListUtils.C02_group_split_keeps_groups",
    "Hyp.ListUtils.C02_group_split_order",
    "Hyp.ListUtils.C02_group_split_empty_raises"
   ],
   "note": ""
  },
  {
   "property": "C03",
   "status": "proved",
   "theorems": [
    "Hyp.ListUtils.C03_ismember",
    "Hyp.ListUtils.C03_intersect",
    "Hyp.ListUtils.C03_sort"
   ],
   "note": ""
  },
  {
   "property": "C04",
   "status": "proved",
   "theorems": [
    "Hyp.Scp.C04_scp_round_trip",
    "Hyp.Scp.C04_empty_file_raises"
   ],
   "note": "Empty list: load of the empty file raises IndexError (C04_empty_file_raises), so the property is stated for non-empty lists."
  },
  {
   "property": "C05",
   "status": "proved",
   "theorems": [
    "Hyp.Scp.C05_entries_stay_together",
    "Hyp.Scp.C05_lookup",
    "Hyp.Scp.C05_sort_shuffle",
    "Hyp.Scp.C05_merge_concat",
    "Hyp.Scp.C05_eq",
    "Hyp.Scp.C05_getitem_position"
   ],
   "note": "merge drops the offset (range) column of the whole result when the first list has none; stated explicitly."
  },
  {
   "property": "C06",
   "status": "proved",
   "theorems": [
    "Hyp.Scp.C06_filter_keep",
    "Hyp.Scp.C06_filter_drop",
    "Hyp.Scp.C06_filter_paths",
    "Hyp.Scp.C06_filter_index"
   ],
   "note": ""
  },
  {
   "property": "C07",
   "status": "partial",
   "theorems": [
    "Hyp.Scp.C07_split_merge_partial",
    "Hyp.Scp.C07_group_split",
    "Hyp.Scp.C07_split_merge_loses_ranges"
   ],
   "note": "False when there are ranges and more parts than entries: an empty part has range None and merge drops all ranges (witness C07_split_merge_loses_ranges). Proved otherwise."
  },
  {
   "property": "C08",
   "status": "proved",
   "theorems": [
    "Hyp.Trials.C08_merge_is_union",
    "Hyp.Trials.C08_merge_comm_idem",
    "Hyp.Trials.C08_merge_assoc"
   ],
   "note": ""
  },
  {
   "property": "C09",
   "status": "proved",
   "theorems": [
    "Hyp.Trials.C09_filter_keep",
    "Hyp.Trials.C09_filter_drop"
   ],
   "note": ""
  },
  {
   "property": "C10",
   "status": "proved",
   "theorems": [
    "Hyp.Trials.C10_split_partition",
    "Hyp.Trials.C10_split_merge"
   ],
   "note": ""
  },
  {
   "property": "C100",
   "status": "proved",
   "theorems": [
    "Hyp.H5.C100_merge",
    "Hyp.H5.C100_duplicate_raises",
    "Hyp.H5.C100_empty_input_raises",
    "Hyp.H5.C100_compressed_lost",
    "Hyp.H5.C100_read_slice"
   ],
   "note": ""
  },
  {
   "property": "C101",
   "status": "proved",
   "theorems": [
    "Hyp.Calib.C101_llr",
    "Hyp.Calib.C101_posterior_odds",
    "Hyp.Calib.C101_order",
    "Hyp.Calib.C101_fit_values",
    "Hyp.Calib.C101_unweighted",
    "Hyp.Calib.C101_weight_scale",
    "Hyp.Calib.C101_permutation",
    "Hyp.Calib.C101_affine",
    "Hyp.Calib.C101_missing_class",
    "Hyp.Calib.C101_fit_ml"
   ],
   "note": "exact real arithmetic"
  },
  {
   "property": "C102",
   "status": "proved",
   "theorems": [
    "Hyp.Gbe.C102_llk",
    "Hyp.Gbe.C102_linear_llr",
    "Hyp.Gbe.C102_decision",
    "Hyp.Gbe.C102_posterior",
    "Hyp.Gbe.C102_raw",
    "Hyp.Gbe.C102_unknown_method",
    "Hyp.Gbe.C102_predictive_value",
    "Hyp.Gbe.C102_predictive_posterior",
    "Hyp.Gbe.C102_predictive_wrong"
   ],
   "note": "C102_predictive_wrong is a proved defect"
  },
  {
   "property": "C103",
   "status": "proved",
   "theorems": [
    "Hyp.Gbe.C103_ml",
    "Hyp.Gbe.C103_map",
    "Hyp.Gbe.C103_values",
    "Hyp.Gbe.C103_empty_class",
    "Hyp.Gbe.C103_sequential",
    "Hyp.Gbe.C103_class_ids",
    "Hyp.Gbe.C103_bad_id",
    "Hyp.Gbe.C103_num_classes"
   ],
   "note": ""
  },
  {
   "property": "C104",
   "status": "proved",
   "theorems": [
    "Hyp.QScore.C104_score",
    "Hyp.QScore.C104_posterior",
    "Hyp.QScore.C104_fit_posterior",
    "Hyp.QScore.C104_fit_values",
    "Hyp.QScore.C104_post_N",
    "Hyp.QScore.C104_balance_no_effect",
    "Hyp.QScore.C104_unbalanced_ignores",
    "Hyp.QScore.C104_prior_N_raises",
    "Hyp.QScore.C104_valid",
    "Hyp.QScore.C104_permutation",
    "Hyp.QScore.C104_prior_N",
    "Hyp.QScore.C104_prior_N_ignores"
   ],
   "note": ""
  },
  {
   "property": "C105",
   "status": "proved",
   "theorems": [
    "Hyp.LogReg.C105_weights",
    "Hyp.LogReg.C105_total_weight",
    "Hyp.LogReg.C105_weights_overwritten",
    "Hyp.LogReg.C105_binary_bayes",
    "Hyp.LogReg.C105_binary_decision",
    "Hyp.LogReg.C105_binary_fit",
    "Hyp.LogReg.C105_bias_scaling_wrong",
    "Hyp.LogReg.C105_multi_bayes",
    "Hyp.LogReg.C105_multi_fit",
    "Hyp.LogReg.C105_prior_errors",
    "Hyp.LogReg.C105_reload",
    "Hyp.LogReg.C105_svm_reload",
    "Hyp.LogReg.C105_svm_reload_changes",
    "Hyp.LogReg.C105_svm_logpost_sign",
    "Hyp.LogReg.C105_binary_options_ignored"
   ],
   "note": "scikit-learn's optimiser is an arbitrary function"
  },
  {
   "property": "C106",
   "status": "proved",
   "theorems": [
    "Hyp.Eval.C106_enroll_test",
    "Hyp.Eval.C106_order",
    "Hyp.Eval.C106_coh_test",
    "Hyp.Eval.C106_raises",
    "Hyp.Eval.C106_cosine",
    "Hyp.Eval.C106_frplda",
    "Hyp.Eval.C106_splda"
   ],
   "note": "A random access reader is a partial function from keys to vectors (C97, C98 prove this of the readers)."
  },
  {
   "property": "C107",
   "status": "proved",
   "theorems": [
    "Hyp.Eval.C107_performance",
    "Hyp.Eval.C107_end_to_end"
   ],
   "note": "DCF values written by the script are covered by C34; here the equal error rate and the counts."
  },
  {
   "property": "C108",
   "status": "proved",
   "theorems": [
    "Hyp.Eval.C108_lre_table",
    "Hyp.Eval.C108_classification",
    "Hyp.Eval.C108_vectors2scores",
    "Hyp.Eval.C108_lre_list",
    "Hyp.Eval.C108_lre_tabs",
    "Hyp.Eval.C108_first_fields"
   ],
   "note": "Scores in the table are printed with %f semantics (printF of Trials/TxtFile); os.path.splitext is a parameter with root + ext = name."
  },
  {
   "property": "C109",
   "status": "proved",
   "theorems": [
    "Hyp.FullCov.C109_varfloor",
    "Hyp.FullCov.C109_equivariant",
    "Hyp.FullCov.C109_from_chol",
    "Hyp.FullCov.C109_scalar"
   ],
   "note": "Real arithmetic; SVD and Cholesky are functions satisfying their specification."
  },
  {
   "property": "C11",
   "status": "proved",
   "theorems": [
    "Hyp.Trials.C11_txt_round_trip",
    "Hyp.Trials.C11_file_round_trip",
    "Hyp.Trials.C11_short_line",
    "Hyp.Text.C11_white_space"
   ],
   "note": ""
  },
  {
   "property": "C110",
   "status": "proved",
   "theorems": [
    "Hyp.FullCov.C110_log_prob",
    "Hyp.FullCov.C110_parameters",
    "Hyp.FullCov.C110_fit",
    "Hyp.FullCov.C110_too_few",
    "Hyp.FullCov.C110_fixed",
    "Hyp.FullCov.C110_norm_stats_wrong"
   ],
   "note": "var_floor of Normal is ignored by the code, so fit is plain maximum likelihood."
  },
  {
   "property": "C111",
   "status": "partial",
   "theorems": [
    "Hyp.FullCov.C111_log_prob",
    "Hyp.FullCov.C111_update",
    "Hyp.FullCov.C111_succeeds",
    "Hyp.FullCov.C111_weights_frozen",
    "Hyp.FullCov.C111_em_step_partial",
    "Hyp.FullCov.C111_fit_means",
    "Hyp.FullCov.C111_reported_bound",
    "Hyp.FullCov.C111_floor_decreases"
   ],
   "note": "Monotonicity with covariance updates needs the stated condition; the unconditional claim is false (C111_floor_decreases)."
  },
  {
   "property": "C112",
   "status": "proved",
   "theorems": [
    "Hyp.SeqReader.C112_slices",
    "Hyp.SeqReader.C112_sequential",
    "Hyp.SeqReader.C112_complete",
    "Hyp.SeqReader.C112_random",
    "Hyp.SeqReader.C112_progress",
    "Hyp.SeqReader.C112_stall",
    "Hyp.SeqReader.C112_short_negative"
   ],
   "note": "The condition for progress is sufficient; C112_stall shows that the unconditional claim is false."
  },
  {
   "property": "C113",
   "status": "proved",
   "theorems": [
    "Hyp.SeqReader.C113_one_per_seq",
    "Hyp.SeqReader.C113_full",
    "Hyp.SeqReader.C113_min_length"
   ],
   "note": "Reading random samples needs non-empty sequences."
  },
  {
   "property": "C114",
   "status": "proved",
   "theorems": [
    "Hyp.Confusion.C114_counts",
    "Hyp.Confusion.C114_default_labels",
    "Hyp.Confusion.C114_no_weights",
    "Hyp.Confusion.C114_raises",
    "Hyp.Confusion.C114_normalized",
    "Hyp.Confusion.C114_rows",
    "Hyp.Confusion.C114_accuracy",
    "Hyp.Confusion.C114_trace"
   ],
   "note": "scikit-learn's confusion_matrix and accuracy_score are modelled from their source."
  },
  {
   "property": "C115",
   "status": "proved",
   "theorems": [
    "Hyp.Confusion.C115_xlabel",
    "Hyp.Confusion.C115_class_numbers",
    "Hyp.Confusion.C115_default_labels",
    "Hyp.Confusion.C115_mutates",
    "Hyp.Confusion.C115_collision",
    "Hyp.Confusion.C115_second_call",
    "Hyp.Confusion.C115_strings"
   ],
   "note": ""
  },
  {
   "property": "C116",
   "status": "proved",
   "theorems": [
    "Hyp.Confusion.C116_strict",
    "Hyp.Confusion.C116_categorical",
    "Hyp.Confusion.C116_unweighted",
    "Hyp.Confusion.C116_one_hot",
    "Hyp.Confusion.C116_range",
    "Hyp.Confusion.C116_binary_sum",
    "Hyp.Confusion.C116_binary_mean_raises"
   ],
   "note": "Two-dimensional inputs."
  },
  {
   "property": "C117",
   "status": "proved",
   "theorems": [
    "Hyp.Persist.C117_save_iff",
    "Hyp.Persist.C117_bare_path_raises",
    "Hyp.Persist.C117_load_iff",
    "Hyp.Persist.C117_missing_raises",
    "Hyp.Persist.C117_broken_classes",
    "Hyp.Persist.C117_roundtrip",
    "Hyp.Persist.C117_tables_cover",
    "Hyp.Persist.C117_second_cycle",
    "Hyp.Persist.C117_class_not_checked",
    "Hyp.Persist.C117_constructor"
   ],
   "note": "Attributes of the scikit-learn objects other than coefficients are represented by one option."
  },
  {
   "property": "C118",
   "status": "proved",
   "theorems": [
    "Hyp.Persist.C118_construct",
    "Hyp.Persist.C118_append",
    "Hyp.Persist.C118_save_iff",
    "Hyp.Persist.C118_same_name_raises",
    "Hyp.Persist.C118_load_iff",
    "Hyp.Persist.C118_roundtrip",
    "Hyp.Persist.C118_predict",
    "Hyp.Persist.C118_names_grow",
    "Hyp.Persist.C118_second_cycle",
    "Hyp.Persist.C118_borrowed_parameter"
   ],
   "note": "Lists within lists and the same object twice in a list are not modelled."
  },
  {
   "property": "C119",
   "status": "proved",
   "theorems": [
    "Hyp.Segments.C119_constructor",
    "Hyp.Segments.C119_filter_keep",
    "Hyp.Segments.C119_filter_drop",
    "Hyp.Segments.C119_split_by_file",
    "Hyp.Segments.C119_split_by_segment",
    "Hyp.Segments.C119_split_repeated_id",
    "Hyp.Segments.C119_merge",
    "Hyp.Segments.C119_iteration",
    "Hyp.Segments.C119_index_ignored"
   ],
   "note": "Pandas .loc and concat by contract (pandas >= 1.0)."
  },
  {
   "property": "C12",
   "status": "partial",
   "theorems": [
    "Hyp.Trials.C12_merge_union",
    "Hyp.Trials.C12_merge_consistent_partial",
    "Hyp.Trials.C12_merge_conflict_not_detected",
    "Hyp.Trials.C12_filter_keep",
    "Hyp.Trials.C12_filter_drop",
    "Hyp.Trials.C12_split",
    "Hyp.Trials.C12_h5_round_trip",
    "Hyp.Trials.C12_to_ndx",
    "Hyp.Trials.C12_h5_content"
   ],
   "note": "The code violates the claim: merging keys which disagree on a trial yields a trial that is both target and nontarget (C12_merge_conflict_not_detected, concrete witness). Proved for consistent inputs; everything else is proved in full."
  },
  {
   "property": "C120",
   "status": "proved",
   "theorems": [
    "Hyp.Segments.C120_segments_script",
    "Hyp.Segments.C120_parts",
    "Hyp.Segments.C120_num_frames_needed",
    "Hyp.Segments.C120_bad_listing",
    "Hyp.Segments.C120_rttm_script",
    "Hyp.Segments.C120_rttm_num_frames_needed"
   ],
   "note": ""
  },
  {
   "property": "C121",
   "status": "proved",
   "theorems": [
    "Hyp.Opensat.C121_intervals",
    "Hyp.Opensat.C121_label_shift",
    "Hyp.Opensat.C121_one_frame_early",
    "Hyp.Opensat.C121_empty_first_interval",
    "Hyp.Opensat.C121_file"
   ],
   "note": "Times are exact multiples of 0.01."
  },
  {
   "property": "C122",
   "status": "proved",
   "theorems": [
    "Hyp.Metrics.C122_eer_minimax",
    "Hyp.Metrics.C122_increasing_map",
    "Hyp.Metrics.C122_permutation",
    "Hyp.Metrics.C122_proportions",
    "Hyp.Metrics.C122_monotone",
    "Hyp.Metrics.C122_symmetry",
    "Hyp.Metrics.C122_zero_iff"
   ],
   "note": "Exact arithmetic."
  },
  {
   "property": "C123",
   "status": "proved",
   "theorems": [
    "Hyp.Copy.C123_copy_to_ark",
    "Hyp.Copy.C123_copy_to_h5",
    "Hyp.Copy.C123_duplicate_key_h5_raises"
   ],
   "note": "Text archives are not modelled; inputs must not depend on the output files."
  },
  {
   "property": "C124",
   "status": "proved",
   "theorems": [
    "Hyp.Copy.C124_in_place_empties",
    "Hyp.Copy.C124_in_place_h5_raises",
    "Hyp.Copy.C124_bare_output_raises",
    "Hyp.Copy.C124_script_only_raises",
    "Hyp.Copy.C124_parts_of_many_raises",
    "Hyp.Copy.C124_parts_of_ark_raises",
    "Hyp.Copy.C124_missing_input_raises",
    "Hyp.Copy.C124_separator_ignored"
   ],
   "note": "Directory creation is not modelled beyond the bare file name."
  },
  {
   "property": "C125",
   "status": "proved",
   "theorems": [
    "Hyp.Copy.C125_parts",
    "Hyp.Copy.C125_copy_parts"
   ],
   "note": "Entries of ark scripts must not have offset 0 (the reader does not seek then)."
  },
  {
   "property": "C126",
   "status": "proved",
   "theorems": [
    "Hyp.Copy.C126_random_ark",
    "Hyp.Copy.C126_random_h5",
    "Hyp.Copy.C126_random_ark_without_script_raises",
    "Hyp.Copy.C126_missing_key"
   ],
   "note": "Distinct keys."
  },
  {
   "property": "C127",
   "status": "proved",
   "theorems": [
    "Hyp.Copy.C127_prefix_sequential",
    "Hyp.Copy.C127_prefix_random"
   ],
   "note": ""
  },
  {
   "property": "C128",
   "status": "proved",
   "theorems": [
    "Hyp.Audio.C128_read_wavspecifier",
    "Hyp.Audio.C128_w64_defect"
   ],
   "note": ""
  },
  {
   "property": "C129",
   "status": "proved",
   "theorems": [
    "Hyp.Audio.C129_history",
    "Hyp.Audio.C129_iteration",
    "Hyp.Audio.C129_parts",
    "Hyp.Audio.C129_colon_bracket_defect"
   ],
   "note": ""
  },
  {
   "property": "C13",
   "status": "proved",
   "theorems": [
    "Hyp.Trials.C13_get_tar_non"
   ],
   "note": ""
  },
  {
   "property": "C130",
   "status": "proved",
   "theorems": [
    "Hyp.Audio.C130_segment",
    "Hyp.Audio.C130_tiling",
    "Hyp.Audio.C130_history",
    "Hyp.Audio.C130_iteration",
    "Hyp.Audio.C130_parts",
    "Hyp.Audio.C130_recording_of_segment",
    "Hyp.Audio.C130_negative_times",
    "Hyp.Audio.C130_until_end_refused",
    "Hyp.Audio.C130_read_all_defect"
   ],
   "note": ""
  },
  {
   "property": "C131",
   "status": "proved",
   "theorems": [
    "Hyp.Audio.C131_recordings",
    "Hyp.Audio.C131_segments",
    "Hyp.Audio.C131_agree"
   ],
   "note": ""
  },
  {
   "property": "C132",
   "status": "proved",
   "theorems": [
    "Hyp.Audio.C132_write",
    "Hyp.Audio.C132_history",
    "Hyp.Audio.C132_formats",
    "Hyp.Audio.C132_unknown_subtype",
    "Hyp.Audio.C132_pcm24_defect",
    "Hyp.Audio.C132_collision",
    "Hyp.Audio.C132_collision_overwrites",
    "Hyp.Audio.C132_sample_types"
   ],
   "note": ""
  },
  {
   "property": "C133",
   "status": "proved",
   "theorems": [
    "Hyp.Audio.C133_round_trip",
    "Hyp.Audio.C133_pcm16_exact",
    "Hyp.Audio.C133_pcm16_error",
    "Hyp.Audio.C133_dots_defect"
   ],
   "note": ""
  },
  {
   "property": "C134",
   "status": "proved",
   "theorems": [
    "Hyp.Audio.C134_compute_mfcc",
    "Hyp.Audio.C134_jobs"
   ],
   "note": ""
  },
  {
   "property": "C135",
   "status": "proved",
   "theorems": [
    "Hyp.Kaldi.C135_text_array",
    "Hyp.Kaldi.C135_text_archive",
    "Hyp.Kaldi.C135_mixed_archive",
    "Hyp.Kaldi.C135_write_calls",
    "Hyp.Kaldi.C135_text_random_access",
    "Hyp.Kaldi.C135_text_precision",
    "Hyp.Kaldi.C135_slices_raise",
    "Hyp.Kaldi.C135_no_rows_raises",
    "Hyp.Kaldi.C135_no_columns",
    "Hyp.Kaldi.C135_truncated_not_noticed",
    "Hyp.Kaldi.C135_key_only"
   ],
   "note": ""
  },
  {
   "property": "C136",
   "status": "proved",
   "theorems": [
    "Hyp.Train.C136_training_chain",
    "Hyp.Train.C136_chain_runs",
    "Hyp.Train.C136_same_name_raises",
    "Hyp.Train.C136_no_append",
    "Hyp.Train.C136_no_tlist",
    "Hyp.Train.C136_input_model",
    "Hyp.Train.C136_input_list",
    "Hyp.Train.C136_gauss_list_raises",
    "Hyp.Train.C136_no_lnorm_ignores_input",
    "Hyp.Train.C136_input_class_ignored"
   ],
   "note": ""
  },
  {
   "property": "C137",
   "status": "proved",
   "theorems": [
    "Hyp.Pdfs.C137_log_prob",
    "Hyp.Pdfs.C137_nat_eq_std",
    "Hyp.Pdfs.C137_update",
    "Hyp.Pdfs.C137_em_step",
    "Hyp.Pdfs.C137_fit_no_floor",
    "Hyp.Pdfs.C137_fit_succeeds",
    "Hyp.Pdfs.C137_kmeans_init",
    "Hyp.Pdfs.C137_floor_decreases"
   ],
   "note": "real arithmetic instead of floating point; k-means centroids given"
  },
  {
   "property": "C138",
   "status": "proved",
   "theorems": [
    "Hyp.Pdfs.C138_split",
    "Hyp.Pdfs.C138_split_tied",
    "Hyp.Pdfs.C138_mass_and_mean",
    "Hyp.Pdfs.C138_mass_and_mean_tied",
    "Hyp.Pdfs.C138_mean_moves",
    "Hyp.Pdfs.C138_options"
   ],
   "note": ""
  },
  {
   "property": "C139",
   "status": "proved",
   "theorems": [
    "Hyp.Transforms.C139_cw_propagates",
    "Hyp.Transforms.C139_lnorm_propagates",
    "Hyp.Transforms.C139_lnorm_norm",
    "Hyp.Transforms.C139_fit_whitens",
    "Hyp.Transforms.C139_input_overwritten",
    "Hyp.Transforms.C139_second_call_differs",
    "Hyp.Transforms.C139_scales_differ",
    "Hyp.Transforms.C139_fit_weighted",
    "Hyp.Transforms.C139_shape"
   ],
   "note": "real arithmetic; eigenvectors as documented"
  },
  {
   "property": "C14",
   "status": "proved",
   "theorems": [
    "Hyp.Trials.C14_align_raise",
    "Hyp.Trials.C14_align_no_raise",
    "Hyp.Trials.C14_set_missing"
   ],
   "note": ""
  },
  {
   "property": "C140",
   "status": "proved",
   "theorems": [
    "Hyp.Transforms.C140_stats",
    "Hyp.Transforms.C140_psd",
    "Hyp.Transforms.C140_similarity",
    "Hyp.Transforms.C140_succeeds",
    "Hyp.Transforms.C140_train",
    "Hyp.Transforms.C140_one_neighbour_fails",
    "Hyp.Transforms.C140_small_class_raises",
    "Hyp.Transforms.C140_tool_needs_ten",
    "Hyp.Transforms.C140_gap"
   ],
   "note": "BallTree and eigh as documented (IsKnn is shown satisfiable)"
  },
  {
   "property": "C141",
   "status": "proved",
   "theorems": [
    "Hyp.Sparse.C141_keep_largest",
    "Hyp.Sparse.C141_shape",
    "Hyp.Sparse.C141_posterior",
    "Hyp.Sparse.C141_all",
    "Hyp.Sparse.C141_again",
    "Hyp.Sparse.C141_bad_number",
    "Hyp.Sparse.C141_sequences"
   ],
   "note": "exact arithmetic; the file type must represent the component numbers exactly"
  },
  {
   "property": "C142",
   "status": "proved",
   "theorems": [
    "Hyp.SeqReader.C142_same_features",
    "Hyp.SeqReader.C142_aligned",
    "Hyp.SeqReader.C142_no_samples",
    "Hyp.SeqReader.C142_labels",
    "Hyp.SeqReader.C142_repeated_class"
   ],
   "note": "rows are given by their numbers; random draws and shuffles are arbitrary"
  },
  {
   "property": "C143",
   "status": "proved",
   "theorems": [
    "Hyp.Kaldi.C143_binary",
    "Hyp.Kaldi.C143_text",
    "Hyp.Kaldi.C143_convert",
    "Hyp.Kaldi.C143_archive_raises",
    "Hyp.Kaldi.C143_zero_chunk",
    "Hyp.Kaldi.C143_rest_position",
    "Hyp.Kaldi.C143_records",
    "Hyp.Kaldi.C143_position",
    "Hyp.Kaldi.C143_open",
    "Hyp.Kaldi.C143_squeeze"
   ],
   "note": "conversion proved with squeeze=False; decoding of numerals as for C135"
  },
  {
   "property": "C144",
   "status": "proved",
   "theorems": [
    "Hyp.Keras.C144_values",
    "Hyp.Keras.C144_padding",
    "Hyp.Keras.C144_repeats",
    "Hyp.Keras.C144_scale",
    "Hyp.Keras.C144_affine",
    "Hyp.Keras.C144_range",
    "Hyp.Keras.C144_mask",
    "Hyp.Keras.C144_create_mask",
    "Hyp.Keras.C144_max",
    "Hyp.Keras.C144_max_negative",
    "Hyp.Keras.C144_sum",
    "Hyp.Keras.C144_lde_assign",
    "Hyp.Keras.C144_lde_proportional",
    "Hyp.Keras.C144_lde",
    "Hyp.Keras.C144_lde_invariance"
   ],
   "note": "real arithmetic, one sequence at a time (elements of a batch do not interact)"
  },
  {
   "property": "C145",
   "status": "proved",
   "theorems": [
    "Hyp.Keras.C145_convert",
    "Hyp.Keras.C145_convert_limited",
    "Hyp.Keras.C145_unknown",
    "Hyp.Keras.C145_pool_values",
    "Hyp.Keras.C145_pool_density",
    "Hyp.Keras.C145_padding",
    "Hyp.Keras.C145_prior",
    "Hyp.Keras.C145_long_sequences",
    "Hyp.Keras.C145_saturation",
    "Hyp.Keras.C145_score"
   ],
   "note": "real arithmetic; the formats are given after the split at the first +"
  },
  {
   "property": "C146",
   "status": "proved",
   "theorems": [
    "Hyp.Keras.C146_kl_std",
    "Hyp.Keras.C146_kl_seq",
    "Hyp.Keras.C146_kl_diag",
    "Hyp.Keras.C146_kl_objectives",
    "Hyp.Keras.C146_kl_nonneg",
    "Hyp.Keras.C146_diag_normal",
    "Hyp.Keras.C146_nllk_frame",
    "Hyp.Keras.C146_normal_chol",
    "Hyp.Keras.C146_mbr",
    "Hyp.Keras.C146_bernoulli_swapped"
   ],
   "note": "real arithmetic; binary_crossentropy as in Keras 2"
  },
  {
   "property": "C147",
   "status": "proved",
   "theorems": [
    "Hyp.Keras.C147_rows",
    "Hyp.Keras.C147_law",
    "Hyp.Keras.C147_unknown",
    "Hyp.Keras.C147_tied",
    "Hyp.Keras.C147_bernoulli"
   ],
   "note": "noise is an input of the model; its law is a hypothesis of the statement on distributions"
  },
  {
   "property": "C148",
   "status": "proved",
   "theorems": [
    "Hyp.Keras.C148_whole",
    "Hyp.Keras.C148_pool",
    "Hyp.Keras.C148_left_context",
    "Hyp.Keras.C148_short",
    "Hyp.Keras.C148_reject"
   ],
   "note": "the network is a function of one chunk; integers instead of float divisions; negative shifts left out"
  },
  {
   "property": "C149",
   "status": "proved",
   "theorems": [
    "Hyp.Misc.C149_serial",
    "Hyp.Misc.C149_exactly_once",
    "Hyp.Misc.C149_no_deadlock",
    "Hyp.Misc.C149_unprotected"
   ],
   "note": "threads take steps: begin a call, acquire, read the iterator's state, finish and release; the wrapped iterator is any deterministic state machine"
  },
  {
   "property": "C15",
   "status": "partial",
   "theorems": [
    "Hyp.Trials.C15_merge_detects_overlap",
    "Hyp.Trials.C15_merge_values_partial",
    "Hyp.Trials.C15_merge_leaks_masked_scores"
   ],
   "note": "The code adds the values stored in masked-out cells, so the value part is false in general (C15_merge_leaks_masked_scores); proved when masked-out cells hold 0."
  },
  {
   "property": "C150",
   "status": "proved",
   "theorems": [
    "Hyp.Misc.C150_by_seq",
    "Hyp.Misc.C150_by_class",
    "Hyp.Misc.C150_pool",
    "Hyp.Misc.C150_by_class_mismatch"
   ],
   "note": ""
  },
  {
   "property": "C151",
   "status": "proved",
   "theorems": [
    "Hyp.Keras.C151_batches",
    "Hyp.Keras.C151_eval_loop",
    "Hyp.Keras.C151_empty",
    "Hyp.Keras.C151_unwrap",
    "Hyp.Keras.C151_array_raises",
    "Hyp.Keras.C151_weighted",
    "Hyp.Keras.C151_sample_weight_cancels",
    "Hyp.Keras.C151_output_lengths"
   ],
   "note": "the Keras function is a list of functions of one sample; learning phase and shuffling left out"
  },
  {
   "property": "C152",
   "status": "proved",
   "theorems": [
    "Hyp.Keras.C152_best",
    "Hyp.Keras.C152_every",
    "Hyp.Keras.C152_arguments_ignored",
    "Hyp.Keras.C152_mode_max_keeps_min",
    "Hyp.Keras.C152_steps",
    "Hyp.Keras.C152_steps_option",
    "Hyp.Keras.C152_create"
   ],
   "note": "metric values are rationals (no NaN); a saved model is the number of its epoch"
  },
  {
   "property": "C153",
   "status": "proved",
   "theorems": [
    "Hyp.Folds.C153_parts_round_trip",
    "Hyp.Folds.C153_names_lost",
    "Hyp.Folds.C153_fold_save",
    "Hyp.Folds.C153_fold_load",
    "Hyp.Folds.C153_align",
    "Hyp.Folds.C153_by_name",
    "Hyp.Folds.C153_len",
    "Hyp.Folds.C153_fold_len_raises",
    "Hyp.Folds.C153_get_fold",
    "Hyp.Folds.C153_default_names",
    "Hyp.Folds.C153_len_empty",
    "Hyp.Folds.C153_save_returns"
   ],
   "note": "integers in text: sign and decimal digits; separators of one character"
  },
  {
   "property": "C154",
   "status": "proved",
   "theorems": [
    "Hyp.Cli.C154_gbe",
    "Hyp.Cli.C154_qs",
    "Hyp.Cli.C154_lr",
    "Hyp.Cli.C154_svm",
    "Hyp.Cli.C154_verbose_conflict",
    "Hyp.Cli.C154_plda_always_raises",
    "Hyp.Cli.C154_plda_intended",
    "Hyp.Cli.C154_defaults",
    "Hyp.Cli.C154_plda_accepts"
   ],
   "note": "argparse is modelled for options written in full with a separate argument; abbreviations, --x=y and @file are not modelled. Text conversion is an oracle."
  },
  {
   "property": "C155",
   "status": "proved",
   "theorems": [
    "Hyp.Cli.C155_mfcc",
    "Hyp.Cli.C155_two_prefixes",
    "Hyp.Cli.C155_mvn",
    "Hyp.Cli.C155_mvn_needs_switch",
    "Hyp.Cli.C155_tolerance_ignored",
    "Hyp.Cli.C155_compute_mfcc",
    "Hyp.Cli.C155_compute_mfcc_accepts",
    "Hyp.Cli.C155_bool",
    "Hyp.Cli.C155_accepts",
    "Hyp.Cli.C155_defaults"
   ],
   "note": "Same argparse model as C154. The theorem about two prefixes is for two MFCC objects."
  },
  {
   "property": "C156",
   "status": "proved",
   "theorems": [
    "Hyp.Plda.C156_soft",
    "Hyp.Plda.C156_unit",
    "Hyp.Plda.C156_copies",
    "Hyp.Plda.C156_hard",
    "Hyp.Plda.C156_additive",
    "Hyp.Plda.C156_order",
    "Hyp.Plda.C156_center",
    "Hyp.Plda.C156_scales_argument",
    "Hyp.Plda.C156_second_call_differs"
   ],
   "note": "Exact arithmetic; broadcasting of a single row is not modelled. PLDABase.fit accepts sample_weight and never uses it."
  },
  {
   "property": "C157",
   "status": "proved",
   "theorems": [
    "Hyp.Misc.C157_types",
    "Hyp.Misc.C157_amplitude",
    "Hyp.Misc.C157_log",
    "Hyp.Misc.C157_power",
    "Hyp.Misc.C157_add",
    "Hyp.Misc.C157_vad",
    "Hyp.Misc.C157_vad_gain"
   ],
   "note": "Exact real arithmetic."
  },
  {
   "property": "C158",
   "status": "partial",
   "theorems": [
    "Hyp.OQ.C158_order",
    "Hyp.OQ.C158_round",
    "Hyp.OQ.C158_capacity",
    "Hyp.OQ.C158_no_deadlock_partial",
    "Hyp.OQ.C158_subsequence",
    "Hyp.OQ.C158_stop_ends_producer",
    "Hyp.OQ.C158_threads_never_start",
    "Hyp.OQ.C158_processes_never_deliver",
    "Hyp.OQ.C158_empty_sequence",
    "Hyp.OQ.C158_stop_leaves_consumer_blocked"
   ],
   "note": "As shipped the class never delivers an item (ThreadPool, get_index and random are not defined, proved); progress is proved for the class with these names defined. A worker step is the completion of any submitted task; the calls of stop() inside get() are one step."
  },
  {
   "property": "C159",
   "status": "proved",
   "theorems": [
    "Hyp.Cli.C159_cos",
    "Hyp.Cli.C159_plda",
    "Hyp.Cli.C159_gbe",
    "Hyp.Cli.C159_qs",
    "Hyp.Cli.C159_lr",
    "Hyp.Cli.C159_svm",
    "Hyp.Cli.C159_elbo",
    "Hyp.Cli.C159_nda_never_runs",
    "Hyp.Cli.C159_nda_imported",
    "Hyp.Cli.C159_mvn",
    "Hyp.Cli.C159_cw",
    "Hyp.Cli.C159_pca",
    "Hyp.Cli.C159_gauss",
    "Hyp.Cli.C159_update_true",
    "Hyp.Cli.C159_lda_never",
    "Hyp.Cli.C159_defaults"
   ],
   "note": "Conversions of arguments are an oracle; abbreviations, --x=y and @files of argparse are not modelled; what the functions then do with the parameters is the subject of other properties. With --input-path the attributes of the model are those of the loaded model."
  },
  {
   "property": "C16",
   "status": "partial",
   "theorems": [
    "Hyp.Trials.C16_filter_drop_partial",
    "Hyp.Trials.C16_filter_drop_wrong"
   ],
   "note": "The code computes the kept segments from model_set; false in general (C16_filter_drop_wrong)."
  },
  {
   "property": "C160",
   "status": "proved",
   "theorems": [
    "Hyp.Torch.C160_create",
    "Hyp.Torch.C160_config_round_trip",
    "Hyp.Torch.C160_config_bad",
    "Hyp.Torch.C160_create_args"
   ],
   "note": "Parameters, defaults, attributes and inheritance of the classes of torch.nn are an assumption (torch is not part of this code)."
  },
  {
   "property": "C161",
   "status": "proved",
   "theorems": [
    "Hyp.Torch.C161_fc_accepts",
    "Hyp.Torch.C161_fc",
    "Hyp.Torch.C161_fc_output_raises",
    "Hyp.Torch.C161_ff_accepts",
    "Hyp.Torch.C161_ff",
    "Hyp.Torch.C161_ff_shape",
    "Hyp.Torch.C161_same",
    "Hyp.Torch.C161_no_config"
   ],
   "note": "What a layer computes is a parameter; its requirement on the number of features is modelled."
  },
  {
   "property": "C162",
   "status": "proved",
   "theorems": [
    "Hyp.Cli.C162_torch_optimizer",
    "Hyp.Cli.C162_torch_optimizer_create",
    "Hyp.Cli.C162_torch_scheduler",
    "Hyp.Cli.C162_torch_scheduler_create",
    "Hyp.Cli.C162_keras_optimizer",
    "Hyp.Cli.C162_keras_optimizer_create",
    "Hyp.Cli.C162_conflict",
    "Hyp.Cli.C162_two_prefixes",
    "Hyp.Cli.C162_min_conflict"
   ],
   "note": "Conversions of arguments are an oracle; the object is the class and the arguments passed to it; torch's and Keras' own checks of arguments are not modelled."
  },
  {
   "property": "C163",
   "status": "proved",
   "theorems": [
    "Hyp.Cli.C163_callbacks",
    "Hyp.Cli.C163_callbacks_create",
    "Hyp.Cli.C163_lr_steps_no_effect"
   ],
   "note": "The verbosity of the callbacks and the creation of the directory are not modelled; what the callbacks do is C152."
  },
  {
   "property": "C164",
   "status": "proved",
   "theorems": [
    "Hyp.Torch.C164_training_lines",
    "Hyp.Torch.C164_time_unique",
    "Hyp.Torch.C164_time_text",
    "Hyp.Torch.C164_not_time_text",
    "Hyp.Torch.C164_batches_announced_raises",
    "Hyp.Torch.C164_interval_zero_raises",
    "Hyp.Torch.C164_logger_list",
    "Hyp.Torch.C164_unknown_size",
    "Hyp.Torch.C164_no_size"
   ],
   "note": "Exact arithmetic for the clock; '%.6f' is a parameter; the limits (31 days, announced batches, interval 0) are proved as separate theorems."
  },
  {
   "property": "C165",
   "status": "partial",
   "theorems": [
    "Hyp.Keras.Resume.C165_which",
    "Hyp.Keras.Resume.C165_one_process",
    "Hyp.Keras.Resume.C165_crash_consistency",
    "Hyp.Keras.Resume.C165_never_lost",
    "Hyp.Keras.Resume.C165_resume_partial",
    "Hyp.Keras.Resume.C165_cut_blocks",
    "Hyp.Keras.Resume.C165_needs_validation",
    "Hyp.Keras.Resume.C165_v1_twice",
    "Hyp.Keras.Resume.C165_best_lost",
    "Hyp.Keras.Resume.C165_init_path",
    "Hyp.Keras.Resume.C165_optimizer_lost"
   ],
   "note": "Resuming is proved for gen-v2 with all epochs saved and no cut checkpoint; the other cases are false of the code, each with a theorem. Files are created and filled in separate steps; the networks, the optimizer and an epoch of training are arbitrary."
  },
  {
   "property": "C166",
   "status": "partial",
   "theorems": [
    "Hyp.Keras.Tdnn.C166_window",
    "Hyp.Keras.Tdnn.C166_arguments",
    "Hyp.Keras.Tdnn.C166_length",
    "Hyp.Keras.Tdnn.C166_tight",
    "Hyp.Keras.Tdnn.C166_context_iff",
    "Hyp.Keras.Tdnn.C166_cut_partial",
    "Hyp.Keras.Tdnn.C166_transpose",
    "Hyp.Keras.Tdnn.C166_transpose_wider",
    "Hyp.Keras.Tdnn.C166_residual",
    "Hyp.Keras.Tdnn.C166_residual_dead",
    "Hyp.Keras.Tdnn.C166_residual_valid",
    "Hyp.Keras.Tdnn.C166_embed",
    "Hyp.Keras.Tdnn.C166_embed_valid",
    "Hyp.Keras.Tdnn.C166_even_kernel_wrong",
    "Hyp.Keras.Tdnn.C166_chunks_wrong"
   ],
   "note": "The claim about the context is proved exactly for the layer sizes for which it is true (iff); even kernels and chunked extraction are false of the code. Layers compute arbitrary functions of their windows; padding as documented for the TensorFlow backend; one output layer."
  },
  {
   "property": "C167",
   "status": "partial",
   "theorems": [
    "Hyp.Kaldi.C167_archive",
    "Hyp.Kaldi.C167_script_partial",
    "Hyp.Kaldi.C167_random",
    "Hyp.Kaldi.C167_written_script",
    "Hyp.Kaldi.C167_nothing_left",
    "Hyp.Kaldi.C167_negative_rows"
   ],
   "note": "Script readers: the claim 'raises iff widths differ' is false when no record is left (C167_nothing_left). Transforms are not applied by queries, so the claims are about reading without a transform; text archives are in the model, the theorems are about binary ones; ranges of vectors only if they cover the vector."
  },
  {
   "property": "C168",
   "status": "proved",
   "theorems": [
    "Hyp.Extract.C168_extract_to_ark",
    "Hyp.Extract.C168_extract_to_h5",
    "Hyp.Extract.C168_stops",
    "Hyp.Extract.C168_written_source",
    "Hyp.Extract.C168_parts",
    "Hyp.Extract.C168_more_parts_than_records",
    "Hyp.Extract.C168_write_format",
    "Hyp.Extract.C168_bad_output"
   ],
   "note": "The network and the transform of --preproc-file are one function of the array (partial: an exception). Failures while the outputs are written (duplicate keys in HDF5) leave files the model does not describe. The loading of the model file and the command line are not part of this property."
  },
  {
   "property": "C169",
   "status": "partial",
   "theorems": [
    "Hyp.Keras.C169_extract",
    "Hyp.Keras.C169_short",
    "Hyp.Keras.C169_short_value",
    "Hyp.Keras.C169_penalty_partial",
    "Hyp.Keras.C169_no_penalty",
    "Hyp.Keras.C169_penalty_lost",
    "Hyp.Keras.C169_formats_partial",
    "Hyp.Keras.C169_reload_partial",
    "Hyp.Keras.C169_reload_raises",
    "Hyp.Keras.C169_reload_lost",
    "Hyp.Keras.C169_defaults",
    "Hyp.Keras.C169_reload_train",
    "Hyp.Keras.C169_no_plus",
    "Hyp.Keras.C169_no_training"
   ],
   "note": "Partial because the full claims are false of the code: the penalty is lost, two output formats are misspelled, the downsampling is not saved (C169_penalty_lost, C169_formats_partial, C169_reload_lost). Real arithmetic; negative in_shift left out; the network after the pooling (score_net) is not modelled here."
  },
  {
   "property": "C17",
   "status": "proved",
   "theorems": [
    "Hyp.Trials.C17_transform",
    "Hyp.Trials.C17_txt_round_trip",
    "Hyp.Trials.C17_file_round_trip"
   ],
   "note": "The file theorem includes the six-decimal rendering of the scores (finite scores as exact rationals)."
  },
  {
   "property": "C170",
   "status": "proved",
   "theorems": [
    "Hyp.Keras.ResNet.C170_sees",
    "Hyp.Keras.ResNet.C170_context",
    "Hyp.Keras.ResNet.C170_missing",
    "Hyp.Keras.ResNet.C170_underestimates",
    "Hyp.Keras.ResNet.C170_resnet18",
    "Hyp.Keras.ResNet.C170_equal_filters",
    "Hyp.Keras.ResNet.C170_wide18",
    "Hyp.Keras.ResNet.C170_bottleneck",
    "Hyp.Keras.ResNet.C170_deep",
    "Hyp.Keras.ResNet.C170_asserts",
    "Hyp.Keras.ResNet.C170_dense"
   ],
   "note": "Time axis only: shapes along the frequency axis are left out; dropout is the identity; layers compute arbitrary functions of the frames of their windows."
  },
  {
   "property": "C171",
   "status": "proved",
   "theorems": [
    "Hyp.Keras.TdConv.C171_conv_arguments",
    "Hyp.Keras.TdConv.C171_conv",
    "Hyp.Keras.TdConv.C171_conv_tight",
    "Hyp.Keras.TdConv.C171_conv_pointwise",
    "Hyp.Keras.TdConv.C171_vgg",
    "Hyp.Keras.TdConv.C171_vgg_tight",
    "Hyp.Keras.TdConv.C171_vgg_pointwise",
    "Hyp.Keras.TdConv.C171_vgg_number",
    "Hyp.Keras.TdConv.C171_vgg_named",
    "Hyp.Keras.TdConv.C171_vgg_asserts"
   ],
   "note": "Time axis only; shapes along frequency and other paddings are left out (with them the final Reshape mixes frames or raises)."
  },
  {
   "property": "C172",
   "status": "proved",
   "theorems": [
    "Hyp.Keras.SaveLoad.C172_roundtrip",
    "Hyp.Keras.SaveLoad.C172_kml",
    "Hyp.Keras.SaveLoad.C172_arguments",
    "Hyp.Keras.SaveLoad.C172_others",
    "Hyp.Keras.SaveLoad.C172_embed",
    "Hyp.Keras.SaveLoad.C172_half",
    "Hyp.Keras.SaveLoad.C172_order",
    "Hyp.Keras.SaveLoad.C172_downsampling",
    "Hyp.Keras.SaveLoad.C172_unbuilt",
    "Hyp.Keras.C172_lde"
   ],
   "note": "Networks are opaque (Keras' save and load_model are assumed to give them back); crashes while writing are in C165."
  },
  {
   "property": "C173",
   "status": "proved",
   "theorems": [
    "Hyp.Keras.Vae.C173_loss",
    "Hyp.Keras.Vae.C173_bound",
    "Hyp.Keras.Vae.C173_forms",
    "Hyp.Keras.Vae.C173_errors",
    "Hyp.Keras.Vae.C173_elbo",
    "Hyp.Keras.Vae.C173_generate",
    "Hyp.Keras.Vae.C173_sampler",
    "Hyp.Keras.Vae.C173_load"
   ],
   "note": "Networks are functions of one row (test mode); the posterior form with a full matrix and the observations 'normal_1chol' are not modelled."
  },
  {
   "property": "C174",
   "status": "proved",
   "theorems": [
    "Hyp.Cli.C174_copy",
    "Hyp.Cli.C174_merge",
    "Hyp.Cli.C174_lre",
    "Hyp.Cli.C174_vectors",
    "Hyp.Cli.C174_performance",
    "Hyp.Cli.C174_ark",
    "Hyp.Cli.C174_arkvad_never_runs",
    "Hyp.Cli.C174_arkvad_imported",
    "Hyp.Cli.C174_h5vad",
    "Hyp.Cli.C174_rttm",
    "Hyp.Cli.C174_segments",
    "Hyp.Cli.C174_extract",
    "Hyp.Cli.C174_eval",
    "Hyp.Cli.C174_train_v1",
    "Hyp.Cli.C174_train_v2",
    "Hyp.Cli.C174_train_lde"
   ],
   "note": "Hypotheses on the conversion of values: str is the identity; int, float and lists of words never give None. Abbreviated options and @file arguments, files, networks and loading of models are not modelled."
  },
  {
   "property": "C175",
   "status": "proved",
   "theorems": [
    "Hyp.Keras.Constr.C175_triu",
    "Hyp.Keras.Constr.C175_nearest",
    "Hyp.Keras.Constr.C175_clip",
    "Hyp.Keras.Constr.C175_list",
    "Hyp.Keras.Constr.C175_order",
    "Hyp.Keras.Constr.C175_training",
    "Hyp.Keras.Constr.C175_constant_variance",
    "Hyp.Keras.Constr.C175_posterior",
    "Hyp.Keras.Constr.C175_repeat"
   ],
   "note": "Real arithmetic; Keras applies the constraint after every update of the optimiser."
  },
  {
   "property": "C176",
   "status": "proved",
   "theorems": [
    "Hyp.Segments.C176_constructor",
    "Hyp.Segments.C176_filter",
    "Hyp.Segments.C176_filter_ordered",
    "Hyp.Segments.C176_filter_repeated",
    "Hyp.Segments.C176_filter_rows",
    "Hyp.Segments.C176_item",
    "Hyp.Segments.C176_iteration",
    "Hyp.Segments.C176_scattered",
    "Hyp.Segments.C176_merge",
    "Hyp.Segments.C176_speakers",
    "Hyp.Segments.C176_speakers_sum",
    "Hyp.Segments.C176_from_segments",
    "Hyp.Segments.C176_round_trip",
    "Hyp.Segments.C176_surplus_speakers"
   ],
   "note": "split, filter(keep=False), the in operator and to_matrix always raise (missing attribute index, np.asrray, missing column segment_id, table column named like a file) and are not modelled."
  },
  {
   "property": "C177",
   "status": "proved",
   "theorems": [
    "Hyp.Segments.C177_segment_list",
    "Hyp.Segments.C177_segment_list_exact",
    "Hyp.Segments.C177_rttm",
    "Hyp.Segments.C177_overlap_created",
    "Hyp.Segments.C177_rttm_exact"
   ],
   "note": "pandas to_csv/read_csv are library code, modelled for fields without quoting; its type inference is an arbitrary function infer, with the hypothesis that it keeps the name columns as texts."
  },
  {
   "property": "C18",
   "status": "proved",
   "theorems": [
    "Hyp.Folds.C18_folds",
    "Hyp.Folds.C18_no_gaps",
    "Hyp.Folds.C18_succeeds",
    "Hyp.Folds.C18_train_test",
    "Hyp.Folds.C18_parts",
    "Hyp.Folds.C18_get_part_raises",
    "Hyp.Folds.C18_few_groups_raise",
    "Hyp.Folds.C18_part_flags",
    "Hyp.Folds.C18_get_part_two"
   ],
   "note": "FoldList.create and TrainValEvalList.create over rationals (float rounding not modelled); shuffling is any permutation-valued machine. The last two theorems are limits/defects."
  },
  {
   "property": "C19",
   "status": "proved",
   "theorems": [
    "Hyp.Kaldi.C19_token_round_trip",
    "Hyp.Kaldi.C19_bad_token_raises",
    "Hyp.Kaldi.C19_int32_round_trip",
    "Hyp.Kaldi.C19_int32_out_of_range",
    "Hyp.Kaldi.C19_marker",
    "Hyp.Kaldi.C19_marker_round_trip",
    "Hyp.Kaldi.C19_token_ascii"
   ],
   "note": "for every token / int32, every trailing bytes and every behaviour of BufferedReader.peek"
  },
  {
   "property": "C20",
   "status": "proved",
   "theorems": [
    "Hyp.Kaldi.C20_matrix_round_trip",
    "Hyp.Kaldi.C20_other_types_do_not_round_trip"
   ],
   "note": "binary mode, float32/float64; the negative theorem shows arrays of other types are written with the wrong type letter"
  },
  {
   "property": "C21",
   "status": "proved",
   "theorems": [
    "Hyp.Kaldi.C21_row_range",
    "Hyp.Kaldi.C21_vector_offset_misreads",
    "Hyp.Kaldi.C21_row_range_compressed",
    "Hyp.Kaldi.C21_compressed_shape"
   ],
   "note": "plain and compressed matrices; reading a vector with an offset mis-reads, shown by the negative theorem"
  },
  {
   "property": "C22",
   "status": "proved",
   "theorems": [
    "Hyp.Kaldi.C22_sequential_round_trip",
    "Hyp.Kaldi.C22_bad_key_raises",
    "Hyp.Kaldi.C22_write_calls",
    "Hyp.Kaldi.C22_random_access",
    "Hyp.Kaldi.C22_missing_key",
    "Hyp.Kaldi.C22_script_sequential",
    "Hyp.Kaldi.C22_iterate"
   ],
   "note": "binary archives"
  },
  {
   "property": "C23",
   "status": "proved",
   "theorems": [
    "Hyp.Kaldi.C23_batches_ark",
    "Hyp.Kaldi.C23_copy_chunk_size",
    "Hyp.Kaldi.C23_batches_script",
    "Hyp.Kaldi.C23_copy_reads"
   ],
   "note": "ark archives and script files"
  },
  {
   "property": "C24",
   "status": "partial",
   "theorems": [
    "Hyp.Kaldi.C24_script_range_partial",
    "Hyp.Kaldi.C24_too_many_rows_raises",
    "Hyp.Kaldi.C24_reads_outside_the_entry",
    "Hyp.Kaldi.C24_shape_agrees",
    "Hyp.Kaldi.C24_shape_raises"
   ],
   "note": "missing because false of the code: an offset beyond the end of the entry is not rejected (C24_reads_outside_the_entry)"
  },
  {
   "property": "C25",
   "status": "proved",
   "theorems": [
    "Hyp.Kaldi.C25_attrs_round_trip",
    "Hyp.Kaldi.C25_build_of_attrs",
    "Hyp.Kaldi.C25_read_write",
    "Hyp.Kaldi.C25_empty",
    "Hyp.Kaldi.C25_decompress_elementwise"
   ],
   "note": "all three formats and the empty matrix"
  },
  {
   "property": "C26",
   "status": "proved",
   "theorems": [
    "Hyp.Kaldi.Quant.C26_code_range",
    "Hyp.Kaldi.Quant.C26_monotone",
    "Hyp.Kaldi.Quant.C26_error_u16",
    "Hyp.Kaldi.Quant.C26_error_u8",
    "Hyp.Kaldi.Quant.C26_saturation",
    "Hyp.Kaldi.Quant.C26_recode",
    "Hyp.Kaldi.Quant.C26_matrix_auto",
    "Hyp.Kaldi.Quant.C26_matrix_fixed",
    "Hyp.Kaldi.Quant.C26_integers",
    "Hyp.Kaldi.Quant.C26_scale",
    "Hyp.Kaldi.Quant.C26_shape"
   ],
   "note": "exact arithmetic; float rounding not modelled"
  },
  {
   "property": "C27",
   "status": "proved",
   "theorems": [
    "Hyp.Kaldi.Quant.C27_header_strict",
    "Hyp.Kaldi.Quant.C27_code_range",
    "Hyp.Kaldi.Quant.C27_code_monotone",
    "Hyp.Kaldi.Quant.C27_decode_monotone",
    "Hyp.Kaldi.Quant.C27_error",
    "Hyp.Kaldi.Quant.C27_ends",
    "Hyp.Kaldi.Quant.C27_column_error",
    "Hyp.Kaldi.Quant.C27_recode",
    "Hyp.Kaldi.Quant.C27_matrix"
   ],
   "note": "exact arithmetic; float rounding not modelled"
  },
  {
   "property": "C28",
   "status": "partial",
   "theorems": [
    "Hyp.Spec.C28_write_spec_partial",
    "Hyp.Spec.C28_flag_order",
    "Hyp.Spec.C28_plain_path",
    "Hyp.Spec.C28_unknown_option",
    "Hyp.Spec.C28_two_colons",
    "Hyp.Spec.C28_surplus_paths_accepted",
    "Hyp.Spec.C28_blank_after_comma_raises",
    "Hyp.Spec.C28_read_spec_partial",
    "Hyp.Spec.C28_documented_read_options_raise",
    "Hyp.Spec.C28_read_several_paths",
    "Hyp.Spec.C28_script_type"
   ],
   "note": "exact meaning of every list of accepted options; missing because false of the code: surplus paths in a write specifier are accepted, and the documented read options b, t and negations raise"
  },
  {
   "property": "C29",
   "status": "proved",
   "theorems": [
    "Hyp.Metrics.C29_blocks",
    "Hyp.Metrics.C29_empty_raises",
    "Hyp.Metrics.C29_shape",
    "Hyp.Metrics.C29_optimal",
    "Hyp.Metrics.C29_least_squares"
   ],
   "note": "exact arithmetic, float input"
  },
  {
   "property": "C30",
   "status": "proved",
   "theorems": [
    "Hyp.Metrics.C30_shape",
    "Hyp.Metrics.C30_operating_points",
    "Hyp.Metrics.C30_below_roc",
    "Hyp.Metrics.C30_strictly_convex",
    "Hyp.Metrics.C30_dominates",
    "Hyp.Metrics.C30_raises",
    "Hyp.Metrics.C30_roc_contains_thresholds"
   ],
   "note": "exact arithmetic over any linearly ordered field"
  },
  {
   "property": "C31",
   "status": "proved",
   "theorems": [
    "Hyp.Metrics.C31_min_dcf",
    "Hyp.Metrics.C31_raises",
    "Hyp.Metrics.C31_effective_prior"
   ],
   "note": "exact arithmetic"
  },
  {
   "property": "C32",
   "status": "partial",
   "theorems": [
    "Hyp.Metrics.C32_act_dcf_partial",
    "Hyp.Metrics.C32_descending_raises",
    "Hyp.Metrics.C32_min_le_act",
    "Hyp.Metrics.C32_repeated_priors"
   ],
   "note": "true for strictly ascending priors; repeated priors (accepted by the code) give wrong counts, even a miss rate of -1: C32_repeated_priors"
  },
  {
   "property": "C33",
   "status": "proved",
   "theorems": [
    "Hyp.Metrics.C33_eer",
    "Hyp.Metrics.C33_no_better",
    "Hyp.Metrics.C33_prbep"
   ],
   "note": "exact arithmetic; includes PRBEP"
  },
  {
   "property": "C34",
   "status": "partial",
   "theorems": [
    "Hyp.Metrics.C34_cllr_partial",
    "Hyp.Metrics.C34_nontargets_wrong",
    "Hyp.Metrics.C34_nontarget_monotone_wrong_way"
   ],
   "note": "the code is wrong: nontarget scores enter with the wrong sign; proved what it computes and the negation of the property"
  },
  {
   "property": "C35",
   "status": "proved",
   "theorems": [
    "Hyp.Feats.C35_cumsum_eq_slow",
    "Hyp.Feats.C35_conv_eq_slow",
    "Hyp.Feats.C35_mean_only",
    "Hyp.Feats.C35_mean_var",
    "Hyp.Feats.C35_global"
   ],
   "note": "one column (operations are column-wise); exact real arithmetic; constant columns excluded when the variance is normalised"
  },
  {
   "property": "C36",
   "status": "proved",
   "theorems": [
    "Hyp.Feats.C36_select",
    "Hyp.Feats.C36_count"
   ],
   "note": ""
  },
  {
   "property": "C37",
   "status": "proved",
   "theorems": [
    "Hyp.MathUtils.C37_length",
    "Hyp.MathUtils.C37_layout_upper",
    "Hyp.MathUtils.C37_layout_lower",
    "Hyp.MathUtils.C37_symmetric_roundtrip",
    "Hyp.MathUtils.C37_vector_roundtrip",
    "Hyp.MathUtils.C37_triangular_roundtrip",
    "Hyp.MathUtils.C37_triangular_vector_roundtrip",
    "Hyp.MathUtils.C37_bad_length"
   ],
   "note": "dimension computed with the integer square root (equals the code where the float square root is exact)"
  },
  {
   "property": "C38",
   "status": "proved",
   "theorems": [
    "Hyp.Clustering.C38_num_clusters",
    "Hyp.Clustering.C38_nested",
    "Hyp.Clustering.C38_many",
    "Hyp.Clustering.C38_zero_raises",
    "Hyp.Clustering.C38_threshold",
    "Hyp.Clustering.C38_threshold_inversion"
   ],
   "note": "The dendrogram is any valid sequence of merges (scipy linkage is trusted to return one). Threshold criterion needs ordered merge scores; C38_threshold_inversion shows that this is needed."
  },
  {
   "property": "C39",
   "status": "proved",
   "theorems": [
    "Hyp.ScoreNorm.C39_znorm",
    "Hyp.ScoreNorm.C39_tnorm",
    "Hyp.ScoreNorm.C39_znorm_masked",
    "Hyp.ScoreNorm.C39_tnorm_masked",
    "Hyp.ScoreNorm.C39_full_mask",
    "Hyp.ScoreNorm.C39_affine_invariant",
    "Hyp.ScoreNorm.C39_standardised",
    "Hyp.ScoreNorm.C39_snorm",
    "Hyp.ScoreNorm.C39_caller_array_changed",
    "Hyp.ScoreNorm.C39_adapt_snorm",
    "Hyp.ScoreNorm.C39_adapt_snorm_nomask",
    "Hyp.ScoreNorm.C39_adapt_masked_chosen"
   ],
   "note": "Exact real arithmetic. Adaptive S-norm: proved which scores are used; masked members can be chosen (C39_adapt_masked_chosen)."
  },
  {
   "property": "C40",
   "status": "proved",
   "theorems": [
    "Hyp.Torch.C40_weighted_mean",
    "Hyp.Torch.C40_batching",
    "Hyp.Torch.C40_no_raise"
   ],
   "note": "Exact arithmetic over any field of characteristic 0."
  },
  {
   "property": "C41",
   "status": "proved",
   "theorems": [
    "Hyp.Torch.C41_exp_epoch",
    "Hyp.Torch.C41_exp_batch",
    "Hyp.Torch.C41_warmup",
    "Hyp.Torch.C41_unchanged",
    "Hyp.Torch.C41_zero_warmup_raises",
    "Hyp.Torch.C41_no_raise",
    "Hyp.Torch.C41_exp_bounds",
    "Hyp.Torch.C41_exp_nonincreasing",
    "Hyp.Torch.C41_cos_between",
    "Hyp.Torch.C41_cos_bounds",
    "Hyp.Torch.C41_cos_below_min",
    "Hyp.Torch.C41_cos_epoch",
    "Hyp.Torch.C41_cos_batch",
    "Hyp.Torch.C41_cos_schedule_anti",
    "Hyp.Torch.C41_cos_restart",
    "Hyp.Torch.C41_cos_first_epoch",
    "Hyp.Torch.C41_cos_epoch_end_raises",
    "Hyp.Torch.C41_cos_T_adjust",
    "Hyp.Torch.C41_cos_warm",
    "Hyp.Torch.C41_cos_first_epoch_batches"
   ],
   "note": "Real arithmetic; a new scheduler; AdamCosineLR not modelled (its constructor raises). Defects shown: default warmup_steps=0 raises at the first batch; last_restart=1 shifts the schedule; one batch in the first epoch raises; T is rounded to a multiple of nb-1."
  },
  {
   "property": "C42",
   "status": "proved",
   "theorems": [
    "Hyp.Torch.C42_reduces_iff",
    "Hyp.Torch.C42_only_on_decision",
    "Hyp.Torch.C42_bounds",
    "Hyp.Torch.C42_never_raised",
    "Hyp.Torch.C42_best",
    "Hyp.Torch.C42_best_negative",
    "Hyp.Torch.C42_zero_warmup_raises",
    "Hyp.Torch.C42_improvement"
   ],
   "note": "C42_best_negative: with negative metrics and a relative threshold the claim about the best value is false."
  },
  {
   "property": "C43",
   "status": "proved",
   "theorems": [
    "Hyp.Queues.C43_in_order",
    "Hyp.Queues.C43_no_loss_no_dup",
    "Hyp.Queues.C43_bounded",
    "Hyp.Queues.C43_bounded_one",
    "Hyp.Queues.C43_progress",
    "Hyp.Queues.C43_all_delivered",
    "Hyp.Queues.C43_exhausted_loses",
    "Hyp.Queues.C43_two_workers"
   ],
   "note": "Threads only (multiprocessing not modelled). A finite generator loses queued items (C43_exhausted_loses); several workers can reorder and exceed the size by w-1 (C43_two_workers)."
  },
  {
   "property": "C44",
   "status": "proved",
   "theorems": [
    "Hyp.Gen.C44_v1_random",
    "Hyp.Gen.C44_v1_sequential",
    "Hyp.Gen.C44_v1_random_total",
    "Hyp.Gen.C44_v1_label",
    "Hyp.Gen.C44_v1_prune_stale_lengths",
    "Hyp.Gen.C44_v2",
    "Hyp.Gen.C44_v2_total",
    "Hyp.Gen.C44_v2_hangs",
    "Hyp.Gen.C44_v1_full",
    "Hyp.Gen.C44_v2_num_classes"
   ],
   "note": "both generators, all random machines; C44_v1_prune_stale_lengths and C44_v2_hangs are defects of the code outside the stated hypotheses"
  },
  {
   "property": "C45",
   "status": "proved",
   "theorems": [
    "Hyp.Gen.C45_v1_counters",
    "Hyp.Gen.C45_v1_second_epoch_repeats_first",
    "Hyp.Gen.C45_v1_resume",
    "Hyp.Gen.C45_v1_random_order",
    "Hyp.Gen.C45_v1_sequential_terminates",
    "Hyp.Gen.C45_v1_sequential_hangs",
    "Hyp.Gen.C45_v1_two_passes_hang",
    "Hyp.Gen.C45_v1_epoch_may_skip_utterances",
    "Hyp.Gen.C45_v1_sequential_may_skip_frames",
    "Hyp.Gen.C45_v2_counters",
    "Hyp.Gen.C45_v2_steps",
    "Hyp.Gen.C45_v2_epochs",
    "Hyp.Gen.C45_v2_auto",
    "Hyp.Gen.C45_v1_auto"
   ],
   "note": "counters and reproducibility proved for both generators; the coverage of sequential mode is refuted (_may_skip_ theorems)"
  },
  {
   "property": "C46",
   "status": "proved",
   "theorems": [
    "Hyp.Readers.C46_filter_by_spc",
    "Hyp.Readers.C46_none_min_raises"
   ],
   "note": "all tables/limits/modes/random machines; mode name says which samples are removed; the None min_spc default of the class-splitting options raises (proved)"
  },
  {
   "property": "C47",
   "status": "proved",
   "theorems": [
    "Hyp.Readers.C47_split_pure",
    "Hyp.Readers.C47_sequential_covers",
    "Hyp.Readers.C47_random_overflow",
    "Hyp.Readers.C47_random_drops_class",
    "Hyp.Readers.C47_random1subclass_drops"
   ],
   "note": "purity and size bound in all modes, success and coverage in sequential mode; random-mode buffer overflow, silent class loss and random_1subclass loss proved as defects"
  },
  {
   "property": "C48",
   "status": "proved",
   "theorems": [
    "Hyp.Segments.C48_merge_sound",
    "Hyp.Segments.C48_merge_complete",
    "Hyp.Segments.C48_merge_idempotent",
    "Hyp.Segments.C48_contained_loses_speech"
   ],
   "note": "functional spec of merging (runs), soundness for all tables, completeness when no joinable neighbour ends earlier; the contained-segment loss is proved as a defect"
  },
  {
   "property": "C49",
   "status": "proved",
   "theorems": [
    "Hyp.Segments.C49_fast_eq_slow",
    "Hyp.Segments.C49_names_of_window",
    "Hyp.Segments.C49_exact_when_not_inside",
    "Hyp.Segments.C49_inside_missed",
    "Hyp.Segments.C49_empty_file_raises",
    "Hyp.Segments.C49_files_with_other_names",
    "Hyp.Segments.C49_prepend"
   ],
   "note": "exact characterisation; segments strictly inside the window are missed (proved defect)"
  },
  {
   "property": "C50",
   "status": "proved",
   "theorems": [
    "Hyp.Segments.C50_merge_adjacent",
    "Hyp.Segments.C50_at_sign_collision",
    "Hyp.Segments.C50_unknown_raises",
    "Hyp.Segments.C50_index"
   ],
   "note": "times and score column not modelled"
  },
  {
   "property": "C51",
   "status": "proved",
   "theorems": [
    "Hyp.Segments.C51_bin_vad",
    "Hyp.Segments.C51_bin_vad_time",
    "Hyp.Segments.C51_end_frame_marked",
    "Hyp.Segments.C51_default_length",
    "Hyp.Segments.C51_by_segment_raises",
    "Hyp.Segments.C51_by_segment"
   ],
   "note": "exact arithmetic for times; end frame inclusive and default length from the last row proved"
  },
  {
   "property": "C52",
   "status": "proved",
   "theorems": [
    "Hyp.U2I.C52_rows_aligned",
    "Hyp.U2I.C52_lookup",
    "Hyp.U2I.C52_filter",
    "Hyp.U2I.C52_filter_complement",
    "Hyp.U2I.C52_filter_info",
    "Hyp.U2I.C52_filter_index",
    "Hyp.U2I.C52_split",
    "Hyp.U2I.C52_split_group",
    "Hyp.U2I.C52_sort",
    "Hyp.U2I.C52_info_one_column",
    "Hyp.U2I.C52_duplicate_key_lookup",
    "Hyp.U2I.C52_info_two_columns",
    "Hyp.U2I.C52_index",
    "Hyp.U2I.C52_sort_fields",
    "Hyp.U2I.C52_split_field",
    "Hyp.U2I.C52_split_history"
   ],
   "note": "C52_duplicate_key_lookup and C52_info_two_columns are defects outside the unique-key / one-column case"
  },
  {
   "property": "C53",
   "status": "proved",
   "theorems": [
    "Hyp.KMeans.C53_fit",
    "Hyp.KMeans.C53_predict",
    "Hyp.KMeans.C53_centroids",
    "Hyp.KMeans.C53_seeds",
    "Hyp.KMeans.C53_fit_returns",
    "Hyp.KMeans.C53_seeds_repeat",
    "Hyp.KMeans.C53_cluster_lost"
   ],
   "note": "over any ordered field (rounding not modelled); the last two theorems are a proved defect of the seeding"
  },
  {
   "property": "C54",
   "status": "proved",
   "theorems": [
    "Hyp.Metrics.C54_opt_loglr",
    "Hyp.Metrics.C54_ties_split"
   ],
   "note": "laplace method; over the reals. Ties are split (C54_ties_split)."
  },
  {
   "property": "C55",
   "status": "proved",
   "theorems": [
    "Hyp.Gen.C55_class_balance"
   ],
   "note": "integer imbalance; the code admits any real number"
  },
  {
   "property": "C56",
   "status": "proved",
   "theorems": [
    "Hyp.Tensors.C56_by_seq",
    "Hyp.Tensors.C56_by_seq_too_long",
    "Hyp.Tensors.C56_by_class"
   ],
   "note": ""
  },
  {
   "property": "C57",
   "status": "proved",
   "theorems": [
    "Hyp.Segments.C57_eliminate_overlaps",
    "Hyp.Segments.C57_chain_still_overlaps",
    "Hyp.Segments.C57_contained_negative",
    "Hyp.Segments.C57_by_row_nan",
    "Hyp.Segments.C57_by_row_rest"
   ],
   "note": "index by file; chain, containment and row-number-index defects proved"
  },
  {
   "property": "C58",
   "status": "proved",
   "theorems": [
    "Hyp.Segments.C58_to_segment_list",
    "Hyp.Segments.C58_ids_collide",
    "Hyp.Segments.C58_width"
   ],
   "note": "non-negative times"
  },
  {
   "property": "C59",
   "status": "proved",
   "theorems": [
    "Hyp.Trials.C59_sort_ndx",
    "Hyp.Trials.C59_sort_canonical",
    "Hyp.Trials.C59_sort_key",
    "Hyp.Trials.C59_sort_scores"
   ],
   "note": "Without condition arrays of TrialKey."
  },
  {
   "property": "C60",
   "status": "proved",
   "theorems": [
    "Hyp.Trials.C60_split_scores",
    "Hyp.Trials.C60_split_partition"
   ],
   "note": ""
  },
  {
   "property": "C61",
   "status": "proved",
   "theorems": [
    "Hyp.Trials.C61_key_round_trip",
    "Hyp.Trials.C61_file_round_trip"
   ],
   "note": ""
  },
  {
   "property": "C62",
   "status": "proved",
   "theorems": [
    "Hyp.Trials.C62_apply_segmentation"
   ],
   "note": ""
  },
  {
   "property": "C63",
   "status": "proved",
   "theorems": [
    "Hyp.Torch.Trainer.C63_crash_consistency",
    "Hyp.Torch.Trainer.C63_resume_deterministic",
    "Hyp.Torch.Trainer.C63_never_lost",
    "Hyp.Torch.Trainer.C63_name_width"
   ],
   "note": "State dictionaries are opaque; the file system is a map from paths to files, written in two steps by torch.save."
  },
  {
   "property": "C64",
   "status": "partial",
   "theorems": [
    "Hyp.Torch.Trainer.C64_resume_partial",
    "Hyp.Torch.Trainer.C64_broken_file_blocks"
   ],
   "note": "False of the code when the kill falls inside torch.save: the broken file is selected by load_last_checkpoint and every later start raises (C64_broken_file_blocks). Proved for all histories without a broken file."
  },
  {
   "property": "C65",
   "status": "partial",
   "theorems": [
    "Hyp.Torch.Trainer.C65_log_partial",
    "Hyp.Torch.Trainer.C65_log_lost",
    "Hyp.Torch.Trainer.C65_append_raises"
   ],
   "note": "Proved for a training that is never restarted; false after a restart (earlier rows are lost, append mode always raises), both proved."
  },
  {
   "property": "C66",
   "status": "proved",
   "theorems": [
    "Hyp.MathUtils.C66_softmax_value",
    "Hyp.MathUtils.C66_softmax_distribution",
    "Hyp.MathUtils.C66_softmax_shift",
    "Hyp.MathUtils.C66_softmax_order",
    "Hyp.MathUtils.C66_logsumexp",
    "Hyp.MathUtils.C66_sigmoids",
    "Hyp.MathUtils.C66_sigmoids_exact",
    "Hyp.MathUtils.C66_sigmoid_monotone"
   ],
   "note": "Exact real arithmetic."
  },
  {
   "property": "C67",
   "status": "proved",
   "theorems": [
    "Hyp.Pdfs.C67_posterior",
    "Hyp.Pdfs.C67_stats",
    "Hyp.Pdfs.C67_batch_invariance",
    "Hyp.Pdfs.C67_total_mass",
    "Hyp.Pdfs.C67_no_rows",
    "Hyp.Pdfs.C67_segments_additive",
    "Hyp.Pdfs.C67_segment_probabilities"
   ],
   "note": "Exact real arithmetic; sample weights and the optional u_x argument are modelled as per-frame weights. An empty recording with a batch size raises (C67_no_rows)."
  },
  {
   "property": "C68",
   "status": "partial",
   "theorems": [
    "Hyp.Pdfs.C68_windows_partial",
    "Hyp.Pdfs.C68_one_window_raises",
    "Hyp.Pdfs.C68_batches_raise"
   ],
   "note": "Proved for recordings with at least two windows processed in one go. The rest is false of the code: a recording with fewer than two windows raises, and the batch version raises for all overlapping windows (both proved)."
  },
  {
   "property": "C69",
   "status": "proved",
   "theorems": [
    "Hyp.Pdfs.C69_log_prob",
    "Hyp.Pdfs.C69_nat_eq_std",
    "Hyp.Pdfs.C69_parameters",
    "Hyp.Pdfs.C69_normal"
   ],
   "note": "Exact real arithmetic."
  },
  {
   "property": "C70",
   "status": "partial",
   "theorems": [
    "Hyp.Pdfs.C70_update",
    "Hyp.Pdfs.C70_em_step_partial",
    "Hyp.Pdfs.C70_fit_no_floor",
    "Hyp.Pdfs.C70_reported_bound",
    "Hyp.Pdfs.C70_weights",
    "Hyp.Pdfs.C70_floor_decreases",
    "Hyp.Pdfs.C70_update_lambda_only",
    "Hyp.Pdfs.C70_weights_frozen",
    "Hyp.Pdfs.C70_stale_weights",
    "Hyp.Pdfs.C70_floor"
   ],
   "note": "False of the code in general (negations proved): a variance floor above the data's variance decreases the likelihood; update_mu=False with update_Lambda=True gives negative variances; log_pi is cached and never reset, so learned weights are never used. Proved: without floor, the likelihood computed by the model never decreases over any number of epochs; with a floor under the stated condition."
  },
  {
   "property": "C71",
   "status": "proved",
   "theorems": [
    "Hyp.Pdfs.C71_fit",
    "Hyp.Pdfs.C71_maximum_likelihood",
    "Hyp.Pdfs.C71_batch_size",
    "Hyp.Pdfs.C71_fixed_mean"
   ],
   "note": "With update_mu=False the code estimates E[x^2]-mu^2 instead of the variance around mu (C71_fixed_mean)."
  },
  {
   "property": "C72",
   "status": "proved",
   "theorems": [
    "Hyp.Transforms.C72_whitening",
    "Hyp.Transforms.C72_dimension",
    "Hyp.Transforms.C72_sign",
    "Hyp.Transforms.C72_few_rows",
    "Hyp.Transforms.C72_few_rows_mean"
   ],
   "note": "LAPACK eigh is an oracle specified by IsEigh; exact arithmetic"
  },
  {
   "property": "C73",
   "status": "proved",
   "theorems": [
    "Hyp.Transforms.C73_direction",
    "Hyp.Transforms.C73_norm",
    "Hyp.Transforms.C73_bounds"
   ],
   "note": ""
  },
  {
   "property": "C74",
   "status": "proved",
   "theorems": [
    "Hyp.Transforms.C74_dim",
    "Hyp.Transforms.C74_uncorrelated",
    "Hyp.Transforms.C74_descending",
    "Hyp.Transforms.C74_optimal",
    "Hyp.Transforms.C74_sign"
   ],
   "note": "LAPACK eigh is an oracle specified by IsEigh; sample_weight is ignored by the code"
  },
  {
   "property": "C75",
   "status": "proved",
   "theorems": [
    "Hyp.Transforms.C75_between_within",
    "Hyp.Transforms.C75_diagonal",
    "Hyp.Transforms.C75_optimal",
    "Hyp.Transforms.C75_dim",
    "Hyp.Transforms.C75_data"
   ],
   "note": "generalised eigh is an oracle specified by IsEighGen"
  },
  {
   "property": "C76",
   "status": "partial",
   "theorems": [
    "Hyp.Transforms.C76_additive_partial",
    "Hyp.Transforms.C76_accum_loses"
   ],
   "note": "the defect is proved as a negation"
  },
  {
   "property": "C77",
   "status": "proved",
   "theorems": [
    "Hyp.Transforms.C77_mvn"
   ],
   "note": "constant coordinates give nan (0/0) and are excluded"
  },
  {
   "property": "C78",
   "status": "proved",
   "theorems": [
    "Hyp.Transforms.C78_value",
    "Hyp.Transforms.C78_monotone",
    "Hyp.Transforms.C78_separates",
    "Hyp.Transforms.C78_fit"
   ],
   "note": "the quantile function (erfinv) is a parameter assumed monotone"
  },
  {
   "property": "C79",
   "status": "proved",
   "theorems": [
    "Hyp.Transforms.C79_nap"
   ],
   "note": "NAP.fit raises (np.uniqe) and is not modelled"
  },
  {
   "property": "C80",
   "status": "proved",
   "theorems": [
    "Hyp.Plda.C80_frplda_llr",
    "Hyp.Plda.C80_splda_llr",
    "Hyp.Plda.C80_plda_llr"
   ],
   "note": "exact arithmetic; Cholesky factorisation is an oracle specified by IsCholesky"
  },
  {
   "property": "C81",
   "status": "proved",
   "theorems": [
    "Hyp.Plda.C81_book",
    "Hyp.Plda.C81_symm",
    "Hyp.Plda.C81_savg",
    "Hyp.Plda.C81_vavg"
   ],
   "note": "SPLDA/PLDA llr_NvsM_book return None (see DESIGN) and are not modelled"
  },
  {
   "property": "C82",
   "status": "partial",
   "theorems": [
    "Hyp.Plda.C82_fr_posterior",
    "Hyp.Plda.C82_sp_posterior_partial",
    "Hyp.Plda.C82_sp_mean_wrong"
   ],
   "note": "the defect of SPLDA for mu != 0 is proved"
  },
  {
   "property": "C83",
   "status": "partial",
   "theorems": [
    "Hyp.Plda.C83_fr_elbo",
    "Hyp.Plda.C83_sp_elbo_partial",
    "Hyp.Plda.C83_plda_elbo_partial",
    "Hyp.Plda.C83_sp_elbo_exceeds"
   ],
   "note": ""
  },
  {
   "property": "C84",
   "status": "partial",
   "theorems": [
    "Hyp.Plda.C84_fr_mstep_partial",
    "Hyp.Plda.C84_fr_fit_partial",
    "Hyp.Plda.C84_fr_update_W_decreases"
   ],
   "note": "with update_mu=False the mean must be zero or B fixed"
  },
  {
   "property": "C85",
   "status": "partial",
   "theorems": [
    "Hyp.Plda.C85_sp_epoch_partial",
    "Hyp.Plda.C85_sp_fit_partial",
    "Hyp.Plda.C85_sp_update_mu_decreases",
    "Hyp.Plda.C85_sp_md_decreases"
   ],
   "note": ""
  },
  {
   "property": "C86",
   "status": "proved",
   "theorems": [
    "Hyp.Stft.C86_frames",
    "Hyp.Stft.C86_short",
    "Hyp.Stft.C86_logE"
   ],
   "note": "exact arithmetic"
  },
  {
   "property": "C87",
   "status": "proved",
   "theorems": [
    "Hyp.Stft.C87_istft",
    "Hyp.Stft.C87_istrft",
    "Hyp.Stft.C87_no_window",
    "Hyp.Stft.C87_fft_too_short",
    "Hyp.Stft.C87_odd_fft_wrong"
   ],
   "note": "exact arithmetic; FFT by its definition"
  },
  {
   "property": "C88",
   "status": "proved",
   "theorems": [
    "Hyp.Frontend.C88_filter_append",
    "Hyp.Frontend.C88_difference",
    "Hyp.Frontend.C88_dc_constant",
    "Hyp.Frontend.C88_preemph",
    "Hyp.Frontend.C88_vad_stream",
    "Hyp.Frontend.C88_reset",
    "Hyp.Frontend.C88_no_reset_differs",
    "Hyp.Frontend.C88_vad_dither"
   ],
   "note": "exact arithmetic"
  },
  {
   "property": "C89",
   "status": "proved",
   "theorems": [
    "Hyp.Frontend.C89_frames",
    "Hyp.Frontend.C89_short_frame_raises",
    "Hyp.Frontend.C89_snip",
    "Hyp.Frontend.C89_mirror",
    "Hyp.Frontend.C89_empty"
   ],
   "note": ""
  },
  {
   "property": "C90",
   "status": "proved",
   "theorems": [
    "Hyp.Frontend.C90_decision",
    "Hyp.Frontend.C90_wave",
    "Hyp.Frontend.C90_context_raises",
    "Hyp.Frontend.C90_monotone",
    "Hyp.Frontend.C90_gain"
   ],
   "note": ""
  },
  {
   "property": "C91",
   "status": "proved",
   "theorems": [
    "Hyp.FB.C91_mel_inverse",
    "Hyp.FB.C91_kaldi",
    "Hyp.FB.C91_kaldi_partition",
    "Hyp.FB.C91_kaldi_dc",
    "Hyp.FB.C91_kaldi_bin_frequency_wrong",
    "Hyp.FB.C91_linear",
    "Hyp.FB.C91_etsi",
    "Hyp.FB.C91_norm",
    "Hyp.FB.C91_norm_bin",
    "Hyp.FB.C91_odd_fft_raises",
    "Hyp.FB.C91_create"
   ],
   "note": "exact arithmetic"
  },
  {
   "property": "C92",
   "status": "proved",
   "theorems": [
    "Hyp.FB.C92_exists",
    "Hyp.FB.C92_range",
    "Hyp.FB.C92_symmetric",
    "Hyp.FB.C92_hann_overlap",
    "Hyp.FB.C92_resynthesis",
    "Hyp.FB.C92_first_sample",
    "Hyp.FB.C92_shape"
   ],
   "note": "exact arithmetic"
  },
  {
   "property": "C93",
   "status": "proved",
   "theorems": [
    "Hyp.Mfcc.C93_resume_logfb",
    "Hyp.Mfcc.C93_resume_mag",
    "Hyp.Mfcc.C93_resume_fft",
    "Hyp.Mfcc.C93_resume_fft_energy",
    "Hyp.Mfcc.C93_resume_fft_wrong",
    "Hyp.Mfcc.C93_raises",
    "Hyp.Mfcc.C93_resume_logspec",
    "Hyp.Mfcc.C93_argument_kept",
    "Hyp.Mfcc.C93_argument_overwritten",
    "Hyp.Mfcc.C93_extras",
    "Hyp.Mfcc.C93_extras_refused",
    "Hyp.Mfcc.C93_wrong_width"
   ],
   "note": "exact arithmetic"
  },
  {
   "property": "C94",
   "status": "proved",
   "theorems": [
    "Hyp.Mfcc.C94_logfb",
    "Hyp.Mfcc.C94_cepstra",
    "Hyp.Mfcc.C94_too_many_ceps",
    "Hyp.Mfcc.C94_fft_length",
    "Hyp.Mfcc.C94_half_spectrum",
    "Hyp.Mfcc.C94_spectrum",
    "Hyp.Mfcc.C94_reset",
    "Hyp.Mfcc.C94_stream",
    "Hyp.Mfcc.C94_dither"
   ],
   "note": "exact arithmetic; snip_edges=True"
  },
  {
   "property": "C95",
   "status": "proved",
   "theorems": [
    "Hyp.H5.C95_written_file",
    "Hyp.H5.C95_write_read",
    "Hyp.H5.C95_duplicate_raises",
    "Hyp.H5.C95_slash_key"
   ],
   "note": "h5py trusted as stated at File; keys with a '.' component or a trailing slash not modelled"
  },
  {
   "property": "C96",
   "status": "proved",
   "theorems": [
    "Hyp.H5.C96_read",
    "Hyp.H5.C96_batches",
    "Hyp.H5.C96_read_shapes",
    "Hyp.H5.C96_reset_close",
    "Hyp.H5.C96_split_by_key_same",
    "Hyp.H5.C96_parts",
    "Hyp.H5.C96_iterate"
   ],
   "note": ""
  },
  {
   "property": "C97",
   "status": "proved",
   "theorems": [
    "Hyp.H5.C97_sequential_rows",
    "Hyp.H5.C97_random_rows",
    "Hyp.H5.C97_random_closed",
    "Hyp.H5.C97_random_shapes",
    "Hyp.H5.C97_empty_shapes",
    "Hyp.H5.C97_random_lists",
    "Hyp.H5.C97_sequential_lists"
   ],
   "note": ""
  },
  {
   "property": "C98",
   "status": "proved",
   "theorems": [
    "Hyp.H5.C98_written_script",
    "Hyp.H5.C98_write_read",
    "Hyp.H5.C98_sequential",
    "Hyp.H5.C98_reset",
    "Hyp.H5.C98_range",
    "Hyp.H5.C98_reads_outside_the_entry",
    "Hyp.H5.C98_shape",
    "Hyp.H5.C98_rand_open",
    "Hyp.H5.C98_random",
    "Hyp.H5.C98_random_is_sequential",
    "Hyp.H5.C98_shapes_at_the_end",
    "Hyp.H5.C98_random_lists",
    "Hyp.H5.C98_read_shapes"
   ],
   "note": ""
  },
  {
   "property": "C99",
   "status": "proved",
   "theorems": [
    "Hyp.H5.C99_same_shape",
    "Hyp.H5.C99_permissive",
    "Hyp.H5.C99_first_missing",
    "Hyp.H5.C99_raises",
    "Hyp.H5.C99_order_matters",
    "Hyp.H5.C99_zeros"
   ],
   "note": ""
  }
 ]
}