{
 "claims": [
  {
   "property": "C01",
   "status": "proved",
   "theorems": [
    "Verif.Props.C01_constant_window",
    "Verif.Props.C01_polynomial_window"
   ],
   "note": "window theorem for both schedules, every step"
  },
  {
   "property": "C02",
   "status": "proved",
   "theorems": [
    "Verif.Props.C02_constant_accepts",
    "Verif.Props.C02_polynomial_accepts",
    "Verif.Props.C02_constant_reload",
    "Verif.Props.C02_polynomial_reload",
    "Verif.Props.C02_constant_value",
    "Verif.Props.C02_polynomial_value"
   ],
   "note": "exact acceptance, config round trip, requested value"
  },
  {
   "property": "C03",
   "status": "proved",
   "theorems": [
    "Verif.Props.C03_float_range",
    "Verif.Props.C03_float_monotone",
    "Verif.Props.C03_float_ends",
    "Verif.Props.C03_float_kept",
    "Verif.Props.C03_start",
    "Verif.Props.C03_end",
    "Verif.Props.C03_range",
    "Verif.Props.C03_monotone",
    "Verif.Props.C03_strict",
    "Verif.Props.C03_power_zero_violated",
    "Verif.Props.C03_negative_power_violated"
   ],
   "note": "also with rounding after every operation (C03_float_*): range, monotonicity and both ends are exact; start/end/range/monotone/strict for positive (non-negative) power; two counterexamples show the unvalidated power matters"
  },
  {
   "property": "C04",
   "status": "partial",
   "theorems": [
    "Verif.Props.C04_defined_partial",
    "Verif.Props.C04_violated"
   ],
   "note": "defined whenever begin_step < end_step; violated (proved) for begin_step = end_step"
  },
  {
   "property": "C05",
   "status": "proved",
   "theorems": [
    "Verif.Props.C05_float_exact_model",
    "Verif.Props.C05_float",
    "Verif.Props.C05_magnitude_mask"
   ],
   "note": "also with float32 rounding, up to 2^24 entries (C05_float); every weight list, every sparsity in range"
  },
  {
   "property": "C06",
   "status": "proved",
   "theorems": [
    "Verif.Props.C06_float",
    "Verif.Props.C06_float32",
    "Verif.Props.C06_excess_only_ties",
    "Verif.Props.C06_exact_without_ties",
    "Verif.Props.C06_accuracy"
   ],
   "note": "also with float32 rounding, up to 2^24 entries (C06_float, C06_float32); exactness without ties, ties are exactly at the threshold, accuracy 1/(2n)"
  },
  {
   "property": "C07",
   "status": "partial",
   "theorems": [
    "Verif.Props.C07_block_aligned",
    "Verif.Props.C07_selection_partial",
    "Verif.Props.C07_ragged_violated",
    "Verif.Props.C07_single_block_row_violated",
    "Verif.Props.C07_unit_block",
    "Verif.Props.C07_validate"
   ],
   "note": "alignment, own-shape and unit-block equivalence proved for all sizes; the selection claim is proved when the block divides the matrix, and is violated (proved) for ragged borders and for a single block row"
  },
  {
   "property": "C08",
   "status": "proved",
   "theorems": [
    "Verif.Props.C08_mask",
    "Verif.Props.C08_reject",
    "Verif.Props.C08_checker_accepts",
    "Verif.Props.C08_checker_sound",
    "Verif.Props.C08_checker_total",
    "Verif.Props.C08_checker_complete"
   ],
   "note": "mask properties, rejection, and the library's checker (acceptance and soundness)"
  },
  {
   "property": "C09",
   "status": "proved",
   "theorems": [
    "Verif.Props.C09_layout_lossless",
    "Verif.Props.C09_other_ranks"
   ],
   "note": "rank 2 and 4, all shapes"
  },
  {
   "property": "C10",
   "status": "proved",
   "theorems": [
    "Verif.Props.C10_after_forward",
    "Verif.Props.C10_after_epoch_end",
    "Verif.Props.C10_collected",
    "Verif.Props.C10_fresh_good"
   ],
   "note": "every history of events"
  },
  {
   "property": "C11",
   "status": "proved",
   "theorems": [
    "Verif.Props.C11_fresh",
    "Verif.Props.C11_only_training_calls",
    "Verif.Props.C11_only_when_scheduled",
    "Verif.Props.C11_pruning_step",
    "Verif.Props.C11_between",
    "Verif.Props.C11_masks_binary"
   ],
   "note": "every history of events"
  },
  {
   "property": "C12",
   "status": "proved",
   "theorems": [
    "Verif.Props.C12_first_call_fails_without_callback",
    "Verif.Props.C12_step_counts",
    "Verif.Props.C12_no_callback_error",
    "Verif.Props.C12_retry_violated",
    "Verif.Props.C12_mixed_violated"
   ],
   "note": "for models whose wrappers all start fresh or all resumed; two counterexample theorems show what happens on retry and for mixed models"
  },
  {
   "property": "C13",
   "status": "proved",
   "theorems": [
    "Verif.Props.C13_fixed_after_first",
    "Verif.Props.C13_first_call"
   ],
   "note": "every history without counter restart"
  },
  {
   "property": "C14",
   "status": "proved",
   "theorems": [
    "Verif.Props.C14_wraps_exactly",
    "Verif.Props.C14_idempotent",
    "Verif.Props.C14_strip_prune",
    "Verif.Props.C14_strip_clean",
    "Verif.Props.C14_succeeds_iff",
    "Verif.Props.C14_list",
    "Verif.Props.C14_single_layer"
   ],
   "note": "every nested model"
  },
  {
   "property": "C15",
   "status": "partial",
   "theorems": [
    "Verif.Props.C15_benchmark_violated",
    "Verif.Props.C15_roundtrip_partial",
    "Verif.Props.C15_mbyn_violated",
    "Verif.Props.C15_custom_schedule_violated"
   ],
   "note": "round trip proved for wrappers without m-by-n sparsity and with a built-in schedule; violated (proved) otherwise"
  },
  {
   "property": "C16",
   "status": "proved",
   "theorems": [
    "Verif.Props.C16_collects_all",
    "Verif.Props.C16_after_prune"
   ],
   "note": "every nested model"
  },
  {
   "property": "C18",
   "status": "proved",
   "theorems": [
    "Verif.Props.C18_supports_iff",
    "Verif.Props.C18_accepted_has_weights",
    "Verif.Props.C18_rnn_concat",
    "Verif.Props.C18_builtin_weights",
    "Verif.Props.C18_rescaling_violated"
   ],
   "note": "plus the Rescaling registration counterexample"
  },
  {
   "property": "C17",
   "status": "proved",
   "theorems": [
    "Verif.Props.C17_support_iff",
    "Verif.Props.C17_allow_iff",
    "Verif.Props.C17_terminates",
    "Verif.Props.C17_accepted_supported",
    "Verif.Props.C17_dead_end_violated"
   ],
   "note": "for every functional model taken alone, any pop order; support predicate equals the documented list; termination; plus a counterexample (proved) when a layer is shared with another model"
  },
  {
   "property": "C19",
   "status": "proved",
   "theorems": [
    "Verif.Props.C19_zero_fraction",
    "Verif.Props.C19_range"
   ],
   "note": "every tensor"
  },
  {
   "property": "C31",
   "status": "proved",
   "theorems": [
    "Verif.Props.C31_pack_layout",
    "Verif.Props.C31_lossless",
    "Verif.Props.C31_size",
    "Verif.Props.C31_words_fit",
    "Verif.Props.C31_stage",
    "Verif.Props.C31_accepts",
    "Verif.Props.C31_unknown_size_not_minimal"
   ],
   "note": "every list, every pair of bit widths (not only 1..16 into 28), static or dynamic size; stage incl. element type; at most two words more than needed when the size is unknown"
  },
  {
   "property": "C32",
   "status": "proved",
   "theorems": [
    "Verif.Props.C32_agree",
    "Verif.Props.C32_agree_unknown_size",
    "Verif.Props.C32_unpack_agree"
   ],
   "note": "general = special for every list; unpackers too"
  },
  {
   "property": "C37",
   "status": "proved",
   "theorems": [
    "Verif.Props.C37_composition",
    "Verif.Props.C37_roundtrip",
    "Verif.Props.C37_reachable_states_fit"
   ],
   "note": "every encoder tree (any depth, any children), every fitting state; reachable states fit"
  },
  {
   "property": "C38",
   "status": "proved",
   "theorems": [
    "Verif.Props.C38_before_after",
    "Verif.Props.C38_aggregate"
   ],
   "note": "single encoding for every tree; aggregate of n+1 clients for every tree whose commuting stages satisfy the sum law (shown for the shipped stages under C36 and C89)"
  },
  {
   "property": "C39",
   "status": "partial",
   "theorems": [
    "Verif.Props.C39_encoder_partial",
    "Verif.Props.C39_gather_is_root",
    "Verif.Props.C39_gather_violated"
   ],
   "note": "proved for Encoder; GatherEncoder violates it (proved)"
  },
  {
   "property": "C42",
   "status": "proved",
   "theorems": [
    "Verif.Props.C42_step",
    "Verif.Props.C42_state_threading",
    "Verif.Props.C42_decode"
   ],
   "note": "every sequence of inputs"
  },
  {
   "property": "C40",
   "status": "proved",
   "theorems": [
    "Verif.Props.C40_add_child",
    "Verif.Props.C40_add_parent",
    "Verif.Props.C40_make",
    "Verif.Props.C40_make_depth",
    "Verif.Props.C40_make_unique",
    "Verif.Props.C40_add_child_effect"
   ],
   "note": "every program of composer calls (heap of aliased objects); termination of make proved"
  },
  {
   "property": "C41",
   "status": "proved",
   "theorems": [
    "Verif.Props.C41_split",
    "Verif.Props.C41_split_accepts",
    "Verif.Props.C41_merge",
    "Verif.Props.C41_roundtrip",
    "Verif.Props.C41_merge_split"
   ],
   "note": "every nested dictionary"
  },
  {
   "property": "C20",
   "status": "proved",
   "theorems": [
    "Verif.Props.C20_nearest",
    "Verif.Props.C20_unique",
    "Verif.Props.C20_value",
    "Verif.Props.C20_fixed",
    "Verif.Props.C20_idempotent",
    "Verif.Props.C20_float_nearest",
    "Verif.Props.C20_float_value",
    "Verif.Props.C20_float_fixed",
    "Verif.Props.C20_float_ties"
   ],
   "note": "all weights, all centroid tables in exact arithmetic; the float theorems give the nearest rounded distance, the exact error bound and a binary32 example where two distances round to the same number"
  },
  {
   "property": "C21",
   "status": "partial",
   "theorems": [
    "Verif.Props.C21_clustered_partial",
    "Verif.Props.C21_whole_kernel_partial",
    "Verif.Props.C21_huge_weights_violated",
    "Verif.Props.C21_float_partial",
    "Verif.Props.C21_float_exact_model"
   ],
   "note": "proved for weights above -1e6 (sign(w+1e6) flips below); counterexample proved; the float theorem holds for every rounding"
  },
  {
   "property": "C22",
   "status": "proved",
   "theorems": [
    "Verif.Props.C22_zero_centroid",
    "Verif.Props.C22_zeros_stay",
    "Verif.Props.C22_assigned_to_zero_stay",
    "Verif.Props.C22_with_init",
    "Verif.Props.C22_float"
   ],
   "note": "every training history; also for every rounding of the arithmetic (C22_float)"
  },
  {
   "property": "C23",
   "status": "proved",
   "theorems": [
    "Verif.Props.C23_linear"
   ],
   "note": "all bounds, all cluster counts"
  },
  {
   "property": "C24",
   "status": "proved",
   "theorems": [
    "Verif.Props.C24_all_zero",
    "Verif.Props.C24_allocation",
    "Verif.Props.C24_no_empty_interval",
    "Verif.Props.C24_zero_centroid",
    "Verif.Props.C24_linear",
    "Verif.Props.C24_density",
    "Verif.Props.C24_random",
    "Verif.Props.C24_kmeans",
    "Verif.Props.C24_dead_channel_violated",
    "Verif.Props.C24_per_channel"
   ],
   "note": "all initialisers; per-channel initialisation with a dead channel cannot be stacked (counterexample proved)"
  },
  {
   "property": "C25",
   "status": "proved",
   "theorems": [
    "Verif.Props.C25_interpolation_noop",
    "Verif.Props.C25_density",
    "Verif.Props.C25_quantile",
    "Verif.Props.C25_keeps_sign"
   ],
   "note": "with the margin the code uses"
  },
  {
   "property": "C26",
   "status": "proved",
   "theorems": [
    "Verif.Props.C26_sum",
    "Verif.Props.C26_avg",
    "Verif.Props.C26_unassigned",
    "Verif.Props.C26_original",
    "Verif.Props.C26_is_derivative"
   ],
   "note": "all gradients and assignments; finite-sum adjoint identity"
  },
  {
   "property": "C27",
   "status": "partial",
   "theorems": [
    "Verif.Props.C27_restore_partial",
    "Verif.Props.C27_rnn_ordered",
    "Verif.Props.C27_unordered_violated"
   ],
   "note": "proved for ascending positions; unordered positions violate it (proved)"
  },
  {
   "property": "C28",
   "status": "partial",
   "theorems": [
    "Verif.Props.C28_shape",
    "Verif.Props.C28_channelwise",
    "Verif.Props.C28_axis_count",
    "Verif.Props.C28_output_channel_partial",
    "Verif.Props.C28_channels_first_violated"
   ],
   "note": "channels_last proved; channels_first violates it (proved)"
  },
  {
   "property": "C29",
   "status": "proved",
   "theorems": [
    "Verif.Props.C29_accept",
    "Verif.Props.C29_reject"
   ],
   "note": "acceptance and rejection"
  },
  {
   "property": "C30",
   "status": "partial",
   "theorems": [
    "Verif.Props.C30_conv_partial",
    "Verif.Props.C30_no_bias_violated",
    "Verif.Props.C30_no_bias_channels_first_violated",
    "Verif.Props.C30_dense_violated"
   ],
   "note": "conv layers with bias proved; bias-less convolutions and dense layers violate it (proved)"
  },
  {
   "property": "C67",
   "status": "proved",
   "theorems": [
    "Verif.Props.C67_wraps_exactly",
    "Verif.Props.C67_idempotent",
    "Verif.Props.C67_strip_cluster",
    "Verif.Props.C67_strip_clean",
    "Verif.Props.C67_init",
    "Verif.Props.C67_succeeds_iff"
   ],
   "note": "every nested model"
  },
  {
   "property": "C68",
   "status": "partial",
   "theorems": [
    "Verif.Props.C68_scope_partial",
    "Verif.Props.C68_rnn_violated",
    "Verif.Props.C68_mha_violated"
   ],
   "note": "proved without recurrent/attention layers; violated for those (proved)"
  },
  {
   "property": "C69",
   "status": "partial",
   "theorems": [
    "Verif.Props.C69_buildable_partial",
    "Verif.Props.C69_rnn_names",
    "Verif.Props.C69_rnn_accept",
    "Verif.Props.C69_accept",
    "Verif.Props.C69_names",
    "Verif.Props.C69_mha_names",
    "Verif.Props.C69_no_weights",
    "Verif.Props.C69_cell_violated",
    "Verif.Props.C69_unbuilt_violated",
    "Verif.Props.C69_bidirectional_stacked_violated"
   ],
   "note": "proved for layers built before wrapping; three counterexamples proved"
  },
  {
   "property": "C33",
   "status": "proved",
   "theorems": [
    "Verif.Props.C33_defined_iff",
    "Verif.Props.C33_matrix",
    "Verif.Props.C33_involution",
    "Verif.Props.C33_linear",
    "Verif.Props.C33_isometry"
   ],
   "note": "every length 2^k, over the reals"
  },
  {
   "property": "C34",
   "status": "proved",
   "theorems": [
    "Verif.Props.C34_lossless",
    "Verif.Props.C34_random_signs",
    "Verif.Props.C34_zero_sign_lossy",
    "Verif.Props.C34_commutes_with_sum"
   ],
   "note": "every row and sign vector; a draw of exactly 1/2 yields sign 0 and loses the entry (proved)"
  },
  {
   "property": "C35",
   "status": "proved",
   "theorems": [
    "Verif.Props.C35_float_exact_model",
    "Verif.Props.C35_float_levels",
    "Verif.Props.C35_float_error",
    "Verif.Props.C35_float_ends",
    "Verif.Props.C35_float_exact",
    "Verif.Props.C35_constructor",
    "Verif.Props.C35_levels",
    "Verif.Props.C35_error",
    "Verif.Props.C35_extremes_exact",
    "Verif.Props.C35_constant_exact",
    "Verif.Props.C35_adaptive_no_clip"
   ],
   "note": "every tensor, interval, bit width and draw; also with rounding after every operation (C35_float_*): levels and constants exact, error of one step plus 11 eps (hi-lo) + eps |lo|"
  },
  {
   "property": "C36",
   "status": "proved",
   "theorems": [
    "Verif.Props.C36_commutes_with_sum",
    "Verif.Props.C36_adaptive_not_commuting"
   ],
   "note": "any number of summands"
  },
  {
   "property": "C45",
   "status": "proved",
   "theorems": [
    "Verif.Props.C45_lossless",
    "Verif.Props.C45_clip",
    "Verif.Props.C45_clipped_norm",
    "Verif.Props.C45_commutes_with_sum"
   ],
   "note": "every number of iterations and parameters"
  },
  {
   "property": "C70",
   "status": "proved",
   "theorems": [
    "Verif.Props.C70_unbiased"
   ],
   "note": "integral over the draw"
  },
  {
   "property": "C71",
   "status": "proved",
   "theorems": [
    "Verif.Props.C71_prng_error",
    "Verif.Props.C71_prng_unbiased",
    "Verif.Props.C71_per_channel_error",
    "Verif.Props.C71_per_channel_prng_error"
   ],
   "note": "every tensor, channel and draw"
  },
  {
   "property": "C43",
   "status": "proved",
   "theorems": [
    "Verif.Props.C43_diff_lossless",
    "Verif.Props.C43_diff_values"
   ],
   "note": "Any additive group, hence also wrap-around machine integers."
  },
  {
   "property": "C44",
   "status": "proved",
   "theorems": [
    "Verif.Props.C44_split_decode",
    "Verif.Props.C44_split_encode"
   ],
   "note": "Rank 1 tensors, as in the code (squeeze axis=1)."
  },
  {
   "property": "C46",
   "status": "proved",
   "theorems": [
    "Verif.Props.C46_clip_by_norm",
    "Verif.Props.C46_clip_by_value",
    "Verif.Props.C46_clip_by_value_fixed"
   ],
   "note": "Clip-by-norm over the reals with a positive bound; decode of both stages is the identity."
  },
  {
   "property": "C47",
   "status": "partial",
   "theorems": [
    "Verif.Props.C47_parallelism",
    "Verif.Props.C47_cmwc",
    "Verif.Props.C47_cmwc_range",
    "Verif.Props.C47_signs",
    "Verif.Props.C47_float_partial",
    "Verif.Props.C47_float64",
    "Verif.Props.C47_float32_violated"
   ],
   "note": "proved for the sequence itself (int64 arithmetic as 64-bit words; all values are dyadic with 53 bits) and for random_floats_cmwc with float64; with float32 (the default) only [0,1]: a seed for which the value is 1 is proved (C47_float32_violated)"
  },
  {
   "property": "C48",
   "status": "proved",
   "theorems": [
    "Verif.Props.C48_float_exact_model",
    "Verif.Props.C48_float_contains_zero",
    "Verif.Props.C48_float_symmetric_narrow",
    "Verif.Props.C48_contains_zero",
    "Verif.Props.C48_symmetric_narrow",
    "Verif.Props.C48_symmetric_wide"
   ],
   "note": "Also with rounding after every operation (C48_float_*). All three quantizers, every history of training and inference calls, per tensor and per channel; two's complement proportions for wide symmetric ranges (MovingAverage only approaches them from its symmetric initial range)."
  },
  {
   "property": "C49",
   "status": "proved",
   "theorems": [
    "Verif.Props.C49_float_covers",
    "Verif.Props.C49_inference_pure",
    "Verif.Props.C49_all_values_grows",
    "Verif.Props.C49_all_values_covers"
   ],
   "note": "also with rounding (C49_float_covers)"
  },
  {
   "property": "C50",
   "status": "proved",
   "theorems": [
    "Verif.Props.C50_float",
    "Verif.Props.C50_float_error",
    "Verif.Props.C50_float_zero",
    "Verif.Props.C50_float_exact_model",
    "Verif.Props.C50_quantizer_call",
    "Verif.Props.C50_training_error",
    "Verif.Props.C50_idempotent"
   ],
   "note": "Also for the kernel with rounding after every operation (C50_float*). The fake-quantization kernel is modelled after TensorFlow's functor (exact arithmetic); levels, zero, idempotence, monotonicity and error for the tensors a quantizer emits after any history."
  },
  {
   "property": "C51",
   "status": "partial",
   "theorems": [
    "Verif.Props.C51_violated",
    "Verif.Props.C51_eight_bits_partial",
    "Verif.Props.C51_rejects_range"
   ],
   "note": "Violated: counterexample proved (num_bits=2 emits 5 levels); what holds is 8-bit behaviour whatever num_bits."
  },
  {
   "property": "C72",
   "status": "proved",
   "theorems": [
    "Verif.Props.C72_float_covers",
    "Verif.Props.C72_last_value"
   ],
   "note": "also with rounding (C72_float_covers)"
  },
  {
   "property": "C73",
   "status": "proved",
   "theorems": [
    "Verif.Props.C73_float_stall",
    "Verif.Props.C73_float_hull",
    "Verif.Props.C73_hull",
    "Verif.Props.C73_step",
    "Verif.Props.C73_hull_symmetric",
    "Verif.Props.C73_step_symmetric"
   ],
   "note": "Hull also with rounding (C73_float_hull), where the step can be rounded away (C73_float_stall). Closed step rule and hull bound for symmetric and non-symmetric ranges (a per-axis MovingAverage quantizer cannot be called, C74)."
  },
  {
   "property": "C74",
   "status": "partial",
   "theorems": [
    "Verif.Props.C74_violated",
    "Verif.Props.C74_calls_succeed_partial",
    "Verif.Props.C74_rank_violated"
   ],
   "note": "Violated for MovingAverage with per_axis (every call fails, proved for all inputs) and for LastValue with per_axis on ranks other than 1, 2, 4 (C74_rank_violated: every training call fails); proved for the other configurations."
  },
  {
   "property": "C52",
   "status": "proved",
   "theorems": [
    "Verif.Props.C52_float",
    "Verif.Props.C52_zeros_kept",
    "Verif.Props.C52_calls_succeed"
   ],
   "note": "also with rounding (C52_float); every kernel, every history; non-zero entries are quantized channelwise as by the plain quantizer"
  },
  {
   "property": "C53",
   "status": "partial",
   "theorems": [
    "Verif.Props.C53_whole_kernel",
    "Verif.Props.C53_per_channel_partial",
    "Verif.Props.C53_zeros_kept",
    "Verif.Props.C53_first_call",
    "Verif.Props.C53_nonzero_channel_violated",
    "Verif.Props.C53_shared_flag",
    "Verif.Props.C53_shared_flag_violated",
    "Verif.Props.C53_calls_succeed_partial"
   ],
   "note": "Proved: whole-kernel and per-channel cluster counts after any history, zeros kept while preserve_sparsity stays on, first training call is the identity, calls succeed. The English claim fails in two ways, both proved as counterexamples: the flag of the shared quantizer is switched off for all layers by one layer without zeros, and a channel without zeros loses its smallest cluster. A channel with one value fewer than the others may gain one (padding centroid). Only channels_last is modelled."
  },
  {
   "property": "C56",
   "status": "partial",
   "theorems": [
    "Verif.Props.C56_alternation",
    "Verif.Props.C56_single",
    "Verif.Props.C56_partial",
    "Verif.Props.C56_violated",
    "Verif.Props.C56_any",
    "Verif.Props.C56_shipped_violated"
   ],
   "note": "Violated by the code: alternatives are anchored only at the ends of the whole pattern. Proved: exactly what an alternation matches; exactness for single names and for the stated class of names; counterexamples for a shipped pattern."
  },
  {
   "property": "C58",
   "status": "proved",
   "theorems": [
    "Verif.Props.C58_once",
    "Verif.Props.C58_terminates",
    "Verif.Props.C58_sequential",
    "Verif.Props.C58_changes_applied",
    "Verif.Props.C58_exhausted",
    "Verif.Props.C58_default_names",
    "Verif.Props.C58_default_terminates"
   ],
   "note": "Once per (transform, name); termination for every list of transforms that make up no names, instantiated at the shipped default 8-bit list (C58_default_terminates); for sequential models the exact list of layers after a replacement. C58_changes_applied and C58_exhausted: nothing is dropped, nothing is left to do at the end (for transforms with different names, as the shipped ones have)."
  },
  {
   "property": "C76",
   "status": "proved",
   "theorems": [
    "Verif.Props.C76_replace_valid"
   ],
   "note": "every functional model, pattern, match and replacement with distinct names that are new or those of matched layers"
  },
  {
   "property": "C77",
   "status": "partial",
   "theorems": [
    "Verif.Props.C77_default8bit_partial",
    "Verif.Props.C77_sequential",
    "Verif.Props.C77_same_function_partial",
    "Verif.Props.C77_violated",
    "Verif.Props.C77_concat_violated"
   ],
   "note": "Single step: proved for matches whose inner layers have plain calls. Whole default 8-bit run: proved for every Sequential model (C77_sequential) and for functional models without Concatenate (C77_default8bit_partial). Outside of that the code violates the claim: C77_violated (call arguments of inner layers), C77_concat_violated (operand order of Concatenate). The assumption that a separable convolution computes what the layers it is split into compute is proved in C114."
  },
  {
   "property": "C57",
   "status": "partial",
   "theorems": [
    "Verif.Props.C57_custom_config_partial",
    "Verif.Props.C57_violated",
    "Verif.Props.C57_unquantized_weights",
    "Verif.Props.C57_dense_order"
   ],
   "note": "Violated by the code (C57_violated, C57_unquantized_weights, C57_dense_order). Proved: every transform other than the LayerReLU family keeps the kind of a custom config, and the only change the others make is switching off output quantization next to Concatenate."
  },
  {
   "property": "C54",
   "status": "partial",
   "theorems": [
    "Verif.Props.C54_unannotated",
    "Verif.Props.C54_annotated_partial",
    "Verif.Props.C54_custom",
    "Verif.Props.C54_everything",
    "Verif.Props.C54_inputs",
    "Verif.Props.C54_unsupported",
    "Verif.Props.C54_rejects",
    "Verif.Props.C54_violated",
    "Verif.Props.C54_quantize_model",
    "Verif.Props.C54_quantize_model_left",
    "Verif.Props.C54_quantize_model_rejects",
    "Verif.Props.C54_quantize_layer_kept",
    "Verif.Props.C54_quantize_layer_off"
   ],
   "note": "Violated by the code in one case (C54_violated, cf. C57): the config a user gave to a Dense/Conv2D/DepthwiseConv2D/Add layer is overwritten when an annotated ReLU or Activation follows. Proved for quantize_apply with the default 8-bit scheme, over the whole run of the layout transforms, for every Sequential and functional model: unannotated layers keep class, configuration and weights and get output quantization exactly when they are the only input of an annotated layer (and supported); annotated layers are wrapped with their own config or one the library has for their class; everything else in the result is quantized or a QuantizeLayer; what is rejected."
  },
  {
   "property": "C55",
   "status": "proved",
   "theorems": [
    "Verif.Props.C55_annotates",
    "Verif.Props.C55_rejects",
    "Verif.Props.C55_value_error",
    "Verif.Props.C55_idempotent"
   ],
   "note": "InputLayers, which clone_model never passes to the clone function, stay as they are."
  },
  {
   "property": "C62",
   "status": "proved",
   "theorems": [
    "Verif.Props.C62_start",
    "Verif.Props.C62_end",
    "Verif.Props.C62_after",
    "Verif.Props.C62_monotone",
    "Verif.Props.C62_linear",
    "Verif.Props.C62_quadratic",
    "Verif.Props.C62_integer",
    "Verif.Props.C62_zero_steps"
   ],
   "note": "For a positive number of steps and a non-negative exponent; decay_steps = 0 is not rejected and undefined at begin_step (C62_zero_steps)."
  },
  {
   "property": "C63",
   "status": "proved",
   "theorems": [
    "Verif.Props.C63_bounds",
    "Verif.Props.C63_first",
    "Verif.Props.C63_target",
    "Verif.Props.C63_antitone",
    "Verif.Props.C63_linear",
    "Verif.Props.C63_counter",
    "Verif.Props.C63_forward"
   ],
   "note": "Also: step counter over any training history; the forward pass uses the weight before the update (C63_forward)."
  },
  {
   "property": "C64",
   "status": "partial",
   "theorems": [
    "Verif.Props.C64_training_partial",
    "Verif.Props.C64_training_violated",
    "Verif.Props.C64_conv1d_violated",
    "Verif.Props.C64_inference_partial",
    "Verif.Props.C64_shapes_checked",
    "Verif.Props.C64_inference_violated",
    "Verif.Props.C64_both_partial",
    "Verif.Props.C64_bias_violated"
   ],
   "note": "Violated by the code in several ways, each proved: layers without compressible weights lose their pretrained weights, EPR with Conv1D fails, inference layers exist exactly for layers with 0 or 2 weights (so not for compressed layers without bias), and compressing only the bias mixes up kernel and bias. Proved for the rest: every weight gets the right value."
  },
  {
   "property": "C65",
   "status": "proved",
   "theorems": [
    "Verif.Props.C65_nearest",
    "Verif.Props.C65_trained",
    "Verif.Props.C65_grouping"
   ],
   "note": "Per position and after any change of the centroids by training."
  },
  {
   "property": "C78",
   "status": "proved",
   "theorems": [
    "Verif.Props.C78_rank",
    "Verif.Props.C78_error",
    "Verif.Props.C78_lossless",
    "Verif.Props.C78_idempotent",
    "Verif.Props.C78_best",
    "Verif.Props.C78_periodic",
    "Verif.Props.C78_first_update"
   ],
   "note": "Relative to the contract of tf.linalg.svd (IsSvd). Convolution kernels are families of matrices, compressed one by one."
  },
  {
   "property": "C79",
   "status": "partial",
   "theorems": [
    "Verif.Props.C79_roundtrip_partial",
    "Verif.Props.C79_float16",
    "Verif.Props.C79_accuracy",
    "Verif.Props.C79_idempotent",
    "Verif.Props.C79_shape_violated",
    "Verif.Props.C79_step_violated",
    "Verif.Props.C79_conv_lossless",
    "Verif.Props.C79_conv_accuracy",
    "Verif.Props.C79_conv1d_accuracy",
    "Verif.Props.C79_conv_roundtrip_partial",
    "Verif.Props.C79_conv_shape_violated"
   ],
   "note": "Violated for dimensions that are multiples of 2^16 and for steps that are not exact in float16; exact relation proved for all steps. Dense kernels, biases and convolution kernels (FFT domain, C79_conv_*) are covered; the entropy coder is assumed lossless and not modelled."
  },
  {
   "property": "C80",
   "status": "proved",
   "theorems": [
    "Verif.Props.C80_mean",
    "Verif.Props.C80_lossless"
   ],
   "note": ""
  },
  {
   "property": "C66",
   "status": "partial",
   "theorems": [
    "Verif.Props.C66_terminates",
    "Verif.Props.C66_avoids",
    "Verif.Props.C66_unique",
    "Verif.Props.C66_sequence_partial",
    "Verif.Props.C66_prefix",
    "Verif.Props.C66_documented",
    "Verif.Props.C66_zero_based_violated",
    "Verif.Props.C66_mixed_violated",
    "Verif.Props.C66_observed_violated"
   ],
   "note": "Proved: every call terminates, avoids the names given, and calls with the same numbering never repeat a name (one-based: not even for different prefixes of a namespace). Violated, each proved: mixing one-based and zero-based calls, zero-based names of different prefixes, avoid_observed_names."
  },
  {
   "property": "C59",
   "status": "partial",
   "theorems": [
    "Verif.Props.C59_bits_partial",
    "Verif.Props.C59_own",
    "Verif.Props.C59_last_wins",
    "Verif.Props.C59_eight",
    "Verif.Props.C59_violated"
   ],
   "note": "Proved: a registry hands out its own bits if no n-bit registry was constructed after it, and always for Activation, Conv2D, DepthwiseConv2D, Conv2DTranspose and RNNs; 8-bit registries always. Violated (C59_violated): later constructions change the bits of every other layer class; C59_last_wins says exactly which bits are used."
  },
  {
   "property": "C60",
   "status": "partial",
   "theorems": [
    "Verif.Props.C60_quantizers",
    "Verif.Props.C60_quantizer_args",
    "Verif.Props.C60_equivalence",
    "Verif.Props.C60_config_partial",
    "Verif.Props.C60_same_arguments",
    "Verif.Props.C60_violated",
    "Verif.Props.C60_rank_violated"
   ],
   "note": "Proved: equality of quantizers means same variables and same results on every kernel with four axes; equality is an equivalence; equal configs quantize the same weights the same way and agree on activations if activation_attrs agree. Violated: activation_attrs are compared with themselves (C60_violated); the quantizer of a transposed convolution equals the plain one but fails on matrices (C60_rank_violated)."
  },
  {
   "property": "C81",
   "status": "partial",
   "theorems": [
    "Verif.Props.C81_weights_partial",
    "Verif.Props.C81_activations_partial",
    "Verif.Props.C81_number",
    "Verif.Props.C81_shape",
    "Verif.Props.C81_atomic_violated"
   ],
   "note": "Proved for every layer and RNN. Missing: a failing call is without effect; C81_atomic_violated shows that it is not."
  },
  {
   "property": "C82",
   "status": "partial",
   "theorems": [
    "Verif.Props.C82_supports",
    "Verif.Props.C82_unsupported",
    "Verif.Props.C82_documented",
    "Verif.Props.C82_recurrent_partial",
    "Verif.Props.C82_activation_cell_violated",
    "Verif.Props.C82_output_only"
   ],
   "note": "Proved for every registry and layer class, including recurrent layers. Missing: a recurrent layer with an Activation among its cells is reported as supported, but get_quantize_config raises an AttributeError for it (C82_activation_cell_violated)."
  },
  {
   "property": "C61",
   "status": "partial",
   "theorems": [
    "Verif.Props.C61_supported",
    "Verif.Props.C61_places_partial",
    "Verif.Props.C61_total",
    "Verif.Props.C61_documented_violated"
   ],
   "note": "Proved for every activation and every history: exactly the activations of the table are accepted, and each is quantized exactly where the sets of the class say. Missing: the class documentation says that softmax is also quantized after; C61_documented_violated shows that it is not."
  },
  {
   "property": "C83",
   "status": "proved",
   "theorems": [
    "Verif.Props.C83_refines",
    "Verif.Props.C83_floats",
    "Verif.Props.C83_inference",
    "Verif.Props.C83_default_lawful",
    "Verif.Props.C83_empty_lawful",
    "Verif.Props.C83_output_only_lawful",
    "Verif.Props.C83_fixed_lawful",
    "Verif.Props.C83_fixed_quantizers",
    "Verif.Props.C83_noop",
    "Verif.Props.C83_several_outputs",
    "Verif.Props.C83_construct",
    "Verif.Props.C83_quantize_layer",
    "Verif.Props.C83_shipped",
    "Verif.Props.C83_default"
   ],
   "note": "Every layer is a program over its weights and activations; user-defined configs and quantizers are covered if they keep the contract Spec.Lawful, which is proved for all shipped configs (C83_default_lawful, C83_empty_lawful, C83_output_only_lawful, C83_fixed_lawful); C83_default has no hypothesis about configs or quantizers left."
  },
  {
   "property": "C84",
   "status": "partial",
   "theorems": [
    "Verif.Props.C84_partial",
    "Verif.Props.C84_same_weights",
    "Verif.Props.C84_frozen_violated",
    "Verif.Props.C84_order_violated"
   ],
   "note": "Proved for layers that are never frozen: same weights, each once (V2), in order if the layer was built before. Violated for frozen layers (C84_frozen_violated) and in order and multiplicity for other cases (C84_order_violated)."
  },
  {
   "property": "C75",
   "status": "partial",
   "theorems": [
    "Verif.Props.C75_apply_partial",
    "Verif.Props.C75_default",
    "Verif.Props.C75_others",
    "Verif.Props.C75_weights",
    "Verif.Props.C75_supports_violated",
    "Verif.Props.C75_frozen_violated"
   ],
   "note": "Proved for every layer and config: which quantizer is handed out, everything else of the config unchanged, errors. Missing: supports promises configs it cannot give (C75_supports_violated), frozen Conv2D and Dense get the ordinary quantizer although their kernel is trained (C75_frozen_violated)."
  },
  {
   "property": "C85",
   "status": "partial",
   "theorems": [
    "Verif.Props.C85_partial",
    "Verif.Props.C85_violated"
   ],
   "note": "Proved for every layer whose name does not contain \"depthwise\"; C85_violated is the counterexample for the others."
  },
  {
   "property": "C86",
   "status": "partial",
   "theorems": [
    "Verif.Props.C86_load_partial",
    "Verif.Props.C86_reload",
    "Verif.Props.C86_library_partial",
    "Verif.Props.C86_quantize_scope",
    "Verif.Props.C86_repeatedly_partial",
    "Verif.Props.C86_conv_quantizers_violated",
    "Verif.Props.C86_fixed_violated",
    "Verif.Props.C86_scope_partial",
    "Verif.Props.C86_preserving_violated",
    "Verif.Props.C86_quantizers"
   ],
   "note": "Proved for all classes quantize_scope registers and all user-defined classes whose get_config returns their constructor arguments, nested to any depth; repeated loading without FixedQuantizeConfig. Violated by the code in three ways, each proved: C86_conv_quantizers_violated, C86_fixed_violated, C86_preserving_violated."
  },
  {
   "property": "C87",
   "status": "partial",
   "theorems": [
    "Verif.Props.C87_functional_partial",
    "Verif.Props.C87_remove_functional_partial",
    "Verif.Props.C87_sequential_partial",
    "Verif.Props.C87_remove_sequential_partial",
    "Verif.Props.C87_rejects",
    "Verif.Props.C87_partial_model_violated",
    "Verif.Props.C87_one_layer_violated",
    "Verif.Props.C87_weights_violated"
   ],
   "note": "Proved for every quantized functional and Sequential model: exactly the input QuantizeLayers and the output configs change, connections and other layers do not; rejection of Sequential models that are not quantized. Violated by the code, each proved: C87_partial_model_violated (TypeError), C87_one_layer_violated (IndexError), C87_weights_violated (weights initialised anew)."
  },
  {
   "property": "C88",
   "status": "proved",
   "theorems": [
    "Verif.Props.C88_arguments",
    "Verif.Props.C88_identity",
    "Verif.Props.C88_uniform_quantization",
    "Verif.Props.C88_hadamard_quantization",
    "Verif.Props.C88_hadamard_arguments"
   ],
   "note": "Over real entries (floating point rounding is not modelled), non-empty tensors of floating point types."
  },
  {
   "property": "C89",
   "status": "proved",
   "theorems": [
    "Verif.Props.C89_protocol",
    "Verif.Props.C89_accepts",
    "Verif.Props.C89_rounds",
    "Verif.Props.C89_shipped_stages",
    "Verif.Props.C89_shipped",
    "Verif.Props.C89_uniform_quantization",
    "Verif.Props.C89_hadamard_quantization"
   ],
   "note": "For every tree of stages that keep Spec.Contract, which is proved for the five shipped stages in every combination; real entries. The split of parameters into Python constants and tensors (C39) and joined string paths (C90) are treated separately."
  },
  {
   "property": "C90",
   "status": "partial",
   "theorems": [
    "Verif.Props.C90_flat_partial",
    "Verif.Props.C90_part_partial",
    "Verif.Props.C90_simple_partial",
    "Verif.Props.C90_gather_partial",
    "Verif.Props.C90_identifiers",
    "Verif.Props.C90_order_violated",
    "Verif.Props.C90_slash_violated"
   ],
   "note": "Proved for every nested dictionary whose keys use only characters after '/' (letters, digits, underscore and more), which all shipped stages do. Violated by the code otherwise: C90_order_violated for every character before '/' (tensors exchanged), C90_slash_violated for '/' (ValueError)."
  },
  {
   "property": "C91",
   "status": "partial",
   "theorems": [
    "Verif.Props.C91_bits",
    "Verif.Props.C91_inputs",
    "Verif.Props.C91_documented_partial",
    "Verif.Props.C91_violated"
   ],
   "note": "Numbers of bits (C91_bits) and input quantizers (C91_inputs) for all models and both schemes. Per-axis quantization (C91_documented_partial) for models without an annotated Concatenate or without disable_per_axis; violated by the code otherwise (C91_violated). The user's own quantize configs are opaque."
  },
  {
   "property": "C92",
   "status": "partial",
   "theorems": [
    "Verif.Props.C92_saved_partial",
    "Verif.Props.C92_violated"
   ],
   "note": "Proved for the 8-bit scheme and the configs the library has chosen (C92_saved_partial). Violated by the code for the n-bit scheme (C92_violated). The user's own quantize configs are opaque."
  },
  {
   "property": "C93",
   "status": "proved",
   "theorems": [
    "Verif.Props.C93_input",
    "Verif.Props.C93_messages",
    "Verif.Props.C93_states",
    "Verif.Props.C93_updates",
    "Verif.Props.C93_flat",
    "Verif.Props.C93_compressed_sum"
   ],
   "note": "Over trees of arbitrary stages; the compressed sums for every combination of the shipped stages that commute with sum."
  },
  {
   "property": "C94",
   "status": "partial",
   "theorems": [
    "Verif.Props.C94_forward",
    "Verif.Props.C94_strip",
    "Verif.Props.C94_registry_plain",
    "Verif.Props.C94_registry_stacked",
    "Verif.Props.C94_registry_rnn",
    "Verif.Props.C94_registry_bidirectional",
    "Verif.Props.C94_mha_partial",
    "Verif.Props.C94_mha_violated"
   ],
   "note": "Proved for plain, recurrent, stacked and bidirectional layers (C94_forward, C94_strip, C94_registry_*), listed in the order of layer.weights. For MultiHeadAttention only the values are right (C94_mha_partial); violated by the code otherwise (C94_mha_violated)."
  },
  {
   "property": "C95",
   "status": "proved",
   "theorems": [
    "Verif.Props.C95_roundtrip",
    "Verif.Props.C95_aggregation",
    "Verif.Props.C95_unknown",
    "Verif.Props.C95_name",
    "Verif.Props.C95_defaults",
    "Verif.Props.C95_missing"
   ],
   "note": "Configs as dictionaries, with and without the JSON round trip of enum members."
  },
  {
   "property": "C96",
   "status": "partial",
   "theorems": [
    "Verif.Props.C96_prune_partial",
    "Verif.Props.C96_quantize_partial",
    "Verif.Props.C96_cluster_partial",
    "Verif.Props.C96_rejects",
    "Verif.Props.C96_cluster_violated",
    "Verif.Props.C96_keyword_only_violated"
   ],
   "note": "Proved for pruning and quantization with a positional training argument, and for clustering when no other phase than the current is asked for. Violated by the code otherwise (C96_cluster_violated, C96_keyword_only_violated)."
  },
  {
   "property": "C97",
   "status": "proved",
   "theorems": [
    "Verif.Props.C97_zeros",
    "Verif.Props.C97_clusters",
    "Verif.Props.C97_prune_quantize",
    "Verif.Props.C97_count"
   ],
   "note": "Clustering not per channel; weights above -1e6 (below, C21 is violated by the code); for the number of clusters: kernels with 2 to 1024 clusters that are quantized as a whole. Evaluation calls with preserve_sparsity switched off or on as built (the shared flag, see C53)."
  },
  {
   "property": "C98",
   "status": "proved",
   "theorems": [
    "Verif.Props.C98_one_device",
    "Verif.Props.C98_together",
    "Verif.Props.C98_mirrored"
   ],
   "note": "MirroredStrategy as described in Sparsity/Distributed.lean (copies per replica, merge_call as barrier); floating point rounding of the mean is not modelled."
  },
  {
   "property": "C99",
   "status": "proved",
   "theorems": [
    "Verif.Props.C99_mbyn",
    "Verif.Props.C99_elementwise",
    "Verif.Props.C99_blocks"
   ],
   "note": "Composition of C05-C13 over the single-device state machine."
  },
  {
   "property": "C100",
   "status": "proved",
   "theorems": [
    "Verif.Props.C100_elementwise",
    "Verif.Props.C100_count",
    "Verif.Props.C100_idempotent",
    "Verif.Props.C100_blocks"
   ],
   "note": "Eager mode, single device. Which layers are wrapped and collected is C14/C16."
  },
  {
   "property": "C101",
   "status": "partial",
   "theorems": [
    "Verif.Props.C101_sound",
    "Verif.Props.C101_logged_partial",
    "Verif.Props.C101_lstm_violated"
   ],
   "note": "Proved for wrappers with different names and one prunable weight each; in general nothing wrong is written and no wrapper is missed (C101_sound). Violated for wrappers with several prunable weights: all masks of a wrapper have the same variable name."
  },
  {
   "property": "C102",
   "status": "partial",
   "theorems": [
    "Verif.Props.C102_every_partial",
    "Verif.Props.C102_epoch_partial",
    "Verif.Props.C102_settings",
    "Verif.Props.C102_steps_per_execution_violated"
   ],
   "note": "Proved for one step per execution. Violated for steps_per_execution >= 2: the assertion on the batch count fails."
  },
  {
   "property": "C103",
   "status": "partial",
   "theorems": [
    "Verif.Props.C103_masks",
    "Verif.Props.C103_step_partial",
    "Verif.Props.C103_check",
    "Verif.Props.C103_sparsity_partial",
    "Verif.Props.C103_spec",
    "Verif.Props.C103_step_violated",
    "Verif.Props.C103_first_step_violated",
    "Verif.Props.C103_sparsity_violated"
   ],
   "note": "Masks are proved 0/1 and the check never fails spuriously after the first step; the step advances by one or two depending on the order; sparsity only if the masking happens to come last. Exactly-one, first step and final sparsity are violated (proved)."
  },
  {
   "property": "C104",
   "status": "partial",
   "theorems": [
    "Verif.Props.C104_mask_partial",
    "Verif.Props.C104_exact",
    "Verif.Props.C104_violated",
    "Verif.Props.C104_nearest",
    "Verif.Props.C104_ieee"
   ],
   "note": "Proved up to 2^24 entries; C104_exact says when it fails; violated in binary32 at sparsity 0 for every tensor with 2^24 < n < 2^25, n = 3 mod 4 entries."
  },
  {
   "property": "C105",
   "status": "partial",
   "theorems": [
    "Verif.Props.C105_training_partial",
    "Verif.Props.C105_inference_partial",
    "Verif.Props.C105_same_weights_partial",
    "Verif.Props.C105_names",
    "Verif.Props.C105_names_unknown",
    "Verif.Props.C105_inference_violated",
    "Verif.Props.C105_stale_violated",
    "Verif.Props.C105_alias_violated",
    "Verif.Props.C105_twice_violated"
   ],
   "note": "Proved for layers that store every compressible weight in an attribute of its own name and have no property returning such a weight. Violated otherwise (four counterexamples proved)."
  },
  {
   "property": "C106",
   "status": "proved",
   "theorems": [
    "Verif.Props.C106_transparent",
    "Verif.Props.C106_history",
    "Verif.Props.C106_recorded",
    "Verif.Props.C106_recorded_new",
    "Verif.Props.C106_other_gauges",
    "Verif.Props.C106_gauge_names"
   ],
   "note": "All functions, states and histories, including interrupts."
  },
  {
   "property": "C107",
   "status": "partial",
   "theorems": [
    "Verif.Props.C107_pruning_fit",
    "Verif.Props.C107_pruning_step_partial",
    "Verif.Props.C107_pruning_violated",
    "Verif.Props.C107_clustering",
    "Verif.Props.C107_svd_violated",
    "Verif.Props.C107_quantization",
    "Verif.Props.C107_quantization_default"
   ],
   "note": "Proved for clustering, quantization, and for pruning with validation in fit. Violated (proved) for an evaluation between two pruning steps, and for the periodic SVD compression, where every forward pass counts as a step."
  },
  {
   "property": "C108",
   "status": "partial",
   "theorems": [
    "Verif.Props.C108_pruning_state",
    "Verif.Props.C108_pruning_resume",
    "Verif.Props.C108_get_weights_violated",
    "Verif.Props.C108_clustering_partial",
    "Verif.Props.C108_clustering_violated",
    "Verif.Props.C108_quantization",
    "Verif.Props.C108_prune_preserve_partial",
    "Verif.Props.C108_prune_preserve_violated",
    "Verif.Props.C108_cluster_preserve_partial",
    "Verif.Props.C108_cluster_preserve_same",
    "Verif.Props.C108_cluster_preserve_violated"
   ],
   "note": "Proved for pruning, for quantization, and for clustering, sparsity-preserving and cluster-preserving quantization when what build takes from the weights (masks, numbers of centroids) is the same, in particular when the layer is rebuilt from the same clustered model. Violated (proved) for cluster-preserving quantization when the number of distinct values differs (the saved variables do not fit), for clustering with preserve_sparsity and for sparsity-preserving quantization, whose masks are plain tensors and not saved, and for get_weights/set_weights of a pruned layer."
  },
  {
   "property": "C109",
   "status": "partial",
   "theorems": [
    "Verif.Props.C109_preserving_partial",
    "Verif.Props.C109_preserving",
    "Verif.Props.C109_rejects",
    "Verif.Props.C109_same_network",
    "Verif.Props.C109_other_layers",
    "Verif.Props.C109_concat_violated",
    "Verif.Props.C109_relu_violated",
    "Verif.Props.C109_unannotated_violated"
   ],
   "note": "Proved for models without annotated Concatenate, ReLU and Activation layers (C109_preserving), with exactly two kinds of exceptions otherwise (C109_preserving_partial), both violated (proved): layers feeding a Concatenate get the ordinary quantizer, layers before a ReLU layer none. Layers that are not annotated: violated (C109_unannotated_violated), a Lambda in front of an annotated layer raises ValueError. C109_same_network: apart from the configs the network is that of the default scheme."
  },
  {
   "property": "C110",
   "status": "partial",
   "theorems": [
    "Verif.Props.C110_streams",
    "Verif.Props.C110_odd_seeds",
    "Verif.Props.C110_seeds_violated",
    "Verif.Props.C110_predictable_violated"
   ],
   "note": "Proved: streams start in pairwise different states, different odd seeds never share one.  Violated (proved): all seeds that are multiples of 2048 give the same sequence; the third value of each stream is determined by the second up to 2^-11."
  },
  {
   "property": "C111",
   "status": "partial",
   "theorems": [
    "Verif.Props.C111_attributes",
    "Verif.Props.C111_behaviour_partial",
    "Verif.Props.C111_default_violated",
    "Verif.Props.C111_delete_violated",
    "Verif.Props.C111_twice_violated",
    "Verif.Props.C111_twice",
    "Verif.Props.C111_undecorated_subclass",
    "Verif.Props.C111_copy_violated",
    "Verif.Props.C111_adapter",
    "Verif.Props.C111_adapter_violated"
   ],
   "note": "Proved for classes whose constructors do not override class attributes (exact condition, C111_attributes), methods that delete no attribute a constructor sets, and one decorator; adapter proved for decorated stages. Violated (proved): overridden class attributes, deletion, decorated subclasses of decorated classes, copy/pickle (infinite recursion), adapter of undecorated stages."
  },
  {
   "property": "C112",
   "status": "partial",
   "theorems": [
    "Verif.Props.C112_independent",
    "Verif.Props.C112_create_iff",
    "Verif.Props.C112_updates",
    "Verif.Props.C112_foreign",
    "Verif.Props.C112_evaluation_partial",
    "Verif.Props.C112_evaluation_violated",
    "Verif.Props.C112_alias_violated"
   ],
   "note": "Independence of the layers, updates and rejection are proved in full (eager mode, names of a layer's compressible weights distinct, number of training weights independent of the values). Evaluation leaves weights alone for all algorithms without updates; violated (proved) for the periodic SVD, and a weight kept under two attributes makes two steps per call."
  },
  {
   "property": "C113",
   "status": "partial",
   "theorems": [
    "Verif.Props.C113_conv_bn",
    "Verif.Props.C113_conv_bn_relu",
    "Verif.Props.C113_dense_bn",
    "Verif.Props.C113_dense_relu_violated"
   ],
   "note": "Proved in full for convolutions with and without a ReLU, and for Dense in front of a batch normalization (for registries that do not support batch normalization, as the shipped ones). Violated (proved) for Dense, batch normalization and ReLU: the batch normalization gets an output quantizer in front of the ReLU."
  },
  {
   "property": "C114",
   "status": "proved",
   "theorems": [
    "Verif.Props.C114_separable2D",
    "Verif.Props.C114_separable1D",
    "Verif.Props.C114_settings2D",
    "Verif.Props.C114_settings1D",
    "Verif.Props.C114_layers",
    "Verif.Props.C114_sequential",
    "Verif.Props.C114_functional"
   ],
   "note": "The convolutions are given by their defining sums over a commutative ring, the layers by the entries of their configurations. Discharges the assumption on separable convolutions in C77. What is assumed of texts in configurations (Spec.Meaning) is met by a parser of decimal numbers (example)."
  },
  {
   "property": "C115",
   "status": "proved",
   "theorems": [
    "Verif.Props.C115_only_fused",
    "Verif.Props.C115_concat_gives_up"
   ],
   "note": "Converse of C113. For Sequential models the weights must be as Keras makes them (Spec.SequentialWeights, as in C113). The chain of absorbing layers is followed by applying the theorem to the absorbing layer."
  },
  {
   "property": "C116",
   "status": "partial",
   "theorems": [
    "Verif.Props.C116_training_exact",
    "Verif.Props.C116_training_partial",
    "Verif.Props.C116_lossless_partial",
    "Verif.Props.C116_inference_partial",
    "Verif.Props.C116_same_partial",
    "Verif.Props.C116_subclassed",
    "Verif.Props.C116_not_built",
    "Verif.Props.C116_shapes_violated",
    "Verif.Props.C116_bias_violated",
    "Verif.Props.C116_inference_violated",
    "Verif.Props.C116_epr_partial",
    "Verif.Props.C116_inputs_violated",
    "Verif.Props.C116_conv1d_violated",
    "Verif.Props.C116_network",
    "Verif.Props.C116_different_partial",
    "Verif.Props.C116_loss_partial",
    "Verif.Props.C116_weights_violated"
   ],
   "note": "Proved for models whose layers are Dense and Conv2D layers with a kernel (and a bias, for BiasOnly and inference) and layers without weights; C116_training_exact says what happens to the other layers too. Violated otherwise: counterexamples proved for lost weights, numbers of weights, missing biases, shared layers, several inputs and (EPR) Conv1D layers. C116_network says independently of the evaluator what the outputs are."
  },
  {
   "property": "C117",
   "status": "partial",
   "theorems": [
    "Verif.Props.C117_feeds_partial",
    "Verif.Props.C117_no_output_quantizer_partial",
    "Verif.Props.C117_concat",
    "Verif.Props.C117_activation_violated",
    "Verif.Props.C117_seven_violated",
    "Verif.Props.C117_unsupported_violated",
    "Verif.Props.C117_shared_violated"
   ],
   "note": "Proved for concatenations of two to six annotated layers the library can handle, used nowhere else: no output quantizers in front of the concatenation, and one after it. Violated otherwise: counterexamples proved for activations (Conv2D, Dense), seven inputs, an unsupported input and a shared input."
  },
  {
   "property": "C118",
   "status": "proved",
   "theorems": [
    "Verif.Props.C118_one_device",
    "Verif.Props.C118_computes",
    "Verif.Props.C118_strip"
   ],
   "note": "All schedules in which every replica finishes its forward pass. What TensorFlow does with assignments to copies of variables inside a replica is modelled as described in Clustering/Distributed.lean."
  },
  {
   "property": "C119",
   "status": "partial",
   "theorems": [
    "Verif.Props.C119_lookup",
    "Verif.Props.C119_per_channel_violated",
    "Verif.Props.C119_own",
    "Verif.Props.C119_variables",
    "Verif.Props.C119_count",
    "Verif.Props.C119_rejects",
    "Verif.Props.C119_total",
    "Verif.Props.C119_sparsity_partial",
    "Verif.Props.C119_sparsity_violated"
   ],
   "note": "Proved for all user algorithms that override get_pulling_indices; sparsity proved for algorithms that put zeros to a zero centroid, violated otherwise (proved); the algorithm of Conv2D layers is ignored with per-channel clustering (proved). Tensors as lists of entries; broadcasting and negative indices left out."
  },
  {
   "property": "C120",
   "status": "partial",
   "theorems": [
    "Verif.Props.C120_same_data",
    "Verif.Props.C120_average_mirrored",
    "Verif.Props.C120_average_step",
    "Verif.Props.C120_average_hull",
    "Verif.Props.C120_own_data_only",
    "Verif.Props.C120_own_data_covered_partial",
    "Verif.Props.C120_inputs_violated",
    "Verif.Props.C120_last_value_violated"
   ],
   "note": "Proved: same data on all replicas (weights) is as on one device; moving averages are mirrored, exact step, zero, hull; LastValue and AllValues copies follow their own replica's data only, the saved one that of the primary replica; hence coverage of all data is violated for AllValues inputs (proved, for any number of steps) and for LastValue on data."
  },
  {
   "property": "C121",
   "status": "proved",
   "theorems": [
    "Verif.Props.C121_quantize_new_variables",
    "Verif.Props.C121_quantize_changes_nothing",
    "Verif.Props.C121_training_keeps_original",
    "Verif.Props.C121_training_original_keeps_quantized",
    "Verif.Props.C121_quantize_keeps_values",
    "Verif.Props.C121_two_copies",
    "Verif.Props.C121_prune_changes_nothing",
    "Verif.Props.C121_prune_shares",
    "Verif.Props.C121_strip_is_original",
    "Verif.Props.C121_annotate_shares"
   ],
   "note": "For all models, transforms, quantizers and training histories: new variables only, nothing existing changed, both directions of independence, values kept (exactly what the layout transforms make of the original's names and weights); pruning shares, strip gives the original's layers. Nested models and input layers are left out (see Sharing.lean)."
  }
 ]
}