{
 "claims": [
  {
   "property": "C01",
   "status": "proved",
   "theorems": [
    "Verif.KNN.C01_knn_shapley_exact",
    "Verif.KNN.C01_knn_shapley_exact_distinct"
   ],
   "note": "API-level: whole attribute() loop; ties broken by the sort's order, distinct distances need no order."
  },
  {
   "property": "C02",
   "status": "proved",
   "theorems": [
    "Verif.KNN.C02_knn_shapley_large_K"
   ],
   "note": "Characterises the deviation for K > N (code disagrees with the Shapley value when the farthest point matches)."
  },
  {
   "property": "C03",
   "status": "proved",
   "theorems": [
    "Verif.KNN.C03_knn_efficiency",
    "Verif.KNN.C03_knn_batch_independent",
    "Verif.KNN.C03_knn_label_mismatch"
   ],
   "note": "Returned shape is (num_test, num_train), opposite to the docstring."
  },
  {
   "property": "C04",
   "status": "proved",
   "theorems": [
    "Verif.Attr.C04_checkpoint_mean"
   ],
   "note": "Whole attribute() loop with in-place running mean, any field of characteristic 0."
  },
  {
   "property": "C05",
   "status": "proved",
   "theorems": [
    "Verif.Attr.C05_attribute_entry",
    "Verif.Attr.C05_batch_independent",
    "Verif.Attr.C05_rejects"
   ],
   "note": "Includes the TypeError/ValueError branches."
  },
  {
   "property": "C06",
   "status": "proved",
   "theorems": [
    "Verif.Attr.C06_self_single_batch",
    "Verif.Attr.C06_self_is_diagonal",
    "Verif.Attr.C06_self_multi_batch_raises",
    "Verif.Attr.C06_self_batch_one_broadcasts",
    "Verif.Attr.C06_self_relatif_raises",
    "Verif.Attr.C06_self_refused"
   ],
   "note": "Full characterisation; the code disagrees with the intended diagonal whenever there is more than one batch or a relatif method."
  },
  {
   "property": "C07",
   "status": "proved",
   "theorems": [
    "Verif.Attr.C07_full_loader_of_history",
    "Verif.Attr.C07_attribute_after_history",
    "Verif.Attr.C07_agrees_if_same_transform",
    "Verif.Attr.C07_history_dependent"
   ],
   "note": "Induction over call histories; witness of history dependence."
  },
  {
   "property": "C08",
   "status": "proved",
   "theorems": [
    "Verif.Attr.C08_accumulates_sum",
    "Verif.Attr.C08_explicit_sum",
    "Verif.Attr.C08_explicit_single_batch",
    "Verif.Attr.C08_explicit_scales_with_batches",
    "Verif.Attr.C08_explicit_singular_raises",
    "Verif.Attr.C08_explicit_attribute",
    "Verif.Attr.C08_rebatching_changes_result"
   ],
   "note": "Sum over batches; explicit solver exact; CG/LiSSA covered by the generic accumulation theorem."
  },
  {
   "property": "C09",
   "status": "proved",
   "theorems": [
    "Verif.TracIn.C09_length_mismatch",
    "Verif.TracIn.C09_tracin_entry",
    "Verif.TracIn.C09_batch_independent"
   ],
   "note": "The projection is a fixed function of checkpoint and sample here; C238 shows that it is one, on the CPU."
  },
  {
   "property": "C10",
   "status": "proved",
   "theorems": [
    "Verif.TracIn.C10_self_is_diagonal",
    "Verif.TracIn.C10_self_unnormalized",
    "Verif.TracIn.C10_self_normalized_constant"
   ],
   "note": ""
  },
  {
   "property": "C11",
   "status": "proved",
   "theorems": [
    "Verif.TracIn.C11_normalized_bound",
    "Verif.TracIn.C11_normalized_attained"
   ],
   "note": "eps = 1e-12 of F.normalize included."
  },
  {
   "property": "C12",
   "status": "proved",
   "theorems": [
    "Verif.TRAK.C12_cached_eq_uncached",
    "Verif.TRAK.C12_value_errors",
    "Verif.TRAK.C12_cache_succeeds"
   ],
   "note": "Equality of results including raised errors."
  },
  {
   "property": "C13",
   "status": "proved",
   "theorems": [
    "Verif.TRAK.C13_trak_entry",
    "Verif.TRAK.C13_gram_nonsingular",
    "Verif.TRAK.C13_unregularised_raises"
   ],
   "note": ""
  },
  {
   "property": "C14",
   "status": "proved",
   "theorems": [
    "Verif.TRAK.C14_self_no_loader_raises",
    "Verif.TRAK.C14_self_column",
    "Verif.TRAK.C14_self_after_cache_raises"
   ],
   "note": "Code disagrees with the docstring (shape (n,), optional loader)."
  },
  {
   "property": "C15",
   "status": "proved",
   "theorems": [
    "Verif.DataInf.C15_datainf_layer",
    "Verif.DataInf.C15_datainf_inverse",
    "Verif.DataInf.C15_datainf_row",
    "Verif.DataInf.C15_default_regularization_nonfinite"
   ],
   "note": "The default regularization=0.0 always yields non-finite values (disagreement)."
  },
  {
   "property": "C16",
   "status": "proved",
   "theorems": [
    "Verif.DataInf.C16_chunk_and_order_independent",
    "Verif.DataInf.C16_cache_one_rep_per_batch",
    "Verif.DataInf.C16_depends_on_cache_batch_size"
   ],
   "note": "Independent of test batch size and of the order; but one gradient per cache BATCH is stored, so the cache loader's batch size matters (witness)."
  },
  {
   "property": "C17",
   "status": "proved",
   "theorems": [
    "Verif.EKFAC.C17_ekfac_solves",
    "Verif.EKFAC.C17_ekfac_linear",
    "Verif.EKFAC.C17_ekfac_symmetric",
    "Verif.EKFAC.C17_row_convention",
    "Verif.EKFAC.C17_column_convention_needs_transpose",
    "Verif.EKFAC.C17_eigh_columns_wrong",
    "Verif.EKFAC.C17_single_checkpoint"
   ],
   "note": "eigh enters only through its contract; end-to-end witness that columns are used as rows."
  },
  {
   "property": "C18",
   "status": "proved",
   "theorems": [
    "Verif.EKFAC.C18_layout",
    "Verif.EKFAC.C18_bias_layout_iff"
   ],
   "note": "Disagreement: layout is [W|b] only for out <= 1 or in = 0."
  },
  {
   "property": "C19",
   "status": "proved",
   "theorems": [
    "Verif.EKFAC.C19_covariance_pooled",
    "Verif.EKFAC.C19_covariance_batching_independent",
    "Verif.EKFAC.C19_lambda_pooled",
    "Verif.EKFAC.C19_max_iter",
    "Verif.EKFAC.C19_sequence_input_raises",
    "Verif.EKFAC.C19_sequence_input_stale"
   ],
   "note": "Two-dimensional layer inputs; for sequence inputs the code raises or silently reuses the previous layer's inputs (proved)."
  },
  {
   "property": "C20",
   "status": "proved",
   "theorems": [
    "Verif.EKFAC.C20_random_batches"
   ],
   "note": ""
  },
  {
   "property": "C21",
   "status": "proved",
   "theorems": [
    "Verif.Hessian.C21_residual"
   ],
   "note": ""
  },
  {
   "property": "C22",
   "status": "proved",
   "theorems": [
    "Verif.Hessian.C22_cg_exact",
    "Verif.Hessian.C22_orthogonal_conjugate"
   ],
   "note": "Exact arithmetic; termination index k <= n, exact at k, non-finite after."
  },
  {
   "property": "C23",
   "status": "proved",
   "theorems": [
    "Verif.Hessian.C23_breakdown",
    "Verif.Hessian.C23_identity",
    "Verif.Hessian.C22_cg_exact"
   ],
   "note": ""
  },
  {
   "property": "C24",
   "status": "proved",
   "theorems": [
    "Verif.Hessian.C24_lissa_neumann",
    "Verif.Hessian.C24_fixed_point",
    "Verif.Hessian.C24_lissa_converges",
    "Verif.Hessian.C24_errors",
    "Verif.Hessian.C24_check_input_size"
   ],
   "note": ""
  },
  {
   "property": "C25",
   "status": "proved",
   "theorems": [
    "Verif.Hessian.C25_swapped_iff",
    "Verif.Hessian.C25_swapped"
   ],
   "note": ""
  },
  {
   "property": "C26",
   "status": "proved",
   "theorems": [
    "Verif.Hessian.C26_arnoldi",
    "Verif.Hessian.C26_compression",
    "Verif.Hessian.C26_distill_exact",
    "Verif.Hessian.C26_exact",
    "Verif.Hessian.C26_exact_full",
    "Verif.Hessian.C26_norm_constant",
    "Verif.Hessian.C26_norms",
    "Verif.Hessian.C26_edge_cases"
   ],
   "note": "eigh enters only through its contract."
  },
  {
   "property": "C27",
   "status": "proved",
   "theorems": [
    "Verif.Projection.C27_seeds_distinct",
    "Verif.Projection.C27_blocks_le_iff",
    "Verif.Projection.C27_seed_collision",
    "Verif.Projection.C27_shared_columns"
   ],
   "note": "Collision witness for more than 100 blocks."
  },
  {
   "property": "C28",
   "status": "proved",
   "theorems": [
    "Verif.Projection.C28_history",
    "Verif.Projection.C28_init_errors"
   ],
   "note": "Includes the AttributeError after free_memory with the same ensemble id."
  },
  {
   "property": "C29",
   "status": "proved",
   "theorems": [
    "Verif.Projection.C29_rowwise_linear",
    "Verif.Projection.C29_cuda_linear"
   ],
   "note": ""
  },
  {
   "property": "C30",
   "status": "proved",
   "theorems": [
    "Verif.Projection.C30_dims",
    "Verif.Projection.C30_dims_stable",
    "Verif.Projection.C30_history_iff"
   ],
   "note": ""
  },
  {
   "property": "C31",
   "status": "proved",
   "theorems": [
    "Verif.Projection.C31_chunks",
    "Verif.Projection.C31_diverges",
    "Verif.Projection.C31_limit"
   ],
   "note": ""
  },
  {
   "property": "C32",
   "status": "proved",
   "theorems": [
    "Verif.Projection.C32_dict_project",
    "Verif.Projection.C32_large_batch_raises"
   ],
   "note": ""
  },
  {
   "property": "C33",
   "status": "proved",
   "theorems": [
    "Verif.Task.C33_unflatten_flatten",
    "Verif.Task.C33_flatten_unflatten",
    "Verif.Task.C33_flatten_func"
   ],
   "note": "Over-long vectors are silently accepted, short ones raise."
  },
  {
   "property": "C34",
   "status": "proved",
   "theorems": [
    "Verif.Task.C34_read_returns_evaluated_point",
    "Verif.Task.C34_calls_independent",
    "Verif.Task.C83_uses_loaded_checkpoint"
   ],
   "note": "Default in-place checkpoint loader."
  },
  {
   "property": "C35",
   "status": "proved",
   "theorems": [
    "Verif.Task.C35_memo",
    "Verif.Task.C35_grad_func",
    "Verif.Task.C35_stale_other_layers"
   ],
   "note": ""
  },
  {
   "property": "C36",
   "status": "proved",
   "theorems": [
    "Verif.Task.C36_loads",
    "Verif.Task.C36_reload_exact",
    "Verif.Task.C36_param_of_checkpoint",
    "Verif.Task.C36_out_of_range"
   ],
   "note": ""
  },
  {
   "property": "C37",
   "status": "proved",
   "theorems": [
    "Verif.Task.C37_layer_map",
    "Verif.Task.C37_nonadjacent",
    "Verif.Task.C37_explicit_map"
   ],
   "note": ""
  },
  {
   "property": "C38",
   "status": "proved",
   "theorems": [
    "Verif.Metric.C38_auc_mann_whitney",
    "Verif.Metric.C38_auc_range",
    "Verif.Metric.C38_auc_scores",
    "Verif.Metric.C38_auc_monotone_invariant"
   ],
   "note": ""
  },
  {
   "property": "C39",
   "status": "proved",
   "theorems": [
    "Verif.Metric.C39_roc_errors",
    "Verif.Metric.C39_roc_shape"
   ],
   "note": ""
  },
  {
   "property": "C40",
   "status": "proved",
   "theorems": [
    "Verif.Metric.C40_positive_scaling",
    "Verif.Metric.C40_shift",
    "Verif.Metric.C40_subset_order",
    "Verif.Metric.C40_gt_increasing",
    "Verif.Metric.C40_decreasing"
   ],
   "note": ""
  },
  {
   "property": "C41",
   "status": "proved",
   "theorems": [
    "Verif.Metric.C41_defined_iff",
    "Verif.Metric.C41_range",
    "Verif.Metric.C41_perfect",
    "Verif.Metric.C41_symmetric",
    "Verif.Metric.C41_index_error"
   ],
   "note": ""
  },
  {
   "property": "C42",
   "status": "proved",
   "theorems": [
    "Verif.Retrain.C42_sorted_by_index",
    "Verif.Retrain.C42_bad_name",
    "Verif.Metric.C42_loo_corr_ignores_indices",
    "Verif.Metric.C42_loo_corr_subset_raises",
    "Verif.Metric.C42_loo_corr_full"
   ],
   "note": ""
  },
  {
   "property": "C43",
   "status": "proved",
   "theorems": [
    "Verif.Retrain.C43_outcome",
    "Verif.Retrain.C43_partition",
    "Verif.Retrain.C43_same_as_sequential",
    "Verif.Retrain.C43_seeds_distinct"
   ],
   "note": "train_func is a function of its data subset and seed"
  },
  {
   "property": "C44",
   "status": "proved",
   "theorems": [
    "Verif.Retrain.C44_metadata_written_iff",
    "Verif.Retrain.C44_complete_iff",
    "Verif.Retrain.C44_parallel"
   ],
   "note": "code defect: parallel runs are unreadable"
  },
  {
   "property": "C45",
   "status": "proved",
   "theorems": [
    "Verif.Retrain.C45_indices_round_trip",
    "Verif.Retrain.C45_injective"
   ],
   "note": ""
  },
  {
   "property": "C46",
   "status": "proved",
   "theorems": [
    "Verif.Retrain.C46_values",
    "Verif.Retrain.C46_round_trip"
   ],
   "note": ""
  },
  {
   "property": "C47",
   "status": "proved",
   "theorems": [
    "Verif.Retrain.C47_remaining",
    "Verif.Retrain.C47_sampler_iff",
    "Verif.Retrain.C47_round_trip"
   ],
   "note": ""
  },
  {
   "property": "C48",
   "status": "proved",
   "theorems": [
    "Verif.Brittle.C48_first_flip",
    "Verif.Brittle.C48_smallest",
    "Verif.Brittle.C48_not_smallest"
   ],
   "note": ""
  },
  {
   "property": "C49",
   "status": "proved",
   "theorems": [
    "Verif.Flip.C49_flips_exactly",
    "Verif.Flip.C49_default_space",
    "Verif.Flip.C49_success_iff",
    "Verif.Flip.C49_zero_raises",
    "Verif.Flip.C49_numpy_raises",
    "Verif.Flip.C49_tensor_space_keeps_label"
   ],
   "note": ""
  },
  {
   "property": "C50",
   "status": "proved",
   "theorems": [
    "Verif.RPS.C50_terminates",
    "Verif.RPS.C50_progress"
   ],
   "note": ""
  },
  {
   "property": "C51",
   "status": "proved",
   "theorems": [
    "Verif.RPS.C51_best",
    "Verif.RPS.C51_fails_iff",
    "Verif.RPS.C51_finetune_theta"
   ],
   "note": ""
  },
  {
   "property": "C52",
   "status": "proved",
   "theorems": [
    "Verif.DVEmb.C52_embedding",
    "Verif.DVEmb.C52_product",
    "Verif.DVEmb.C52_displacement"
   ],
   "note": ""
  },
  {
   "property": "C53",
   "status": "proved",
   "theorems": [
    "Verif.DVEmb.C53_total",
    "Verif.DVEmb.C53_unknown_epoch",
    "Verif.DVEmb.C53_not_cached",
    "Verif.DVEmb.C53_no_test_batch",
    "Verif.DVEmb.C52_embedding"
   ],
   "note": ""
  },
  {
   "property": "C54",
   "status": "proved",
   "theorems": [
    "Verif.DVEmb.C54_stale"
   ],
   "note": ""
  },
  {
   "property": "C55",
   "status": "proved",
   "theorems": [
    "Verif.DVEmb.C55_dvemb_2d",
    "Verif.DVEmb.C55_dvemb_3d",
    "Verif.DVEmb.C55_dvemb_layout",
    "Verif.DVEmb.C55_compressor",
    "Verif.DVEmb.C55_identity",
    "Verif.DVEmb.C55_gradW_is_gradient",
    "Verif.DVEmb.C55_bias_column"
   ],
   "note": ""
  },
  {
   "property": "C56",
   "status": "proved",
   "theorems": [
    "Verif.BlockIF.C56_value",
    "Verif.BlockIF.C56_invariant",
    "Verif.BlockIF.C56_exists",
    "Verif.BlockIF.C56_dead_layer"
   ],
   "note": "exact arithmetic; in-memory storage"
  },
  {
   "property": "C57",
   "status": "proved",
   "theorems": [
    "Verif.BlockIF.C57_round_trip",
    "Verif.BlockIF.C57_first_batch",
    "Verif.BlockIF.C57_all_empty",
    "Verif.BlockIF.C57_missing",
    "Verif.BlockIF.C57_test_zeros"
   ],
   "note": ""
  },
  {
   "property": "C58",
   "status": "proved",
   "theorems": [
    "Verif.BlockIF.C58_fresh",
    "Verif.BlockIF.C58_partition",
    "Verif.BlockIF.C58_consecutive",
    "Verif.BlockIF.C58_kept",
    "Verif.BlockIF.C58_stale_tail",
    "Verif.BlockIF.C58_total_batches",
    "Verif.BlockIF.C58_added"
   ],
   "note": ""
  },
  {
   "property": "C59",
   "status": "proved",
   "theorems": [
    "Verif.BlockIF.Save.C59_complete",
    "Verif.BlockIF.Save.C59_crash",
    "Verif.BlockIF.Save.C59_failure",
    "Verif.BlockIF.Save.C59_recovery",
    "Verif.BlockIF.Save.C59_two_writers"
   ],
   "note": "process crashes between file system calls; power loss reordering is outside the model; the guarantee is for a single writer"
  },
  {
   "property": "C60",
   "status": "proved",
   "theorems": [
    "Verif.BlockIF.C60_entries",
    "Verif.BlockIF.C60_succeeds",
    "Verif.BlockIF.C60_uncached",
    "Verif.BlockIF.C60_batching",
    "Verif.BlockIF.C60_empty_test"
   ],
   "note": "in-memory storage; compressed gradients are inputs"
  },
  {
   "property": "C61",
   "status": "proved",
   "theorems": [
    "Verif.BlockIF.C61_identity",
    "Verif.BlockIF.C61_frozen",
    "Verif.BlockIF.C61_fisher"
   ],
   "note": "in-memory storage"
  },
  {
   "property": "C62",
   "status": "proved",
   "theorems": [
    "Verif.Disk.C62_durable",
    "Verif.Disk.C62_disciplined",
    "Verif.Disk.C62_returns"
   ],
   "note": "one storing thread; a write is two file writes; crash of the process outside the model"
  },
  {
   "property": "C63",
   "status": "proved",
   "theorems": [
    "Verif.Disk.C63_race"
   ],
   "note": "the schedule exists for all sizes; C62 shows that it needs a second flush"
  },
  {
   "property": "C64",
   "status": "proved",
   "theorems": [
    "Verif.Disk.C64_hangs",
    "Verif.Disk.C64_masked"
   ],
   "note": ""
  },
  {
   "property": "C65",
   "status": "proved",
   "theorems": [
    "Verif.Disk.Prefetch.C65_coherent",
    "Verif.Disk.Prefetch.C65_answers",
    "Verif.Disk.Prefetch.C65_pass",
    "Verif.Disk.Prefetch.C65_progress",
    "Verif.Disk.Prefetch.C65_stale",
    "Verif.Disk.Prefetch.C65_unbounded"
   ],
   "note": "coherent as long as the files do not change; rewritten files are answered from the cache"
  },
  {
   "property": "C66",
   "status": "proved",
   "theorems": [
    "Verif.Disk.C66_range",
    "Verif.Disk.C66_whole",
    "Verif.Disk.C66_rejects",
    "Verif.Disk.C66_last_entry_wins",
    "Verif.Disk.C66_slice"
   ],
   "note": ""
  },
  {
   "property": "C67",
   "status": "proved",
   "theorems": [
    "Verif.Hook.C67_restored",
    "Verif.Hook.C67_all_closed",
    "Verif.Hook.C67_hooked_call",
    "Verif.Hook.C67_slot",
    "Verif.Hook.C67_lost_iff",
    "Verif.Hook.C67_lost_for_ever",
    "Verif.Hook.C67_overlap",
    "Verif.Hook.C67_recursion",
    "Verif.Hook.C67_double_remove",
    "Verif.Hook.C67_sequential"
   ],
   "note": ""
  },
  {
   "property": "C68",
   "status": "proved",
   "theorems": [
    "Verif.Compress.C68_layers_differ",
    "Verif.Compress.C68_stages_coincide",
    "Verif.Compress.C68_blocks_coincide",
    "Verif.Compress.C68_columns_coincide",
    "Verif.Compress.C68_small_apart"
   ],
   "note": "dense CPU projections of layers with equal feature dimensions"
  },
  {
   "property": "C69",
   "status": "proved",
   "theorems": [
    "Verif.NanoGPT.C69_runs",
    "Verif.NanoGPT.C69_split",
    "Verif.NanoGPT.C69_distinct",
    "Verif.NanoGPT.C69_first_seed",
    "Verif.NanoGPT.C69_ratio"
   ],
   "note": ""
  },
  {
   "property": "C70",
   "status": "proved",
   "theorems": [
    "Verif.Midi.C70_round_trip",
    "Verif.Midi.C70_injective",
    "Verif.Midi.C70_onto"
   ],
   "note": ""
  },
  {
   "property": "C71",
   "status": "proved",
   "theorems": [
    "Verif.Midi.C71_sum"
   ],
   "note": "Times are rational numbers; rounding half to even as in Python."
  },
  {
   "property": "C72",
   "status": "proved",
   "theorems": [
    "Verif.Midi.C72_same_events",
    "Verif.Midi.C72_velocity"
   ],
   "note": "Full characterisation; the code loses velocity changes."
  },
  {
   "property": "C73",
   "status": "proved",
   "theorems": [
    "Verif.Midi.C73_no_pedal",
    "Verif.Midi.C73_dropped",
    "Verif.Midi.C73_count",
    "Verif.Midi.C73_each_once"
   ],
   "note": "Multiplicities for notes in order of start; dropping for any order."
  },
  {
   "property": "C74",
   "status": "proved",
   "theorems": [
    "Verif.Windows.C74_aligned",
    "Verif.Windows.C74_tokens",
    "Verif.Windows.C74_table",
    "Verif.Windows.C74_cover",
    "Verif.Windows.C74_first_window_random"
   ],
   "note": ""
  },
  {
   "property": "C75",
   "status": "proved",
   "theorems": [
    "Verif.Windows.C75_blocks",
    "Verif.Windows.C75_padding",
    "Verif.Windows.C75_rest",
    "Verif.Windows.C75_no_end",
    "Verif.Windows.C75_subset",
    "Verif.Windows.C75_subset_fails"
   ],
   "note": "Indices not negative."
  },
  {
   "property": "C76",
   "status": "proved",
   "theorems": [
    "Verif.Skew.C76_skew",
    "Verif.Skew.C76_logits",
    "Verif.Skew.C76_prefix",
    "Verif.Skew.C76_defined"
   ],
   "note": ""
  },
  {
   "property": "C77",
   "status": "proved",
   "theorems": [
    "Verif.Projection.C77_cuda_history"
   ],
   "note": ""
  },
  {
   "property": "C78",
   "status": "proved",
   "theorems": [
    "Verif.Projection.C78_rademacher_unbiased",
    "Verif.Projection.C78_sjlt_unbiased"
   ],
   "note": "Expectation over the uniform finite sample space."
  },
  {
   "property": "C79",
   "status": "proved",
   "theorems": [
    "Verif.Projection.C79_mask_scaled"
   ],
   "note": ""
  },
  {
   "property": "C80",
   "status": "proved",
   "theorems": [
    "Verif.Projection.C80_inner_products",
    "Verif.Projection.C80_columns",
    "Verif.Projection.C80_adjusted"
   ],
   "note": ""
  },
  {
   "property": "C81",
   "status": "proved",
   "theorems": [
    "Verif.Projection.C81_parse",
    "Verif.Projection.C81_cpu",
    "Verif.Projection.C81_cuda",
    "Verif.Projection.C81_selected",
    "Verif.Projection.C81_enum_raises"
   ],
   "note": ""
  },
  {
   "property": "C82",
   "status": "proved",
   "theorems": [
    "Verif.Task.C82_string_layer_name",
    "Verif.Task.C82_unknown_names_dropped",
    "Verif.Task.C82_default"
   ],
   "note": ""
  },
  {
   "property": "C83",
   "status": "proved",
   "theorems": [
    "Verif.Task.C83_uses_loaded_checkpoint"
   ],
   "note": ""
  },
  {
   "property": "C84",
   "status": "proved",
   "theorems": [
    "Verif.Retrain.C84_reads_recorded_directories",
    "Verif.Retrain.C84_moved"
   ],
   "note": ""
  },
  {
   "property": "C85",
   "status": "proved",
   "theorems": [
    "Verif.Brittle.C85_matrix_scores",
    "Verif.Brittle.C85_sampler"
   ],
   "note": ""
  },
  {
   "property": "C86",
   "status": "proved",
   "theorems": [
    "Verif.RPS.C86_decomposition",
    "Verif.RPS.C86_objGrad_is_gradient",
    "Verif.RPS.C86_at_minimum",
    "Verif.RPS.C86_normalized_bound",
    "Verif.RPS.C86_class"
   ],
   "note": ""
  },
  {
   "property": "C87",
   "status": "proved",
   "theorems": [
    "Verif.RPS.C87_weights",
    "Verif.RPS.C87_failed_cache"
   ],
   "note": ""
  },
  {
   "property": "C88",
   "status": "proved",
   "theorems": [
    "Verif.DVEmb.C88_caller_cleared",
    "Verif.DVEmb.C88_caller_kept",
    "Verif.DVEmb.C88_needs_indices"
   ],
   "note": ""
  },
  {
   "property": "C89",
   "status": "proved",
   "theorems": [
    "Verif.DVEmb.C89_same_projector",
    "Verif.DVEmb.C89_symmetric_part",
    "Verif.DVEmb.C89_invisible"
   ],
   "note": ""
  },
  {
   "property": "C90",
   "status": "proved",
   "theorems": [
    "Verif.DVEmb.C90_no_epoch_zero"
   ],
   "note": ""
  },
  {
   "property": "C91",
   "status": "proved",
   "theorems": [
    "Verif.BlockIF.C91_merged",
    "Verif.BlockIF.C91_stale_tail"
   ],
   "note": "in-memory storage"
  },
  {
   "property": "C92",
   "status": "proved",
   "theorems": [
    "Verif.BlockIF.C92_zero_rows"
   ],
   "note": "in-memory storage"
  },
  {
   "property": "C93",
   "status": "proved",
   "theorems": [
    "Verif.BlockIF.C93_fisher",
    "Verif.BlockIF.C93_diagonal",
    "Verif.BlockIF.C93_stale"
   ],
   "note": "in-memory storage"
  },
  {
   "property": "C94",
   "status": "proved",
   "theorems": [
    "Verif.Disk.C94_hangs",
    "Verif.Disk.C94_reached"
   ],
   "note": ""
  },
  {
   "property": "C95",
   "status": "proved",
   "theorems": [
    "Verif.Disk.C95_nothing_written"
   ],
   "note": ""
  },
  {
   "property": "C96",
   "status": "proved",
   "theorems": [
    "Verif.Disk.C96_files",
    "Verif.Disk.C96_round_trip",
    "Verif.Disk.C96_disciplined"
   ],
   "note": "loads of the prefetcher are taken to succeed or fail as loadFile does; its cache is C65"
  },
  {
   "property": "C97",
   "status": "proved",
   "theorems": [
    "Verif.Disk.C97_never_removed",
    "Verif.Disk.C97_left_over"
   ],
   "note": ""
  },
  {
   "property": "C98",
   "status": "proved",
   "theorems": [
    "Verif.Disk.Prefetch.C98_never_ends"
   ],
   "note": ""
  },
  {
   "property": "C99",
   "status": "proved",
   "theorems": [
    "Verif.Hook.C99_reused_layer",
    "Verif.Hook.C99_last_input"
   ],
   "note": "which layers are visited, and with which inputs and output gradients, is an input of the model"
  },
  {
   "property": "C100",
   "status": "proved",
   "theorems": [
    "Verif.Hook.C100_stale_layer",
    "Verif.Hook.C100_own_iff"
   ],
   "note": "as C99"
  },
  {
   "property": "C101",
   "status": "proved",
   "theorems": [
    "Verif.Hook.C101_left_patched",
    "Verif.Hook.C101_manager",
    "Verif.Hook.C101_shared_lost",
    "Verif.Hook.C101_shared_broken"
   ],
   "note": ""
  },
  {
   "property": "C102",
   "status": "proved",
   "theorems": [
    "Verif.Compress.C102_setup",
    "Verif.Compress.C102_explicit"
   ],
   "note": ""
  },
  {
   "property": "C103",
   "status": "proved",
   "theorems": [
    "Verif.Compress.C103_logra",
    "Verif.Compress.C103_factgrass",
    "Verif.Compress.C103_rejected"
   ],
   "note": "int(math.sqrt(n)) is taken as the integer square root (floats agree below 2^52)"
  },
  {
   "property": "C104",
   "status": "proved",
   "theorems": [
    "Verif.Midi.C104_tokens"
   ],
   "note": ""
  },
  {
   "property": "C105",
   "status": "proved",
   "theorems": [
    "Verif.Midi.C105_drift",
    "Verif.Midi.C105_exact",
    "Verif.Midi.C105_vanishes",
    "Verif.Midi.C105_any_length"
   ],
   "note": ""
  },
  {
   "property": "C106",
   "status": "proved",
   "theorems": [
    "Verif.Midi.C106_round_trip"
   ],
   "note": ""
  },
  {
   "property": "C107",
   "status": "proved",
   "theorems": [
    "Verif.Midi.C107_uses",
    "Verif.Midi.C107_every_list",
    "Verif.Midi.C107_ordered"
   ],
   "note": ""
  },
  {
   "property": "C108",
   "status": "proved",
   "theorems": [
    "Verif.Midi.C108_ends"
   ],
   "note": "Notes in order of start, sustains ordered (as C107 gives them)."
  },
  {
   "property": "C109",
   "status": "proved",
   "theorems": [
    "Verif.NanoGPT.C109_recorded",
    "Verif.NanoGPT.C109_tail_unused",
    "Verif.NanoGPT.C109_small"
   ],
   "note": "int(count*ratio) in exact arithmetic."
  },
  {
   "property": "C110",
   "status": "proved",
   "theorems": [
    "Verif.NanoGPT.C110_schedule",
    "Verif.NanoGPT.C110_no_evaluation",
    "Verif.NanoGPT.C110_starved"
   ],
   "note": "One process."
  },
  {
   "property": "C111",
   "status": "proved",
   "theorems": [
    "Verif.NanoGPT.C111_batch",
    "Verif.NanoGPT.C111_fails"
   ],
   "note": ""
  },
  {
   "property": "C112",
   "status": "proved",
   "theorems": [
    "Verif.NanoGPT.C112_best",
    "Verif.NanoGPT.C112_none",
    "Verif.NanoGPT.C112_always"
   ],
   "note": ""
  },
  {
   "property": "C113",
   "status": "proved",
   "theorems": [
    "Verif.NanoGPT.C113_defined",
    "Verif.NanoGPT.C113_bounds",
    "Verif.NanoGPT.C113_ends",
    "Verif.NanoGPT.C113_monotone"
   ],
   "note": "Real arithmetic."
  },
  {
   "property": "C114",
   "status": "proved",
   "theorems": [
    "Verif.Cli.C114_loo",
    "Verif.Cli.C114_default",
    "Verif.Cli.C114_too_many",
    "Verif.Cli.C114_split"
   ],
   "note": "The code trains models that leave nothing out by default."
  },
  {
   "property": "C115",
   "status": "proved",
   "theorems": [
    "Verif.Cli.C115_command",
    "Verif.Cli.C115_machines",
    "Verif.Cli.C115_default"
   ],
   "note": ""
  },
  {
   "property": "C116",
   "status": "proved",
   "theorems": [
    "Verif.Cli.C116_accepts",
    "Verif.Cli.C116_rejects",
    "Verif.Cli.C116_brackets",
    "Verif.Cli.C116_round_trip"
   ],
   "note": "ASCII digits and blanks; underscores between digits not modelled."
  },
  {
   "property": "C117",
   "status": "proved",
   "theorems": [
    "Verif.Cli.C117_pair",
    "Verif.Cli.C117_names",
    "Verif.Cli.C117_ratio"
   ],
   "note": ""
  },
  {
   "property": "C118",
   "status": "proved",
   "theorems": [
    "Verif.BlockIF.C118_after_failure"
   ],
   "note": "Fisher Hessian, storage in memory."
  },
  {
   "property": "C119",
   "status": "proved",
   "theorems": [
    "Verif.Dropout.C119_all",
    "Verif.Dropout.C119_selected",
    "Verif.Dropout.C119_raises"
   ],
   "note": "Dropout modules have no submodules."
  },
  {
   "property": "C120",
   "status": "proved",
   "theorems": [
    "Verif.Maestro.C120_last",
    "Verif.Maestro.C120_errors",
    "Verif.Maestro.C120_not_best"
   ],
   "note": "Training and evaluation passes are arbitrary functions."
  },
  {
   "property": "C121",
   "status": "proved",
   "theorems": [
    "Verif.Maestro.C121_average",
    "Verif.Maestro.C121_equal"
   ],
   "note": "Exact arithmetic."
  },
  {
   "property": "C122",
   "status": "proved",
   "theorems": [
    "Verif.MusicLoss.C122_defined",
    "Verif.MusicLoss.C122_formula",
    "Verif.MusicLoss.C122_shape",
    "Verif.MusicLoss.C122_first"
   ],
   "note": "Real arithmetic."
  },
  {
   "property": "C123",
   "status": "proved",
   "theorems": [
    "Verif.Texts.C123_blocks",
    "Verif.Texts.C123_lost",
    "Verif.Texts.C123_block_size"
   ],
   "note": "The tokenizer is a parameter; mapping in groups of 1000 is the default of the datasets library."
  },
  {
   "property": "C124",
   "status": "proved",
   "theorems": [
    "Verif.Texts.C124_selection",
    "Verif.Texts.C124_labels",
    "Verif.Texts.C124_twice"
   ],
   "note": ""
  },
  {
   "property": "C125",
   "status": "proved",
   "theorems": [
    "Verif.MusicLoss.C125_value",
    "Verif.MusicLoss.C125_row",
    "Verif.MusicLoss.C125_smoothing",
    "Verif.MusicLoss.C125_outside"
   ],
   "note": "Real arithmetic."
  },
  {
   "property": "C126",
   "status": "proved",
   "theorems": [
    "Verif.Attr.C126_scores",
    "Verif.Attr.C126_errors",
    "Verif.Attr.C126_ignored",
    "Verif.Attr.C126_theta_bound",
    "Verif.Attr.C126_l_bound",
    "Verif.Attr.C126_batches",
    "Verif.Attr.C126_floor",
    "Verif.Attr.C126_explicit"
   ],
   "note": "Real arithmetic; for LiSSA the random draws are fixed."
  },
  {
   "property": "C127",
   "status": "proved",
   "theorems": [
    "Verif.Attr.C127_cache",
    "Verif.Attr.C127_batch_independent",
    "Verif.Attr.C127_scores",
    "Verif.Attr.C127_uncached",
    "Verif.Attr.C127_ratio",
    "Verif.Attr.C127_stable"
   ],
   "note": "eigh enters by its contract; the ratio is an exact rational."
  },
  {
   "property": "C128",
   "status": "proved",
   "theorems": [
    "Verif.Hessian.C128_flat",
    "Verif.Hessian.C128_documented_iff",
    "Verif.Hessian.C128_flat_unregularised",
    "Verif.Hessian.C128_matrix"
   ],
   "note": "Exact arithmetic; a singular system raises."
  },
  {
   "property": "C129",
   "status": "proved",
   "theorems": [
    "Verif.DVEmb.C129_captured",
    "Verif.DVEmb.C129_scaling",
    "Verif.DVEmb.C129_same_as_direct",
    "Verif.DVEmb.C129_shared",
    "Verif.DVEmb.C129_failed_step",
    "Verif.DVEmb.C129_errors"
   ],
   "note": "Which tensors autograd hands to several layers is an input of the model."
  },
  {
   "property": "C130",
   "status": "proved",
   "theorems": [
    "Verif.Disk.C130_coherent",
    "Verif.Disk.C130_round_trip",
    "Verif.Disk.C130_bound",
    "Verif.Disk.C130_lru",
    "Verif.Disk.C130_missing",
    "Verif.Disk.C130_stale",
    "Verif.Disk.C130_pending",
    "Verif.Disk.C130_left_over"
   ],
   "note": "Layer dimensions known; rows as concatenated layers."
  },
  {
   "property": "C131",
   "status": "proved",
   "theorems": [
    "Verif.BlockIF.C131_same_scores",
    "Verif.BlockIF.C131_reachable"
   ],
   "note": "Exact arithmetic; preconditioners are not routed through their files; writes that fail and buffer overflows are excluded (their effects are in C63, C64, C97)."
  },
  {
   "property": "C132",
   "status": "proved",
   "theorems": [
    "Verif.Precond.C132_memory",
    "Verif.Precond.C132_disk",
    "Verif.Precond.C132_race",
    "Verif.Precond.C132_lost",
    "Verif.Precond.C132_none_kept",
    "Verif.BlockIF.C132_round_trip",
    "Verif.BlockIF.C132_lost_scores"
   ],
   "note": "A save replaces the file at once; a save that raises leaves the file as it was."
  },
  {
   "property": "C133",
   "status": "proved",
   "theorems": [
    "Verif.Hessian.C133_arg",
    "Verif.Hessian.C133_value",
    "Verif.Hessian.C133_negative",
    "Verif.Hessian.C133_mode",
    "Verif.Hessian.C133_hessian",
    "Verif.Hessian.C133_inverse"
   ],
   "note": "torch.func primitives are modelled by the derivatives they compute; real arithmetic; arguments as flat vectors."
  },
  {
   "property": "C134",
   "status": "proved",
   "theorems": [
    "Verif.Hessian.C134_mean",
    "Verif.Hessian.C134_mean_loss",
    "Verif.Hessian.C134_sum_loss",
    "Verif.Hessian.C134_unbiased"
   ],
   "note": "randperm is taken as uniform and independent; exact arithmetic."
  },
  {
   "property": "C135",
   "status": "proved",
   "theorems": [
    "Verif.GPT.C135_errors",
    "Verif.GPT.C135_causal",
    "Verif.GPT.C135_infer",
    "Verif.GPT.C135_prob",
    "Verif.GPT.C135_loss",
    "Verif.GPT.C135_attention",
    "Verif.GPT.C135_formula",
    "Verif.GPT.C135_crop"
   ],
   "note": "Evaluation mode (no dropout), real arithmetic; the documented behaviour of scaled_dot_product_attention; targets in the vocabulary."
  },
  {
   "property": "C136",
   "status": "proved",
   "theorems": [
    "Verif.GPT.C136_next",
    "Verif.GPT.C136_window",
    "Verif.GPT.C136_errors",
    "Verif.GPT.C136_generate",
    "Verif.GPT.C136_greedy"
   ],
   "note": "One sequence at a time; torch.multinomial draws from the given probabilities."
  },
  {
   "property": "C137",
   "status": "proved",
   "theorems": [
    "Verif.GPT.C137_groups",
    "Verif.GPT.C137_decayed",
    "Verif.GPT.C137_count"
   ],
   "note": "named_parameters as documented (shared objects once); AdamW itself is not modelled."
  },
  {
   "property": "C138",
   "status": "proved",
   "theorems": [
    "Verif.Music.C138_separate",
    "Verif.Music.C138_causal",
    "Verif.Music.C138_errors"
   ],
   "note": "Evaluation mode (no dropout), real arithmetic."
  },
  {
   "property": "C139",
   "status": "proved",
   "theorems": [
    "Verif.Music.C139_sample",
    "Verif.Music.C139_too_long",
    "Verif.Music.C139_primer_long",
    "Verif.Music.C139_greedy",
    "Verif.Music.C139_beam_step",
    "Verif.Music.C139_beam_sample",
    "Verif.Music.C139_main"
   ],
   "note": "Evaluation mode; torch.topk as documented (contract TopK), Categorical draws from the given probabilities."
  },
  {
   "property": "C140",
   "status": "proved",
   "theorems": [
    "Verif.Attr.C140_if_is_derivative",
    "Verif.Attr.C140_single",
    "Verif.Attr.C140_retrained",
    "Verif.Attr.C140_minimisers"
   ],
   "note": "Real arithmetic; gradients and Hessians are Mathlib's derivatives of the task's loss and target."
  },
  {
   "property": "C141",
   "status": "proved",
   "theorems": [
    "Verif.Attr.C141_tracin_is_step_effect"
   ],
   "note": "Real arithmetic."
  },
  {
   "property": "C142",
   "status": "proved",
   "theorems": [
    "Verif.DVEmb.C142_score",
    "Verif.DVEmb.C142_sensitivity",
    "Verif.DVEmb.C142_needs_outer"
   ],
   "note": "Real arithmetic, no projection. The assumption on the Hessians is the generalised Gauss-Newton approximation the method makes; C142_needs_outer shows that it cannot be dropped."
  },
  {
   "property": "C143",
   "status": "proved",
   "theorems": [
    "Verif.BlockIF.C143_retrieve",
    "Verif.BlockIF.C143_preconditioner",
    "Verif.BlockIF.C143_loader",
    "Verif.BlockIF.C143_dims_fixed",
    "Verif.BlockIF.C143_other_width",
    "Verif.BlockIF.C143_width_one"
   ],
   "note": "A loader is modelled as reading the stored tensors at creation."
  },
  {
   "property": "C144",
   "status": "proved",
   "theorems": [
    "Verif.Attr.C144_scores_are_retraining_derivatives",
    "Verif.Attr.C144_removed"
   ],
   "note": ""
  },
  {
   "property": "C145",
   "status": "proved",
   "theorems": [
    "Verif.LogReg.C145_logistic_regression"
   ],
   "note": "n inputs and c classes instead of 784 and 10."
  },
  {
   "property": "C146",
   "status": "proved",
   "theorems": [
    "Verif.LogReg.C146_default_regularisation_raises",
    "Verif.LogReg.C146_positive_regularisation"
   ],
   "note": "In exact arithmetic; in floating point the solver may return huge values instead of raising."
  },
  {
   "property": "C147",
   "status": "proved",
   "theorems": [
    "Verif.LoadBench.C147_unsupported",
    "Verif.LoadBench.C147_no_request",
    "Verif.LoadBench.C147_requests",
    "Verif.LoadBench.C147_addresses",
    "Verif.LoadBench.C147_result",
    "Verif.LoadBench.C147_never"
   ],
   "note": "The directory is changed by nothing else; creating the data set is one outcome given with the call."
  },
  {
   "property": "C148",
   "status": "proved",
   "theorems": [
    "Verif.LoadBench.C148_permanent",
    "Verif.LoadBench.C148_failed_download",
    "Verif.LoadBench.C148_stale_folders",
    "Verif.LoadBench.C148_checkpoints_exist"
   ],
   "note": ""
  },
  {
   "property": "C149",
   "status": "proved",
   "theorems": [
    "Verif.BenchLoss.C149_logistic",
    "Verif.BenchLoss.C149_mlp",
    "Verif.BenchLoss.C149_batching"
   ],
   "note": "Real arithmetic; the sizes 784, 128, 64, 10 are parameters."
  },
  {
   "property": "C150",
   "status": "proved",
   "theorems": [
    "Verif.BenchLoss.C150_value",
    "Verif.BenchLoss.C150_equal_batches",
    "Verif.BenchLoss.C150_mean",
    "Verif.BenchLoss.C150_sum"
   ],
   "note": "The network is any function of one image."
  },
  {
   "property": "C151",
   "status": "proved",
   "theorems": [
    "Verif.BenchLoss.C151_logistic",
    "Verif.BenchLoss.C151_mlp",
    "Verif.BenchLoss.C151_imagenet",
    "Verif.BenchLoss.C151_wikitext",
    "Verif.BenchLoss.C151_maestro_values",
    "Verif.BenchLoss.C151_maestro",
    "Verif.BenchLoss.C151_loo"
   ],
   "note": "GPT-2 is any function from examples to token losses."
  },
  {
   "property": "C152",
   "status": "proved",
   "theorems": [
    "Verif.Train.C152_logistic",
    "Verif.Train.C152_last_step",
    "Verif.Train.C152_momentum",
    "Verif.Train.C152_empty"
   ],
   "note": "Real arithmetic; the assumption on the Hessians is that of C142."
  },
  {
   "property": "C153",
   "status": "proved",
   "theorems": [
    "Verif.ResNet.C153_eval",
    "Verif.ResNet.C153_loss",
    "Verif.ResNet.C153_batching",
    "Verif.ResNet.C153_train",
    "Verif.ResNet.C153_train_small",
    "Verif.ResNet.C153_train_depends"
   ],
   "note": "Real arithmetic; the numbers of planes are parameters, all blocks have the projection in the shortcut as in ResNet9; batch normalisation as documented."
  },
  {
   "property": "C154",
   "status": "proved",
   "theorems": [
    "Verif.Metric.C154_lds",
    "Verif.Metric.C154_no_runs",
    "Verif.Metric.C154_loo",
    "Verif.Metric.C154_additive"
   ],
   "note": "Exact real arithmetic for the means, sums and correlations; retraining succeeds and writes the files as in C46 and C47."
  },
  {
   "property": "C155",
   "status": "proved",
   "theorems": [
    "Verif.Projection.C155_rademacher",
    "Verif.Projection.C155_sjlt",
    "Verif.Projection.C155_all_scores"
   ],
   "note": "Uniform finite sample space; real arithmetic. The normal distribution is not covered; the bound over all scores is for the Rademacher projector."
  },
  {
   "property": "C156",
   "status": "proved",
   "theorems": [
    "Verif.Hessian.C156_rate",
    "Verif.Hessian.C156_inner",
    "Verif.Attr.C156_against_explicit",
    "Verif.Attr.C156_against_retraining",
    "Verif.Attr.C156_finite"
   ],
   "note": "Exact real arithmetic; in it the loop divides by zero once the solution is exact (C22), these non-finite results are excluded by hypothesis and characterised by C156_finite."
  },
  {
   "property": "C157",
   "status": "proved",
   "theorems": [
    "Verif.Projection.C157_cpu",
    "Verif.Projection.C157_cuda",
    "Verif.Projection.C157_chunked",
    "Verif.Projection.C157_wrong_batch_size",
    "Verif.Projection.C157_refused"
   ],
   "note": "Real arithmetic; ensemble ids other than -1 on CUDA and GraSS with stable dimensions (C77, C30). The sjlt package is modelled by its documented meaning."
  },
  {
   "property": "C158",
   "status": "proved",
   "theorems": [
    "Verif.Projection.C158_mask",
    "Verif.Projection.C158_identity"
   ],
   "note": "randperm returns as many entries as asked for; ensemble ids other than -1."
  },
  {
   "property": "C159",
   "status": "proved",
   "theorems": [
    "Verif.EKFAC.C159_pythagoras",
    "Verif.EKFAC.C159_best",
    "Verif.EKFAC.C159_trace",
    "Verif.EKFAC.C159_solves"
   ],
   "note": "Real arithmetic; orthogonality of the stored matrices is a hypothesis (contract of eigh)."
  },
  {
   "property": "C160",
   "status": "proved",
   "theorems": [
    "Verif.DataInf.C160_gap",
    "Verif.DataInf.C160_over",
    "Verif.DataInf.C160_exact_iff"
   ],
   "note": "Real arithmetic, one layer."
  },
  {
   "property": "C161",
   "status": "proved",
   "theorems": [
    "Verif.Hessian.C161_converges_iff",
    "Verif.Hessian.C161_undamped_iff",
    "Verif.Hessian.C161_limit",
    "Verif.Hessian.C161_mean_iff",
    "Verif.Hessian.C161_bounded"
   ],
   "note": "Real arithmetic."
  },
  {
   "property": "C162",
   "status": "proved",
   "theorems": [
    "Verif.BlockIF.C162_outcome",
    "Verif.BlockIF.C162_caching",
    "Verif.BlockIF.C162_dims",
    "Verif.BlockIF.C162_stale_rows",
    "Verif.BlockIF.C162_same_sizes"
   ],
   "note": "In-memory storage; exact arithmetic; every attributor of the history caches once and uses the same layers throughout its life."
  },
  {
   "property": "C163",
   "status": "proved",
   "theorems": [
    "Verif.BlockIF.C163_values",
    "Verif.BlockIF.C163_storage",
    "Verif.BlockIF.C163_retrieved",
    "Verif.BlockIF.C163_loaders",
    "Verif.BlockIF.C163_creation"
   ],
   "note": "Moving a tensor is assumed not to fail and not to change values; data types are left out."
  },
  {
   "property": "C164",
   "status": "proved",
   "theorems": [
    "Verif.Attr.C164_inner_product",
    "Verif.TracIn.C164_tracin"
   ],
   "note": ""
  },
  {
   "property": "C165",
   "status": "proved",
   "theorems": [
    "Verif.KNN.C165_errors",
    "Verif.KNN.C165_mismatch",
    "Verif.KNN.C165_values"
   ],
   "note": ""
  },
  {
   "property": "C166",
   "status": "proved",
   "theorems": [
    "Verif.Train.C166_weight_decay",
    "Verif.Train.C166_imagenet",
    "Verif.Train.C166_momentum",
    "Verif.Train.C166_mlp_cifar"
   ],
   "note": "The optimiser's step is torch's documented one (coupled weight decay, no dampening, no Nesterov)."
  },
  {
   "property": "C167",
   "status": "proved",
   "theorems": [
    "Verif.Projection.C167_normal",
    "Verif.Projection.C167_all_scores"
   ],
   "note": "The entries of the matrix are independent standard normal variables (Mathlib's `gaussianReal 0 1`); the pseudo-random generator itself is idealised. Same exception as in C28: freed single-block matrix. Ensemble 0."
  },
  {
   "property": "C168",
   "status": "proved",
   "theorems": [
    "Verif.BlockIF.C168_projector",
    "Verif.BlockIF.C168_logra"
   ],
   "note": "The projections of different layers and factors are independent standard normal matrices (their seeds differ, C68, and the dimension per factor is at most 1000 so that block seeds do not coincide); the task's loss is the mean over the batch."
  },
  {
   "property": "C169",
   "status": "proved",
   "theorems": [
    "Verif.DVEmb.C169_kronecker",
    "Verif.DVEmb.C169_elementwise",
    "Verif.DVEmb.C169_independent_kronecker",
    "Verif.DVEmb.C169_independent_elementwise"
   ],
   "note": "Idealised normal entries; for square layers, where both projectors have the same shape and seed and hence the same matrix (C89)."
  },
  {
   "property": "C170",
   "status": "proved",
   "theorems": [
    "Verif.BlockIF.C170_unsupported",
    "Verif.BlockIF.C170_refused",
    "Verif.BlockIF.C170_accepted",
    "Verif.BlockIF.C170_iff",
    "Verif.BlockIF.C170_default"
   ],
   "note": "In-memory storage; compressors whose set-up itself succeeds."
  },
  {
   "property": "C171",
   "status": "proved",
   "theorems": [
    "Verif.BlockIF.C171_projector",
    "Verif.BlockIF.C171_second_stage",
    "Verif.BlockIF.C171_factgrass"
   ],
   "note": "Independent uniformly drawn masks and standard normal matrices; the task's loss is the mean over the batch."
  },
  {
   "property": "C172",
   "status": "proved",
   "theorems": [
    "Verif.KNN.C172_sign",
    "Verif.KNN.C172_order",
    "Verif.KNN.C172_large_K"
   ],
   "note": "Exact rationals; argsort as in C01."
  },
  {
   "property": "C173",
   "status": "proved",
   "theorems": [
    "Verif.Attr.C173_leave_one_out"
   ],
   "note": "Real arithmetic; the penalty keeps its weight relative to the number of all samples."
  },
  {
   "property": "C174",
   "status": "proved",
   "theorems": [
    "Verif.GPT.C174_norm",
    "Verif.GPT.C174_network",
    "Verif.GPT.C174_bounded"
   ],
   "note": "Real arithmetic, evaluation mode; the activation is arbitrary."
  },
  {
   "property": "C175",
   "status": "proved",
   "theorems": [
    "Verif.Disk.Wait.C175_new_turn",
    "Verif.Disk.Wait.C175_new",
    "Verif.Disk.Wait.C175_rewrite",
    "Verif.Disk.Wait.C175_raises",
    "Verif.Disk.Wait.C175_any_files"
   ],
   "note": "Sizes counted in rows; the metadata file is missing, cut off or complete."
  },
  {
   "property": "C176",
   "status": "proved",
   "theorems": [
    "Verif.Disk.Overlap.C176_order",
    "Verif.Disk.Overlap.C176_ready",
    "Verif.Disk.Overlap.C176_transfers"
   ],
   "note": "Full characterisation; the documented overlap of transfers and use does not happen."
  },
  {
   "property": "C177",
   "status": "proved",
   "theorems": [
    "Verif.LogReg.C177_hessian",
    "Verif.LogReg.C177_bounds",
    "Verif.LogReg.C177_sharp",
    "Verif.LogReg.C177_cg",
    "Verif.LogReg.C177_lissa",
    "Verif.LogReg.C177_lissa_default"
   ],
   "note": "Exact arithmetic."
  },
  {
   "property": "C178",
   "status": "proved",
   "theorems": [
    "Verif.EKFAC.C178_eigenvalues",
    "Verif.EKFAC.C178_summed",
    "Verif.EKFAC.C178_scores",
    "Verif.EKFAC.C178_exact"
   ],
   "note": "Real arithmetic; the orthogonality of the stored bases (the contract of torch.linalg.eigh) is a hypothesis; biases, sequences and the transposed bases are in C17-C19."
  },
  {
   "property": "C179",
   "status": "proved",
   "theorems": [
    "Verif.TRAK.C179_exists",
    "Verif.TRAK.C179_exists_others",
    "Verif.TRAK.C179_ridge",
    "Verif.TRAK.C179_exact",
    "Verif.TRAK.C179_self",
    "Verif.TRAK.C179_scale",
    "Verif.TRAK.C179_repeat"
   ],
   "note": "Over the reals; projected gradients as in C13."
  },
  {
   "property": "C180",
   "status": "proved",
   "theorems": [
    "Verif.TRAK.C180_uncached",
    "Verif.TRAK.C180_swapped",
    "Verif.TRAK.C180_cached"
   ],
   "note": "The code does not meet the documented result shape here; the property describes exactly what it does."
  },
  {
   "property": "C181",
   "status": "proved",
   "theorems": [
    "Verif.TRAK.C181_loader_rejected",
    "Verif.TRAK.C181_never_cached",
    "Verif.TRAK.C181_stale"
   ],
   "note": "The never-cached case for a non-empty test loader of supported batches."
  },
  {
   "property": "C182",
   "status": "proved",
   "theorems": [
    "Verif.Midi.Prep.C182_maestro",
    "Verif.Midi.Prep.C182_names",
    "Verif.Midi.Prep.C182_splits",
    "Verif.Midi.Prep.C182_custom",
    "Verif.Midi.Prep.C182_custom_error",
    "Verif.Midi.Prep.C182_shares",
    "Verif.Midi.Prep.C182_leak"
   ],
   "note": "The encoder of MIDI files is a parameter; writing files does not fail."
  },
  {
   "property": "C183",
   "status": "proved",
   "theorems": [
    "Verif.Script.Config.C183_option",
    "Verif.Script.Config.C183_rejected",
    "Verif.Script.Config.C183_types",
    "Verif.Script.Config.C183_options",
    "Verif.Script.Config.C183_order",
    "Verif.Script.Config.C183_data_settings"
   ],
   "note": "literal_eval and the execution of configuration files are parameters."
  },
  {
   "property": "C184",
   "status": "proved",
   "theorems": [
    "Verif.EKFAC.C184_sum",
    "Verif.EKFAC.C184_finite",
    "Verif.EKFAC.C184_order",
    "Verif.EKFAC.C184_symmetric",
    "Verif.EKFAC.C184_keyError"
   ],
   "note": "The stored eigenvectors and eigenvalues are arbitrary; how they are estimated is C19, C159 and C178. A module has one name and is requested once."
  },
  {
   "property": "C185",
   "status": "proved",
   "theorems": [
    "Verif.BlockIF.C185_scores",
    "Verif.BlockIF.C185_entries",
    "Verif.BlockIF.C185_sum",
    "Verif.BlockIF.C185_ignored",
    "Verif.BlockIF.C185_own_loss",
    "Verif.BlockIF.C185_errors",
    "Verif.BlockIF.C185_checkpoint",
    "Verif.BlockIF.C185_target"
   ],
   "note": "Real arithmetic; layers with two-dimensional inputs (a bias is a column of the weights); samples of a batch do not influence each other's outputs; in-memory storage. A batch whose labels are all -100 is not covered (the loss is not a number)."
  },
  {
   "property": "C186",
   "status": "proved",
   "theorems": [
    "Verif.Examples.C186_removed",
    "Verif.Examples.C186_best",
    "Verif.Examples.C186_zero"
   ],
   "note": "Exact arithmetic; the sort is any permutation with non-increasing scores. Retraining and evaluation are not modelled."
  },
  {
   "property": "C187",
   "status": "proved",
   "theorems": [
    "Verif.Examples.C187_table",
    "Verif.Examples.C187_auc"
   ],
   "note": "Exact arithmetic; the sort is any permutation with non-increasing scores. The identity for the AUC needs distinct scores and at least one wrong and one right label."
  },
  {
   "property": "C188",
   "status": "proved",
   "theorems": [
    "Verif.Chars.C188_number",
    "Verif.Chars.C188_round_trip",
    "Verif.Chars.C188_cut",
    "Verif.Chars.C188_files",
    "Verif.Chars.C188_open",
    "Verif.Chars.C188_items"
   ],
   "note": "Characters are the elements of a linear order; the product n*0.9 is rounded to a nearest double, without overflow or underflow. What numpy does with numbers that do not fit (error or wrap-around, by version) is not modelled."
  },
  {
   "property": "C189",
   "status": "proved",
   "theorems": [
    "Verif.Hessian.C189_symmetric",
    "Verif.Hessian.C189_psd",
    "Verif.Hessian.C189_indefinite"
   ],
   "note": "Exact real arithmetic; a division by zero counts as a non-finite result. Indefinite matrices: the failure is shown for one matrix and vector."
  },
  {
   "property": "C190",
   "status": "proved",
   "theorems": [
    "Verif.Compress.C190_both",
    "Verif.Compress.C190_neither",
    "Verif.Compress.C190_projector_only",
    "Verif.Compress.C190_sparsifier_only",
    "Verif.Compress.C190_attributor"
   ],
   "note": "The sample passes are represented by which modules ran; of the parameters of a stage only the seed is kept."
  },
  {
   "property": "C191",
   "status": "proved",
   "theorems": [
    "Verif.Pretrained.C191_succeeds",
    "Verif.Pretrained.C191_places",
    "Verif.Pretrained.C191_values",
    "Verif.Pretrained.C191_complete",
    "Verif.Pretrained.C191_forward",
    "Verif.Pretrained.C191_names",
    "Verif.Pretrained.C191_config"
   ],
   "note": "Rational entries; the downloaded state dict and the newly made model are given; the dropout override is not modelled."
  },
  {
   "property": "C192",
   "status": "proved",
   "theorems": [
    "Verif.Experiment.C192_average",
    "Verif.Experiment.C192_best",
    "Verif.Experiment.C192_unique",
    "Verif.Experiment.C192_rps"
   ],
   "note": "Exact metric values; the runs themselves are given."
  },
  {
   "property": "C193",
   "status": "proved",
   "theorems": [
    "Verif.Experiment.C193_value",
    "Verif.Experiment.C193_errors",
    "Verif.Experiment.C193_only_first"
   ],
   "note": "Reals; 4656, 481 and the number of files are parameters; a cell is an integer or not."
  },
  {
   "property": "C194",
   "status": "proved",
   "theorems": [
    "Verif.LooTruth.C194_run",
    "Verif.LooTruth.C194_absent",
    "Verif.LooTruth.C194_first",
    "Verif.LooTruth.C194_balance"
   ],
   "note": "Exact arithmetic; the gradient of a sample is any function of the parameters; the data order is given, the same for all trainings."
  },
  {
   "property": "C195",
   "status": "proved",
   "theorems": [
    "Verif.LooTruth.C195_errors",
    "Verif.LooTruth.C195_selected",
    "Verif.LooTruth.C195_repeats",
    "Verif.LooTruth.C195_evaluate"
   ],
   "note": "Random draws by their contract; the file of indices is read back as written."
  },
  {
   "property": "C196",
   "status": "proved",
   "theorems": [
    "Verif.Adam.C196_step",
    "Verif.Adam.C196_run",
    "Verif.Adam.C196_no_gradient",
    "Verif.Adam.C196_first",
    "Verif.Adam.C196_scale",
    "Verif.Adam.C196_wikitext",
    "Verif.Adam.C196_maestro",
    "Verif.Adam.C196_nano"
   ],
   "note": "Exact reals; the optimizers of torch by their documented update; every parameter gets a gradient in every step; nanoGPT with learning rates at most 10."
  },
  {
   "property": "C197",
   "status": "proved",
   "theorems": [
    "Verif.TrainSteps.C197_fresh",
    "Verif.TrainSteps.C197_all_batches",
    "Verif.TrainSteps.C197_resume_epoch",
    "Verif.TrainSteps.C197_resume_step",
    "Verif.TrainSteps.C197_resume_exact",
    "Verif.TrainSteps.C197_resume_finished",
    "Verif.TrainSteps.C197_nothing_left",
    "Verif.TrainSteps.C197_errors"
   ],
   "note": "One process; accelerate by its documented accumulation; checkpointing_steps is not \"0\"; the counter of accelerate after loading is a multiple of the accumulation steps, as it is at every checkpoint."
  },
  {
   "property": "C198",
   "status": "proved",
   "theorems": [
    "Verif.KNN.C198_order",
    "Verif.KNN.C198_similarity",
    "Verif.KNN.C198_maps",
    "Verif.KNN.C198_ties",
    "Verif.KNN.C198_construct"
   ],
   "note": "Computed distances are rationals assumed to order samples as the Euclidean distances do."
  },
  {
   "property": "C199",
   "status": "proved",
   "theorems": [
    "Verif.RPSCheck.C199_difference",
    "Verif.RPSCheck.C199_correlation",
    "Verif.RPSCheck.C199_exact",
    "Verif.RPSCheck.C199_errors"
   ],
   "note": "Exact reals; scipy's pearsonr by its documentation."
  },
  {
   "property": "C200",
   "status": "proved",
   "theorems": [
    "Verif.Conv1D.C200_forward",
    "Verif.Conv1D.C200_names",
    "Verif.Conv1D.C200_children",
    "Verif.Conv1D.C200_no_conv",
    "Verif.Conv1D.C200_layers",
    "Verif.Conv1D.C200_layers_before",
    "Verif.Conv1D.C200_find",
    "Verif.Conv1D.C200_once"
   ],
   "note": "Conv1D and Linear have no children; weights over any commutative ring."
  },
  {
   "property": "C201",
   "status": "proved",
   "theorems": [
    "Verif.TRAKOdds.C201_value",
    "Verif.TRAKOdds.C201_order",
    "Verif.TRAKOdds.C201_margin",
    "Verif.TRAKOdds.C201_one_class",
    "Verif.TRAKOdds.C201_padding",
    "Verif.TRAKOdds.C201_gradient",
    "Verif.TRAKOdds.C201_trak",
    "Verif.TRAKOdds.C201_scores",
    "Verif.TRAKOdds.C201_batch"
   ],
   "note": "Exact reals; infinity and not-a-number are separate results."
  },
  {
   "property": "C202",
   "status": "proved",
   "theorems": [
    "Verif.EKFAC.C202_size",
    "Verif.EKFAC.C202_default",
    "Verif.EKFAC.C202_errors",
    "Verif.EKFAC.C202_batches"
   ],
   "note": "A tensor is a shape with a function of index lists; torch.randperm is any permutation."
  },
  {
   "property": "C203",
   "status": "proved",
   "theorems": [
    "Verif.TracInRound.C203_bound",
    "Verif.TracInRound.C203_runs",
    "Verif.TracInRound.C203_rank",
    "Verif.TracInRound.C203_depth",
    "Verif.TracInRound.C203_integers",
    "Verif.TracInRound.C203_float32",
    "Verif.TracInRound.C203_float32_integers",
    "Verif.TracInRound.C203_order_matters"
   ],
   "note": "Gradient rows are given; no overflow."
  },
  {
   "property": "C204",
   "status": "proved",
   "theorems": [
    "Verif.Brittle.C204_result",
    "Verif.Brittle.C204_column",
    "Verif.Brittle.C204_none",
    "Verif.Brittle.C204_wrong_column"
   ],
   "note": "Scores and predictions are given."
  },
  {
   "property": "C205",
   "status": "proved",
   "theorems": [
    "Verif.Disk.Pool.C205_invisible",
    "Verif.Disk.Pool.C205_exclusive",
    "Verif.Disk.Pool.C205_no_wait",
    "Verif.Disk.Pool.C205_overflow",
    "Verif.Disk.Pool.C205_writer"
   ],
   "note": "One storing thread; C205_writer links the operations without a pool to the writer model of C62-C64."
  },
  {
   "property": "C206",
   "status": "proved",
   "theorems": [
    "Verif.Disk.Drop.C206_dropped",
    "Verif.Disk.Drop.C206_finaliser",
    "Verif.Disk.Drop.C206_no_workers",
    "Verif.Disk.Drop.C206_deadlock",
    "Verif.Disk.Drop.C206_returns"
   ],
   "note": "A chunk is one value; its contents are in C62-C64 and C205. Interpreter exit is not modelled."
  },
  {
   "property": "C207",
   "status": "proved",
   "theorems": [
    "Verif.FloatGT.C207_monotone",
    "Verif.FloatGT.C207_indices",
    "Verif.FloatGT.C207_order",
    "Verif.FloatGT.C207_collision"
   ],
   "note": "Rounding to nearest with ties to even and subnormal numbers; overflow not modelled."
  },
  {
   "property": "C208",
   "status": "proved",
   "theorems": [
    "Verif.Rotate.C208_explicit",
    "Verif.Rotate.C208_cg_scores",
    "Verif.Rotate.C208_tracin",
    "Verif.Rotate.C208_tracin_unit",
    "Verif.Rotate.C208_cg",
    "Verif.Rotate.C208_lissa",
    "Verif.Rotate.C208_arnoldi",
    "Verif.Rotate.C208_arnoldi_product",
    "Verif.Rotate.C208_datainf",
    "Verif.Rotate.C208_dvemb",
    "Verif.Rotate.C208_trak",
    "Verif.Rotate.C208_ekfac_rows",
    "Verif.Rotate.C208_ekfac_swap"
   ],
   "note": "Exact arithmetic. Gradients and Hessians are derived from the loss by fderiv for explicit, CG and TracIn; for LiSSA, Arnoldi, DataInf, DVEmb and TRAK the vectors and matrices are transformed directly. Random projections of gradients are outside (they do depend on the numbering)."
  },
  {
   "property": "C209",
   "status": "proved",
   "theorems": [
    "Verif.DVEmbLayers.C209_names",
    "Verif.DVEmbLayers.C209_all",
    "Verif.DVEmbLayers.C209_tied",
    "Verif.DVEmbLayers.C209_construct",
    "Verif.DVEmbLayers.C209_dims",
    "Verif.DVEmbLayers.C209_type_ignored",
    "Verif.DVEmbLayers.C209_usable",
    "Verif.DVEmbLayers.C209_linear",
    "Verif.DVEmbLayers.C209_repeated",
    "Verif.DVEmbLayers.C209_projectors"
   ],
   "note": "Modules are described by what the code reads off them; the traversal of the model is the list of paths with module identities. int(math.sqrt(d)) is the exact integer root. Rows for two-dimensional activations."
  },
  {
   "property": "C210",
   "status": "proved",
   "theorems": [
    "Verif.Order.C210_tracin",
    "Verif.Order.C210_cached",
    "Verif.Order.C210_trak",
    "Verif.Order.C210_trak_extra",
    "Verif.Order.C210_explicit_one_batch",
    "Verif.Order.C210_explicit_order",
    "Verif.Order.C210_knn"
   ],
   "note": "Gradients and projections are functions of the sample (models of C05, C09, C13, C03)."
  },
  {
   "property": "C211",
   "status": "proved",
   "theorems": [
    "Verif.Symmetry.C211_tracin",
    "Verif.Symmetry.C211_explicit",
    "Verif.Symmetry.C211_task",
    "Verif.Symmetry.C211_arnoldi",
    "Verif.Symmetry.C211_datainf",
    "Verif.Symmetry.C211_trak",
    "Verif.Symmetry.C211_explicit_linear",
    "Verif.Symmetry.C211_lissa_linear",
    "Verif.Symmetry.C211_arnoldi_solver",
    "Verif.Symmetry.C211_cg_homogeneous",
    "Verif.Symmetry.C211_cg_not_linear",
    "Verif.Symmetry.C211_lissa_full",
    "Verif.Symmetry.C211_lissa_mean",
    "Verif.Symmetry.C211_lissa_draw"
   ],
   "note": "Exact arithmetic; the claim that CG is neither additive nor symmetric is a witness with one iteration. EK-FAC symmetry is in C184."
  },
  {
   "property": "C212",
   "status": "proved",
   "theorems": [
    "Verif.Units.C212_tracin",
    "Verif.Units.C212_tracin_normalised",
    "Verif.Units.C212_explicit",
    "Verif.Units.C212_explicit_reg",
    "Verif.Units.C212_cg_target",
    "Verif.Units.C212_cg_loss",
    "Verif.Units.C212_lissa",
    "Verif.Units.C212_datainf",
    "Verif.Units.C212_ekfac",
    "Verif.Units.C212_ekfac_lambda",
    "Verif.Units.C212_ekfac_covariance"
   ],
   "note": "The dependence of unconverged CG on the unit of the loss is a witness with one iteration. TRAK is in C179."
  },
  {
   "property": "C213",
   "status": "proved",
   "theorems": [
    "Verif.Hessian.C213_explicit",
    "Verif.Hessian.C213_cg",
    "Verif.Hessian.C213_lissa",
    "Verif.Hessian.C213_arnoldi",
    "Verif.Hessian.C213_wrapper_cut",
    "Verif.Hessian.C213_wrapper_exact"
   ],
   "note": "Tensors of at most two dimensions; `eigh` by its contract where it matters."
  },
  {
   "property": "C214",
   "status": "proved",
   "theorems": [
    "Verif.Methods.C214_trak",
    "Verif.Methods.C214_trak_number",
    "Verif.Methods.C214_tracin",
    "Verif.Methods.C214_unknown",
    "Verif.Methods.C214_paths",
    "Verif.Methods.C214_if",
    "Verif.Methods.C214_disjoint",
    "Verif.Methods.C214_trak_zero",
    "Verif.Methods.C214_memo",
    "Verif.Methods.C214_benchmark_trak",
    "Verif.Methods.C214_benchmark_tracin",
    "Verif.Methods.C214_benchmark_few",
    "Verif.Methods.C214_nano",
    "Verif.Methods.C214_strip",
    "Verif.Methods.C214_load_state",
    "Verif.Methods.C214_load_state_order"
   ],
   "note": "Digits by a contract that covers non-ASCII digits; Python's limit on the length of integers is left out."
  },
  {
   "property": "C215",
   "status": "proved",
   "theorems": [
    "Verif.Outlier.C215_data",
    "Verif.Outlier.C215_gradients",
    "Verif.Outlier.C215_gradient_entries",
    "Verif.Outlier.C215_dominant",
    "Verif.Outlier.C215_labels",
    "Verif.Outlier.C215_labels_draws",
    "Verif.Outlier.C215_scores",
    "Verif.Outlier.C215_lissa",
    "Verif.Outlier.C215_three_classes",
    "Verif.Outlier.C215_corners",
    "Verif.Outlier.C215_mask",
    "Verif.Outlier.C215_boundary",
    "Verif.Outlier.C215_boundary_small"
   ],
   "note": "Real arithmetic; random numbers given; training left out (any checkpoint)."
  },
  {
   "property": "C216",
   "status": "proved",
   "theorems": [
    "Verif.EkCache.C216_covariance",
    "Verif.EkCache.C216_lambda",
    "Verif.EkCache.C216_call",
    "Verif.EkCache.C216_every_batch",
    "Verif.EkCache.C216_counted_twice",
    "Verif.EkCache.C216_sizes",
    "Verif.EkCache.C216_second_pass",
    "Verif.EkCache.C216_no_gradient",
    "Verif.EkCache.C216_single_sample",
    "Verif.EkCache.C216_hooks",
    "Verif.EkCache.C216_evaluation",
    "Verif.EkCache.C216_later_calls",
    "Verif.EkCache.C216_tied"
   ],
   "note": "Two-dimensional inputs; the eigendecomposition is any function of the covariances. What leftover hooks do inside torch.func transforms is left out."
  },
  {
   "property": "C217",
   "status": "proved",
   "theorems": [
    "Verif.DVTrain.C217_training",
    "Verif.DVTrain.C217_context",
    "Verif.DVTrain.C217_between",
    "Verif.DVTrain.C217_accumulation",
    "Verif.DVTrain.C217_draws",
    "Verif.DVTrain.C217_dropout",
    "Verif.DVTrain.C217_statistics",
    "Verif.DVTrain.C217_attribute",
    "Verif.DVTrain.C217_frozen"
   ],
   "note": "The network is any function from weights, batch and stream position to gradients; networks that write buffers are excluded for per-sample gradients (vmap rejects them)."
  },
  {
   "property": "C218",
   "status": "proved",
   "theorems": [
    "Verif.Share.C218_separate",
    "Verif.Share.C218_equal",
    "Verif.Share.C218_call",
    "Verif.Share.C218_left",
    "Verif.Share.C218_alias",
    "Verif.Share.C218_two_tasks",
    "Verif.Share.C218_trained",
    "Verif.Share.C218_held"
   ],
   "note": "Weights of a model are one value; layer restrictions are the subject of C34, C35 and C83."
  },
  {
   "property": "C219",
   "status": "proved",
   "theorems": [
    "Verif.KNNRound.C219_error",
    "Verif.KNNRound.C219_sign",
    "Verif.KNNRound.C219_neighbours",
    "Verif.KNNRound.C219_labels",
    "Verif.KNNRound.C219_positive"
   ],
   "note": "The order of the distances is given (ties and rounding of distances are not part of this property)."
  },
  {
   "property": "C220",
   "status": "proved",
   "theorems": [
    "Verif.GradMode.C220_scores",
    "Verif.GradMode.C220_hessian",
    "Verif.GradMode.C220_no_grad",
    "Verif.GradMode.C220_modes",
    "Verif.GradMode.C220_cache",
    "Verif.GradMode.C220_ekfac",
    "Verif.GradMode.C220_tracin",
    "Verif.GradMode.C220_trak",
    "Verif.GradMode.C220_rps",
    "Verif.GradMode.C220_rps_no_grad",
    "Verif.GradMode.C220_block",
    "Verif.GradMode.C220_dvemb",
    "Verif.GradMode.C220_correlations",
    "Verif.GradMode.C220_other_metrics",
    "Verif.GradMode.C220_ground_truth",
    "Verif.GradMode.C220_lds",
    "Verif.GradMode.C220_calls",
    "Verif.GradMode.C220_cache_calls"
   ],
   "note": "Tensors are represented by their sizes and requires_grad; whether a gradient depends on the weights in autograd is a parameter of the task. PyTorch's rules (propagation of the flag, detach, in-place additions, backward and numpy raising) are modelled primitives."
  },
  {
   "property": "C221",
   "status": "proved",
   "theorems": [
    "Verif.RetrainSeed.C221_bench_self_seeded",
    "Verif.RetrainSeed.C221_loo_bench",
    "Verif.RetrainSeed.C221_loo_bench_fails",
    "Verif.RetrainSeed.C221_loo_documented",
    "Verif.RetrainSeed.C221_loo_self_seeded",
    "Verif.RetrainSeed.C221_loo_stream",
    "Verif.RetrainSeed.C221_loo_not_a_function",
    "Verif.RetrainSeed.C221_lds_self_seeded",
    "Verif.RetrainSeed.C221_lds_outcome",
    "Verif.RetrainSeed.C221_lds_bench_succeeds_iff",
    "Verif.RetrainSeed.C221_lds_bench_models",
    "Verif.RetrainSeed.C221_lds_default_seed",
    "Verif.RetrainSeed.C221_lds_first",
    "Verif.RetrainSeed.C221_lds_division_matters",
    "Verif.RetrainSeed.C221_loo_reproducible",
    "Verif.RetrainSeed.C221_lds_reproducible",
    "Verif.RetrainSeed.C221_other_generators",
    "Verif.RetrainSeed.C221_loo_state_lost",
    "Verif.RetrainSeed.C221_lds_state_lost",
    "Verif.RetrainSeed.C221_lds_state_pure",
    "Verif.RetrainSeed.C221_lds_bad_seed",
    "Verif.RetrainSeed.C221_gpt_seeds"
   ],
   "note": "for all training functions as state machines on the three global generators; the range of np.random.seed (0 to 2^32 - 1) and of torch.manual_seed (64 bits) is that of the libraries' documentation"
  },
  {
   "property": "C222",
   "status": "proved",
   "theorems": [
    "Verif.LissaAttr.C222_scores",
    "Verif.LissaAttr.C222_calls",
    "Verif.LissaAttr.C222_calls_distinct",
    "Verif.LissaAttr.C222_same_batch",
    "Verif.LissaAttr.C222_mean",
    "Verif.LissaAttr.C222_different_batches",
    "Verif.LissaAttr.C222_one_batch",
    "Verif.LissaAttr.C222_duplicates",
    "Verif.LissaAttr.C222_duplicates_agree_iff",
    "Verif.LissaAttr.C222_estimate_is_lissa",
    "Verif.LissaAttr.C222_full_batches",
    "Verif.LissaAttr.C222_full_batches_scores",
    "Verif.LissaAttr.C222_lissa_mean",
    "Verif.LissaAttr.C222_order_flips"
   ],
   "note": "draws of different calls are independent and uniform (finite product); within a call the estimator is arbitrary, and for the last theorems LiSSA's own recursion; scores over the reals"
  },
  {
   "property": "C223",
   "status": "proved",
   "theorems": [
    "Verif.GradBuf.C223_ekfac",
    "Verif.GradBuf.C223_ekfac_repeated",
    "Verif.GradBuf.C223_ekfac_mean",
    "Verif.GradBuf.C223_ekfac_fails",
    "Verif.GradBuf.C223_block",
    "Verif.GradBuf.C223_block_fails",
    "Verif.GradBuf.C223_factors",
    "Verif.GradBuf.C223_no_batches",
    "Verif.GradBuf.C223_tidy",
    "Verif.GradBuf.C223_ekfac_before_step",
    "Verif.GradBuf.C223_block_before_step",
    "Verif.GradBuf.C223_needed"
   ],
   "note": "gradients of the batches are given values, split into uses inside and outside hooked layers; zero_grad with its default set_to_none=True; that the other calls do not touch the buffers (torch.func.grad, tensors of their own) is read off the code and enters the model as such"
  },
  {
   "property": "C224",
   "status": "proved",
   "theorems": [
    "Verif.RandSession.C224_state_forgotten",
    "Verif.RandSession.C224_session",
    "Verif.RandSession.C224_seed_lost",
    "Verif.RandSession.C224_repetitions",
    "Verif.RandSession.C224_later",
    "Verif.RandSession.C224_first",
    "Verif.RandSession.C224_untouched",
    "Verif.RandSession.C224_not_cached"
   ],
   "note": "the generator's state is abstract; gradients, Hessian-vector products and other events may read and advance it in any way"
  },
  {
   "property": "C225",
   "status": "proved",
   "theorems": [
    "Verif.RPS.C225_stored",
    "Verif.RPS.C225_value",
    "Verif.RPS.C225_one_epoch",
    "Verif.RPS.C225_stationary",
    "Verif.RPS.C225_copy",
    "Verif.RPS.C225_attribute",
    "Verif.RPS.C225_independent",
    "Verif.RPS.C225_follows",
    "Verif.RPS.C225_unchanged",
    "Verif.RPS.C225_refines"
   ],
   "note": "a tensor is a value with a flag for shared storage; Variable(t) and .data share storage (PyTorch), the line search makes new tensors"
  },
  {
   "property": "C226",
   "status": "proved",
   "theorems": [
    "Verif.Metric.C226_lds",
    "Verif.Metric.C226_lds_exact",
    "Verif.Metric.C226_lds_reversed",
    "Verif.Metric.C226_loo",
    "Verif.Metric.C226_loo_additive",
    "Verif.Metric.C226_loo_exact",
    "Verif.Metric.C226_loo_reversed",
    "Verif.Metric.C226_brittleness_iff",
    "Verif.Metric.C226_brittleness_none"
   ],
   "note": "Full characterisation; the evaluations agree with the scores exactly for the sampler 0..n-1. Positions beyond the end of the data set are not modelled."
  },
  {
   "property": "C227",
   "status": "proved",
   "theorems": [
    "Verif.BatchKind.C227_if_calls",
    "Verif.BatchKind.C227_datainf_calls",
    "Verif.BatchKind.C227_lissa",
    "Verif.BatchKind.C227_arnoldi",
    "Verif.BatchKind.C227_ekfac",
    "Verif.BatchKind.C227_tracin_calls",
    "Verif.BatchKind.C227_trak_calls",
    "Verif.BatchKind.C227_bare",
    "Verif.BatchKind.C227_bare_arnoldi",
    "Verif.BatchKind.C227_nontensor",
    "Verif.BatchKind.C227_sizes",
    "Verif.BatchKind.C227_pairs",
    "Verif.BatchKind.C227_not_pairs",
    "Verif.BatchKind.C227_table",
    "Verif.BatchKind.C227_documented"
   ],
   "note": "Full characterisation of the calls; the rows of the table for RelatIF are those of the method it normalises. One checkpoint."
  },
  {
   "property": "C228",
   "status": "proved",
   "theorems": [
    "Verif.LoaderKind.C228_if_iterable",
    "Verif.LoaderKind.C228_if_no_batch_size",
    "Verif.LoaderKind.C228_if_sized",
    "Verif.LoaderKind.C228_if_accepts",
    "Verif.LoaderKind.C228_tracin",
    "Verif.LoaderKind.C228_tracin_sized",
    "Verif.LoaderKind.C228_tracin_self_sized",
    "Verif.LoaderKind.C228_self",
    "Verif.LoaderKind.C228_self_batch_sampler",
    "Verif.LoaderKind.C228_knn",
    "Verif.LoaderKind.C228_knn_sized",
    "Verif.LoaderKind.C228_trak",
    "Verif.LoaderKind.C228_trak_empty",
    "Verif.LoaderKind.C228_rps",
    "Verif.LoaderKind.C228_meta",
    "Verif.LoaderKind.C228_loo",
    "Verif.LoaderKind.C228_loo_unbatched",
    "Verif.LoaderKind.C228_lds",
    "Verif.LoaderKind.C228_flip"
   ],
   "note": "Full characterisation by kind of loader. What a batch contains (for unbatched loaders: the axes of a single item) is a parameter of the model; gradients and distances are computed without error; iterable data sets are taken without a length."
  },
  {
   "property": "C229",
   "status": "proved",
   "theorems": [
    "Verif.Prec.C229_influence",
    "Verif.Prec.C229_self",
    "Verif.Prec.C229_ekfac",
    "Verif.Prec.C229_tracin",
    "Verif.Prec.C229_trak",
    "Verif.Prec.C229_once",
    "Verif.Prec.C229_mean",
    "Verif.Prec.C229_float32",
    "Verif.Prec.C229_order",
    "Verif.Prec.C229_tie"
   ],
   "note": "Full characterisation. PyTorch's rules for mixed precisions are primitives of the model; the user's model is taken to multiply weights with data. The loader of the full training set is not empty; EK-FAC with one layer and one checkpoint."
  },
  {
   "property": "C230",
   "status": "proved",
   "theorems": [
    "Verif.Freeze.C230_aligned",
    "Verif.Freeze.C230_error",
    "Verif.Freeze.C230_coordinates",
    "Verif.Freeze.C230_freeze",
    "Verif.Freeze.C230_sessions",
    "Verif.Freeze.C230_reload",
    "Verif.Freeze.C230_stale",
    "Verif.Freeze.C230_unchanged"
   ],
   "note": "Full characterisation. layer_name is None; checkpoints fit the model and are loaded in place."
  },
  {
   "property": "C231",
   "status": "proved",
   "theorems": [
    "Verif.NaN.C231_cg",
    "Verif.NaN.C231_lissa",
    "Verif.NaN.C231_layer",
    "Verif.NaN.C231_dataInf",
    "Verif.NaN.C231_all_cg",
    "Verif.NaN.C231_all_dataInf",
    "Verif.NaN.C231_own",
    "Verif.NaN.C231_others",
    "Verif.NaN.C231_tracin",
    "Verif.NaN.C231_tracin_zero",
    "Verif.NaN.C231_trak",
    "Verif.NaN.C231_trak_zero",
    "Verif.NaN.C231_trak_clean"
   ],
   "note": "Influence functions over any arithmetic in which NaN is absorbing. TracIn and TRAK over exact numbers with NaN; infinite values, which nan_to_num maps to the largest number, are not modelled. The kernel of TRAK is taken to be invertible. Explicit, Arnoldi and EK-FAC not included (LAPACK decides what a NaN in a matrix does)."
  },
  {
   "property": "C232",
   "status": "proved",
   "theorems": [
    "Verif.DataInf.C232_entries",
    "Verif.DataInf.C232_blocks",
    "Verif.DataInf.C232_runs",
    "Verif.DataInf.C232_layer_name",
    "Verif.DataInf.C232_prefix",
    "Verif.DataInf.C232_one_layer"
   ],
   "note": "Full characterisation over the reals; the regularisation is positive and the selected parameters have together at most as many entries as the model (names are not repeated)."
  },
  {
   "property": "C233",
   "status": "proved",
   "theorems": [
    "Verif.Modes.C233_default",
    "Verif.Modes.C233_dropout",
    "Verif.Modes.C233_fresh",
    "Verif.Modes.C233_raises",
    "Verif.Modes.C233_first",
    "Verif.Modes.C233_many",
    "Verif.Modes.C233_single",
    "Verif.Modes.C233_dvemb"
   ],
   "note": "Full characterisation. One model object, the one the loss functions call; weights are the subject of C218."
  },
  {
   "property": "C234",
   "status": "proved",
   "theorems": [
    "Verif.Mask.C234_gradients",
    "Verif.Mask.C234_trak",
    "Verif.Mask.C234_cg",
    "Verif.Mask.C234_lissa",
    "Verif.Mask.C234_inactive",
    "Verif.Mask.C234_inactive_scores",
    "Verif.Mask.C234_raises",
    "Verif.Mask.C234_order"
   ],
   "note": "The masks one sample (or one un-vectorised batch) meets in a forward pass are one numbered draw; what the loss computes for a draw is a parameter. That `vmap` without a randomness argument and `jacfwd` raise on random operations is PyTorch's documented behaviour and part of the model."
  },
  {
   "property": "C235",
   "status": "proved",
   "theorems": [
    "Verif.BlockIF.C235_logra",
    "Verif.BlockIF.C235_bound",
    "Verif.BlockIF.C235_two",
    "Verif.BlockIF.C235_self",
    "Verif.BlockIF.C235_all_scores"
   ],
   "note": "Same model and idealisation as C168: independent standard normal matrices for different layers and sides (dimension per factor at most 1000), the task's loss is the mean over the batch."
  },
  {
   "property": "C236",
   "status": "proved",
   "theorems": [
    "Verif.Tied.C236_names",
    "Verif.Tied.C236_values",
    "Verif.Tied.C236_length",
    "Verif.Tied.C236_layer_name",
    "Verif.Tied.C236_restricted",
    "Verif.Tied.C236_second_name",
    "Verif.Tied.C236_ekfac",
    "Verif.Tied.C236_load",
    "Verif.Tied.C236_gradient",
    "Verif.Tied.C236_score",
    "Verif.Tied.C236_inner",
    "Verif.Tied.C236_hooks"
   ],
   "note": "From PyTorch: named_parameters lists a tensor once under its first name, functional_call puts the value given for one name in all places sharing the tensor, state_dict lists all names, load_state_dict copies in order. The loss is a function of the values in all places that is differentiable in them. Names in a request are distinct."
  },
  {
   "property": "C237",
   "status": "proved",
   "theorems": [
    "Verif.Projection.C237_normal",
    "Verif.Projection.C237_rademacher",
    "Verif.Projection.C237_dimension_normal",
    "Verif.Projection.C237_dimension_rademacher"
   ],
   "note": "The entries of the matrix are independent standard normal variables, respectively uniform signs; the pseudo-random generator itself is idealised. Real arithmetic. Same exception as in C28: freed single-block matrix. Ensemble 0."
  },
  {
   "property": "C238",
   "status": "proved",
   "theorems": [
    "Verif.TracIn.C238_scores",
    "Verif.TracIn.C238_default",
    "Verif.TracIn.C238_identity",
    "Verif.TracIn.C238_refused",
    "Verif.TracIn.C238_mean",
    "Verif.TracIn.C238_close",
    "Verif.TracIn.C238_error"
   ],
   "note": "CPU. Finite gradients, real arithmetic. What a generator seeded with a number fills in is idealised as independent entries per seed, row and column; nothing is assumed about different checkpoints (their seeds overlap for more than 100 blocks), the bound does not need it."
  },
  {
   "property": "C239",
   "status": "proved",
   "theorems": [
    "Verif.TRAK.C239_features",
    "Verif.TRAK.C239_columns",
    "Verif.TRAK.C239_never",
    "Verif.TRAK.C239_almost",
    "Verif.TRAK.C239_default",
    "Verif.TRAK.C239_signs"
   ],
   "note": "Real arithmetic: torch.linalg.solve raises exactly on singular matrices (in floats a singular kernel may pass as a badly conditioned one). Finite gradients. CPU."
  },
  {
   "property": "C240",
   "status": "proved",
   "theorems": [
    "Verif.TracIn.C240_cosine"
   ],
   "note": "Real arithmetic, CPU. The scores are those of C238's model; unlike without normalisation their mean is not claimed to be the exact score."
  },
  {
   "property": "C241",
   "status": "proved",
   "theorems": [
    "Verif.TRAK.C241_parameters",
    "Verif.TRAK.C241_same",
    "Verif.TRAK.C241_samples",
    "Verif.TRAK.C241_itself",
    "Verif.TRAK.C241_self"
   ],
   "note": "Real arithmetic. When scores are returned is C239 (for normal projections: with probability one if the gradients are independent)."
  },
  {
   "property": "C242",
   "status": "proved",
   "theorems": [
    "Verif.TracIn.C242_value",
    "Verif.TracIn.C242_ties",
    "Verif.TracIn.C242_seeds"
   ],
   "note": "Idealised random numbers as in C238: independent standard normal entries for each seed, row and column; real arithmetic. The first checkpoint is singled out because with proj_dim above 10000 later checkpoints share blocks with it."
  },
  {
   "property": "C243",
   "status": "proved",
   "theorems": [
    "Verif.BlockIF.C243_layers",
    "Verif.BlockIF.C243_fisher",
    "Verif.BlockIF.C243_identity",
    "Verif.BlockIF.C243_bound",
    "Verif.BlockIF.C243_pairs",
    "Verif.BlockIF.C243_total",
    "Verif.BlockIF.C243_self"
   ],
   "note": "Exact arithmetic; a fresh cache directory; gradients after compression, taken as given. The damping of the other attributors is absolute, so their scores do depend on the units (C212)."
  },
  {
   "property": "C244",
   "status": "proved",
   "theorems": [
    "Verif.BlockIF.C244_basis",
    "Verif.BlockIF.C244_stretched"
   ],
   "note": "Exact arithmetic; a fresh cache directory; gradients after compression, taken as given."
  },
  {
   "property": "C245",
   "status": "proved",
   "theorems": [
    "Verif.BlockIF.C245_repeat"
   ],
   "note": "Exact arithmetic; gradients after compression are functions of the sample (the random compressors are set up once per attributor, but see C185 for what the gradients depend on)."
  },
  {
   "property": "C246",
   "status": "proved",
   "theorems": [
    "Verif.BlockIF.C246_damping",
    "Verif.BlockIF.C246_succeeds"
   ],
   "note": "Exact arithmetic; a fresh cache directory; gradients after compression, taken as given."
  },
  {
   "property": "C247",
   "status": "proved",
   "theorems": [
    "Verif.BlockIF.C247_kernel"
   ],
   "note": "Exact arithmetic; the test samples' gradients are those of the training samples (without a separate target function, C185); gradients after compression, taken as given."
  },
  {
   "property": "C248",
   "status": "proved",
   "theorems": [
    "Verif.BlockIF.C248_layers",
    "Verif.BlockIF.C248_order",
    "Verif.Compress.C248_compressors"
   ],
   "note": "Exact arithmetic; gradients after compression, taken as given. C248_compressors: the seeds of a layer's compressors do not depend on which other layers are chosen; that equal seeds give equal compressed gradients is not part of C248_layers. Each attributor has at least one layer of positive dimension."
  }
 ]
}