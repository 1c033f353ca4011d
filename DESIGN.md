# Formal model of dattri (TRAIS-Lab/dattri) in Lean 4

## Layout

* `lean/Verif/<Area>/*Model.lean` – shallow models of the Python functions. Every definition cites the file and lines of
  `/repo` it models and states simplifications.
* `lean/Verif/<Area>/*Spec.lean` – specifications that need more than a formula, independent of the model (smaller ones stand at
  the head of the property file).
* `lean/Verif/<Area>/*Lemmas.lean` – helper lemmas.
* `lean/Verif/<Area>/*Props.lean` – the property theorems (named `C01_...`), each with an `example` meeting its hypotheses.
* `properties.jsonl` – the properties; `MANIFEST.json` – property → theorem names; `seeded/LOG.jsonl` – mutation log.

Python exceptions are values (`Except Err`, `Option`); stateful objects are state machines `State × Except Err Out`; loops that may
not terminate take a fuel argument and the theorems say for which fuel they finish (or that they finish for none); threads are
interleavings of atomic steps; random draws are universally quantified parameters or averaged over.

## Trusted base

* The Lean 4.33.0 kernel, and the axioms printed by `#print axioms`: only `propext`, `Classical.choice`, `Quot.sound`. No own
  axioms, no `sorry`, no `native_decide`/`bv_decide`.
* The reading of the Python source into Lean definitions (the code is never executed here).
* Floating point is replaced by exact arithmetic in an (ordered) field (`ℚ`, `ℝ` or any field); NaN/inf produced by
  division by zero are modelled by `Option`/`Except` where a property is about them. Rounding is not modelled.
* PyTorch/NumPy/SciPy primitives (matmul, argsort, index assignment with broadcasting, DataLoader batching) are modelled by their
  documented meaning. `eigh` is a hypothesis (orthonormal eigenvectors) where needed. Autograd (the gradient of a user model) is a
  parameter, except where a property is about a gradient formula (linear layers, RPS objective), where the derivative is proved.
* Random generators are parameters: an arbitrary function of the seed, or an arbitrary outcome of the draw.
* Devices, dtypes, logging, progress bars and shuffle warnings are left out.

## Per property

The full statements are in `properties.jsonl`. Theorem names are relative to the namespace `Verif`.

| id | property | what is modelled | how it is proved | status | theorems |
|----|----------|------------------|------------------|--------|----------|
| C01 | KNN-Shapley returns exact Shapley values | `KNN/Model`: the whole `attribute` loop of data_shapley.py | Shapley value as a sum over subsets (`KNN/Spec`); difference of adjacent players by binomial sums; induction along the backward recursion | proved | `KNN.C01_knn_shapley_exact`, `KNN.C01_knn_shapley_exact_distinct` |
| C02 | KNN-Shapley with K larger than the training set | `KNN/Model`: the whole `attribute` loop of data_shapley.py | same recursion with K > N; difference to the additive game's value | proved | `KNN.C02_knn_shapley_large_K` |
| C03 | KNN-Shapley efficiency and placement | `KNN/Model`: the whole `attribute` loop of data_shapley.py | telescoping sum; block writes over all batch pairs | proved | `KNN.C03_knn_efficiency`, `KNN.C03_knn_batch_independent`, `KNN.C03_knn_label_mismatch` |
| C04 | Multi-checkpoint attribution is the mean over checkpoints | `Attr/Model`: checkpoint loop with in-place running mean (base.py) | induction over checkpoints | proved | `Attr.C04_checkpoint_mean` |
| C05 | Attribution is independent of batching | `Attr/Model`: double batch loop writing blocks | block-write lemmas (`Base/Blocks`); error branches by cases | proved | `Attr.C05_attribute_entry`, `Attr.C05_batch_independent`, `Attr.C05_rejects` |
| C06 | self_attribute of the inner-product attributor | `Attr/Model`: `self_attribute` | characterisation by number of batches | proved | `Attr.C06_self_single_batch`, `Attr.C06_self_is_diagonal`, `Attr.C06_self_multi_batch_raises`, `Attr.C06_self_batch_one_broadcasts`, `Attr.C06_self_relatif_raises`, `Attr.C06_self_refused` |
| C07 | attribute() without cache() is history dependent | `Attr/Model`: attributor as a state machine | induction over call histories; witness | proved | `Attr.C07_full_loader_of_history`, `Attr.C07_attribute_after_history`, `Attr.C07_agrees_if_same_transform`, `Attr.C07_history_dependent` |
| C08 | IHVP accumulation over the full training loader | `Attr/IFModel`: explicit/CG/LiSSA transform loop over the cached loader | induction over batches; matrix inverse algebra | proved | `Attr.C08_accumulates_sum`, `Attr.C08_explicit_sum`, `Attr.C08_explicit_single_batch`, `Attr.C08_explicit_scales_with_batches`, `Attr.C08_explicit_singular_raises`, `Attr.C08_explicit_attribute`, `Attr.C08_rebatching_changes_result` |
| C09 | TracIn is the checkpoint-weighted sum of gradient inner products | `TracIn/Model` | induction over checkpoints and batches | proved | `TracIn.C09_length_mismatch`, `TracIn.C09_tracin_entry`, `TracIn.C09_batch_independent` |
| C10 | TracIn self-attribution is the diagonal | `TracIn/Model`: `self_attribute` | same loops; comparison of closed forms | proved | `TracIn.C10_self_is_diagonal`, `TracIn.C10_self_unnormalized`, `TracIn.C10_self_normalized_constant` |
| C11 | TracIn normalised scores are bounded | `TracIn/Model` with `F.normalize`'s eps | Cauchy–Schwarz | proved | `TracIn.C11_normalized_bound`, `TracIn.C11_normalized_attained` |
| C12 | TRAK with cache equals TRAK without cache | `TRAK/Model`: cache / attribute | equality of the two computations including errors | proved | `TRAK.C12_cached_eq_uncached`, `TRAK.C12_value_errors`, `TRAK.C12_cache_succeeds` |
| C13 | TRAK scores are the ensemble formula | `TRAK/Model` | running means by induction; positive definiteness of the regularised Gram matrix | proved | `TRAK.C13_trak_entry`, `TRAK.C13_gram_nonsingular`, `TRAK.C13_unregularised_raises` |
| C14 | TRAK self_attribute | `TRAK/Model`: `self_attribute` | cases on the cached state | proved | `TRAK.C14_self_no_loader_raises`, `TRAK.C14_self_column`, `TRAK.C14_self_after_cache_raises` |
| C15 | DataInf transform is the averaged Sherman-Morrison inverse | `DataInf/Model` | Sherman–Morrison; NaN as `none` | proved | `DataInf.C15_datainf_layer`, `DataInf.C15_datainf_inverse`, `DataInf.C15_datainf_row`, `DataInf.C15_default_regularization_nonfinite` |
| C16 | DataInf is independent of chunking and of cached-gradient order | `DataInf/Model` | list permutations, append; witness | proved | `DataInf.C16_chunk_and_order_independent`, `DataInf.C16_cache_one_rep_per_batch`, `DataInf.C16_depends_on_cache_batch_size` |
| C17 | EK-FAC preconditioning solves the damped Kronecker-eigenbasis system | `EKFAC/Model`: transform | matrix algebra from the contract of `eigh`; end-to-end witness | proved | `EKFAC.C17_ekfac_solves`, `EKFAC.C17_ekfac_linear`, `EKFAC.C17_ekfac_symmetric`, `EKFAC.C17_row_convention`, `EKFAC.C17_column_convention_needs_transpose`, `EKFAC.C17_eigh_columns_wrong`, `EKFAC.C17_single_checkpoint` |
| C18 | EK-FAC bias layout | `EKFAC/Model`: flattening of weight and bias | index arithmetic | proved | `EKFAC.C18_layout`, `EKFAC.C18_bias_layout_iff` |
| C19 | EK-FAC covariance and lambda are pooled averages | `EKFAC/Stats`: hook caches and running averages | induction over batches | proved | `EKFAC.C19_covariance_pooled`, `EKFAC.C19_covariance_batching_independent`, `EKFAC.C19_lambda_pooled`, `EKFAC.C19_max_iter`, `EKFAC.C19_sequence_input_raises`, `EKFAC.C19_sequence_input_stale` |
| C20 | Random batch iterator partitions the samples | `EKFAC/Model`: `_random_batch_iterator` | permutation lemmas, for every draw | proved | `EKFAC.C20_random_batches` |
| C21 | CG tracks the true residual | `Hessian/CGModel` | loop invariant | proved | `Hessian.C21_residual` |
| C22 | CG solves the system exactly after n steps | `Hessian/CGModel` | orthogonality/conjugacy invariants; dimension count | proved | `Hessian.C22_cg_exact`, `Hessian.C22_orthogonal_conjugate` |
| C23 | CG breaks down once the residual is exactly zero | `Hessian/CGModel` | division by zero as `none` | proved | `Hessian.C23_breakdown`, `Hessian.C23_identity`, `Hessian.C22_cg_exact` |
| C24 | LiSSA computes a truncated Neumann series | `Hessian/LissaModel` | induction over steps; geometric series; limits | proved | `Hessian.C24_lissa_neumann`, `Hessian.C24_fixed_point`, `Hessian.C24_lissa_converges`, `Hessian.C24_errors`, `Hessian.C24_check_input_size` |
| C25 | ihvp_at_x_lissa ignores the caller's intent for num_repeat and batch_size | `Hessian/LissaModel`: wrapper passing arguments positionally | characterisation | proved | `Hessian.C25_swapped_iff`, `Hessian.C25_swapped` |
| C26 | Arnoldi iteration yields an orthonormal Krylov basis | `Hessian/ArnoldiModel` | Gram–Schmidt invariant; compression; witnesses | proved | `Hessian.C26_arnoldi`, `Hessian.C26_compression`, `Hessian.C26_distill_exact`, `Hessian.C26_exact`, `Hessian.C26_exact_full`, `Hessian.C26_norm_constant`, `Hessian.C26_norms`, `Hessian.C26_edge_cases` |
| C27 | BasicProjector: blocks and ensembles use distinct seeds | `Projection/BasicModel`: generator seeds | arithmetic | proved | `Projection.C27_seeds_distinct`, `Projection.C27_blocks_le_iff`, `Projection.C27_seed_collision`, `Projection.C27_shared_columns` |
| C28 | BasicProjector result does not depend on call history | `Projection/BasicModel` as a state machine | induction over call sequences | proved | `Projection.C28_history`, `Projection.C28_init_errors` |
| C29 | Random projections are linear and row-wise | `Projection/BasicModel`, `CudaModel` | linearity of sums | proved | `Projection.C29_rowwise_linear`, `Projection.C29_cuda_linear` |
| C30 | GraSS intermediate dimension is history dependent | `Projection/CudaModel`: GraSS dimensions | induction over call sequences | proved | `Projection.C30_dims`, `Projection.C30_dims_stable`, `Projection.C30_history_iff` |
| C31 | Parameter chunking covers all parameters and respects the limit | `Projection/ChunkModel`: `get_parameter_chunk_sizes` with fuel | loop invariants; divergence for every fuel | proved | `Projection.C31_chunks`, `Projection.C31_diverges`, `Projection.C31_limit` |
| C32 | Chunked dict projection agrees with chunk sizes | `Projection/ChunkModel`: `ChunkedCudaProjector` | index arithmetic over chunks | proved | `Projection.C32_dict_project`, `Projection.C32_large_batch_raises` |
| C33 | Flatten/unflatten round trip | `Task/FlattenModel` | round trips by induction over the parameter list | proved | `Task.C33_unflatten_flatten`, `Task.C33_flatten_unflatten`, `Task.C33_flatten_func` |
| C34 | partial_param contaminates the captured parameters | `Task/Model`: parameter cells with aliasing | invariants over call sequences | proved | `Task.C34_read_returns_evaluated_point`, `Task.C34_calls_independent`, `Task.C83_uses_loaded_checkpoint` |
| C35 | Task gradient-function cache never serves a stale function | `Task/Model`: memoised functions | invariant: memo entries are what recomputation gives; witness | proved | `Task.C35_memo`, `Task.C35_grad_func`, `Task.C35_stale_other_layers` |
| C36 | Checkpoint loading always leaves the requested checkpoint in the model | `Task/Model`: checkpoint loading | invariants over histories | proved | `Task.C36_loads`, `Task.C36_reload_exact`, `Task.C36_param_of_checkpoint`, `Task.C36_out_of_range` |
| C37 | Automatic parameter-layer map | `Task/LayerMapModel`: names as character lists | invariant of the loop | proved | `Task.C37_layer_map`, `Task.C37_nonadjacent`, `Task.C37_explicit_map` |
| C38 | AUC equals the Mann-Whitney statistic | `Metric/AUCModel` | sums over ranks | proved | `Metric.C38_auc_mann_whitney`, `Metric.C38_auc_range`, `Metric.C38_auc_scores`, `Metric.C38_auc_monotone_invariant` |
| C39 | ROC curve shape | `Metric/AUCModel` | induction over thresholds | proved | `Metric.C39_roc_errors`, `Metric.C39_roc_shape` |
| C40 | LDS invariances | `Metric/LDSModel`: rank function and Pearson formula | ranks depend on order only | proved | `Metric.C40_positive_scaling`, `Metric.C40_shift`, `Metric.C40_subset_order`, `Metric.C40_gt_increasing`, `Metric.C40_decreasing` |
| C41 | LDS is a correlation | `Metric/LDSModel` | Cauchy–Schwarz | proved | `Metric.C41_defined_iff`, `Metric.C41_range`, `Metric.C41_perfect`, `Metric.C41_symmetric`, `Metric.C41_index_error` |
| C42 | LOO ground truth is ordered by removed index | `Metric/RetrainModel`, `LDSModel` | sorting permutations | proved | `Retrain.C42_sorted_by_index`, `Retrain.C42_bad_name`, `Metric.C42_loo_corr_ignores_indices`, `Metric.C42_loo_corr_subset_raises`, `Metric.C42_loo_corr_full` |
| C43 | retrain_lds seeds are partition independent and distinct | `Metric/RetrainModel`: file-system effects of `retrain_lds` | interleavings of write traces | proved | `Retrain.C43_outcome`, `Retrain.C43_partition`, `Retrain.C43_same_as_sequential`, `Retrain.C43_seeds_distinct` |
| C44 | retrain_lds metadata completeness | `Metric/RetrainModel` | arithmetic on the completion condition; traces of parallel jobs | proved | `Retrain.C44_metadata_written_iff`, `Retrain.C44_complete_iff`, `Retrain.C44_parallel` |
| C45 | indices.txt round trip | `Metric/RetrainText`: decimal text files | digit round trip | proved | `Retrain.C45_indices_round_trip`, `Retrain.C45_injective` |
| C46 | LDS ground truth is the negated mean over runs | `Metric/RetrainModel` | means over runs | proved | `Retrain.C46_values`, `Retrain.C46_round_trip` |
| C47 | retrain_loo removes positions, one per directory | `Metric/RetrainModel` | list filtering | proved | `Retrain.C47_remaining`, `Retrain.C47_sampler_iff`, `Retrain.C47_round_trip` |
| C48 | brittleness returns the first flipping k | `Metric/BrittleModel` | first element of the search space satisfying the test | proved | `Brittle.C48_first_flip`, `Brittle.C48_smallest`, `Brittle.C48_not_smallest` |
| C49 | flip_label changes exactly the reported labels | `Bench/FlipModel` | for every draw | proved | `Flip.C49_flips_exactly`, `Flip.C49_default_space`, `Flip.C49_success_iff`, `Flip.C49_zero_raises`, `Flip.C49_numpy_raises`, `Flip.C49_tensor_space_keeps_label` |
| C50 | Backtracking line search terminates and guarantees descent | `RPS/Model`: line search with fuel | explicit bound on the number of halvings; Armijo condition | proved | `RPS.C50_terminates`, `RPS.C50_progress` |
| C51 | RPS fine-tuning keeps the best iterate | `RPS/Model`: fine-tuning loop | loop invariant | proved | `RPS.C51_best`, `RPS.C51_fails_iff`, `RPS.C51_finetune_theta` |
| C52 | DVEmb embeddings are products of one-step propagators | `DVEmb/Model`: caching and the reverse recursion | induction over steps; products of propagators (`DVEmb/Spec`) | proved | `DVEmb.C52_embedding`, `DVEmb.C52_product`, `DVEmb.C52_displacement` |
| C53 | DVEmb total embedding is the sum over epochs; per-epoch attribution splits it | `DVEmb/Model`: attribution | sums over epochs | proved | `DVEmb.C53_total`, `DVEmb.C53_unknown_epoch`, `DVEmb.C53_not_cached`, `DVEmb.C53_no_test_batch`, `DVEmb.C52_embedding` |
| C54 | DVEmb keeps stale epochs | `DVEmb/Model`: clear_cache and re-caching | state after histories | proved | `DVEmb.C54_stale` |
| C55 | Factorised gradient compression equals projecting the full gradient | `DVEmb/FactorModel`: DVEmb factor projection and block-projected compressor | Kronecker identity by sums; derivative of the layer's loss | proved | `DVEmb.C55_dvemb_2d`, `DVEmb.C55_dvemb_3d`, `DVEmb.C55_dvemb_layout`, `DVEmb.C55_compressor`, `DVEmb.C55_identity`, `DVEmb.C55_gradW_is_gradient`, `DVEmb.C55_bias_column` |
| C56 | Block-projected preconditioner is chunk invariant | `BlockIF/IFModel`: chunk accumulation and `stable_inverse` | sums over permutations; positive definiteness | proved | `BlockIF.C56_value`, `BlockIF.C56_invariant`, `BlockIF.C56_exists`, `BlockIF.C56_dead_layer` |
| C57 | Layer concatenation and splitting round trip | `BlockIF/ConcatModel` | list append/split | proved | `BlockIF.C57_round_trip`, `BlockIF.C57_first_batch`, `BlockIF.C57_all_empty`, `BlockIF.C57_missing`, `BlockIF.C57_test_zeros` |
| C58 | Sample-to-row mapping is a partition | `BlockIF/MetaModel` | invariant over all operations (`Reach`) | proved | `BlockIF.C58_fresh`, `BlockIF.C58_partition`, `BlockIF.C58_consecutive`, `BlockIF.C58_kept`, `BlockIF.C58_stale_tail`, `BlockIF.C58_total_batches`, `BlockIF.C58_added` |
| C59 | Metadata save is crash-atomic | `BlockIF/SaveModel`: file-system call traces | every prefix of the trace; interleavings of two writers | proved | `BlockIF.Save.C59_complete`, `BlockIF.Save.C59_crash`, `BlockIF.Save.C59_failure`, `BlockIF.Save.C59_recovery`, `BlockIF.Save.C59_two_writers` |
| C60 | Block-projected attribution entries | `BlockIF/IFModel`: cache and attribute on in-memory storage | dictionary invariants (`Stored`, `Ready`); disjoint block writes | proved | `BlockIF.C60_entries`, `BlockIF.C60_succeeds`, `BlockIF.C60_uncached`, `BlockIF.C60_batching`, `BlockIF.C60_empty_test` |
| C61 | Re-caching with an identity preconditioner serves stale results | `BlockIF/IFModel` | induction over call histories (`Hist`, `Call`, `Again`) | proved | `BlockIF.C61_identity`, `BlockIF.C61_frozen`, `BlockIF.C61_fisher` |
| C62 | Finalised disk writes are durable | `Disk/WriterModel`: transition system of one storing thread and a pool of writers over buffers, pending set, bounded queue and files; one action per access to shared data. | `Disk/WriterLemmas`: an invariant kept by every step of every schedule; `Disk/Discipline`: disciplined call sequences never flush a chunk twice; termination by a measure on outstanding write steps. | proved | `Disk.C62_durable`, `Disk.C62_disciplined`, `Disk.C62_returns` |
| C63 | Buffer overflow breaks the durability barrier | As C62. | A schedule given for all sizes and row contents (two batches of a chunk that together exceed the buffer), executed symbolically in segments. | proved | `Disk.C63_race` |
| C64 | Failed background write makes finalize hang | As C62; a writer's operation may raise at any time. | The invariant ties a failed chunk to its pending mark for ever; the masking run is a witness schedule for all sizes. | proved | `Disk.C64_hangs`, `Disk.C64_masked` |
| C65 | Prefetch chunk cache is coherent | Transition system of the reader, the prefetch thread, failing loads and rewritten files; one step per lock section and per load. | Invariant: cache, both threads and all answers hold contents the same chunk has had; the list of answers is tied to the list of calls; measure for progress; witnesses for staleness and for a cache with every chunk. | proved | `Disk.Prefetch.C65_coherent`, `Disk.Prefetch.C65_answers`, `Disk.Prefetch.C65_pass`, `Disk.Prefetch.C65_progress`, `Disk.Prefetch.C65_stale`, `Disk.Prefetch.C65_unbounded` |
| C66 | Chunk range loading selects the right rows | `load_chunk_batch_range` as a fold over the metadata entries producing row numbers, mapping and offset, then a row selection that raises on a missing row; `load_batch_slice`. | Fold invariants; the result is compared with a specification that reads batches through the mapping. Chunks with a batch listed twice and chunks that are too short are characterised separately. | proved | `Disk.C66_range`, `Disk.C66_whole`, `Disk.C66_rejects`, `Disk.C66_last_entry_wins`, `Disk.C66_slice` |
| C67 | Hooks restore the model | State machine of a model and any number of managers: creating, registering, removing, enabling, disabling; every module has its current and its saved forward. Calling a module is a recursion over wrappers with fuel. | Invariant over fair histories (no call touches a layer of another registered manager); for all histories the loss of the own forward is characterised by an induction; explicit overlapping histories for all layer lists. | proved | `Hook.C67_restored`, `Hook.C67_all_closed`, `Hook.C67_hooked_call`, `Hook.C67_slot`, `Hook.C67_lost_iff`, `Hook.C67_lost_for_ever`, `Hook.C67_overlap`, `Hook.C67_recursion`, `Hook.C67_double_remove`, `Hook.C67_sequential` |
| C68 | Layer compressor seeds can coincide | The seeds of the three projectors of a module, and the CPU projector of `Projection/` with these seeds. | Integer arithmetic; the coincidence of columns through the closed form of a projection (C28). | proved | `Compress.C68_layers_differ`, `Compress.C68_stages_coincide`, `Compress.C68_blocks_coincide`, `Compress.C68_columns_coincide`, `Compress.C68_small_apart` |
| C69 | Splitting nanoGPT retraining among jobs | The loop over models and configuration lines; lines as lists of characters, written numbers and paths as values. | Induction over the number of models; case analysis of prefixes. | proved | `NanoGPT.C69_runs`, `NanoGPT.C69_split`, `NanoGPT.C69_distinct`, `NanoGPT.C69_first_seed`, `NanoGPT.C69_ratio` |
| C70 | MIDI event code is a bijection on its vocabulary | `Event.to_int`, `Event.from_int` on integers. | Integer arithmetic by cases of the four kinds. | proved | `Midi.C70_round_trip`, `Midi.C70_injective`, `Midi.C70_onto` |
| C71 | Time-shift events add up to the rounded interval | `_make_time_sift_events` on rational times with Python's rounding (half to even). | Induction on the number of full shifts. | proved | `Midi.C71_sum` |
| C72 | MIDI encoding can lose a velocity change | `encode_midi` and `decode_midi` on lists of notes (sorting stable by start; times rational). | A trace of velocities and times carried along the encoded events; induction over the split notes. | proved | `Midi.C72_same_events`, `Midi.C72_velocity` |
| C73 | Sustain preprocessing drops and repeats notes | Pedal messages, the sweep over the notes for every sustain, and the managers of held notes, with notes as positions so that repeated references stay visible. | Induction over the sustains with the remaining notes general; the multiplicity of a note follows from the first sustain that reaches it. | proved | `Midi.C73_no_pedal`, `Midi.C73_dropped`, `Midi.C73_count`, `Midi.C73_each_once` |
| C74 | Sequence windows are next-token aligned | `process_midi` with the draw as parameter, the window table with its assertion. | List index arithmetic; `range` as a filter of multiples. | proved | `Windows.C74_aligned`, `Windows.C74_tokens`, `Windows.C74_table`, `Windows.C74_cover`, `Windows.C74_first_window_random` |
| C75 | Character blocks partition the corpus | `CustomDataset` on lists, indices not negative. | List index arithmetic. | proved | `Windows.C75_blocks`, `Windows.C75_padding`, `Windows.C75_rest`, `Windows.C75_no_end`, `Windows.C75_subset`, `Windows.C75_subset_fails` |
| C76 | Relative attention scores | One head: valid embeddings, mask with broadcasting, pad, reshape in row-major order, slice, in-place addition. | Division with remainder of the flat index. | proved | `Skew.C76_skew`, `Skew.C76_logits`, `Skew.C76_prefix`, `Skew.C76_defined` |
| C77 | CUDA projector is history independent | `Projection/CudaModel` as a state machine | induction over call sequences | proved | `Projection.C77_cuda_history` |
| C78 | Random projections preserve inner products on average | `Projection/BasicModel`, `CudaModel` | averages over the finite uniform sample space (`JLProps`) | proved | `Projection.C78_rademacher_unbiased`, `Projection.C78_sjlt_unbiased` |
| C79 | Random mask projection is not rescaled | `Projection/CudaModel`: random mask | average over all masks | proved | `Projection.C79_mask_scaled` |
| C80 | Arnoldi projector represents the Arnoldi influence form | `Projection/ArnoldiProjModel` | algebra on the distilled eigenpairs | proved | `Projection.C80_inner_products`, `Projection.C80_columns`, `Projection.C80_adjusted` |
| C81 | Accepted projection type strings | `Projection/ParseModel` | string parsing by cases | proved | `Projection.C81_parse`, `Projection.C81_cpu`, `Projection.C81_cuda`, `Projection.C81_selected`, `Projection.C81_enum_raises` |
| C82 | Layer selection drops unknown names and mistreats strings | `Task/LayerMapModel`, `Task/Model` | list filtering; characters of a string | proved | `Task.C82_string_layer_name`, `Task.C82_unknown_names_dropped`, `Task.C82_default` |
| C83 | Layer-restricted functions follow the loaded checkpoint | `Task/Model` | invariants over histories | proved | `Task.C83_uses_loaded_checkpoint` |
| C84 | LDS ground truth follows the recorded directories | `Metric/RetrainModel` | the reader only looks at recorded paths | proved | `Retrain.C84_reads_recorded_directories`, `Retrain.C84_moved` |
| C85 | brittleness inputs | `Metric/BrittleModel` | error branches | proved | `Brittle.C85_matrix_scores`, `Brittle.C85_sampler` |
| C86 | RPS scores decompose the fine-tuned pre-activation, scaled by 1/n | `RPS/Model` | chain rule for the objective; decomposition of the pre-activation | proved | `RPS.C86_decomposition`, `RPS.C86_objGrad_is_gradient`, `RPS.C86_at_minimum`, `RPS.C86_normalized_bound`, `RPS.C86_class` |
| C87 | RPS: which fine-tuned weights an attribution uses | `RPS/Model`: attributor state machine | states after success and failure of cache | proved | `RPS.C87_weights`, `RPS.C87_failed_cache` |
| C88 | DVEmb cache with external gradients empties the caller's dictionaries | `DVEmb/Model` | aliasing of the caller's dictionaries | proved | `DVEmb.C88_caller_cleared`, `DVEmb.C88_caller_kept`, `DVEmb.C88_needs_indices` |
| C89 | DVEmb factor projections: shared projector on square layers | `DVEmb/FactorModel` | symmetric part of the Kronecker product | proved | `DVEmb.C89_same_projector`, `DVEmb.C89_symmetric_part`, `DVEmb.C89_invisible` |
| C90 | DVEmb needs an epoch numbered zero | `DVEmb/Model` | dictionary lookup of epoch 0 | proved | `DVEmb.C90_no_epoch_zero` |
| C91 | Re-caching fewer batches keeps the old tail | `BlockIF/IFModel` | induction over histories (`Hist`) | proved | `BlockIF.C91_merged`, `BlockIF.C91_stale_tail` |
| C92 | Identity re-caching of a longer loader gives zero rows | `BlockIF/IFModel` | cells untouched by the score loop stay zero | proved | `BlockIF.C92_zero_rows` |
| C93 | Block-projected self-influence | `BlockIF/SelfModel` | alignment of the two zipped chunk loaders | proved | `BlockIF.C93_fisher`, `BlockIF.C93_diagonal`, `BlockIF.C93_stale` |
| C94 | A chunk opened without rows blocks finalising for ever | The writer transition system of C62; `write_chunk` on a chunk without entries raises. | Invariant over all schedules: an opened chunk without stored rows is in the buffers, in a task or marked pending for ever. | proved | `Disk.C94_hangs`, `Disk.C94_reached` |
| C95 | Without a batch range nothing reaches the disk | The writer transition system of C62 with no `start_batch_range`. | Induction over schedules; completeness of a chunk needs a range. | proved | `Disk.C95_nothing_written` |
| C96 | Disk storage round trip is exact | The writer transition system of C62 from an empty disk, followed by the reading side: listing, range loading, collating and one pass of the loader. | Whole-history invariant `Ex` (buffers, tasks and files contain stored batches exactly, file names are unique per chunk, nothing stored is lost) on top of the invariant of C62; then list lemmas on the loader up to permutation. Disciplined use is reduced to the hypothesis by an invariant on the history. | proved | `Disk.C96_files`, `Disk.C96_round_trip`, `Disk.C96_disciplined` |
| C97 | Chunk files of an earlier run are never removed | As C96, from an arbitrary disk. | Induction over schedules for the first theorem; an explicit run for all rows and sizes for the second. | proved | `Disk.C97_never_removed`, `Disk.C97_left_over` |
| C98 | The prefetch thread of a dropped loader never stops | As C65, with the caller's reference and the finaliser; the running thread refers to the data set through its bound target. | Invariant over all schedules: not stopped and running. | proved | `Disk.Prefetch.C98_never_ends` |
| C99 | Layers applied more than once in a batch | Captured inputs and gradients of a manager; a batch is its list of forward and its list of backward visits. | Induction over the visits. | proved | `Hook.C99_reused_layer`, `Hook.C99_last_input` |
| C100 | A layer skipped by a batch keeps an earlier batch's gradient | As C99, over a list of batches. | Induction over the batches with an arbitrary initial capture state. | proved | `Hook.C100_stale_layer`, `Hook.C100_own_iff` |
| C101 | A failed call leaves the model patched | Worlds of attributors over the state machine of C67; a call raises before, during or after its hooks are installed. | Invariant over all histories of calls, on top of the invariant of C67; explicit histories for shared layers. | proved | `Hook.C101_left_patched`, `Hook.C101_manager`, `Hook.C101_shared_lost`, `Hook.C101_shared_broken` |
| C102 | Which layers are compressed | The loop over the modules of a model, branch by branch. | Induction over the modules from the right. | proved | `Compress.C102_setup`, `Compress.C102_explicit` |
| C103 | Admissible dimensions and ignored options of LoGra and FactGraSS | Both constructors. | Case analysis and the integer square root. | proved | `Compress.C103_logra`, `Compress.C103_factgrass`, `Compress.C103_rejected` |
| C104 | Encoded MIDI tokens are in the vocabulary | As C72. | Induction over the split notes. | proved | `Midi.C104_tokens` |
| C105 | Rounding of MIDI times accumulates | As C72. | Bounds by induction over the events. | proved | `Midi.C105_drift`, `Midi.C105_exact`, `Midi.C105_vanishes`, `Midi.C105_any_length` |
| C106 | MIDI round trip | As C72, with the merging of starts and ends. | Simulation of the merge with the dictionary of open notes; restriction to one pitch. | proved | `Midi.C106_round_trip` |
| C107 | When the sustain pedal counts as pressed | The state machine over pedal messages. | Every list is decomposed into uses (induction from the right); fold over the uses. | proved | `Midi.C107_uses`, `Midi.C107_every_list`, `Midi.C107_ordered` |
| C108 | How long notes sound under the pedal | As C73. | As C73, with the scan of the held notes from the last to the first. | proved | `Midi.C108_ends` |
| C109 | Blocks recorded for a nanoGPT model | `initialize_indices` with the permutation as parameter; the training loop as in C110. | Corollary of the schedule of C110. | proved | `NanoGPT.C109_recorded`, `NanoGPT.C109_tail_unused`, `NanoGPT.C109_small` |
| C110 | Evaluations use up training batches | `get_batch_indices`, the evaluation, the micro steps and the prefetch as a state machine over iterations. | Closed form of the counter after any number of fetches; induction over iterations. | proved | `NanoGPT.C110_schedule`, `NanoGPT.C110_no_evaluation`, `NanoGPT.C110_starved` |
| C111 | Cutting training batches out of the corpus | The two `torch.stack` calls on lists. | Lengths of slices. | proved | `NanoGPT.C111_batch`, `NanoGPT.C111_fails` |
| C112 | Which nanoGPT checkpoint is kept | The evaluations as a fold over iterations. | Invariant: best loss so far and its first iteration. | proved | `NanoGPT.C112_best`, `NanoGPT.C112_none`, `NanoGPT.C112_always` |
| C113 | Learning rate schedule of nanoGPT | `get_lr` over the reals (floats not modelled). | Monotonicity of the cosine on [0, pi]. | proved | `NanoGPT.C113_defined`, `NanoGPT.C113_bounds`, `NanoGPT.C113_ends`, `NanoGPT.C113_monotone` |
| C114 | Which models the leave-one-out command trains | The argument parser, `main` and `retrain_loo` composed. | List of calls computed in closed form; positions from C43's model. | proved | `Cli.C114_loo`, `Cli.C114_default`, `Cli.C114_too_many`, `Cli.C114_split` |
| C115 | Which subsets the LDS command trains on | As C114 for `retrain_lds`. | Uses the directory model of C44. | proved | `Cli.C115_command`, `Cli.C115_machines`, `Cli.C115_default` |
| C116 | Format of the partition argument | `partition_type` on lists of characters: split at commas, strip, lower case, `int`. | Lemmas on split and strip; decimal round trip of integers. | proved | `Cli.C116_accepts`, `Cli.C116_rejects`, `Cli.C116_brackets`, `Cli.C116_round_trip` |
| C117 | Extra parameters on the command line | `key_value_pair`, the dictionary of pairs and Python's keyword call. | Case analysis; the last pair of a key. | proved | `Cli.C117_pair`, `Cli.C117_names`, `Cli.C117_ratio` |
| C118 | Attribution after a failed cache | The caching and attribution model of C93 with the Cholesky failure as an exception. | The fold over layers stops at the first singular one; the state left behind is computed. | proved | `BlockIF.C118_after_failure` |
| C119 | Activating dropout layers | `activate_dropout` as nested folds over (name, class, mode, probability). | Induction over modules and positions. | proved | `Dropout.C119_all`, `Dropout.C119_selected`, `Dropout.C119_raises` |
| C120 | Which MusicTransformer a training returns | The loop with its best values; the only model object enters by its state, the alias by a flag. | Loop invariant over evaluations. | proved | `Maestro.C120_last`, `Maestro.C120_errors`, `Maestro.C120_not_best` |
| C121 | Evaluation of the MusicTransformer | `eval_model` and `compute_epiano_accuracy` on (prediction, loss, target) with a value for not-a-number. | Sums over lists. | proved | `Maestro.C121_average`, `Maestro.C121_equal` |
| C122 | Learning rate schedule of the MusicTransformer | `LrStepTracker` over the reals with the exceptions of `math.sqrt` and division. | Monotonicity of square roots. | proved | `MusicLoss.C122_defined`, `MusicLoss.C122_formula`, `MusicLoss.C122_shape`, `MusicLoss.C122_first` |
| C123 | Blocks of WikiText-2 | `group_texts` on lists under a batched map. | Chunks of a list; floor division. | proved | `Texts.C123_blocks`, `Texts.C123_lost`, `Texts.C123_block_size` |
| C124 | The CIFAR-2 subset | The relabelling loop by recursion, the subset with its two label sources. | Induction over the labels. | proved | `Texts.C124_selection`, `Texts.C124_labels`, `Texts.C124_twice` |
| C125 | The smoothed cross entropy | `forward` on rows of reals. | Sums over classes. | proved | `MusicLoss.C125_value`, `MusicLoss.C125_row`, `MusicLoss.C125_smoothing`, `MusicLoss.C125_outside` |
| C126 | Relative influence | `_compute_denom` over the reals on top of the accumulation loop; subclasses of the inner-product attributor. | `C05` for the loop; Cauchy-Schwarz in the Euclidean and in a semidefinite form. | proved | `Attr.C126_scores`, `Attr.C126_errors`, `Attr.C126_ignored`, `Attr.C126_theta_bound`, `Attr.C126_l_bound`, `Attr.C126_batches`, `Attr.C126_floor`, `Attr.C126_explicit` |
| C127 | Arnoldi influence attributor | `cache` with the kinds of batches, the projector as Arnoldi run plus eigenspace, `attribute` with its look-up. | Concatenation of batches; `C26` and `C80` for the projector. | proved | `Attr.C127_cache`, `Attr.C127_batch_independent`, `Attr.C127_scores`, `Attr.C127_uncached`, `Attr.C127_ratio`, `Attr.C127_stable` |
| C128 | Explicit inverse Fisher products | `ifvp_explicit` and `ifvp_at_x_explicit` with `g @ g.T` for one- and two-dimensional gradients and the broadcast addition. | Closed form of the rank-one update; uniqueness of solutions. | proved | `Hessian.C128_flat`, `Hessian.C128_documented_iff`, `Hessian.C128_flat_unregularised`, `Hessian.C128_matrix` |
| C129 | Recording a training step with the DVEmb context manager | Hook calls as a list of events, captured gradients as references into a memory scaled in place, the four dictionaries, the `finally` block. | Induction over events and layers; counting of shared references. | proved | `DVEmb.C129_captured`, `DVEmb.C129_scaling`, `DVEmb.C129_same_as_direct`, `DVEmb.C129_shared`, `DVEmb.C129_failed_step`, `DVEmb.C129_errors` |
| C130 | Reading stored batches back one by one | The three look-ups (buffer, read cache, files in order of their first batch), access times, eviction. | Invariant: cached chunks are contents of files; `C96_files` for what the files hold; induction over requests. | proved | `Disk.C130_coherent`, `Disk.C130_round_trip`, `Disk.C130_bound`, `Disk.C130_lru`, `Disk.C130_missing`, `Disk.C130_stale`, `Disk.C130_pending`, `Disk.C130_left_over` |
| C131 | Disk storage gives the same scores as in-memory storage | `BlockIF/DiskModel` puts the loops of `BlockIF/IFModel` over the items of `Disk/ReadModel`; storing goes through the state machine of `Disk/WriterModel`. In-memory storage is `attribute'` of `BlockIF/IFModel`. | The invariant of C96 is extended: a chunk tensor is the concatenation of its entries. A pass of either loader presents the stored batches and nothing else; the accumulated matrices, the preconditioned rows and the score matrix are shown to depend only on the batches presented. | proved | `BlockIF.C131_same_scores`, `BlockIF.C131_reachable` |
| C132 | Preconditioners come back from storage as stored, or are silently left out | `BlockIF/PrecondModel`: slots of the in-memory managers; for the disk manager the files and the saves submitted to the executor, with steps store, finish, raise and wait; the calls of `store_preconditioner` made by `compute_preconditioners`. | Invariant over all schedules: the files after carrying out the unfinished saves in order are what was last stored; for schedules with failures a second invariant tracks the layers lost. The scores then follow layer by layer. | proved | `Precond.C132_memory`, `Precond.C132_disk`, `Precond.C132_race`, `Precond.C132_lost`, `Precond.C132_none_kept`, `BlockIF.C132_round_trip`, `BlockIF.C132_lost_scores` |
| C133 | Hessian-vector products | `Hessian/HvpModel`: `grad`, `vjp`, `jvp`, `hessian` as Frechet derivatives, the patching of the tangent, both modes. | Symmetry of the second derivative (Mathlib) identifies the two modes; linearity turns directional derivatives into a matrix product. | proved | `Hessian.C133_arg`, `Hessian.C133_value`, `Hessian.C133_negative`, `Hessian.C133_mode`, `Hessian.C133_hessian`, `Hessian.C133_inverse` |
| C134 | LiSSA is right on average, up to the batch loss | The recursion of `Hessian/LissaModel` with the permutations as explicit input; expectation is the mean over all sequences of permutations. | Induction over the recursion depth, splitting off the last draw; the mean over permutations of a sample at a fixed position is the mean over samples by symmetry. | proved | `Hessian.C134_mean`, `Hessian.C134_mean_loss`, `Hessian.C134_sum_loss`, `Hessian.C134_unbiased` |
| C135 | The language model predicts each token from its past only | `Bench/GPTModel`: embeddings, blocks of layer norm, attention (both implementations) and MLP with an arbitrary activation, tied head, loss, crop_block_size. | The attention sum equals the sum over positions up to the query, so equality of all rows up to a position is an invariant of the blocks; the loss by induction over the batch. | proved | `GPT.C135_errors`, `GPT.C135_causal`, `GPT.C135_infer`, `GPT.C135_prob`, `GPT.C135_loss`, `GPT.C135_attention`, `GPT.C135_formula`, `GPT.C135_crop` |
| C136 | Sampling follows the truncated next-token distribution | `Bench/GPTGenModel`: window, temperature, top-k threshold from the sorted values, softmax; generation as the list of results with probabilities. | Counting in a descending list characterises the threshold; induction over the number of tokens. | proved | `GPT.C136_next`, `GPT.C136_window`, `GPT.C136_errors`, `GPT.C136_generate`, `GPT.C136_greedy` |
| C137 | Every trainable parameter is optimised once, matrices with decay | `Bench/GPTGenModel`: names and parameter objects registered by `__init__`, named_parameters, groups, counts. | Counts of an object through de-duplication and filters; explicit de-duplicated list of the network. | proved | `GPT.C137_groups`, `GPT.C137_decayed`, `GPT.C137_count` |
| C138 | The music model treats sequences separately and in time order | `Bench/MusicNetModel`: embeddings, positional encoding, layers with views of heads and `Skew.logits`, norms, output layer. | The indices of the views determine head and batch; `Skew` lemmas give the relative scores; the equality with the one-sequence specification is an invariant of the layers. | proved | `Music.C138_separate`, `Music.C138_causal`, `Music.C138_errors` |
| C139 | Music generation follows the model's next-token distribution | `Bench/MusicGenModel`: softmax of the last position, slice, beam decision, sampling as list of results with probabilities, sliding window of generate.py. | Induction over the number of tokens; division with remainder by 388 and 390 for the beam. | proved | `Music.C139_sample`, `Music.C139_too_long`, `Music.C139_primer_long`, `Music.C139_greedy`, `Music.C139_beam_step`, `Music.C139_beam_sample`, `Music.C139_main` |
| C140 | Explicit influence scores are minus the effect of up-weighting | `Attr/DerivModel`: `explicitSub` of C08 with gradients and Hessians the derivatives (`fderiv`) of the loss and target functions. | Implicit function theorem for the gradient of the weighted objective; symmetry of the second derivative; `C08_explicit_attribute`; convexity for the minimisers. | proved | `Attr.C140_if_is_derivative`, `Attr.C140_single`, `Attr.C140_retrained`, `Attr.C140_minimisers` |
| C141 | TracIn scores are first-order decreases of the target | `Attr/DerivModel`: the TracIn attributor of C09 with gradients the derivatives of loss and target. | Chain rule and `C09_tracin_entry`. | proved | `Attr.C141_tracin_is_step_effect` |
| C142 | DVEmb scores are the effect of a sample's weight on the trained model | `DVEmb/DerivModel`: the `cache_gradients` call of an SGD step; `DVEmb/Model` for the rest. | Induction over the steps (derivative of a step by the product and chain rule), then the recursion is shown equal to `specEmb` of C52. | proved | `DVEmb.C142_score`, `DVEmb.C142_sensitivity`, `DVEmb.C142_needs_outer` |
| C143 | In-memory storage returns what was last stored | `BlockIF/OffloadModel`: the manager as state with three dictionaries, dimensions and preconditioners; `concat`, `split`, `collate` of the earlier models. | Invariant over all call sequences relating the dictionaries to the last stored values; C57 for one batch. | proved | `BlockIF.C143_retrieve`, `BlockIF.C143_preconditioner`, `BlockIF.C143_loader`, `BlockIF.C143_dims_fixed`, `BlockIF.C143_other_width`, `BlockIF.C143_width_one` |
| C144 | Scores are derivatives of retraining, for convex losses | Attributor of a task with a loss function as in C140. | Convexity gives a positive semidefinite Hessian (monotone derivative along lines), hence an invertible regularised Hessian; coercivity gives existence, strict convexity uniqueness; then C140. | proved | `Attr.C144_scores_are_retraining_derivatives`, `Attr.C144_removed` |
| C145 | Logistic regression benchmark: scores are exact retraining derivatives | `Bench/LogRegModel`: linear layer on the flat parameter vector, log-softmax, mean cross-entropy. | Log-sum-exp is convex (convexity of exp), the loss is smooth and non-negative; instance of C144. | proved | `LogReg.C145_logistic_regression` |
| C146 | Logistic regression needs regularisation | As C145. | Adding a constant to all biases leaves the loss unchanged, so the Hessian has a null vector. | proved | `LogReg.C146_default_regularisation_raises`, `LogReg.C146_positive_regularisation` |
| C147 | Loading a benchmark: requests and result | `Bench/LoadModel`: file system (directories, files) and server (an answer for the k-th request) as explicit state; URLs and file names computed as in the code. | Invariant over all call sequences: directories and files are determined by the exchanges with the server. | proved | `LoadBench.C147_unsupported`, `LoadBench.C147_no_request`, `LoadBench.C147_requests`, `LoadBench.C147_addresses`, `LoadBench.C147_result`, `LoadBench.C147_never` |
| C148 | Loading a benchmark: what a download leaves behind | As C147. | Same invariant; calls for other combinations change other parts of the tree. | proved | `LoadBench.C148_permanent`, `LoadBench.C148_failed_download`, `LoadBench.C148_stale_folders`, `LoadBench.C148_checkpoints_exist` |
| C149 | Per-example losses of the MNIST benchmarks | `Bench/LossModel`: cross entropy with ignored and invalid labels, the loop over the loader, both networks on batches with the `view` calls. | Cross entropy of a batch is shown to be example-wise; for the perceptron the number of rows after `view` equals the number of labels only if images have the right size. | proved | `BenchLoss.C149_logistic`, `BenchLoss.C149_mlp`, `BenchLoss.C149_batching` |
| C150 | The ImageNet loss depends on the batches | `Bench/LossModel`: the accumulation of `loss_imagenet_resnet18`. | Sum over the fold; strict monotonicity for the two equivalences. | proved | `BenchLoss.C150_value`, `BenchLoss.C150_equal_batches`, `BenchLoss.C150_mean`, `BenchLoss.C150_sum` |
| C151 | Ground truth from the benchmark losses | `Bench/LossModel`: loading of weights (path or object, state dictionary or module), the in-place addition with broadcasting, one row of the ground truth; `Bench/MusicNetModel` for MAESTRO. | Induction over the runs; C138 for the separation of sequences. | proved | `BenchLoss.C151_logistic`, `BenchLoss.C151_mlp`, `BenchLoss.C151_imagenet`, `BenchLoss.C151_wikitext`, `BenchLoss.C151_maestro_values`, `BenchLoss.C151_maestro`, `BenchLoss.C151_loo` |
| C152 | Data value embeddings of the benchmark trainings | `Bench/TrainModel`: `torch.optim.SGD` with momentum and weight decay, the epoch loop. | The loop without momentum is shown equal to the training of C142, whose hypothesis is weakened to the steps after the first use; a computed witness for momentum. | proved | `Train.C152_logistic`, `Train.C152_last_step`, `Train.C152_momentum`, `Train.C152_empty` |
| C153 | ResNet-9 treats images one by one when evaluated, not when trained | `Bench/ResNetModel`: convolution with stride and padding, batch normalisation in both modes with the running statistics, dropout with given draws, the blocks and the network, `loss_cifar_resnet9`. | Each layer maps the images of a batch by one function, which in training mode depends on the batch up to permutation; composed through the network. Computed witness on images of one pixel. | proved | `ResNet.C153_eval`, `ResNet.C153_loss`, `ResNet.C153_batching`, `ResNet.C153_train`, `ResNet.C153_train_small`, `ResNet.C153_train_depends` |
| C154 | A score that predicts retraining gets a perfect evaluation | `Metric/EvalModel`: the pipelines, composed from the models of the retraining, ground-truth and metric functions. | Round trips C46 and C47 give the columns entering the correlation; C41 and the affine case of Pearson give the value. | proved | `Metric.C154_lds`, `Metric.C154_no_runs`, `Metric.C154_loo`, `Metric.C154_additive` |
| C155 | How far projected inner products are from the true ones | `Projection/BasicModel`, `CudaModel`. | Fourth moments of independent signs: of the products of two off-diagonal pairs only equal and swapped pairs survive; two coordinates share a bucket in one draw of `proj_dim`. Chebyshev and a union bound (`JLVarProps`). | proved | `Projection.C155_rademacher`, `Projection.C155_sjlt`, `Projection.C155_all_scores` |
| C156 | How close conjugate-gradient scores are | `Hessian/CGModel`; `Attr/CGAttrModel`: transform_test_rep with ihvp_cg per cached batch. | The iterate minimises the energy over the Krylov space, so it beats every polynomial with value 1 at 0; the scaled Chebyshev polynomial gives the rate through the spectral theorem; Cauchy-Schwarz carries it to the scores, and C08 and C144 to the explicit attributor and to retraining. | proved | `Hessian.C156_rate`, `Hessian.C156_inner`, `Attr.C156_against_explicit`, `Attr.C156_against_retraining`, `Attr.C156_finite` |
| C157 | One projection for all batches of a width | `Projection/RandomModel`: parameter widths, type check, choice of projector, and the calls of the returned function with the projector state they leave behind. | The state after any history is one reached by the projector models, so C28 and C77 give the rows; C31 and C32 for the chunks. | proved | `Projection.C157_cpu`, `Projection.C157_cuda`, `Projection.C157_chunked`, `Projection.C157_wrong_batch_size`, `Projection.C157_refused` |
| C158 | Masks and identities on wide features | `Projection/RandomModel`. | Width of a chunk result against the in-place addition; the same closed form of the chunked call as in C157. | proved | `Projection.C158_mask`, `Projection.C158_identity` |
| C159 | EK-FAC eigenvalues are the best for the stored bases | `EKFAC/Model`: estimateLambda and ifvp. | C19 gives the pooled mean; rotation by an orthogonal matrix keeps the sum of squares, so the distance splits into the off-diagonal part and the distance of the eigenvalues (Pythagoras). | proved | `EKFAC.C159_pythagoras`, `EKFAC.C159_best`, `EKFAC.C159_trace`, `EKFAC.C159_solves` |
| C160 | DataInf overestimates self-influence | `DataInf/Model`: transformLayer. | Completing the square for every cached gradient at the exact solution. | proved | `DataInf.C160_gap`, `DataInf.C160_over`, `DataInf.C160_exact_iff` |
| C161 | When LiSSA converges | `Hessian/LissaModel`: ihvpLissa. | Closed form of C24, spectral theorem and geometric series; necessity by running on an eigenvector; C134 for the expectation; contraction per step for the bound. | proved | `Hessian.C161_converges_iff`, `Hessian.C161_undamped_iff`, `Hessian.C161_limit`, `Hessian.C161_mean_iff`, `Hessian.C161_bounded` |
| C162 | Attributors sharing a directory | `BlockIF/IFModel` and `MetaModel`; the histories are the inductive predicate Dir. | Invariant: the file describes consecutive batches of the recorded sizes (Layout); the score loops with broadcasting of one-row batches and the raising case. | proved | `BlockIF.C162_outcome`, `BlockIF.C162_caching`, `BlockIF.C162_dims`, `BlockIF.C162_stale_rows`, `BlockIF.C162_same_sizes` |
| C163 | Where offload keeps tensors | `BlockIF/DeviceModel`: both managers with a device on every tensor. | Forgetting the devices is a simulation onto the store of C143 (`OffloadModel`); invariant: batches are at home, preconditioners as last given. | proved | `BlockIF.C163_values`, `BlockIF.C163_storage`, `BlockIF.C163_retrieved`, `BlockIF.C163_loaders`, `BlockIF.C163_creation` |
| C164 | Scores with loaders that drop the last batch | `Base/DropLoader`, `Attr/DropModel`: the pair loop over the yielded batches only, with places computed from `len(sampler)`. | Block-wise accumulation over a part of the blocks; related to the models of C05 and C09 on the yielded samples. | proved | `Attr.C164_inner_product`, `TracIn.C164_tracin` |
| C165 | KNN-Shapley with loaders that drop the last batch | `KNN/DropModel`: the fitting loop with the label lists that are extended until their length equals the size of the sampler. | Invariant of the loop over test batches: collected labels are a repetition of the yielded ones, never of the right length; the row recursion is the one of C01. | proved | `KNN.C165_errors`, `KNN.C165_mismatch`, `KNN.C165_values` |
| C166 | Trainings with momentum and weight decay | `Bench/TrainModel`: the training loop with `torch.optim.SGD`. | Derivative of the penalty; invariant of the steps: the buffer is the weighted sum of past gradients. | proved | `Train.C166_weight_decay`, `Train.C166_imagenet`, `Train.C166_momentum`, `Train.C166_mlp_cifar` |
| C167 | The default normal projection keeps inner products | `Projection/BasicModel` with the generator's output as an arbitrary matrix; `Projection/NormalProps` puts the product of standard normal laws on it. | Moments of linear forms from the derivatives of the moment generating function, mixed fourth moments by polarisation, Chebyshev's inequality and a union bound. | proved | `Projection.C167_normal`, `Projection.C167_all_scores` |
| C168 | LoGra scores are unbiased | `BlockIF/MeanProps`: the layers' factors, the projector matrices and the loaders of compressed gradients; the attributor's model of C60. | C55 makes the compressed gradient a bilinear form in two independent columns; its second moment is computed; C60 gives the entries. | proved | `BlockIF.C168_projector`, `BlockIF.C168_logra` |
| C169 | Projected DVEmb gradients are biased in square layers | `DVEmb/FactorModel`: `setupProjectors`, `kronecker`, `elementwise`. | Fourth moments of one matrix's columns. | proved | `DVEmb.C169_kronecker`, `DVEmb.C169_elementwise`, `DVEmb.C169_independent_kronecker`, `DVEmb.C169_independent_elementwise` |
| C170 | Which layer names can be cached | `BlockIF/NamesModel`: resolving names to modules, the hook slots, the compressor set-up and the cache loop. | Induction over the batches with the slots left by the hooks as state. | proved | `BlockIF.C170_unsupported`, `BlockIF.C170_refused`, `BlockIF.C170_accepted`, `BlockIF.C170_iff`, `BlockIF.C170_default` |
| C171 | FactGraSS scores weigh layers by how much of them the masks keep | `BlockIF/GrassProps`: masks, second-stage projectors and loaders of compressed gradients; the attributor's model of C60. | Averages over masks factor the quadratic form; the second stage is unbiased. | proved | `BlockIF.C171_projector`, `BlockIF.C171_second_stage`, `BlockIF.C171_factgrass` |
| C172 | Signs and order of KNN-Shapley values | `KNN/Model`. | Downward induction over the ranks with non-increasing step weights. | proved | `KNN.C172_sign`, `KNN.C172_order`, `KNN.C172_large_K` |
| C173 | Influence scores and actual leave-one-out for least squares | `Attr/DerivModel`: gradients and Hessians of the task's losses as derivatives. | Derivatives of the quadratic loss; Sherman-Morrison for the retrained model; completing the square for uniqueness. | proved | `Attr.C173_leave_one_out` |
| C174 | The formulas of the nanoGPT network and the size of its logits | `Bench/GPTModel`. | Induction over the blocks against equations on entries; one squared deviation is at most the sum. | proved | `GPT.C174_norm`, `GPT.C174_network`, `GPT.C174_bounded` |
| C175 | Waiting until a chunk is written | `Disk/WaitModel`: writer as a list of file operations, reader as turns placed between them. | The files at every time of a write; case analysis of a turn, induction over the turns. | proved | `Disk.Wait.C175_new_turn`, `Disk.Wait.C175_new`, `Disk.Wait.C175_rewrite`, `Disk.Wait.C175_raises`, `Disk.Wait.C175_any_files` |
| C176 | Iterating over stored gradients with transfers to the device | `Disk/OverlapModel`: the trace of transfers, waits and hand-overs. | Induction over the batches for every split of the trace. | proved | `Disk.Overlap.C176_order`, `Disk.Overlap.C176_ready`, `Disk.Overlap.C176_transfers` |
| C177 | Iterative solvers on the logistic regression benchmark | `Bench/LogRegModel` with the solvers of `Hessian/Model` and the attributors of `Attr/Model`. | Second derivative along a line; a variance is at most half the sum of squares; Cauchy-Schwarz; then C156 and C161. The direction adding one constant to all classes has curvature 0. | proved | `LogReg.C177_hessian`, `LogReg.C177_bounds`, `LogReg.C177_sharp`, `LogReg.C177_cg`, `LogReg.C177_lissa`, `LogReg.C177_lissa_default` |
| C178 | EK-FAC scores in terms of derivatives | `EKFAC/GradModel`: output gradients as Frechet derivatives of the batch's target value times the batch size, on top of `EKFAC/Model`. | Chain rule for one layer; C19 for the pooling; the rotated Fisher matrix is diagonal exactly if the components are uncorrelated. | proved | `EKFAC.C178_eigenvalues`, `EKFAC.C178_summed`, `EKFAC.C178_scores`, `EKFAC.C178_exact` |
| C179 | What TRAK scores are, when they exist, and how they scale | TRAK/Model (attribute', selfAttribute, kernel, solveT) | kernel is a Gram matrix plus lambda; its quadratic form gives nonsingularity, leverages and the minimisation (gap of the ridge cost is a sum of squares); trace identity for the sum; scaling and repetition by inverting a multiple of the matrix | proved | `TRAK.C179_exists`, `TRAK.C179_exists_others`, `TRAK.C179_ridge`, `TRAK.C179_exact`, `TRAK.C179_self`, `TRAK.C179_scale`, `TRAK.C179_repeat` |
| C180 | TRAK with correct probabilities of shape (1,) | TRAK/ShapeModel (wideBatch, catWide, finishWide, attributeW, trainPartFlat): shapes and broadcasting explicit | both loops in lockstep with the scalar model of C13; case analysis of the broadcast dimensions | proved | `TRAK.C180_uncached`, `TRAK.C180_swapped`, `TRAK.C180_cached` |
| C181 | TRAK after a cache() that raised | TRAK/ShapeModel (Obj, Obj.cache, Obj.attribute'): the object's attributes, set at different points of cache | case analysis; C12 for the scores of the last successful cache | proved | `TRAK.C181_loader_rejected`, `TRAK.C181_never_cached`, `TRAK.C181_stale` |
| C182 | Preparing MIDI data | Midi/PrepModel (prepMaestro, prepCustom): folders as maps from names to contents, random numbers as a sequence | induction over the pieces with the list of writes as specification; areas of rectangles for the shares | proved | `Midi.Prep.C182_maestro`, `Midi.Prep.C182_names`, `Midi.Prep.C182_splits`, `Midi.Prep.C182_custom`, `Midi.Prep.C182_custom_error`, `Midi.Prep.C182_shares`, `Midi.Prep.C182_leak` |
| C183 | Command line settings of the nanoGPT training script | Script/ConfigModel (step, override, run): settings with types, strings as lists of characters | case analysis per argument; induction over the arguments from the right | proved | `Script.Config.C183_option`, `Script.Config.C183_rejected`, `Script.Config.C183_types`, `Script.Config.C183_options`, `Script.Config.C183_order`, `Script.Config.C183_data_settings` |
| C184 | EK-FAC with several modules | EKFAC/ModulesModel (slices, moduleStep, transformRow, score): dictionaries of slices of a row, in request order | slices of a concatenation by induction over the modules; trace identity for one block; Cauchy-Schwarz per block and added up | proved | `EKFAC.C184_sum`, `EKFAC.C184_finite`, `EKFAC.C184_order`, `EKFAC.C184_symmetric`, `EKFAC.C184_keyError` |
| C185 | What block-projected scores differentiate | BlockIF/TaskModel (TaskSt.load, held, batchRows, testLoss, Run.scores): heap of model objects shared with the task; rows are derivatives of the batch's loss with respect to layer outputs, compressed with the layer inputs | derivative of a weighted sum over the batch, chain rule through the layer, then C60; invariant of the loading history by induction | proved | `BlockIF.C185_scores`, `BlockIF.C185_entries`, `BlockIF.C185_sum`, `BlockIF.C185_ignored`, `BlockIF.C185_own_loss`, `BlockIF.C185_errors`, `BlockIF.C185_checkpoint`, `BlockIF.C185_target` |
| C186 | Samples removed by the data-cleaning example | Script/ExamplesModel (rowMean, dropFrom, newTrainingSet): mean per row, Python slice with negative start, membership filter | the order is split at a position; exchange argument for the sum | proved | `Examples.C186_removed`, `Examples.C186_best`, `Examples.C186_zero` |
| C187 | Table of found wrong labels in the noisy-label examples | Script/ExamplesModel (tableStep, table): the loop over the sorted indices | induction over the order from the right, then cardinalities; AUC via C38 | proved | `Examples.C187_table`, `Examples.C187_auc` |
| C188 | Character data sets | Bench/CharModel (chars, stoi, encode, decode, toDouble, cut, prepare, openBoth): sorted distinct characters, dictionaries, nearest double with an arbitrary tie rule | induction over strings; position in a strictly increasing list; the rounding error is below the gap to the next integer | proved | `Chars.C188_number`, `Chars.C188_round_trip`, `Chars.C188_cut`, `Chars.C188_files`, `Chars.C188_open`, `Chars.C188_items` |
| C189 | Conjugate gradient on singular and indefinite systems | Hessian/CGModel (cgInit, cgStep, cgRun, ihvpCG), as for C21-C23 | the conjugacy invariants need only non-zero divisors, so n + 1 successful steps would give n + 1 orthogonal non-zero residuals; for semi-definite matrices all vectors stay in the range, where a vanishing quadratic form forces a zero residual | proved | `Hessian.C189_symmetric`, `Hessian.C189_psd`, `Hessian.C189_indefinite` |
| C190 | Optional parameters of the compressor set-up | Compress/OptModel (setupStepOpt, setupOpt, attributorSetup): absent parameters as in the code an empty dictionary without model_copy | induction over the modules; the loop ends at the first module meeting the condition | proved | `Compress.C190_both`, `Compress.C190_neither`, `Compress.C190_projector_only`, `Compress.C190_sparsifier_only`, `Compress.C190_attributor` |
| C191 | Loading pretrained GPT-2 weights | Bench/PretrainedModel (copyStep, load, config): state dict as names with places in a heap of tensors, so that tied parameters share a place | shapes are invariant under the loop; induction from the right for the last entry written; counting distinct names | proved | `Pretrained.C191_succeeds`, `Pretrained.C191_places`, `Pretrained.C191_values`, `Pretrained.C191_complete`, `Pretrained.C191_forward`, `Pretrained.C191_names`, `Pretrained.C191_config` |
| C192 | Choosing hyper-parameters in the benchmark experiments | Script/ExperimentModel (nanMean, searchStep, search, reportIF, reportRPS) | induction on the configurations from the right, with an independent specification of the best one | proved | `Experiment.C192_average`, `Experiment.C192_best`, `Experiment.C192_unique`, `Experiment.C192_rps` |
| C193 | The correlation printed for the WikiText-2 experiment | Script/ExperimentModel (readNodes, nodeIndex, nodeLists, corrStep, calculateOne) on top of the correlation of Metric/LDSModel | the loops in closed form, compared with the model of lds; every error branch | proved | `Experiment.C193_value`, `Experiment.C193_errors`, `Experiment.C193_only_first` |
| C194 | Training without one sample in the DVEmb ground truth | DVEmb/GroundTruthModel (meanGrad, sgd, looStep, trainModel, looLosses) | induction on the batches; linear algebra for the first batch with the sample | proved | `LooTruth.C194_run`, `LooTruth.C194_absent`, `LooTruth.C194_first`, `LooTruth.C194_balance` |
| C195 | Selecting samples for the DVEmb ground truth | DVEmb/GroundTruthModel (labelDict, sampleClass, fill, select, evaluate) | the dictionary in closed form; counting over its classes; C41 for the correlation | proved | `LooTruth.C195_errors`, `LooTruth.C195_selected`, `LooTruth.C195_repeats`, `LooTruth.C195_evaluate` |
| C196 | How far trainings with Adam and AdamW move | Bench/AdamModel (coord, step, batchStep, run and the three sets of hyper-parameters) | invariant relating the two averages by an auxiliary average of squares; induction on the batches from the right | proved | `Adam.C196_step`, `Adam.C196_run`, `Adam.C196_no_gradient`, `Adam.C196_first`, `Adam.C196_scale`, `Adam.C196_wikitext`, `Adam.C196_maestro`, `Adam.C196_nano` |
| C197 | Steps, checkpoints and resuming in the GPT-2 experiment | Script/TrainStepsModel (perEpoch, totals, batchStep, epochRun, loop, position, script) | invariant of the loop over the batches relating pending batches to the counter, then induction on the epochs; arithmetic of the resume position against an independent stream of updates | proved | `TrainSteps.C197_fresh`, `TrainSteps.C197_all_batches`, `TrainSteps.C197_resume_epoch`, `TrainSteps.C197_resume_step`, `TrainSteps.C197_resume_exact`, `TrainSteps.C197_resume_finished`, `TrainSteps.C197_nothing_left`, `TrainSteps.C197_errors` |
| C198 | KNN-Shapley values depend on the order of distances only | KNN/Model with KNN/DistModel (euclid, construct) | values by rank (C172); sorted rows agree up to ties; ranks inside a tie have equal values; Euclidean identities | proved | `KNN.C198_order`, `KNN.C198_similarity`, `KNN.C198_maps`, `KNN.C198_ties`, `KNN.C198_construct` |
| C199 | What the sanity check of RPS can tell | RPS/CheckModel (prediction, corrCheck) | equality case of the Cauchy-Schwarz inequality | proved | `RPSCheck.C199_difference`, `RPSCheck.C199_correlation`, `RPSCheck.C199_exact`, `RPSCheck.C199_errors` |
| C200 | Replacing Conv1D layers before LoGra | Script/Conv1DModel (replace, replaceKids, walk, findLayers) on module trees with object identities | mutual induction over trees; identities of new layers are fresh | proved | `Conv1D.C200_forward`, `Conv1D.C200_names`, `Conv1D.C200_children`, `Conv1D.C200_no_conv`, `Conv1D.C200_layers`, `Conv1D.C200_layers_before`, `Conv1D.C200_find`, `Conv1D.C200_once` |
| C201 | The log-odds output function of TRAK | TRAK/OddsModel (logOdds, correctProb, crossEntropy, crossEntropyIgnore, batchLoss) | derivatives of exp and log, chain rule | proved | `TRAKOdds.C201_value`, `TRAKOdds.C201_order`, `TRAKOdds.C201_margin`, `TRAKOdds.C201_one_class`, `TRAKOdds.C201_padding`, `TRAKOdds.C201_gradient`, `TRAKOdds.C201_trak`, `TRAKOdds.C201_scores`, `TRAKOdds.C201_batch` |
| C202 | Batch dimensions of the inputs of Fisher products | EKFAC/InputModel (axis, dimSize, checkLoop, checkInputSize, indexSelect, batchIterator) | induction over the arguments; C20 for the permutation | proved | `EKFAC.C202_size`, `EKFAC.C202_default`, `EKFAC.C202_errors`, `EKFAC.C202_batches` |
| C203 | Rounding of TracIn scores and the batch sizes | TracIn/RoundModel (Order, eval, score, roundEven, float32) | error analysis by induction over the bracketing and the checkpoints; float32 from the logarithm of the number | proved | `TracInRound.C203_bound`, `TracInRound.C203_runs`, `TracInRound.C203_rank`, `TracInRound.C203_depth`, `TracInRound.C203_integers`, `TracInRound.C203_float32`, `TracInRound.C203_float32_integers`, `TracInRound.C203_order_matters` |
| C204 | The brittleness example | Metric/BrittleScriptModel (inBatch, findCorrect, brittleExample) | induction over the nested loops; C48 for the search over k | proved | `Brittle.C204_result`, `Brittle.C204_column`, `Brittle.C204_none`, `Brittle.C204_wrong_column` |
| C205 | Reuse of chunk buffers | Disk/PoolModel (getBuffer, returnBuffer, openC, appendC, takeC, overflowC): buffers as objects with identities | refinement to a model with one fresh buffer per chunk; invariant Good (no object in two places, tensor length, fill mark, pool size) over all operation sequences | proved | `Disk.Pool.C205_invisible`, `Disk.Pool.C205_exclusive`, `Disk.Pool.C205_no_wait`, `Disk.Pool.C205_overflow`, `Disk.Pool.C205_writer` |
| C206 | Dropping the disk manager | Disk/DropModel (references, finaliser and writers as one transition system) | invariant: while the finaliser was not called no writer has returned and no stop signal is queued; conservation of chunks; waiting chunks minus writers about to take never decreases after shutdown; a measure of the steps the finaliser has left for its termination | proved | `Disk.Drop.C206_dropped`, `Disk.Drop.C206_finaliser`, `Disk.Drop.C206_no_workers`, `Disk.Drop.C206_deadlock`, `Disk.Drop.C206_returns` |
| C207 | Leave-one-out ground truth is stored in float32 | Metric/FloatGTModel (looTensors) over looGroundTruth (C42) and float32 (C203) | monotonicity of rounding: same last place, or a power of two between the numbers | proved | `FloatGT.C207_monotone`, `FloatGT.C207_indices`, `FloatGT.C207_order`, `FloatGT.C207_collision` |
| C208 | Scores do not depend on how parameters are numbered or rotated | the existing models of the attributors (Attr/DerivModel, Attr/CGAttrModel, TracIn/Model, TRAK/Model, DVEmb/Model, DataInf/Model, Hessian/*, EKFAC/Model), run on the transformed task | chain rule for gradient and Hessian, then equivariance of every step by induction over the loops; EK-FAC: a rational witness evaluated in the kernel | proved | `Rotate.C208_explicit`, `Rotate.C208_cg_scores`, `Rotate.C208_tracin`, `Rotate.C208_tracin_unit`, `Rotate.C208_cg`, `Rotate.C208_lissa`, `Rotate.C208_arnoldi`, `Rotate.C208_arnoldi_product`, `Rotate.C208_datainf`, `Rotate.C208_dvemb`, `Rotate.C208_trak`, `Rotate.C208_ekfac_rows`, `Rotate.C208_ekfac_swap` |
| C209 | Which layers a DVEmb attributor records, and when it can be constructed | DVEmb/LayersModel.lean: constructor, listing of modules with torch's memo, selection loop, projector sizes, rows | induction over the listing and the name list; branch analysis of the constructor; sums over layers | proved | `DVEmbLayers.C209_names`, `DVEmbLayers.C209_all`, `DVEmbLayers.C209_tied`, `DVEmbLayers.C209_construct`, `DVEmbLayers.C209_dims`, `DVEmbLayers.C209_type_ignored`, `DVEmbLayers.C209_usable`, `DVEmbLayers.C209_linear`, `DVEmbLayers.C209_repeated`, `DVEmbLayers.C209_projectors` |
| C210 | Which other samples a score depends on, and the order of the samples | the models of TracIn, the inner-product attributors, TRAK and KNN-Shapley, run on two data sets | entry formulas of the attributors compared position by position; Gram sums are invariant under permutations; for KNN the two sortings differ within ties only; rational witnesses for TRAK with a further sample and for the explicit influence function with several batches | proved | `Order.C210_tracin`, `Order.C210_cached`, `Order.C210_trak`, `Order.C210_trak_extra`, `Order.C210_explicit_one_batch`, `Order.C210_explicit_order`, `Order.C210_knn` |
| C211 | Symmetric scores between samples and linearity of the solvers | the models of C05, C08, C09, C13, C15, C21, C24, C26, C127 and C134 | entry formulas and symmetry of inverses of symmetric matrices; induction over LiSSA steps (the step matrices are polynomials in one symmetric matrix) and CG iterations (both step sizes are invariant under scaling); rational witnesses for CG and single LiSSA draws | proved | `Symmetry.C211_tracin`, `Symmetry.C211_explicit`, `Symmetry.C211_task`, `Symmetry.C211_arnoldi`, `Symmetry.C211_datainf`, `Symmetry.C211_trak`, `Symmetry.C211_explicit_linear`, `Symmetry.C211_lissa_linear`, `Symmetry.C211_arnoldi_solver`, `Symmetry.C211_cg_homogeneous`, `Symmetry.C211_cg_not_linear`, `Symmetry.C211_lissa_full`, `Symmetry.C211_lissa_mean`, `Symmetry.C211_lissa_draw` |
| C212 | Scores when the loss or the target is measured in another unit | the task-level models (gradients and Hessians as derivatives) of TracIn and the explicit influence function, and the solver models | derivatives commute with factors; inverses of multiples of matrices; inductions over batches, CG iterations and LiSSA steps; entrywise for EK-FAC | proved | `Units.C212_tracin`, `Units.C212_tracin_normalised`, `Units.C212_explicit`, `Units.C212_explicit_reg`, `Units.C212_cg_target`, `Units.C212_cg_loss`, `Units.C212_lissa`, `Units.C212_datainf`, `Units.C212_ekfac`, `Units.C212_ekfac_lambda`, `Units.C212_ekfac_covariance` |
| C213 | Vectors, matrices and defaults of the inverse-Hessian-vector functions | Hessian/CallModel.lean: arguments as vectors or lists of rows, the two-argument wrappers with their defaults | row by row; a dimension argument gives a vector orthogonal to the at most 100 kept directions; C26 for the exact case | proved | `Hessian.C213_explicit`, `Hessian.C213_cg`, `Hessian.C213_lissa`, `Hessian.C213_arnoldi`, `Hessian.C213_wrapper_cut`, `Hessian.C213_wrapper_exact` |
| C214 | What the method names of the experiment scripts stand for | Script/MethodsModel.lean: strings as lists of characters, the branches on the method names, the dictionary of loaded models, the renaming of keys | prefix and split lemmas; decimal values by induction; induction over the series of requests and over the entries of the dictionary; the TRAK and TracIn models for what happens with the plans | proved | `Methods.C214_trak`, `Methods.C214_trak_number`, `Methods.C214_tracin`, `Methods.C214_unknown`, `Methods.C214_paths`, `Methods.C214_if`, `Methods.C214_disjoint`, `Methods.C214_trak_zero`, `Methods.C214_memo`, `Methods.C214_benchmark_trak`, `Methods.C214_benchmark_tracin`, `Methods.C214_benchmark_few`, `Methods.C214_nano`, `Methods.C214_strip`, `Methods.C214_load_state`, `Methods.C214_load_state_order` |
| C215 | The picture comparing influence and relative influence | Script/OutlierModel.lean: the data, the grid, the attribution with own draws for every row, argmax, mask and boundary of the example | differentiating the sum of the predicted probabilities; the solver is linear for given draws, so a column of scores is multiplied by a non-zero number; position arithmetic for the grid | proved | `Outlier.C215_data`, `Outlier.C215_gradients`, `Outlier.C215_gradient_entries`, `Outlier.C215_dominant`, `Outlier.C215_labels`, `Outlier.C215_labels_draws`, `Outlier.C215_scores`, `Outlier.C215_lissa`, `Outlier.C215_three_classes`, `Outlier.C215_corners`, `Outlier.C215_mask`, `Outlier.C215_boundary`, `Outlier.C215_boundary_small` |
| C216 | EK-FAC with modules that do not run in every batch, and after a failed cache | EKFAC/CacheModel.lean: the layer cache as an ordered dictionary that is never emptied, both estimation loops with broadcasting of the mask, the hooks with handles and owners | invariant of both loops by induction on the batches: the running average is the average over the stand-ins; invariant of the hook list over all operations | proved | `EkCache.C216_covariance`, `EkCache.C216_lambda`, `EkCache.C216_call`, `EkCache.C216_every_batch`, `EkCache.C216_counted_twice`, `EkCache.C216_sizes`, `EkCache.C216_second_pass`, `EkCache.C216_no_gradient`, `EkCache.C216_single_sample`, `EkCache.C216_hooks`, `EkCache.C216_evaluation`, `EkCache.C216_later_calls`, `EkCache.C216_tied` |
| C217 | Recording data value embeddings does not disturb the training it records | DVEmb/TrainModel.lean: user operations and attributor calls on the weights, gradients, buffers, random stream, mode and optimizer | simulation between the run with and without the attributor; induction over batches | proved | `DVTrain.C217_training`, `DVTrain.C217_context`, `DVTrain.C217_between`, `DVTrain.C217_accumulation`, `DVTrain.C217_draws`, `DVTrain.C217_dropout`, `DVTrain.C217_statistics`, `DVTrain.C217_attribute`, `DVTrain.C217_frozen` |
| C218 | Which weights are used when tasks, attributors and the user share a model object | Task/ShareModel.lean: model objects as memory cells, checkpoints as values or references to a cell, tasks and attributors holding references | an invariant over all interleavings; induction over the loop of checkpoints | proved | `Share.C218_separate`, `Share.C218_equal`, `Share.C218_call`, `Share.C218_left`, `Share.C218_alias`, `Share.C218_two_tasks`, `Share.C218_trained`, `Share.C218_held` |
| C219 | KNN-Shapley values in floating point | KNN/RoundModel.lean: the recursion with the roundings of Python floats and float32 tensors in the places where the code's mixed arithmetic has them | relative error calculus for one term, induction from the farthest sample, (1+2^-24)^N <= e; monotone and idempotent rounding; a half-way argument for rounding 1/N twice | proved | `KNNRound.C219_error`, `KNNRound.C219_sign`, `KNNRound.C219_neighbours`, `KNNRound.C219_labels`, `KNNRound.C219_positive` |
| C220 | Scores with a gradient history, and torch.no_grad() | Attr/GradModel.lean: the caches, both loops of attribute, the transformations and normalizations of the six attributors, the other attributors and the metrics, on tensors with sizes and history flag, in a given gradient mode | invariants of the nested loops; congruence of all loops between two modes by induction over the batches | proved | `GradMode.C220_scores`, `GradMode.C220_hessian`, `GradMode.C220_no_grad`, `GradMode.C220_modes`, `GradMode.C220_cache`, `GradMode.C220_ekfac`, `GradMode.C220_tracin`, `GradMode.C220_trak`, `GradMode.C220_rps`, `GradMode.C220_rps_no_grad`, `GradMode.C220_block`, `GradMode.C220_dvemb`, `GradMode.C220_correlations`, `GradMode.C220_other_metrics`, `GradMode.C220_ground_truth`, `GradMode.C220_lds`, `GradMode.C220_calls`, `GradMode.C220_cache_calls` |
| C221 | Retrained models and the process's random state | Verif/Metric/SeedModel.lean: retraining as loops over a world of three generators (torch, numpy, Python), writing files and possibly raising; training functions are arbitrary state transformers, the benchmark's ones begin with their three seeding calls | set of files of a loop by induction with the first failing iteration; training seeds are consecutive in (i, j), which gives the threshold 2^32; simulation of two runs that agree on torch's generator for reproducibility; counters as witnesses for the dependence on lists and divisions | proved | `RetrainSeed.C221_bench_self_seeded`, `RetrainSeed.C221_loo_bench`, `RetrainSeed.C221_loo_bench_fails`, `RetrainSeed.C221_loo_documented`, `RetrainSeed.C221_loo_self_seeded`, `RetrainSeed.C221_loo_stream`, `RetrainSeed.C221_loo_not_a_function`, `RetrainSeed.C221_lds_self_seeded`, `RetrainSeed.C221_lds_outcome`, `RetrainSeed.C221_lds_bench_succeeds_iff`, `RetrainSeed.C221_lds_bench_models`, `RetrainSeed.C221_lds_default_seed`, `RetrainSeed.C221_lds_first`, `RetrainSeed.C221_lds_division_matters`, `RetrainSeed.C221_loo_reproducible`, `RetrainSeed.C221_lds_reproducible`, `RetrainSeed.C221_other_generators`, `RetrainSeed.C221_loo_state_lost`, `RetrainSeed.C221_lds_state_lost`, `RetrainSeed.C221_lds_state_pure`, `RetrainSeed.C221_lds_bad_seed`, `RetrainSeed.C221_gpt_seeds` |
| C222 | LiSSA scores across training batches | Verif/Attr/LissaAttrModel.lean: attribute's nested loops over checkpoints, training batches and test batches with a counter of transform_test_rep calls that selects the draws; the estimate is LiSSA's recursion averaged over repeats and summed over cached batches | loop invariant gives the score of every pair with the index of its call; indices injective; second moments of sums over independent coordinates; C134 for the mean; a one-parameter example for the change of rank | proved | `LissaAttr.C222_scores`, `LissaAttr.C222_calls`, `LissaAttr.C222_calls_distinct`, `LissaAttr.C222_same_batch`, `LissaAttr.C222_mean`, `LissaAttr.C222_different_batches`, `LissaAttr.C222_one_batch`, `LissaAttr.C222_duplicates`, `LissaAttr.C222_duplicates_agree_iff`, `LissaAttr.C222_estimate_is_lissa`, `LissaAttr.C222_full_batches`, `LissaAttr.C222_full_batches_scores`, `LissaAttr.C222_lissa_mean`, `LissaAttr.C222_order_flips` |
| C223 | Gradient buffers of the model after attribution | Verif/Attr/BufModel.lean: .grad of every parameter as an optional vector, backward as accumulation, zero_grad, the loops of EK-FAC, block-projected and DVEmb with exceptions of forward passes, and programs that interleave them with the user's operations | closed form of EK-FAC's loop by induction with the break condition; the loops that clear depend on their last batch only; simulation of a program by the program without attributor calls, related while the buffers are clean | proved | `GradBuf.C223_ekfac`, `GradBuf.C223_ekfac_repeated`, `GradBuf.C223_ekfac_mean`, `GradBuf.C223_ekfac_fails`, `GradBuf.C223_block`, `GradBuf.C223_block_fails`, `GradBuf.C223_factors`, `GradBuf.C223_no_batches`, `GradBuf.C223_tidy`, `GradBuf.C223_ekfac_before_step`, `GradBuf.C223_block_before_step`, `GradBuf.C223_needed` |
| C224 | The process's random numbers in sessions with the Arnoldi attributor | Verif/Attr/RandModel.lean: attribute's loops over checkpoints, training and test batches with the generator's state and the lazily computed eigenspaces passed through, and sessions of such calls and arbitrary other events | the first training batch of the first checkpoint makes the states of two runs equal, the rest is a function of the state; closed forms for networks without random numbers by induction over the loops | proved | `RandSession.C224_state_forgotten`, `RandSession.C224_session`, `RandSession.C224_seed_lost`, `RandSession.C224_repetitions`, `RandSession.C224_later`, `RandSession.C224_first`, `RandSession.C224_untouched`, `RandSession.C224_not_cached` |
| C225 | When RPS keeps the model's own weights as its fine-tuned weights | Verif/RPS/AliasModel.lean: the fine-tuning loop of Verif/RPS/Model.lean run on tensors (value and whether it is the layer's storage), cache and attribute with the model at the time of the call | C51 applied to the loop on tensors; simulation of the loop on values; an invariant of the loop for shared storage and copies | proved | `RPS.C225_stored`, `RPS.C225_value`, `RPS.C225_one_epoch`, `RPS.C225_stationary`, `RPS.C225_copy`, `RPS.C225_attribute`, `RPS.C225_independent`, `RPS.C225_follows`, `RPS.C225_unchanged`, `RPS.C225_refines` |
| C226 | Evaluating scores of a loader with a sampler | Data set and sampler of one loader made explicit around the existing models of retraining, ground truth, lds, loo_corr and brittleness (Metric/SamplerModel.lean) | Composition of the round-trip theorems of C46 and C47; for other samplers a place a with sigma[a] != a gives scores 1 at sigma[a] and -1 at a, for which the rank correlation over the subsets {a}, {b} is -1 and the cross product of the leave-one-out correlation is at most -1/2. | proved | `Metric.C226_lds`, `Metric.C226_lds_exact`, `Metric.C226_lds_reversed`, `Metric.C226_loo`, `Metric.C226_loo_additive`, `Metric.C226_loo_exact`, `Metric.C226_loo_reversed`, `Metric.C226_brittleness_iff`, `Metric.C226_brittleness_none` |
| C227 | Batch structures and what the loss function receives | Batches as structures of tensors with rows; each attributor's conversion, torch.vmap over axis 0 or 1, item assignment and unpacking written out, with the sequence of calls of the user functions and their data arguments as result (Attr/BatchModel.lean) | Against a specification in terms of samples (Attr/BatchSpec.lean): a batch is a list of samples presented in some way, the calls are stated sample by sample. Inductions over loaders; an invariant over the item positions for Arnoldi's concatenation; the table by cases from these theorems. | proved | `BatchKind.C227_if_calls`, `BatchKind.C227_datainf_calls`, `BatchKind.C227_lissa`, `BatchKind.C227_arnoldi`, `BatchKind.C227_ekfac`, `BatchKind.C227_tracin_calls`, `BatchKind.C227_trak_calls`, `BatchKind.C227_bare`, `BatchKind.C227_bare_arnoldi`, `BatchKind.C227_nontensor`, `BatchKind.C227_sizes`, `BatchKind.C227_pairs`, `BatchKind.C227_not_pairs`, `BatchKind.C227_table`, `BatchKind.C227_documented` |
| C228 | Loaders with a batch sampler, without batching, or over iterable data sets | A loader as one of four constructions with the attributes batch_size, sampler length, len, sampler.indices and what a pass yields; the loops of the attributors, the metadata manager and the retraining functions written over these attributes with their exceptions (Attr/LoaderModel.lean) | Against the samples in yield order: induction over the yielded batches; for ordinary loaders equality with the models of C05/C164; for TRAK and RPS equality with the earlier models on an ordinary loader (Attr/LoaderProps.lean, LoaderProps2.lean). | proved | `LoaderKind.C228_if_iterable`, `LoaderKind.C228_if_no_batch_size`, `LoaderKind.C228_if_sized`, `LoaderKind.C228_if_accepts`, `LoaderKind.C228_tracin`, `LoaderKind.C228_tracin_sized`, `LoaderKind.C228_tracin_self_sized`, `LoaderKind.C228_self`, `LoaderKind.C228_self_batch_sampler`, `LoaderKind.C228_knn`, `LoaderKind.C228_knn_sized`, `LoaderKind.C228_trak`, `LoaderKind.C228_trak_empty`, `LoaderKind.C228_rps`, `LoaderKind.C228_meta`, `LoaderKind.C228_loo`, `LoaderKind.C228_loo_unbatched`, `LoaderKind.C228_lds`, `LoaderKind.C228_flip` |
| C229 | Precision of the scores for half, single and double precision models | Every tensor as its precision; the transformations of explicit, CG, LiSSA, Arnoldi, DataInf and EK-FAC, the loops of attribute and self_attribute, TracIn and TRAK, operation by operation, with RuntimeError for products of unequal precisions and for solve and eigh in half precision. Values of the tables of scores and distances with float32 rounding of each operation in place. | Fixed points of the loops (or the first failing pass), an invariant for Arnoldi's list of vectors, induction over the checkpoints for the error bound, and the error of float32 for the order of distances. | proved | `Prec.C229_influence`, `Prec.C229_self`, `Prec.C229_ekfac`, `Prec.C229_tracin`, `Prec.C229_trak`, `Prec.C229_once`, `Prec.C229_mean`, `Prec.C229_float32`, `Prec.C229_order`, `Prec.C229_tie` |
| C230 | Freezing and unfreezing parameters after a checkpoint was used | Parameters with their entries and two flags (at loading, now); flattening by the first, unflattening by the second with the reshape error; the task as a state machine over flag changes and checkpoint requests. | Induction over the list of parameters for the alignment criterion (both directions), decomposition of every session at the request that loaded the checkpoint, and invariants of the run. | proved | `Freeze.C230_aligned`, `Freeze.C230_error`, `Freeze.C230_coordinates`, `Freeze.C230_freeze`, `Freeze.C230_sessions`, `Freeze.C230_reload`, `Freeze.C230_stale`, `Freeze.C230_unchanged` |
| C231 | Samples whose gradient is not a number | CG, LiSSA and DataInf step by step on lists over an arithmetic of which only the absorption of NaN is assumed; an entry of the table over the checkpoints; TracIn and TRAK over Option K with nan_to_num. | Bad entries are followed through products, sums and iterations (one bad entry makes a scalar product NaN, which makes all entries NaN); closed forms for TracIn and TRAK by induction over the checkpoints. | proved | `NaN.C231_cg`, `NaN.C231_lissa`, `NaN.C231_layer`, `NaN.C231_dataInf`, `NaN.C231_all_cg`, `NaN.C231_all_dataInf`, `NaN.C231_own`, `NaN.C231_others`, `NaN.C231_tracin`, `NaN.C231_tracin_zero`, `NaN.C231_trak`, `NaN.C231_trak_zero`, `NaN.C231_trak_clean` |
| C232 | DataInf restricted to some layers | The model of DataInf's transformation with the sizes computed by _generate_param_layer_map from the names of the whole model, applied to rows as wide as the selection. | Closed form of each entry as sums over the coordinates of its block; a test vector with two coordinates shows that different partitions give different results; induction over the names for the blocks (runs of equal modules), over prefixes and for one module. | proved | `DataInf.C232_entries`, `DataInf.C232_blocks`, `DataInf.C232_runs`, `DataInf.C232_layer_name`, `DataInf.C232_prefix`, `DataInf.C232_one_layer` |
| C233 | Training and evaluation mode of the model during attribution | `Verif/Task/ModeModel.lean`: `_load_checkpoints` with four kinds of loading functions acting on the modes of all submodules, the loop over checkpoints collecting the modes at each evaluation, user calls and DVEmb as operations of a session. | Closed form of a loop with an idempotent loading function by induction on the checkpoints; invariants on the current checkpoint of a task over all sessions. | proved | `Modes.C233_default`, `Modes.C233_dropout`, `Modes.C233_fresh`, `Modes.C233_raises`, `Modes.C233_first`, `Modes.C233_many`, `Modes.C233_single`, `Modes.C233_dvemb` |
| C234 | Random masks of active dropout layers during attribution | `Verif/Attr/MaskModel.lean`: a forward pass under no or one `vmap` layer draws masks from a counter or raises; gradients, the four ways to transform test representations, the double loop over batches and a TRAK batch thread the counter through. | Closed forms by induction over batches, repetitions and recursions; the loop is described by the positions of the counter. | proved | `Mask.C234_gradients`, `Mask.C234_trak`, `Mask.C234_cg`, `Mask.C234_lissa`, `Mask.C234_inactive`, `Mask.C234_inactive_scores`, `Mask.C234_raises`, `Mask.C234_order` |
| C235 | The error of LoGra's scores | the model of C168 (cache and attribute' with the identity Hessian, the two-sided normal compression) with the product Gaussian measure over all drawn numbers | functions of disjoint coordinates are independent, so the second moment of a layer's form in the two Gram matrices is a sum over pairings; evaluated with traces; variances of layers add; Chebyshev and a union bound | proved | `BlockIF.C235_logra`, `BlockIF.C235_bound`, `BlockIF.C235_two`, `BlockIF.C235_self`, `BlockIF.C235_all_scores` |
| C236 | Models with shared (tied) parameters | networks as places with names and tensors, the place-to-tensor map arbitrary; named_parameters, flatten/unflatten, functional_call, partial_param, get_param, the EK-FAC request, load_state_dict | induction on the lists of names and pieces; the chain rule along the linear map from tensor entries to uses; grouping of the double sum by tensor entry; for the converse, a loss that is linear in two uses | proved | `Tied.C236_names`, `Tied.C236_values`, `Tied.C236_length`, `Tied.C236_layer_name`, `Tied.C236_restricted`, `Tied.C236_second_name`, `Tied.C236_ekfac`, `Tied.C236_load`, `Tied.C236_gradient`, `Tied.C236_score`, `Tied.C236_inner`, `Tied.C236_hooks` |
| C237 | The projection dimension has to grow only with the logarithm of the number of scores | `Projection/BasicModel` with the generator's output as an arbitrary matrix; the product of standard normal laws, respectively all sign matrices, on it. | Moment generating functions of squares of sub-Gaussian linear forms: the upper one by writing exp of a square as a Gaussian integral of exponentials, the lower one by exp(-s) <= 1 - s + s^2/2 and a fourth-moment bound; Chernoff's bound for sums over independent columns, polarisation, union bound (`TailLemmas`, `TailProps`). | proved | `Projection.C237_normal`, `Projection.C237_rademacher`, `Projection.C237_dimension_normal`, `Projection.C237_dimension_rademacher` |
| C238 | TracIn always projects | `TracIn/ProjModel`: parameters with defaults, the projector built anew for each batch (`Projection/RandomModel`), the loops of `attribute` and `self_attribute`. | C157 turns the per-batch projectors into one row map per checkpoint; the loops then are those of C09. Over an infinite product measure of entries: C237's tail bound with a union over pairs and checkpoints, second moments, and the law of one matrix as a Gaussian product for the squared error. | proved | `TracIn.C238_scores`, `TracIn.C238_default`, `TracIn.C238_identity`, `TracIn.C238_refused`, `TracIn.C238_mean`, `TracIn.C238_close`, `TracIn.C238_error` |
| C239 | When TRAK with its random projection returns scores | TRAK/ProjModel: TRAK's three entry points with the projector of C157 built per batch, scaling by the number of parameters, checkpoint number as ensemble id | Refinement to the model of C13/C179 (so their theorems apply); spanning features pull back to independent gradients; conversely the determinant of the projected rows is a non-zero polynomial in the entries (a dual matrix makes it 1), and a non-zero polynomial in independent variables without atoms vanishes with probability zero (induction on the number of variables, Fubini); for signs, the event that two columns agree | proved | `TRAK.C239_features`, `TRAK.C239_columns`, `TRAK.C239_never`, `TRAK.C239_almost`, `TRAK.C239_default`, `TRAK.C239_signs` |
| C240 | Accuracy of normalised TracIn (Grad-Cos) scores under the random projection | Model of C238 (projection built per batch, rows normalised with the 1e-12 floor) | Union of the tail bounds of C237 over pairs and over the norms of both sides; a deterministic bound on the quotient; the floor is not reached when the norms are kept | proved | `TracIn.C240_cosine` |
| C241 | TRAK with as many columns as parameters or training samples | TRAK/ProjModel (attributeP) through the refinement C239_features | spanning features make a square projection matrix injective (transpose of an injective square matrix), so representations of projected and unprojected gradients are the same; the scores are the smallest representation (C179); with as many samples as columns it is unique | proved | `TRAK.C241_parameters`, `TRAK.C241_same`, `TRAK.C241_samples`, `TRAK.C241_itself`, `TRAK.C241_self` |
| C242 | A projected TracIn score has no certain value | TracIn/ProjModel (attributeP) through C238_scores | the score is a polynomial in the entries; a matrix with one non-zero column, which belongs to the first checkpoint alone, shows that score - t, the difference of two scores and the difference for two seeds are non-zero polynomials; these vanish with probability zero (C239's lemma, extended to the infinite family of entries) | proved | `TracIn.C242_value`, `TracIn.C242_ties`, `TracIn.C242_seeds` |
| C243 | Units and size of block-projected influence scores | BlockIF/IFModel (cache, attribute', stableInverse) through C60_entries | the damped matrix of rescaled samples is the square of the factor times the damped matrix; the bound: the quadratic form of the damped matrix dominates (1/n)(g·v)^2, applied to v = A^-1 g; the total: trace of A^-1 (A - cI) with trace of A^-1 not negative | proved | `BlockIF.C243_layers`, `BlockIF.C243_fisher`, `BlockIF.C243_identity`, `BlockIF.C243_bound`, `BlockIF.C243_pairs`, `BlockIF.C243_total`, `BlockIF.C243_self` |
| C244 | Block-projected influence scores in another basis | BlockIF/IFModel (cache, attribute', stableInverse) through C60_entries | the damped matrix in the new basis is P A P^T (for positive damping because P P^T is a multiple of the identity and the trace scales alike), so (P A P^T)^-1 P g . P h = A^-1 g . h; a stretched basis of two axes as the counterexample | proved | `BlockIF.C244_basis`, `BlockIF.C244_stretched` |
| C245 | Block-projected influence scores of repeated and reordered training sets | BlockIF/IFModel (cache, attribute') through C60_entries | the mean outer product of k copies in any order is the mean outer product | proved | `BlockIF.C245_repeat` |
| C246 | The damping of block-projected influence functions | BlockIF/IFModel (cache, attribute', stableInverse) through C60_entries | with Ax = g and By = g, B dominating A: (y-x).A(y-x) >= 0 gives x.g >= y.g; the bound from B >= (damping trace / dimension) I and the Cauchy-Schwarz inequality, the squared norm of a sample being at most the sample count times the trace | proved | `BlockIF.C246_damping`, `BlockIF.C246_succeeds` |
| C247 | Block-projected scores among training samples form a kernel | BlockIF/IFModel (cache, attribute', stableInverse) through C60_entries | the inverse of the symmetric damped matrix is symmetric, and v.A^-1 v is the quadratic form of A at A^-1 v; bilinearity over the weighted samples | proved | `BlockIF.C247_kernel` |
| C248 | Dividing the layers between two block-projected attributors | BlockIF/IFModel (cache, attribute', stableInverse) through C60_entries and C60_succeeds | the damped matrix of a layer depends on that layer's gradients only; the sum over layers splits along the bijection; for the seeds Compress/Model.setup through C102_setup | proved | `BlockIF.C248_layers`, `BlockIF.C248_order`, `Compress.C248_compressors` |

## Disagreements between code and documentation/expectation

Each line is a theorem (or witness) about the modelled code.

* **C02** KNN-Shapley with K > N: all scores are off by one common constant when the farthest point's label matches.
* **C03** KNN-Shapley returns shape (num_test, num_train); the docstring says the opposite.
* **C06** `self_attribute` of the inner-product attributors is the diagonal only for a single batch; with several batches it raises (or broadcasts a batch of one).
* **C07** `attribute` without `cache` reuses the loader of an earlier call, so its result depends on the history.
* **C08** The inverse-Hessian products are summed, not averaged, over the batches of the cached loader; the result changes with the batch size.
* **C14** TRAK `self_attribute` without a loader after `cache` raises, and with a loader returns an (n,1) matrix instead of a vector.
* **C15** DataInf with the default `regularization=0.0` always gives non-finite values.
* **C16** DataInf stores one gradient per cache *batch*, so the cache loader's batch size changes the scores.
* **C17** EK-FAC uses the rows of the stored matrices as eigenvectors while `eigh` returns columns; a 2x2 rotation with statistics estimated by the code gives a wrong answer (witness).
* **C18** EK-FAC's reshaped (out, in+1) matrix is not [W|b] unless out <= 1 or in = 0.
* **C19** EK-FAC with sequence inputs raises UnboundLocalError in the first hooked layer and silently takes the previous layer's inputs in later ones; `max_iter=0` uses all batches.
* **C23** CG: once the residual is exactly zero the next step divides by zero; the tolerance argument is not used to stop.
* **C24** LiSSA solves with the operator damping*I + H/scaling, i.e. the damping seen by H is damping*scaling.
* **C25** `ihvp_at_x_lissa` swaps two arguments.
* **C26** Arnoldi: `norm_constant` scales the result; `top_k=0` keeps all eigenpairs.
* **C27** BasicProjector: beyond 100 blocks, block i of ensemble e and block i-100 of ensemble e+1 share their generator seed.
* **C28** BasicProjector: after `free_memory`, projecting with the same ensemble id raises AttributeError.
* **C30** GraSS: a multiplier that is too large is mutated on first use, so later ensembles can use another mask size.
* **C31** `get_parameter_chunk_sizes` does not terminate when the limit is 0 (batch sizes above 2^31-1) and the list is non-empty; batch size 0 divides by zero.
* **C32** `dict_project` raises when a group of several parameters is filled exactly to the limit.
* **C33** `_unflatten` accepts over-long vectors silently.
* **C34** `partial_param` writes into the captured parameter dictionary.
* **C35** With several layer lists the task's memo can serve a function contaminated by another function's argument.
* **C42** `loo_corr` ignores the recorded indices.
* **C44** Parallel `retrain_lds` leaves metadata that the reader cannot use.
* **C47** `retrain_loo` removes positions, not sampler indices.
* **C48** brittleness does not sort the search space: a non-ascending space returns a non-minimal k.
* **C49** `flip_label` raises when int(p*n) = 0 and for numpy labels; with a tensor label space a label can be kept.
* **C50** The line search accepts a step whose objective is NaN.
* **C51** RPS fine-tuning raises UnboundLocalError if no gradient is below the initial threshold (or the first is NaN).
* **C54** DVEmb: embeddings of old epochs survive `clear_cache` and re-caching.
* **C55** DVEmb: with three-dimensional activations the product is laid out transposed with respect to the two-dimensional case.
* **C56** Block-projected IF: a layer whose gradients are all zero makes `cache` raise RuntimeError whatever the damping.
* **C57** Block-projected IF: a `None` gradient raises AttributeError in storage although the zeros branch was meant for it.
* **C58** Metadata: stale entries are kept when the number of batches agrees; with fewer batches the old tail stays.
* **C59** Metadata: two writers share the temporary file and can publish an empty or mixed file.
* **C60** With an empty test loader the result has the rows of the *passed* loader, otherwise of the cached one.
* **C61** Block-projected IF with Identity never refreshes its preconditioned gradients after the first `attribute`.
* **C77** CUDA projector: an ensemble id of -1 used first never generates randomness (TypeError, or an unprojected batch).
* **C79** Random mask projection is not rescaled.
* **C80** Arnoldi projector: the automatic reduction of proj_dim does not change the number of output columns; non-positive eigenvalues give non-finite columns.
* **C81** Strings such as `grass_a_b` are accepted with multiplier 4; a non-string projection type raises UnboundLocalError.
* **C82** A string as `layer_name` is treated as a list of characters; unknown names are dropped silently.
* **C83** Layer-restricted functions follow the checkpoint loaded at call time, not the one they were obtained for.
* **C84** LDS results that were moved are still read from the original place.
* **C85** brittleness: two-dimensional scores raise TypeError; samplers without indices raise AttributeError.
* **C86** RPS weights are divided by n.
* **C87** A failing RPS `cache` leaves stale weights or makes `attribute` raise AttributeError.
* **C88** DVEmb `cache` empties the caller's dictionaries.
* **C89** DVEmb: a projector shared by both factors of a square layer loses the antisymmetric part of the gradient.
* **C90** DVEmb requires an epoch numbered 0.
* **C91** Block-projected IF: caching fewer batches than before keeps the old tail in rows and statistics.
* **C92** Block-projected IF with Identity: a longer loader cached after an `attribute` gets zero rows.
* **C93** Block-projected IF with Identity: self-influence mixes two loaders after re-caching.
* **C63** Outstanding writes are a set of chunk keys, so after an overflow two tasks share one mark; the first to finish removes it and `finalize_batch_range` returns with the second still queued (`C63_race`).
* **C64** The exception handler of the writer logs the error but leaves the pending mark, so `finalize_batch_range` waits for ever (`C64_hangs`); after an overflow the loss can even go unnoticed (`C64_masked`).
* **C94** An empty batch, or one larger than the buffer, leaves an opened chunk without entries; its flush fails in the background and finalising waits for ever (`C94_hangs`).
* **C97** Chunk files are named after the batches they contain and are never removed; a shorter run in the same directory leaves a file that lists batches again (`C97_left_over`).
* **C65** The chunk cache is never invalidated and its size limit is not enforced by the reader (`C65_stale`, `C65_unbounded`); a chunk that cannot be loaded is answered with an empty item instead of an exception (`C65_answers`).
* **C98** `__del__` cannot run while the prefetch thread runs, because the thread's target is a bound method (`C98_never_ends`).
* **C67** Overlapping sessions on one layer leave it with the wrapper of a removed manager (`C67_overlap`); with both managers disabled a call recurses without end (`C67_recursion`).
* **C68** The seed distance of two neighbouring modules is ten blocks: with more than 1000 projected dimensions per layer (the default FactGraSS configuration on the CPU has 4096) the projections of layers with equal feature dimensions share columns (`C68_columns_coincide`).
* **C99** A layer that is applied twice, e.g. with tied weights, raises `AttributeError` in the backward pass (`C99_reused_layer`).
* **C100** A layer skipped by a batch is recorded with another batch's gradient (`C100_stale_layer`).
* **C101** An exception during caching or attribution leaves the model patched (`C101_left_patched`).
* **C102** A name that does not exist in the model is ignored silently (`C102_setup`); a sparsifier and a projector of one layer have the same seed when the two stages have (`C68_stages_coincide`).
* **C103** FactGraSS ignores the seed, projection type and batch size the user passes; LoGra ignores the projection type (`C103_factgrass`, `C103_logra`).
* **C69** The first model is trained with `seed - 1`, not `seed`; with seed 0 the training of the first model fails unnoticed (`C69_first_seed`).
* **C72** A change of velocity is lost when the quantised new velocity equals the raw previous one (`C72_velocity`).
* **C73** Pieces without pedal messages encode to nothing; notes after the last sustain are dropped, and notes at the end of a piece are repeated (`C73_no_pedal`, `C73_dropped`, `C73_count`).
* **C74** In the full version `random_seq` is not ignored: the first window of every piece is random (`C74_first_window_random`).
* **C75** Indexing past the end does not raise (`C75_no_end`); the filling token 0 is an ordinary character.
* **C105** Rounding every gap on its own lets time errors add up (`C105_vanishes`).
* **C107** Repeated release messages extend the sustain to the last of them (`C107_uses`).
* **C109** Part of the recorded training subset is never trained on (`C109_tail_unused`).
* **C110** Evaluation advances the training data; blocks can be starved (`C110_starved`).
* **C111** Training fails on the last block of a corpus whose length is a multiple of the block size (`C111_fails`).
* **C112** A model whose validation loss never improves on the untrained one leaves no checkpoint (`C112_none`).
* **C114** The default leave-one-out command trains models that leave out nothing (`C114_default`).
* **C115** The ground truth of a run split over machines cannot be read (`C115_machines`).
* **C116** The documented bracket format of `--partition` is rejected (`C116_brackets`).
* **C117** A subset ratio cannot be given with `--extra_param` (`C117_ratio`).
* **C118** Attribution after a failed cache silently uses the layers before the failure only (`C118_after_failure`).
* **C119** Positions are matched as substrings, unknown positions are accepted silently, and a failing call leaves the model changed.
* **C120** The best model is an alias of the live model, so the last one is returned (`C120_not_best`).
* **C121** Averages of batch averages; a batch of padding counts as right and makes the loss not a number.
* **C122** The first optimiser step has rate 0 (`C122_first`).
* **C123** A block size above the limit raises instead of warning (`C123_block_size`).
* **C125** The default `ignore_index` can never be used (`C125_outside`).
* **C126** With 'l' the score still depends on the number of batches; a negative form is replaced by 1e-12; 'theta' and 'l' have different floors (1e-12 and 1e-6); three attributors ignore the argument (`C126_ignored`).
* **C127** Tuple and dictionary batches, which the other attributors accept, make `cache` fail, and a failed `cache` destroys the previous projectors.
* **C128** The documented inverse Fisher product is computed only for one parameter or a zero gradient (`C128_documented_iff`); `g @ g.T` of a flat tensor is a scalar.
* **C129** Gradients are scaled in place, so two target layers whose outputs are added record N^2 times the mean gradient instead of N times (`C129_shared`); failed steps are recorded (`C129_failed_step`).
* **C130** The read cache is never invalidated by storing again (`C130_stale`); pending batches read as empty (`C130_pending`); results can depend on the order of reads (`C130_left_over`).
* **C132** Storing `None` for a layer clears it in memory and CPU storage and does nothing on disk; preconditioner files left by an earlier run are used by a later one that stores none.
* **C132** A preconditioner save that raises is only logged: `compute_ifvp` treats the layer as having no preconditioner and writes zeros for it, so the layer drops out of all scores without an exception.
* **C133** `argnums=-1` (accepted by `torch.func`) with several arguments: mode `rev-fwd` compares positions with `argnums` literally, patches zeros everywhere and returns `regularization * v`; mode `rev-rev` returns the product for the last argument.
* **C134** With a loss summed over the batch (`reduction="sum"`) LiSSA estimates the inverse of `min(batch_size, N)/N` times the Hessian of the full sum.
* **C136** `top_k=0` (often meaning no truncation) raises `IndexError`, and `temperature=0` (often meaning greedy) raises `RuntimeError`; a negative temperature is accepted and prefers unlikely tokens.
* **C139** `generate` decodes beam indices with VOCAB_SIZE (390) although the flattened rows have TOKEN_END (388) entries (`C139_beam_step`); the end-of-sequence branch is never taken because the end token is sliced away; beam scores are not accumulated; a sampling step with two or more rows raises.
* **C142** The DVEmb score equals the derivative only if the Hessians of the steps after the first use of the sample are outer-product sums; with linear losses the score of a sample with effect -1 is 0 (`C142_needs_outer`). This is an approximation made by the method, not a coding error.
* **C143** Layer dimensions survive `clear_cache`; a one-column gradient is broadcast to the recorded dimension without complaint, and dropped for a layer that was empty in the first batch (`C143_width_one`).
* **C146** The default `regularization=0.0` of `IFAttributorExplicit` cannot work for the softmax models of the benchmark: the Hessian is singular for every model and data set.
* **C145** `train_mnist_lr` trains without the L2 penalty the attributor's regularisation corresponds to, so its checkpoint is not the regularised minimiser the theorem is about.
* **C148** A first download that fails with a server answer leaves the directory behind, so it is never repeated: all later calls raise `FileNotFoundError` (`C148_failed_download`).
* **C147** `load_benchmark("gpt2", "wikitext2", "loo")` always fails although `loo` is documented as supported; for nanogpt `"model"` is a string, not a model instance (`C147_never`, `C147_result`).
* **C150** `loss_imagenet_resnet18` multiplies a summed loss by the batch size: the result is neither the documented sum nor the mean and grows with the batch size (`C150_equal_batches`, `C150_sum`, `C150_mean`).
* **C151** `loss_maestro_musictransformer` is negated, so that the LDS ground truth, negated again, has the opposite sign to the other benchmarks; `loss_wikitext2_gpt2` is documented as per-example but is per batch; `loss_imagenet_resnet18` gives all test examples the same value (`C151_maestro`, `C151_wikitext`, `C151_imagenet`).
* **C151** The benchmark losses take a path, `calculate_loo_ground_truth` passes a loaded model: `TypeError` (`C151_loo`).
* **C152** DVEmb assumes plain SGD; the benchmark trainings of the perceptron and ResNet-9 use momentum 0.9, and the score is then not the derivative (`C152_momentum`).
* **C154** The sign convention is that of the targets: with a target that grows when the sample helps (for example the negated loss of the MAESTRO benchmark, C151) a correct score gets -1.
* **C158** With more than about 33 million columns (proj_max_batch_size 64) on CUDA, random_mask returns sums of columns instead of a selection, and identity raises; make_random_projector uses ChunkedCudaProjector, which adds the chunk results, for every type.
* **C157** make_random_projector takes the width from numel // feature_batch_size without checking divisibility; a wrong feature_batch_size is only noticed when the product fails, and not at all for random_mask on a width that is too small.
* **C160** DataInf with a regularisation r is not the damped inverse it is presented as: it always gives at least as large self-influence, strictly larger as soon as two cached gradients give different solutions.
* **C161** With the default damping 0 LiSSA diverges for every Hessian that has a zero or negative eigenvalue (any over-parametrised model), or one of 100 and more with the default scaling 50; no check or warning exists.
* **C162** Two attributors used one after the other without cache_dir share `./batch_metadata.json`: the second can get extra zero rows, repeated rows, or a RuntimeError, although nothing of the first one's gradients is used.
* **C163** The manager for 'none' does not move preconditioners to the compute device, unlike everything else it stores; callers have to (block_projected_if.py:526 does).
* **C164** With drop_last=True dropped training samples get the score 0 instead of an error or a smaller matrix.
* **C165** With drop_last=True KNN-Shapley treats dropped training samples as nearest neighbours (distance 0) and gives them the labels of other samples, because the label list is extended again for every test batch (data_shapley.py:183-186).
* **C169** `dvemb.py:170-189` passes the same `proj_seed` to both projectors of a layer, so in square layers they are the same matrix and the projected inner products are biased by the traces; for the element-wise projection the bias does not shrink with the dimension.
* **C170** `compressor.py` prepares layer norms, but `cache()` always fails with them (AttributeError: the hooks give `None`); misspelt and unused layer names fail with the same AttributeError rather than a message.
* **C171** `random_mask` does not rescale by the kept fraction, so FactGraSS scores are not unbiased and weigh layers unequally.
* **C172** With `K` larger than the number of training samples `data_shapley.py:199-201` gives wrongly labelled samples positive values (see C02).
* **C175** `memory_map.py:417` catches `OSError` only: metadata that is being written raises `JSONDecodeError`; and the size test cannot tell a rewritten file from a complete one.
* **C176** `prefetch_dataset.py:413-416` waits for the transfer stream after the next transfer was put on it, so nothing overlaps; a failing read loses the batch that was already transferred.
* **C177** The default `damping=0.0` of `ihvp_lissa` and of the LiSSA attributor does not converge for the logistic regression benchmark: the Hessian of softmax regression is always singular.
* **C178** The documentation of the attributor says the Fisher matrix is estimated on the loss function; `influence_function.py:996` takes the target function of the task.
* **C180** cache() flattens the correct probabilities, attribute() and self_attribute() do not (trak.py:180-192 against 314-327, 484-497): one-element probabilities give RuntimeError, or scores multiplied by another sample's factor.
* **C181** cache() records the loader before computing anything (trak.py:120): after an exception, attribute(test) silently serves the previous training set.
* **C182** prep_custom_midi draws for test only among the pieces not in train (preprocess_midi.py:109-117), so test_p = 0.2 gives 2 percent test pieces; names are cut at the first dot (line 120), so different pieces can replace each other; earlier output is not removed, so splits of two runs overlap.
* **C183** subset_ratio has the integer default 1 (train.py:49), so --subset_ratio=0.5 fails the type assertion (configurator.py:42); dataset_path has no default and is refused as unknown.
* **C184** The default selects all linear layers, also frozen ones and ones the model never runs (influence_function.py:900-906); both end in KeyError.
* **C185** The target function given to the task is ignored by these attributors: test gradients are always those of the cross-entropy (or the model's own loss), and further checkpoints of the task are ignored; if another attributor loads a checkpoint between caching and attribution, the two sides use different weights.
* **C186** With --remove_number 0 the example removes every sample (the slice `indices[-0:]` is the whole list) instead of none.
* **C187** The table has no row for the full number of samples, so the total found is never printed.
* **C189** Conjugate gradient has no stopping rule, so every max_iter above the dimension gives a non-finite result for every symmetric matrix, and at a point where the damped Hessian is indefinite it can fail at once.
* **C190** Both parameter arguments of setup_model_compressors are documented as optional, but giving just one of them raises an AttributeError at the first layer.
* **C192** For RPS `experiments/benchmark_result.py:322` prints the loop variable `l2` (the last strength) instead of `best_config` next to the best result.
* **C194** The DVEmb example trains without shuffling (dvemb_mlp.py:74) but its ground truth trains with shuffling (_groundtruth_loo_mlp.py:100) and in double precision, so that scores and ground truth belong to different trajectories; besides, the ground truth takes the mean over the remaining samples, while DVEmb estimates the effect of a weight in the mean over all.
* **C195** If the number of classes does not divide the number of samples asked for, the ground truth can contain the same sample several times.
* **C196** `train_wikitext2_gpt2` seeds `np.random.default_rng(seed)` without keeping the generator (no effect) and does not move the batches to the device.
* **C197** Resuming `experiments/gpt2_wikitext/train.py` from `step_i` leaves out batches when the number of batches is not divisible by the accumulation steps (line 630 multiplies by the accumulation steps although the last update of an epoch may use fewer batches); resuming from the last step of a run that ended inside an epoch trains one batch too many (the limit is only checked after a batch, line 670); when nothing is left to do, `perplexity` is unbound in line 745. Without `--seed` the subset of training samples (line 512) is drawn anew on resuming.
* **C198** The values of tied training samples with different labels depend on how `torch.argsort` breaks ties (it is not called with `stable=True`).
* **C200** `replace_conv1d_modules` promises to replace all Conv1D modules, but `named_children` yields an object once: a Conv1D registered under two names of one module is replaced under the first name only, and one shared by two modules becomes two separate layers.
* **C201** In `experiments/benchmark_result_mt.py` the output function is infinite (and its gradient not a number) for every sequence whose last target is the padding token, because the ignored loss is 0.
* **C201** `score_logra.py` forms the log-odds from the mean loss of a batch of four, while the ground truth uses single samples; the scores of a test sample carry a factor depending on its batch.
* **C203** Scores are independent of the batch sizes only up to rounding: there are gradients for which two orders of addition give different float32 inner products.
* **C204** `mnist_lr_brittleness.py` keeps the position within the batch as index into the score matrix; if the first correctly predicted sample is not in the first batch, the scores of another, wrongly predicted sample are used.
* **C204** The example computes scores for a model trained with batches of 64 but searches and retrains with batches of 500 (`train_mnist_lr(train_loader)`).
* **C205** With several storing threads `get_buffer` can time out after an overflow (another thread takes the returned buffer) and the store then raises RuntimeError; the flushed rows are safe but the batch is lost. The model has one storing thread.
* **C206** `ChunkedDiskIOManager.__del__` never runs by itself: every writer thread holds `self` through its bound target, and only `__del__` asks the threads to stop. Buffered rows are lost silently and threads leak unless `finalize_batch_range` was called.
* **C206** `__del__` sets `_shutdown` before it puts the stop signals; writers that see the flag leave queued chunks unwritten, and with a full queue the blocking `put(None)` never returns.
* **C207** `model_indices = torch.empty(length_dir)` is a float32 tensor: removed indices above 2^24 are not kept (`C207_collision`).
* **C208** EK-FAC uses the columns of `eigh` as if they were rows (see C17); as a consequence its scores change when the neurons of a layer are renumbered (`C208_ekfac_swap`); with rows they would not (`C208_ekfac_rows`).
* **C209** The constructor documents a `ValueError` for an unknown factorization type; without a projection dimension any type is accepted and treated like the documented ones (`C209_type_ignored`). Names may designate modules that are not linear; the failure comes later, while recording or in `cache()` (`C209_usable`).
* **C210** Without `cache`, explicit influence scores depend on which samples share a batch (`C210_explicit_order`), a consequence of summing inverse batch Hessians (see C08).
* **C211** `IFAttributorCG` stopped early and `IFAttributorLiSSA` give asymmetric scores although the exact influence function is symmetric, and summing test gradients before or after the CG solve gives different results (`C211_cg_not_linear`, `C211_lissa_draw`).
* **C212** `IFAttributorCG` starts at the right-hand side itself, so a solution stopped early depends on the unit of the loss (`C212_cg_loss`); the default regularisations are absolute numbers, so for all influence functions a loss with sum reduction is regularised less than its mean.
* **C213** `ihvp_arnoldi` offers neither `top_k` nor `norm_constant` and silently keeps 100 eigenpairs, so no `max_iter` raises the rank of the result above 100 (`C213_wrapper_cut`). For a vector argument the explicit functions return a vector, all others a matrix with one row.
* **C214** In `score_TRAK.py`, `TracIn` and `Grad-Dot` are the same computation (in the benchmark scripts they use ten checkpoints and one); `TRAK-0` passes the check of the name. `score_IF.py` and `score_TRAK.py` with their default numbers never look at the same checkpoint. `benchmark_result_nanogpt.py` uses `TracInProjectionParams` without importing it, so three of its six methods cannot run (`C214_nano`).
* **C215** The boundary is drawn as a vertical line whenever the second weights differ by at most 1e-7, also if the first weights differ as little; the line is then wrong (`C215_boundary_small`).
* **C216** `layer_cache` is never emptied: a module that is not applied in a batch contributes its previous inputs and gradients again (`C216_counted_twice`), also those of an earlier `cache()` call with other data. `cache` removes its hooks only on success; after a failure `model(x)` under `torch.no_grad()` raises because the hooks call `retain_grad`.
* **C217** `cache_gradients` in factor mode runs a forward and backward pass on the live model: it discards gradients the user has accumulated and leaves the batch size times the recorded batch's gradients (`C217_between`), counts every batch twice in running statistics (`C217_statistics`) and consumes dropout draws (`C217_dropout`). `attribute` switches the model to evaluation mode and does not switch back (`C217_frozen`).
* **C218** The task decides by index alone whether a checkpoint is loaded: a second task on the same model object, or further training of it, changes the weights without the first task noticing (`C218_two_tasks`, `C218_trained`). `[..., model.state_dict()]` as a list of checkpoints makes the live entry follow the previous one (`C218_alias`). RPS takes `task.get_model()` before the checkpoint is loaded, so with a `checkpoints_load_func` that returns a new model it never sees the checkpoint; the attributors that keep the model object silently move to the last checkpoint when another attributor runs on the same task (`C218_held`).
* **C219** The statement that a sample with another label never has a positive value (C172) holds for exact numbers only: with eleven samples and K = 11 the seventh gets 2^-27 (`C219_positive`), because the term added is formed as q*(i+1)/(i+1) in single precision.
* **C220** The scores of the explicit, CG, LiSSA, DataInf and EK-FAC attributors are attached to the model's parameters unless the caller uses `torch.no_grad()`; the library's own `lds`, `loo_corr` and `brittleness` then raise RuntimeError. Using `torch.no_grad()` for `cache` as well makes EK-FAC, RPS and the block-projected attributors raise.
* **C221** the default seeds do not work with the benchmark's own training functions: retrain_loo hands seed=None to torch.manual_seed (TypeError), and retrain_lds draws a 64-bit seed, which np.random.seed refuses unless it happens to be below 2^32. The training function shown in the documentation of retrain_loo has no seed parameter, but is called with one (TypeError).
* **C222** attribute transforms the test gradients inside the loop over training batches, so with LiSSA the scores of one test sample are not computed with one estimate of its inverse-Hessian product: scores of samples in different training batches carry independent noise and equal training samples are ranked at random; the estimation is also repeated once per training batch.
* **C223** EK-FAC's cache accumulates gradients in the model it analyses and never clears them, in contrast to the block-projected and DVEmb attributors, which clear the user's gradients; none restores them.
* **C224** ArnoldiProjector seeds the process-wide generator (torch.manual_seed) instead of a generator of its own, as the random projectors have, and does so in the first projection rather than in cache.
* **C225** rps_finetune_theta returns theta.data without copying, so the stored weights can be the live weights of the model's final layer, while all other iterates are separate tensors.
* **C226** retrain_lds and retrain_loo draw from the first len(sampler) positions of the data set instead of the sampled positions, and brittleness removes row numbers instead of the positions of these rows; with a sampler other than 0..n-1 the metrics relate scores and models of different samples, without an error or warning.
* **C227** The compatibility table says that the explicit influence function, DataInf and LoGra/GraSS do not take dicts (they do, the latter if the model returns a loss) and that Arnoldi takes tuples (TypeError; the default collate function of PyTorch turns tuples into lists, so this shows with custom ones). LiSSA has a dict branch and an error message that names dict, but a dict always fails later with AttributeError.
* **C228** A loader with a batch sampler is an ordinary torch loader, but most attributors raise a bare TypeError for it, self_attribute returns rows in the sampler's order or raises RuntimeError, and the retraining functions silently hand out single uncollated items instead of batches.
* **C229** LiSSA, Arnoldi and DataInf cannot be used with double precision models (they raise RuntimeError), because of a cast of the data, a start vector and a buffer in single precision; the other influence functions and TracIn silently round double precision scores to single precision, while TRAK keeps them. KNN-Shapley ranks by distances rounded to single precision.
* **C230** A parameter frozen after the task has loaded a checkpoint stays in the flat vector but is skipped when the vector is read, so all later trainable parameters silently get other parameters' entries; a parameter unfrozen afterwards gives RuntimeError. The names should be remembered once, or recomputed at each call.
* **C231** NaN gradients are silently counted as zero by TracIn and TRAK (a sample whose gradient is lost gets the score zero, as if it had no influence), while with CG or DataInf a single such training sample turns every score into NaN.
* **C232** DataInf with layer_name cuts the gradients of the selected parameters at the layer boundaries of the whole model, because _get_layer_wise_reps asks for all parameters. Unless the selection is a beginning of the model (or small enough to fit into the first layer) the blocks, and so the scores, are wrong, without any error.
* **C233** `activate_dropout` on the model of a task with the default loading function is undone by the task's first call (and by every call if there are several checkpoints), but stays in effect for later calls of a task with one checkpoint, because a checkpoint that is already the current one is not loaded again.  DVEmb's `attribute` leaves the model in evaluation mode.
* **C234** With active dropout layers (as in `examples/pretrained_benchmark/trak_dropout_lds.py`) the explicit influence function, and CG with `mode="rev-fwd"`, raise `RuntimeError`, because `torch.func.hessian` and the plain `vmap` in CG do not allow random operations; the other methods work.  Test representations of the same sample differ between training batches.
* **C235** LoGra's documentation presents proj_dim_per_layer as the projection dimension; the error of the scores is that of its square root: with the default 4096 the relative mean squared error of a self score is 65/1024, against 1/2048 for an unfactorised projection to 4096 numbers.
* **C236** EK-FAC's default module list (all linear layers) raises KeyError for nanoGPT, whose lm_head.weight is the tensor listed as transformer.wte.weight.
* **C236** Layer-wise (LoGra, block-projected) and task gradients disagree for models with shared tensors: the former leave out the mixed terms.
* **C238** TracInAttributor projects to 512 dimensions also when `proj_params` is not given (documented as optional), and the branch for `proj_dim is None` cannot be reached; exact scores need proj_type='identity'.
* **C239** TRAKAttributor's defaults (proj_dim 512, regularization 0) cannot work with fewer than 512 training samples or parameters: the kernel matrix is singular and torch.linalg.solve raises (or, in floats, returns meaningless numbers). Nothing in the documentation says so.
* **C241** With as many training samples as columns (e.g. 512 with the default proj_dim) and no regulariser, the default TRAK scores of the training samples are diagonal: they are returned without any warning although they carry no information.

## Code that is modelled, and code that is not

| source (`/repo/dattri/...`) | modules |
|---|---|
| algorithm/data_shapley.py (KNN-Shapley) | `KNN/` |
| algorithm/base.py (inner-product attributors), algorithm/influence_function.py (explicit, CG, LiSSA transforms) | `Attr/` |
| algorithm/tracin.py | `TracIn/` |
| algorithm/trak.py | `TRAK/` |
| algorithm/influence_function.py (DataInf) | `DataInf/` |
| algorithm/influence_function.py (EK-FAC), func/fisher.py | `EKFAC/` |
| func/hessian.py (CG, LiSSA, Arnoldi) | `Hessian/` |
| func/projection.py, func/utils.py (chunk sizes) | `Projection/` |
| task.py, func/utils.py (flattening, partial parameters) | `Task/` |
| metric/*, model_util/retrain.py | `Metric/` |
| benchmark/utils.py (flip_label) | `Bench/` |
| algorithm/rps.py, algorithm/utils.py (line search, fine-tuning) | `RPS/` |
| algorithm/dvemb.py | `DVEmb/` |
| algorithm/block_projected_if/ (metadata, in-memory storage, preconditioners, attribution, self-influence) | `BlockIF/` |
| algorithm/block_projected_if/offload/disk_io/manager.py (storing, writers, finalising), memory_map.py (all but the JSON and memmap encoding), prefetch_dataset.py (all but the GPU transfer) | `Disk/` |
| algorithm/block_projected_if/core/hook.py, and how block_projected_if.py opens and closes its sessions | `Hook/` |
| algorithm/block_projected_if/core/compressor.py (set-up), algorithm/logra.py, algorithm/factgrass.py | `Compress/` |
| benchmark/models/MusicTransformer/midi_processor/processor.py (all but reading and writing MIDI files) | `Midi/` |
| benchmark/models/MusicTransformer/dataset/e_piano.py, benchmark/datasets/shakespeare_char/data.py | `Bench/Windows` |
| benchmark/models/MusicTransformer/rpr.py (logits of relative attention) | `Bench/Skew` |
| script/dattri_retrain_nanogpt.py, benchmark/models/nanoGPT/train.py (data order, checkpoints, learning rate) | `Bench/NanoGPT*` |
| script/dattri_retrain.py (argument parsing and dispatch) | `Script/` |
| model_util/dropout.py | `ModelUtil/` |
| benchmark/datasets/maestro/maestro_musictransformer.py (training loop), benchmark/models/MusicTransformer/utilities/run_model.py (evaluation) | `Bench/Maestro` |
| benchmark/models/MusicTransformer/utilities/lr_scheduling.py, loss.py | `Bench/MusicLoss` |
| benchmark/datasets/wikitext2/data.py (after the tokenizer), benchmark/datasets/cifar/data.py (CIFAR-2) | `Bench/Texts` |
| algorithm/influence_function.py (relative influence denominators, Arnoldi attributor) | `Attr/Relatif`, `Attr/Arnoldi` |
| `func/fisher.py` explicit products | `Hessian/FisherModel` |
| `algorithm/dvemb.py` 216-261, 307-410, 480-504, 644-678 | `DVEmb/ContextModel` |
| `offload/disk_io/manager.py` 701-828 | `Disk/RetrieveModel` |
| `block_projected_if.py:314-604, 748-813` with `offload/disk.py:66-90, 140-190` | `BlockIF/DiskModel` |
| `block_projected_if.py:415-467` with `offload/memory.py:164-189`, `cpu.py:169-205`, `disk_io/manager.py:877-971` | `BlockIF/PrecondModel` |
| `func/hessian.py:31-327` | `Hessian/HvpModel` |
| `dattri/benchmark/models/nanoGPT/model.py` (network, `generate`, `configure_optimizers`, `get_num_params`, `crop_block_size`) | `Bench/GPTModel`, `Bench/GPTGenModel` |
| `dattri/benchmark/models/MusicTransformer/music_transformer.py`, `rpr.py`, `positional_encoding.py`, `generate.py` | `Bench/MusicNetModel`, `Bench/MusicGenModel`, `Bench/SkewModel` |
| `dattri/task.py` (gradient functions), `algorithm/influence_function.py`, `tracin.py` as derivatives | `Attr/DerivModel` |
| `dattri/algorithm/dvemb.py` in an SGD training loop | `DVEmb/DerivModel` |
| `dattri/algorithm/block_projected_if/offload/memory.py`, `cpu.py` | `BlockIF/OffloadModel` |
| `dattri/benchmark/models/logistic_regression/logistic_regression.py`, `dattri/benchmark/datasets/mnist/mnist_lr.py` (loss) | `Bench/LogRegModel` |
| `dattri/benchmark/load.py` | `Bench/LoadModel` |
| `dattri/benchmark/datasets/mnist`, `imagenet`, `wikitext2`, `maestro` (loss functions), `models/mlp`, `models/logistic_regression` | `Bench/LossModel` |
| `dattri/benchmark/datasets/mnist`, `cifar`, `imagenet` (training functions) | `Bench/TrainModel` |
| `dattri/benchmark/models/resnet9/resnet9.py`, `datasets/cifar/cifar_resnet9.py` (loss) | `Bench/ResNetModel` |
| `dattri/metric/*` with `dattri/model_util/retrain.py` (composition) | `Metric/EvalModel` |
| `dattri/algorithm/influence_function.py` (IFAttributorCG) | `Attr/CGAttrModel` |
| `dattri/func/projection.py` (random_project, make_random_projector), `dattri/func/utils.py` (_vectorize) | `Projection/RandomModel` |
| block_projected_if/offload/cpu.py, memory.py, __init__.py (devices) | `BlockIF/DeviceModel` |
| algorithm/base.py, tracin.py, data_shapley.py (`drop_last`) | `Base/DropLoader`, `Attr/DropModel`, `KNN/DropModel` |

Not modelled: the neural network definitions and training loops of the benchmark (their training behaviour is numerical and random),
downloading of data sets, device placement, CUDA kernels (`fast_jl`, `sjlt` enter by their documented meaning).
