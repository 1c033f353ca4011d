{"id": "C01", "title": "KNN-Shapley returns exact Shapley values", "statement": "When 1 <= K <= N, the scores that KNNShapleyAttributor computes for one test point are exactly the Shapley values of the game on the N training points whose utility for a coalition S is (1/K) times the number of label-matching points among the min(K,|S|) members of S nearest to the test point.", "quantifier": "every N, every K with 1<=K<=N, every distance ordering and every pattern of label matches", "why_tests_cant": "The Shapley value averages over all 2^(N-1) coalitions (or N! orders); tests compare a few sizes, and the recursion must match the definition for all N and K.", "anchors": ["dattri/algorithm/data_shapley.py: KNNShapleyAttributor.attribute", "dattri/algorithm/data_shapley.py: KNNShapleyAttributor._knn_shapley / recursion lines 191-210"]}
{"id": "C02", "title": "KNN-Shapley with K larger than the training set", "statement": "When K > N the game is additive and every Shapley value is 1[label match]/K; the returned scores differ from it by one common constant for all training points, namely 1[the farthest point matches] * (1/N - 1/K), so the scores are correct exactly when the farthest point does not match.", "quantifier": "every N >= 1, every K > N, every distance ordering and label pattern", "why_tests_cant": "Nothing in the API rejects K > N; a numeric test at one (N,K) with a non-matching farthest point would pass.", "anchors": ["dattri/algorithm/data_shapley.py: KNNShapleyAttributor.attribute"]}
{"id": "C03", "title": "KNN-Shapley efficiency and placement", "statement": "The returned matrix has shape (num_test, num_train) (the docstring says the opposite): for 1 <= K <= N each row sums to the KNN utility of the whole training set (fraction of label matches among the K nearest points), entry (j,i) always refers to test point j and training point i, and the result does not depend on how the test set is cut into batches.", "quantifier": "every training/test set, every batch size, every K with 1<=K<=N", "why_tests_cant": "Placement by argsort + scatter and batch offsets has to be right for all permutations and batch partitions.", "anchors": ["dattri/algorithm/data_shapley.py: KNNShapleyAttributor.attribute"]}
{"id": "C04", "title": "Multi-checkpoint attribution is the mean over checkpoints", "statement": "The score matrix returned by a gradient inner-product attributor (influence functions, Grad-Dot style subclasses) for checkpoints c_0..c_{n-1} is the arithmetic mean of the n score matrices that each checkpoint yields on its own, although the code computes it by in-place rescaling.", "quantifier": "every number n >= 1 of checkpoints and every per-checkpoint score", "why_tests_cant": "The in-place update tda*=i; +=; /=i+1 is a running mean only if the algebra works for every n; tests use 1-3 checkpoints.", "anchors": ["dattri/algorithm/base.py: BaseInnerProductAttributor.attribute"]}
{"id": "C05", "title": "Attribution is independent of batching", "statement": "For unshuffled loaders, entry (i,j) of BaseInnerProductAttributor.attribute is the inner product of the representation of the i-th training sample and the j-th test sample, whatever the train and test batch sizes are; every entry is written exactly once per checkpoint and no row or column is left at its initial zero.", "quantifier": "every dataset sizes, every pair of batch sizes >= 1 (including ones not dividing the sizes)", "why_tests_cant": "Row/column offsets come from batch index times batch size with a ragged last batch; tests try a handful of sizes.", "anchors": ["dattri/algorithm/base.py: BaseInnerProductAttributor.attribute"]}
{"id": "C06", "title": "self_attribute of the inner-product attributor", "statement": "self_attribute returns for each training sample its inner product with itself (the diagonal of attribute(train,train)) when the loader yields exactly one batch; with more than one batch the per-batch vector is added to the full-length accumulator, so the call raises unless the batch has length 1, in which case the value is broadcast to all rows and the result is wrong. Loaders of unsupported batches raise TypeError, unknown relatif methods ValueError, known ones RuntimeError.", "quantifier": "every number of samples and batch size", "why_tests_cant": "Existing tests use loaders whose single batch covers the data set.", "anchors": ["dattri/algorithm/base.py: BaseInnerProductAttributor.self_attribute"]}
{"id": "C07", "title": "attribute() without cache() is history dependent", "statement": "If cache() is never called, the first attribute(train,test) call fixes the full training loader for all later calls; so the k-th call of any sequence uses the Hessian data of the first call, and its result is guaranteed to equal that of a fresh attributor only when the two loaders give the same transformed test representations (it can differ otherwise). After an explicit cache(full) all calls use `full`.", "quantifier": "every sequence of cache and attribute calls", "why_tests_cant": "State leaks only show up across call histories.", "anchors": ["dattri/algorithm/base.py: BaseInnerProductAttributor.attribute", "dattri/algorithm/base.py: BaseInnerProductAttributor.cache"]}
{"id": "C08", "title": "IHVP accumulation over the full training loader", "statement": "The explicit/CG/LiSSA influence functions transform the test gradient v into the SUM over full-train batches of (H_b + lambda I)^{-1} v. With a single batch this is the regularised inverse-Hessian-vector product; for a loader cut into m equal-Hessian batches it is m times that value, so scores scale with the number of batches and the result depends on the batch size of the loader passed to cache().", "quantifier": "every list of per-batch (invertible) Hessians and every test vector", "why_tests_cant": "Unit tests cache with one batch size and compare rank correlations.", "anchors": ["dattri/algorithm/influence_function.py: IFAttributorExplicit.transform_test_rep", "dattri/algorithm/influence_function.py: IFAttributorCG.transform_test_rep"]}
{"id": "C09", "title": "TracIn is the checkpoint-weighted sum of gradient inner products", "statement": "TracInAttributor.attribute raises ValueError iff the number of weights differs from the number of checkpoints; otherwise entry (i,j) is the sum over checkpoints c of weight_c times the (optionally normalised) inner product of the projected gradients of train sample i and test sample j, independent of both batch sizes.", "quantifier": "every dataset, batch size, number of checkpoints and weights", "why_tests_cant": "Offsets, ragged last batches and weights interact; tests sample a few.", "anchors": ["dattri/algorithm/tracin.py: TracInAttributor.attribute"]}
{"id": "C10", "title": "TracIn self-attribution is the diagonal", "statement": "TracInAttributor.self_attribute on a loader returns exactly the diagonal of attribute(loader, loader) for un-normalised gradients when the target function is the loss (the default), for every batch size; with normalised gradients every sample gets the same value, the sum of the checkpoint weights, so self-influence ranking carries no information.", "quantifier": "every dataset, batch size and checkpoint list", "why_tests_cant": "Two separate code paths must agree on all inputs.", "anchors": ["dattri/algorithm/tracin.py: TracInAttributor.self_attribute", "dattri/algorithm/tracin.py: TracInAttributor.attribute"]}
{"id": "C11", "title": "TracIn normalised scores are bounded", "statement": "With normalised gradients and non-negative weights every TracIn score has absolute value at most the sum of the checkpoint weights, and is exactly that sum when at each checkpoint the test gradient is a positive multiple of the train gradient and both norms are at least 1e-12.", "quantifier": "every list of gradients and non-negative weights", "why_tests_cant": "A bound over a continuous domain.", "anchors": ["dattri/algorithm/tracin.py: TracInAttributor.attribute"]}
{"id": "C12", "title": "TRAK with cache equals TRAK without cache", "statement": "TRAKAttributor.attribute(test) after cache(train) returns exactly what attribute(train,test) returns on a fresh attributor with the same projector and checkpoints; supplying a train loader after cache(), or none without cache(), raises ValueError.", "quantifier": "every train/test set, batch sizes, number of checkpoints and regulariser", "why_tests_cant": "Two code paths with separately maintained running averages must agree for all inputs.", "anchors": ["dattri/algorithm/trak.py: TRAKAttributor.cache", "dattri/algorithm/trak.py: TRAKAttributor.attribute"]}
{"id": "C13", "title": "TRAK scores are the ensemble formula", "statement": "The TRAK score of train i on test j is (mean over checkpoints of phi_test_j^T (Phi^T Phi + lambda I)^{-1} phi_i) times (mean over checkpoints of Q_i), for any number of checkpoints; for lambda > 0 the regularised Gram matrix is always invertible, also with fewer training points than projection dimensions.", "quantifier": "every number of checkpoints, every feature matrix, every lambda > 0", "why_tests_cant": "Running averages and invertibility over all real matrices.", "anchors": ["dattri/algorithm/trak.py: TRAKAttributor.attribute"]}
{"id": "C14", "title": "TRAK self_attribute", "statement": "self_attribute() called with no loader after cache() always raises (the shuffle check dereferences the missing loader), and with a loader it returns an (n,1) matrix holding the self scores rather than a length-n vector.", "quantifier": "every cached state", "why_tests_cant": "The failing path has no test.", "anchors": ["dattri/algorithm/trak.py: TRAKAttributor.self_attribute"]}
{"id": "C15", "title": "DataInf transform is the averaged Sherman-Morrison inverse", "statement": "For every layer, DataInf's transformed test gradient is the mean over cached training gradients g of (g g^T + r I)^{-1} v, with r > 0 the regularisation, i.e. each summand w satisfies (g.w) g + r w = v. With the constructor's default regularization 0.0 every result is non-finite.", "quantifier": "every dimension, every multiset of cached gradients, every r > 0 and test gradient", "why_tests_cant": "Matrix identity over all real vectors.", "anchors": ["dattri/algorithm/influence_function.py: IFAttributorDataInf.transform_test_rep"]}
{"id": "C16", "title": "DataInf is independent of chunking and of cached-gradient order", "statement": "DataInf's transformed test representation does not depend on the test batch size (by which the cached gradients are split into chunks) or on the order of the cached gradients. It does depend on the batch size of the loader given to cache(), because one gradient per batch, not per sample, is stored.", "quantifier": "every partition into batches and every permutation", "why_tests_cant": "Exponentially many partitions.", "anchors": ["dattri/algorithm/influence_function.py: IFAttributorDataInf.cache", "dattri/algorithm/influence_function.py: IFAttributorDataInf.transform_test_rep"]}
{"id": "C17", "title": "EK-FAC preconditioning solves the damped Kronecker-eigenbasis system", "statement": "With orthogonal eigenvector matrices Q_S, Q_A and corrected eigenvalues Lambda + damping > 0, the EK-FAC transform of a layer gradient V is the unique W with Q_S^T-basis operator applied to W equal to V; it is linear and symmetric. It uses the ROWS of the stored matrices as eigenvectors, while torch.linalg.eigh stores them in columns, so it equals (S (x) A + damping)^{-1} V when the row convention is met, the column convention needs the transposed matrices, and a 2x2 rational rotation with statistics estimated by the code itself gives a wrong answer.", "quantifier": "every dimension, every orthogonal pair and positive eigenvalue table", "why_tests_cant": "Identity over all orthogonal matrices; tests check only correlation or shapes.", "anchors": ["dattri/algorithm/influence_function.py: IFAttributorEKFAC.transform_test_rep", "dattri/func/fisher.py: estimate_eigenvector"]}
{"id": "C18", "title": "EK-FAC bias layout", "statement": "For a linear layer with bias, the (out, in+1) matrix EK-FAC builds by concatenating flattened weight and bias gradients and reshaping row-major is not [W|b]: entry (i,j) of it is flat position i*(in+1)+j, which equals the augmented gradient's entry for all gradients iff out <= 1 or in = 0.", "quantifier": "every out, in and every gradient", "why_tests_cant": "Layout statement over all shapes.", "anchors": ["dattri/algorithm/influence_function.py: IFAttributorEKFAC.transform_test_rep"]}
{"id": "C19", "title": "EK-FAC covariance and lambda are pooled averages", "statement": "After any sequence of batches, the running covariance (and lambda) equals the pooled average over all samples seen, independent of the order of batches and of how samples are split into batches of any sizes (layers with two-dimensional inputs). A first hooked layer with sequence input raises UnboundLocalError; a later one silently gets the input covariance of the previous layer.", "quantifier": "every sequence of batches of arbitrary positive sizes", "why_tests_cant": "Running weighted average over all partitions.", "anchors": ["dattri/func/fisher.py: _update_covariance", "dattri/func/fisher.py: _update_lambda"]}
{"id": "C20", "title": "Random batch iterator partitions the samples", "statement": "The random batch iterator provided for Fisher estimation yields each sample index of the batch exactly once, in batches of the requested size except possibly the last; a requested size larger than the number of samples is clamped to it, and zero samples raises.", "quantifier": "every number of samples, batch size and permutation", "why_tests_cant": "All permutations and sizes.", "anchors": ["dattri/func/fisher.py: _random_batch_iterator"]}
{"id": "C21", "title": "CG tracks the true residual", "statement": "At every iteration before a zero division, the conjugate-gradient IHVP keeps residual = v - (H+lambda I) x for its iterate x.", "quantifier": "every symmetric or non-symmetric linear operator, vector and number of iterations", "why_tests_cant": "Invariant of an unbounded loop.", "anchors": ["dattri/func/hessian.py: ihvp_cg"]}
{"id": "C22", "title": "CG solves the system exactly after n steps", "statement": "For a symmetric positive definite operator on an n-dimensional space, exact-arithmetic CG has residual zero after some k <= n steps: successive residuals are orthogonal and directions conjugate, so the result for max_iter = k is H^{-1} v (and non-finite for max_iter > k, see C23).", "quantifier": "every n, SPD operator and vector", "why_tests_cant": "Convergence proof over all SPD systems.", "anchors": ["dattri/func/hessian.py: ihvp_cg"]}
{"id": "C23", "title": "CG breaks down once the residual is exactly zero", "statement": "The loop always runs max_iter iterations and never tests its `tol`; if the residual becomes exactly zero at an iteration k < max_iter the next step divides 0 by 0, so the returned vector is undefined (NaN) instead of the already exact solution; e.g. for the identity operator with max_iter >= 1 every vector.", "quantifier": "every operator/vector whose residual vanishes before max_iter", "why_tests_cant": "Float tests rarely hit an exactly zero residual.", "anchors": ["dattri/func/hessian.py: ihvp_cg"]}
{"id": "C24", "title": "LiSSA computes a truncated Neumann series", "statement": "With deterministic Hessian-vector products, T-step LiSSA with damping d and scaling s returns x with (d I + H/s) (s x) = v - (I - d I - H/s)^{T+1} v; so the error is exactly the T+1-st power of the iteration matrix applied to v, the true damped IHVP is its only fixed point, and when that matrix is a contraction the result converges to it.", "quantifier": "every linear operator, vector, damping, scaling and recursion depth", "why_tests_cant": "Identity for every depth.", "anchors": ["dattri/func/hessian.py: ihvp_lissa"]}
{"id": "C25", "title": "ihvp_at_x_lissa ignores the caller's intent for num_repeat and batch_size", "statement": "ihvp_at_x_lissa(..., batch_size=b, num_repeat=r) runs r-sized batches and b repeats: it is equal to ihvp_lissa with the two arguments exchanged, hence equal to the documented call iff b = r (or the sampling is insensitive to both).", "quantifier": "every b and r", "why_tests_cant": "With defaults or deterministic data the two calls coincide.", "anchors": ["dattri/func/hessian.py: ihvp_at_x_lissa"]}
{"id": "C26", "title": "Arnoldi iteration yields an orthonormal Krylov basis", "statement": "With norm_constant = 1, the vectors produced by the Arnoldi routine are orthonormal, and A q_k = sum_{j<=k+1} H_{jk} q_j holds for every completed step, for every linear operator and start vector; with norm_constant different from 1 the first vector has norm 1 and the others norm |c| (except the short last one of a loop that broke off), so the coefficient of the first vector is off by c^2 and the second vector is orthogonal to the first only if c^2 = 1 or q_0 . A q_0 = 0.", "quantifier": "every linear operator, every start vector, every number of steps before break", "why_tests_cant": "Invariant of Gram-Schmidt for all operators.", "anchors": ["dattri/func/hessian.py: _arnoldi_iter / ihvp_arnoldi"]}
{"id": "C27", "title": "BasicProjector: blocks and ensembles use distinct seeds", "statement": "For projection dimension up to 10000 (at most 100 blocks), distinct (block, ensemble) pairs of a BasicProjector always use distinct generator seeds; for more than 100 blocks, block i >= 100 of ensemble e uses the same seed as block i-100 of ensemble e+1, so supposedly independent ensemble projections share columns: for the dense types, column j >= 100 * block_size of ensemble e is column j - 100 * block_size of ensemble e+1.", "quantifier": "every seed, block index and ensemble id", "why_tests_cant": "Collision needs proj_dim > 10000 and two ensembles.", "anchors": ["dattri/func/projection.py: BasicProjector"]}
{"id": "C28", "title": "BasicProjector result does not depend on call history", "statement": "For any sequence of project(grads, ensemble_id) calls on one BasicProjector (and with free_memory in the multi-block case), each result equals that of a fresh projector with the same seed; after free_memory with a single block, projecting again with the last ensemble id raises.", "quantifier": "every call sequence with arbitrary ensemble ids", "why_tests_cant": "Histories are unbounded.", "anchors": ["dattri/func/projection.py: BasicProjector.project", "dattri/func/projection.py: BasicProjector.free_memory"]}
{"id": "C29", "title": "Random projections are linear and row-wise", "statement": "project(grads) is linear in grads and treats each row independently: the projection of a concatenated batch is the concatenation of projections, so projecting per batch or at once gives the same rows.", "quantifier": "every batch split, every pair of inputs and scalars", "why_tests_cant": "Algebraic law over all inputs.", "anchors": ["dattri/func/projection.py: BasicProjector.project", "dattri/func/projection.py: random_project"]}
{"id": "C30", "title": "GraSS intermediate dimension is history dependent", "statement": "CudaProjector with a GraSS type whose proj_dim*multiplier exceeds feature_dim mutates its multiplier on first use; the mask size used on the first call is feature_dim and on later ensemble changes it is (feature_dim // proj_dim)*proj_dim, so (for proj_dim > 0, multiplier >= 0 and ensemble ids different from -1) the results are history independent iff proj_dim*multiplier <= feature_dim or proj_dim divides feature_dim.", "quantifier": "every feature_dim, proj_dim, multiplier and call sequence", "why_tests_cant": "Needs a specific divisibility and two ensemble ids.", "anchors": ["dattri/func/projection.py: CudaProjector._gen_randomness_grass"]}
{"id": "C31", "title": "Parameter chunking covers all parameters and respects the limit", "statement": "get_parameter_chunk_sizes returns chunk sizes that sum to the total number of parameters, each at most the limit (2^32-1)//(2*batch_size) and, except for a possible [0], positive; the loop terminates iff the limit is positive or the list is empty; the limit is positive iff 1 <= batch_size <= 2^31-1, and batch_size 0 is a division by zero.", "quantifier": "every list of parameter sizes and batch size", "why_tests_cant": "Greedy loop with splits; all lists.", "anchors": ["dattri/func/utils.py: get_parameter_chunk_sizes"]}
{"id": "C32", "title": "Chunked dict projection agrees with chunk sizes", "statement": "ChunkedCudaProjector.dict_project equals projecting the concatenated rows (whatever stale data its buffer holds) exactly when no single parameter exceeds the limit and no group of several non-empty parameters is filled exactly to the limit; in every other case it raises (ValueError or RuntimeError). A batch larger than feature_batch_size raises.", "quantifier": "every list of parameter sizes and limit", "why_tests_cant": "Off-by-one between two separate greedy loops (> versus >=).", "anchors": ["dattri/func/projection.py: ChunkedCudaProjector.dict_project", "dattri/func/utils.py: get_parameter_chunk_sizes"]}
{"id": "C33", "title": "Flatten/unflatten round trip", "statement": "flatten_params followed by unflattening with the model's shapes restores every named tensor exactly, and conversely; so flat-parameter functions see the same parameters as the dictionary API.", "quantifier": "every ordered list of named tensors of any shapes", "why_tests_cant": "Round trip over all shapes.", "anchors": ["dattri/func/utils.py: flatten_params", "dattri/func/utils.py: _unflatten_params", "dattri/func/utils.py: flatten_func"]}
{"id": "C34", "title": "partial_param contaminates the captured parameters", "statement": "A function wrapped by partial_param(full_param, layer_name) evaluates the model with the given values for the named layers and the captured values elsewhere on the first call, but writes the passed values into the captured dictionary; so a later read of the task's parameters returns the last evaluated point, and two calls that pass values for the same layers are nevertheless independent of each other.", "quantifier": "every sequence of calls", "why_tests_cant": "Aliasing effect visible only through histories.", "anchors": ["dattri/func/utils.py: partial_param", "dattri/task.py: AttributionTask.get_param"]}
{"id": "C35", "title": "Task gradient-function cache never serves a stale function", "statement": "AttributionTask.get_grad_target_func / get_grad_loss_func memoise one function; for every sequence of requests the returned function is of the requested kind, in_dims and layer list, and (as long as all layer-restricted requests use one layer list) evaluates with the requested checkpoint's values in all other layers; with several layer lists the memo can serve a function contaminated by another function's argument.", "quantifier": "every request sequence", "why_tests_cant": "Cache coherence over histories.", "anchors": ["dattri/task.py: AttributionTask.get_grad_target_func", "dattri/task.py: AttributionTask.get_grad_loss_func"]}
{"id": "C36", "title": "Checkpoint loading always leaves the requested checkpoint in the model", "statement": "After any sequence of parameter and function requests, the parameters returned for index c are those of checkpoint c (unless a layer-restricted function has been called since c was loaded, see C34), the sequence of loads is the sequence of requested indices with consecutive repetitions removed, and an out-of-range index raises without changing anything.", "quantifier": "every sequence of checkpoint indices", "why_tests_cant": "Lazy reload correctness over histories.", "anchors": ["dattri/task.py: AttributionTask._load_checkpoints", "dattri/task.py: AttributionTask.get_param"]}
{"id": "C37", "title": "Automatic parameter-layer map", "statement": "The automatic layer map assigns consecutive integers starting at 0 to the parameters in order, is non-decreasing with steps of at most one, and gives two adjacent parameters the same number iff they belong to the same module; parameters of one module that are not adjacent get different numbers.", "quantifier": "every ordered list of parameter names", "why_tests_cant": "Unbounded name lists.", "anchors": ["dattri/task.py: AttributionTask._generate_param_layer_map"]}
{"id": "C38", "title": "AUC equals the Mann-Whitney statistic", "statement": "When both classes are present, the AUC returned by mislabel_detection_auc equals the fraction of (noisy, clean) pairs in which the noisy sample is ranked before the clean one by the sort used; so it lies in [0,1], is 1 iff all noisy samples are ranked first, and for distinct scores is invariant under strictly increasing transforms of the scores.", "quantifier": "every score vector, every noise set with both classes non-empty", "why_tests_cant": "Combinatorial identity for all n.", "anchors": ["dattri/metric/metrics.py: mislabel_detection_auc"]}
{"id": "C39", "title": "ROC curve shape", "statement": "The returned ROC lists have n+1 points, start at (0,0), end at (1,1), are coordinate-wise non-decreasing and lie in the unit square; the call raises ZeroDivisionError iff n > 0 and one class is empty.", "quantifier": "every score vector and noise set", "why_tests_cant": "All n.", "anchors": ["dattri/metric/metrics.py: mislabel_detection_auc"]}
{"id": "C40", "title": "LDS invariances", "statement": "The LDS of a test sample is unchanged when the scores of that test sample are multiplied by a positive constant, when a constant is added to all scores and all subsets have the same size, when the index order inside a subset changes, and when the ground-truth column goes through a strictly increasing map; it is negated by multiplying the scores by a negative constant and by a strictly decreasing map of the ground truth.", "quantifier": "every score matrix, subset family, ground truth", "why_tests_cant": "Invariance over function spaces.", "anchors": ["dattri/metric/metrics.py: lds"]}
{"id": "C41", "title": "LDS is a correlation", "statement": "Whenever it is defined (neither vector of ranks constant), each LDS value lies in [-1,1], equals 1 if the subset sums and the ground truth are ordered identically, and the score/ground-truth roles are symmetric.", "quantifier": "every input where the ranks are not constant", "why_tests_cant": "Bound over continuous domain.", "anchors": ["dattri/metric/metrics.py: lds"]}
{"id": "C42", "title": "LOO ground truth is ordered by removed index", "statement": "calculate_loo_ground_truth returns rows sorted by removed index with the matching index tensor, for whatever order the file system lists the directories; index_10 sorts after index_9. loo_corr ignores the index tensor: it correlates row i of the ground truth with row i of the scores, and raises ValueError as soon as the number of retrained models differs from the number of score rows, e.g. when only a subset of the indices was retrained.", "quantifier": "every set of retrained indices and every directory listing order", "why_tests_cant": "Listing order is environment dependent.", "anchors": ["dattri/metric/ground_truth.py: calculate_loo_ground_truth", "dattri/metric/ground_truth.py: _dir_to_index", "dattri/metric/metrics.py: loo_corr"]}
{"id": "C43", "title": "retrain_lds seeds are partition independent and distinct", "statement": "For a fixed seed, the subset of directory i and the training seed of run j of subset i depend only on (seed,i,j), not on which worker produced them; training seeds of distinct (i,j) are distinct. Hence any division of the subset range among workers yields the same directories as one sequential run.", "quantifier": "every seed, number of subsets, runs per subset and every partition into workers", "why_tests_cant": "All partitions.", "anchors": ["dattri/model_util/retrain.py: retrain_lds"]}
{"id": "C44", "title": "retrain_lds metadata completeness", "statement": "The metadata file written by retrain_lds lets calculate_lds_ground_truth read every subset iff the writing worker's directory map covers 0..num_subsets-1; in single mode (total_num_subsets=0) it always does; in parallel mode a worker writes metadata iff (start_id+1)*num_subsets = total, and the written file is complete iff start_id = 0, so any genuinely parallel run (more than one worker) leaves missing or unreadable metadata.", "quantifier": "every start_id, num_subsets, total_num_subsets", "why_tests_cant": "Needs multi-process runs; tests use a single worker.", "anchors": ["dattri/model_util/retrain.py: retrain_lds", "dattri/metric/ground_truth.py: calculate_lds_ground_truth"]}
{"id": "C45", "title": "indices.txt round trip", "statement": "The subset indices written by retrain_lds (decimal, newline separated) are read back by calculate_lds_ground_truth as exactly the same list, including the empty subset.", "quantifier": "every list of natural numbers", "why_tests_cant": "Parser/printer round trip over all lists.", "anchors": ["dattri/model_util/retrain.py: retrain_lds", "dattri/metric/ground_truth.py: calculate_lds_ground_truth"]}
{"id": "C46", "title": "LDS ground truth is the negated mean over runs", "statement": "Row i of the ground truth is minus the mean over runs j of the target values of model (i,j), and row i of the index tensor is the subset that model was trained on.", "quantifier": "every number of subsets and runs >= 1 and every target function", "why_tests_cant": "All sizes.", "anchors": ["dattri/metric/ground_truth.py: calculate_lds_ground_truth"]}
{"id": "C47", "title": "retrain_loo removes positions, one per directory", "statement": "retrain_loo trains, for each requested index, on all positions 0..n-1 except that index, in order; an index outside the range trains on everything; when the loader has a subset sampler the positions refer to the underlying dataset's first n items rather than to the sampled indices.", "quantifier": "every dataset size, sampler and index list", "why_tests_cant": "Sampler/position mix-up only visible with non-trivial samplers.", "anchors": ["dattri/model_util/retrain.py: retrain_loo"]}
{"id": "C48", "title": "brittleness returns the first flipping k", "statement": "brittleness returns the first k in the given search space for which removing the k highest-scored training points flips the prediction, or None iff none does; so it is the smallest flipping k of the search space when this is ascending, and need not be otherwise.", "quantifier": "every search space, score vector and retrain/eval function", "why_tests_cant": "All functions and search spaces.", "anchors": ["dattri/metric/britteness.py: brittleness", "dattri/metric/britteness.py: check_if_flip"]}
{"id": "C49", "title": "flip_label changes exactly the reported labels", "statement": "flip_label on a tensor changes exactly int(p*n) distinct positions, returns those positions, leaves all others untouched, and each changed label is in the label space (or, for labels outside a custom label space, in the space enlarged by labels flipped earlier) and different from the original label; the caller's tensor is not modified; the call raises ValueError when int(p*n)=0, a numpy input raises, and a label space given as a tensor does not exclude the original label.", "quantifier": "every label list, label space, p and every outcome of the random generator", "why_tests_cant": "Holds for each random outcome.", "anchors": ["dattri/benchmark/utils.py: flip_label", "dattri/benchmark/utils.py: _random_flip"]}
{"id": "C50", "title": "Backtracking line search terminates and guarantees descent", "statement": "The RPS backtracking line search terminates for every objective, within at most 37 halvings, and the accepted step either satisfies the sufficient-decrease test f(x - t g) < f(x) - t|g|^2/2 or has t below 1e-10 (or one of the compared values is NaN, which also ends the search).", "quantifier": "every objective function, point and gradient", "why_tests_cant": "Termination for every function.", "anchors": ["dattri/algorithm/utils.py: backtracking_line_search"]}
{"id": "C51", "title": "RPS fine-tuning keeps the best iterate", "statement": "rps_finetune_theta returns the visited parameter with the smallest mean absolute gradient among all epochs executed, and stops at the first epoch where it falls below 1/200 of the first one; it raises UnboundLocalError iff no epoch is requested or the first gradient is NaN or at least 10000 (even if later ones are smaller), and nothing else.", "quantifier": "every objective/gradient sequence and number of epochs", "why_tests_cant": "Loop invariant over all runs.", "anchors": ["dattri/algorithm/utils.py: rps_finetune_theta"]}
{"id": "C52", "title": "DVEmb embeddings are products of one-step propagators", "statement": "The embedding of a sample at step t equals eta_t times its gradient propagated by (I - eta_s H_s) for all later steps s of the run, H_s being the sum of outer products of that step's gradients; equivalently it is the final-parameter displacement when the sample's gradient step is perturbed in the linearised SGD trajectory.", "quantifier": "every number of epochs, steps, batches, gradients and learning rates", "why_tests_cant": "Recursion identity for all lengths.", "anchors": ["dattri/algorithm/dvemb.py: DVEmbAttributor.cache"]}
{"id": "C53", "title": "DVEmb total embedding is the sum over epochs; per-epoch attribution splits it", "statement": "attribute with epoch unspecified equals the sum over all stored epochs of attribute with that epoch; repeated occurrences of a sample within an epoch add up; unknown epochs raise ValueError, a call before cache or without a test batch RuntimeError.", "quantifier": "every stored run", "why_tests_cant": "Sum decomposition over all runs.", "anchors": ["dattri/algorithm/dvemb.py: DVEmbAttributor.attribute", "dattri/algorithm/dvemb.py: DVEmbAttributor.cache"]}
{"id": "C54", "title": "DVEmb keeps stale epochs", "statement": "Running clear_cache, re-caching a shorter run and recomputing leaves embeddings of the old run's extra epochs in place, so the total attribution equals the new run's plus the stale epochs' when both runs have the same number of samples, and raises RuntimeError otherwise.", "quantifier": "every pair of runs", "why_tests_cant": "History effect.", "anchors": ["dattri/algorithm/dvemb.py: DVEmbAttributor.clear_cache", "dattri/algorithm/dvemb.py: DVEmbAttributor.cache"]}
{"id": "C55", "title": "Factorised gradient compression equals projecting the full gradient", "statement": "Projecting the input and output-gradient factors of a linear layer separately and taking the outer product (summed over sequence positions) equals applying the Kronecker product of the two projections to the full per-sample weight gradient, for two- and three-dimensional activations; in DVEmb the three-dimensional case lays the product out transposed. With a one appended to the input the same covers the bias.", "quantifier": "every projection pair, activation and gradient, every sequence length", "why_tests_cant": "Kronecker identity over all inputs.", "anchors": ["dattri/algorithm/block_projected_if/core/compressor.py: Compressor.forward", "dattri/algorithm/dvemb.py: DVEmbAttributor kronecker projection"]}
{"id": "C56", "title": "Block-projected preconditioner is chunk invariant", "statement": "The per-layer preconditioner depends only on the multiset of per-sample gradients, not on batch boundaries or on how batches are grouped by the loader; it is the inverse of the mean outer product plus damping*trace/n times identity, which exists for any non-zero gradient set. A layer whose gradients are all zero makes the computation raise RuntimeError whatever the damping.", "quantifier": "every partition into batches and groups, every gradient set with non-zero trace, every damping > 0", "why_tests_cant": "All partitions.", "anchors": ["dattri/algorithm/block_projected_if/block_projected_if.py: BlockProjectedIFAttributor.compute_preconditioners", "dattri/algorithm/block_projected_if/core/utils.py: stable_inverse"]}
{"id": "C57", "title": "Layer concatenation and splitting round trip", "statement": "Storing per-layer gradients as one concatenated row and splitting it by the layer dimensions restores each layer's gradient; layers with an empty gradient become zeros of the layer's dimension, in storage and for test samples; a layer whose gradient is None is stored as zeros only for test samples, in storage it raises AttributeError.", "quantifier": "every list of layer dimensions and gradients", "why_tests_cant": "Round trip for all shapes.", "anchors": ["dattri/algorithm/block_projected_if/offload/cpu.py: _concatenate_gradients", "dattri/algorithm/block_projected_if/offload/memory.py: _concatenate_gradients / _split_tensor"]}
{"id": "C58", "title": "Sample-to-row mapping is a partition", "statement": "The batch-to-sample mapping kept by the metadata manager assigns consecutive half-open ranges that partition 0..n-1 in batch order for a fresh directory, for any n and batch size; with stale metadata of a different dataset having the same number of batches it is silently kept, and with fewer batches the extra stale ranges remain. A batch reported for the first time gets the range after the current total; reporting it again before the mapping or a save was asked for counts it twice in get_total_samples until the next save.", "quantifier": "every n, batch size, previous metadata and sequence of calls", "why_tests_cant": "Depends on on-disk history.", "anchors": ["dattri/algorithm/block_projected_if/core/metadata.py: MetadataManager.initialize_complete_dataset", "dattri/algorithm/block_projected_if/core/metadata.py: MetadataManager.add_batch_info", "dattri/algorithm/block_projected_if/core/metadata.py: MetadataManager.get_batch_to_sample_mapping"]}
{"id": "C59", "title": "Metadata save is crash-atomic", "statement": "At every crash point during save_metadata the metadata file on disk is either the complete old version or the complete new version, for a single writer; two writers sharing the directory can publish a file that is neither.", "quantifier": "every crash point and every old/new content", "why_tests_cant": "Crash points cannot be enumerated by unit tests.", "anchors": ["dattri/algorithm/block_projected_if/core/metadata.py: MetadataManager.save_metadata"]}
{"id": "C60", "title": "Block-projected attribution entries", "statement": "attribute() returns the matrix whose entry (i,j) is the inner product of the preconditioned gradient of cached training sample i with test sample j's compressed gradient, for every batching; its number of rows is the number of cached samples, whatever loader is passed.", "quantifier": "every batching and loader", "why_tests_cant": "Offsets over all partitions.", "anchors": ["dattri/algorithm/block_projected_if/block_projected_if.py: BlockProjectedIFAttributor.attribute"]}
{"id": "C61", "title": "Re-caching with an identity preconditioner serves stale results", "statement": "With the Identity Hessian the preconditioned gradients are derived lazily and reused if present; so once present they never change, whatever calls follow, and cache(A); attribute; cache(B); attribute with equal batch sizes returns scores of A. With the Fisher Hessian, if B has more batches than the loaders before it, or equally many of equal sizes, the second attribute returns the scores of B preconditioned with B's statistics.", "quantifier": "every A, B and call sequence", "why_tests_cant": "History effect.", "anchors": ["dattri/algorithm/block_projected_if/block_projected_if.py: BlockProjectedIFAttributor.attribute", "dattri/algorithm/block_projected_if/block_projected_if.py: BlockProjectedIFAttributor.cache"]}
{"id": "C62", "title": "Finalised disk writes are durable", "statement": "Suppose that between two returns of finalize_batch_range no chunk is flushed twice, which holds when one range is started per finalize, every batch lies in the range, has rows and is stored once per data type, and no chunk overflows its buffer. Then, under every interleaving of the storing thread and the background writers, when finalize_batch_range returns every batch stored since the previous return is on disk with its rows and no write has raised. If no write raises, the writers run out of steps after a bounded number and finalize_batch_range then returns.", "quantifier": "every interleaving of producer and writer and every sequence of stores", "why_tests_cant": "Thread schedules.", "anchors": ["dattri/algorithm/block_projected_if/offload/disk_io/manager.py: ChunkedMemoryIOManager.finalize_batch_range", "dattri/algorithm/block_projected_if/offload/disk_io/manager.py: _write_worker"]}
{"id": "C63", "title": "Buffer overflow breaks the durability barrier", "statement": "If one chunk is flushed twice (more than 2048 rows) there is an interleaving where finalize_batch_range returns while a write of that chunk is still queued and its batch is on no file, because outstanding writes are tracked by a set keyed by chunk.", "quantifier": "exists a schedule; for all schedules without double flush it cannot happen", "why_tests_cant": "Race condition.", "anchors": ["dattri/algorithm/block_projected_if/offload/disk_io/manager.py: ChunkedMemoryIOManager._async_flush_chunk_buffer"]}
{"id": "C64", "title": "Failed background write makes finalize hang", "statement": "If a background write raises, its pending mark is never removed, so finalize_batch_range does not return in any continuation in which no chunk is flushed twice. If the chunk is flushed twice, the second write removes the mark and finalize_batch_range can return normally although the first write was lost.", "quantifier": "every continuation schedule after a failed write", "why_tests_cant": "Liveness over infinite schedules.", "anchors": ["dattri/algorithm/block_projected_if/offload/disk_io/manager.py: _write_worker", "dattri/algorithm/block_projected_if/offload/disk_io/manager.py: finalize_batch_range"]}
{"id": "C65", "title": "Prefetch chunk cache is coherent", "statement": "Under every interleaving of foreground reads and background prefetches, an item read through the prefetching dataset equals the content of the chunk file, provided files do not change.", "quantifier": "every interleaving and request sequence", "why_tests_cant": "Thread schedules.", "anchors": ["dattri/algorithm/block_projected_if/offload/disk_io/prefetch_dataset.py: PrefetchDataset.__getitem__"]}
{"id": "C66", "title": "Chunk range loading selects the right rows", "statement": "Loading a sub-range of batches from a chunk returns exactly the rows of those batches, concatenated, with offsets remapped to the returned tensor.", "quantifier": "every chunk layout and range", "why_tests_cant": "All layouts.", "anchors": ["dattri/algorithm/block_projected_if/offload/disk_io/memory_map.py: ChunkedMemoryMapHandler.load_chunk_batch_range"]}
{"id": "C67", "title": "Hooks restore the model", "statement": "After any properly bracketed (non-overlapping) sequence of register/remove sessions on a model every module's forward is its original one; overlapping sessions on the same layers can leave a module permanently patched with a removed manager's wrapper. An active manager captures a layer in the slot given by the last position of the layer's name in its list.", "quantifier": "every session history", "why_tests_cant": "History effect.", "anchors": ["dattri/algorithm/block_projected_if/core/hook.py: HookManager.register_hooks", "dattri/algorithm/block_projected_if/core/hook.py: HookManager.remove_hooks"]}
{"id": "C68", "title": "Layer compressor seeds can coincide", "statement": "Sparsifier/projector seeds of distinct layers are distinct, but with block seeds (+1000 per block of 100 columns) block 10 of one layer's generator coincides with block 0 of the next layer's, whenever more than 1000 projected dimensions are used.", "quantifier": "every base seed and layer", "why_tests_cant": "Arithmetic coincidence.", "anchors": ["dattri/algorithm/block_projected_if/core/compressor.py: setup_model_compressors", "dattri/func/projection.py: BasicProjector"]}
{"id": "C69", "title": "Splitting nanoGPT retraining among jobs", "statement": "Any split of the range of models among jobs [start, end, total] produces together exactly the runs of one job for the whole range, in order; two runs share a directory or a seed only if they are for the same model. Model i (from 0) gets directory model_(i+1) and seed `seed + i - 1` (so the first model does not get the seed asked for, and a seed of 0 becomes -1, which NumPy refuses), each exactly if the configuration file has a line beginning with that name; other lines are unchanged. The ratio must lie in (0, 1].", "quantifier": "every split, seed, ratio and configuration file", "why_tests_cant": "All partitions and configuration files; a crash of a run is not reported by the script.", "anchors": ["dattri/script/dattri_retrain_nanogpt.py: retrain"]}
{"id": "C70", "title": "MIDI event code is a bijection on its vocabulary", "statement": "Encoding an event to an integer and decoding is the identity for all in-range events, distinct in-range events have distinct codes below the END token, and every code below 388 decodes to an in-range event.", "quantifier": "every event", "why_tests_cant": "Round trip on the whole vocabulary, incl. boundaries.", "anchors": ["dattri/benchmark/models/MusicTransformer/midi_processor/processor.py: Event.to_int", "dattri/benchmark/models/MusicTransformer/midi_processor/processor.py: Event.from_int"]}
{"id": "C71", "title": "Time-shift events add up to the rounded interval", "statement": "The time-shift events emitted for an interval are all in range and sum to the interval rounded to hundredths of a second, with the minimal number of events.", "quantifier": "every interval", "why_tests_cant": "All lengths.", "anchors": ["dattri/benchmark/models/MusicTransformer/midi_processor/processor.py: _make_time_sift_events"]}
{"id": "C72", "title": "MIDI encoding can lose a velocity change", "statement": "Decoding the encoding of a piece gives each note-on the velocity rounded down to a multiple of 4, unless the preceding event is a note-on whose raw velocity equals the new velocity divided by 4 (rounded down) and the new velocity is at least 4: then the change is lost and the decoded velocity is too low.", "quantifier": "every piece", "why_tests_cant": "Rare coincidence of raw and quantised velocity.", "anchors": ["dattri/benchmark/models/MusicTransformer/midi_processor/processor.py: _snote2events", "dattri/benchmark/models/MusicTransformer/midi_processor/processor.py: encode_midi"]}
{"id": "C73", "title": "Sustain preprocessing drops and repeats notes", "statement": "Without a completed use of the pedal no notes are returned at all, and a note starting after the last sustain is dropped. For notes in order of start, each note is returned once if some note starts after the first sustain that does not end before it, and otherwise once per sustain from that one on; so every note is returned exactly once exactly if the last note starts no later than the last sustain ends and after every other sustain has ended.", "quantifier": "every list of notes and sustains", "why_tests_cant": "Depends on the content of the MIDI file; the repetition appears only at the end of a piece.", "anchors": ["dattri/benchmark/models/MusicTransformer/midi_processor/processor.py: _note_preprocess"]}
{"id": "C74", "title": "Sequence windows are next-token aligned", "statement": "For every piece, offset and draw, target position k is the token following input position k, short pieces end with END (388) followed by padding (389), where a piece of events has END exactly once in its target and never in its input, windows never read past the piece. With a positive stride the table of the full version is built without a failing assertion and lists exactly the windows at multiples of the stride inside the pieces, each once; for non-overlapping windows inputs and targets join to prefixes of the piece and of the piece without its first token. With random_seq left on, the window at offset 0 starts at the random draw (the documentation says random_seq is ignored).", "quantifier": "every set of pieces, max_seq, stride, offset and random draw", "why_tests_cant": "All lengths and draws.", "anchors": ["dattri/benchmark/models/MusicTransformer/dataset/e_piano.py: process_midi", "dattri/benchmark/models/MusicTransformer/dataset/e_piano.py: EPianoDataset"]}
{"id": "C75", "title": "Character blocks partition the corpus", "statement": "The Shakespeare data set's inputs join to the longest prefix of the corpus whose length is a multiple of the block size; the targets join to as many tokens from the second on, where a 0 follows the corpus (used only by the very last target of a corpus whose length is a multiple of the block size). Indexing never fails: the index after the last block gives the tokens left over and every later index an empty input and zeros, so a plain loop over the data set does not end. Taking a subset raises exactly if it is empty or mixes items with different numbers of tokens.", "quantifier": "every corpus and block size >= 1", "why_tests_cant": "All lengths.", "anchors": ["dattri/benchmark/datasets/shakespeare_char/data.py: CustomDataset"]}
{"id": "C76", "title": "Relative attention scores", "statement": "In self-attention with relative positions, position i gets for j <= i the product with key j plus the product with the embedding of the distance i-j, independent of the length of the sequence; for j > i no relative term. The computation is defined exactly if the table has at least as many embeddings as positions, or only one.", "quantifier": "every sequence length, table size and score matrix", "why_tests_cant": "Index arithmetic of pad and reshape for all sizes.", "anchors": ["dattri/benchmark/models/MusicTransformer/rpr.py: _skew", "dattri/benchmark/models/MusicTransformer/rpr.py: _get_valid_embedding"]}
{"id": "C77", "title": "CUDA projector is history independent", "statement": "CudaProjector.project with ensemble id e returns the same result after any sequence of earlier project/free_memory calls as on a fresh projector (GraSS subject to C30); an ensemble id of -1 used first never generates randomness (TypeError, or an unprojected batch for random_mask).", "quantifier": "every projection type, call history and ensemble id", "why_tests_cant": "Call histories are unbounded; the sentinel -1 is an unlikely test input.", "anchors": ["dattri/func/projection.py: CudaProjector.project"]}
{"id": "C78", "title": "Random projections preserve inner products on average", "statement": "Averaged over all sign draws (Rademacher) or all hash/sign draws (SJLT), the inner product of two projected vectors equals the inner product of the originals; the 1/sqrt normalisation is right for every block size, projection dimension and sparsity.", "quantifier": "every feature dimension, projection dimension, block size and pair of vectors", "why_tests_cant": "A statement about an expectation over exponentially many draws.", "anchors": ["dattri/func/projection.py: BasicProjector", "dattri/func/projection.py: CudaProjector"]}
{"id": "C79", "title": "Random mask projection is not rescaled", "statement": "For random_mask, the inner product of two projected vectors averaged over all equally likely coordinate choices is proj_dim/feature_dim times the original inner product.", "quantifier": "every feature dimension, proj_dim and pair of vectors", "why_tests_cant": "Expectation over all subsets.", "anchors": ["dattri/func/projection.py: _gen_randomness mask"]}
{"id": "C80", "title": "Arnoldi projector represents the Arnoldi influence form", "statement": "When all kept eigenvalues are positive, inner products of ArnoldiProjector outputs equal the Arnoldi inverse-Hessian form of the inputs; the automatic reduction of proj_dim does not change the number of output columns; non-positive eigenvalues give non-finite columns.", "quantifier": "every set of Arnoldi vectors and eigenvalues", "why_tests_cant": "Algebraic identity for all inputs; eigenvalue sign depends on data.", "anchors": ["dattri/func/projection.py: ArnoldiProjector"]}
{"id": "C81", "title": "Accepted projection type strings", "statement": "random_project accepts on CPU exactly rademacher, normal, random_mask and identity; on CUDA also sjlt, grass and any string that starts with grass and contains an underscore. With exactly one underscore the multiplier is the integer after it (ValueError if it is not one); with more underscores it is silently 4. Any other device is rejected; a non-string projection type raises UnboundLocalError.", "quantifier": "every string, device and integer parser", "why_tests_cant": "All strings; malformed names are silently accepted.", "anchors": ["dattri/func/projection.py: _parse_grass_projection_type", "dattri/func/projection.py: random_project"]}
{"id": "C82", "title": "Layer selection drops unknown names and mistreats strings", "statement": "get_param with a list of layer names returns exactly the existing ones in request order and silently drops unknown names; without layer names it returns all parameters in their order, as it does when all names are listed in that order; a single string, although documented, is iterated by characters, so unless the model has one-character parameter names the flat request raises StopIteration and the split request returns an empty tuple and map.", "quantifier": "every model and every layer_name", "why_tests_cant": "All name lists and strings; documented type silently mishandled.", "anchors": ["dattri/task.py: AttributionTask.get_param"]}
{"id": "C83", "title": "Layer-restricted functions follow the loaded checkpoint", "statement": "A layer-restricted loss/target/gradient function obtained for checkpoint c and called later evaluates, in the layers that are not arguments, with the parameters of the checkpoint that is loaded at call time, not those of c (default in-place checkpoint loading).", "quantifier": "every history of requests and calls about one layer list", "why_tests_cant": "Aliasing of parameters across an unbounded history.", "anchors": ["dattri/task.py: AttributionTask", "dattri/func/utils.py: partial_param"]}
{"id": "C84", "title": "LDS ground truth follows the recorded directories", "statement": "calculate_lds_ground_truth(dir) reads only the metadata in dir and the subset files under the directories recorded in that metadata; a copied or moved result directory is therefore read from its original place, and raises FileNotFoundError once the original is gone.", "quantifier": "every file-system state and metadata", "why_tests_cant": "Tests read the directory they have just written.", "anchors": ["dattri/metric/ground_truth.py: calculate_lds_ground_truth", "dattri/model_util/retrain.py: retrain_lds"]}
{"id": "C85", "title": "brittleness inputs", "statement": "With a 2-D score tensor of the documented shape, brittleness raises TypeError at the first positive k it reaches (so it can only return 0 or, on an all-zero search space, None); a training loader whose sampler has no indices attribute raises AttributeError.", "quantifier": "every matrix height, search space, retrain/eval function", "why_tests_cant": "Tests only use 1-D scores and SubsetSampler.", "anchors": ["dattri/metric/britteness.py: brittleness", "dattri/metric/britteness.py: check_if_flip"]}
{"id": "C86", "title": "RPS scores decompose the fine-tuned pre-activation, scaled by 1/n", "statement": "For every loss, weights and data, the RPS scores of a test sample summed over the attributed training samples equal 1/n of (its pre-activation under the fine-tuned weights minus the gradient of the fine-tuning objective applied to its features over twice the l2 strength); at a minimum of the objective they sum to exactly the pre-activation divided by n (not to the pre-activation). With normalize_preactivate a score never exceeds its representer weight in size.", "quantifier": "every differentiable loss, weight matrix, training and test set", "why_tests_cant": "An exact identity over all losses and data; tests only compare shapes or correlations.", "anchors": ["dattri/algorithm/rps.py: RPSAttributor.attribute", "dattri/algorithm/utils.py: get_rps_weight"]}
{"id": "C87", "title": "RPS: which fine-tuned weights an attribution uses", "statement": "Without an earlier cache call attribute uses weights fine-tuned on its own training loader regardless of earlier attributions; after a successful cache it uses the weights of the last cached data; after a failing cache it silently reuses older weights or raises AttributeError. Only the sequence of samples matters, not the batching.", "quantifier": "every history of cache and attribute calls", "why_tests_cant": "Quantifies over histories including failed calls.", "anchors": ["dattri/algorithm/rps.py: RPSAttributor.cache", "dattri/algorithm/rps.py: RPSAttributor.attribute", "dattri/model_util/hook.py: get_final_layer_io"]}
{"id": "C88", "title": "DVEmb cache with external gradients empties the caller's dictionaries", "statement": "cache(gradients=..., learning_rates=...) with the default memory_saving empties the dictionaries passed by the caller, so the same call repeated raises ValueError; with memory_saving off or on failure they are untouched; without recorded batches external gradients always raise.", "quantifier": "every state and every pair of dictionaries", "why_tests_cant": "Aliasing effect on the caller's data for all inputs.", "anchors": ["dattri/algorithm/dvemb.py: DVEmbAttributor.cache", "dattri/algorithm/dvemb.py: DVEmbAttributor.clear_cache"]}
{"id": "C89", "title": "DVEmb factor projections: shared projector on square layers", "statement": "The requested projection type has no effect on the factorised projections, and for a square linear layer input and output are projected by the same matrix; hence elementwise compression sees only the symmetric part of the weight gradient, and samples with a non-zero antisymmetric gradient are compressed to zero for every seed.", "quantifier": "every seed, generator, dimension and sample", "why_tests_cant": "No finite number of random draws shows a dependence for all seeds.", "anchors": ["dattri/algorithm/dvemb.py: DVEmbAttributor._setup_projectors", "dattri/algorithm/dvemb.py: DVEmbAttributor._project_gradients_factors_elementwise"]}
{"id": "C90", "title": "DVEmb needs an epoch numbered zero", "statement": "If no recorded step has epoch number 0 (for example epochs counted from 1), cache raises KeyError and stores nothing.", "quantifier": "every well-formed run", "why_tests_cant": "All runs without epoch zero.", "anchors": ["dattri/algorithm/dvemb.py: DVEmbAttributor.cache"]}
{"id": "C91", "title": "Re-caching fewer batches keeps the old tail", "statement": "With the Fisher Hessian, after cache(A) and cache(B) where B has fewer batches than A, attribute returns a row for every sample of B and additionally for every sample in A's batches beyond B's number of batches, and all scores are preconditioned with the statistics of this union; in general the rows are those of the batches found in storage, a later loader replacing batches by index.", "quantifier": "every history of successful calls", "why_tests_cant": "Depends on the whole call history.", "anchors": ["dattri/algorithm/block_projected_if/block_projected_if.py: BlockProjectedIFAttributor.cache", "dattri/algorithm/block_projected_if/core/metadata.py: MetadataManager.initialize_complete_dataset", "dattri/algorithm/block_projected_if/offload/memory.py: MemoryOffloadManager.store_gradients"]}
{"id": "C92", "title": "Identity re-caching of a longer loader gives zero rows", "statement": "With the Identity Hessian, after cache(A), attribute, and cache(B) where B has more batches than A and its first batches have the sizes of A's, attribute returns one row per sample of B; rows of A's positions are the scores of A and all further rows are zero, without error.", "quantifier": "every A, B, test loader", "why_tests_cant": "History effect for all loaders.", "anchors": ["dattri/algorithm/block_projected_if/block_projected_if.py: BlockProjectedIFAttributor.attribute"]}
{"id": "C93", "title": "Block-projected self-influence", "statement": "compute_self_attribution returns for each cached sample the inner product of its gradient with its own preconditioned gradient, for every batching, and equals the diagonal of attribute with the training samples as test samples (Fisher Hessian); with the Identity Hessian after cache(A), attribute, cache(B) it is the inner product of B's and A's gradients of the same position.", "quantifier": "every batching and history of successful calls", "why_tests_cant": "Alignment of two loaders over all partitions.", "anchors": ["dattri/algorithm/block_projected_if/block_projected_if.py: BlockProjectedIFAttributor.compute_self_attribution"]}
{"id": "C94", "title": "A chunk opened without rows blocks finalising for ever", "statement": "If the disk storage has opened a chunk (a store call for one of its batches that carried no rows, or one batch with more rows than the buffer holds, which raises RuntimeError) and no batch with rows is stored in that chunk, then after the chunk is flushed finalising the batch range never returns, in any continuation.", "quantifier": "every configuration, schedule of the storing thread and the writers, and continuation", "why_tests_cant": "Non-termination under every interleaving cannot be observed by a finite test.", "anchors": ["dattri/algorithm/block_projected_if/offload/disk_io/manager.py: ChunkedDiskIOManager.store_gradients, _flush_buffer, finalize_batch_range", "dattri/algorithm/block_projected_if/offload/disk_io/memory_map.py: write_chunk"]}
{"id": "C95", "title": "Without a batch range nothing reaches the disk", "statement": "If no batch range was started and no chunk overflows its buffer, any number of stores leaves the files as they were, and finishing the range returns at once without writing.", "quantifier": "every sequence of store and finish calls and every schedule", "why_tests_cant": "All call sequences and interleavings.", "anchors": ["dattri/algorithm/block_projected_if/offload/disk_io/manager.py: store_gradients, _is_chunk_complete, finalize_batch_range"]}
{"id": "C96", "title": "Disk storage round trip is exact", "statement": "Starting from an empty directory, if each batch is stored once per data type with at least one row, inside the started range, all batches of a chunk in one range, without overflow, then once finalising has returned, a pass of the loader over any data type, any range of batches and any number of chunks per item raises nothing and yields exactly the stored batches of the range, each once, with exactly its rows.", "quantifier": "every configuration, data, sequence of calls and schedule of the storing thread and the writers; every range and grouping", "why_tests_cant": "Quantifies over all thread interleavings and data sizes; tests see a few schedules.", "anchors": ["dattri/algorithm/block_projected_if/offload/disk_io/manager.py", "dattri/algorithm/block_projected_if/offload/disk_io/memory_map.py", "dattri/algorithm/block_projected_if/offload/disk_io/prefetch_dataset.py: AsyncPrefetchDataset, async_collate_fn, create_tensor_dataloader"]}
{"id": "C97", "title": "Chunk files of an earlier run are never removed", "statement": "No call of the storing interface removes a chunk file; in particular a run over fewer batches in a directory that holds an earlier run leaves the earlier chunk file beside the new one, and the loader then yields the re-stored batches twice, with the old and the new rows, and the batches of the earlier run that no longer exist.", "quantifier": "every initial directory and schedule; the left-over run for all rows and sizes", "why_tests_cant": "Depends on all previous contents of the directory.", "anchors": ["dattri/algorithm/block_projected_if/offload/disk_io/memory_map.py: write_chunk, find_chunk_files", "dattri/algorithm/block_projected_if/offload/disk_io/prefetch_dataset.py: _load_chunk_info"]}
{"id": "C98", "title": "The prefetch thread of a dropped loader never stops", "statement": "The background thread that a data loader over stored gradients starts keeps running, and keeps the data set and its cached chunks alive, after the caller has dropped every reference to the loader; its finaliser, the only place that asks it to stop, never runs.", "quantifier": "every schedule and every later time", "why_tests_cant": "Non-termination after all references are gone; a test would have to wait for ever.", "anchors": ["dattri/algorithm/block_projected_if/offload/disk_io/prefetch_dataset.py: AsyncPrefetchDataset._start_prefetch_thread, _prefetch_worker, __del__"]}
{"id": "C99", "title": "Layers applied more than once in a batch", "statement": "While gradients are captured, the backward pass of a batch raises AttributeError exactly if some hooked layer is visited more than once by it (a layer that is applied twice, e.g. with shared weights); if it is applied several times but visited once, its gradient is computed with the input of the last application, whichever was visited.", "quantifier": "every sequence of forward and backward visits and every captured state before", "why_tests_cant": "Holds for all network graphs; tests use networks in which every layer is applied once.", "anchors": ["dattri/algorithm/block_projected_if/core/hook.py: CompressedLinearBackward.forward, CompressedLinearBackward.backward"]}
{"id": "C100", "title": "A layer skipped by a batch keeps an earlier batch's gradient", "statement": "The gradient recorded for a layer at a batch is the one of the latest batch, up to this one, in which the layer took part in the backward pass, and it is missing only if there has been none; so the recorded gradients are the batch's own exactly if the batch visits every layer that an earlier batch has visited.", "quantifier": "every sequence of batches and every set of layers visited by each", "why_tests_cant": "Depends on the whole history of batches.", "anchors": ["dattri/algorithm/block_projected_if/core/hook.py: HookManager.get_compressed_grads", "dattri/algorithm/block_projected_if/block_projected_if.py: BlockProjectedIFAttributor.cache, _compute_test_gradients"]}
{"id": "C101", "title": "A failed call leaves the model patched", "statement": "With attributors on separate layers, after any history of calls a layer is patched exactly if the last call of its attributor that reached its hooks raised while they were installed; the model then records gradients (and its weights receive none) outside the attributor. For two attributors on a common layer, a failed call of the first followed by a successful call of the second loses the layer's own forward for ever, and a later successful call of the first makes every use of the layer raise RuntimeError.", "quantifier": "every history of failing and succeeding calls of any number of attributors", "why_tests_cant": "History effect over exceptions.", "anchors": ["dattri/algorithm/block_projected_if/block_projected_if.py: BlockProjectedIFAttributor._setup_compressors, cache, attribute", "dattri/algorithm/block_projected_if/core/hook.py: HookManager"]}
{"id": "C102", "title": "Which layers are compressed", "statement": "Setting up compressors raises ValueError exactly if a named module is neither a linear layer nor a layer norm; otherwise the compressor of a named module is seeded by the position of the module in the model, it is missing if the module does not run in the sample forward pass (or is a layer norm without parameters), and names that do not occur in the model are silently without one.", "quantifier": "every model, list of names and seeds", "why_tests_cant": "All models and name lists.", "anchors": ["dattri/algorithm/block_projected_if/core/compressor.py: setup_model_compressors"]}
{"id": "C103", "title": "Admissible dimensions and ignored options of LoGra and FactGraSS", "statement": "LoGra accepts exactly the perfect squares as projected dimension per layer and compresses each layer to exactly that dimension; FactGraSS accepts exactly the dimensions whose product with the blow-up factor is a perfect square; every other dimension raises ValueError. LoGra ignores the user's projection type, and FactGraSS ignores the user's seed, projection type and batch size: it always uses batches of at most 64, a random mask and then SJLT on CUDA or a normal projection elsewhere.", "quantifier": "every parameter record", "why_tests_cant": "All integers.", "anchors": ["dattri/algorithm/logra.py: LoGraAttributor.__init__", "dattri/algorithm/factgrass.py: FactGraSSAttributor.__init__"]}
{"id": "C104", "title": "Encoded MIDI tokens are in the vocabulary", "statement": "Every token that encoding an admissible piece produces lies in [0, 388), so it never collides with the END and padding tokens.", "quantifier": "every piece with pitches and velocities in MIDI range", "why_tests_cant": "All pieces.", "anchors": ["dattri/benchmark/models/MusicTransformer/midi_processor/processor.py: encode_midi"]}
{"id": "C105", "title": "Rounding of MIDI times accumulates", "statement": "The decoded time of the k-th event of a piece deviates from its true time by at most (k+1)/200 seconds, and is exact if all times are multiples of 1/100 s; because every gap is rounded on its own, a piece of any length whose consecutive gaps are all below 1/200 s decodes to nothing.", "quantifier": "every piece", "why_tests_cant": "Error grows with the number of events; tests use short pieces.", "anchors": ["dattri/benchmark/models/MusicTransformer/midi_processor/processor.py: encode_midi", "dattri/benchmark/models/MusicTransformer/midi_processor/processor.py: decode_midi"]}
{"id": "C106", "title": "MIDI round trip", "statement": "For times in hundredths of a second, notes of positive duration, no overlapping notes of one pitch and no velocity coincidence (C72), decoding the encoding returns the same notes, up to order, with velocities rounded down to multiples of 4.", "quantifier": "every such piece", "why_tests_cant": "All pieces.", "anchors": ["dattri/benchmark/models/MusicTransformer/midi_processor/processor.py: encode_midi", "dattri/benchmark/models/MusicTransformer/midi_processor/processor.py: decode_midi"]}
{"id": "C107", "title": "When the sustain pedal counts as pressed", "statement": "Every list of pedal messages is a sequence of uses (presses, then releases); the sustains are one per use, from its first press to its last release message before the next press; releases before the first press and a use without release count for nothing. For messages in order of time the sustains are ordered and do not overlap.", "quantifier": "every list of pedal messages", "why_tests_cant": "Message sequences are unbounded; repeated release messages are rare in tests.", "anchors": ["dattri/benchmark/models/MusicTransformer/midi_processor/processor.py: _control_preprocess"]}
{"id": "C108", "title": "How long notes sound under the pedal", "statement": "The preprocessing changes nothing of a note but its end, and the end only if the note starts during a sustain after which another note starts; it then ends at the start of the next note of its pitch that starts before the sustain ends (even if it was played longer), or else no earlier than the sustain.", "quantifier": "every list of notes in order and every list of ordered sustains", "why_tests_cant": "All configurations of notes and sustains.", "anchors": ["dattri/benchmark/models/MusicTransformer/midi_processor/processor.py: SustainAdapter", "dattri/benchmark/models/MusicTransformer/midi_processor/processor.py: SustainDownManager", "dattri/benchmark/models/MusicTransformer/midi_processor/processor.py: _note_preprocess"]}
{"id": "C109", "title": "Blocks recorded for a nanoGPT model", "statement": "The recorded blocks are distinct, inside the corpus and as many as the ratio asks for; but the last (count mod batch size) of them are never used for a gradient however long the training is. With fewer blocks than the batch size every batch consists of all of them.", "quantifier": "every corpus, block size, ratio, permutation, batch size and training length", "why_tests_cant": "The recorded subset is the ground truth of later evaluations; that part of it has no influence on the model is invisible in any run.", "anchors": ["dattri/benchmark/models/nanoGPT/train.py: initialize_indices", "dattri/benchmark/models/nanoGPT/train.py: get_batch_indices"]}
{"id": "C110", "title": "Evaluations use up training batches", "statement": "In iteration t, micro step u, the gradient is computed on batch (t*G + u + 2*eval_iters*e) mod m of the m full batches, where e is the number of evaluations begun before that batch was fetched. Hence with one micro step, if m divides eval_interval + 2*eval_iters and m > eval_interval, the second batch is never used for a gradient in a training of any length.", "quantifier": "every batch count, eval interval, number of evaluation batches, accumulation steps and training length", "why_tests_cant": "A resonance between counters that only shows for particular sizes.", "anchors": ["dattri/benchmark/models/nanoGPT/train.py: get_batch", "dattri/benchmark/models/nanoGPT/train.py: estimate_loss", "dattri/benchmark/models/nanoGPT/train.py: training loop"]}
{"id": "C111", "title": "Cutting training batches out of the corpus", "statement": "A batch of block starts whose targets end inside the corpus gives complete rows with targets shifted by one. A training batch of at least two distinct blocks fails exactly if the length of the corpus is a multiple of the block size and the last block is in the batch.", "quantifier": "every corpus, block size and batch", "why_tests_cant": "Only corpora of special length fail, and only if the random subset contains the last block.", "anchors": ["dattri/benchmark/models/nanoGPT/train.py: get_batch"]}
{"id": "C112", "title": "Which nanoGPT checkpoint is kept", "statement": "Without always_save_checkpoint the checkpoint on disk is that of the first evaluation with the lowest validation loss below 1e9, unless this is the evaluation before the first step: then there is none. With it, it is that of the last evaluation after the first step.", "quantifier": "every sequence of validation losses and eval interval", "why_tests_cant": "All loss histories.", "anchors": ["dattri/benchmark/models/nanoGPT/train.py: training loop, lines 336-359"]}
{"id": "C113", "title": "Learning rate schedule of nanoGPT", "statement": "The learning rate of iteration t >= 0 is defined unless t = warmup_iters = lr_decay_iters (division by zero); it lies between 0 and the maximum, rises through the warm-up, equals the maximum exactly at its end, falls from then on, reaches the minimum at the end of the decay and stays there.", "quantifier": "all real rates and all integer settings", "why_tests_cant": "Real-valued function of all settings.", "anchors": ["dattri/benchmark/models/nanoGPT/train.py: get_lr"]}
{"id": "C114", "title": "Which models the leave-one-out command trains", "statement": "A leave-one-out command trains exactly one model per index of the requested range, each without the sample at that index of the training subset, stored under that index. The default command runs over the length of the whole data set, so the models for indices at or above the training subset size leave nothing out; with a subset size larger than the data set the selected positions do not exist. Splitting the range over several commands trains the same models.", "quantifier": "every data set length, subset size, partition and split into commands", "why_tests_cant": "Needs every combination of sizes and partitions; a run takes thousands of trainings.", "anchors": ["dattri/script/dattri_retrain.py: partition_type", "dattri/script/dattri_retrain.py: main (mode loo)", "dattri/model_util/retrain.py: retrain_loo"]}
{"id": "C115", "title": "Which subsets the LDS command trains on", "statement": "The LDS command trains the subsets of its start id up to its end; the W commands with partition w*k,(w+1)*k,W*k are all accepted and write the same subset files as one command for all of them, but afterwards the ground truth can be read exactly when W = 1. The default command trains 100 subsets and leaves complete metadata.", "quantifier": "every number of commands, share size, data set, ratio and seed", "why_tests_cant": "Interaction of several processes with one directory.", "anchors": ["dattri/script/dattri_retrain.py: main (mode lds)", "dattri/model_util/retrain.py: retrain_lds"]}
{"id": "C116", "title": "Format of the partition argument", "statement": "--partition accepts exactly the strings with three comma-separated entries, each an integer or the word none in any case, with optional surrounding blanks, and reads them as written; every other string is rejected with ValueError, including the documented format with square brackets.", "quantifier": "all strings", "why_tests_cant": "Infinitely many strings.", "anchors": ["dattri/script/dattri_retrain.py: partition_type"]}
{"id": "C117", "title": "Extra parameters on the command line", "statement": "--extra_param key=value pairs reach the training call with the last value of each key. A key that names an argument the command sets itself raises TypeError. A value with a decimal point arrives as text, so a subset ratio given this way never works.", "quantifier": "all lists of pairs, all values", "why_tests_cant": "All strings.", "anchors": ["dattri/script/dattri_retrain.py: key_value_pair", "dattri/script/dattri_retrain.py: main"]}
{"id": "C118", "title": "Attribution after a failed cache", "statement": "If computing the preconditioners fails with an error at the first layer whose regularised Fisher block is singular, a following attribution call does not fail: it returns scores in which only the layers before the singular one contribute.", "quantifier": "every data set, batch size, number of layers and position of the singular layer", "why_tests_cant": "Needs an exception in the middle of caching followed by further use, for all models.", "anchors": ["dattri/algorithm/block_projected_if/block_projected_if.py: cache", "dattri/algorithm/block_projected_if/block_projected_if.py: attribute", "dattri/algorithm/block_projected_if/block_projected_if.py: compute_preconditioners"]}
{"id": "C119", "title": "Activating dropout layers", "statement": "Without positions exactly the dropout layers are active afterwards, with the given probability, everything else is in evaluation mode. With positions exactly those dropout layers are active in whose name some position occurs as a substring (so dropout1 also activates dropout10), also if the call raises. It raises ValueError exactly if a position occurs in the name of a module that is no dropout layer; positions that occur nowhere are accepted.", "quantifier": "every model, list of positions and probability", "why_tests_cant": "All module names and positions.", "anchors": ["dattri/model_util/dropout.py: activate_dropout"]}
{"id": "C120", "title": "Which MusicTransformer a training returns", "statement": "The MAESTRO training returns the model after the last epoch, whatever the evaluations were, although it tracks the best one; for every sequence of losses there is a training that shows this. If no evaluation, the untrained one included, has a numeric loss or a positive accuracy, the call raises UnboundLocalError after all the training; a negative number of epochs raises it at once, an empty loader raises ZeroDivisionError.", "quantifier": "every training and evaluation step, loader, and number of epochs", "why_tests_cant": "Aliasing of the best model only matters if a late epoch is worse; needs all loss histories.", "anchors": ["dattri/benchmark/datasets/maestro/maestro_musictransformer.py: train_maestro_musictransformer"]}
{"id": "C121", "title": "Evaluation of the MusicTransformer", "statement": "The accuracy is the mean over batches of the fraction of right predictions among targets that are not padding, a batch of padding only counting as fully right; it is the fraction over all such targets if all batches have equally many of them. The loss is the mean over batches of mean losses, and is not a number exactly if some batch contains only padding.", "quantifier": "every list of batches", "why_tests_cant": "All batch sizes and paddings.", "anchors": ["dattri/benchmark/models/MusicTransformer/utilities/run_model.py: eval_model", "dattri/benchmark/models/MusicTransformer/dataset/e_piano.py: compute_epiano_accuracy"]}
{"id": "C122", "title": "Learning rate schedule of the MusicTransformer", "statement": "The schedule exists exactly for positive dimension and warm-up. At every positive step the rate is the documented 1/sqrt(d)*min(1/sqrt(s), s*w^-1.5); it rises strictly up to the end of the warm-up, where it is 1/sqrt(d*w), and falls strictly afterwards. A new schedule starts at rate 0.", "quantifier": "all integer dimensions, warm-ups, initial steps and steps", "why_tests_cant": "Real-valued function of all settings.", "anchors": ["dattri/benchmark/models/MusicTransformer/utilities/lr_scheduling.py: LrStepTracker"]}
{"id": "C123", "title": "Blocks of WikiText-2", "statement": "For a block size up to the maximal length of the model the data set consists, for every thousand texts in turn, of the consecutive blocks of their concatenated tokens, labels equal to the tokens; less than a block of tokens is lost per thousand texts. A larger block size raises TypeError although the code means to reduce it with a warning.", "quantifier": "all texts, block sizes and maximal lengths", "why_tests_cant": "All token counts relative to the block size.", "anchors": ["dattri/benchmark/datasets/wikitext2/data.py: group_texts", "dattri/benchmark/datasets/wikitext2/data.py: create_wikitext2_dataset"]}
{"id": "C124", "title": "The CIFAR-2 subset", "statement": "The subset consists of the positions of cats and dogs in order; its items carry label 0 for cats and 1 for dogs, its targets attribute agrees with the items, and no other label is changed. Adjusting the same data set again selects nothing.", "quantifier": "all label lists", "why_tests_cant": "All label lists.", "anchors": ["dattri/benchmark/datasets/cifar/data.py: get_cifar2_indices_and_adjust_labels", "dattri/benchmark/datasets/cifar/data.py: create_cifar2_dataset"]}
{"id": "C125", "title": "The smoothed cross entropy", "statement": "On targets that are classes the summed loss is the sum over rows that are not ignored of (1-s) times the cross entropy with the target plus s times the mean cross entropy over all classes; the mean divides by the number of those rows and is not a number if there are none. The constructor accepts s exactly in [0,1], which are the values for which no row can have a negative loss. A target that is not a class raises RuntimeError even if it is the ignored one, so with the default ignored value -100 nothing can be ignored.", "quantifier": "all logits, targets, vocabularies and smoothings", "why_tests_cant": "Real-valued; all targets.", "anchors": ["dattri/benchmark/models/MusicTransformer/loss.py: SmoothCrossEntropyLoss"]}
{"id": "C126", "title": "Relative influence", "statement": "attribute with relatif_method divides the explicit, CG and LiSSA scores of a training sample by sqrt(max(g'.Pg, 1e-12)) for 'l' and max(|Pg|, 1e-12) for 'theta', P being the sum over the batches of the full loader of the inverse Hessians the scores use. With symmetric inverses a 'theta' score never exceeds the norm of the test gradient; with positive semidefinite ones and equal target and loss an 'l' score never exceeds the root of the self-influence of the test sample. With n equal batch Hessians 'theta' does not depend on n while 'l' grows by sqrt(n); where the form is not above 1e-12, also if negative, the 'l' score is a million times the plain one. Unknown methods raise ValueError after the transformation; the Arnoldi, DataInf and EK-FAC attributors accept every method and return the plain scores.", "quantifier": "all gradients, Hessians, loaders, checkpoints and method strings", "why_tests_cant": "Real inequalities over all Hessians and gradients; number of batches.", "anchors": ["dattri/algorithm/influence_function.py: IFAttributorExplicit._compute_denom", "dattri/algorithm/influence_function.py: IFAttributorCG._compute_denom", "dattri/algorithm/influence_function.py: IFAttributorLiSSA._compute_denom", "dattri/algorithm/base.py: BaseInnerProductAttributor._compute_denom", "dattri/algorithm/base.py: BaseInnerProductAttributor.attribute"]}
{"id": "C127", "title": "Arnoldi influence attributor", "statement": "Caching takes the first ceil(#batches*ratio) batches as one batch, so with ratio at least 1 the scores do not depend on how the cached loader was batched, nor on earlier caches or on relatif_method. If the Krylov space is full and the kept eigenvalues are all positive, the score is the checkpoint mean of g_i.(H+lambda I)^-1 g_j for the Hessian of the loss on the whole cached set. Caching fails for an empty loader or a ratio not above 0 (IndexError), tuple batches (TypeError) and dictionary batches (KeyError); attribution then raises IndexError, and ValueError before any cache.", "quantifier": "all loaders, ratios, batch sizes, histories, Hessians and gradients", "why_tests_cant": "All batchings and ratios; exactness for every symmetric Hessian.", "anchors": ["dattri/algorithm/influence_function.py: IFAttributorArnoldi.cache", "dattri/algorithm/influence_function.py: IFAttributorArnoldi.transform_test_rep", "dattri/algorithm/influence_function.py: IFAttributorArnoldi.transform_train_rep", "dattri/func/projection.py: arnoldi_project"]}
{"id": "C128", "title": "Explicit inverse Fisher products", "statement": "For a flattened gradient g of p entries ifvp_explicit and ifvp_at_x_explicit solve (lambda I + |g|^2 J) u = v, J being the all-ones matrix, with solution u_i = (v_i - |g|^2 sum(v)/(lambda + p|g|^2))/lambda for lambda > 0. This is the documented (g g' + lambda I)^-1 v for all v exactly if p = 1 or g = 0, and with regularization 0 and p at least 2 it always raises. Only a two-dimensional p by k gradient gives the documented product.", "quantifier": "all gradients, vectors, dimensions and regularizations", "why_tests_cant": "The repository's test compares by correlation at one model; the difference holds for all gradients.", "anchors": ["dattri/func/fisher.py: ifvp_explicit", "dattri/func/fisher.py: ifvp_at_x_explicit"]}
{"id": "C129", "title": "Recording a training step with the DVEmb context manager", "statement": "In factorised mode cache_gradients_context records for each target layer the input of its last forward call and the output gradient of its last backward call times N^k, N being the number of indices and k the number of target layers that captured the same gradient tensor. If none is shared, the attributor ends in the same state as after cache_gradients on the same batch, with and without projection; for N at least 2 a shared nonzero gradient is recorded wrongly. A step that raises is recorded as if it had not, its exception being passed on; a failing projection records nothing and replaces the exception; without indices ZeroDivisionError comes after the factors were stored; other modes raise NotImplementedError first.", "quantifier": "all sequences of hook calls, layers, batch sizes, epochs, states and exceptions", "why_tests_cant": "All networks' hook sequences and aliasing patterns; state after failures.", "anchors": ["dattri/algorithm/dvemb.py: DVEmbAttributor.cache_gradients_context", "dattri/algorithm/dvemb.py: DVEmbAttributor._register_factorization_hooks", "dattri/algorithm/dvemb.py: DVEmbAttributor._calculate_gradient_factors", "dattri/algorithm/dvemb.py: DVEmbAttributor._cache_factored_gradients"]}
{"id": "C130", "title": "Reading stored batches back one by one", "statement": "After finalize_batch_range returned in a disciplined first run, every sequence of retrieve_gradients and retrieve_ifvp calls returns the rows stored for each batch and empty tensors for batches never stored, whatever is evicted from the four-chunk read cache, which never grows beyond four and, with a clock that moves forward and requests that find their batch, holds exactly the chunks of the last four different ones requested. A request that memory does not answer raises FileNotFoundError if a file met before the batch is found has no metadata, or the file found no data. The cache is never invalidated: as long as no more than four chunks are read, batches of a chunk read before are returned as they were then, even if they were stored again or the files deleted. A batch whose chunk waits for its writer is returned as empty tensors without an exception. With left-over files of an earlier run, reading batches 0, 1, 0 can return different rows for batch 0 though no file changed.", "quantifier": "all schedules, request sequences, clocks and file contents", "why_tests_cant": "All interleavings of requests, evictions and rewrites.", "anchors": ["dattri/algorithm/block_projected_if/offload/disk_io/manager.py: ChunkedDiskIOManager._retrieve_batch_data_with_cache", "dattri/algorithm/block_projected_if/offload/disk_io/manager.py: ChunkedDiskIOManager.retrieve_gradients, retrieve_ifvp", "dattri/algorithm/block_projected_if/offload/disk_io/memory_map.py: find_chunk_files, load_chunk_tensor"]}
{"id": "C131", "title": "Disk storage gives the same scores as in-memory storage", "statement": "Take the block-projected influence attributor with disk storage over an empty cache directory and a loader with at least one batch, and follow it through: the gradients of the batches are stored through the asynchronous writer, read back chunk by chunk, preconditioned (or copied), stored again and read back for the scores. Whatever the chunk size, the number and the scheduling of the writer threads and the order in which files are listed: no load raises; if inverting the accumulated matrices raises, the same exception is raised with in-memory storage; otherwise the score matrix has the same shape and the same entries as with in-memory storage.", "quantifier": "for all loaders, both Hessian kinds, all dampings, all test loaders, all configurations of the writer, and all schedules in which each range is started, stored and finalised in order without a failed write or a buffer overflow", "why_tests_cant": "A test compares the two storages on one data set with one schedule of the threads; independence of the schedule, the chunk boundaries and the lexicographic file order has to be shown for all of them.", "anchors": ["dattri/algorithm/block_projected_if/block_projected_if.py:208-321", "dattri/algorithm/block_projected_if/block_projected_if.py:323-604", "dattri/algorithm/block_projected_if/block_projected_if.py:748-813", "dattri/algorithm/block_projected_if/offload/disk.py:66-90", "dattri/algorithm/block_projected_if/offload/disk_io/manager.py"]}
{"id": "C132", "title": "Preconditioners come back from storage as stored, or are silently left out", "statement": "With memory or CPU storage, retrieving the preconditioner of a layer returns exactly what was last stored for it (None included; None for an index out of range). With disk storage, once the wait for asynchronous operations can return and no save raised, retrieving returns the last preconditioner stored that was not None, else whatever the directory already held, provided there is one executor thread or calls for one layer are separated by a wait; with two or more threads two calls without a wait between them can leave the earlier one. A save that raises is never reported to the caller: the layer keeps its earlier file, and in an empty directory every score of the run is then the sum over the other layers only. Otherwise the preconditioners that compute_ifvp reads back are those of an in-memory run.", "quantifier": "for all sequences of calls, all numbers of executor threads, all schedules of the saves, all sets of saves that raise, all accumulated matrices", "why_tests_cant": "Races between executor threads and failing writes do not occur in a unit test; their effect on scores is silent.", "anchors": ["dattri/algorithm/block_projected_if/block_projected_if.py:415-467", "dattri/algorithm/block_projected_if/offload/memory.py:164-189", "dattri/algorithm/block_projected_if/offload/cpu.py:169-205", "dattri/algorithm/block_projected_if/offload/disk_io/manager.py:877-915", "dattri/algorithm/block_projected_if/offload/disk_io/manager.py:929-971"]}
{"id": "C133", "title": "Hessian-vector products", "statement": "hvp and hvp_at_x, for a function that is twice differentiable at the point (in all its arguments), return the Hessian by the selected argument times the vector plus regularization times the vector: in mode rev-rev for every admissible argnums, in mode rev-fwd for argnums that is not negative or for a function of one argument. The result therefore does not depend on the mode there, and the matrix is symmetric. With a negative argnums and several arguments mode rev-fwd raises nothing and returns regularization * v whatever the function. Any other mode string raises. ihvp_explicit with the same regularization undoes the product wherever the regularised Hessian is nonsingular, and raises where it is singular.", "quantifier": "for all functions and points with a second derivative, all numbers and sizes of arguments, all argnums, all vectors, all regularizations", "why_tests_cant": "Agreement of the two differentiation orders and with the explicit inverse is a statement about all twice differentiable functions; tests use a few fixed ones with argnums 0 or 1.", "anchors": ["dattri/func/hessian.py:31-121", "dattri/func/hessian.py:124-221", "dattri/func/hessian.py:224-327"]}
{"id": "C134", "title": "LiSSA is right on average, up to the batch loss", "statement": "The LiSSA estimate is random through the batches it draws. Averaged over all draws (uniformly random permutations, independent in every step and repeat) the estimate equals the truncated Neumann series of the expected Hessian of a batch, for every batch size, number of repeats and recursion depth. If the loss of a batch is the mean of its samples' losses, that expected Hessian is the Hessian on all samples whatever the (positive) batch size, so the estimate is unbiased for the deterministic recursion of C24; if the loss is the sum, it is min(batch_size, N)/N times the Hessian of the sum over all samples, so the estimate depends on the batch size.", "quantifier": "for all numbers of samples, batch sizes, repeats, depths, dampings, scalings, vectors and per-sample Hessians", "why_tests_cant": "A statement about an expectation over exponentially many draws; a test sees single draws.", "anchors": ["dattri/func/hessian.py:746-780", "dattri/func/hessian.py:830-923"]}
{"id": "C135", "title": "The language model predicts each token from its past only", "statement": "For a nanoGPT network as constructed (or cropped): the logits at a position depend on the tokens up to that position only, neither on later tokens nor on the length of the sequence. A call with targets gives at position i the logits a call without targets returns for the first i+1 tokens, and the loss of a batch is the mean, over all positions of all sequences whose target is not -1, of -log of the probability of the target after the tokens up to there (NaN if there is no such position). Flash attention and the mask buffer give the same attention weights, which are nonnegative, vanish on later positions and sum to one. The attention layer returns the output projection of the concatenated heads; a head at position i is the mean of the values of the positions up to i with weights proportional to exp(q_i.k_j / sqrt(head size)). crop_block_size(n) raises exactly if n exceeds the block size, and otherwise changes nothing for sequences of at most n tokens; longer sequences raise.", "quantifier": "for all numbers of heads, head sizes, layers, vocabularies, weights, activation functions, token sequences, targets, batches and crop sizes", "why_tests_cant": "Information leaking from later tokens shows only for particular weights and sequences; equality of logits over all prefixes and lengths is not testable.", "anchors": ["dattri/benchmark/models/nanoGPT/model.py:52-76", "dattri/benchmark/models/nanoGPT/model.py:103-106", "dattri/benchmark/models/nanoGPT/model.py:176-199", "dattri/benchmark/models/nanoGPT/model.py:201-210"]}
{"id": "C136", "title": "Sampling follows the truncated next-token distribution", "statement": "generate(idx, n, temperature, top_k) returns the prompt followed by n tokens; a continuation has as probability the product of the probabilities of its tokens given all tokens before (of which only the last block_size matter), and these sum to one. The probability of a token is the softmax of logits/temperature restricted to the tokens that have fewer than top_k tokens strictly above them, so at least min(top_k, vocabulary) tokens stay and ties keep more; with top_k=1 and positive temperature exactly the tokens of largest logit are drawn. top_k=0 and an empty prompt raise IndexError, negative top_k and temperature 0 raise RuntimeError; with n=0 nothing is checked.", "quantifier": "for all networks, prompts, numbers of tokens, temperatures and values of top_k", "why_tests_cant": "A distribution over exponentially many continuations; samples neither establish probabilities nor the tie behaviour.", "anchors": ["dattri/benchmark/models/nanoGPT/model.py:310-330"]}
{"id": "C137", "title": "Every trainable parameter is optimised once, matrices with decay", "statement": "configure_optimizers puts every parameter object that requires a gradient into exactly one group exactly once, whatever the number of names it is registered under: with weight decay if it has two or more dimensions, without otherwise; the rest is in no group. For the nanoGPT network the decayed objects are the embedding shared with the output layer (once), the position embedding and the four weight matrices of each block; the others are layer-norm weights and biases. get_num_params counts the shared embedding once, and without position embeddings it is independent of the block size: V*d + L*(12*d^2 + 13*d) + 2*d with biases, V*d + L*(12*d^2 + 2*d) + d without.", "quantifier": "for all modules with shared parameters, all choices of trainable parameters and all configurations", "why_tests_cant": "A parameter left out or optimised twice trains almost as well; tests see one configuration.", "anchors": ["dattri/benchmark/models/nanoGPT/model.py:126-138", "dattri/benchmark/models/nanoGPT/model.py:150-166", "dattri/benchmark/models/nanoGPT/model.py:269-281"]}
{"id": "C138", "title": "The music model treats sequences separately and in time order", "statement": "For the MusicTransformer network with consistent sizes, evaluated without dropout: the logits of a sequence in a batch depend on that sequence only, and equal those of the architecture written down for one sequence (embedding times sqrt(d) plus sine/cosine positions; per layer multi-head attention whose scores add the inner product of the query with the relative-position embedding of the distance, residual, layer norm, feed-forward, residual, layer norm; final norm and linear layer). With the mask the logits at a position depend on the tokens up to there only, whatever the length of the sequence and the rest of the batch. Tokens outside the vocabulary raise, and so do sequences longer than the maximum if that is at least 2.", "quantifier": "for all sizes, numbers of layers and heads, weights, with and without relative embeddings, batches, lengths and token sequences", "why_tests_cant": "The head and batch dimensions are mixed by views and the relative scores by a skewing trick; a wrong index leaks between sequences or from the future only for particular weights.", "anchors": ["dattri/benchmark/models/MusicTransformer/music_transformer.py:80-118", "dattri/benchmark/models/MusicTransformer/rpr.py:39-50", "dattri/benchmark/models/MusicTransformer/rpr.py:81-89", "dattri/benchmark/models/MusicTransformer/rpr.py:177-407", "dattri/benchmark/models/MusicTransformer/positional_encoding.py:11-25"]}
{"id": "C139", "title": "Music generation follows the model's next-token distribution", "statement": "generate with beam=0 returns sequences of exactly the target length: it never stops early, since the end token is cut off before drawing. The continuation has as probability the product of the probabilities of its tokens given all before, conditioned on being neither end nor padding token; they sum to one. Target lengths above max_sequence+1 raise RuntimeError (if max_sequence is at least 2), as do primers longer than the target. With a beam of one used in every step the result is the greedy continuation. One step with a larger beam selects the best pairs of sequence r and token c, but only pairs with r=0 are written correctly: for r>=1 the token c-2r, or the token 390+c-2r after sequence r-1, is written. Sampling with two or more rows raises RuntimeError. generate.py continues a primer of num_prime tokens to the target length, each token drawn given the last num_prime tokens only, and fails with AttributeError if the target is not larger than num_prime.", "quantifier": "for all networks, primers, target lengths, beams, draws and tie-breaking rules of topk", "why_tests_cant": "A distribution over exponentially many sequences; the wrong decoding of beams shows only when a later row wins.", "anchors": ["dattri/benchmark/models/MusicTransformer/music_transformer.py:121-181", "dattri/benchmark/models/MusicTransformer/generate.py:67-99"]}
{"id": "C140", "title": "Explicit influence scores are minus the effect of up-weighting", "statement": "Let every checkpoint be a stationary point of the loss of each cached batch plus reg/2 times the squared norm of the parameters, with twice continuously differentiable losses and invertible regularised Hessian. When the weight of a training sample is increased by eps, there is a continuous path of stationary points of the changed objective, unique near 0, and the target of every test sample is differentiable along it; the score returned by IFAttributorExplicit is minus the mean over checkpoints of the sum over cached batches of these derivatives. With one checkpoint and the training set cached as one batch the score is exactly minus the derivative. For convex objectives the path consists of the minimisers (the retrained models); conversely continuous minimisers follow this path.", "quantifier": "for all loss and target functions with these derivatives, parameter dimensions, regularisations, data sets, batch sizes of the scored loaders and numbers of checkpoints", "why_tests_cant": "The claim is about a limit of infinitely many retrained models; finite differences only approximate it for one model.", "anchors": ["dattri/task.py:139-158", "dattri/algorithm/influence_function.py:81-132", "dattri/func/hessian.py:224-272", "dattri/algorithm/base.py"]}
{"id": "C141", "title": "TracIn scores are first-order decreases of the target", "statement": "Without projection and normalisation, TracIn's score of training sample i for test sample j is minus the checkpoint-weighted sum of the derivatives at step size 0 of the target of j after one gradient descent step from the checkpoint on the loss of i.", "quantifier": "for all losses, differentiable targets, checkpoints, weights, data sets and batch sizes", "why_tests_cant": "A limit of step sizes, for all functions.", "anchors": ["dattri/task.py:139-158", "dattri/algorithm/tracin.py:26-64"]}
{"id": "C142", "title": "DVEmb scores are the effect of a sample's weight on the trained model", "statement": "For plain SGD on mean batch losses, recorded with cache_gradients in every step: the trained parameters are differentiable in the weight of a sample's loss (in one epoch or in all epochs), and if in every step after the first use of the sample the Hessian of the summed batch loss equals the sum of outer products of the gradients, its score returned by attribute (with that epoch, or without) is minus the derivative of the test target at the trained parameters. Without that assumption the score can be 0 although the derivative is not.", "quantifier": "for all runs (initial parameters, steps, epochs in order, batches, learning rates), twice continuously differentiable losses and differentiable targets", "why_tests_cant": "Differentiating through all steps of all training runs; the scores are computed by a different (backward) recursion.", "anchors": ["dattri/algorithm/dvemb.py:263-305", "dattri/algorithm/dvemb.py:412-478", "dattri/algorithm/dvemb.py:688-866"]}
{"id": "C143", "title": "In-memory storage returns what was last stored", "statement": "For the block-projected attributor's stores kept in memory or on the CPU: after any sequence of storing gradients (train, test, preconditioned), storing preconditioners and clear_cache, where batches fit the layers and the first has no empty layer, every batch reads back as it was last stored (empty layers as zeros), batches not stored since the last clearing read back as empty tensors, preconditioners as last stored. The loader yields exactly the stored batches of the requested kind and range, ascending, the given number at a time, with the row range of each. Layer dimensions are fixed by the first store for ever, also by clear_cache: later gradients of another width raise RuntimeError and change nothing, except width one, which is silently repeated (or dropped if the layer was empty in the first store).", "quantifier": "for all numbers and dimensions of layers, call sequences, batch indices, ranges and group sizes", "why_tests_cant": "All interleavings of stores, overwrites and clears, with wrong widths and empty layers.", "anchors": ["dattri/algorithm/block_projected_if/offload/memory.py:21-327", "dattri/algorithm/block_projected_if/offload/cpu.py:21-323"]}
{"id": "C144", "title": "Scores are derivatives of retraining, for convex losses", "statement": "If the loss of a batch is the mean of non-negative, twice continuously differentiable, convex losses of its samples and the regularisation is positive, then regularised training has exactly one result. With that model as the checkpoint and the training set cached as one batch, explicit influence attribution succeeds for any batch sizes of the training and test loaders; for every training sample and every small change of its weight retraining again has exactly one result, and the score is minus the derivative of the test target of the retrained model with respect to that weight. With additional weight -1/N the objective is the one without the sample.", "quantifier": "for all such losses, differentiable targets, positive regularisations, data sets and batch sizes", "why_tests_cant": "Exact derivatives and uniqueness of minimisers over a continuum of models and weights; retraining experiments only give noisy finite differences.", "anchors": ["dattri/algorithm/influence_function.py:50-132", "dattri/algorithm/base.py:296-420", "dattri/task.py:139-158"]}
{"id": "C145", "title": "Logistic regression benchmark: scores are exact retraining derivatives", "statement": "For the logistic regression benchmark with cross-entropy loss and any positive regularisation, whatever the data: the regularised model exists and is unique, explicit influence attribution at it succeeds, and each score is minus the derivative of the test sample's negative log-likelihood under the retrained model with respect to the weight of the training sample.", "quantifier": "for all numbers of inputs and classes, data sets, labels, regularisations and batch sizes", "why_tests_cant": "Needs the convexity of log-sum-exp and the implicit function theorem; no number of retraining runs shows it.", "anchors": ["dattri/benchmark/models/logistic_regression/logistic_regression.py:17-27", "dattri/benchmark/datasets/mnist/mnist_lr.py:40-49", "dattri/algorithm/influence_function.py:50-132"]}
{"id": "C146", "title": "Logistic regression needs regularisation", "statement": "For the logistic regression benchmark the explicit attributor with its default regularization=0.0 raises (in exact arithmetic), whatever the checkpoint, the data and the test sample, because the Hessian of every batch is singular; every positive regularisation makes the system solvable for every checkpoint and batch.", "quantifier": "for all numbers of inputs, positive numbers of classes, checkpoints and loaders", "why_tests_cant": "Rounding hides exact singularity, a test sees large numbers rather than an error.", "anchors": ["dattri/algorithm/influence_function.py:53-132", "dattri/func/hessian.py:224-272", "dattri/benchmark/models/logistic_regression/logistic_regression.py:12-27"]}
{"id": "C147", "title": "Loading a benchmark: requests and result", "statement": "For any sequence of load_benchmark calls with any behaviour of the server: an unsupported combination raises ValueError and does nothing else; without redownload no request is made once the server has answered any request for the combination; otherwise the two archives and the ground-truth files are requested in a fixed order up to the first answer that is neither 404 nor a proper file, which raises. The call succeeds exactly if none of its requests fails, the metric is lds or loo, both ground-truth files have ever been served, the server has answered for both archives and the data set can be created; the ground truth is (target values, indices) as last served. The loo ground truth of wikitext2 with gpt2 can never be loaded, and for shakespeare with nanogpt the returned model is the name.", "quantifier": "for all sequences of calls, server behaviours (statuses, bodies, outages) and archives; metric not named like an archive directory", "why_tests_cant": "Histories of partial downloads and failing servers; tests run against one working server or none.", "anchors": ["dattri/benchmark/load.py:49-74", "dattri/benchmark/load.py:103-110", "dattri/benchmark/load.py:122-338"]}
{"id": "C148", "title": "Loading a benchmark: what a download leaves behind", "statement": "Once the server has answered for a combination, calls without redownload return the same for ever. An error status for the first archive therefore makes every later call without redownload raise FileNotFoundError, without asking the server again. Downloading again never removes folders: the number of checkpoints is that of all archives ever extracted. All returned checkpoint paths exist exactly if every folder ever extracted is named by a number below the number of folders and holds a checkpoint.", "quantifier": "for all sequences of calls, server behaviours and archives", "why_tests_cant": "Needs failing downloads followed by arbitrary later calls.", "anchors": ["dattri/benchmark/load.py:122-174", "dattri/benchmark/load.py:242-289"]}
{"id": "C149", "title": "Per-example losses of the MNIST benchmarks", "statement": "The loss functions of the two MNIST benchmarks return a result exactly when the loader has a batch, all images have the network's input size and every label is a class or -100. The result then has one entry per example, in the loader's order: minus the log-probability the network gives to the label, 0 for the label -100. It does not depend on how the examples are put into batches.", "quantifier": "for all parameters, sizes, batches, images and labels", "why_tests_cant": "The multi-layer perceptron regroups pixels with view(-1, 784); that no regrouping ever yields a result, for any image size and batch size, is a statement over all of them.", "anchors": ["dattri/benchmark/datasets/mnist/mnist_lr.py:56-82", "dattri/benchmark/datasets/mnist/mnist_mlp.py:53-79", "dattri/benchmark/models/mlp/mlp.py:12-40", "dattri/benchmark/models/logistic_regression/logistic_regression.py:17-27"]}
{"id": "C150", "title": "The ImageNet loss depends on the batches", "statement": "The loss function of the ImageNet benchmark returns the sum over the batches of the batch size times the batch's summed loss, divided by the number of examples. With batches of equal size B this is B times the mean loss. When all losses are positive it is the documented sum exactly when there is one batch, and the mean exactly when all batches have one example. Without examples it raises ZeroDivisionError.", "quantifier": "for all networks, loaders and labels", "why_tests_cant": "One loader in a test gives one number; that it scales with the batch size needs all of them.", "anchors": ["dattri/benchmark/datasets/imagenet/imagenet_resnet18.py:75-102"]}
{"id": "C151", "title": "Ground truth from the benchmark losses", "statement": "With the MNIST losses as target function the LDS ground truth of a test example is minus the mean over the runs of its loss. With the MAESTRO loss it is plus the mean of the loss (the function negates already), where the loss is that of the last token of a sequence, computed from this sequence alone. With the WikiText-2 loss it is right with one example per batch only: a single batch gives all examples the same value, any other number of batches raises RuntimeError. With the ImageNet loss all examples get the same value. With any of them the leave-one-out ground truth raises TypeError as soon as there is a retrained model.", "quantifier": "for all checkpoints, numbers of runs, loaders and networks", "why_tests_cant": "Combines three modules (losses, ground truth, retraining files); tests use small hand-written target functions.", "anchors": ["dattri/benchmark/datasets/maestro/maestro_musictransformer.py:214-249", "dattri/benchmark/datasets/wikitext2/wikitext2_gpt2.py:58-85", "dattri/metric/ground_truth.py:72-94", "dattri/metric/ground_truth.py:186-196", "dattri/model_util/retrain.py:129", "dattri/model_util/retrain.py:268"]}
{"id": "C152", "title": "Data value embeddings of the benchmark trainings", "statement": "Recording the training of the MNIST logistic regression and attributing gives, for every sample after whose first use the batch Hessians are sums of outer products of gradients, minus the derivative of the target at the trained model with respect to the weight of the sample's loss; in particular for samples used in the last step only. For the trainings with momentum this is not so. With an empty loader the MNIST trainings return the initial model and the CIFAR and ImageNet trainings raise ZeroDivisionError unless there are no epochs.", "quantifier": "for all initial parameters, data, batches, numbers of epochs and differentiable targets", "why_tests_cant": "A statement about derivatives of a whole training run.", "anchors": ["dattri/benchmark/datasets/mnist/mnist_lr.py:18-53", "dattri/benchmark/datasets/mnist/mnist_mlp.py:15-50", "dattri/benchmark/datasets/cifar/cifar_resnet9.py:17-64", "dattri/benchmark/datasets/imagenet/imagenet_resnet18.py:17-72", "dattri/algorithm/dvemb.py:263-305", "dattri/algorithm/dvemb.py:688-866"]}
{"id": "C153", "title": "ResNet-9 treats images one by one when evaluated, not when trained", "statement": "In evaluation mode a batch gives a result exactly when it has an image, all images have three planes and all have one size, which is not empty. The scores of an image are then a function of this image alone and the network is unchanged; so the per-example losses of the CIFAR benchmark do not depend on the batches. In training mode, with the dropout rate 0 of the benchmark, nothing depends on random numbers, and the scores of an image and the new running statistics depend on which images are in the batch, not on their order; they do depend on the other images. A training batch of a single image of at most four by four pixels raises ValueError.", "quantifier": "for all numbers of planes, weights, running statistics, image sizes, batches, labels and random draws", "why_tests_cant": "Independence of the rest of the batch is a statement about all batches and all weights.", "anchors": ["dattri/benchmark/models/resnet9/resnet9.py:6-77", "dattri/benchmark/datasets/cifar/cifar_resnet9.py:67-110"]}
{"id": "C154", "title": "A score that predicts retraining gets a perfect evaluation", "statement": "Retrain on subsets, evaluate the target, compute the metric: if the mean target of the models retrained on a subset strictly decreases as the sum of the scores of this subset grows, retrain_lds, calculate_lds_ground_truth and lds give 1 for every test sample (NaN exactly where all subsets have the same sum); if it increases they give -1. If the target of the model retrained without a sample is an affine function of the score of this sample, retrain_loo, calculate_loo_ground_truth and loo_corr give 1 for a positive slope and -1 for a negative one. With zero runs per subset lds gives NaN for every test sample. For an additive target, a constant minus the sum of the scores of the training samples, both give 1.", "quantifier": "for all data sets, training functions, target functions, subset draws, numbers of runs and score matrices meeting the condition", "why_tests_cant": "Composes file writing, file reading, averaging and ranking; the sign convention is fixed by all five steps together.", "anchors": ["dattri/metric/metrics.py:17-128", "dattri/metric/ground_truth.py:37-196", "dattri/model_util/retrain.py:24-289"]}
{"id": "C155", "title": "How far projected inner products are from the true ones", "statement": "The mean over all random draws of the squared difference between the inner product of two projected rows and the true one is (|x|^2 |y|^2 + <x,y>^2 - 2 sum x_i^2 y_i^2) / proj_dim, for the Rademacher projector and for the sparse one. So among all sign matrices at most a share 2 n m / (proj_dim eps^2) makes any of the n times m scores between projected training and test rows wrong by more than eps |x| |y|.", "quantifier": "every feature dimension, projection dimension, block size, history of calls, set of rows and accuracy", "why_tests_cant": "A statement about all draws at once; a test sees a few seeds.", "anchors": ["dattri/func/projection.py: BasicProjector", "dattri/func/projection.py: CudaProjector"]}
{"id": "C156", "title": "How close conjugate-gradient scores are", "statement": "If the eigenvalues of the symmetric matrix given to ihvp_cg lie between mu > 0 and L, every finite result with max_iter = m has an error, in the energy norm, of at most 2 ((sqrt L - sqrt mu) / (sqrt L + sqrt mu))^m times that of the right-hand side itself. So for a mean of convex losses with Hessian at most L and a positive regularisation, each score of the conjugate-gradient influence attributor is within a bound shrinking geometrically in max_iter of the score of the explicit attributor, and, with a trained checkpoint and the training set cached as one batch, of minus the derivative of the target under retraining. The transformed test gradient is not finite exactly if fewer iterations already give the exact solution.", "quantifier": "all smooth convex losses, data sets, checkpoints, test sets, batch sizes, tolerances, regularisations and numbers of iterations", "why_tests_cant": "A convergence rate for all problems; a test compares a few small systems up to a tolerance.", "anchors": ["dattri/func/hessian.py:330-490", "dattri/algorithm/influence_function.py:176-275"]}
{"id": "C157", "title": "One projection for all batches of a width", "statement": "The function returned by random_project maps every later batch of the same width - tensor or dictionary, any number of rows, after any earlier calls - through one fixed projection, determined by width, proj_dim, proj_seed, proj_type and ensemble_id alone; so training and test gradients that are projected by separately built functions meet in the same space. On CUDA a batch wider than the chunk limit is projected as the sum over its chunks, each with a seed of its own; a dictionary then gives the same rows if its parameters fit the chunks and it has at most feature_batch_size rows, and raises otherwise. If feature_batch_size is not the number of rows and so gives another width, dense projections raise and the identity returns the rows; a feature_batch_size of 0, a dictionary without parameters, and on the CPU one without rows, are refused.", "quantifier": "all feature batches, batch sizes, parameter widths, dimensions, seeds, types, ensemble ids and call histories", "why_tests_cant": "Determinism across separately constructed objects, and chunking that starts at 33 million columns, are out of reach for tests.", "anchors": ["dattri/func/projection.py:84-105", "dattri/func/projection.py:1070-1174", "dattri/func/projection.py:1273-1396"]}
{"id": "C158", "title": "Masks and identities on wide features", "statement": "On CUDA, with more than one chunk, proj_type random_mask does not select columns: entry j of the result is the sum over the chunks of the j-th selected column of each chunk, and the call raises if a chunk has fewer than proj_dim columns (unless it has exactly one). proj_type identity raises unless every chunk has proj_dim columns or one.", "quantifier": "all widths above the chunk limit, dimensions, seeds, batches and call histories", "why_tests_cant": "Needs features of more than 33 million columns on a GPU.", "anchors": ["dattri/func/projection.py:658-833", "dattri/func/projection.py:1129-1164"]}
{"id": "C159", "title": "EK-FAC eigenvalues are the best for the stored bases", "statement": "For whatever orthogonal bases are stored, the eigenvalues estimated for a layer minimise the sum of squared entry differences between the empirical Fisher matrix of the visited samples' layer gradients and all matrices that are diagonal in the combined basis; they are the only minimiser, so the result is at least as close as K-FAC's products of factor eigenvalues. They are non-negative and add up to the mean squared norm of the layer gradient, and with positive damping the transform solves the system of exactly this approximation plus damping.", "quantifier": "all layer widths, orthogonal bases, batches of samples, batch limits, competing eigenvalues, damping values and gradients", "why_tests_cant": "Optimality is a statement about all competing choices; tests compare a few numbers.", "anchors": ["dattri/func/fisher.py:300-381", "dattri/func/fisher.py:476-546", "dattri/algorithm/influence_function.py:1046-1093"]}
{"id": "C160", "title": "DataInf overestimates self-influence", "statement": "Per layer and with positive regularisation r, the product v . DataInf(v) is never below v . (mean g g^T + r I)^-1 v over the cached gradients g, and never above |v|^2 / r. The gap is exactly the mean over g of (g . (x - w_g))^2 + r |x - w_g|^2, where x is the exact solution and w_g the one for g alone; it vanishes exactly when every cached gradient gives the same solution, and then the whole transforms agree.", "quantifier": "all gradients, non-empty caches, positive regularisations and chunk sizes", "why_tests_cant": "An inequality between two inverses over all inputs; a test can only sample it.", "anchors": ["dattri/algorithm/influence_function.py:755-821"]}
{"id": "C161", "title": "When LiSSA converges", "statement": "With full batches and a symmetric Hessian, the result of ihvp_lissa converges for every vector as recursion_depth grows if and only if |1 - damping - e/scaling| < 1 for every eigenvalue e of the Hessian (for damping 0: every eigenvalue strictly between 0 and twice the scaling), and the limit solves (H + scaling * damping * I) l = v. With mini-batches the same condition on the expected batch Hessian decides convergence of the expected result. If every batch Hessian is symmetric, positive semidefinite and at most 2 * scaling * (1 - damping), damping in (0, 1], every execution has norm at most |v| / (scaling * damping).", "quantifier": "all Hessians, vectors, dampings, scalings, batch sizes, repeats, depths and draws", "why_tests_cant": "Convergence is about all depths; the default depth of 5000 already hides slow divergence in tests.", "anchors": ["dattri/func/hessian.py:829-925"]}
{"id": "C162", "title": "Attributors sharing a directory", "statement": "Metadata of BlockProjectedIFAttributor is kept in cache_dir, or in the current directory if none is given. For any history of attributors that each cached a loader there, let a new attributor cache a loader and attribute. Whether caching succeeds does not depend on the history, and the directory then records the new attributor's projection dimensions. If the number of batches on record differs from the loader's, the result is that of a fresh directory followed by one zero row for every sample of recorded batches beyond the loader's. If the numbers agree, the old sizes are kept: the result is that of a fresh directory when the sizes agree; a batch of one sample is repeated to fill its recorded size; any other disagreement makes attribute raise RuntimeError.", "quantifier": "all histories of a directory (any loaders, models and settings), all loaders of PyTorch batch sizes, both hessian settings, all dampings, train and non-empty test loaders", "why_tests_cant": "Depends on what earlier runs left in a directory; tests use fresh temporary directories.", "anchors": ["dattri/algorithm/block_projected_if/block_projected_if.py:143-144", "dattri/algorithm/block_projected_if/block_projected_if.py:208-321", "dattri/algorithm/block_projected_if/block_projected_if.py:681-813", "dattri/algorithm/block_projected_if/core/metadata.py:23-113", "dattri/algorithm/block_projected_if/core/metadata.py:279-310"]}
{"id": "C163", "title": "Where offload keeps tensors", "statement": "For every history of stores and clears with tensors from any devices, retrieved batches, retrieved preconditioners and loader items of the managers for offload 'none' and 'cpu' have the same values, on every compute device. With 'cpu' everything held is on the CPU; with 'none' every batch held is on the compute device, while a preconditioner stays on the device it was given on. Every retrieved batch is on the compute device (also the empty ones for a batch never stored), and with 'cpu' every retrieved preconditioner is. Loader items are all on one device, the CPU for 'cpu' and the compute device for 'none', and move_to_device keeps the values. An unknown offload, or 'disk' without cache_dir, raises ValueError.", "quantifier": "all histories of calls, devices of the given tensors, compute devices, layer counts, batch ranges and group sizes", "why_tests_cant": "Tests run on the CPU only, where every device is the same.", "anchors": ["dattri/algorithm/block_projected_if/offload/cpu.py:18-375", "dattri/algorithm/block_projected_if/offload/memory.py:18-355", "dattri/algorithm/block_projected_if/offload/__init__.py:20-49", "dattri/algorithm/block_projected_if/offload/disk.py:44-46"]}
{"id": "C164", "title": "Scores with loaders that drop the last batch", "statement": "If the train, test or full loader was created with drop_last=True, attribute of the inner-product attributors (influence functions) and of TracIn still returns a row for every sample of the train sampler and a column for every sample of the test sampler: the matrix for the yielded samples only, padded with zeros. A dropped training sample thus silently has the score 0.", "quantifier": "every attributor, checkpoint list, loaders of any size and batch size with or without drop_last", "why_tests_cant": "Tests use data sets whose size is a multiple of the batch size or keep the last batch.", "anchors": ["dattri/algorithm/base.py:334-450", "dattri/algorithm/tracin.py:69-258"]}
{"id": "C165", "title": "KNN-Shapley with loaders that drop the last batch", "statement": "With loaders created with drop_last=True, KNNShapleyAttributor.attribute raises IndexError exactly if no training labels were given and the yielded training samples times the number of test batches are fewer than the training set, or if no test labels were given and a test sample is dropped; it raises ValueError exactly if the number of given labels is not that of the samples, dropped ones included. Otherwise its scores are, for 1 <= K <= N, the Shapley values of another game: dropped training samples count as being at distance 0 from every test point, and without given training labels a dropped sample carries the label of the sample whose number is its own modulo the number of yielded samples.", "quantifier": "every K, distance, label function, argsort, data set, batch size, with or without given labels", "why_tests_cant": "No test uses drop_last; the labels used for dropped samples depend on the number of test batches.", "anchors": ["dattri/algorithm/data_shapley.py:94-212"]}
{"id": "C166", "title": "Trainings with momentum and weight decay", "statement": "For differentiable losses, training with weight decay w is, for every learning rate, momentum, number of epochs and batches, the training without weight decay of the loss plus w/2 times the squared norm of the parameters; so the ImageNet training is one of the loss plus 2e-5 times the squared norm. With momentum m each step goes along the sum of all gradients so far, weighted by m to the power of their age, also across epochs.", "quantifier": "for all losses, initial parameters, batches, numbers of epochs, learning rates, momenta and weight decays", "why_tests_cant": "A statement about whole trainings.", "anchors": ["dattri/benchmark/datasets/imagenet/imagenet_resnet18.py:17-72", "dattri/benchmark/datasets/cifar/cifar_resnet9.py:17-64", "dattri/benchmark/datasets/mnist/mnist_mlp.py:15-50"]}
{"id": "C167", "title": "The default normal projection keeps inner products", "statement": "With the default `normal` projection type the inner product of two projected rows, as returned by project after any sequence of calls, has over the random draw of the matrix the mean \u27e8x, y\u27e9 and the mean squared error (|x|\u00b2|y|\u00b2 + \u27e8x, y\u27e9\u00b2) / proj_dim. Projecting n training and m test rows, the probability that any of the n\u00b7m inner products is off by more than \u03b5 |x| |y| is at most 2nm / (proj_dim \u03b5\u00b2).", "quantifier": "for all rows, dimensions, block sizes, seeds and histories of calls; for all draws of independent standard normal entries", "why_tests_cant": "A statement about the distribution over all draws and about all rows at once.", "anchors": ["dattri/func/projection.py:302-382"]}
{"id": "C168", "title": "LoGra scores are unbiased", "statement": "LoGra with the identity Hessian, over the random draw of its projections: caching any loader and attributing any test loader succeeds for every draw, and the mean of each score is the sum over the layers of the inner products of the two samples' own weight (and bias) gradients, for two- and three-dimensional activations and however the samples are batched.", "quantifier": "for all numbers and shapes of layers, samples, batchings, sequence lengths and projected dimensions; mean over all draws of independent standard normal entries", "why_tests_cant": "A statement about the distribution over all draws, composing hooks, compression, storage and scoring.", "anchors": ["dattri/algorithm/logra.py:76-117", "dattri/algorithm/block_projected_if/core/compressor.py:140-210", "dattri/algorithm/block_projected_if/core/hook.py:159-206", "dattri/algorithm/block_projected_if/block_projected_if.py:606-812"]}
{"id": "C169", "title": "Projected DVEmb gradients are biased in square layers", "statement": "DVEmb gives the input and the output projector of a layer the same seed. In a square layer the mean, over the draw, of the inner product of two samples' projected gradients X and Y is therefore \u27e8X, Y\u27e9 + (tr X tr Y + \u27e8X, Y\u1d40\u27e9)/k for factorised projections to k dimensions per factor, and \u27e8X, Y\u27e9 + tr X tr Y + \u27e8X, Y\u1d40\u27e9, for every k, for element-wise ones. With independent projectors both means would be \u27e8X, Y\u27e9.", "quantifier": "for all samples, sequence lengths, layer widths, seeds and projected dimensions; mean over all draws of standard normal entries", "why_tests_cant": "A statement about the distribution over all draws.", "anchors": ["dattri/algorithm/dvemb.py:157-190", "dattri/algorithm/dvemb.py:543-642"]}
{"id": "C170", "title": "Which layer names can be cached", "statement": "For block-projected influence functions, with training batches that all run through the same layers: cache() succeeds exactly if the layer names are distinct, belong to linear layers reached by the backward pass, and each such layer is visited once per batch; a named module that is neither linear nor layer norm raises ValueError, and everything else - layer norms, misspelt names, unused layers, repeated names - raises AttributeError. The cached parts are the named layers' own compressed gradients in the order of the names, with seeds given by the position of the module in the model. With layer_names=None caching works exactly if every batch visits each linear layer exactly once.", "quantifier": "for all models, lists of names, batches and compressors", "why_tests_cant": "Quantifies over all models, name lists and execution traces.", "anchors": ["dattri/algorithm/block_projected_if/block_projected_if.py:115-121", "dattri/algorithm/block_projected_if/block_projected_if.py:158-185", "dattri/algorithm/block_projected_if/block_projected_if.py:208-300", "dattri/algorithm/block_projected_if/core/compressor.py:213-412", "dattri/algorithm/block_projected_if/core/hook.py:237", "dattri/algorithm/block_projected_if/core/hook.py:279-306", "dattri/algorithm/block_projected_if/offload/memory.py:61-87"]}
{"id": "C171", "title": "FactGraSS scores weigh layers by how much of them the masks keep", "statement": "FactGraSS with the identity Hessian on the CPU, over the random draw of its masks and normal matrices: caching and attributing succeed for every draw, and the mean of each score is the sum over the layers of (kept outputs / outputs)(kept inputs / inputs) times the inner product of the two samples' own gradients of that layer - not the inner product of the whole gradients, unless the masks keep everything.", "quantifier": "for all numbers and shapes of layers, samples, batchings, sequence lengths and mask sizes; mean over all draws", "why_tests_cant": "A statement about the distribution over all draws, composing hooks, masks, projection, storage and scoring.", "anchors": ["dattri/algorithm/factgrass.py:81-111", "dattri/algorithm/block_projected_if/core/compressor.py:140-210", "dattri/func/projection.py:59-81", "dattri/func/projection.py:354-380"]}
{"id": "C172", "title": "Signs and order of KNN-Shapley values", "statement": "With 1 <= K <= number of training samples, a training sample's KNN-Shapley value for a test sample is positive exactly if it carries the test sample's label. It then lies between 1/N and 1/K, otherwise between 1/N - 1/K and 0. Among samples with the test label closer ones are worth at least as much as farther ones, among the others at most as much. With K > N samples with another label get positive values exactly if the farthest sample carries the test label.", "quantifier": "for all data, labels, distances, tie-breaking rules, batch sizes and K", "why_tests_cant": "Inequalities over all data sets and label assignments.", "anchors": ["dattri/algorithm/data_shapley.py:94-212"]}
{"id": "C173", "title": "Influence scores and actual leave-one-out for least squares", "statement": "For a linear model with squared loss and L2 penalty, trained to the optimum, with the prediction as target function: removing a training sample and retraining changes the prediction on a test sample by exactly the score of IFAttributorExplicit divided by n - h, where h is n times the removed sample's leverage, 0 <= h < n. So score / n has the right sign and never overstates the change.", "quantifier": "for all data sets, penalties, feature dimensions and batch sizes of the scored loaders, with the whole training set as one Hessian batch", "why_tests_cant": "An exact identity with a retrained model for all data, by linear algebra.", "anchors": ["dattri/algorithm/influence_function.py:35-132", "dattri/func/hessian.py:200-290", "dattri/task.py:139-158", "dattri/metric/ground_truth.py:60-110"]}
{"id": "C174", "title": "The formulas of the nanoGPT network and the size of its logits", "statement": "In evaluation mode the logits at a position are the products of the token embeddings with a normalised row: the row starts as token plus position embedding, and each block adds the projected attention heads of the normalised rows, then its two-layer network of the normalised row. A normalised row has, before weight and bias, mean 0 and mean square v/(v + 1e-5), v being the row's mean squared deviation; adding a constant to a row changes nothing. So a token's logit is bounded by sum_m |wte_m| (sqrt(d) |w_m| + |b_m|), with the last layer norm's w and b, whatever the tokens and the blocks.", "quantifier": "for all networks as constructed, activations, token sequences up to the block size and positions", "why_tests_cant": "An identity and an upper bound over all weights and inputs.", "anchors": ["dattri/benchmark/models/nanoGPT/model.py:18-108", "dattri/benchmark/models/nanoGPT/model.py:170-199"]}
{"id": "C175", "title": "Waiting until a chunk is written", "statement": "For a chunk that did not exist before, ensure_chunk_written returns True only when the data file holds all rows, and False exactly if no look finds both files; but it raises ValueError exactly if the first look that finds both reads the metadata while it is being written. If the chunk is being written again with at least as many rows, a look after the file got its new length and before the metadata is rewritten returns True although the file then holds the first new rows followed by zeros.", "quantifier": "for all chunks and all schedules of looks between the writer's steps", "why_tests_cant": "Quantifies over all interleavings of a writer and a polling reader.", "anchors": ["dattri/algorithm/block_projected_if/offload/disk_io/memory_map.py:23-140", "dattri/algorithm/block_projected_if/offload/disk_io/memory_map.py:376-423"]}
{"id": "C176", "title": "Iterating over stored gradients with transfers to the device", "statement": "The loader hands out the batches once each and in order, with and without CUDA. Batches are transferred exactly when CUDA is available and the device is not the CPU, whether or not a stream is passed in. With transfers, when a batch is handed out its transfer has been waited for, and so have been all others started by then: those of earlier batches and of the next one. So no transfer runs while the caller uses a batch, and at most two batches not handed out before are on the device. If reading fails after some batches, the exception reaches the caller, and with transfers the last batch read is not handed out.", "quantifier": "for all numbers of batches, devices, points of failure and points at which the caller stops", "why_tests_cant": "Ordering over all beginnings of all traces.", "anchors": ["dattri/algorithm/block_projected_if/offload/disk_io/prefetch_dataset.py:348-427"]}
{"id": "C177", "title": "Iterative solvers on the logistic regression benchmark", "statement": "The Hessian of a batch's loss in a direction u is the mean over the batch of the variance, under the model's class probabilities, of the outputs of a model with parameters u. So with inputs of squared length at most B - 1 its eigenvalues lie in [0, B/2] at every checkpoint, and the bound cannot be improved. Hence conjugate-gradient scores with a positive regularisation are within the stated bound, shrinking geometrically in max_iter, of the explicit scores. LiSSA with damping d in (0, 1) and a scaling of at least B / (4 (1 - d)) stays below |v| / (scaling * d) whatever is drawn, and with full batches converges to the solution of (H + scaling * d * I) l = v. With the default damping 0 it converges for all vectors neither with full batches nor, in expectation, with mini-batches, whatever the scaling.", "quantifier": "all data sets, checkpoints, numbers of inputs and classes, regularisations, dampings, scalings, batch sizes, depths, repeats, draws and vectors", "why_tests_cant": "Convergence and a bound at every checkpoint and for all data; a test runs one trained model.", "anchors": ["dattri/benchmark/models/logistic_regression/logistic_regression.py:17-27", "dattri/benchmark/datasets/mnist/mnist_lr.py:40-49", "dattri/func/hessian.py:330-490", "dattri/func/hessian.py:829-925", "dattri/algorithm/influence_function.py:176-375"]}
{"id": "C178", "title": "EK-FAC scores in terms of derivatives", "statement": "Take layers without bias, with two-dimensional inputs, each used once per forward pass, and a differentiable target function that averages over the batch. Then the eigenvalue estimated for a direction of a layer is the mean, over the samples of the visited batches, of the square of that component of the sample's target gradient; batch sizes do not matter. With positive damping the score of a training and a test sample is finite: the loss gradient of the first times the solution of the damped system for the target gradient of the second. If the components in the stored bases are uncorrelated over the samples, that system is the exact damped empirical Fisher matrix of the target, layer by layer. If the target function sums over the batch instead, each sample is weighted with the square of the size of its batch, so the estimate depends on the batching.", "quantifier": "all layers, weights, targets, samples, batchings, orthogonal bases, dampings and values of max_iter", "why_tests_cant": "Quantifies over all networks, data sets and batchings; connects running statistics of hooks to derivatives.", "anchors": ["dattri/func/fisher.py:300-546", "dattri/algorithm/influence_function.py:930-1093"]}
{"id": "C179", "title": "What TRAK scores are, when they exist, and how they scale", "statement": "With a non-negative regulariser lambda, attribute(test, train) returns scores exactly when lambda > 0 or the projected training gradients of every checkpoint span the projection space, and raises RuntimeError otherwise; cache(train) and self_attribute(train) succeed and raise under the same condition. With one checkpoint and lambda > 0 the scores of a test sample are (1 - p_i) times the unique coefficients minimising the squared error of representing the test gradient by the training gradients plus lambda times the squared norm of the coefficients; with lambda = 0 they are the smallest coefficients that represent it exactly. Self scores lie in [0, 1] and add up to at most the projection dimension (exactly, for lambda = 0 and p = 0). Multiplying all features by s is the same as dividing lambda by s^2, so the scaling by the number of parameters multiplies the effective lambda by that number and is without effect for lambda = 0. Giving the training set k times with k lambda divides every score by k.", "quantifier": "every data set, projection, number of checkpoints and non-negative regulariser", "why_tests_cant": "All real feature matrices; existence is a rank condition.", "anchors": ["dattri/algorithm/trak.py: TRAKAttributor.attribute", "dattri/algorithm/trak.py: TRAKAttributor.self_attribute"]}
{"id": "C180", "title": "TRAK with correct probabilities of shape (1,)", "statement": "If the correct-probability function returns one-element tensors instead of scalars, cache() followed by attribute(test) works as for scalars, but attribute(test, train) does not: it raises RuntimeError unless all training batches have the same size w, the number t of test samples equals the number n of training samples or one of t, n is 1, and n = w or one of n, w is 1; otherwise it returns a three-dimensional tensor of shape (n, max(t, n), 1) whose entry [i, j, 0] is the score of i on j multiplied by the factor 1 - p of training sample j (instead of i).", "quantifier": "every data set, batch size, number of checkpoints and projection", "why_tests_cant": "Silent broadcasting that depends on the sizes of both data sets and the batch size.", "anchors": ["dattri/algorithm/trak.py: TRAKAttributor.cache", "dattri/algorithm/trak.py: TRAKAttributor.attribute"]}
{"id": "C181", "title": "TRAK after a cache() that raised", "statement": "After a cache() that raised, attribute(test, train) raises ValueError; attribute(test) raises AttributeError if no cache() succeeded before, and otherwise returns without any error the scores for the training set of the last successful cache().", "quantifier": "every attributor, every earlier history and every pair of loaders", "why_tests_cant": "Needs an exception in the middle of caching followed by further use.", "anchors": ["dattri/algorithm/trak.py: TRAKAttributor.cache", "dattri/algorithm/trak.py: TRAKAttributor.attribute"]}
{"id": "C182", "title": "Preparing MIDI data", "statement": "prep_maestro_midi writes nothing and returns False if the index file is missing; otherwise it processes the pieces in order, each into the folder of its split type (train, validation to val, test) under the last component of its path plus .pickle, until the first unrecognised split type (returns False) or failing encoding (exception) or the end (True): what came before stays written, pieces of one folder with equal last component replace each other, files of earlier runs stay. prep_custom_midi does the same with the name up to the first dot and a random folder: with independent uniform draws a piece is in train with probability 1 - valid_p, in val with probability valid_p (1 - test_p) and in test with probability valid_p test_p (0.02 with the default values, not 0.2). A second run into the same directory can leave one piece in both train and test.", "quantifier": "every index, listing, output directory, encoder and sequence of draws", "why_tests_cant": "Random splits, all listings and histories of the output directory.", "anchors": ["dattri/benchmark/models/MusicTransformer/dataset/preprocess_midi.py: prep_maestro_midi", "dattri/benchmark/models/MusicTransformer/dataset/preprocess_midi.py: prep_custom_midi"]}
{"id": "C183", "title": "Command line settings of the nanoGPT training script", "statement": "An argument --key=value is accepted exactly if the setting exists and the value, read as a Python literal or else as text, has exactly the type of the present value; it then changes that setting only. A flag without value and an assignment without dashes raise AssertionError, a value containing = and an unknown key ValueError, a value of another type AssertionError. With options only, the settings and their types stay the same and the last option for a key counts; a configuration file overrides the options before it and is overridden by those after it. With the default settings the subset ratio cannot be set to any decimal number (its default is the integer 1), and the data set path cannot be set at all.", "quantifier": "every command line, configuration file and initial settings", "why_tests_cant": "All command lines; the outcome depends on the types of the present values.", "anchors": ["dattri/benchmark/models/nanoGPT/configurator.py", "dattri/benchmark/models/nanoGPT/train.py"]}
{"id": "C184", "title": "EK-FAC with several modules", "statement": "With a list of distinct linear modules, all trainable and run by the model, the EK-FAC score of a training and a test sample is the sum over the modules of the scores with that module alone, each being the sum of products of both gradient blocks in the stored eigenbasis divided by the damped eigenvalues; if one damped eigenvalue of one module is zero, all scores of the test sample are non-finite; the order of module_name does not matter. If the damped eigenvalues are positive the scores are symmetric, self scores are not negative, and the square of a score is at most the product of the two self scores (also for layers with bias, whatever C18 says about their layout). One module with a frozen parameter, or one the model never runs, makes attribute raise KeyError for the whole request.", "quantifier": "every list of modules, sizes, stored statistics, damping and gradients", "why_tests_cant": "All models and requests; positivity for all gradients.", "anchors": ["dattri/algorithm/influence_function.py: IFAttributorEKFAC.transform_test_rep", "dattri/algorithm/influence_function.py: IFAttributorEKFAC.__init__"]}
{"id": "C185", "title": "What block-projected scores differentiate", "statement": "A score of BlockProjectedIFAttributor, LoGra or FactGraSS is the sum over the selected layers of the inner products of two compressed per-sample gradients (the first preconditioned for the empirical Fisher matrix): of the task's loss function on the training side and of the cross-entropy of the model's outputs with the labels (or of the model's own loss, if it returns one) on the test side. The task's target function has no part in it. If the loss averages over the batch, training rows do not depend on the batching; if it sums, each row is multiplied by the size of its batch. Test labels of -100 give a zero column and multiply the other columns of their batch by the batch size over the number of other labels. Dictionary batches need a model that returns a loss, other batches must be pairs (ValueError); a label that is neither a class nor -100 is an IndexError. Only one checkpoint counts: with the default load function the one last loaded through the task by any attributor (the first one if none was loaded since), separately for caching and for attribution; with a load function that returns a new model the first one.", "quantifier": "every network that uses the layers once, task, compressor, loaders, labels, checkpoints and loading histories", "why_tests_cant": "Gradients of arbitrary networks and all interleavings with other attributors of the task.", "anchors": ["dattri/algorithm/block_projected_if/block_projected_if.py: BlockProjectedIFAttributor.cache", "dattri/algorithm/block_projected_if/block_projected_if.py: BlockProjectedIFAttributor._compute_test_gradients", "dattri/algorithm/block_projected_if/block_projected_if.py: BlockProjectedIFAttributor.__init__", "dattri/task.py: AttributionTask._load_checkpoints"]}
{"id": "C186", "title": "Samples removed by the data-cleaning example", "statement": "With --remove_number r between 1 and the number n of training samples, the data-cleaning example retrains on n - r samples in their old order, and every removed sample has a mean score over the validation samples at most that of every kept one: no other r samples have a smaller sum of mean scores. With r = 0, as with r >= n, nothing is kept; with r = -k, 0 < k <= n, the k samples with the highest mean scores are kept.", "quantifier": "every score matrix with at least one column, number of samples, number to remove and order of tied scores", "why_tests_cant": "All score matrices, tie orders and numbers to remove.", "anchors": ["examples/data_cleaning/influence_function_data_cleaning.py: main script"]}
{"id": "C187", "title": "Table of found wrong labels in the noisy-label examples", "statement": "The table printed by the noisy-label examples has one row for each multiple k of 100 below the number of samples, giving the number of wrongly labelled samples among the k samples with the highest scores. The number is at most k and at most the number f of wrong labels, grows with k by at most the difference of the k, and is min(k, f) in every row if all wrongly labelled samples score higher than all others. There is no row for all samples. For distinct scores, the printed AUC times the numbers of wrong and right labels is the sum of such counts over the positions of the correctly labelled samples.", "quantifier": "every score vector, set of wrong labels and order of tied scores", "why_tests_cant": "All score vectors and sets of wrong labels.", "anchors": ["examples/noisy_label_detection/influence_function_noisy_label.py: main script", "examples/noisy_label_detection/tracin_noisy_label.py: main script", "examples/noisy_label_detection/trak_noisy_label.py: main script", "dattri/metric/metrics.py: mislabel_detection_auc"]}
{"id": "C188", "title": "Character data sets", "statement": "In the data prepared by the Shakespeare and TinyStories scripts the number of a character is the number of smaller distinct characters of the text. Encoding fails with a KeyError exactly on strings with a character outside the text; otherwise decoding gives the string back and every number is below the vocabulary size. For texts of fewer than 2^49 characters, the training file decodes to the first floor(9n/10) of the n characters, in spite of the rounding in n*0.9, and the validation file to the rest, provided there are at most 65536 distinct characters; with more, a number does not fit the file's 16 bits. The files open as data sets exactly if n >= 2 (ValueError otherwise), and sample i decodes to block i of the text, its labels (where the text goes on) to the block one character later.", "quantifier": "every text, string, block size and sample index; every way of rounding ties", "why_tests_cant": "All texts and lengths, including the floating-point product.", "anchors": ["dattri/benchmark/datasets/shakespeare_char/prepare.py: main script", "dattri/benchmark/datasets/tinystories/prepare.py: main script", "dattri/benchmark/datasets/shakespeare_char/data.py: create_shakespeare_dataset", "dattri/benchmark/datasets/shakespeare_char/data.py: CustomDataset.__getitem__"]}
{"id": "C189", "title": "Conjugate gradient on singular and indefinite systems", "statement": "For every symmetric n by n (damped) Hessian and every vector there is a k <= n such that the conjugate-gradient method gives a finite result exactly for max_iter <= k, and no result with max_iter < k solves the system; so max_iter > n never gives a finite result. If the matrix is positive semi-definite, possibly singular, and the vector is in its range, the result for max_iter = k is the solution of least norm (the pseudo-inverse applied to the vector). If the matrix is indefinite, the method can fail in its first step although there is exactly one solution.", "quantifier": "every n, symmetric matrix and vector; for the solution, positive semi-definite matrices and vectors in their range", "why_tests_cant": "All symmetric systems, including singular ones, in exact arithmetic.", "anchors": ["dattri/func/hessian.py: ihvp_at_x_cg", "dattri/func/hessian.py: ihvp_cg"]}
{"id": "C190", "title": "Optional parameters of the compressor set-up", "statement": "setup_model_compressors returns an empty list without sample inputs and one empty entry per name with sample inputs but without parameters, whatever the types of the layers. With the parameters of both stages it is the set-up of C102. With the projector's parameters only it raises an AttributeError as soon as one name is that of a module, and with the sparsifier's only no layer ever gets a compressor: the first named module with an unsupported type (ValueError) or that could be set up (AttributeError) ends it. The attributors replace an absent stage by a default with seed 0, so they never meet these errors; caching with an empty loader raises StopIteration.", "quantifier": "every model, list of names, combination of given and absent parameters and seeds", "why_tests_cant": "All models, name lists and combinations of arguments.", "anchors": ["dattri/algorithm/block_projected_if/core/compressor.py: setup_model_compressors", "dattri/algorithm/block_projected_if/block_projected_if.py: BlockProjectedIFAttributor._setup_compressors", "dattri/algorithm/block_projected_if/block_projected_if.py: BlockProjectedIFAttributor.__init__"]}
{"id": "C191", "title": "Loading pretrained GPT-2 weights", "statement": "GPT.from_pretrained succeeds exactly if the downloaded model has as many entries as the new one, attention masks left aside, and each has the name and, with the axes reversed for the four kinds of projection matrices, the shape of a parameter. Afterwards every place holds the value, transposed for those matrices, of the last downloaded entry with a name leading to it; if entries that share a place agree, as tied embeddings do, every parameter equals its downloaded value, and with distinct downloaded names none keeps its initial value. The transposed matrices compute in a linear layer what the originals compute. Only the four GPT-2 types are accepted (AssertionError otherwise).", "quantifier": "every model, downloaded state dict and sharing of parameters", "why_tests_cant": "All shapes, including square matrices where a missing transposition passes every shape check.", "anchors": ["dattri/benchmark/models/nanoGPT/model.py: GPT.from_pretrained"]}
{"id": "C192", "title": "Choosing hyper-parameters in the benchmark experiments", "statement": "experiments/benchmark_result.py prints for the influence functions the largest positive average of the metric over the test samples that have one, and the first configuration reaching it; 0 and None if no configuration has a positive average. For RPS the same value is printed, but next to it always the last regularisation strength of the list, which belongs to the value exactly if that strength reaches the best average.", "quantifier": "every list of configurations and metric values, including not-a-number and negative ones", "why_tests_cant": "Which configuration wins depends on all values together; runs with a few strengths rarely have the best one in another place than the reported one and look plausible anyway.", "anchors": ["experiments/benchmark_result.py", "experiments/benchmark_result_mt.py"]}
{"id": "C193", "title": "The correlation printed for the WikiText-2 experiment", "statement": "calculate_one of experiments/gpt2_wikitext/spearman.py returns the average of the values of lds, for the subsets in the files and the ground truth, over those of the first 481 test samples for which lds is defined (ZeroDivisionError if there is none); further test samples have no influence and cells that are no integers are skipped. A number that is no training sample is a ValueError, a sample without score row or too few test samples an IndexError, another number of runs than files a ValueError.", "quantifier": "every score matrix, set of files and ground truth", "why_tests_cant": "All files and matrices; the agreement with the library's metric holds for every number of runs.", "anchors": ["experiments/gpt2_wikitext/spearman.py: read_nodes, calculate_one"]}
{"id": "C194", "title": "Training without one sample in the DVEmb ground truth", "statement": "In examples/dvemb the training without sample e is plain SGD on the batches of the full training with e taken out and empty batches skipped; the other samples keep their batches. Up to the first batch with e both trainings agree; there, in a batch of n samples, the parameters move apart by the learning rate times (gradient of e minus mean gradient of the batch) / (n - 1). Over the samples of that batch these changes add up to zero, whereas the first-order effects of their weights, which DVEmb estimates, add up to the step. For a sample in no epoch the row of the ground truth is zero.", "quantifier": "all losses, data orders, batch sizes, learning rates and samples", "why_tests_cant": "The comparison with retraining and with weights is about all trajectories; a test can only compare a few of them numerically.", "anchors": ["examples/dvemb/_groundtruth_loo_mlp.py: LOOGroundTruthGenerator._train_model, generate_loo_groundtruth"]}
{"id": "C195", "title": "Selecting samples for the DVEmb ground truth", "statement": "generate_loo_groundtruth selects exactly the asked number of training samples, each class at least that number divided by the number of classes (rounded down) times; if the number of classes divides it, no sample twice and every class equally often, otherwise, if each class has a share, there are draws with a sample selected twice. It is a ValueError if a class is smaller than that share and a ZeroDivisionError without training data. evaluate compares every row of the ground truth with the scores of the sample left out there: scores in the order of the effects give correlation 1, in the opposite order -1, and not-a-number if all effects agree.", "quantifier": "all label lists, numbers and outcomes of the random draws; all trainings and scores", "why_tests_cant": "All outcomes of the random draws; a seeded run shows one.", "anchors": ["examples/dvemb/_groundtruth_loo_mlp.py: LOOGroundTruthGenerator.generate_loo_groundtruth", "examples/dvemb/dvemb_mlp.py: evaluate"]}
{"id": "C196", "title": "How far trainings with Adam and AdamW move", "statement": "Whatever the data and losses, a step of the Adam and AdamW trainings moves a parameter, apart from weight decay, by at most the learning rate times sqrt((1-beta1)/(1-beta2)). So train_wikitext2_gpt2 leaves every parameter within 0.0005 per step of its initial value times 0.9999995 per step, and two such trainings of equal length from the same weights (for instance on different subsets) differ by at most 0.001 per step in every parameter; the MusicTransformer stays within 0.0001 sqrt(5) per step, nanoGPT (default averages) within sqrt(2) times the largest learning rate per step, with biases and layer norms not decayed. A parameter with zero gradients is only decayed; the first step is the learning rate times g/(|g|+eps); scaling losses and eps changes nothing.", "quantifier": "all losses, gradients (also random, clipped or accumulated), batches, numbers of epochs and initial weights", "why_tests_cant": "A bound over all data and losses cannot be reached by examples; a test sees some trainings only.", "anchors": ["dattri/benchmark/datasets/wikitext2/wikitext2_gpt2.py: train_wikitext2_gpt2", "dattri/benchmark/datasets/maestro/maestro_musictransformer.py: create_optimizer_and_scheduler, train_maestro_musictransformer", "dattri/benchmark/models/nanoGPT/model.py: GPT.configure_optimizers", "dattri/benchmark/models/nanoGPT/train.py"]}
{"id": "C197", "title": "Steps, checkpoints and resuming in the GPT-2 experiment", "statement": "A new run of experiments/gpt2_wikitext/train.py makes exactly max_train_steps updates (by default epochs times updates per epoch, using every batch of every epoch once and in order); each update uses gradient_accumulation_steps consecutive batches of one epoch, fewer only at the end of an epoch, and checkpoints are saved at the multiples of checkpointing_steps. Resuming from epoch_i makes exactly the missing updates. Resuming from step_i before the end continues at batch i times gradient_accumulation_steps of the stream of batches, which are the missing updates exactly if gradient_accumulation_steps divides the number of batches or the checkpoint is from the first epoch; otherwise batches are left out. Without accumulation, resuming a run that ended inside an epoch from its last step makes one update more than asked for. If no epoch is left, a run with an output directory ends in UnboundLocalError before train_index.csv is written. An empty loader or gradient_accumulation_steps 0 is a ZeroDivisionError.", "quantifier": "all numbers of batches, accumulation steps, epochs, maximal steps and checkpoints", "why_tests_cant": "The accounting depends on divisibility of several numbers; a test run tries one combination and rarely resumes.", "anchors": ["experiments/gpt2_wikitext/train.py: main"]}
{"id": "C198", "title": "KNN-Shapley values depend on the order of distances only", "statement": "KNNShapleyAttributor.attribute gives the same values for two distance functions that order the training samples in the same way for every test sample, whatever the batch sizes and the sorting of equal distances, provided training samples at equal distance from a test sample agree in matching its label (without that, two correct ways of sorting give different values). With the default Euclidean distance, adding a vector to all features, multiplying all by a nonzero number, permuting features, appending the same further features everywhere or an orthogonal change of basis has no effect as long as rounding keeps the order. A task in the constructor is a NotImplementedError; without distance_func the default is used.", "quantifier": "all data sets, distance functions, labels, K, batch sizes and correct sorting algorithms", "why_tests_cant": "Invariance is over all data and all sorting algorithms; tests use one platform's sorting and few points.", "anchors": ["dattri/algorithm/data_shapley.py: default_dist_func, KNNShapleyAttributor.__init__, KNNShapleyAttributor.attribute"]}
{"id": "C199", "title": "What the sanity check of RPS can tell", "statement": "For at least two samples rps_corr_check prints for every class a difference that is 0 exactly if the representer weights reproduce the outputs of that class on all samples, and a correlation that is 1 exactly if the outputs are a positive multiple of the non-constant prediction plus a constant, so that it cannot tell a wrong scale or offset; it is not-a-number exactly if outputs or prediction are constant. If the last layer is the weighted sum of the features, all differences are 0 and all correlations 1 or not-a-number. Fewer samples are a ValueError.", "quantifier": "all weights, features and outputs", "why_tests_cant": "The equivalences quantify over all matrices; a test only sees that the correlation is high.", "anchors": ["dattri/algorithm/utils.py: rps_corr_check"]}
{"id": "C200", "title": "Replacing Conv1D layers before LoGra", "statement": "The replacement of Conv1D by Linear layers in the GPT-2 scripts leaves the function computed by the model unchanged, whatever the containers do with their children, and keeps all module names in order. Every Conv1D becomes a new Linear with transposed weight, except the model itself and a Conv1D that is also registered earlier under another name of the same parent; no Conv1D is left exactly if there is no such case. Without shared modules the layer names handed to LoGra are then exactly the former Linear and Conv1D layers in order; without the replacement the Conv1D layers would be missing. find_layers lists no object twice and never an embedding, its three forms agree, and it raises ValueError exactly for other layer or return types.", "quantifier": "all module trees with arbitrary sharing, all weights and all ways a container may combine its children", "why_tests_cant": "The claim is about every model structure including shared modules; a test looks at one GPT-2.", "anchors": ["experiments/gpt2_wikitext/score_logra.py: replace_conv1d_modules, find_layers", "examples/pretrained_benchmark/logra_wikitext2_gpt2_lds.py: replace_conv1d_modules"]}
{"id": "C201", "title": "The log-odds output function of TRAK", "statement": "For a positive loss the documented output function is the logarithm of the odds of the documented correct probability, strictly decreasing in the loss and onto the reals; for cross entropy it is the logit of the label minus the soft maximum of the others. Its gradient is minus the loss gradient divided by one minus the correct probability, so the weight TRAK gives a training sample cancels that division and with one checkpoint only the test sample's factor remains. At loss zero it is infinite: with one class always, and in the music experiment exactly for sequences whose last target is padding. Formed from the mean loss of a batch, a sample's share of the gradient is a positive multiple of the gradient of its own output, with factor 1 for single-sample batches.", "quantifier": "all losses, logits, labels, differentiable models and batch sizes", "why_tests_cant": "Identities of real functions and of gradients for every differentiable model; tests compare a few numbers.", "anchors": ["dattri/algorithm/trak.py: TRAKAttributor.__init__ (documented f and m)", "experiments/gpt2_wikitext/score_TRAK.py: f, m", "experiments/gpt2_wikitext/score_logra.py: m", "experiments/benchmark_result_mt.py: loss_trak, correctness_p"]}
{"id": "C202", "title": "Batch dimensions of the inputs of Fisher products", "statement": "The input check of the Fisher products returns n exactly if there is one in_dims entry per argument and every argument with a batch dimension has size n along it (1 without such arguments); leaving in_dims out means the first dimension everywhere. Otherwise the first argument that does not fit decides: IndexError if it has no such dimension, the usage error if its size differs from those before it or the number of entries is wrong. After a successful check the random batches contain every sample exactly once, position j of every batched argument of a batch is the slice of one and the same sample along that argument's own batch dimension, and arguments without batch dimension reach every batch unchanged.", "quantifier": "all numbers of arguments, shapes, batch dimensions (also negative), batch sizes and permutations", "why_tests_cant": "Samples of different arguments could be paired wrongly for some axis or permutation only; tests use the first axis.", "anchors": ["dattri/func/fisher.py: _check_input_size", "dattri/func/fisher.py: _random_batch_iterator"]}
{"id": "C203", "title": "Rounding of TracIn scores and the batch sizes", "statement": "Computed in floating point, a TracIn score differs from the exact weighted sum of inner products by at most ((1+u)^(D+k+1)-1) times the weighted sum of the absolute products, plus a term for underflow, for k checkpoints and matrix products with at most D roundings between a product and the result (D is at most the number of parameters), whatever order of additions, fused operations or device the batch shapes lead to. So runs with other batch sizes differ by at most twice that, and two training samples whose exact scores differ by more than the two bounds are ranked rightly in every run. Rounding to float32 satisfies the assumption with u=2^-24 and underflow 2^-150. Whole-number products adding up to at most 2^24 in absolute value give exactly the same result in every order; in general the order does change the result.", "quantifier": "all gradients, weights, numbers of parameters and checkpoints, orders of addition and rounding functions with the stated accuracy", "why_tests_cant": "The evaluation order depends on shapes, device and threads; tests compare within a tolerance for one order.", "anchors": ["dattri/algorithm/tracin.py: TracInAttributor.attribute"]}
{"id": "C204", "title": "The brittleness example", "statement": "The brittleness example evaluates the first test sample that the retrained model predicts rightly and raises AttributeError if there is none. Its answer is the smallest number of the search space such that leaving out that many highest-scored training samples changes that sample's prediction, or None; but the scores it sorts by are those of the test sample at the position within the batch. They belong to the evaluated sample exactly if it lies in the first test batch; otherwise they belong to an earlier sample that the model predicts wrongly, and the answer can then differ from the one by the sample's own scores.", "quantifier": "all scores, predictions, labels, data set sizes, batch sizes and argsort results", "why_tests_cant": "In a run the first batch nearly always contains a right prediction, so the wrong column never shows.", "anchors": ["examples/brittleness/mnist_lr_brittleness.py: main", "dattri/metric/britteness.py: brittleness"]}
{"id": "C205", "title": "Reuse of chunk buffers", "statement": "The disk manager writes batches into preallocated buffers that are taken from a pool, filled, copied and given back. Reuse is never visible: for every order of opening chunks, storing batches, flushing and overflowing, each written chunk holds exactly the rows stored in it since it was opened, with the right row ranges, just as if every chunk had a fresh buffer of its own; rows of an earlier chunk that are still in the buffer never appear. No buffer belongs to two chunks at once, the pool never holds more than max(8, buffer_pool_size) buffers, a chunk gets a buffer without waiting as long as fewer chunks than that are open for its data type, and after a buffer overflow a new buffer is always found.", "quantifier": "all pool sizes, chunk capacities and sequences of operations of one storing thread", "why_tests_cant": "A test sees a handful of chunks; leaking of stale rows depends on which buffer is recycled for which chunk.", "anchors": ["dattri/algorithm/block_projected_if/offload/disk_io/manager.py: BufferPool, ChunkedMemoryMapManager.store_gradients, store_ifvp, _async_flush_chunk_buffer"]}
{"id": "C206", "title": "Dropping the disk manager", "statement": "When the last outside reference to a disk manager with at least one write worker goes away, it is never finalised: its worker threads keep it alive and run for ever, rows in buffers that were not yet flushed never reach the disk, and only chunks already handed to the write queue can still be written. With no workers the finaliser runs and writes exactly the open buffers; nothing from the queue is written. If the finaliser is called by hand and returns and no write fails, every open buffer is on disk and every chunk is in exactly one place, but at most one queued chunk per worker has been taken from the queue, and the others are never written. If the queue is full and no worker is about to take from it, the call never returns. If the queue is unlimited or has room for one stop signal per worker, the call always returns, after a number of steps bounded by the workers and open buffers.", "quantifier": "all numbers of workers, queue sizes, sequences of calls and schedules", "why_tests_cant": "Garbage collection against running threads, and schedules at the moment of shutdown, are out of reach of a deterministic test.", "anchors": ["dattri/algorithm/block_projected_if/offload/disk_io/manager.py: ChunkedDiskIOManager.__del__, _write_worker, wait_for_async_operations"]}
{"id": "C207", "title": "Leave-one-out ground truth is stored in float32", "statement": "The target values and the removed indices of calculate_loo_ground_truth are stored in float32 tensors whatever the target function computes in. Storing never turns the order of two values round, so rankings can only gain ties; every stored index is within the float32 rounding error of the removed index, and it is exact if the index is at most 2^24; the models without sample 2^24 and without sample 2^24+1 get the same index.", "quantifier": "all real target values, all index sets and directory listings (no overflow)", "why_tests_cant": "Monotonicity of rounding over all reals is not testable; indices above 16 million never occur in tests.", "anchors": ["dattri/metric/ground_truth.py: calculate_loo_ground_truth"]}
{"id": "C208", "title": "Scores do not depend on how parameters are numbered or rotated", "statement": "If a model is rewritten so that its parameter vector is an orthogonal transform of the old one (in particular: the parameters are merely numbered differently) and the checkpoints are transformed accordingly, the attribute and self-attribute results of the explicit and CG influence functions (without relatif) and of TracIn without random projection (normalised or not) are identical, errors included; the explicit influence function without regularisation is even identical under every invertible linear change. LiSSA (draw by draw), Arnoldi (with the start vector transformed) and DataInf (in each layer) return the transformed vectors; data value embeddings give identical scores. TRAK's scores depend on the projected features only up to an orthogonal factor, without regularisation up to an invertible one. Other changes matter: TracIn's scores are divided by s^2 when the parameters are measured in a unit that makes them s times as large. EK-FAC is an exception: renumbering two neurons of a layer changes its scores.", "quantifier": "all losses and targets (for the influence functions: with differentiable gradient at the checkpoints), transforms, checkpoints, loaders, iteration numbers, tolerances", "why_tests_cant": "Two runs on differently coordinatised models are never compared in tests, and equality up to float tolerance on samples is no proof for all losses and transforms.", "anchors": ["dattri/algorithm/influence_function.py: IFAttributorExplicit, IFAttributorCG, IFAttributorDataInf, IFAttributorEKFAC", "dattri/algorithm/tracin.py: TracInAttributor", "dattri/algorithm/trak.py: TRAKAttributor", "dattri/algorithm/dvemb.py: DVEmbAttributor", "dattri/func/hessian.py: ihvp_explicit, ihvp_cg, ihvp_lissa, ihvp_arnoldi", "dattri/func/fisher.py: estimate_lambda"]}
{"id": "C209", "title": "Which layers a DVEmb attributor records, and when it can be constructed", "statement": "Constructing a DVEmb attributor succeeds exactly when, without factorisation, the loss function has two parameters without default; or, with any other factorization_type (None included), it has three, at least one layer is left to record, and, if a projection dimension is given, the type is 'kronecker' with a nonnegative dimension or 'elementwise'; every other case is a ValueError. Without layer_names the recorded layers are the linear modules, each once; with names they are the modules known by these names in the order and with the repetitions of the list, and every other name is dropped with a warning; the second name of a shared module is unknown. A single string is one name. 'kronecker' uses r*r coordinates per layer for the largest r with r*r not above the requested dimension. Rows recorded without projection fit the embedding computation always for linear layers; for other modules they raise AttributeError (no bias attribute) or RuntimeError (sizes), and a layer named twice counts twice in every product of rows.", "quantifier": "all models (module listings with sharing), loss signatures, projection dimensions, types, name lists, activations", "why_tests_cant": "The effect of misspelt or repeated names, shared modules, non-linear modules and misspelt types is silent or late; tests construct the attributor with well-formed arguments.", "anchors": ["dattri/algorithm/dvemb.py:39-155", "dattri/algorithm/dvemb.py:157-214", "dattri/algorithm/dvemb.py:506-541"]}
{"id": "C210", "title": "Which other samples a score depends on, and the order of the samples", "statement": "The TracIn score of a training and a test sample, and (once the full training data are cached) their influence-function score, is the same whatever other samples the loaders contain, wherever the two samples stand and whatever the batch sizes. A TRAK score depends in addition on which training samples there are, but not on their order or batches, nor on the other test samples. KNN-Shapley values move with the samples when the training set is reordered, provided samples at equal distance from a test sample agree in matching its label. The explicit influence function without cache is unaffected by reordering if the training loader has one batch; with several batches the order changes its result.", "quantifier": "all attributors, data sets and reorderings, batch sizes, sorting routines, checkpoints", "why_tests_cant": "Tests use one fixed data set in one order; that no other sample or position can influence an entry is a statement about all data sets.", "anchors": ["dattri/algorithm/tracin.py: TracInAttributor.attribute", "dattri/algorithm/base.py: BaseInnerProductAttributor.attribute", "dattri/algorithm/trak.py: TRAKAttributor.attribute", "dattri/algorithm/data_shapley.py: KNNShapleyAttributor.attribute", "dattri/algorithm/influence_function.py: IFAttributorExplicit"]}
{"id": "C211", "title": "Symmetric scores between samples and linearity of the solvers", "statement": "When the target function is the loss function and a data set is attributed to itself, the score of sample i on sample j equals that of j on i for TracIn (normalised or not), for the explicit influence function with symmetric batch Hessians (in particular for every twice continuously differentiable loss) and for the Arnoldi influence function, whatever its iteration count and number of kept eigenpairs. TRAK scores of a pair differ exactly by the mean of one minus the probability of the sample on the training side. DataInf's transformation of a layer and the Arnoldi solver are linear and symmetric; the explicit transformation is linear; LiSSA is linear for fixed draws and symmetric for full batches and in expectation, but not for single draws. Conjugate gradients commute with nonzero multiples of the vector at every iteration count, but before convergence they are neither additive nor symmetric.", "quantifier": "all data sets, batch sizes, checkpoints, losses, Hessians, vectors, iteration counts, draws", "why_tests_cant": "Symmetry and linearity are identities over all pairs of vectors; a test compares a few numbers with a tolerance and cannot tell an approximate symmetry from an exact one.", "anchors": ["dattri/algorithm/tracin.py: TracInAttributor.attribute", "dattri/algorithm/influence_function.py: IFAttributorExplicit, IFAttributorArnoldi, IFAttributorDataInf", "dattri/algorithm/trak.py: TRAKAttributor.attribute", "dattri/func/hessian.py: ihvp_at_x_cg, ihvp_lissa, ihvp_at_x_arnoldi"]}
{"id": "C212", "title": "Scores when the loss or the target is measured in another unit", "statement": "Multiply the loss by c and the target by t. Unnormalised TracIn scores are multiplied by c*t; normalised ones do not change for positive factors unless a gradient is shorter than 1e-12. Explicit influence scores are multiplied by t alone if the regularisation is multiplied by c as well; so multiplying the loss is the same as dividing the regularisation by c. A factor of the target comes out of conjugate-gradient transformations at every iteration count, but unconverged ones depend on the unit of the loss. LiSSA results are multiplied by t/c, draw by draw, if `scaling` is multiplied by c; DataInf and EK-FAC transformations by t/c^2 if the regularisation or damping is multiplied by c^2.", "quantifier": "all losses, targets, factors, data sets, batch sizes, checkpoints, draws, iteration counts", "why_tests_cant": "A test fixes one loss; how results depend on its unit (sum versus mean reduction, for instance) and whether defaults of the regularisation are meaningful needs the identity for all factors.", "anchors": ["dattri/algorithm/tracin.py: TracInAttributor.attribute", "dattri/algorithm/influence_function.py: IFAttributorExplicit, IFAttributorCG, IFAttributorLiSSA, IFAttributorDataInf, IFAttributorEKFAC", "dattri/func/hessian.py: ihvp_at_x_cg, ihvp_lissa"]}
{"id": "C213", "title": "Vectors, matrices and defaults of the inverse-Hessian-vector functions", "statement": "The explicit function keeps the shape of its argument; conjugate gradients, LiSSA and Arnoldi always return a matrix, with one row for a vector. Row i of the result belongs to row i of the argument: for the explicit function it is the only solution of the system, for conjugate gradients what the vector alone would give, for LiSSA the estimate with draws of its own, for Arnoldi what the vector alone would give with the same random start vector. The explicit function raises exactly for singular matrices, LiSSA without repeats. `ihvp_arnoldi` keeps at most 100 eigenpairs whatever its `max_iter`: with more than 100 parameters it maps some nonzero vector to zero whenever it is finite, and with at most 100 it is the inverse once the Krylov space has full dimension.", "quantifier": "all matrices, vectors, numbers of rows, iteration counts, draws and start vectors", "why_tests_cant": "Tests call the functions with one shape and fewer than 100 parameters, where the two forms agree.", "anchors": ["dattri/func/hessian.py: ihvp_explicit, ihvp_at_x_explicit, ihvp_cg, ihvp_at_x_cg, ihvp_lissa, ihvp_arnoldi, ihvp_at_x_arnoldi"]}
{"id": "C214", "title": "What the method names of the experiment scripts stand for", "statement": "`score_TRAK.py --method` runs TRAK exactly for `TRAK-` followed by digits, with the checkpoints `output_dir/0`, ..., as many as the digits say (every number can be asked for; leading zeros are fine); `TracIn` and `Grad-Dot` are one and the same run over five checkpoints, `Grad-Cos` has normalised gradients; every other name ends with ValueError. `TRAK-0` is accepted and ends with AttributeError when attributing. `score_IF.py` always uses the checkpoints 10 to 14, none of which the other script uses unless it runs TRAK with more than ten; it loads each directory once whatever the order of requests. In the benchmark scripts TRAK-1, TRAK-10 and TRAK-50 take that many of the models trained on halves, or all if there are fewer; TracIn takes ten of the models trained on everything and ends with ValueError if there are fewer, Grad-Dot and Grad-Cos the first. The nanoGPT script ends with NameError for these three, and loads state dictionaries with the compile prefix removed, keeping order and values unless two names become equal, when the later value wins.", "quantifier": "all method strings, output directories, numbers of checkpoints, request orders and state dictionaries", "why_tests_cant": "Scripts are only run with the documented names; the set of all strings cannot be tried.", "anchors": ["experiments/gpt2_wikitext/score_TRAK.py: main", "experiments/gpt2_wikitext/score_IF.py: main, checkpoints_load_func", "experiments/benchmark_result.py", "experiments/benchmark_result_mt.py", "experiments/benchmark_result_nanogpt.py: load_model_from_checkpoint", "dattri/algorithm/trak.py: TRAKAttributor.attribute", "dattri/algorithm/tracin.py: TracInAttributor.attribute"]}
{"id": "C215", "title": "The picture comparing influence and relative influence", "statement": "In the relative-influence example the data have n + 1 points of label 0 and n - 1 of label 1, the outlier replacing the first point of the second cluster. Weighted by the predicted probabilities the loss gradients of an input for all labels add up to zero; hence for two classes the gradients for both labels are non-zero multiples of each other, and the training sample dominating a grid point does not depend on the label 0 that the script gives to every grid point, for no normalisation, `l` and `theta`, also with LiSSA, which draws anew for every row. With three classes this fails. The scores are the products of training gradients with LiSSA estimates of the test points, divided by the norm of the method formed with an estimate of its own. The coloured cell at (x, y) is the test point (x, y), coloured exactly if the outlier has the largest absolute score (the first such). The dashed line is where the two outputs agree if the second weights differ by more than 1e-7; otherwise the vertical line is right only if they are equal.", "quantifier": "all data, parameters, linear solvers, draws, grids and labels", "why_tests_cant": "The example only shows a picture; that the arbitrary label of the grid points has no effect is not visible in it.", "anchors": ["examples/relatIF/influence_function_comparison.py: create_synthetic_2d_data, loss_func, main", "dattri/algorithm/base.py: attribute", "dattri/algorithm/influence_function.py: IFAttributorLiSSA"]}
{"id": "C216", "title": "EK-FAC with modules that do not run in every batch, and after a failed cache", "statement": "For batches of equal size the EK-FAC statistics of a module are averages in which every batch where the module did not run is replaced by the last earlier batch where it ran; in the first pass of a first call, failing that, by its first run; in the second pass by its last run of the first pass; in later calls of cache() by what the earlier call left. Modules that run in every batch get the averages over all samples whatever was left. A module left out of a batch of another size than its last run makes cache() raise RuntimeError (if neither size is 1), one that first runs in the second pass KeyError, one whose output receives no gradient AttributeError; when a batch of one sample follows that a module does not see, the k samples of its last run are added to the covariances with the weight of one and to the eigenvalues with the weight of k; of several requested names of one module only the last gets statistics. A cache() that raises leaves its hooks on the model: afterwards every evaluation without gradients that applies one of these modules raises RuntimeError, and only those, while later calls of cache() record the same as on a fresh model.", "quantifier": "all sequences of batches, module applications, calls of cache() by any attributors, and forward passes", "why_tests_cant": "Tests use models whose layers all run in every batch and calls that succeed.", "anchors": ["dattri/algorithm/influence_function.py: IFAttributorEKFAC.cache", "dattri/func/fisher.py: estimate_covariance, estimate_lambda, _update_covariance, _update_lambda"]}
{"id": "C217", "title": "Recording data value embeddings does not disturb the training it records", "statement": "Recording around the step with `cache_gradients_context` changes nothing in the training, whatever the network. With `cache_gradients` and `attribute` between the user's operations, the weights and the optimizer end exactly as without the attributor if the network's gradients use no random numbers, a `zero_grad` stands between every recording of gradient factors and the next step, and the user calls `model.train()` again after `attribute`. With dropout each forward pass starts later in the random stream by what the recordings consumed. Recording gradient factors between `backward` and `step` replaces the user's accumulated gradients by the batch size times those of the recorded batch (per-sample gradients leave them alone); with gradients accumulated over several batches, recording each before its backward pass, only the last batch remains, counted its batch size plus one times. Running statistics with momentum m end as in a training with momentum 1-(1-m)^2 when gradient factors are recorded before every step. `attribute` leaves the model in evaluation mode, also when it raises for an unknown epoch, so that training goes on with evaluation-mode gradients and frozen statistics, and in factor mode it leaves the last test batch's gradients behind.", "quantifier": "all networks, optimizers, schedules of user operations and attributor calls, batches, momenta and states", "why_tests_cant": "Tests call the recording functions without training, so nothing the recording does to a training can be seen.", "anchors": ["dattri/algorithm/dvemb.py: DVEmbAttributor.cache_gradients, cache_gradients_context, attribute, _calculate_gradient_factors, _calculate_full_gradients"]}
{"id": "C218", "title": "Which weights are used when tasks, attributors and the user share a model object", "statement": "If no two tasks share a model object, all checkpoints are state dicts of their own and the user does not write to the tasks' models, every attributor works with the weights of the requested checkpoint in every interleaving of calls; the same holds for tasks on one object with one and the same checkpoint. In general a loop over the checkpoints uses every checkpoint's own weights except checkpoint 0 when it was the last one the task loaded: then the weights now in the model are used, whoever wrote them (another task on the same model, or the user's training). A checkpoint that is the live model's `state_dict()` is used with the weights of the checkpoint before it. RPS and block-projected attributors work on checkpoint 0 until another attributor loops over the checkpoints of the task, then on the last one; with a loading function that builds new models the block-projected attributor stays with checkpoint 0 and RPS uses the model as it was given to the task, which is never loaded.", "quantifier": "all numbers of tasks and attributors, checkpoint lists, kinds of loading function, interleavings and weights", "why_tests_cant": "Tests use one task, one attributor and one model at a time.", "anchors": ["dattri/task.py: AttributionTask._load_checkpoints, get_param", "dattri/algorithm/rps.py: RPSAttributor.__init__", "dattri/algorithm/block_projected_if/block_projected_if.py: BlockProjectedIFAttributor.__init__", "dattri/algorithm/dvemb.py: DVEmbAttributor.__init__"]}
{"id": "C219", "title": "KNN-Shapley values in floating point", "statement": "For 1 <= K <= N <= 2^24 the float32 value stored for a training sample differs from the exact KNN-Shapley value by at most 2^-20/K times one plus the number of switches between matching and not matching labels at or behind its rank; so a sample with the test sample's label has a positive value as long as (switches + 1) N < 2^20 K. Samples next to each other in the order of the distances get bit-identical values if both match or both do not match, and at a switch the matching one never gets less. The table is the same bit for bit whether the labels are lists or tensors. A sample with another label may get a positive value where the exact value is zero.", "quantifier": "all numbers of training samples up to 2^24, neighbour counts, orders of the distances and label patterns", "why_tests_cant": "Tests compare a few small rows with a tolerance; the drift over long rows and the sign of values near zero depend on the label pattern.", "anchors": ["dattri/algorithm/data_shapley.py: KNNShapleyAttributor.attribute"]}
{"id": "C220", "title": "Scores with a gradient history, and torch.no_grad()", "statement": "Scores computed under `torch.no_grad()` carry no gradient history, whatever was cached and how. With gradients on, the scores of the influence-function attributors do: those of the explicit, CG and LiSSA attributors exactly if the gradient of the training loss on one of the training batches depends on the weights (with normalization 'l' also that of the target function on a training batch), those of DataInf and EK-FAC also if that of the target function on a test batch does, those of DataInf also if that of a batch used by `cache` with gradients on does; those of Arnoldi never. Scores of TracIn, TRAK, RPS, the block-projected attributors and data value embeddings never do. `lds` and `loo_corr` on inputs of fitting shapes raise RuntimeError exactly if they are called with gradients on and the scores or the ground truth carry a history, `brittleness` exactly if the scores do; `mislabel_detection_auc` never does; so attribution under `torch.no_grad()` followed by `lds` never raises for this reason. Apart from the history the mode changes nothing in `attribute` (same success, same exception, same shape) nor in `cache`, except where the attributor calls backward itself: under `torch.no_grad()` EK-FAC's `cache`, RPS's fine-tuning (in `cache`, or in `attribute` without `cache`), `cache` and `attribute` of the block-projected attributors, and recording and `attribute` of data value embeddings with gradient factors raise RuntimeError as soon as there is a batch.", "quantifier": "all attributors, tasks with any number of checkpoints, loaders, normalizations, earlier states of the attributor, modes at cache, attribution and evaluation time", "why_tests_cant": "the tests call attribute either always with or always without gradients and never pass the scores on to a metric", "anchors": ["dattri/algorithm/base.py:attribute", "dattri/algorithm/influence_function.py:IFAttributorDataInf", "dattri/algorithm/influence_function.py:IFAttributorEKFAC.cache", "dattri/algorithm/tracin.py:attribute", "dattri/algorithm/trak.py:attribute", "dattri/algorithm/rps.py:attribute", "dattri/algorithm/dvemb.py:attribute", "dattri/metric/metrics.py:lds", "dattri/metric/metrics.py:loo_corr", "dattri/metric/britteness.py:brittleness"]}
{"id": "C221", "title": "Retrained models and the process's random state", "statement": "The benchmark's training functions seed all generators, so a saved model is a function of its data and its training seed: in LOO retraining all models are trained from the same random state, in LDS retraining run j of subset i from the state of seed + i*runs + j, whatever the random state before the call, the list of indices or the division into calls. Except GPT-2's they need seeds below 2^32: LOO retraining with the default seed=None raises TypeError, and LDS retraining succeeds exactly if its largest training seed is below 2^32 - so of the 2^64 seeds that seed=None draws from, only 2^32 + 1 - num_subsets*num_runs_per_subset work. With a training function that draws from torch's generator without seeding it, an explicit seed makes calls repeatable, but the model of an index or subset depends on what else was trained in the same call, and every call of a divided LDS run begins with the same random numbers. Generators of numpy and Python are not seeded. The random state before the call is lost.", "quantifier": "all training functions, generators, seeds, index lists, divisions and random states", "why_tests_cant": "Tests use one seed and one call, where every training function looks reproducible; the effect of the division, of the list of indices and of the draw of the default seed needs all of them.", "anchors": ["dattri/model_util/retrain.py:88-133", "dattri/model_util/retrain.py:211-268", "dattri/benchmark/datasets/mnist/mnist_lr.py:35-37", "dattri/benchmark/datasets/wikitext2/wikitext2_gpt2.py:34-36"]}
{"id": "C222", "title": "LiSSA scores across training batches", "statement": "With LiSSA, attribute estimates the inverse-Hessian product of every test gradient anew for every training batch (and checkpoint), with fresh draws: in all it makes checkpoints * training batches * (test batches + 1 if relatif) estimations, no two of them from the same draws. So for scores without relatif: copies of a training sample have equal scores if they are in the same batch of the loader; in different batches the mean square of the difference of their scores is twice the variance of the score (the sum over checkpoints), they are equal in every execution only if the estimate times the gradient does not depend on the draws - as with full batches - and otherwise which copy is ranked higher can differ between executions. The mean score of a sample does not depend on the batches and, with one cached batch, is the gradient times the truncated Neumann series applied to the test gradient.", "quantifier": "all numbers of samples, batch sizes, checkpoints, gradients, estimators, draws", "why_tests_cant": "Tests compare LiSSA with other solvers within a tolerance on one batch; the dependence between scores across batches is a statement about the joint distribution over all draws.", "anchors": ["dattri/algorithm/base.py:341-450", "dattri/algorithm/influence_function.py:538-648", "dattri/func/hessian.py:900-921"]}
{"id": "C223", "title": "Gradient buffers of the model after attribution", "statement": "Most attributor calls leave the gradients accumulated in the model's parameters alone, three kinds do not. `cache` of EK-FAC adds to every trainable parameter twice the sum, over the batches it uses (the first max_iter, all if max_iter is not positive), of batch size times gradient of the target - for a mean target twice the sum of all samples' gradients - and again with every further call; a forward pass that raises in the first pass leaves the sum of the batches before it. Block-projected `cache` and `attribute`, and DVEmb's gradient factors, replace whatever was accumulated by what their last batch leaves: nothing for frozen parameters and parameters used in hooked layers only, otherwise the part of the gradient through the other uses (DVEmb: the batch size times the whole gradient); if a forward pass raises, nothing is left. Without batches nothing changes. So a training in which zero_grad() is the user's next operation after attributor calls makes every step with the gradients it would have without them, but a step made directly after EK-FAC's cache includes its sum, and directly after a block-projected call ignores the user's loss.", "quantifier": "all models, losses, batches, max_iter, buffers before the call and interleavings with the user's operations", "why_tests_cant": "Tests run attribution on models that are not being trained and never read .grad afterwards.", "anchors": ["dattri/func/fisher.py:422-449", "dattri/func/fisher.py:517-545", "dattri/algorithm/influence_function.py:949-1021", "dattri/algorithm/block_projected_if/block_projected_if.py:248-257", "dattri/algorithm/block_projected_if/block_projected_if.py:848-874", "dattri/algorithm/block_projected_if/core/hook.py:151-156", "dattri/algorithm/dvemb.py:492-504"]}
{"id": "C224", "title": "The process's random numbers in sessions with the Arnoldi attributor", "statement": "The first `attribute` of an Arnoldi attributor after `cache` seeds the random number generator of the process with the attributor's seed (once for every checkpoint): with at least one checkpoint and one training batch, the generator afterwards, and so the results of everything later in the session (LiSSA scores, dropout, shuffled loaders, trainings), are the same whatever was drawn and whatever seed the user set before. Experiments that repeat caching, Arnoldi attribution and a randomised evaluation return the same value in every repetition. `cache` alone, an attribution without training batches or checkpoints, and, for networks that draw no random numbers, further attributions without a new `cache` leave the generator alone; for such networks the scores themselves do not depend on it. Without `cache` the call raises ValueError.", "quantifier": "all networks, generators, seeds, loaders, numbers of checkpoints and sessions", "why_tests_cant": "Tests look at the scores of one call; the effect is on what other code in the same process draws later.", "anchors": ["dattri/func/projection.py:1011-1056", "dattri/algorithm/influence_function.py:380-486", "dattri/algorithm/base.py:341-450"]}
{"id": "C225", "title": "When RPS keeps the model's own weights as its fine-tuned weights", "statement": "What `cache` of RPS stores has the values of the fine-tuned weights, but if the best iterate is the initial one and the model is on the attributor's device, it is the storage of the model's final layer itself: always with one epoch, and for any number of epochs if the layer's weights are stationary for the fine-tuning objective or no later iterate has a smaller gradient. If the model is changed in place after `cache` (training, loading another checkpoint), attribution then uses the layer's new weights, which were never fine-tuned; in all other cases it keeps using the weights of `cache`. On another device a copy is stored. As long as the layer is not changed there is no difference.", "quantifier": "all losses, models before and after the change, data, numbers of epochs and devices", "why_tests_cant": "Tests attribute right after caching; the difference appears only when the model changes in between, and only if the initial weights are the best iterate.", "anchors": ["dattri/algorithm/rps.py:71-99", "dattri/algorithm/rps.py:134-182", "dattri/algorithm/utils.py:130-165"]}
{"id": "C226", "title": "Evaluating scores of a loader with a sampler", "statement": "An attributor's row r belongs to the r-th sample that the training loader yields; retrain_lds, retrain_loo and brittleness, given the same loader, take r for position r of the underlying data set. For a loader whose sampler yields the positions sigma[0..n-1], lds therefore compares the summed scores of the samples sigma[p] with models trained on the samples p, loo_corr compares the score of sample sigma[i] with the model trained without sample i, and brittleness removes from the sampled positions those that equal a highest-scored row number. If the sampler is 0..n-1 in this order, scores that describe an additive target exactly get LDS and LOO correlation 1 (NaN only if constant), and brittleness removes the highest-scored samples. For every other duplicate-free sampler of at least two samples there are exact scores and subsets with LDS -1, exact scores with negative LOO correlation, and scores and predictions for which brittleness tests another set of samples; if all sampled positions are at least n, brittleness never removes anything and returns the first number of its search space or None depending on the unchanged model.", "quantifier": "for all data sets, samplers, score functions, training and target functions, subset draws, search spaces", "why_tests_cant": "The deviation shows only for samplers other than the first n positions, while tests and examples use range(n).", "anchors": ["dattri/model_util/retrain.py:95-129", "dattri/model_util/retrain.py:229-265", "dattri/metric/metrics.py:42-75", "dattri/metric/britteness.py:56-116", "dattri/algorithm/base.py:334-450", "dattri/benchmark/utils.py:83-113"]}
{"id": "C227", "title": "Batch structures and what the loss function receives", "statement": "For batches presented as tuple, list or dict of tensors: the explicit, CG and DataInf influence functions, TracIn (with Grad-Dot and Grad-Cos) and TRAK accept all three, in any mixture between loaders; LiSSA and EK-FAC accept tuples and lists in the cached loader, Arnoldi only loaders whose first cached batch is a list; a dict raises AttributeError (LiSSA), KeyError (EK-FAC, Arnoldi), a tuple TypeError (Arnoldi). Lists arrive in the user functions as tuples (in Arnoldi's cache as one list of all samples), dicts as dicts with the same keys. The influence functions differentiate loss and target once per sample with a leading axis of length one on every item; TracIn and TRAK do so without an added axis; Hessians and TRAK's probability function get whole batches without an added axis; LiSSA's loss gets the drawn rows converted to floats in a tuple; EK-FAC's cache evaluates the target function on whole batches. Bare tensors raise TypeError, values that are not tensors AttributeError, items with different numbers of rows ValueError. RPS, KNN-Shapley, DVEmb, LoGra and GraSS take pairs; dicts work only in LoGra and GraSS, if the model returns a loss. The compatibility table of the guide is right except in four entries.", "quantifier": "for all widths, batch sizes, numbers of batches, mixtures of structures, contents and draws", "why_tests_cant": "Tests use one structure (usually TensorDataset, i.e. lists) and check scores, not the arguments; the table has many combinations.", "anchors": ["dattri/algorithm/base.py:343-448", "dattri/algorithm/influence_function.py:104-132", "dattri/algorithm/influence_function.py:385-417", "dattri/algorithm/influence_function.py:562-606", "dattri/algorithm/influence_function.py:699-735", "dattri/func/fisher.py:422-426", "dattri/algorithm/tracin.py:130-203", "dattri/algorithm/trak.py:143-191", "dattri/model_util/hook.py:59-62", "dattri/algorithm/data_shapley.py:37-39", "dattri/algorithm/dvemb.py:424-432", "dattri/algorithm/block_projected_if/block_projected_if.py:854-872", "docs/guide/data_compatibility.md:6-22"]}
{"id": "C228", "title": "Loaders with a batch sampler, without batching, or over iterable data sets", "statement": "For a loader built with a batch sampler or with batch_size=None (its batch_size is None) the influence functions, TracIn and KNN-Shapley raise TypeError as soon as there are a checkpoint and a batch on both sides (without them the scores are zeros); over an iterable data set they raise TypeError always. Influence functions thus accept exactly loaders with a batch size over a data set with a length. Their self_attribute does not read the batch size: it succeeds exactly when every yielded batch has one sample or all samples, and the rows follow the order in which the sampler yields them. TRAK and RPS accept every loader and return what they return for an ordinary loader over the yielded samples in that order; a loader that yields nothing raises RuntimeError. The block-projected attributors raise TypeError unless their directory already describes as many batches. retrain_loo and retrain_lds raise TypeError for iterable data sets, and for loaders without batch size hand train_func a loader of single uncollated items, also when the given loader collates its batches. The brittleness test raises AttributeError for every loader without a sampler that has indices.", "quantifier": "for all data sets, samplers, batch samplers, batch sizes, checkpoints, models and indices", "why_tests_cant": "Tests build loaders only with batch_size over TensorDatasets.", "anchors": ["dattri/algorithm/base.py:321-452", "dattri/algorithm/base.py:482-589", "dattri/algorithm/tracin.py:94-258", "dattri/algorithm/tracin.py:281-384", "dattri/algorithm/data_shapley.py:126-212", "dattri/algorithm/trak.py:231-393", "dattri/algorithm/rps.py:121-182", "dattri/algorithm/block_projected_if/core/metadata.py:61-107", "dattri/model_util/retrain.py:95-126", "dattri/model_util/retrain.py:229-265", "dattri/metric/britteness.py:98-108"]}
{"id": "C229", "title": "Precision of the scores for half, single and double precision models", "statement": "For a model whose parameters, data and gradients are in one precision: TracIn and the influence function attributors return scores in single precision whatever the model's precision, or raise RuntimeError. CG gives scores for every precision; the explicit attributor and EK-FAC raise for half precision; LiSSA (with at least one step), Arnoldi and DataInf raise for half and for double precision, so they work for single precision models only. The exception appears as soon as there are a checkpoint, a training batch and a test batch, and without a test batch where the training samples are transformed (Arnoldi; RelatIF with explicit and LiSSA). The same holds for self_attribute. TRAK raises for half precision and otherwise returns scores in the widest of the precisions of the model, of the correct probabilities and single precision. The scores of a double precision model are rounded: with one checkpoint each is the double precision score rounded once, with K checkpoints it is within ((1+2^-24)^(3K)-1)(B+2^-126) of the mean of scores bounded by B. KNN-Shapley sorts distances rounded to single precision: of two training samples the one ranked first is not farther by more than the rounding errors, and double precision distances closer than that may be ranked either way.", "quantifier": "for all numbers of checkpoints, batches, layers, iterations, early stops, RelatIF methods and precisions, and all scores and distances", "why_tests_cant": "Tests use single precision only; the exceptions come from buffers and casts in single precision deep inside the transformations.", "anchors": ["dattri/algorithm/base.py:334-452", "dattri/algorithm/base.py:496-589", "dattri/algorithm/influence_function.py:591-606", "dattri/algorithm/influence_function.py:786-821", "dattri/algorithm/influence_function.py:996-1017", "dattri/func/hessian.py:265-270", "dattri/func/hessian.py:466-486", "dattri/func/hessian.py:900-921", "dattri/func/fisher.py:262-297", "dattri/func/projection.py:943-1064", "dattri/algorithm/tracin.py:104-258", "dattri/algorithm/trak.py:251-393", "dattri/algorithm/data_shapley.py:142-191"]}
{"id": "C230", "title": "Freezing and unfreezing parameters after a checkpoint was used", "statement": "Which parameters a score differentiates is decided twice. When a checkpoint is loaded the task remembers the parameters with requires_grad; when the loss is evaluated the parameters with requires_grad at that moment are filled from the vector. The first use of a checkpoint (or a use after another one) evaluates the loss at the checkpoint whatever flags the user set before, and raises StopIteration if no parameter is trainable. As long as the same checkpoint is asked for, the flags of the time of loading stay in force for the vector: if the flags are unchanged the loss is evaluated at the checkpoint. If they changed, it is evaluated at the checkpoint exactly when they agree up to parameters without entries and a tail that is not trainable now (for entries that are all different). Freezing a parameter before a trainable one therefore silently evaluates the loss at wrong parameters, without an exception. RuntimeError is raised exactly when more entries are trainable now than at the time of loading. Asking for another checkpoint in between repairs everything.", "quantifier": "for all numbers and sizes of parameters, all flags, all checkpoints, all losses and all sequences of flag changes and checkpoint requests", "why_tests_cant": "The failure needs a change of requires_grad between two uses of the same task; there is no exception, only wrong scores.", "anchors": ["dattri/task.py:160-177", "dattri/task.py:384-452", "dattri/func/utils.py:152-206", "dattri/func/utils.py:249-274"]}
{"id": "C231", "title": "Samples whose gradient is not a number", "statement": "In TracIn and TRAK NaN entries of gradients count as zero: no TracIn score is NaN, every score is that of the gradients with NaN replaced by zero (before projection and normalisation), and a sample whose gradients are all NaN gets the score zero with every other sample. TRAK scores of a training sample are NaN exactly if its correct probability is NaN at some checkpoint, and a training sample whose gradients are all NaN but whose probabilities are numbers gets the score zero. The influence functions replace nothing. A NaN in the gradient of a training sample makes its row NaN, one in the transformed gradient of a test sample its column, and the scores of other pairs do not depend on it; but one NaN in the training data of the transformation spoils everything: with at least one CG iteration, a NaN anywhere in the Hessian of one batch of the full training set at one checkpoint makes every score of the table NaN, and for DataInf one NaN in one cached training gradient does. CG spreads a NaN in one entry of the vector or of the Hessian to all entries of the result, DataInf to the entries of the same layer; LiSSA has it in the result if a batch with it was drawn.", "quantifier": "for all sizes, numbers of batches, layers, checkpoints, iterations and repetitions, all positions of NaN, and any arithmetic in which an operation on NaN gives NaN", "why_tests_cant": "Tests use well-behaved losses; one overflow in one sample of a large data set is enough to lose all scores of one method while another silently reports zero.", "anchors": ["dattri/func/hessian.py:443-490", "dattri/func/hessian.py:896-921", "dattri/algorithm/influence_function.py:224-275", "dattri/algorithm/influence_function.py:755-852", "dattri/algorithm/base.py:334-452", "dattri/algorithm/tracin.py:104-258", "dattri/algorithm/trak.py:235-393"]}
{"id": "C232", "title": "DataInf restricted to some layers", "statement": "DataInf treats the columns of each layer as a block: in the transformed gradient two coordinates interact exactly if they are in the same block. With layer_name the columns are those of the selected parameters, but the rows are cut where the layers of the whole model end (adjacent parameters of one module form a layer). The scores are the ones meant, with the blocks of the selected layers, exactly if both ways to cut put the same columns together. This is so for all parameters and whenever the first parameters of the model are selected. If the selected parameters belong to one module it is so exactly if they have at most as many entries as the first layer of the model; a larger layer elsewhere in the model is silently cut at the wrong places, and two selected layers may be merged.", "quantifier": "for all models, parameter sizes and selections, all gradients, batch sizes and positive regularisations", "why_tests_cant": "There is no exception and the result has the right shape; only the values of the scores are wrong, and only for layers that are larger than the first one.", "anchors": ["dattri/algorithm/influence_function.py:786-852", "dattri/task.py:179-210", "dattri/task.py:426-452"]}
{"id": "C233", "title": "Training and evaluation mode of the model during attribution", "statement": "With the default loading function the loss is evaluated with the model in evaluation mode at every checkpoint, whatever the user or other tasks did to the model before (`train()`, `activate_dropout`), except at checkpoint 0 when this was the last checkpoint the task loaded: then the modes are those the model has at the call. So the first use of a task, and every use of a task with two or more checkpoints, runs in evaluation mode; a task with one checkpoint sets the modes once and then takes the model as it finds it, so `activate_dropout` (or another task that activates dropout on the same model) changes its later scores. A loading function that activates dropout layers makes exactly those active at every checkpoint it loads; if its positions match another module, every call raises `ValueError`. A loading function that builds a new model leaves the model in the loss function in the modes it has. `DVEmbAttributor.attribute` runs in evaluation mode and leaves the model there: training that continues without `train()` has no dropout.", "quantifier": "for all models, tasks and loading functions of these kinds, numbers of checkpoints, and all sequences of attributor calls, `train()`, `eval()`, `activate_dropout` and DVEmb calls", "why_tests_cant": "Tests run single calls on models without dropout; which modes are in effect depends on the history of the session.", "anchors": ["dattri/task.py:21-37", "dattri/task.py:102-110", "dattri/task.py:160-177", "dattri/model_util/dropout.py:15-68", "dattri/algorithm/dvemb.py:834", "examples/pretrained_benchmark/trak_dropout_lds.py:28-35"]}
{"id": "C234", "title": "Random masks of active dropout layers during attribution", "statement": "If dropout layers are active while an attributor works, every sample's gradient is taken with a mask of its own; the representations of the test samples are computed anew for every training batch, with new masks, so scores of one test sample against training samples in different batches come from different masks. CG in its default mode draws one mask per batch of the full training data, which all test vectors and iterations share, so it solves a system with one fixed matrix; LiSSA draws a new mask per test vector, recursion, repetition and batch; TRAK takes a sample's gradient and its probability of the correct class with different masks. The explicit method and CG with `mode=\"rev-fwd\"` raise `RuntimeError`, exactly when there are a training batch, a test batch and a batch of the full training data. No two evaluations in a call share a draw. Without active dropout no method raises or draws anything and the scores are functions of the data.", "quantifier": "for all losses, methods, numbers and sizes of batches, iterations, recursions and repetitions, and all positions of the generator", "why_tests_cant": "Tests use models without active dropout; which evaluations share a mask cannot be seen from single scores.", "anchors": ["dattri/task.py:139-154", "dattri/task.py:253-257", "dattri/task.py:339-343", "dattri/algorithm/base.py:343-448", "dattri/algorithm/trak.py:97-101", "dattri/algorithm/trak.py:164-191", "dattri/func/hessian.py:92", "dattri/func/hessian.py:179", "dattri/func/hessian.py:219", "dattri/func/hessian.py:252", "dattri/func/hessian.py:443-488", "dattri/func/hessian.py:900-921"]}
{"id": "C235", "title": "The error of LoGra's scores", "statement": "LoGra with the identity Hessian and proj_dim_per_layer = k\u00b2, over the random draw of its projections: the mean squared distance of a score from the exact one (the inner product of the two samples' gradients over the chosen layers) is the sum over the layers of (|X\u1d40Y|\u00b2 + |XY\u1d40|\u00b2 + 2 tr((X\u1d40Y)\u00b2))/k + (|X|\u00b2|Y|\u00b2 + |X\u1d40Y|\u00b2 + |XY\u1d40|\u00b2 + \u27e8X,Y\u27e9\u00b2)/k\u00b2, where X and Y are the two samples' weight gradients, however the samples are batched. It is at most (4/k + 4/k\u00b2)|X|\u00b2|Y|\u00b2 per layer, so that all n\u00b7m scores are within \u03b5 times the norms with probability at least 1 - 8nm/(k \u03b5\u00b2). For activations without positions the self score of every sample attains the relative error 4/k + 4/k\u00b2, whatever the layer size, whereas one normal projection to the same k\u00b2 numbers has 2/k\u00b2.", "quantifier": "all layer sizes, numbers of layers, samples, batchings, dimensions k and tolerances; two- and three-dimensional activations", "why_tests_cant": "A test sees one draw; the claim is about the distribution of the scores and its rate in k.", "anchors": ["dattri/algorithm/logra.py:76-117", "dattri/algorithm/block_projected_if/core/compressor.py:140-210"]}
{"id": "C236", "title": "Models with shared (tied) parameters", "statement": "For a model in which one tensor is used in several places (as nanoGPT's output layer uses the token embedding): a task's parameters list every trainable tensor exactly once, under its first name, and the loss at a parameter vector is the loss with that vector's values in all places that use the tensor; a vector that is too short raises RuntimeError, and numbers beyond the parameters are ignored. The gradient a task computes is therefore, per entry, the sum of the derivatives in all places that use it, and an inner-product score contains the mixed products of different places of one tensor as well as each place's own; gradients collected layer by layer (hooks) give the same scores for all losses exactly when no trainable tensor is used twice. A layer_name list is accepted exactly when it is non-empty and all names are first names of trainable tensors: it raises StopIteration when none is, and KeyError when some are and some are not; if accepted, the differentiated function puts its argument's pieces, in the order of the request, in all places that use the named tensors. So EK-FAC, which by default requests every linear layer's weight, raises KeyError on a model whose output layer shares an earlier embedding. Loading a checkpoint leaves in a tensor the value under the last of its names; every name has to be present (else RuntimeError), and a state_dict is loaded back exactly.", "quantifier": "all models (numbers of places and tensors, sharing patterns, names, shapes, frozen tensors), losses, checkpoints, parameter vectors and requested names without repetition", "why_tests_cant": "Sharing patterns and losses are unbounded; the equality of the two kinds of scores is for all losses, and a test on an untied model never exercises it.", "anchors": ["dattri/task.py:35-36", "dattri/task.py:112-122", "dattri/task.py:166-177", "dattri/task.py:325-345", "dattri/task.py:376-382", "dattri/task.py:426-452", "dattri/func/utils.py:152-206", "dattri/func/utils.py:233-324", "dattri/algorithm/base.py:184-189", "dattri/algorithm/influence_function.py:900-925", "dattri/benchmark/models/nanoGPT/model.py:126-138"]}
{"id": "C237", "title": "The projection dimension has to grow only with the logarithm of the number of scores", "statement": "Project n training and m test rows with one default (normal) or one Rademacher projector, after any sequence of calls. For 0 < eps <= 1 the probability, over the random draw of the matrix, that any of the n m inner products of projected rows is off by more than eps |x| |y| is at most 4 n m exp(-proj_dim eps^2 / 8). So with proj_dim >= 8 log(4 n m / delta) / eps^2 all scores are right to within eps |x| |y| except with probability delta, whatever the number of parameters.", "quantifier": "for all rows, numbers of rows and parameters, projection dimensions, block sizes, seeds, histories of calls, accuracies and failure probabilities; over all draws of independent standard normal or sign entries", "why_tests_cant": "A statement about the distribution over all draws and about all rows at once; the probabilities are too small to be seen in a test.", "anchors": ["dattri/func/projection.py:302-382"]}
{"id": "C238", "title": "TracIn always projects", "statement": "A TracInAttributor constructed without proj_params projects every gradient to 512 numbers by a normal matrix from seed 0, and proj_dim cannot be switched off. On the CPU each score is the weighted sum over the checkpoints of the (optionally normalised) inner products of projections that depend on the seed and the checkpoint's number but not on the batches; self_attribute uses them as well. Only proj_type 'identity' gives the scores of the gradients themselves, with any positive proj_dim; 'sjlt' and 'grass' raise ValueError on the CPU and a proj_dim of 0 raises ZeroDivisionError, also for 'identity'. Without normalisation, with 'normal' or 'rademacher', every score and self-score has the exact TracIn score as its mean over the random matrices; with the default type and one checkpoint of weight w its mean squared error is w^2 (|g|^2 |h|^2 + <g,h>^2) / proj_dim, so the default scores are not the exact ones; the probability that any of the n m scores is off by more than eps times the weighted sum of the products of the norms is at most 4 n m C exp(-proj_dim eps^2 / 8) for C checkpoints and 0 < eps <= 1.", "quantifier": "for all gradients, checkpoints, weights, loaders, batch sizes, seeds and dimensions; over all draws of independent entries per seed", "why_tests_cant": "A statement about the distribution over all projections; for one seed a test sees one draw, and the tests compute their expected values with the same projection.", "anchors": ["dattri/algorithm/tracin.py:27-64", "dattri/algorithm/tracin.py:69-258", "dattri/algorithm/tracin.py:260-384", "dattri/params/projection.py:24-35", "dattri/params/projection.py:85-99", "dattri/func/projection.py:1273-1396"]}
{"id": "C239", "title": "When TRAK with its random projection returns scores", "statement": "TRAKAttributor always projects: without proj_params it uses 512 normal columns, and the regulariser defaults to 0. On the CPU (types other than sjlt and grass) cache, attribute and self_attribute compute the TRAK formula on fixed features: the gradient divided by the square root of the number of trainable parameters, times the matrix that belongs to the seed and the checkpoint's number, divided by the square root of proj_dim; how the loaders are batched has no influence. Without a regulariser: if at some checkpoint fewer than proj_dim training samples have linearly independent gradients, attribute, cache and self_attribute raise RuntimeError whatever the random numbers are; in particular the default settings always fail on fewer than 512 training samples or for fewer than 512 parameters. If at every checkpoint proj_dim of the training samples have linearly independent gradients, with a normal projection all three succeed with probability one, while with random signs (proj_dim >= 2) attribute fails with positive probability.", "quantifier": "for all gradients, checkpoints, loaders, batch sizes, projection parameters and draws", "why_tests_cant": "A test uses one seed and one model; that no draw whatever rescues too few samples, and that almost every draw works otherwise, are statements about all matrices.", "anchors": ["dattri/algorithm/trak.py:30-103", "dattri/algorithm/trak.py:105-548", "dattri/params/projection.py:102-116", "dattri/func/projection.py:283-369"]}
{"id": "C240", "title": "Accuracy of normalised TracIn (Grad-Cos) scores under the random projection", "statement": "With normalized_grad=True and a normal (default) or rademacher projection on the CPU, for 0 < eps < 1 and gradients that are not vanishing (norm squared at least 1e-24/(1-eps)): with probability at least 1 - 4 (n m + n + m) C exp(-proj_dim eps^2 / 8) over the random matrices, all n m scores are at once within 2 eps/(1-eps) times the sum of the absolute checkpoint weights of the weighted sum of the cosines of the gradients themselves, for n training samples, m test samples and C checkpoints; the number of parameters does not matter.", "quantifier": "for all gradients, weights, numbers of samples, checkpoints and parameters, eps and draws", "why_tests_cant": "The statement is about the probability of a joint event over all projection matrices, for every number of samples and parameters.", "anchors": ["dattri/algorithm/tracin.py:69-258", "dattri/func/projection.py:283-369", "dattri/params/projection.py:85-99"]}
{"id": "C241", "title": "TRAK with as many columns as parameters or training samples", "statement": "TRAK on the CPU with a normal or random-sign projection and no regulariser, whenever attribute(test, train) returns scores: (1) if proj_dim is the number of parameters, the scores are those of the unprojected gradients - the mean over checkpoints of the smallest coefficients that write the test gradient as a combination of the training gradients, times the mean of 1 - p - so two attributors that differ in seed, random numbers or projection type agree exactly; (2) if the training loader has exactly proj_dim samples, a test sample whose gradient is a combination of the training gradients gets the coefficients of that combination, whatever the projection; in particular with the loss as target every training sample used as a test sample is attributed to itself alone, and self_attribute returns the mean of 1 - p for every sample: the scores carry no information.", "quantifier": "every model, gradients, number of checkpoints, random numbers, seeds, loaders and batch sizes", "why_tests_cant": "Tests compare with a reference on one seed; that the seed cannot matter is a statement about all matrices.", "anchors": ["dattri/algorithm/trak.py: TRAKAttributor.attribute", "dattri/func/projection.py: random_project"]}
{"id": "C242", "title": "A projected TracIn score has no certain value", "statement": "TracIn (not normalised, normal projection, which is the default, on the CPU), if at the first checkpoint the two samples' gradients and the checkpoint's weight are not zero: for every number t the score is almost surely different from t, so however large proj_dim is - even with as many columns as parameters - it almost surely differs from the score of the unprojected gradients; training samples whose gradients at the first checkpoint differ almost surely get different scores, so the ranking has no ties; and the same attributor with a larger proj_seed almost surely gives a different score.", "quantifier": "every model, gradients, checkpoints, weights, proj_dim, seeds, loaders and batch sizes; almost all random numbers", "why_tests_cant": "A statement about all but a null set of random matrices; a test fixes the seed and compares within a tolerance.", "anchors": ["dattri/algorithm/tracin.py: TracInAttributor.attribute", "dattri/func/projection.py: random_project", "dattri/params/projection.py: TracInProjectionParams"]}
{"id": "C243", "title": "Units and size of block-projected influence scores", "statement": "Block-projected influence functions with the empirical Fisher matrix: because the damping is relative to the trace, multiplying every layer's gradients (of training and test samples alike) by a non-zero number of its own - other units of the loss, a rescaled layer - changes neither whether cache succeeds nor any score; if the training gradients are multiplied by a and the test gradients by b, the scores are multiplied by b / a, so training gradients twice as large halve every score, while with Identity they are multiplied by a * b; and with a damping that is not negative a training sample's score on itself lies between 0 and the number of training samples times the number of layers however large its gradient is, its score on a test sample with the gradient of another training sample is at most that in absolute value, and the scores on themselves add up to at most the number of training samples times the total compressed dimension; the same holds for the self-influence scores.", "quantifier": "every loader, batch size, layers and dimensions, samples, damping and factors", "why_tests_cant": "An equality between two runs for every rescaling, and a bound over all gradients; a test fixes one model and one loss.", "anchors": ["dattri/algorithm/block_projected_if/block_projected_if.py: BlockProjectedIFAttributor.attribute", "dattri/algorithm/block_projected_if/core/utils.py: stable_inverse"]}
{"id": "C244", "title": "Block-projected influence scores in another basis", "statement": "Block-projected influence functions with the empirical Fisher matrix: if each layer's compressed gradients, of training and test samples alike, are expressed in another basis that is a rotation, reflection (in particular a different numbering of the coordinates) or rescaling of the old one, cache succeeds exactly when it did and every score is the same; with damping 0 this holds for every change of basis. With a positive damping a basis that stretches one axis can change the scores.", "quantifier": "every loader, batch size, layers and dimensions, samples, damping and bases", "why_tests_cant": "An equality between two runs for every orthogonal matrix; a test fixes one projection.", "anchors": ["dattri/algorithm/block_projected_if/block_projected_if.py: BlockProjectedIFAttributor.attribute", "dattri/algorithm/block_projected_if/core/utils.py: stable_inverse"]}
{"id": "C245", "title": "Block-projected influence scores of repeated and reordered training sets", "statement": "Block-projected influence functions (empirical Fisher matrix or Identity, fresh cache directory): if the training set is given k >= 1 times over, in whatever order and with whatever batch sizes, cache succeeds exactly when it did, the result has k times as many rows, and every copy of a sample gets exactly the score the sample had. So unlike TRAK, whose scores are divided by k (C179), scores do not shrink with the size of the training set, and a shuffled loader only moves rows.", "quantifier": "every k, order, loader, batch size, layers, samples, damping and test loader", "why_tests_cant": "Quantifies over all orders and repetitions of all data sets; a test compares one shuffle.", "anchors": ["dattri/algorithm/block_projected_if/block_projected_if.py: BlockProjectedIFAttributor.attribute", "dattri/algorithm/block_projected_if/block_projected_if.py: BlockProjectedIFAttributor.cache"]}
{"id": "C246", "title": "The damping of block-projected influence functions", "statement": "Block-projected influence functions with the empirical Fisher matrix: if cache succeeds with some damping, it succeeds with every positive one. A training sample's score on itself (or on a test sample with the same gradient) is never negative, does not grow when the damping grows from a >= 0 to b, and is at most the number of training samples times the total compressed dimension divided by b; so a large damping makes all these scores small, whatever the size of the gradients.", "quantifier": "every pair of dampings, loader, batch size, layers and dimensions and samples", "why_tests_cant": "A monotonicity and a bound over all gradients and all dampings; a test tries a few values.", "anchors": ["dattri/algorithm/block_projected_if/core/utils.py: stable_inverse", "dattri/algorithm/block_projected_if/block_projected_if.py: BlockProjectedIFAttributor.attribute"]}
{"id": "C247", "title": "Block-projected scores among training samples form a kernel", "statement": "Block-projected influence functions (empirical Fisher matrix or Identity, fresh cache directory): attribute with the training samples as test samples gives a symmetric matrix - the influence of a sample on another is that of the other on it - and with a damping that is not negative the matrix is positive semidefinite, so that the joint influence of any weighted group of training samples on the same group is never negative.", "quantifier": "every loader, batch sizes, layers and dimensions, samples, damping and weights", "why_tests_cant": "A statement about all weightings of all data sets; a test evaluates finitely many.", "anchors": ["dattri/algorithm/block_projected_if/block_projected_if.py: BlockProjectedIFAttributor.attribute", "dattri/algorithm/block_projected_if/core/utils.py: stable_inverse"]}
{"id": "C248", "title": "Dividing the layers between two block-projected attributors", "statement": "Block-projected influence functions (fresh cache directories): if the layers are divided between two attributors, in whatever order, and each layer's compressed gradients are the same as with all layers, then with the empirical Fisher matrix caching with all layers succeeds exactly when it succeeds for both, and (empirical Fisher matrix or Identity) the scores with all layers are the sums of the two attributors' scores, with the same shape. Naming the layers in another order changes neither whether caching succeeds nor any score. The seeds of a layer's compressors do not depend on which other layers are chosen or on their order.", "quantifier": "every division of the layers, loader, batch sizes, dimensions, samples and damping", "why_tests_cant": "A statement about all divisions of all models' layers; a test picks one.", "anchors": ["dattri/algorithm/block_projected_if/block_projected_if.py: BlockProjectedIFAttributor.cache, attribute", "dattri/algorithm/block_projected_if/core/utils.py: stable_inverse", "dattri/algorithm/block_projected_if/core/compressor.py: setup_model_compressors"]}
