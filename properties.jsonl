{"id": "C01", "title": "Pruning schedule window", "statement": "Calling a ConstantSparsity or PolynomialDecay schedule at a training step answers should-prune=True exactly when the step is at least begin_step, is at most end_step (or end_step is the negative 'forever' value, for ConstantSparsity), and step-begin_step is a multiple of frequency.", "quantifier": "every accepted (begin_step, end_step, frequency) and every integer step", "why_tests_cant": "The step and the three parameters are unbounded integers; a test checks a handful of steps.", "anchors": ["tensorflow_model_optimization/python/core/sparsity/keras/pruning_schedule.py:PruningSchedule._should_prune_in_step", "tensorflow_model_optimization/python/core/sparsity/keras/pruning_schedule.py:ConstantSparsity.__call__", "tensorflow_model_optimization/python/core/sparsity/keras/pruning_schedule.py:PolynomialDecay.__call__"]}
{"id": "C02", "title": "Schedule constructor rejects exactly the invalid parameters", "statement": "Constructing ConstantSparsity / PolynomialDecay succeeds exactly when begin_step >= 0, end_step is (for ConstantSparsity) -1 or (both) >= begin_step and >= 0, frequency > 0, and every sparsity is in [0,1); PolynomialDecay never accepts end_step = -1. Every accepted schedule only ever requests a sparsity in [0,1) (PolynomialDecay: under begin_step < end_step and a non-negative power).", "quantifier": "every integer begin/end/frequency and every sparsity value", "why_tests_cant": "The parameter space is infinite and the checks interact (end_step=-1 is special only in one class).", "anchors": ["tensorflow_model_optimization/python/core/sparsity/keras/pruning_schedule.py:PruningSchedule._validate_step", "tensorflow_model_optimization/python/core/sparsity/keras/pruning_schedule.py:PruningSchedule._validate_sparsity"]}
{"id": "C03", "title": "PolynomialDecay is a monotone ramp between its endpoints", "statement": "For an accepted PolynomialDecay with begin_step < end_step and a positive power the requested sparsity is initial_sparsity at or before begin_step, final_sparsity at or after end_step, always between the two, and moves monotonically from initial to final as the step grows.", "quantifier": "every accepted parameter set with begin_step < end_step, every positive real power, every pair of steps", "why_tests_cant": "Monotonicity and range are statements about all pairs of steps and all parameters.", "anchors": ["tensorflow_model_optimization/python/core/sparsity/keras/pruning_schedule.py:PolynomialDecay.__call__"]}
{"id": "C04", "title": "PolynomialDecay is well defined on everything its constructor accepts", "statement": "Every accepted PolynomialDecay produces a number (never 0/0) at every step at which it asks to prune. [The code violates this: begin_step == end_step is accepted and then the only pruning step computes 0/0.]", "quantifier": "every accepted parameter set and every step", "why_tests_cant": "A single degenerate parameter combination is needed, which no test uses.", "anchors": ["tensorflow_model_optimization/python/core/sparsity/keras/pruning_schedule.py:PolynomialDecay"]}
{"id": "C05", "title": "Magnitude mask keeps the largest weights", "statement": "The mask computed for a weight tensor of n entries at sparsity s has only 0/1 entries and, with k = max(round(n*(1-s)),1), keeps at least k entries, prunes at most n-k, and no pruned entry has a larger absolute value than a kept one.", "quantifier": "every non-empty tensor of any size, every sparsity in [0,1)", "why_tests_cant": "Depends on the order statistics of arbitrary tensors, including ties.", "anchors": ["tensorflow_model_optimization/python/core/sparsity/keras/pruning_impl.py:Pruning._update_mask"]}
{"id": "C06", "title": "Magnitude mask hits the requested sparsity exactly when there are no ties", "statement": "If the absolute values are pairwise distinct the mask keeps exactly k = max(round(n*(1-s)),1) entries, so the achieved sparsity differs from the requested s by at most 1/(2n) unless the floor k>=1 is binding; with ties every extra kept entry has magnitude exactly equal to the threshold.", "quantifier": "every tensor, every sparsity in [0,1)", "why_tests_cant": "Quantifies over all tensors and over all rounding cases.", "anchors": ["tensorflow_model_optimization/python/core/sparsity/keras/pruning_impl.py:Pruning._update_mask"]}
{"id": "C07", "title": "Block-sparse mask is block-aligned and keeps the strongest blocks", "statement": "With a block size (bh,bw) the mask of a matrix has the matrix's own shape, is constant on each bh x bw tile (including the ragged tiles at the borders), and no dropped tile has a larger pooled (average or max) magnitude than a kept tile; with block size (1,1) and AVG or MAX pooling it coincides with the element-wise mask.", "quantifier": "every matrix shape, every block size with positive sides (also sides that do not divide the matrix), every sparsity", "why_tests_cant": "Border behaviour depends on arithmetic between arbitrary matrix and block dimensions.", "anchors": ["tensorflow_model_optimization/python/core/sparsity/keras/pruning_impl.py:Pruning._maybe_update_block_mask", "tensorflow_model_optimization/python/core/sparsity/keras/pruning_utils.py:expand_tensor", "tensorflow_model_optimization/python/core/sparsity/keras/pruning_utils.py:kronecker_product", "tensorflow_model_optimization/python/core/sparsity/keras/pruning_utils.py:factorized_pool"]}
{"id": "C08", "title": "m-by-n mask satisfies m-by-n sparsity and keeps the largest of each block", "statement": "The mask generated for sparsity (m,n) with m<n drops at least m entries in every group of n consecutive entries along the compressed axis, keeps n-m of each full group, never drops an entry strictly larger than a kept entry of the same group, and is accepted by the library's own m-by-n checker.", "quantifier": "every matrix with any number of rows and columns (divisible by n or not), every m<n", "why_tests_cant": "The padding of ragged rows and per-group top-k must be right for every width.", "anchors": ["tensorflow_model_optimization/python/core/sparsity/keras/pruning_utils.py:generate_m_by_n_mask", "tensorflow_model_optimization/python/core/sparsity/keras/pruning_utils.py:is_pruned_m_by_n", "tensorflow_model_optimization/python/core/sparsity/keras/pruning_utils.py:m_by_n_sparsity_mask_prepare"]}
{"id": "C09", "title": "Weight re-layout for m-by-n sparsity is lossless", "statement": "Rearranging a rank-2 or rank-4 weight tensor to the 2-D layout used by m-by-n pruning and mapping the resulting mask back puts every entry back at the position it came from; other ranks are rejected.", "quantifier": "every shape of rank 2 or 4 and every index in it", "why_tests_cant": "An index permutation must be a bijection for all dimension sizes.", "anchors": ["tensorflow_model_optimization/python/core/sparsity/keras/pruning_utils.py:weights_rearrange", "tensorflow_model_optimization/python/core/sparsity/keras/pruning_utils.py:m_by_n_sparsity_mask_prepare"]}
{"id": "C10", "title": "Pruned weights stay zero through any training history", "statement": "After any sequence of optimizer updates, forward passes in training or inference mode and epoch ends, immediately after each forward pass and after each epoch end every weight whose mask entry is 0 is exactly 0, and every kept weight has the value the optimizer left.", "quantifier": "every finite history of {optimizer update, training call, inference call, epoch end} and every schedule", "why_tests_cant": "It is an invariant over unbounded histories.", "anchors": ["tensorflow_model_optimization/python/core/sparsity/keras/pruning_wrapper.py:PruneLowMagnitude.call", "tensorflow_model_optimization/python/core/sparsity/keras/pruning_impl.py:Pruning.weight_mask_op", "tensorflow_model_optimization/python/core/sparsity/keras/pruning_callbacks.py:UpdatePruningStep"]}
{"id": "C11", "title": "Masks change only when the schedule says so", "statement": "Between two training calls at which the schedule answers should-prune the mask and threshold are unchanged by anything (inference calls, optimizer updates, epoch ends, non-pruning training calls); at a pruning step the mask becomes the magnitude mask of the current weights at the scheduled sparsity; masks are always 0/1 and initially all ones.", "quantifier": "every finite history and every schedule", "why_tests_cant": "Invariant over unbounded histories.", "anchors": ["tensorflow_model_optimization/python/core/sparsity/keras/pruning_impl.py:Pruning.conditional_mask_update", "tensorflow_model_optimization/python/core/sparsity/keras/pruning_wrapper.py:PruneLowMagnitude.build"]}
{"id": "C12", "title": "Pruning requires and correctly counts the UpdatePruningStep callback", "statement": "Without the callback the first training call fails; with it, the k-th training call after on_train_begin runs with pruning step k (so a schedule never sees step 0), inference calls do not advance the step, and a resumed model (all wrappers at a step >= 0) continues counting from where it was.", "quantifier": "every finite history", "why_tests_cant": "Counting property over unbounded histories.", "anchors": ["tensorflow_model_optimization/python/core/sparsity/keras/pruning_wrapper.py:PruneLowMagnitude.call", "tensorflow_model_optimization/python/core/sparsity/keras/pruning_callbacks.py:UpdatePruningStep.on_train_begin"]}
{"id": "C13", "title": "m-by-n masks are fixed by the first training step", "statement": "When sparsity_m_by_n is requested the mask is computed once, at the first training call, whatever the schedule says, and never changes afterwards in any history that does not restart the counter.", "quantifier": "every schedule and every finite history", "why_tests_cant": "Invariant over unbounded histories and schedules.", "anchors": ["tensorflow_model_optimization/python/core/sparsity/keras/pruning_impl.py:Pruning.conditional_mask_update"]}
{"id": "C14", "title": "prune_low_magnitude / strip_pruning structure", "statement": "Pruning a model wraps each layer that is not already wrapped and that the policy allows, recursing into nested models, and leaves every other layer untouched; applying it twice equals applying it once; strip_pruning removes exactly the wrappers and restores the original model.", "quantifier": "every nested model (tree of layers), every pruning policy", "why_tests_cant": "Structural recursion over arbitrary nesting.", "anchors": ["tensorflow_model_optimization/python/core/sparsity/keras/prune.py:prune_low_magnitude", "tensorflow_model_optimization/python/core/sparsity/keras/prune.py:strip_pruning"]}
{"id": "C15", "title": "Pruning wrapper survives a config round trip", "statement": "Rebuilding a pruned layer from its serialized config gives a wrapper with the same schedule, block size, pooling type and m-by-n sparsity. [The code violates this: sparsity_m_by_n is missing from the config.]", "quantifier": "every wrapper configuration", "why_tests_cant": "All combinations of options; the dropped field only matters for m-by-n.", "anchors": ["tensorflow_model_optimization/python/core/sparsity/keras/pruning_wrapper.py:PruneLowMagnitude.get_config", "tensorflow_model_optimization/python/core/sparsity/keras/pruning_wrapper.py:PruneLowMagnitude.from_config"]}
{"id": "C16", "title": "collect_prunable_layers finds every wrapper", "statement": "The collected list contains exactly the pruning wrappers occurring anywhere in a nested model, in order, each as often as it occurs, and epoch-end masking therefore reaches every pruned weight.", "quantifier": "every nested model", "why_tests_cant": "Structural recursion over arbitrary nesting.", "anchors": ["tensorflow_model_optimization/python/core/sparsity/keras/pruning_wrapper.py:collect_prunable_layers"]}
{"id": "C17", "title": "XNNPACK latency policy only admits supported topologies", "statement": "When ensure_model_supports_pruning accepts a functional model (none of whose layers is also consumed outside it), every layer between the start layer(s) and the pooling layer(s) is of a supported kind, whatever the iteration order of the sets; the check always terminates. [With layers shared with another model the traversal stops at the first dead end and acceptance depends on set order.]", "quantifier": "every layer graph and every visiting order", "why_tests_cant": "Reachability over arbitrary graphs with an unspecified set iteration order.", "anchors": ["tensorflow_model_optimization/python/core/sparsity/keras/pruning_policy.py:PruneForLatencyOnXNNPack._lookup_layers", "tensorflow_model_optimization/python/core/sparsity/keras/pruning_policy.py:PruneForLatencyOnXNNPack.ensure_model_supports_pruning"]}
{"id": "C18", "title": "Prune registry: supports / prunable weights", "statement": "A layer is supported exactly when it implements the prunable interface, is a registered built-in, or is an RNN all of whose cells are registered; the prunable weights of an RNN are the concatenation of those of its cells; an unsupported layer is rejected and never silently wrapped.", "quantifier": "every layer (including stacked RNN cells of any depth)", "why_tests_cant": "Ranges over arbitrary cell stacks.", "anchors": ["tensorflow_model_optimization/python/core/sparsity/keras/prune_registry.py:PruneRegistry"]}
{"id": "C19", "title": "Sparsity checking tool measures the zero fraction", "statement": "calculate_sparsity returns the fraction of zero entries of the tensor, always between 0 and 1, 0 iff no zero and 1 iff all zero.", "quantifier": "every non-empty tensor", "why_tests_cant": "All tensors.", "anchors": ["tensorflow_model_optimization/python/core/sparsity/keras/tools/check_sparsity_m_by_n.py:calculate_sparsity"]}
{"id": "C20", "title": "Weights are assigned to a nearest centroid", "statement": "The pulling index of each weight points to a centroid at minimal distance (the lowest such index), is always a valid index, and a weight that equals a centroid is mapped to that value.", "quantifier": "every weight tensor and non-empty centroid list", "why_tests_cant": "All tensors, ties included.", "anchors": ["tensorflow_model_optimization/python/core/clustering/keras/clustering_algorithm.py:ClusteringAlgorithm.get_pulling_indices", "tensorflow_model_optimization/python/core/clustering/keras/clustering_algorithm.py:ClusteringAlgorithm.get_clustered_weight"]}
{"id": "C21", "title": "A clustered weight tensor never has more than number_of_clusters distinct values", "statement": "After any history of optimizer updates and forward passes the kernel used by the layer takes at most number_of_clusters distinct values, all of them current centroids. [Holds for original weights > -1e6; the gradient trick sign(w+1e6) breaks it below.]", "quantifier": "every history, every tensor, every number of clusters", "why_tests_cant": "Invariant over unbounded training histories.", "anchors": ["tensorflow_model_optimization/python/core/clustering/keras/cluster_wrapper.py:ClusterWeights.call", "tensorflow_model_optimization/python/core/clustering/keras/cluster_wrapper.py:ClusterWeights.update_clustered_weights_associations", "tensorflow_model_optimization/python/core/clustering/keras/clustering_algorithm.py:ClusteringAlgorithm.add_gradient_to_original_weight"]}
{"id": "C22", "title": "Sparsity-preserving clustering keeps zeros zero", "statement": "With preserve_sparsity, a weight that was zero when the wrapper was built is zero in every clustered kernel after any history, the zero centroid is reset to exactly 0 before each use.", "quantifier": "every history, every tensor with at least one zero", "why_tests_cant": "Invariant over unbounded histories.", "anchors": ["tensorflow_model_optimization/python/core/clustering/keras/cluster_wrapper.py:ClusterWeights", "tensorflow_model_optimization/python/core/clustering/keras/clustering_centroids.py:AbstractCentroidsInitialisation"]}
{"id": "C23", "title": "Linear centroid initialisation", "statement": "Linear initialisation yields exactly number_of_clusters centroids, evenly spaced from the minimum to the maximum weight, in increasing order.", "quantifier": "every weight tensor, every number_of_clusters >= 2", "why_tests_cant": "All tensors and counts.", "anchors": ["tensorflow_model_optimization/python/core/clustering/keras/clustering_centroids.py:LinearCentroidsInitialisation"]}
{"id": "C24", "title": "Zero-centroid initialisation", "statement": "With preserve_sparsity the initial centroids contain exactly one centroid that is 0 by construction, at most number_of_clusters in total, the non-zero ones computed separately from negative and positive weights whose counts are proportional (rounded) to the number of negative and positive weights; an all-zero tensor gets the single centroid 0.", "quantifier": "every weight tensor and number_of_clusters >= 3", "why_tests_cant": "Rounding/split cases over all tensors.", "anchors": ["tensorflow_model_optimization/python/core/clustering/keras/clustering_centroids.py:AbstractCentroidsInitialisation.zero_centroid_initialization"]}
{"id": "C25", "title": "Density-based initialisation picks data points of the CDF grid", "statement": "The density-based centroids are quantiles of the weights: the i-th is the first of 30 equidistant grid points at which the fraction of weights not above it exceeds the i-th of equally spaced probabilities from 0.01 to 1 (or the last grid point), so it lies within [min - margin, max + margin] of the weights with margin <= 0.01, and strictly on the same side of zero as its weights under preserve_sparsity. [The linear interpolation it performs never changes the picked grid point.]", "quantifier": "every weight tensor and number_of_clusters", "why_tests_cant": "All tensors.", "anchors": ["tensorflow_model_optimization/python/core/clustering/keras/clustering_centroids.py:DensityBasedCentroidsInitialisation", "tensorflow_model_optimization/python/core/clustering/keras/clustering_centroids.py:TFLinearEquationSolver"]}
{"id": "C26", "title": "Gradient aggregation", "statement": "The gradient reaching a centroid is the sum (SUM) or the mean (AVG) of the gradients of the weights assigned to it, and 0 for a centroid with no weights; the original weights receive the incoming gradient unchanged (for weights > -1e6).", "quantifier": "every gradient tensor and assignment", "why_tests_cant": "All tensors; empty clusters must not divide by zero.", "anchors": ["tensorflow_model_optimization/python/core/clustering/keras/clustering_algorithm.py:ClusteringAlgorithm.average_centroids_gradient_by_cluster_size"]}
{"id": "C27", "title": "strip_clustering restores the layer's weight order", "statement": "Stripping writes each clustered weight back at the position the original weight occupied, leaving all other weights in order. [Relies on the positions being inserted in ascending order.]", "quantifier": "every layer weight list and set of clustered positions", "why_tests_cant": "All weight layouts.", "anchors": ["tensorflow_model_optimization/python/core/clustering/keras/cluster.py:strip_clustering"]}
{"id": "C28", "title": "Per-channel clustering clusters each channel independently", "statement": "With cluster_per_channel every output channel takes at most number_of_clusters distinct values, chosen from that channel's own centroids, by nearest distance. [Violated for channels_first layers: the code slices the kernel along its width axis.]", "quantifier": "every tensor and channel count", "why_tests_cant": "All tensors.", "anchors": ["tensorflow_model_optimization/python/core/clustering/keras/clustering_algorithm.py:PerChannelClusteringAlgorithm"]}
{"id": "C29", "title": "number_of_clusters validation", "statement": "A clustering wrapper is accepted exactly when number_of_clusters is an integer > 1 (> 2 when preserving sparsity) and the layer is clusterable; cluster_per_channel then takes effect exactly for Conv2D layers (on any other layer it is silently dropped).", "quantifier": "every integer and option combination", "why_tests_cant": "Infinite parameter space.", "anchors": ["tensorflow_model_optimization/python/core/clustering/keras/cluster_wrapper.py:ClusterWeights.__init__"]}
{"id": "C30", "title": "Layers with too few weights are not clustered", "statement": "A layer is clustered only if its clusterable weights have at least number_of_clusters entries (per channel if clustering per channel). [The per-channel test uses the wrong tensor for bias-less layers.]", "quantifier": "every layer shape", "why_tests_cant": "All shapes.", "anchors": ["tensorflow_model_optimization/python/core/clustering/keras/cluster.py:_layer_has_enough_weights_to_cluster"]}
{"id": "C31", "title": "Bit packing is lossless", "statement": "Unpacking a bit-packed list of b-bit integers returns the original list, for every bit width 1..16, packed words stay below 2^28 (fit a non-negative int32), and the number of words is ceil(n*b/28) when the length is statically known (otherwise zero words may follow).", "quantifier": "every list of any length of integers in [0,2^b), every b", "why_tests_cant": "All lengths and widths, incl. lengths that do not fill the last word.", "anchors": ["tensorflow_model_optimization/python/core/internal/tensor_encoding/utils/tf_utils.py:pack_into_int", "tensorflow_model_optimization/python/core/internal/tensor_encoding/utils/tf_utils.py:unpack_from_int", "tensorflow_model_optimization/python/core/internal/tensor_encoding/stages/stages_impl.py:BitpackingEncodingStage"]}
{"id": "C32", "title": "Specialised packers agree with the general one", "statement": "The hand-unrolled 1/2/4/7/14, 6, 8, 12-bit to 28-bit packers produce the same words as the generic algorithm (for the layouts where they claim to) and their unpackers invert them.", "quantifier": "every list of any length", "why_tests_cant": "All lengths mod the unrolling factor.", "anchors": ["tensorflow_model_optimization/python/core/internal/tensor_encoding/utils/tf_utils.py:_pack_into_int", "tensorflow_model_optimization/python/core/internal/tensor_encoding/utils/tf_utils.py:_unpack_from_int"]}
{"id": "C33", "title": "Fast Walsh-Hadamard transform is a linear isometric involution", "statement": "The normalised transform of a length-2^k vector applied twice is the identity, it is linear and preserves the Euclidean norm, and it equals multiplication with the Hadamard matrix.", "quantifier": "every k and every vector", "why_tests_cant": "Induction on the number of butterfly levels.", "anchors": ["tensorflow_model_optimization/python/core/internal/tensor_encoding/utils/tf_utils.py:fast_walsh_hadamard_transform"]}
{"id": "C34", "title": "Hadamard encoding stage is lossless", "statement": "Decoding with the same seed returns the input, for every input length (padded to a power of two), provided the random signs are non-zero.", "quantifier": "every vector length and every seed", "why_tests_cant": "All lengths; all random draws.", "anchors": ["tensorflow_model_optimization/python/core/internal/tensor_encoding/stages/stages_impl.py:HadamardEncodingStage"]}
{"id": "C35", "title": "Uniform quantization stays in range and has bounded error", "statement": "Quantized values are integers in [0, 2^bits-1] and decoding differs from the (clipped) input by at most one quantization step with stochastic rounding (half a step with deterministic rounding), for every random draw; a constant tensor is reproduced exactly.", "quantifier": "every vector, every bits in 1..16, every random draw", "why_tests_cant": "All inputs and random draws.", "anchors": ["tensorflow_model_optimization/python/core/internal/tensor_encoding/stages/stages_impl.py:UniformQuantizationEncodingStage"]}
{"id": "C36", "title": "Uniform quantization commutes with sum", "statement": "With common min/max, summing the encodings of any number of inputs and decoding with num_summands equals the sum of the individual decodings.", "quantifier": "every number of summands and inputs", "why_tests_cant": "All numbers of summands.", "anchors": ["tensorflow_model_optimization/python/core/internal/tensor_encoding/stages/stages_impl.py:UniformQuantizationEncodingStage.decode"]}
{"id": "C37", "title": "Encoder tree: decode inverts encode", "statement": "If every stage of a composed encoder is lossless, then decoding the encoding of x returns x, for every tree of stages (children on any encoded keys).", "quantifier": "every finite composition tree of stages", "why_tests_cant": "Structural induction over arbitrary trees.", "anchors": ["tensorflow_model_optimization/python/core/internal/tensor_encoding/core/core_encoder.py:Encoder"]}
{"id": "C38", "title": "Partial decoding around a sum is consistent", "statement": "For every encoder, decoding after the sum of the partial decoding before the sum of a single encoding gives the full decoding; and if all stages commute with sum up to the split, the decoded aggregate of several clients is the sum of their decodings.", "quantifier": "every composition tree, every number of clients", "why_tests_cant": "Structural induction over trees and over number of clients.", "anchors": ["tensorflow_model_optimization/python/core/internal/tensor_encoding/core/core_encoder.py:Encoder.decode_before_sum", "tensorflow_model_optimization/python/core/internal/tensor_encoding/core/core_encoder.py:Encoder.decode_after_sum", "tensorflow_model_optimization/python/core/internal/tensor_encoding/core/gather_encoder.py:GatherEncoder"]}
{"id": "C39", "title": "fully_commutes_with_sum means every stage commutes", "statement": "An encoder reports that it fully commutes with sum exactly when every stage in its tree commutes. [GatherEncoder violates this: it reports True when any stage commutes.]", "quantifier": "every composition tree", "why_tests_cant": "Structural induction over trees.", "anchors": ["tensorflow_model_optimization/python/core/internal/tensor_encoding/core/core_encoder.py:Encoder.fully_commutes_with_sum", "tensorflow_model_optimization/python/core/internal/tensor_encoding/core/gather_encoder.py:GatherEncoder.fully_commutes_with_sum"]}
{"id": "C40", "title": "EncoderComposer only accepts compressible keys, once", "statement": "Every encoder that can be built by a composer has children only at keys its stage declares compressible, each at most once; other additions are rejected.", "quantifier": "every sequence of composer calls", "why_tests_cant": "All construction histories.", "anchors": ["tensorflow_model_optimization/python/core/internal/tensor_encoding/core/core_encoder.py:EncoderComposer"]}
{"id": "C41", "title": "Splitting and merging py/tf dictionaries round-trips", "statement": "Splitting a nested dictionary into Python constants and tensors and merging the two parts returns the original; merging incompatible structures is rejected.", "quantifier": "every nested dictionary", "why_tests_cant": "Structural induction over arbitrary nesting.", "anchors": ["tensorflow_model_optimization/python/core/internal/tensor_encoding/utils/py_utils.py:split_dict_py_tf", "tensorflow_model_optimization/python/core/internal/tensor_encoding/utils/py_utils.py:merge_dicts"]}
{"id": "C42", "title": "SimpleEncoder state threading", "statement": "After any number of encode calls the encoder state is the fold of its update function over the state-update tensors of the successive encodings, and each encoding uses the state of its predecessor.", "quantifier": "every number of rounds", "why_tests_cant": "Invariant over histories.", "anchors": ["tensorflow_model_optimization/python/core/internal/tensor_encoding/core/simple_encoder.py:SimpleEncoder", "tensorflow_model_optimization/python/core/internal/tensor_encoding/core/core_encoder.py:Encoder.update_state"]}
{"id": "C43", "title": "Difference-between-integers stage is lossless", "statement": "Decoding the differences returns the original integer list.", "quantifier": "every list of integers", "why_tests_cant": "All lengths.", "anchors": ["tensorflow_model_optimization/python/core/internal/tensor_encoding/stages/research/misc.py:DifferenceBetweenIntegersEncodingStage"]}
{"id": "C44", "title": "Split-by-small-value stage", "statement": "Decoding returns the input with exactly the entries of magnitude <= threshold replaced by zero, at the same positions.", "quantifier": "every vector and threshold", "why_tests_cant": "All vectors.", "anchors": ["tensorflow_model_optimization/python/core/internal/tensor_encoding/stages/research/misc.py:SplitBySmallValueEncodingStage"]}
{"id": "C45", "title": "Kashin representation is lossless", "statement": "Without clipping in the last iteration, decoding the Kashin coefficients returns the input exactly, for any number of iterations, eta and delta.", "quantifier": "every vector, every number of iterations, every delta and eta", "why_tests_cant": "Loop invariant over unbounded iterations.", "anchors": ["tensorflow_model_optimization/python/core/internal/tensor_encoding/stages/research/kashin.py:KashinHadamardEncodingStage"]}
{"id": "C46", "title": "Clipping stages", "statement": "Clip-by-norm output has norm at most the bound and is a non-negative multiple of the input (the input itself when within the bound); clip-by-value output is entry-wise the nearest point of the interval.", "quantifier": "every vector, every positive norm bound and every interval", "why_tests_cant": "All vectors.", "anchors": ["tensorflow_model_optimization/python/core/internal/tensor_encoding/stages/research/clipping.py:ClipByNormEncodingStage", "tensorflow_model_optimization/python/core/internal/tensor_encoding/stages/research/clipping.py:ClipByValueEncodingStage"]}
{"id": "C47", "title": "Complementary-multiply-with-carry generator", "statement": "Every generated value is in [0,1), generation terminates, the requested number of values is produced and the output is a function of the seed only.", "quantifier": "every seed and every requested length", "why_tests_cant": "All seeds and lengths.", "anchors": ["tensorflow_model_optimization/python/core/internal/tensor_encoding/utils/tf_utils.py:random_floats_cmwc", "tensorflow_model_optimization/python/core/internal/tensor_encoding/utils/tf_utils.py:_cmwc_random_sequence"]}
{"id": "C48", "title": "Quantization ranges always contain zero", "statement": "After any history of training calls the range used by LastValue, MovingAverage and AllValues quantizers satisfies min <= 0 <= max; symmetric narrow ranges are exactly symmetric.", "quantifier": "every history of batches, every option combination", "why_tests_cant": "Invariant over unbounded histories.", "anchors": ["tensorflow_model_optimization/python/core/quantization/keras/quant_ops.py:LastValueQuantize", "tensorflow_model_optimization/python/core/quantization/keras/quant_ops.py:MovingAvgQuantize", "tensorflow_model_optimization/python/core/quantization/keras/quant_ops.py:AllValuesQuantize"]}
{"id": "C49", "title": "AllValues range covers everything seen", "statement": "After any training history the AllValues range contains every value of every batch seen so far and never shrinks; inference never changes any range variable.", "quantifier": "every history", "why_tests_cant": "Invariant over unbounded histories.", "anchors": ["tensorflow_model_optimization/python/core/quantization/keras/quant_ops.py:AllValuesQuantize"]}
{"id": "C50", "title": "Fake quantization: levels, zero and error", "statement": "The output of a quantizer takes at most 2^num_bits distinct values (2^num_bits-1 with narrow range), maps 0 to 0, is idempotent and differs from an in-range input by at most half a step.", "quantifier": "every input, every range, every num_bits in 2..16", "why_tests_cant": "All inputs and ranges.", "anchors": ["tensorflow_model_optimization/python/core/quantization/keras/quant_ops.py:_FakeQuantWithMinMaxVars", "tensorflow_model_optimization/python/core/quantization/keras/quantizers.py:LastValueQuantizer"]}
{"id": "C51", "title": "FixedQuantizer honours num_bits", "statement": "A FixedQuantizer with num_bits bits emits at most 2^num_bits levels. [The code violates this: num_bits is ignored and 8 bits are used.]", "quantifier": "every num_bits, range and input", "why_tests_cant": "All parameter values.", "anchors": ["tensorflow_model_optimization/python/core/quantization/keras/quantizers.py:FixedQuantizer", "tensorflow_model_optimization/python/core/quantization/keras/quant_ops.py:FixedQuantize"]}
{"id": "C52", "title": "Prune-preserving quantization keeps zeros", "statement": "With the prune-preserving quantizer every weight that was zero at build time is exactly zero in every quantized kernel, after any history of updates.", "quantifier": "every weight tensor and every history", "why_tests_cant": "Invariant over histories.", "anchors": ["tensorflow_model_optimization/python/core/quantization/keras/collab_opts/prune_preserve/prune_preserve_quantize_registry.py:PrunePreserveDefaultWeightsQuantizer"]}
{"id": "C53", "title": "Cluster-preserving quantization keeps the clusters", "statement": "With the cluster-preserving quantizer the kernel takes at most as many distinct values as the clustered model had, after any history; with preserve_sparsity zeros stay zero. [Sparsity is lost for all layers sharing the quantizer as soon as one of them has no zero weight.]", "quantifier": "every model and every history", "why_tests_cant": "Invariant over histories and over sets of layers sharing a quantizer object.", "anchors": ["tensorflow_model_optimization/python/core/quantization/keras/collab_opts/cluster_preserve/cluster_preserve_quantize_registry.py:ClusterPreserveDefaultWeightsQuantizer"]}
{"id": "C54", "title": "quantize_apply quantizes exactly the annotated layers", "statement": "quantize_apply wraps each annotated layer with its own custom config if given and the registry default otherwise, fails if no config exists, gives non-annotated layers at most activation/output quantization and never touches their weights, and removes all annotations.", "quantifier": "every sequential or functional model and annotation set", "why_tests_cant": "All graphs and annotation subsets.", "anchors": ["tensorflow_model_optimization/python/core/quantization/keras/quantize.py:quantize_apply"]}
{"id": "C55", "title": "quantize_annotate_model annotates every layer once", "statement": "Every layer except Lambda layers is annotated, annotated layers are not wrapped again, nested models are rejected; annotating twice equals annotating once.", "quantifier": "every model", "why_tests_cant": "All models.", "anchors": ["tensorflow_model_optimization/python/core/quantization/keras/quantize.py:quantize_annotate_model"]}
{"id": "C56", "title": "Layer pattern matching is exact on class names", "statement": "A transform pattern matches a layer only if the layer's class is one of the alternatives named in the pattern. [The code violates this: '^A|B$' is not '^(A|B)$', e.g. Conv2DTranspose matches Conv2D|DepthwiseConv2D.]", "quantifier": "every class name and alternation pattern", "why_tests_cant": "All class names.", "anchors": ["tensorflow_model_optimization/python/core/quantization/keras/graph_transformations/model_transformer.py:ModelTransformer._match_pattern"]}
{"id": "C57", "title": "A custom QuantizeConfig is never overridden by the layout transforms", "statement": "If the user supplied a QuantizeConfig for a layer the 8-bit transforms leave it in place. [LayerReLUQuantize violates this.]", "quantifier": "every match of every transform", "why_tests_cant": "All combinations of configs in a match.", "anchors": ["tensorflow_model_optimization/python/core/quantization/keras/default_8bit/default_8bit_transforms.py"]}
{"id": "C58", "title": "Model transformer terminates and preserves the graph", "statement": "Replacing a matched chain in a sequential model keeps all other layers in order and puts the replacement where the match was; each transform fires at most once per layer name, so the transformation loop terminates when replacements do not introduce new layer names. What a transform returns is put into the graph whenever it differs from the match, and when the loop ends every remaining match of a transform is at a layer which that transform has already been applied to.", "quantifier": "every model, every transform list (the layer order after a replacement: every sequential model)", "why_tests_cant": "All models; termination.", "anchors": ["tensorflow_model_optimization/python/core/quantization/keras/graph_transformations/model_transformer.py:ModelTransformer"]}
{"id": "C59", "title": "Registry instances are independent", "statement": "The bit widths a DefaultNBitQuantizeRegistry hands out are the ones it was constructed with. [The code violates this: constructing another registry changes them.]", "quantifier": "every sequence of registry constructions", "why_tests_cant": "Histories of constructions in one process.", "anchors": ["tensorflow_model_optimization/python/core/quantization/keras/experimental/default_n_bit/default_n_bit_quantize_registry.py:DefaultNBitQuantizeRegistry"]}
{"id": "C60", "title": "QuantizeConfig equality", "statement": "Two default quantize configs compare equal only if they quantize the same weights and activations. [Violated: activation_attrs are compared with themselves.]", "quantifier": "every pair of configs", "why_tests_cant": "All pairs.", "anchors": ["tensorflow_model_optimization/python/core/quantization/keras/default_8bit/default_8bit_quantize_registry.py:Default8BitQuantizeConfig.__eq__"]}
{"id": "C61", "title": "QuantizeAwareActivation placement", "statement": "Every supported activation is quantized at exactly the documented places (before, after, both or never) and every unsupported one is rejected at construction.", "quantifier": "every activation name", "why_tests_cant": "All names.", "anchors": ["tensorflow_model_optimization/python/core/quantization/keras/quantize_aware_activation.py:QuantizeAwareActivation"]}
{"id": "C62", "title": "Compression PolynomialDecay scheduler", "statement": "The scheduler is start_value before begin_step, end_value from end_step on, and monotone in between.", "quantifier": "every step and every parameter set with a positive number of decay steps and a positive exponent", "why_tests_cant": "All pairs of steps.", "anchors": ["tensorflow_model_optimization/python/core/common/keras/compression/schedules.py:PolynomialDecay"]}
{"id": "C63", "title": "Periodic SVD rank schedule", "statement": "The rank used at an update step is between the target rank and the full rank (the full rank when the target exceeds it), equals the full rank at step 0 when there is a warm-up, the target rank after warm-up and never increases.", "quantifier": "every step, rank, warm-up", "why_tests_cant": "All steps.", "anchors": ["tensorflow_model_optimization/python/core/common/keras/compression/algorithms/periodical_update_and_scheduling.py:SVD.project_training_weights"]}
{"id": "C64", "title": "Weight mapping for compressed inference layers", "statement": "Creating the inference layer from a trained layer assigns each weight the right value. [Violated: an index error for layers without bias, mis-assignment when only the bias is compressed, and layers without compressible weights lose their pretrained weights.]", "quantifier": "every layer weight layout and algorithm", "why_tests_cant": "All layouts.", "anchors": ["tensorflow_model_optimization/python/core/common/keras/compression/internal/optimize.py:_map_to_inference_weights", "tensorflow_model_optimization/python/core/common/keras/compression/internal/optimize.py:_map_to_training_weights"]}
{"id": "C65", "title": "Weight-clustering compressor round trip", "statement": "Decompressing the clustered form gives at every position a centroid nearest to the pretrained weight, hence at most number_of_clusters distinct values.", "quantifier": "every weight tensor", "why_tests_cant": "All tensors.", "anchors": ["tensorflow_model_optimization/python/core/common/keras/compression/algorithms/weight_clustering.py:WeightClustering"]}
{"id": "C66", "title": "Unique object names are unique", "statement": "Repeated calls with the same name map never return the same name twice for the same (namespace, prefix) and never a name in avoid_names.", "quantifier": "every sequence of calls", "why_tests_cant": "Histories.", "anchors": ["tensorflow_model_optimization/python/core/keras/compat.py:unique_object_name"]}
{"id": "C67", "title": "cluster_weights / strip_clustering structure", "statement": "Clustering a model replaces every not yet wrapped layer (recursing into nested models) by the wrapper documented for its kind with the requested parameters, except convolutions found too small, and leaves inputs and existing wrappers alone; it succeeds exactly when no model is subclassed and every layer is supported; applying it twice equals once; strip_clustering removes exactly the wrappers and restores the original structure.", "quantifier": "every nested model tree and every parameter set", "why_tests_cant": "The model tree has unbounded depth and width.", "anchors": ["tensorflow_model_optimization/python/core/clustering/keras/cluster.py:_cluster_weights", "tensorflow_model_optimization/python/core/clustering/keras/cluster.py:strip_clustering"]}
{"id": "C68", "title": "cluster_scope resolves every clustered model", "statement": "A model produced by cluster_weights can be deserialised inside cluster_scope. [Violated for recurrent and attention layers: their wrapper classes are not registered.]", "quantifier": "every model cluster_weights accepts", "why_tests_cant": "The set of models is infinite; tests only save models with dense and convolutional layers.", "anchors": ["tensorflow_model_optimization/python/core/clustering/keras/cluster.py:cluster_scope", "tensorflow_model_optimization/python/core/clustering/keras/cluster_wrapper.py:ClusterWeightsRNN", "tensorflow_model_optimization/python/core/clustering/keras/cluster_wrapper.py:ClusterWeightsMHA"]}
{"id": "C69", "title": "A layer the clustering registry supports can be built", "statement": "If the registry accepts a layer, the wrapper can determine its clusterable weights at build time; for recurrent layers these are kernel and recurrent kernel of each cell in order. [Violated for bare RNN cells, layers unbuilt when wrapped, and Bidirectional layers around stacked cells.]", "quantifier": "every layer class, cell list and build state", "why_tests_cant": "Support is decided at wrap time and used at build time; the layer may change in between.", "anchors": ["tensorflow_model_optimization/python/core/clustering/keras/clustering_registry.py:ClusteringRegistry.supports", "tensorflow_model_optimization/python/core/clustering/keras/clustering_registry.py:ClusteringRegistry.make_clusterable"]}
{"id": "C70", "title": "Stochastic uniform quantization is unbiased", "statement": "Averaged over the random draw, decoding the stochastic uniform quantization of a value gives the value clipped to the quantization interval.", "quantifier": "every value, interval and bit width; expectation over the uniform draw", "why_tests_cant": "An expectation is an integral over the draw; tests can only estimate it by sampling.", "anchors": ["tensorflow_model_optimization/python/core/internal/tensor_encoding/stages/stages_impl.py:UniformQuantizationEncodingStage"]}
{"id": "C71", "title": "PRNG and per-channel quantization error", "statement": "Quantization with shared randomness recovers every entry up to half a quantization step for every draw and is unbiased; per-channel quantization recovers every entry up to one step (half a step deterministic or with shared randomness) of the interval of its own channel.", "quantifier": "every tensor, bit width, draw and channel", "why_tests_cant": "All tensors and draws.", "anchors": ["tensorflow_model_optimization/python/core/internal/tensor_encoding/stages/research/quantization.py:PRNGUniformQuantizationEncodingStage", "tensorflow_model_optimization/python/core/internal/tensor_encoding/stages/research/quantization.py:PerChannelUniformQuantizationEncodingStage", "tensorflow_model_optimization/python/core/internal/tensor_encoding/stages/research/quantization.py:PerChannelPRNGUniformQuantizationEncodingStage"]}
{"id": "C72", "title": "LastValue range is the range of the last training batch", "statement": "After a training call and any number of inference calls the range of a LastValue quantizer covers every value of that batch, per channel when per_axis; when not symmetric it is exactly the extremes of the channel together with zero.", "quantifier": "every history of calls, every tensor, channel and configuration", "why_tests_cant": "Unbounded histories and tensors.", "anchors": ["tensorflow_model_optimization/python/core/quantization/keras/quantizers.py:LastValueQuantizer", "tensorflow_model_optimization/python/core/quantization/keras/quant_ops.py:LastValueQuantize"]}
{"id": "C73", "title": "MovingAverage range stays within what was seen", "statement": "Each training call moves each end of a MovingAverage range by a fixed fraction towards the end of the batch's range (up to rounding), so after any history the range stays within the hull of the initial range and all training batches.", "quantifier": "every history of calls", "why_tests_cant": "Unbounded histories.", "anchors": ["tensorflow_model_optimization/python/core/quantization/keras/quantizers.py:MovingAverageQuantizer", "tensorflow_model_optimization/python/core/quantization/keras/quant_ops.py:MovingAvgQuantize"]}
{"id": "C74", "title": "Every quantizer configuration can be called", "statement": "A quantizer built for a tensor can quantize tensors of that shape, per tensor or per axis as configured. [Violated: MovingAverageQuantizer ignores per_axis when building its variables, so with per_axis every call fails.]", "quantifier": "every configuration and tensor shape", "why_tests_cant": "All configurations and shapes; existing tests only use per_axis=False.", "anchors": ["tensorflow_model_optimization/python/core/quantization/keras/quantizers.py:MovingAverageQuantizer.build", "tensorflow_model_optimization/python/core/quantization/keras/quant_ops.py:_FakeQuantWithMinMaxVars"]}
{"id": "C75", "title": "Sparsity- and cluster-preserving quantize registries", "statement": "The collaborative-optimization registries give every supported layer a config of the documented class whose weight quantizer is the preserving one, reject every unsupported layer and config class, and leave the config of layers without a preserving quantizer unchanged.", "quantifier": "every layer, every quantize config", "why_tests_cant": "All layer classes and config classes, including user-defined ones.", "anchors": ["tensorflow_model_optimization/python/core/quantization/keras/collab_opts/prune_preserve/prune_preserve_quantize_registry.py", "tensorflow_model_optimization/python/core/quantization/keras/collab_opts/cluster_preserve/cluster_preserve_quantize_registry.py"]}
{"id": "C76", "title": "Graph transforms keep functional models well-formed", "statement": "Replacing a match in a well-formed functional model by layers with fresh or reused names gives a well-formed model: unique names, no reference to a removed layer, no cycle; unmatched layers keep their configuration, weights and metadata, and only references to the head of the match change.", "quantifier": "every functional model (any size, shared layers, several outputs), every pattern and every replacement", "why_tests_cant": "All graphs; tests use a handful of small ones.", "anchors": ["tensorflow_model_optimization/python/core/quantization/keras/graph_transformations/model_transformer.py:ModelTransformer._replace_functional", "tensorflow_model_optimization/python/core/quantization/keras/graph_transformations/model_transformer.py:ModelTransformer._match_layer_with_inputs"]}
{"id": "C77", "title": "Graph transforms keep the function of the model", "statement": "If a replacement computes the same as the match, the transformed model computes the same outputs from the same inputs; hence the default 8-bit layout transforms do not change what the model computes in floating point. [Violated: keyword arguments, tensor indices and operand order of calls inside a match are dropped.]", "quantifier": "every functional or sequential model, every semantics of layers, every input", "why_tests_cant": "All models and all inputs.", "anchors": ["tensorflow_model_optimization/python/core/quantization/keras/graph_transformations/model_transformer.py:ModelTransformer", "tensorflow_model_optimization/python/core/quantization/keras/default_8bit/default_8bit_transforms.py"]}
{"id": "C78", "title": "SVD compression keeps the best low-rank approximation", "statement": "The weight an SVD-compressed layer computes with has at most the target rank, is closest to the original weight among all matrices of that rank, has squared error equal to the sum of the squares of the dropped singular values, equals the original exactly when that has at most the target rank, and compressing again changes nothing.", "quantifier": "every matrix, every target rank, every singular value decomposition tf.linalg.svd may return", "why_tests_cant": "Infinitely many matrices; optimality quantifies over all competitors.", "anchors": ["tensorflow_model_optimization/python/core/common/keras/compression/algorithms/same_training_and_inference.py:SVD", "tensorflow_model_optimization/python/core/common/keras/compression/algorithms/different_training_and_inference.py:SVD", "tensorflow_model_optimization/python/core/common/keras/compression/algorithms/periodical_update_and_scheduling.py:SVD"]}
{"id": "C79", "title": "EPR round trip", "statement": "Decompressing what EPR stored for a bias or dense kernel gives exactly the weight of the last training step, which differs from the trained latent weight by at most half a step. [Violated when a dimension is a multiple of 2^16 (shape stored as uint16) and when the logarithm of the step is not exact in float16.]", "quantifier": "every weight, shape, step", "why_tests_cant": "All values and shapes.", "anchors": ["tensorflow_model_optimization/python/core/common/keras/compression/algorithms/epr.py:FastEPR", "tensorflow_model_optimization/python/core/common/keras/compression/algorithms/epr.py:_transform_dense_weight"]}
{"id": "C80", "title": "BiasOnly compressor", "statement": "A layer compressed by BiasOnly computes with a constant bias of the same shape whose mean is the mean of the original bias; nothing is lost exactly when the bias was constant.", "quantifier": "every bias", "why_tests_cant": "All values.", "anchors": ["tensorflow_model_optimization/python/core/common/keras/compression/algorithms/bias_only.py:BiasOnly"]}
{"id": "C81", "title": "Setters of a quantize config change exactly the attributes the getters return", "statement": "After set_quantize_weights (set_quantize_activations) with as many weights of the same shapes (as many activations) as get_weights_and_quantizers (get_activations_and_quantizers) returns, the getter returns exactly what was set, with the same quantizers, and every other attribute of the layer and of its RNN cells is unchanged; a wrong number is a ValueError without effect; a wrong shape is a ValueError. [Not atomic: a failing call can leave some of the weights replaced.]", "quantifier": "every layer, every RNN with any number of cells, every list of attributes, every list of weights", "why_tests_cant": "All layers and lists; the round trip is an induction over attributes and cells.", "anchors": ["tensorflow_model_optimization/python/core/quantization/keras/default_8bit/default_8bit_quantize_registry.py:Default8BitQuantizeConfig", "tensorflow_model_optimization/python/core/quantization/keras/default_8bit/default_8bit_quantize_registry.py:Default8BitQuantizeConfigRNN", "tensorflow_model_optimization/python/core/quantization/keras/experimental/default_n_bit/default_n_bit_quantize_registry.py:DefaultNBitQuantizeConfig"]}
{"id": "C82", "title": "Default registries hand out the documented configs", "statement": "The default 8-bit and n-bit registries support exactly the listed layer classes (and RNNs all of whose cells are supported), reject all others with ValueError, and the config of a supported layer quantizes exactly its kernel (symmetric, narrow range, per axis for convolutions unless disabled), its activation, and the output of exactly the listed classes; the config of a recurrent layer does so cell by cell. [Violated: a recurrent layer with an Activation cell is reported as supported but has no config.]", "quantifier": "every layer class and every layer, every registry", "why_tests_cant": "All layer classes including user-defined ones.", "anchors": ["tensorflow_model_optimization/python/core/quantization/keras/default_8bit/default_8bit_quantize_registry.py:Default8BitQuantizeRegistry", "tensorflow_model_optimization/python/core/quantization/keras/experimental/default_n_bit/default_n_bit_quantize_registry.py:DefaultNBitQuantizeRegistry"]}
{"id": "C83", "title": "A quantize wrapper computes with freshly quantized weights and leaves the float weights alone", "statement": "Over any history of training and inference calls and of weight updates, a QuantizeWrapper returns what the original layer computes with each named weight replaced by the quantization of its current floating-point value, each named activation by its quantized version and the output quantized if the config says so; no call changes a floating-point weight; inference calls change no quantizer variable; with NoOpQuantizeConfig the wrapper returns what the layer returns; FixedQuantizeConfig and OutputOnlyConfig change exactly what they say; QuantizeLayer quantizes its input, or is the identity without quantizer; invalid constructor arguments are ValueErrors.", "quantifier": "every layer (as a program over its weights and activations, with state), every lawful quantize config and quantizer, every history", "why_tests_cant": "Histories of calls with mutation of the wrapped layer in between; all layers and configs.", "anchors": ["tensorflow_model_optimization/python/core/quantization/keras/quantize_wrapper.py:QuantizeWrapper", "tensorflow_model_optimization/python/core/quantization/keras/quantize_wrapper.py:QuantizeWrapperV2", "tensorflow_model_optimization/python/core/quantization/keras/quantize_layer.py:QuantizeLayer", "tensorflow_model_optimization/python/core/quantization/keras/quantize_config.py:OutputOnlyConfig", "tensorflow_model_optimization/python/core/quantization/keras/quantize_config.py:FixedQuantizeConfig"]}
{"id": "C84", "title": "Trainable weights of a quantized layer", "statement": "The trainable weights of a quantized layer are those of the layer, each once and in the same order, at any time; none if the layer is frozen. [Violated: freezing is ignored; the order changes for layers that were not built; QuantizeWrapper lists quantized weights twice before the first call.]", "quantifier": "every list of weights, every subset of quantized ones, every history of calls and of assignments to trainable", "why_tests_cant": "Histories; the layer loses its own references to the weights at the first call.", "anchors": ["tensorflow_model_optimization/python/core/quantization/keras/quantize_wrapper.py:QuantizeWrapper.trainable_weights", "tensorflow_model_optimization/python/core/quantization/keras/quantize_wrapper.py:QuantizeWrapperV2.trainable_weights", "tensorflow_model_optimization/python/core/quantization/keras/quantize_wrapper.py:QuantizeWrapperV2.build"]}
{"id": "C85", "title": "strip_clustering_cqat removes exactly the clustering variables", "statement": "strip_clustering_cqat removes from every quantized Conv2D and Dense layer exactly its clustering variables (centroids, original weights, pulling indices), keeps all other variables in order, leaves every other layer unchanged, and is idempotent. [Violated for layers whose name contains 'depthwise'.]", "quantifier": "every layer, every name, every list of variables", "why_tests_cant": "All names: the decision is by substring.", "anchors": ["tensorflow_model_optimization/python/core/quantization/keras/collab_opts/cluster_preserve/cluster_utils.py:strip_clustering_cqat"]}
{"id": "C86", "title": "Quantizers, quantize configs and wrappers survive saving and loading", "statement": "Under quantize_scope every quantizer, quantize config, quantize wrapper, annotation and QuantizeLayer, nested to any depth and over any user-defined class that keeps the Keras contract, loads from its serialized configuration as an object of the same class with the same attributes; a configuration can be loaded any number of times. [Violated: the weight quantizers of convolutions cannot be loaded; a configuration with FixedQuantizeConfig can be loaded only once; configs of the sparsity- and cluster-preserving registries load with the ordinary quantizer.]", "quantifier": "every object of the library and of user-defined classes, nested to any depth, any number of loads", "why_tests_cant": "Unbounded nesting and arbitrary user classes; loading mutates the dictionaries it is given.", "anchors": ["tensorflow_model_optimization/python/core/quantization/keras/quantize.py:quantize_scope", "tensorflow_model_optimization/python/core/quantization/keras/quantize_config.py:FixedQuantizeConfig", "tensorflow_model_optimization/python/core/quantization/keras/quantize_config.py:OutputOnlyConfig", "tensorflow_model_optimization/python/core/quantization/keras/quantizers.py", "tensorflow_model_optimization/python/core/quantization/keras/quantize_wrapper.py:QuantizeWrapper.from_config", "tensorflow_model_optimization/python/core/quantization/keras/quantize_layer.py:QuantizeLayer.from_config", "tensorflow_model_optimization/python/core/quantization/keras/quantize_annotate.py:QuantizeAnnotate.from_config", "tensorflow_model_optimization/python/core/quantization/keras/default_8bit/default_8bit_quantizers.py"]}
{"id": "C87", "title": "fix_input_output_range and remove_input_range change exactly the input quantizers and the output ranges", "statement": "fix_input_output_range returns a model in which exactly the QuantizeLayers fed by an input of the model quantize with the given fixed input range, the quantize configs of exactly the output layers are wrapped with the given fixed output range, and every other layer, every connection and the weights are unchanged; remove_input_range makes exactly the same QuantizeLayers pass their input through; a Sequential model whose input is not quantized is rejected with ValueError. [Violated: models with an input that feeds an unquantized layer are a TypeError; one-layer Sequential models an IndexError; the weights are initialised anew.]", "quantifier": "every quantized model (any layers, any connections, any nesting of inputs and outputs), every range", "why_tests_cant": "Unbounded graphs and nested input/output structures; all layer classes.", "anchors": ["tensorflow_model_optimization/python/core/quantization/keras/quantize.py:fix_input_output_range", "tensorflow_model_optimization/python/core/quantization/keras/quantize.py:remove_input_range"]}
{"id": "C88", "title": "The common encoders return what they promise", "statement": "identity() encodes and decodes every tensor unchanged. uniform_quantization(bits, min_max, stochastic) is accepted exactly for 1 to 16 bits and no or a proper interval, and encoding and decoding a floating point tensor of any shape keeps its element type and shape and moves every entry by at most one quantization step (half a step without stochastic rounding) from its value clipped to the range. hadamard_quantization(bits) keeps element type and shape and its squared Euclidean error is at most 2^k * 2 * ||x||^2 / (2^bits - 1)^2, with 2^k the number of entries rounded up to a power of two.", "quantifier": "every non-empty floating point tensor of every shape, every number of bits, interval, seed and random draw (hadamard: no draw of exactly 1/2, see C34)", "why_tests_cant": "All shapes and values; the whole pipeline of composed stages including bit packing and padding.", "anchors": ["tensorflow_model_optimization/python/core/internal/tensor_encoding/encoders/common_encoders.py:identity", "tensorflow_model_optimization/python/core/internal/tensor_encoding/encoders/common_encoders.py:uniform_quantization", "tensorflow_model_optimization/python/core/internal/tensor_encoding/encoders/common_encoders.py:hadamard_quantization", "tensorflow_model_optimization/python/core/internal/tensor_encoding/stages/stages_impl.py"]}
{"id": "C89", "title": "GatherEncoder aggregates: decoding the sum gives the sum of the decoded values", "statement": "GatherEncoder.from_encoder accepts every encoder whose stages keep their contract and that returns zeros of the given type and shape as such. For an accepted encoder, in every round (any state of the right size), parameters are produced, every worker's tensor of that type and shape can be encoded with them and partly decoded, the partial decodings all have the structure of the recorded ones and so can be summed, and decoding their sum gives the sum of what the encoder makes of each worker's tensor alone, with the type and shape of the input, whichever machines (with whichever random draws) do the encoding and decoding. All shipped stages keep the contract, in every combination. With uniform_quantization every entry of the decoded sum is off by at most the sum of the workers' quantization steps.", "quantifier": "every tree of stages, every number of workers, every tensor of the given type and shape, all random draws, every state and number of rounds", "why_tests_cant": "Unbounded trees of stages, numbers of workers and rounds; independent randomness on each machine.", "anchors": ["tensorflow_model_optimization/python/core/internal/tensor_encoding/core/gather_encoder.py:GatherEncoder.from_encoder", "tensorflow_model_optimization/python/core/internal/tensor_encoding/core/core_encoder.py:Encoder", "tensorflow_model_optimization/python/core/internal/tensor_encoding/stages/stages_impl.py", "tensorflow_model_optimization/python/core/internal/tensor_encoding/encoders/common_encoders.py"]}
{"id": "C90", "title": "Flat encodings carry every tensor, and decoding restores the nested structure", "statement": "SimpleEncoder.encode and GatherEncoder.encode / decode_before_sum return a flat dictionary with exactly one entry for each tensor of the encoding, under the '/'-joined path of its keys, and decode restores the nested structure with every tensor (and every Python value kept inside) at its place, for every nesting and every keys. [Violated: with keys that contain a character before '/' in code point order (such as '-', '.', ' '), tensors are silently exchanged; with keys that contain '/', two tensors can get the same path and decoding is a ValueError.]", "quantifier": "every nested encoding, any depth, number and names of keys", "why_tests_cant": "Unbounded nesting and arbitrary key names; sorting of joined paths against sorting of keys.", "anchors": ["tensorflow_model_optimization/python/core/internal/tensor_encoding/utils/py_utils.py:flatten_with_joined_string_paths", "tensorflow_model_optimization/python/core/internal/tensor_encoding/core/simple_encoder.py:SimpleEncoder", "tensorflow_model_optimization/python/core/internal/tensor_encoding/core/gather_encoder.py:GatherEncoder.from_encoder"]}
{"id": "C91", "title": "quantize_apply uses the parameters of the scheme for every layer", "statement": "In the model that quantize_apply returns with Default8BitQuantizeScheme(disable_per_axis) or DefaultNBitQuantizeScheme(disable_per_axis, num_bits_weight, num_bits_activation), every quantize config the library has chosen quantizes weights with the scheme's number of bits for weights and activations and outputs with its number of bits for activations, every new QuantizeLayer has the number of bits for activations, and every layer of a supported class is treated as documented for that scheme, with per-axis kernels exactly if disable_per_axis is not set. [Violated: with disable_per_axis the convolutions that feed an annotated Concatenate are quantized per axis all the same.]", "quantifier": "every annotated model, every scheme, every registry constructed before in the process", "why_tests_cant": "All graphs and all orders of the transforms' matches; shared state of the registries.", "anchors": ["tensorflow_model_optimization/python/core/quantization/keras/quantize.py:quantize_apply", "tensorflow_model_optimization/python/core/quantization/keras/default_8bit/default_8bit_quantize_scheme.py:Default8BitQuantizeScheme", "tensorflow_model_optimization/python/core/quantization/keras/experimental/default_n_bit/default_n_bit_quantize_scheme.py:DefaultNBitQuantizeScheme", "tensorflow_model_optimization/python/core/quantization/keras/default_8bit/default_8bit_transforms.py:ConcatTransform", "tensorflow_model_optimization/python/core/quantization/keras/experimental/default_n_bit/default_n_bit_transforms.py"]}
{"id": "C92", "title": "Saving and loading a quantized model keeps the quantizers of the default scheme", "statement": "For every layer of a model returned by quantize_apply whose quantize config the library has chosen, the config that a saved model is loaded with has the same weight, activation and output quantizers as the config in the model that was saved, including the output quantizers that were switched off because the layer feeds a Concatenate. [Violated by the n-bit scheme: the switched-off output quantizers are back after loading.]", "quantifier": "every annotated model, every layer class, every registry history", "why_tests_cant": "All graphs in which layers feed concatenations.", "anchors": ["tensorflow_model_optimization/python/core/quantization/keras/default_8bit/default_8bit_transforms.py:ConcatTransform", "tensorflow_model_optimization/python/core/quantization/keras/default_8bit/default_8bit_quantize_registry.py", "tensorflow_model_optimization/python/core/quantization/keras/experimental/default_n_bit/default_n_bit_transforms.py:ConcatTransform", "tensorflow_model_optimization/python/core/quantization/keras/experimental/default_n_bit/default_n_bit_quantize_registry.py"]}
{"id": "C93", "title": "Encoders reject what does not fit, and sum in compressed form", "statement": "GatherEncoder.encode rejects tensors of another type or shape than given to from_encoder; decode_before_sum and decode_after_sum reject values of any other structure, element types or shapes than those of the encoder's own encodings; flat dictionaries with too few or too many tensors, and states and state updates with another number of entries than the encoder has stages, are rejected. If all stages commute with sum (every combination of identity, flatten, Hadamard and quantization to a given interval), decode_before_sum decodes nothing, so the sum is over the encoded tensors.", "quantifier": "every tree of stages, every message, every state", "why_tests_cant": "Unbounded trees of stages and arbitrary malformed messages.", "anchors": ["tensorflow_model_optimization/python/core/internal/tensor_encoding/utils/py_utils.py:assert_compatible", "tensorflow_model_optimization/python/core/internal/tensor_encoding/core/gather_encoder.py:GatherEncoder.from_encoder", "tensorflow_model_optimization/python/core/internal/tensor_encoding/core/core_encoder.py:Encoder", "tensorflow_model_optimization/python/core/internal/tensor_encoding/stages/stages_impl.py"]}
{"id": "C94", "title": "Clustering and stripping act on the right attribute of the right sublayer", "statement": "For every layer the clustering registry supports (layers with own weights, RNN layers with one cell, stacks of any number of cells, bidirectional layers), after any history of forward passes and variable updates, each clusterable attribute of each (sub)layer holds the clustering of its own variable with its own centroids; strip_clustering returns a layer with the same weights in the same order, the clustered ones at their positions and the current values of all others. [Violated by MultiHeadAttention: after stripping the kernels are constants, no longer variables, and the weights come in another order.]", "quantifier": "every supported layer with any number of cells and further weights, every history of calls and updates", "why_tests_cant": "Unbounded histories, numbers of cells and weights; aliasing of attributes and variables.", "anchors": ["tensorflow_model_optimization/python/core/clustering/keras/cluster_wrapper.py:ClusterWeights", "tensorflow_model_optimization/python/core/clustering/keras/cluster_wrapper.py:ClusterWeightsRNN", "tensorflow_model_optimization/python/core/clustering/keras/cluster_wrapper.py:ClusterWeightsMHA", "tensorflow_model_optimization/python/core/clustering/keras/cluster.py:strip_clustering", "tensorflow_model_optimization/python/core/clustering/keras/clustering_registry.py:ClusteringRegistry.make_clusterable"]}
{"id": "C95", "title": "A clustering wrapper survives saving and loading", "statement": "Restoring the config of a clustering wrapper, directly or after writing it as JSON, succeeds whenever the wrapper could be created, and gives a wrapper of the same class with the same name, layer, number of clusters, centroid initialisation, sparsity preservation, per-channel setting and gradient aggregation; wrappers get the name cluster_<layer name> exactly if none is given; a config without one of the settings is rejected.", "quantifier": "every wrapper class, layer, parameter setting and name", "why_tests_cant": "All combinations of parameters, and two forms of the config.", "anchors": ["tensorflow_model_optimization/python/core/clustering/keras/cluster_wrapper.py:ClusterWeights.get_config", "tensorflow_model_optimization/python/core/clustering/keras/cluster_wrapper.py:ClusterWeights.from_config", "tensorflow_model_optimization/python/core/clustering/keras/cluster_config.py"]}
{"id": "C96", "title": "Wrapped layers see the caller's training flag and keyword arguments", "statement": "A pruned, quantized or clustered layer runs in the phase (training or inference) the caller asks for, with the caller's keyword arguments, exactly as if it were called directly; a layer without a training argument is called without one. [Violated by clustering: ClusterWeights.call drops the training argument. Violated by pruning and quantization for keyword-only training arguments.]", "quantifier": "every signature of a layer's call, every training argument and learning phase, all keyword arguments", "why_tests_cant": "All signatures and argument combinations.", "anchors": ["tensorflow_model_optimization/python/core/sparsity/keras/pruning_wrapper.py:PruneLowMagnitude.call", "tensorflow_model_optimization/python/core/quantization/keras/quantize_wrapper.py:QuantizeWrapper.call", "tensorflow_model_optimization/python/core/clustering/keras/cluster_wrapper.py:ClusterWeights.call"]}
{"id": "C97", "title": "The tools can be chained: sparsity and clusters survive", "statement": "Prune a model with any training history, strip; cluster one of its kernels with preserve_sparsity (any initialisation), train in any way, strip; quantize it with the cluster-preserving scheme and train in any way: every weight that was pruned when pruning ended is zero in the stripped clustered kernel, in every quantized kernel the layer computes with and in the final kernel, and (kernel quantized as a whole) all of these have at most number_of_clusters distinct values, per channel if ranges are per channel. The same for zeros with pruning followed by prune-preserving quantization.", "quantifier": "every model, every pruning schedule and configuration, every history of each of the three training phases with weights above -1e6 (below, C21 is violated), every centroid initialisation; clustering not per channel", "why_tests_cant": "Three training phases of arbitrary length, each with arbitrary optimizer steps; interaction of three tools.", "anchors": ["tensorflow_model_optimization/python/core/sparsity/keras/prune.py:strip_pruning", "tensorflow_model_optimization/python/core/sparsity/keras/pruning_callbacks.py:UpdatePruningStep", "tensorflow_model_optimization/python/core/clustering/keras/cluster.py:strip_clustering", "tensorflow_model_optimization/python/core/clustering/keras/cluster_wrapper.py:ClusterWeights", "tensorflow_model_optimization/python/core/quantization/keras/collab_opts/cluster_preserve/cluster_preserve_quantize_registry.py", "tensorflow_model_optimization/python/core/quantization/keras/collab_opts/prune_preserve/prune_preserve_quantize_registry.py"]}
{"id": "C98", "title": "Pruning on several replicas", "statement": "Under a mirrored distribution strategy with any number of replicas, a pruned model whose optimizer gives all replicas the same weights has, after any history, on every replica exactly the weights, masks, thresholds and steps that a single device would have, with the same exceptions. Even if the weights on the replicas come apart, the masks never do, and after every forward pass and every epoch end all replicas have the same weights, zero at all pruned positions.", "quantifier": "every number of replicas, every model, schedule and history", "why_tests_cant": "Unbounded histories and numbers of replicas; per-replica state that tests on one device do not have.", "anchors": ["tensorflow_model_optimization/python/core/sparsity/keras/pruning_impl.py:Pruning.conditional_mask_update", "tensorflow_model_optimization/python/core/sparsity/keras/pruning_impl.py:Pruning.weight_mask_op", "tensorflow_model_optimization/python/core/sparsity/keras/pruning_wrapper.py:PruneLowMagnitude.call", "tensorflow_model_optimization/python/core/sparsity/keras/pruning_callbacks.py:UpdatePruningStep"]}
{"id": "C99", "title": "The sparsity is in the trained weights", "statement": "Whatever happens between the last time a layer's masks were computed and a forward pass or an epoch end - optimizer steps that change every weight, failing calls, restarts of training - the weights read after it have the configured sparsity: with element-wise pruning at sparsity s at most the rounded number of weights to keep is nonzero (magnitudes distinct when pruned) and everything smaller than that many weights is zero; with block pruning every dropped block is zero; with m-by-n sparsity the library's own checker accepts the weights.", "quantifier": "every model, configuration and weight shape, every history of optimizer steps, calls, training starts and epoch ends after the pruning step", "why_tests_cant": "Combines unbounded histories with arbitrary weights; a test looks at one run.", "anchors": ["tensorflow_model_optimization/python/core/sparsity/keras/pruning_wrapper.py:PruneLowMagnitude.call", "tensorflow_model_optimization/python/core/sparsity/keras/pruning_impl.py:Pruning", "tensorflow_model_optimization/python/core/sparsity/keras/pruning_utils.py:is_pruned_m_by_n", "tensorflow_model_optimization/python/core/sparsity/keras/pruning_callbacks.py:UpdatePruningStep"]}
{"id": "C100", "title": "One-shot pruning for benchmarks", "statement": "prune_for_benchmark(model, s, block_size) applied to any model succeeds and immediately, without training, sets all but the largest magnitudes of every prunable weight to zero and leaves the others as they are: an entry survives exactly if fewer than k entries of that weight are larger in magnitude, k being the rounded (1-s)-fraction of its size and at least one. Applying it again changes nothing. With blocks, for weights of rank two larger than a block, the weights are multiplied with the block mask.", "quantifier": "every model, every target sparsity s >= 0, every block size and every weights", "why_tests_cant": "All weights including ties, all sparsities; idempotence is a statement about two runs.", "anchors": ["tensorflow_model_optimization/python/core/sparsity/keras/tools/sparsity_tooling.py:prune_for_benchmark", "tensorflow_model_optimization/python/core/sparsity/keras/tools/sparsity_tooling.py:_apply_pruning", "tensorflow_model_optimization/python/core/sparsity/keras/tools/sparsity_tooling.py:StepIndependentConstantSparsity"]}
{"id": "C101", "title": "Pruning summaries report the true sparsity", "statement": "At the start of every epoch PruningSummaries writes, with the number of optimizer iterations as step, for every pruned weight of the model one record with the fraction of its entries that are masked and one with its threshold, and nothing else.", "quantifier": "every pruned model, every wrapper names, every training history before the epoch, every iteration count", "why_tests_cant": "All histories, all numbers of layers and weights, all names.", "anchors": ["tensorflow_model_optimization/python/core/sparsity/keras/pruning_callbacks.py:PruningSummaries.on_epoch_begin", "tensorflow_model_optimization/python/core/sparsity/keras/pruning_callbacks.py:PruningSummaries._log_pruning_metrics"]}
{"id": "C102", "title": "Clustering summaries are written at the requested frequency", "statement": "ClusteringSummaries with frequency n writes histograms of all variables of all clustered layers exactly when the number of training batches, counted over all epochs and fit calls, is a multiple of n ('batch': every batch); with 'epoch' exactly once per epoch, at its end; and it never makes training fail.", "quantifier": "every frequency, every sequence of epochs of any lengths, every earlier use of the callback, every steps_per_execution, every list of layers", "why_tests_cant": "All sequences of epochs and batches.", "anchors": ["tensorflow_model_optimization/python/core/clustering/keras/clustering_callbacks.py:ClusteringSummaries"]}
{"id": "C103", "title": "Pruning with an estimator, in every order of execution", "statement": "A model trained with PruningEstimatorSpec is pruned as with Keras, whatever the order in which TensorFlow executes the independent operations of a training step: masks are 0/1, the pruning step advances by one per training step (or is the given step), training does not fail spuriously, and after training the pruned entries are zero.", "quantifier": "every model, every order of execution of the grouped operations, every optimizer result, every number of training steps", "why_tests_cant": "All interleavings of the operations that tf.group leaves unordered.", "anchors": ["tensorflow_model_optimization/python/core/sparsity/keras/estimator_utils.py:PruningEstimatorSpec", "tensorflow_model_optimization/python/core/sparsity/keras/pruning_wrapper.py:PruneLowMagnitude.call"]}
{"id": "C104", "title": "Masks can be computed for weight tensors of every size", "statement": "Updating the pruning mask succeeds for every non-empty weight tensor and every sparsity in [0, 1], in the float32 arithmetic the code uses. [The code violates this for tensors with more than 2^24 entries.]", "quantifier": "every non-empty weight tensor, every sparsity, every rounding satisfying the IEEE properties", "why_tests_cant": "All tensor sizes; tests use tensors of a few entries.", "anchors": ["tensorflow_model_optimization/python/core/sparsity/keras/pruning_impl.py:Pruning._update_mask"]}
{"id": "C105", "title": "A compressed layer computes with the weights the algorithm provides", "statement": "In a model optimized for training, every attribute of a layer that held a compressible weight holds, during every call, the projected training weight of that call; in a model optimized for inference it holds the decompressed weight; every other attribute is what the original layer has there; and no call fails.", "quantifier": "every layer (its attributes, properties and add_weight calls), every choice of compressible weights, every sequence of calls with changing weight values", "why_tests_cant": "All layer classes, including user-written ones, with any attribute and weight names.", "anchors": ["tensorflow_model_optimization/python/core/common/keras/compression/internal/optimize.py:_TrainingWrapper", "tensorflow_model_optimization/python/core/common/keras/compression/internal/optimize.py:_InferenceWrapper", "tensorflow_model_optimization/python/core/common/keras/compression/internal/optimize.py:create_layer_for_training"]}
{"id": "C106", "title": "Usage monitoring is transparent", "statement": "Decorating a function with MonitorBoolGauge changes neither its results, its exceptions nor its effects; after any history the gauge's success cell is set exactly if some call returned and failure exactly if some call raised, and other gauges are untouched.", "quantifier": "every function, every state, every history of calls, exceptions and interrupts", "why_tests_cant": "All functions and all histories.", "anchors": ["tensorflow_model_optimization/python/core/keras/metrics.py:MonitorBoolGauge", "tensorflow_model_optimization/python/core/keras/metrics.py:_usage_gauge"]}
{"id": "C107", "title": "Evaluating a model does not change its training", "statement": "Evaluating a model (calls for inference, validation in fit) between training steps has no effect on the training: all later training calls give the same results, and weights, masks, centroids and quantization ranges end up the same as without the evaluations.", "quantifier": "every model and wrapper configuration, every optimizer, every interleaving of training steps and evaluations", "why_tests_cant": "All interleavings of training and evaluation of any length.", "anchors": ["tensorflow_model_optimization/python/core/sparsity/keras/pruning_wrapper.py:PruneLowMagnitude.call", "tensorflow_model_optimization/python/core/clustering/keras/cluster_wrapper.py:ClusterWeights.call", "tensorflow_model_optimization/python/core/quantization/keras/quantize_wrapper.py:QuantizeWrapper.call", "tensorflow_model_optimization/python/core/common/keras/compression/algorithms/periodical_update_and_scheduling.py"]}
{"id": "C108", "title": "Training can be interrupted and resumed from a checkpoint at any point", "statement": "If training is interrupted anywhere, the variables of the optimized model are saved, the model is built again in a new process from other initial weights and the variables are restored, then training and inference go on exactly as without the interruption: same results, weights, masks, steps, centroids and quantization ranges.", "quantifier": "every model and wrapper configuration, every interruption point of every training history, every initial weights of the rebuilt model, every continuation and optimizer", "why_tests_cant": "The interruption points, the histories and the weights of the rebuilt model are unbounded.", "anchors": ["tensorflow_model_optimization/python/core/sparsity/keras/pruning_wrapper.py:PruneLowMagnitude.build", "tensorflow_model_optimization/python/core/sparsity/keras/pruning_wrapper.py:PruneLowMagnitude.get_weights", "tensorflow_model_optimization/python/core/sparsity/keras/pruning_callbacks.py:UpdatePruningStep.on_train_begin", "tensorflow_model_optimization/python/core/clustering/keras/cluster_wrapper.py:ClusterWeights.build", "tensorflow_model_optimization/python/core/quantization/keras/quantize_wrapper.py:QuantizeWrapper.build", "tensorflow_model_optimization/python/core/quantization/keras/collab_opts/prune_preserve/prune_preserve_quantize_registry.py:PrunePreserveDefaultWeightsQuantizer.build"]}
{"id": "C109", "title": "The preserving schemes reach every pruned or clustered layer", "statement": "quantize_apply with Default8BitPrunePreserveQuantizeScheme or Default8BitClusterPreserveQuantizeScheme quantizes the kernel of every annotated Conv2D and Dense layer without an own config with the scheme's preserving quantizer, keeps its weights, rejects annotated layers whose weights it cannot preserve, and accepts layers that are not annotated. [Violated.]", "quantifier": "every Sequential and functional model, every set of annotations, all three preserving registries", "why_tests_cant": "All graphs, annotations and runs of the layout transforms.", "anchors": ["tensorflow_model_optimization/python/core/quantization/keras/collab_opts/prune_preserve/default_8bit_prune_preserve_quantize_scheme.py", "tensorflow_model_optimization/python/core/quantization/keras/collab_opts/cluster_preserve/default_8bit_cluster_preserve_quantize_scheme.py", "tensorflow_model_optimization/python/core/quantization/keras/quantize.py:quantize_apply", "tensorflow_model_optimization/python/core/quantization/keras/default_8bit/default_8bit_transforms.py:ConcatTransform", "tensorflow_model_optimization/python/core/quantization/keras/default_8bit/default_8bit_transforms.py:LayerReLUQuantize"]}
{"id": "C110", "title": "The deterministic random sequence: separate streams, different seeds, independent values", "statement": "The deterministic pseudo-random source behind random_signs_cmwc and random_floats_cmwc runs its parallel streams from pairwise different states; different seeds give different streams, and no value can be predicted from an earlier one.", "quantifier": "every seed, every number of requested values and of parallel streams up to 2^63", "why_tests_cant": "2^64 seeds and arbitrarily many streams: a statement about a polynomial permutation modulo 2^64.", "anchors": ["tensorflow_model_optimization/python/core/internal/tensor_encoding/utils/tf_utils.py:_cmwc_random_sequence"]}
{"id": "C111", "title": "Decorating or adapting an encoding stage does not change what it does", "statement": "An instance of a stage class decorated with tf_style_encoding_stage or tf_style_adaptive_encoding_stage has the attributes of an instance of the class and returns, for every sequence of method calls, what that instance returns; it can be copied; as_adaptive_encoding_stage of any stage has the functionality of the stage.", "quantifier": "every class (with class attributes, constructor, subclassing), every sequence of methods that read, write and delete attributes, every stage", "why_tests_cant": "Quantifies over all user-written stage classes and their methods; tests only decorate a few.", "anchors": ["tensorflow_model_optimization/python/core/internal/tensor_encoding/core/encoding_stage.py:tf_style_encoding_stage", "tensorflow_model_optimization/python/core/internal/tensor_encoding/core/encoding_stage.py:tf_style_adaptive_encoding_stage", "tensorflow_model_optimization/python/core/internal/tensor_encoding/core/encoding_stage.py:NoneStateAdaptiveEncodingStage"]}
{"id": "C112", "title": "One compression algorithm object serves many layers", "statement": "When one WeightCompressor object is used for any number of layers, every layer starts with the training weights the algorithm makes of its own pretrained weights, and after any interleaving of wrapping, calling and training layers has exactly the training weights, and computes with exactly the tensors, that it would have with an algorithm object of its own; update_training_weight changes the training weight whose tensor it is given, the last update counting, and rejects every other tensor; and calling a model for evaluation changes no training weight. [The last part is violated by the periodic SVD.]", "quantifier": "every algorithm (as code that initializes, projects and updates), every number of layers and weights, every history", "why_tests_cant": "The interleavings of builds and calls over a shared mutable object are unbounded; tests wrap one or two layers.", "anchors": ["tensorflow_model_optimization/python/core/common/keras/compression/algorithm.py:WeightCompressor", "tensorflow_model_optimization/python/core/common/keras/compression/internal/optimize.py:_TrainingWrapper", "tensorflow_model_optimization/python/core/common/keras/compression/algorithms/periodical_update_and_scheduling.py:SVD.project_training_weights"]}
{"id": "C113", "title": "Nothing is quantized between layers that are fused", "statement": "In the model quantize_apply returns with the default 8-bit or n-bit scheme, an annotated Conv2D, DepthwiseConv2D or Dense layer with a linear activation whose output goes only to an annotated BatchNormalization or SyncBatchNormalization layer (neither with a config of its own) keeps its class, is wrapped with the default config of its class, and has a NoOpActivation, so its weights are quantized but its output is not; and if the output of the batch normalization goes only to an annotated ReLU or Activation('relu') without a config of its own, the batch normalization is not quantized at all. [Violated for Dense, batch normalization and ReLU.]", "quantifier": "every Sequential or functional model around the layers, every order of the layers in its config, all names, weights and annotations of the other layers, every history of matches in the transform loops", "why_tests_cant": "Whether a fusion happens depends on everything the earlier transforms did to the rest of the graph; tests look at single chains.", "anchors": ["tensorflow_model_optimization/python/core/quantization/keras/default_8bit/default_8bit_transforms.py:Conv2DBatchNormQuantize", "tensorflow_model_optimization/python/core/quantization/keras/default_8bit/default_8bit_transforms.py:Conv2DBatchNormReLUQuantize", "tensorflow_model_optimization/python/core/quantization/keras/default_8bit/default_8bit_transforms.py:DenseBatchNormQuantize", "tensorflow_model_optimization/python/core/quantization/keras/default_8bit/default_8bit_quantize_layout_transform.py:Default8BitQuantizeLayoutTransform.apply", "tensorflow_model_optimization/python/core/quantization/keras/graph_transformations/model_transformer.py:ModelTransformer", "tensorflow_model_optimization/python/core/quantization/keras/quantize.py:quantize_apply"]}
{"id": "C114", "title": "The layers a separable convolution is split into compute what it computed", "statement": "quantize_apply with the default schemes replaces a SeparableConv1D layer by a Lambda that adds an axis, a DepthwiseConv2D, a Conv2D and a Lambda that removes the axis, and a SeparableConv2D layer by a DepthwiseConv2D and a Conv2D. Without fake quantization and rounding, these layers, with the weights and configurations they are given, compute for every input exactly what the separable convolution computed, have its initializers, regularizers, constraints and trainable flag, and a Sequential model, or a functional model without Concatenate, computes what it computed.", "quantifier": "all inputs (sizes, values), weights, kernel sizes, strides, dilation rates, depth multipliers, numbers of filters, 'same' and 'valid' padding, both data formats, with and without bias, all activations that act separately on positions or on channels, every model around the layers", "why_tests_cant": "The replacement rewrites the configuration entry by entry (axis, kernel_size, strides, dilation_rate, bias, activation) and distributes the weights by position; a test runs a few configurations.", "anchors": ["tensorflow_model_optimization/python/core/quantization/keras/default_8bit/default_8bit_transforms.py:SeparableConv1DQuantize", "tensorflow_model_optimization/python/core/quantization/keras/default_8bit/default_8bit_transforms.py:SeparableConvQuantize", "tensorflow_model_optimization/python/core/quantization/keras/default_8bit/default_8bit_quantize_layout_transform.py:Default8BitQuantizeLayoutTransform.apply"]}
{"id": "C115", "title": "Outputs are left unquantized only in front of the layer they are fused with", "statement": "If, in the model that quantize_apply returns with the default schemes, a layer of the original model is wrapped but its output is not quantized (no-op config, output quantizer taken away, or NoOpActivation), then either the layer already had a NoOpActivation, or its output goes into exactly one layer, which is a batch normalization, a ReLU, an Activation('relu'), a Concatenate or the squeeze after a separable convolution, was annotated and is wrapped itself; the output goes nowhere else and is not an output of the model. A concatenation that gives up takes no quantizers away.", "quantifier": "all Sequential and functional models, annotations, user configs, registries, numbers of bits, and everything the graph transformation loops do in whatever number of turns", "why_tests_cant": "Whether a later or earlier transform leaves an output without quantizer that is also used elsewhere depends on the graph around it and the order of the transforms; tests compare a few fixed models.", "anchors": ["tensorflow_model_optimization/python/core/quantization/keras/default_8bit/default_8bit_transforms.py", "tensorflow_model_optimization/python/core/quantization/keras/default_8bit/default_8bit_quantize_layout_transform.py:Default8BitQuantizeLayoutTransform.apply", "tensorflow_model_optimization/python/core/quantization/keras/graph_transformations/model_transformer.py:ModelTransformer.transform", "tensorflow_model_optimization/python/core/quantization/keras/quantize.py:quantize_apply"]}
{"id": "C116", "title": "Compressing a whole model", "statement": "compress_model, optimize_model and get_training_model of every shipped compression algorithm return, for a Sequential or functional model whose layers are built, a model with the same connections and outputs; for every input it computes what the original network computes with every compressible weight replaced by its projection (model for training) or by its decompressed compressed form (model for inference), all other weights being kept. Subclassed and unbuilt models are rejected. The losses that EPR adds sum up to regularization_weight / number of parameters times the penalties of all compressed weights, each counted once. [Violated: layers of other classes lose their trained weights; models cannot be compressed for inference if a layer has a number of weights other than 0 or 2; BiasOnly fails on layers without bias, all algorithms on layers shared between inputs of different shapes, EPR on models with several inputs or Conv1D layers.]", "quantifier": "all Sequential and functional models (layers called several times included), all values of weights, all histories of training between optimizing and compressing, all inputs", "why_tests_cant": "Tests compress a few small models and look at single layers; that the function of a whole network is kept, for every topology and input, is a statement about all models.", "anchors": ["tensorflow_model_optimization/python/core/common/keras/compression/algorithms/same_training_and_inference.py:SVD.compress_model", "tensorflow_model_optimization/python/core/common/keras/compression/algorithms/different_training_and_inference.py:SVD.compress_model", "tensorflow_model_optimization/python/core/common/keras/compression/algorithms/bias_only.py:BiasOnly.compress_model", "tensorflow_model_optimization/python/core/common/keras/compression/algorithms/weight_clustering.py:WeightClustering.compress_model", "tensorflow_model_optimization/python/core/common/keras/compression/algorithms/periodical_update_and_scheduling.py:SVD.optimize_model", "tensorflow_model_optimization/python/core/common/keras/compression/algorithms/epr.py:EPRBase.get_training_model", "tensorflow_model_optimization/python/core/common/keras/compression/internal/optimize.py"]}
{"id": "C117", "title": "Concatenated tensors are quantized once, after the concatenation", "statement": "When the outputs of annotated layers all go into one annotated Concatenate layer and nowhere else, quantize_apply (8-bit and n-bit scheme) does not quantize them before the concatenation, so that they are quantized once, by the config of the Concatenate layer: their configs have no output quantizers, the user's own configs included, and the output of the Concatenate is quantized unless it goes itself into one layer that is fused with it. [Violated: the activations of Conv2D and Dense layers in front of the concatenation are still quantized; nothing is done for concatenations of more than six inputs, or if one of the inputs is not supported (batch normalizations) or is used elsewhere.]", "quantifier": "all functional models, all positions of the concatenation in them, all classes and configs of the layers, both schemes, all orders in which the transforms fire", "why_tests_cant": "Tests concatenate the outputs of two or four layers of one model; that no other transform restores an output quantizer, in any model and any order of matches, is a statement about all runs of the model transformer.", "anchors": ["tensorflow_model_optimization/python/core/quantization/keras/default_8bit/default_8bit_transforms.py:ConcatTransform.replacement", "tensorflow_model_optimization/python/core/quantization/keras/default_8bit/default_8bit_transforms.py:ConcatTransform._disable_output_quantize", "tensorflow_model_optimization/python/core/quantization/keras/experimental/default_n_bit/default_n_bit_transforms.py:ConcatTransform.replacement", "tensorflow_model_optimization/python/core/quantization/keras/quantize.py:quantize_apply"]}
{"id": "C118", "title": "Clustering on several replicas", "statement": "When a clustered layer is trained under a distribution strategy that mirrors its variables, then after every history of forward passes and optimizer steps, and for every interleaving of the replicas' threads, all replicas have exactly the weights, centroids and cluster indices a single device would have after the same optimizer steps; in every forward pass each replica computes with the weights the single device would compute with, although the replicas share the layer object whose attributes they overwrite; and strip_clustering returns the same weights, from whichever replica the variables are read.", "quantifier": "all numbers of replicas, all interleavings of their threads, all layers with any number of clusterable weights and sublayers, all values and all histories", "why_tests_cant": "The test trains one model under MirroredStrategy on one device; races between threads that set attributes of one shared Python object show only in particular schedules.", "anchors": ["tensorflow_model_optimization/python/core/clustering/keras/cluster_wrapper.py:ClusterWeights.build", "tensorflow_model_optimization/python/core/clustering/keras/cluster_wrapper.py:ClusterWeights.update_clustered_weights_associations", "tensorflow_model_optimization/python/core/clustering/keras/cluster_wrapper.py:ClusterWeights.call", "tensorflow_model_optimization/python/core/clustering/keras/cluster_wrapper.py:ClusterWeights.set_weight_to_layer", "tensorflow_model_optimization/python/core/clustering/keras/cluster.py:strip_clustering"]}
{"id": "C119", "title": "Layers that bring their own clustering algorithm", "statement": "If a ClusterableLayer returns an algorithm for a weight, then in every forward pass, after any history of training and loading, the layer computes with the centroids that this algorithm chooses for the current weights and the current centroids; weights for which it returns none are put to a nearest centroid; strip_clustering returns these values. Whatever the algorithm does, a weight takes at most number_of_clusters different values, and a forward pass fails if the algorithm does not return one index of a centroid per entry. With sparsity preservation zeros stay zero. [Violated: zeros do not stay zero if the algorithm does not put zeros to the zero centroid; the algorithm of layers derived from Conv2D is ignored with cluster_per_channel.]", "quantifier": "all algorithms (functions of the whole weight tensor and the centroids), all layers with any number of weights, all values, all histories of forward passes, optimizer steps and loading", "why_tests_cant": "The tests use two fixed algorithms on one layer and check the number of unique values; the choice of the algorithm ranges over arbitrary user code.", "anchors": ["tensorflow_model_optimization/python/core/clustering/keras/clusterable_layer.py:ClusterableLayer.get_clusterable_algorithm", "tensorflow_model_optimization/python/core/clustering/keras/clustering_registry.py:ClusteringLookupRegistry.get_clustering_impl", "tensorflow_model_optimization/python/core/clustering/keras/cluster_wrapper.py:ClusterWeights.build", "tensorflow_model_optimization/python/core/clustering/keras/cluster_wrapper.py:ClusterWeights.update_clustered_weights_associations", "tensorflow_model_optimization/python/core/clustering/keras/clustering_algorithm.py:ClusteringAlgorithm.get_clustered_weight"]}
{"id": "C120", "title": "Quantization ranges on several replicas reflect what all replicas see", "statement": "When a quantization-aware model is trained on several replicas (MirroredStrategy), the ranges of its quantizers, and hence the saved model, reflect the data of all replicas: ranges of weights are those of the weights, the same on all replicas, as if trained on one device; moving averages are the same on all replicas, contain zero, move by a thousandth towards the mean of the replicas' ranges and stay within what all replicas have seen; AllValues ranges (model inputs) contain every value any replica has seen. [Violated for AllValues and for LastValue on data: the saved range is that of the primary replica, which never hears of the others' values.]", "quantifier": "all numbers of replicas, all histories of training calls, inference calls, saving and loading, all tensors on each replica, all bit widths", "why_tests_cant": "The tests run quantization with a distribution strategy on one step and check only that it runs; what ranges look like after a history on several replicas is never compared.", "anchors": ["tensorflow_model_optimization/python/core/quantization/keras/quant_ops.py:AllValuesQuantize", "tensorflow_model_optimization/python/core/quantization/keras/quant_ops.py:LastValueQuantize", "tensorflow_model_optimization/python/core/quantization/keras/quant_ops.py:MovingAvgQuantize", "tensorflow_model_optimization/python/core/quantization/keras/quantizers.py:_QuantizeHelper._add_range_weights", "tensorflow_model_optimization/python/core/quantization/keras/default_8bit/default_8bit_transforms.py:InputLayerQuantize"]}
{"id": "C121", "title": "Quantization works on a copy, pruning on the layers themselves", "statement": "quantize_model and quantize_apply change no variable of any model that exists, and the model they return has only new variables: it preserves the original weights, training it does not modify the weights of the original model (or any other), and training the original does not modify the quantized model. prune_low_magnitude in contrast keeps the layers: training the pruned model trains the original's own weights, its masks and thresholds are new variables, and strip_pruning gives back the original's layers, so that original and stripped model have the same weights after any training.", "quantifier": "all models of built layers, annotated or not, all weights, all training histories (sequences of assignments), all layout transforms and choices of quantized or pruned layers", "why_tests_cant": "The tests compare predictions of one small quantized model with the original's right after the call; that no training, however long, of either model can reach the other's variables is a statement about all histories.", "anchors": ["tensorflow_model_optimization/python/core/quantization/keras/quantize.py:quantize_model", "tensorflow_model_optimization/python/core/quantization/keras/quantize.py:quantize_apply", "tensorflow_model_optimization/python/core/quantization/keras/quantize.py:quantize_annotate_model", "tensorflow_model_optimization/python/core/quantization/keras/graph_transformations/model_transformer.py:ModelTransformer.transform", "tensorflow_model_optimization/python/core/sparsity/keras/prune.py:prune_low_magnitude", "tensorflow_model_optimization/python/core/sparsity/keras/prune.py:strip_pruning"]}
