# Formal model of tensorflow/model-optimization in Lean 4

All paths below are relative to `/repo/tensorflow_model_optimization/python/core/`.

## 1. Method

*Shallow embedding.* Each Python function of the modelled fragment is written as a Lean function
that follows it branch by branch.  A raised exception / failed `tf.assert` is a value (`Except`
with an error enumeration, or `none`).  Mutable state (Keras variables, `self.*`) is an explicit
state record; a method that mutates is a state transformer; a training history is a `List` of
events folded over the initial state.  Properties about histories are proved by induction on that
list (an invariant), properties about recursive structures (nested models, encoder trees,
layer graphs) by structural induction, numerical ones by algebra.  Nothing is bounded.

*Layout.* `lean/Verif/<Area>/<Topic>.lean` holds the model (every definition cites file and
lines), `.../<Topic>Lemmas.lean` (or a `namespace Aux` section) helper lemmas, and
`lean/Verif/Props/*.lean` the property theorems, each next to its `Spec` definitions and to an
`example` showing that a concrete non-trivial case meets its hypotheses.

*Findings.*  Where the English property is false of the code, the property is kept as is in
`properties.jsonl` (with a bracketed remark), the model follows the code, a theorem named
`..._violated` exhibits the counterexample inside the model, and the strongest true part is
proved under the suffix `_partial`.

## 2. Trusted base

1. Lean 4.33.0's kernel, and Mathlib's definitions (ℚ, ℝ, ℤ, lists, finite sets).  Axioms:
   at most `propext`, `Classical.choice`, `Quot.sound` (Lean's three standard axioms); no axiom of
   our own, no `native_decide`, no `bv_decide`, no admitted goal.
2. The correspondence between the Python text and the Lean definitions, checked by reading.
   Each definition cites the lines it models.
3. *Numbers.* float32 is idealised as an exact ordered field: ℚ (executable) or ℝ (where square
   roots occur), so rounding error, overflow, NaN and infinities are outside the model.  The exception
   are the modules in `Floats/`: there the central formulas (schedule, mask, uniform and fake
   quantization, range tracking) are repeated with a rounding after every operation, for every
   rounding that is monotone, odd, idempotent and exact on integers up to 2^24; `Example.ieee`
   proves that round-to-nearest-even to p ≥ 24 binary digits is one (overflow and underflow stay
   outside).  The theorems `Cnn_float*` are about these.  A
   division that would be 0/0 is an explicit `none`.  Integers are unbounded ℤ/ℕ except in
   the bit-packing model, where the bound of the words is itself a theorem.
4. *TensorFlow/Keras primitives* used by the code are modelled by their documented meaning:
   `top_k` (descending, ties by lower index), `argmin` (first minimum), `round` (half to even),
   `floormod`, `gather`, `unsorted_segment_sum`, `divide_no_nan`, `one_hot`, `linspace`,
   `fake_quant_with_min_max_*` (nudged range), `assign_moving_average`, SAME pooling,
   `clone_model` (maps the clone function over layers), Python `re.match` on alternations of
   literals.  These library functions are trusted to behave as modelled; their models are in
   `lean/Verif/Prelude.lean` or next to their use.
5. Random draws (stochastic rounding, random signs, seeds) are universally quantified inputs.
6. *Contracts of external code* that appear as hypotheses or as parameters of the model:
   `tf.linalg.svd` returns an orthogonal factorisation in descending order (`IsSvd` in
   `Compression/Algorithms.lean`); the entropy coder of `tensorflow_compression` is lossless;
   Keras' `__setattr__` tracking, `trainable_weights` and `_dedup_weights`
   (`Quant/Trainable.lean`); `kmeans++`; a user-defined quantizer that raises leaves its variables
   unchanged, a user-defined `QuantizeConfig` keeps the contract `Spec.Lawful` (proved for all
   shipped configs).  A wrapped Keras layer is an arbitrary program over its weights, activations
   and inputs (`LayerFn` in `Quant/Wrapper.lean`).

## 3. What is modelled / not modelled

| Lean module (`lean/Verif/`) | Python (`/repo/.../python/core/`) |
|---|---|
| `Prelude` | TensorFlow primitives (top_k, argmin, round, pooling, ...) |
| `Sparsity/Schedule` | `sparsity/keras/pruning_schedule.py` |
| `Sparsity/Mask`, `Block`, `MByN` | `sparsity/keras/pruning_impl.py`, `pruning_utils.py`, `tools/check_sparsity_m_by_n.py` |
| `Sparsity/Wrapper` | `sparsity/keras/pruning_wrapper.py`, `pruning_callbacks.py` |
| `Sparsity/Prune`, `Registry`, `Policy` | `sparsity/keras/prune.py`, `prune_registry.py`, `pruning_policy.py` |
| `Clustering/*` | `clustering/keras/cluster.py`, `clustering_algorithm.py`, `clustering_centroids.py`, `cluster_wrapper.py`, `clustering_registry.py`, `cluster_config.py` |
| `Clustering/Objects`, `Config` | the same wrapper at the level of attributes and sublayers (RNN, bidirectional, attention); its config |
| `WrapperCalls` | the arguments with which the pruning, quantization and clustering wrappers call the wrapped layer |
| `Encoding/Encoder`, `Composer`, `Dict`, `Misc` | `internal/tensor_encoding/core/*`, `encoders/*`, `utils/py_utils.py`, `stages/research/*` |
| `Encoding/Hadamard`, `Uniform`, `BitPack` | `internal/tensor_encoding/stages/stages_impl.py`, `utils/tf_utils.py`, `stages/research/*` |
| `Quant/Ops` | `quantization/keras/quantizers.py`, `quant_ops.py` |
| `Quant/Preserve`, `PreserveRegistry` | `quantization/keras/collab_opts/**` |
| `Quant/Regex`, `Transformer` | `quantization/keras/graph_transformations/*` |
| `Quant/Transforms8Bit` | `quantization/keras/default_8bit/default_8bit_transforms.py`, `..._quantize_layout_transform.py` and their `experimental/default_n_bit` counterparts (one model, the numbers of bits are a parameter; so C54, C57, C58, C76, C77 cover both schemes) |
| `Quant/SchemeConfig` | `default_8bit_quantize_scheme.py`, `default_n_bit_quantize_scheme.py`: which registry and which config object a layer gets, and what `get_config` saves of it |
| `Quant/Apply` | `quantization/keras/quantize.py`, `quantize_annotate.py` |
| `Quant/Config` | `default_8bit_quantize_registry.py`, `experimental/default_n_bit/default_n_bit_quantize_registry.py`, `quantize_config.py`, `quantizers.py` (equality) |
| `Quant/Wrapper`, `Trainable` | `quantize_wrapper.py`, `quantize_layer.py`, `quantize_aware_activation.py`, `quantize_config.py` |
| `Quant/Serialize` | `get_config`/`from_config` of quantizers, configs, wrappers; `quantize_scope`; Keras legacy serialization |
| `Encoding/Paths` | `utils/py_utils.py` (joined paths), the flat dictionaries of `core/simple_encoder.py` and `core/gather_encoder.py` |
| `Encoding/Stages`, `Gather` | the five shipped stages on tensors, `encoders/common_encoders.py`, `core/gather_encoder.py` |
| `Quant/FixRange` | `fix_input_output_range`, `remove_input_range` on serialized models |
| `Compression/*` | `common/keras/compression/algorithms/*`, `schedules.py`, `internal/optimize.py` |
| `Keras/Names` | `keras/compat.py` (`unique_object_name`) |
| `Pipeline` | one kernel through `strip_pruning`, `cluster_weights` / `strip_clustering` and the preserving quantizers |
| `Sparsity/Distributed` | the distribution-strategy branches of `sparsity/keras/pruning_impl.py`, with the wrapper and callback |
| `Sparsity/Benchmark` | `sparsity/keras/tools/sparsity_tooling.py` |
| `Sparsity/Summaries` | `sparsity/keras/pruning_callbacks.py` 82-141 |
| `Clustering/Summaries` | `clustering/keras/clustering_callbacks.py` |
| `Compression/EprConv` | `common/keras/compression/algorithms/epr.py` for convolution kernels: real FFT, quantization, `uint16`/`float16` storage |
| `Sparsity/Estimator` | `sparsity/keras/estimator_utils.py` |
| `Floats/Rounding` | IEEE 754 rounding (platform) |
| `Floats/Pruning` | `sparsity/keras/pruning_impl.py` 71-124, `pruning_schedule.py` 222-246, with rounding |
| `Floats/Uniform` | `internal/tensor_encoding/stages/stages_impl.py` 339-398, with rounding |
| `Floats/Quant` | `quantization/keras/quant_ops.py` 85-106, 184-202, 281-301 and TensorFlow's fake quantization kernel, with rounding |
| `Floats/Clustering` | `clustering/keras/clustering_algorithm.py` 94-194, `cluster_wrapper.py` 166-326, with rounding |
| `Floats/Random` | `internal/tensor_encoding/utils/tf_utils.py` 278-284 (the cast of the values) |
| `Compression/Attributes` | `common/keras/compression/internal/optimize.py` 43-247, 385-392: what the wrappers do to the layer's attributes |
| `Metrics` | `keras/metrics.py` |
| `Checkpoint` | which attributes of the wrappers are variables: `pruning_wrapper.py` 227-283, 370-396; `cluster_wrapper.py` 183-275; `quantize_wrapper.py` 103-136 |
| `Quant/CollabScheme` | `collab_opts/*/default_8bit_*_preserve_quantize_scheme.py` with `quantize.py` 289-500 |
| `Encoding/Decorators` | `core/encoding_stage.py` decorators, `NoneStateAdaptiveEncodingStage`; not the name scopes and tensor conversion of the decorated methods, nor data descriptors |
| `Compression/Shared` | `algorithm.py` (`add_training_weight`, `init_update_ops`, `update_training_weight`), `optimize.py` build / call / map of `_TrainingWrapper` over a shared algorithm, `init`/`project` of the periodic SVD; eager mode, no dtypes and shapes |
| `Props/FusedGraph`, `FusedMatch`, `FusedLoop`, `FusedPhases`, `FusedSteps`, `FusedRun`, `FusedTransforms`, `Fused` | proofs of C113 (no new model code) |
| `Props/Separable` | specification of the convolution layers, proofs of C114 (no new model code) |
| `Props/TransformerExhausted` | proofs of C58_changes_applied, C58_exhausted (no new model code) |
| `Props/OnlyFusedGraph`, `OnlyFusedSteps`, `OnlyFusedRun`, `OnlyFused` | proofs of C115 (no new model code) |
| `Compression/Whole` | whole-model functions of the compression algorithms (bias_only.py, same/different_training_and_inference.py, weight_clustering.py, periodical_update_and_scheduling.py, epr.py 89-95, 166-198); Keras' clone_model and the execution of a model are modelled as described there |
| `Props/ConcatGraph`, `ConcatSteps`, `Concat` | C117 |
| `Clustering/Distributed` | cluster_wrapper.py 183-332 on several replicas (MirroredStrategy); the semantics of mirrored and ON_READ variables is assumed as stated there |
| `Clustering/Custom` | clusterable_layer.py 24-66, clustering_registry.py 28-58, cluster_wrapper.py 183-332 with arbitrary `get_pulling_indices`; not: overriding other methods of `ClusteringAlgorithm` |
| `Quant/Distributed` | quant_ops.py 48-309 and quantizers.py 131-351 under a mirrored strategy (TensorFlow's assignment semantics as documented there); not: parameter servers, TPU |
| `Sharing` | quantize.py 83-230, 379-501, model_transformer.py 569-636, prune.py 174-262 at the level of variables; the layout transforms are an arbitrary function of names and weights; not: optimizers, nested models |

Not modelled: TensorFlow graph/session mechanics, distribution other than mirrored pruning, dtype and static-shape inference
(except where the code branches on it), `.h5`/SavedModel I/O, TFLite conversion,
the `tensorflow_compression` entropy coder, the SVD algorithm itself, k-means++ (external
op), the benchmarks, the example scripts and the tests.

## 4. Per-property plan

| id | modelled | proof |
|----|----------|-------|
| C01 | `_should_prune_in_step`, both `__call__`s | arithmetic on ℤ |
| C02 | `_validate_step`, `_validate_sparsity`, constructors as `Except` | case analysis (iff) |
| C03 | `PolynomialDecay.__call__` over ℚ | monotone `pow`, `min/max` |
| C04 | same, 0/0 = `none` | partial (begin<end) + violation at begin=end |
| C05, C06 | `_update_mask` on lists | order statistics of sorted lists |
| C07 | pooling, Kronecker/expand, slicing on matrices | index arithmetic + C05 |
| C08 | `generate_m_by_n_mask`, `is_pruned_m_by_n` | per-block top-k lemma |
| C09 | `weights_rearrange`, `mask_prepare` index maps | index bijection |
| C10–C13 | wrapper state machine with events | invariants over event lists |
| C14, C16 | nested model trees | structural induction |
| C15 | config dictionaries | partial + violation |
| C17 | layer graph, worklist with arbitrary pop order | partial + violation |
| C18 | registry tables, RNN cells | case analysis / induction |
| C19 | zero fraction | list counting |
| C20, C21, C22, C28 | assignment, wrapper histories | argmin lemma, invariants |
| C23–C25 | centroid initialisers | list algebra |
| C26 | custom gradients | finite sums |
| C27 | insert-at-position fold | list induction; violation for descending positions |
| C29, C30 | validation / enough-weights | case analysis, violation |
| C31, C32 | `_pack_*`, `_unpack_*` | positional-notation induction; `omega` |
| C33, C34 | FWHT by levels | induction on levels |
| C35, C36 | uniform quantization stages | floor arithmetic, sums |
| C37–C39 | encoder trees | mutual structural induction |
| C40 | composer call histories | invariant |
| C41 | nested dictionaries | structural induction |
| C42 | fold | induction on rounds |
| C43–C46 | research stages | list induction |
| C47 | CMWC step | modular arithmetic |
| C48, C49 | quantizer range state machine | invariants |
| C50, C51 | fake quant with nudging | floor/round arithmetic |
| C52, C53 | preserving quantizers | invariants; violation for shared quantizer |
| C54–C58 | annotate/apply/transformer | graph maps, termination measure |
| C59–C61 | registries, equality, activation sets | state machine, violation |
| C62, C63 | schedulers | arithmetic |
| C64 | index walk | partial + violation |
| C65 | composition with C20 | |
| C66 | counter map | invariant |
| C67–C69 | clustering scope, registry | tables, case analysis; violations |
| C70 | stochastic rounding as a function of the uniform draw | integral over the draw (Mathlib interval integrals) |
| C71 | research quantization stages | floor arithmetic per channel |
| C72–C74 | quantizer kinds, per-axis shapes | invariants, totality |
| C75 | preserving registries | case analysis over all classes |
| C76–C77 | graph semantics (`GraphSemantics`), float function of transformed models | simulation between run relations |
| C78–C80 | SVD, EPR, BiasOnly | linear algebra on lists, arithmetic; for EPR of convolution kernels the discrete Fourier transform over ℂ, its inversion and a bound on the error |
| C81 | getters/setters of configs on layers with cells | list induction |
| C82 | registry tables | case analysis |
| C83 | wrapper over arbitrary layer programs | refinement to a pure specification over histories |
| C84 | Keras weight tracking | invariants; violations |
| C85 | strip by substring | list filtering |
| C86 | Python objects, dictionaries (mutated in place), Keras' legacy (de)serialization, constructors with keyword arguments | induction over nested objects; inductive invariant `Good` for repeated loads |
| C87 | serialized models (nested node data), `from_config` of every layer | refinement: relation `Rel` between stored and live layers, preserved by each edit |
| C88 | tensors with type, shape and entries; the shipped stages and the composed encoders | sending a tensor through the stages (C37), error bounds of C35, norm preservation of C33/C34 |
| C89 | the functions made by `GatherEncoder.from_encoder`, over encoders indexed by the random draws of each machine | a contract for stages (structure, types and shapes do not depend on values or draws; declared commutation holds), induction over the tree, C38; the contract for each shipped stage |
| C90 | `flatten_with_joined_string_paths`, `tf.nest.flatten`, `pack_sequence_as` with sorted keys on nested dictionaries | joined paths are in the order of the flattened structure if all characters come after `/` |
| C93 | checks of `GatherEncoder`, `pack_sequence_as` | induction over nested values and trees of stages |
| C91, C92 | the schemes' registries and configs on the results of `quantize_apply` (8-bit and n-bit) | invariant of the transform loops for any property of configs closed under what the transforms do, then C59/C82 |
| C94 | layers as attributes of sublayers holding variables or tensors, Keras' tracking of variables | invariant over histories, C27 for the insertion of weights |
| C95 | config dictionaries | computation on symbolic dictionaries, C29 |
| C96 | signatures and calls | case analysis; violations |
| C97 | one kernel handed from tool to tool (`Pipeline`) | composition of C10, C22/C24, C21, C52, C53 |
| C98 | per-replica copies of all pruning variables, `merge_call`, MEAN reduction (`Sparsity/Distributed`) | refinement to the single-device state machine of C10-C13; invariant "copies agree but for the weights" |
| C99 | `Sparsity/Wrapper` with `Sparsity/Mask`, `Block`, `MByN` | composition of the mask theorems (C05-C09) with the history theorems (C10-C13); row-major layout proved to be a bijection |
| C100 | `StepIndependentConstantSparsity`, `_apply_pruning`, `prune_for_benchmark` (`Sparsity/Benchmark`) | exact characterization of the survivors from C05/C06; idempotence by monotonicity of the counts |
| C101 | `PruningSummaries.on_epoch_begin` (`Sparsity/Summaries`) | dictionary insertion lemmas; sum of a 0/1 mask |
| C102 | `ClusteringSummaries` and the Keras loop (`Clustering/Summaries`) | induction over batches and epochs |
| C103 | `PruningEstimatorSpec` (`Sparsity/Estimator`): the operations of a training step in any order | locality of operations, then case analysis of the possible orders of the writes of the step; invariants over all schedules |
| C104 | `_update_mask` in rounded arithmetic (`Floats/Pruning`) | the number of weights to keep is at most n because rounding is monotone and exact on n; counterexample by computing the rounding of n |
| C105 | attribute substitution of the compression wrappers (`Compression/Attributes`) | frame lemmas for attribute dictionaries; induction over calls |
| C106 | `MonitorBoolGauge` (`Metrics`) | case analysis; induction over histories |
| C107 | the models of the three wrappers and of the periodic SVD | idempotence of masking and of the cluster update; purity of quantizers in inference lifted through C83's refinement; counterexamples |
| C108 | saving and restoring variables (`Checkpoint`) on the wrapper models | the saved values determine the state up to what `build` fixes; simulation of the two runs by induction; counterexamples |
| C109 | `quantize_apply` with the preserving registries (`Quant/CollabScheme`) | the invariant of the layout transforms (C54, C91) restated for any registry; C75 for the registry; counterexamples |
| C110 | the seed recurrence of the CMWC generator (`Encoding/Misc`) | v^7+v^6+1 moves odd numbers by an odd multiple of 2^(k+1) in 2^k rounds (induction on k), so its order on odd residues is 2^63; bit arithmetic of two consecutive writes |
| C111 | Python attribute access on instances of decorated classes, methods as programs over attributes (`Encoding/Decorators`) | the attributes agree initially; induction on programs; counterexamples, divergence by induction on the stack |
| C112 | the attributes of the algorithm object, variables and tensors by identity (`Compression/Shared`) | refinement to layers that have their own values; invariant: all variables distinct |
| C113 | the existing models of `quantize_apply`, the transformer and the transforms | invariant of the loop with two phases (the layers linked, linear and without configs; then fused); every pattern of the transform list classified by where it can touch the layers; the loop cannot pass the fusing transform without a match |
| C114 | specification of the Keras convolutions by sums, parametrised by configuration entries; the existing models of the two replacements | on an image of one row 2-D convolution is 1-D; a 1x1 convolution is a product at every pixel; then C77 |
| C115 | the existing model of the loops, transforms and quantize_apply | invariant of the loops: a layer without output quantizer has one consumer, which absorbs; kept by every replacement because matches end where outputs are shared |
| C116 | `Compression/Whole.lean`: models as layers and calls, Keras' clone_model, get_compressible_weights of the six algorithms, compress_model / optimize_model / get_training_model, what a model computes | the one-layer theorems (C64, C105) lifted to every layer, then induction over the calls |
| C117 | `Transforms8Bit.lean` (feed, feeds, disableOutput, replaceConcat), run of the model transformer inside `quantize_apply` | invariant over the whole run: the concatenation keeps its inputs (ConcatGraph), no transform gives back an output quantizer (ConcatSteps), and a run cannot end while the pattern still matches (Concat) |
| C118 | `Clustering/Distributed.lean`: copies of the variables by replica, one shared layer object, schedules as lists of replica numbers | invariant of the middle of a forward pass (which attributes have been set, by whoever), then induction over the history with the single-device model of C94 |
| C119 | `Clustering/Custom.lean`: the lookup of the algorithm, wrapper variables with an arbitrary function for get_pulling_indices, exceptions as values | invariant of what build fixes (names, algorithms, shapes, masks), induction over the history; counterexamples for sparsity and Conv2D |
| C120 | `Quant/Distributed.lean`: copies of the range variables by replica, assignment without aggregation, mean reduction of assign_moving_average, saving and loading, on top of the quantizers of `Quant/Ops` | simulation by one device (same data; own share), invariants by induction over the history; counterexamples by induction over the number of steps |
| C121 | `Sharing.lean`: layer objects with variables in one store; cloning from config, setting weights, unwrapping, rebuilding, quantizer and pruning wrappers | every stage extends the store (prefix invariant); ranges of new variables by induction over the layers; training as any list of assignments |

## 5. Findings: where the code does not do what the property says

Each is a theorem `Cnn_..._violated` (or part of a `_partial` theorem's hypotheses) unless marked
(reading only).

* **C04** `PolynomialDecay(begin_step=end_step)` divides 0 by 0 when the step is reached.
* **C07** block masks of ragged matrices, and matrices with a single block row, do not remove the
  promised number of blocks.
* **C12** a training call that fails because the step callback is missing has already advanced the
  step, so a retry succeeds; `on_train_begin` inspects only the first layer.
* **C15** `sparsity_m_by_n` is missing from the config, custom schedules cannot be rebuilt.
* **C17** whether a model is accepted depends on set order when a layer is consumed outside the
  model; the end layer is not checked for `keepdims`.
* **C18** (reading only) the pruning registry lists `Rescaling.__class__`, that is `type`, so
  `Rescaling` is rejected.
* **C21** `sign(w + 1e6)` flips for weights below -1e6.  **C24** per-channel clustering with
  `preserve_sparsity` and an all-zero channel cannot be stacked.  **C25** the interpolation of
  density-based centroids never changes the picked grid point.
* **C27** clusterable weights at unordered positions are permuted when stripping.
* **C28/C30** `channels_first` slices the kernel width; bias-less convolutions are never clustered
  per channel; dense layers are never size-checked.  **C68/C69** `cluster_scope` lacks RNN and MHA
  wrappers; the registry accepts bare cells and `Bidirectional` with stacked cells and fails later.
* **C31** packers do not trim when the static size is unknown.  **C34** a draw of exactly 0.5 gives
  the random sign 0.  **C39** `GatherEncoder.fully_commutes_with_sum` looks only at the root.
* **C51** `FixedQuantizer` ignores `num_bits`.  **C74** `MovingAverageQuantizer(per_axis=True)`
  fails on every call; `LastValueQuantizer(per_axis=True)` fails for rank 3 and rank 5 and above.
* **C82** a recurrent layer with an `Activation` among its cells is "supported", but
  `get_quantize_config` raises an `AttributeError`.
* **C53** one layer without zeros switches sparsity preservation off for every layer sharing the
  quantizer; a channel without zeros loses its smallest cluster at the first training call.
* **C54/C57** the `LayerReLU` transforms overwrite custom configs and drop the weight quantization of
  a convolution before a ReLU layer; `ConcatTransform` switches off output quantizers of custom
  configs; `DenseBatchNorm` runs before `DenseBatchNormReLU` and so leaves a fake-quant in between.
* **C56** alternatives of a layer pattern are not grouped, so all but the last match by prefix.
* **C77** call arguments and tensor indices of inner layers of a match are reset; the operands of
  `Concatenate` are permuted to configuration order.
* **C59** n-bit registries share class-level bit widths: the last constructed registry wins.
  **C60** `activation_attrs` are compared with themselves; the transposed-convolution quantizer
  equals the plain one but fails on matrices.  **C81** setters are not atomic.
* **C61** the documentation says softmax is quantized before and after, the code only before.
* **C64** layers without compressible weights lose their pretrained weights; EPR with `Conv1D`
  fails; inference layers exist only for layers with 0 or 2 weights; compressing only the bias swaps
  bias and kernel.  **C79** EPR stores shapes as uint16 and log-steps as float16.
* **C66** one- and zero-based numbering collide; `avoid_observed_names` is a `NameError`.
* **C75** frozen layers get the non-preserving quantizer while **C84** their kernel is still trained;
  `trainable = False` has no effect on quantized weights.  **C85** layers named `...depthwise...` are
  not stripped.
* **C86** the weight quantizers of convolutions cannot be rebuilt from their config;
  `FixedQuantizeConfig.from_config` changes the dictionary it is given, so a model config can be
  loaded only once; configs from the preserving registries load with the ordinary quantizer, so a
  saved and reloaded model no longer preserves sparsity or clusters.
* **C87** `fix_input_output_range` fails (`TypeError`) if an input feeds a layer that is not quantized,
  (`IndexError`) for one-layer Sequential models, initialises all weights anew, and silently leaves
  output layers without quantize config alone.
* **C90** encodings are rebuilt in the order of their sorted joined paths: stage keys with characters
  before `/` exchange tensors silently, keys with `/` collide.
* **C91** `ConcatTransform` makes its registry without `disable_per_axis`, so the convolutions in front of
  an annotated `Concatenate` are quantized per axis although the scheme says not to.
* **C92** the n-bit `ConcatTransform` switches output quantizers off only in the object, not in what is
  saved: a saved and loaded model quantizes again in front of the concatenation.
* **C94** `ClusterWeightsMHA.strip_clustering` sets an attribute with a dotted name on the attention layer
  instead of the kernel of its sublayer: the kernels of the stripped layer are constants that neither
  training nor `set_weights` changes, and its weights come in another order.
* **C96** `ClusterWeights.call` takes `training` and drops it, so a clustered dropout, batch normalisation
  or RNN layer always runs in the global learning phase; the other wrappers do not see keyword-only
  `training` arguments.
* **C15 (benchmark tool).** A model pruned by `prune_for_benchmark` cannot be deserialized within `prune_scope`: `PruneLowMagnitude.from_config` knows only `ConstantSparsity` and `PolynomialDecay` (`C15_benchmark_violated`).
* **C101.** All masks of one wrapper are created with the same name, so in eager mode `PruningSummaries` writes only the sparsity of the last prunable weight of a wrapper (e.g. of an LSTM) (`C101_lstm_violated`).
* **C102.** `ClusteringSummaries` fails with an `AssertionError` in the first epoch of at least 2k steps if the model is compiled with `steps_per_execution = k >= 2` (`C102_steps_per_execution_violated`); the frequency 0 and unknown strings are accepted by the constructor and fail at the first batch (`C102_settings`).
* **C103.** `PruningEstimatorSpec` increments the pruning step in addition to the wrapper, so it advances by two per training step (or by one if the two increments race); the check of the step is not ordered after the increment, so the first step can fail; and nothing masks the weights after the last optimizer update (`C103_step_violated`, `C103_first_step_violated`, `C103_sparsity_violated`).
* **C104.** The number of weights to keep is computed in float32.  For a tensor with 2^24 < n < 2^25, n ≡ 3 mod 4 entries at sparsity 0 it is n + 1, and the gather of the threshold is out of range (`C104_violated`).
* **C73.** In float32 the moving average stalls: the step (old - new) / 1000 is rounded away once the batch's range is within about 1000 half-ulps of the tracked one; e.g. batches ending at 6 - 2^-13 never move the initial 6 (`C73_float_stall`).  Harmless in practice; the range does stay in the hull (`C73_float_hull`).
* **C105.** The inference wrapper of a compressed layer sets the attribute with the weight's *name*: a layer that stores the weight in another attribute computes with zeros at inference, silently (`C105_inference_violated`). In the training wrapper a stale local variable after an `AttributeError` makes it set a property such as `output`, so every call fails (`C105_stale_violated`); so does any property returning the weight (`C105_alias_violated`); two weights with one name collide (`C105_twice_violated`).
* **C107.** An evaluation between two pruning steps zeroes the pruned weights, so the next mask update can decide differently (`C107_pruning_violated`; not with validation in `fit`, where `on_epoch_end` has masked already). With the periodic SVD every forward pass counts as a step, also in evaluation, and can truncate the weight (`C107_svd_violated`).
* **C108.** The sparsity masks of clustering with `preserve_sparsity` and of sparsity-preserving quantization are plain tensors computed by `build` from the initial weights, and not part of a checkpoint. A model rebuilt from code with fresh weights and restored computes other outputs at once, and pruned weights come back (`C108_clustering_violated`, `C108_prune_preserve_violated`). `get_weights`/`set_weights` of a pruned layer drop masks, thresholds and step (`C108_get_weights_violated`). With cluster-preserving quantization the number of centroids is that of the distinct values of the kernel at `build`, so saved variables cannot be restored into a model built from fresh weights, or from the trained weights after clusters have merged (`C108_cluster_preserve_violated`).
* **C109.** With the sparsity- and cluster-preserving schemes, a `Dense`/`Conv2D` layer that feeds a `Concatenate` is quantized with the ordinary quantizer (the layout transform asks the *default* registry), so its sparsity or clusters are lost without a warning (`C109_concat_violated`); before a `ReLU` layer it is not quantized at all (`C109_relu_violated`). A layer that is *not* annotated, has no weights and is of a class the registry does not know (e.g. `Lambda`) and whose output feeds an annotated layer makes `quantize_apply` raise ValueError, while the default scheme leaves it alone (`C109_unannotated_violated`).
* **C47.** `random_floats_cmwc` documents values in [0, 1), but the cast to `float32` (the default) rounds values from 1 - 2^-25 on to 1; a seed that does it for the first value is in `C47_float32_violated`.  With `float64` the range is right (`C47_float64`).
* **C110.** Seeds of `_cmwc_random_sequence` collide: every multiple of 2048 (so also 0) gives the same sequence, because `val**7 + val**6` vanishes modulo 2^64 (`C110_seeds_violated`).  `f += right_shift(f, 53)` keeps the low bits that were already used (the reference algorithm shifts them out), so when one step separates two values, the later one is `frac(2^32 v)` of the earlier one up to 2^-11; this is the case for the third value of every stream (`C110_predictable_violated`).
* **C111.** A decorated stage delegates attribute reads to a wrapped instance only if the normal lookup fails. So a class attribute used as a default hides the value set by the constructor (`C111_default_violated`); attributes set by the constructor cannot be deleted (`C111_delete_violated`); a decorated subclass of a decorated class (e.g. of any shipped stage) cannot read the attributes its base class sets, because the explicit `__getattribute__` skips the inner `__getattr__` (`C111_twice_violated`); `copy.copy`, `copy.deepcopy` and unpickling recurse without end (`C111_copy_violated`). `as_adaptive_encoding_stage` accepts undecorated stages, but all its methods then fail with a TypeError (`C111_adapter_violated`).
* **C112.** `_TrainingWrapper.call` has no `training` argument, so with the periodic SVD every `predict` or `evaluate` counts as training steps and every `update_freq`-th of them overwrites the trained weight by its low-rank approximation (`C112_evaluation_violated`). If a layer keeps a compressible weight under two attributes, the algorithm projects and updates once per attribute: two steps per call, and the attributes hold different tensors (`C112_alias_violated`).
* **C113.** For Dense, BatchNormalization, ReLU the transform without the ReLU comes first in the list (for convolutions it is the other way round), so the batch normalization gets an output quantizer and its output is quantized in front of the ReLU (`C113_dense_relu_violated`).
* **C116** `BiasOnly.get_compressible_weights` returns `[None]` for a layer without bias, so that `compress_model` fails with an AttributeError; `get_training_model` of EPR reads `model.input.shape`, which fails for models with several inputs; EPR lists `Conv1D` among the layers it compresses, but `_map_to_training_weights` only handles `Conv2D` and `Dense`, so `set_weights` fails (`C116_conv1d_violated`); layers shared between inputs of different shapes make every algorithm fail (`layer.input_shape`); trained weights of layers of other classes (batch normalizations, embeddings, nested models) are lost.
* **C117** `_disable_output_quantize` (default_8bit_transforms.py 658-664) removes `get_output_quantizers` only. The registry quantizes `Conv2D` and `Dense` layers through their activation, so their outputs are still quantized before the concatenation (the TODO in lines 701-703); a concatenation of seven or more layers, or with one unsupported or shared input, is left alone altogether.
* **C119** `preserve_sparsity` relies on the algorithm putting zeros to the zero centroid, which `get_clusterable_algorithm` does not ask for (`C119_sparsity_violated`); `cluster_per_channel` overrides the algorithm of a layer derived from `Conv2D` silently (`C119_per_channel_violated`); a wrong index is noticed at the first forward pass only, not when the layer is built.
* **C120** under MirroredStrategy the AllValues quantizer of the model inputs (and LastValue on data that differ between replicas) updates only the replica's own copy; the saved model has the range of the primary replica, however often other replicas saw larger values (`C120_inputs_violated`). MovingAverage is right: assign_moving_average averages over replicas.
* (reading only) `CMWC` rounding `f += f >> 53`; `random_floats_cmwc` cast to float32 can give 1.0;
  `clip_by_norm` with norm 0 and a zero tensor is 0/0; `SplitBySmallValue` only rank 1; annotating a
  `QuantizeLayer` is a `TypeError`; `quantize_model` of a one-layer Sequential model whose only
  layer is inspected at index 1 is an `IndexError`; the compression code's loop variable `name`
  leaks across iterations; `decay_steps = 0` is not validated.
