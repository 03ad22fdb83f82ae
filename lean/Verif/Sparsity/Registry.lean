/-!
# Model of `sparsity/keras/prune_registry.py` and `sparsity/keras/prunable_layer.py`

Paths are relative to `/repo/tensorflow_model_optimization/python/core/`.  A Python class is
represented by its name; two classes are the same iff the names are equal, so a user-defined class
must be given a name different from the built-in ones.
-/

namespace Verif.Sparsity

/-- `_LAYERS_WEIGHTS_MAP`, `prune_registry.py` lines 48-130: class name to weight attribute names.
The entry added at lines 122-127 has key `Rescaling.__class__`, that is the metaclass `type`. -/
def layersWeightsMap : List (String × List String) :=
  [("ELU", []), ("LeakyReLU", []), ("ReLU", []), ("Softmax", []), ("ThresholdedReLU", []),
   ("Conv1D", ["kernel"]), ("Conv2D", ["kernel"]), ("Conv2DTranspose", ["kernel"]),
   ("Conv3D", ["kernel"]), ("Conv3DTranspose", ["kernel"]),
   ("Cropping1D", []), ("Cropping2D", []), ("Cropping3D", []), ("DepthwiseConv2D", []),
   ("SeparableConv1D", ["pointwise_kernel"]), ("SeparableConv2D", ["pointwise_kernel"]),
   ("UpSampling1D", []), ("UpSampling2D", []), ("UpSampling3D", []),
   ("ZeroPadding1D", []), ("ZeroPadding2D", []), ("ZeroPadding3D", []),
   ("Activation", []), ("ActivityRegularization", []), ("Dense", ["kernel"]), ("Dropout", []),
   ("Flatten", []), ("Lambda", []), ("Masking", []), ("Permute", []), ("RepeatVector", []),
   ("Reshape", []), ("SpatialDropout1D", []), ("SpatialDropout2D", []), ("SpatialDropout3D", []),
   ("Embedding", ["embeddings"]), ("LocallyConnected1D", ["kernel"]), ("LocallyConnected2D", ["kernel"]),
   ("Add", []), ("Average", []), ("Concatenate", []), ("Dot", []), ("Maximum", []), ("Minimum", []),
   ("Multiply", []), ("Subtract", []), ("AlphaDropout", []), ("GaussianDropout", []),
   ("GaussianNoise", []), ("BatchNormalization", []), ("LayerNormalization", []),
   ("AveragePooling1D", []), ("AveragePooling2D", []), ("AveragePooling3D", []),
   ("GlobalAveragePooling1D", []), ("GlobalAveragePooling2D", []), ("GlobalAveragePooling3D", []),
   ("GlobalMaxPooling1D", []), ("GlobalMaxPooling2D", []), ("GlobalMaxPooling3D", []),
   ("MaxPooling1D", []), ("MaxPooling2D", []), ("MaxPooling3D", []),
   ("MultiHeadAttention", ["_query_dense.kernel", "_key_dense.kernel", "_value_dense.kernel",
      "_output_dense.kernel"]),
   ("v1.BatchNormalization", []), ("SyncBatchNormalization", []), ("type", []),
   ("TensorFlowOpLayer", [])]

/-- `_RNN_CELLS_WEIGHTS_MAP`, `prune_registry.py` lines 132-142 (v1 and v2 classes identified). -/
def rnnCellsWeightsMap : List (String × List String) :=
  [("GRUCell", ["kernel", "recurrent_kernel"]), ("LSTMCell", ["kernel", "recurrent_kernel"]),
   ("SimpleRNNCell", ["kernel", "recurrent_kernel"])]

/-- `_RNN_LAYERS`, `prune_registry.py` lines 144-149. -/
def rnnLayers : List String := ["GRU", "LSTM", "RNN", "SimpleRNN"]

/-- An RNN cell: its class and, if it is a `PrunableLayer`, the names of the weights its own
`get_prunable_weights` returns. -/
structure Cell where
  cls : String
  custom : Option (List String)
  deriving DecidableEq, Repr

/-- A non-model layer object.  `custom` is `some ws` when the layer is a `PrunableLayer` or has a
`get_prunable_weights` attribute, returning the weights `ws`.  `cells` is the result of
`_get_rnn_cells` (`prune_registry.py` lines 183-188): the cells of a `StackedRNNCells`, else the
single cell; `[]` for non-RNN layers. -/
structure LayerObj where
  name : String
  cls : String
  custom : Option (List String)
  cells : List Cell
  deriving DecidableEq, Repr

/-- A prunable weight: the owner's position among the cells (`none` for the layer itself) and the
attribute path. -/
structure WeightRef where
  cell : Option Nat
  attr : String
  deriving DecidableEq, Repr

/-- `PruneRegistry.supports`, `prune_registry.py` lines 160-181. -/
def registrySupports (l : LayerObj) : Bool :=
  if (layersWeightsMap.map (·.1)).contains l.cls then true
  else if rnnLayers.contains l.cls then
    l.cells.all fun c => (rnnCellsWeightsMap.map (·.1)).contains c.cls || c.custom.isSome
  else false

/-- `get_prunable_weights_rnn_cell`, `prune_registry.py` lines 222-231. -/
def cellWeights (i : Nat) (c : Cell) : Except String (List WeightRef) :=
  match rnnCellsWeightsMap.lookup c.cls with
  | some ws => .ok (ws.map fun w => ⟨some i, w⟩)
  | none =>
    match c.custom with
    | some ws => .ok (ws.map fun w => ⟨some i, w⟩)
    | none => .error "RNN cell not supported"

/-- The loop of `get_prunable_weights_rnn`, `prune_registry.py` lines 233-236. -/
def rnnWeights : Nat → List Cell → Except String (List WeightRef)
  | _, [] => .ok []
  | i, c :: cs =>
    match cellWeights i c with
    | .error e => .error e
    | .ok ws =>
      match rnnWeights (i + 1) cs with
      | .error e => .error e
      | .ok rest => .ok (ws ++ rest)

/-- The weights pruned by the wrapper of a layer: constructor test `pruning_wrapper.py` lines 181-199
followed by `get_prunable_weights` as installed by `make_prunable` (`prune_registry.py` lines
203-254).  Error: `ValueError`. -/
def prunableWeights (l : LayerObj) : Except String (List WeightRef) :=
  match l.custom with
  | some ws => .ok (ws.map fun w => ⟨none, w⟩)
  | none =>
    if registrySupports l then
      if rnnLayers.contains l.cls then rnnWeights 0 l.cells
      else .ok (((layersWeightsMap.lookup l.cls).getD []).map fun w => ⟨none, w⟩)
    else .error "unsupported layer"

/-- Whether `PruneLowMagnitude(layer)` can be constructed, `pruning_wrapper.py` lines 181-199. -/
def canWrap (l : LayerObj) : Bool := l.custom.isSome || registrySupports l

end Verif.Sparsity
