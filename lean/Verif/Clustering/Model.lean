import Verif.Clustering.Wrapper

/-!
# Clustering: registry, whole models, configuration

`clustering/keras/clustering_registry.py`, `clustering/keras/cluster.py`,
`clustering/keras/cluster_wrapper.py` (configuration).
-/

namespace Verif.Clustering

/-! ## Registry -/

/-- `_LAYERS_WEIGHTS_MAP`, `clustering_registry.py` 64-82. -/
def layersWeightsMap : List (String × List String) :=
  [("Conv1D", ["kernel"]), ("Conv1DTranspose", ["kernel"]), ("Conv2D", ["kernel"]),
   ("Conv2DTranspose", ["kernel"]), ("Conv3D", ["kernel"]), ("Conv3DTranspose", ["kernel"]),
   ("DepthwiseConv2D", []), ("SeparableConv1D", ["pointwise_kernel"]),
   ("SeparableConv2D", ["pointwise_kernel"]), ("Dense", ["kernel"]),
   ("Embedding", ["embeddings"]), ("LocallyConnected1D", ["kernel"]),
   ("LocallyConnected2D", ["kernel"]), ("BatchNormalization", []), ("LayerNormalization", [])]

/-- `_SUPPORTED_RNN_CELLS`, `clustering_registry.py` 84-102. -/
def supportedRnnCells : List String :=
  ["GRUCell", "LSTMCell", "SimpleRNNCell", "StackedRNNCells", "Bidirectional"]

/-- `_SUPPORTED_RNN_LAYERS`, `clustering_registry.py` 104-110. -/
def supportedRnnLayers : List String := ["GRU", "LSTM", "SimpleRNN", "RNN", "Bidirectional"]

/-- `_SUPPORTED_MHA_LAYERS`, `clustering_registry.py` 112-114. -/
def supportedMhaLayers : List String := ["MultiHeadAttention"]

/-- An RNN cell: its class, and whether it is a `ClusterableLayer`. -/
structure RCell where
  cls : String
  clusterableLayer : Bool := false
  deriving DecidableEq, Repr

/-- A Keras layer as the registry sees it.  `trainableNow`: has trainable weights when it is wrapped
(an unbuilt or frozen layer has none); `trainableBuilt`: has trainable weights when the wrapper is
built.  `isRnn`: `isinstance(layer, RNN)`.  `cells`: `_get_rnn_cells(layer)`
(`clustering_registry.py` 150-163). -/
structure RLayer where
  cls : String
  trainableNow : Bool
  trainableBuilt : Bool
  isRnn : Bool := false
  cells : List RCell := []
  deriving DecidableEq, Repr

/-- `ClusteringRegistry.supports`, `clustering_registry.py` 116-148. -/
def supports (l : RLayer) : Bool :=
  if !l.trainableNow && !l.isRnn then true
  else if (layersWeightsMap.lookup l.cls).isSome then true
  else if l.cls ∈ supportedRnnCells then true
  else if l.cls ∈ supportedRnnLayers then
    l.cells.all fun c => decide (c.cls ∈ supportedRnnCells) && !c.clusterableLayer
  else decide (l.cls ∈ supportedMhaLayers)

/-- `_weight_names`, `clustering_registry.py` 165-171, when the wrapper is built; `none` = `KeyError`. -/
def weightNames (l : RLayer) : Option (List String) :=
  if !l.trainableBuilt then some [] else layersWeightsMap.lookup l.cls

/-- `get_clusterable_weights_rnn`, `clustering_registry.py` 189-220.  The attributes `kernel` and
`recurrent_kernel` exist on the elementary cells only. -/
def rnnWeightNames (cells : List RCell) (i : ℕ) : Option (List (String × ℕ)) :=
  match cells with
  | [] => some []
  | c :: cs =>
    if c.cls ∈ supportedRnnCells ∧ c.cls ≠ "StackedRNNCells" ∧ c.cls ≠ "Bidirectional" then
      (rnnWeightNames cs (i + 1)).map fun r => ("kernel", i) :: ("recurrent_kernel", i) :: r
    else none

/-- The names of the clusterable weights when the wrapper is built (`make_clusterable`,
`clustering_registry.py` 173-231, called from `build`, `cluster_wrapper.py` 188); `none` = an
exception. -/
def clusterableNames (l : RLayer) : Option (List (String × ℕ)) :=
  if l.cls ∈ supportedRnnLayers then rnnWeightNames l.cells 0
  else if l.cls ∈ supportedMhaLayers then
    some [("_query_dense.kernel", 0), ("_key_dense.kernel", 0), ("_value_dense.kernel", 0),
      ("_output_dense.kernel", 0)]
  else (weightNames l).map fun ns => ns.map fun n => (n, 0)

/-! ## Whole models -/

/-- Which wrapper class is used. -/
inductive WrapperClass where
  | clusterWeights
  | clusterWeightsRNN
  | clusterWeightsMHA
  deriving DecidableEq, Repr

/-- Parameters of `cluster_weights`. -/
structure ClusterParams where
  numberOfClusters : ℤ
  init : String
  preserveSparsity : Bool
  perChannel : Bool
  aggregation : Aggregation
  deriving DecidableEq, Repr

/-- A Keras object: input layer, plain layer (with a name), clustering wrapper, or model. -/
inductive CObj where
  | input (name : String)
  | layer (name : String) (l : CLayer)
  | wrapped (cls : WrapperClass) (name : String) (w : CWrapper)
  | model (subclassed : Bool) (layers : List CObj)

/-- The `ValueError`s of `cluster_weights`. -/
inductive ClusterErr where
  | subclassed
  | badInit
  | layer (e : CErr)
  deriving DecidableEq, Repr

/-- The names in `CentroidsInitializerFactory._initialisers`, `clustering_centroids.py` 418-427. -/
def supportedInits : List String :=
  ["CentroidInitialization.LINEAR", "CentroidInitialization.RANDOM",
   "CentroidInitialization.DENSITY_BASED", "CentroidInitialization.KMEANS_PLUS_PLUS"]

/-- The class of the wrapper for a layer, `cluster.py` 250-286. -/
def wrapperClass (l : CLayer) : WrapperClass :=
  match l.kind with
  | .rnn => .clusterWeightsRNN
  | .mha => .clusterWeightsMHA
  | _ => .clusterWeights

mutual
/-- `_add_clustering_wrapper`, `cluster.py` 231-286. -/
def addClustering (p : ClusterParams) : CObj → Except ClusterErr CObj
  | .input n => .ok (.input n)
  | .layer n l =>
    match addWrapper l p.numberOfClusters p.preserveSparsity p.perChannel with
    | .error e => .error (.layer e)
    | .ok none => .ok (.layer n l)
    | .ok (some w) => .ok (.wrapped (wrapperClass l) n w)
  | .wrapped c n w => .ok (.wrapped c n w)
  | .model sub ls =>
    if sub then .error .subclassed
    else match addClusteringL p ls with
      | .error e => .error e
      | .ok ls' => .ok (.model sub ls')
/-- `clone_model` / `_wrap_list`: the function applied to every layer. -/
def addClusteringL (p : ClusterParams) : List CObj → Except ClusterErr (List CObj)
  | [] => .ok []
  | x :: xs =>
    match addClustering p x with
    | .error e => .error e
    | .ok x' =>
      match addClusteringL p xs with
      | .error e => .error e
      | .ok xs' => .ok (x' :: xs')
end

/-- `_cluster_weights` on a layer or model, `cluster.py` 133-302. -/
def clusterWeights (p : ClusterParams) (o : CObj) : Except ClusterErr CObj :=
  if p.init ∉ supportedInits then .error .badInit else addClustering p o

mutual
/-- `_strip_clustering_wrapper`, `cluster.py` 333-370 (structure only; the weights are the subject of
`restoreWeights`). -/
def stripClustering : CObj → CObj
  | .input n => .input n
  | .layer n l => .layer n l
  | .wrapped _ n w => .layer n w.layer
  | .model sub ls => .model sub (stripClusteringL ls)
/-- `clone_model` with the strip function. -/
def stripClusteringL : List CObj → List CObj
  | [] => []
  | x :: xs => stripClustering x :: stripClusteringL xs
end

/-! ## Saving and loading -/

/-- The class names `cluster_scope` registers, `cluster.py` 34-53. -/
def clusterScope : List String := ["ClusterWeights"]

/-- The name under which Keras serialises a wrapper. -/
def WrapperClass.name : WrapperClass → String
  | .clusterWeights => "ClusterWeights"
  | .clusterWeightsRNN => "ClusterWeightsRNN"
  | .clusterWeightsMHA => "ClusterWeightsMHA"

mutual
/-- Whether every custom class occurring in a saved model can be resolved. -/
def resolvable (scope : List String) : CObj → Bool
  | .input _ => true
  | .layer _ _ => true
  | .wrapped c _ _ => decide (c.name ∈ scope)
  | .model _ ls => resolvableL scope ls
/-- the same for lists -/
def resolvableL (scope : List String) : List CObj → Bool
  | [] => true
  | x :: xs => resolvable scope x && resolvableL scope xs
end

end Verif.Clustering
