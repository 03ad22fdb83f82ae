import Verif.Clustering.Centroids

/-!
# Clustering: the `ClusterWeights` wrapper

`clustering/keras/cluster_wrapper.py` and the parts of `cluster.py` that decide what is wrapped and
how weights are restored.

One clusterable weight is modelled (the loops over `weight_name` treat every weight alone).  A weight
tensor is a function on positions `ι`; `ch p` is the channel of position `p`.  Without per-channel
clustering `ch` is constantly 0 and there is one list of centroids; with it, `ch p` is the index of
`p` along the channel axis (`Props.Aux.pullingPerChannel_val`, `Aux.clusteredPerChannel_val` show
that the rank-4 code acts in this way).  Positions outside the tensor are never looked at.
-/

namespace Verif.Clustering

variable {ι : Type*} {α : Type*} [Field α] [LinearOrder α] [IsStrictOrderedRing α]

/-- The variables the wrapper holds for one weight (`cluster_wrapper.py` 118-143): the original
weight, the centroids of every channel, the sparsity mask, the index of the zero centroid, the
pulling indices, and the tensor put in place of the layer's weight. -/
structure CState (ι α : Type*) where
  orig : ι → α
  cents : ℕ → List α
  mask : ι → α
  zeroIdx : ℕ → ℕ
  pulling : ι → ℕ
  kernel : ι → α

/-- `build`, `cluster_wrapper.py` 183-275, with initial centroids `c0`.  Until the first call the
layer holds its original weight. -/
def CState.build (ch : ι → ℕ) (w0 : ι → α) (c0 : ℕ → List α) : CState ι α :=
  let pulling := fun p => pullingIndex (c0 (ch p)) (w0 p)
  let clustered := fun p => clusteredEntry (c0 (ch p)) (pulling p) (w0 p)
  { orig := w0
    cents := c0
    mask := fun p => if clustered p ≠ 0 then 1 else 0
    zeroIdx := fun c => argmin ((c0 c).map fun x => |x|)
    pulling := pulling
    kernel := w0 }

/-- `_get_zero_idx_mask` and `_get_zero_centroid`, `cluster_wrapper.py` 166-175, applied to one list
of centroids with zero index `z`. -/
def resetZero (cs : List α) (z : ℕ) : List α :=
  cs.map fun c => c * (if c ≠ cs.getD z 0 then 1 else 0)

/-- `update_clustered_weights_associations`, `cluster_wrapper.py` 277-326. -/
def CState.update (preserveSparsity : Bool) (ch : ι → ℕ) (s : CState ι α) : CState ι α :=
  let cents := if preserveSparsity then fun c => resetZero (s.cents c) (s.zeroIdx c) else s.cents
  let w := if preserveSparsity then fun p => s.orig p * s.mask p else s.orig
  let pulling := fun p => pullingIndex (cents (ch p)) (w p)
  { s with
    cents := cents
    pulling := pulling
    kernel := fun p => clusteredEntry (cents (ch p)) (pulling p) (w p) }

/-- What can happen to a built wrapper. -/
inductive CEvent (ι α : Type*) where
  /-- a forward pass (`call`, `cluster_wrapper.py` 328-332), or `strip_clustering`, which updates the
  associations first (`cluster.py` 335-350) -/
  | call
  /-- an optimizer step, or loading a checkpoint: original weights and centroids take arbitrary
  values (shapes are fixed) -/
  | assign (orig : ι → α) (cents : ℕ → ℕ → α)

/-- Effect of an event. -/
def CState.step (preserveSparsity : Bool) (ch : ι → ℕ) (s : CState ι α) : CEvent ι α → CState ι α
  | .call => s.update preserveSparsity ch
  | .assign o c =>
    { s with orig := o, cents := fun k => (List.range (s.cents k).length).map (c k) }

/-- A history of events after `build`. -/
def CState.run (preserveSparsity : Bool) (ch : ι → ℕ) (w0 : ι → α) (c0 : ℕ → List α)
    (es : List (CEvent ι α)) : CState ι α :=
  es.foldl (CState.step preserveSparsity ch) (CState.build ch w0 c0)

/-! ## Construction and selection of layers -/

/-- The classes that matter for the decisions below. -/
inductive LayerKind where
  | conv2D      -- `keras.layers.Conv2D` and its subclasses
  | rnn         -- `RNN` and `Bidirectional`
  | mha         -- `MultiHeadAttention`
  | other
  deriving DecidableEq, Repr

/-- A layer as `_add_clustering_wrapper` sees it.  `clusterable`: a `ClusterableLayer` or supported by
the registry.  `kernelSize`: number of entries of `layer.kernel`.  `trainable`: sizes of
`layer.trainable_weights` in order. -/
structure CLayer where
  kind : LayerKind
  clusterable : Bool
  dataFormat : DataFormat := .channelsLast
  kernelSize : ℕ := 0
  trainable : List ℕ := []
  deriving Repr

/-- A wrapper that was created. -/
structure CWrapper where
  layer : CLayer
  numberOfClusters : ℤ
  preserveSparsity : Bool
  clusterPerChannel : Bool
  deriving Repr

inductive CErr where
  | unsupportedLayer
  | notInt
  | tooFewClusters
  | noWeights
  | indexError
  deriving DecidableEq, Repr

/-- `ClusterWeights.__init__`, `cluster_wrapper.py` 58-118; `n = none` is a `number_of_clusters` that
is not an `int`. -/
def CWrapper.new (layer : CLayer) (n : Option ℤ) (preserveSparsity clusterPerChannel : Bool) :
    Except CErr CWrapper :=
  if layer.clusterable = false then .error .unsupportedLayer
  else
    match n with
    | none => .error .notInt
    | some n =>
      let limit : ℤ := if preserveSparsity then 2 else 1
      if n ≤ limit then .error .tooFewClusters
      else .ok ⟨layer, n, preserveSparsity,
        if layer.kind = .conv2D then clusterPerChannel else false⟩

/-- `layer_has_enough_weights_to_cluster`, `cluster.py` 378-415.  `trainable_weights[-1]` or
`trainable_weights[1]`; the quotient of the two int tensors is a float. -/
def hasEnoughWeights (layer : CLayer) (n : ℤ) (perChannel : Bool) : Except CErr Bool :=
  if layer.trainable = [] then .error .noWeights
  else
    let entry := match layer.dataFormat with
      | .channelsFirst => layer.trainable[1]?
      | .channelsLast => layer.trainable[layer.trainable.length - 1]?
    match entry with
    | none => .error .indexError
    | some channels =>
      let toCluster : ℚ :=
        if perChannel then (layer.kernelSize : ℚ) / (channels : ℚ) else (layer.kernelSize : ℚ)
      .ok (decide (¬ toCluster ≤ (n : ℚ)))

/-- `_add_clustering_wrapper` for a layer that is neither a model, nor wrapped, nor an input layer,
`cluster.py` 249-286; `none` = the layer is returned unchanged. -/
def addWrapper (layer : CLayer) (n : ℤ) (preserveSparsity perChannel : Bool) :
    Except CErr (Option CWrapper) :=
  match layer.kind with
  | .rnn | .mha => (CWrapper.new layer (some n) preserveSparsity false).map some
  | .conv2D =>
    match hasEnoughWeights layer n perChannel with
    | .error e => .error e
    | .ok false => .ok none
    | .ok true => (CWrapper.new layer (some n) preserveSparsity perChannel).map some
  | .other => (CWrapper.new layer (some n) preserveSparsity perChannel).map some

/-! ## Stripping -/

/-- Python `list.insert(i, x)` for `i ≥ 0`. -/
def pyInsert {β : Type*} (l : List β) (i : ℕ) (x : β) : List β := l.take i ++ x :: l.drop i

/-- The loop of `strip_clustering`, `cluster.py` 343-350: `rest` are the weights the wrapped layer
still tracks (the clustered ones were replaced by tensors, so Keras dropped them from
`layer.weights`), `items` the entries of `position_original_weights` with the clustered weights. -/
def restoreWeights {β : Type*} (rest : List β) (items : List (ℕ × β)) : List β :=
  items.foldl (fun l it => pyInsert l it.1 it.2) rest

/-- Positions of the clusterable weights of an RNN-like layer in `layer.weights`, in the order of
`get_clusterable_weights_rnn` (`clustering_registry.py` 189-220): `kernel` and `recurrent_kernel` of
every cell; `counts` are the numbers of weights of the cells (Keras lists the weights cell by cell,
`kernel`, `recurrent_kernel`, then `bias` if any), `off` the weights before this cell. -/
def rnnPositions (off : ℕ) : List ℕ → List ℕ
  | [] => []
  | c :: cs => off :: (off + 1) :: rnnPositions (off + c) cs

end Verif.Clustering
