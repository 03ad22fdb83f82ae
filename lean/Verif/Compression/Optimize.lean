/-!
# Model of the wrappers of the weight compression API

  /repo/tensorflow_model_optimization/python/core/common/keras/compression/internal/optimize.py

A layer is the list of its weights, by name and in the order of `layer.weights`.  `S` are shapes
(with dtypes), `V` values.  Keras lists the weights a wrapper added itself before the weights of
the wrapped layer, and `set_weights` raises a `ValueError` unless it gets as many values as there
are weights, of the right shapes.
-/
namespace Verif.Compression

variable {V S : Type}

/-- A `WeightCompressor`. -/
structure Compressor (V : Type) where
  /-- the initial values that `init_training_weights` passes to `add_training_weight` -/
  init : V → List V
  /-- `project_training_weights` -/
  project : List V → V
  /-- `compress_training_weights` -/
  compress : List V → List V
  /-- `decompress_weights` -/
  decompress : List V → V

/-- A wrapped layer, for training or inference: the weights the wrapper added, by the name of the
weight they stand for, and the weights of the layer inside. -/
structure Wrapped (V : Type) where
  own : List (String × List V)
  inner : List (String × V)

/-- `get_weights()`: the wrapper's own weights come first. -/
def Wrapped.getWeights (w : Wrapped V) : List V :=
  (w.own.flatMap (·.2)) ++ w.inner.map (·.2)

/-- Splitting a list of values into groups of the lengths of the given groups. -/
def regroup : List (String × List V) → List V → List (String × List V) × List V
  | [], vs => ([], vs)
  | (n, g) :: rest, vs =>
    let r := regroup rest (vs.drop g.length)
    ((n, vs.take g.length) :: r.1, r.2)

/-- `set_weights`: the number and the shapes of the values must agree. -/
def Wrapped.setWeights [DecidableEq S] (shape : V → S) (w : Wrapped V) (vs : List V) :
    Except String (Wrapped V) :=
  if vs.map shape = w.getWeights.map shape then
    let r := regroup w.own vs
    .ok { own := r.1, inner := List.zipWith (fun e v => (e.1, v)) w.inner r.2 }
  else .error "ValueError: set_weights"

/-- `create_layer_for_training` (lines 343-417) with `_TrainingWrapper.build` (lines 97-135) and
`_map_to_training_weights` (lines 256-301): the weights with names in `compressible` are replaced by
training weights and all values are set, but only if there is a compressible weight (lines 404-415).
Otherwise the new layer is a fresh clone, and `fresh` are the values the weights of a cloned layer
are initialized with when it is built.  `convOrDense`: the layer is a `Conv2D` or a `Dense` layer;
for another layer with compressible weights `_map_to_training_weights` returns no values at all and
`set_weights` fails.

Simplified: `compressible` is in the order of `layer.weights`, as it is for all shipped algorithms;
the shapes of the training weights must not depend on the values of the weights, because the build
(with a zero tensor) fixes them, and are assumed not to. -/
def createTraining (alg : Compressor V) (fresh : String → V) (convOrDense : Bool)
    (compressible : List String) (layer : List (String × V)) : Except String (Wrapped V) :=
  if layer.any fun e => decide (e.1 ∈ compressible) then
    if convOrDense then
      .ok { own := (layer.filter fun e => e.1 ∈ compressible).map fun e => (e.1, alg.init e.2)
            inner := layer.filter fun e => e.1 ∉ compressible }
    else .error "ValueError: set_weights"
  else .ok { own := [], inner := layer.map fun e => (e.1, fresh e.1) }

/-- The weights a wrapped layer computes with during training: `_TrainingWrapper.call`, lines
137-160. -/
def Wrapped.trainingWeight (alg : Compressor V) (w : Wrapped V) (name : String) : Option V :=
  ((w.own.lookup name).map alg.project).or (w.inner.lookup name)

/-- The loop of `_map_to_inference_weights`, lines 304-340, over the remaining names, at
`layer_weights_i = i`.  Python's list access raises an `IndexError` beyond the end. -/
def mapInference (alg : Compressor V) (own : List (String × List V)) (training : List V) :
    List String → Nat → Except String (List V)
  | [], _ => .ok []
  | name :: names, i =>
    match own.lookup name with
    | some tensors =>
      match mapInference alg own training names (i + tensors.length) with
      | .ok vs => .ok (alg.compress tensors ++ vs)
      | .error e => .error e
    | none =>
      match training[i]? with
      | none => .error "IndexError: list index out of range"
      | some v =>
        match mapInference alg own training names (i + 1) with
        | .ok vs => .ok (v :: vs)
        | .error e => .error e

/-- `create_layer_for_inference`, lines 420-461.  `fresh` are the values the weights of the cloned
inner layer are initialized with when it is built (`_InferenceWrapper.build`, lines 212-231); they
have the shapes of the weights. -/
def createInference [DecidableEq S] (shape : V → S) (alg : Compressor V) (fresh : String → V)
    (layer : Wrapped V) : Except String (Wrapped V) :=
  let built : Wrapped V :=
    { own := layer.own.map fun e => (e.1, alg.compress e.2)
      inner := layer.inner.map fun e => (e.1, fresh e.1) }
  if layer.getWeights = [] then .ok built
  else
    match mapInference alg layer.own layer.getWeights ["kernel", "bias"] 0 with
    | .error e => .error e
    | .ok vs => built.setWeights shape vs

/-- The weights a wrapped layer computes with at inference: `_InferenceWrapper.call`, lines
233-247. -/
def Wrapped.inferenceWeight (alg : Compressor V) (w : Wrapped V) (name : String) : Option V :=
  ((w.own.lookup name).map alg.decompress).or (w.inner.lookup name)

end Verif.Compression
