import Verif.Compression.Optimize
import Verif.Compression.Attributes
import Mathlib.Algebra.Field.Defs
import Mathlib.Algebra.BigOperators.Group.List.Basic

/-!
# Model of the functions that compress a whole Keras model

  /repo/tensorflow_model_optimization/python/core/common/keras/compression/algorithms/
    same_training_and_inference.py, different_training_and_inference.py, bias_only.py,
    weight_clustering.py, periodical_update_and_scheduling.py, epr.py

`compress_model`, `optimize_model` and `get_training_model` are calls of Keras' `clone_model` with a
function that makes a wrapped layer of each layer.  `Optimize.lean` models that function for one
layer.  A model is a list of layers and a list of nodes (calls of layers) in an order in which they
can be executed; a layer can be called several times.

`V` are values of weights, `T` values that flow between layers.
-/
namespace Verif.Compression

/-- What Keras says about a model: `isinstance(model, Sequential)`, `model._is_graph_network`. -/
inductive ModelKind where
  | sequential | functional | subclassed
  deriving DecidableEq

/-- The classes of layers that the algorithms ask for (subclasses included). -/
inductive LayerClass where
  | dense | conv1d | conv2d | other
  deriving DecidableEq

/-- A layer that is not an `InputLayer`.  `inputShapes` are the shapes it has been called with.
`compute` is its `call`: a function of its weights, by name, and its inputs.

Simplified: weights are known by their names inside the layer ("kernel", "bias", …). -/
structure MLayer (V T : Type) where
  name : String
  cls : LayerClass
  built : Bool
  inputShapes : List (List Nat)
  weights : List (String × V)
  compute : (String → Option V) → List T → T

/-- A layer of a model: `clone_model` does not give `InputLayer`s to the clone function. -/
inductive Item (L : Type) where
  | input
  | layer (l : L)

/-- A Keras model: layers, calls (the number of the layer and of the calls that provide its inputs,
all of which come earlier) and the calls that provide the outputs. -/
structure KModel (L : Type) where
  kind : ModelKind
  layers : List (Item L)
  nodes : List (Nat × List Nat)
  outputs : List Nat

/-- A layer inside a wrapper of the compression API. -/
structure WLayer (V T : Type) where
  wrapped : Wrapped V
  compute : (String → Option V) → List T → T

/-- The exceptions. -/
inductive WErr where
  /-- `ValueError`: neither Sequential nor functional -/
  | modelKind
  /-- `ValueError`: a layer is not built -/
  | notBuilt
  /-- `AttributeError`: `layer.input_shape` of a layer called with different shapes or never -/
  | inputShape
  /-- `AttributeError`: `None` has no attribute `name` -/
  | noWeight
  /-- `AttributeError`: a list has no attribute `shape` -/
  | severalInputs
  /-- `ZeroDivisionError` -/
  | zeroDivision
  /-- an exception of the functions in `Optimize.lean` -/
  | weights (message : String)
  deriving DecidableEq

/-- The shipped algorithms.  The first three are the `SVD` classes of
same_training_and_inference.py, different_training_and_inference.py and
periodical_update_and_scheduling.py; `epr` stands for `EPR` and `FastEPR`. -/
inductive Shipped where
  | svdSame | svdDifferent | svdPeriodic | biasOnly | weightClustering | epr
  deriving DecidableEq

variable {V T α : Type}

/-- `layer.use_bias`, for the layers that have a bias at all. -/
def MLayer.useBias (l : MLayer V T) : Bool := (l.weights.lookup "bias").isSome

/-- `get_compressible_weights`, by name: same_training_and_inference.py 74-81,
different_training_and_inference.py 70-77, periodical_update_and_scheduling.py 114-119,
bias_only.py 62-70, weight_clustering.py 104-112, epr.py 89-95.  `BiasOnly` returns `[layer.bias]`,
which is `[None]` for a layer without bias. -/
def getCompressible (a : Shipped) (l : MLayer V T) : List (Option String) :=
  match a with
  | .svdSame | .svdDifferent | .svdPeriodic | .weightClustering =>
    match l.cls with
    | .dense | .conv2d => [some "kernel"]
    | _ => []
  | .biasOnly =>
    match l.cls with
    | .dense | .conv2d => if l.useBias then [some "bias"] else [none]
    | _ => []
  | .epr =>
    match l.cls with
    | .other => []
    | _ => if l.useBias then [some "kernel", some "bias"] else [some "kernel"]

/-- The names of the compressible weights, optimize.py 383-392; `none` is the `AttributeError` for
`None.name`. -/
def weightNamesOf : List (Option String) → Option (List String)
  | [] => some []
  | none :: _ => none
  | some n :: rest => (weightNamesOf rest).map (n :: ·)

/-- Keras' `layer.input_shape`: the layer must have been called, always with the same shape. -/
def MLayer.inputShape (l : MLayer V T) : Option (List Nat) :=
  match l.inputShapes with
  | [] => none
  | s :: rest => if rest.all (· == s) then some s else none

/-- `create_layer_for_training` as `clone_model` calls it, optimize.py 343-417 (the test for built
layers is also made in `_optimize_layer`, e.g. same_training_and_inference.py 96-103).  `fresh` are
the initial values of weights of new layers, by layer and weight. -/
def trainingLayer (a : Shipped) (alg : Compressor V) (fresh : String → String → V)
    (l : MLayer V T) : Except WErr (WLayer V T) :=
  if l.built then
    match l.inputShape with
    | none => .error .inputShape
    | some _ =>
      match weightNamesOf (getCompressible a l) with
      | none => .error .noWeight
      | some names =>
        match createTraining alg (fresh l.name) (l.cls == .dense || l.cls == .conv2d) names
            l.weights with
        | .error e => .error (.weights e)
        | .ok w => .ok ⟨w, l.compute⟩
  else .error .notBuilt

/-- `create_layer_for_inference` as `clone_model` calls it, optimize.py 420-461.  `fresh` are the
initial values of the weights of new layers, which may depend on the layer.

Simplified: the layers of the trained model are built and have one input shape. -/
def inferenceLayer {S : Type} [DecidableEq S] (shape : V → S) (alg : Compressor V)
    (fresh : Wrapped V → String → V) (l : WLayer V T) : Except WErr (WLayer V T) :=
  match createInference shape alg (fresh l.wrapped) l.wrapped with
  | .error e => .error (.weights e)
  | .ok w => .ok ⟨w, l.compute⟩

/-- The layers of a cloned model, one after the other. -/
def cloneLayers {L M : Type} (f : L → Except WErr M) :
    List (Item L) → Except WErr (List (Item M))
  | [] => .ok []
  | .input :: rest =>
    match cloneLayers f rest with
    | .error e => .error e
    | .ok ls => .ok (.input :: ls)
  | .layer l :: rest =>
    match f l with
    | .error e => .error e
    | .ok m =>
      match cloneLayers f rest with
      | .error e => .error e
      | .ok ls => .ok (.layer m :: ls)

/-- Keras' `clone_model(model, clone_function=f)`: the same calls, of the new layers.  A `ValueError`
for subclassed models; same_training_and_inference.py 83-94, different_training_and_inference.py
81-92, bias_only.py 71-82, periodical_update_and_scheduling.py 121-139 and epr.py 166-169, 189-192
make that test themselves. -/
def cloneModel {L M : Type} (f : L → Except WErr M) (m : KModel L) : Except WErr (KModel M) :=
  match m.kind with
  | .subclassed => .error .modelKind
  | _ =>
    match cloneLayers f m.layers with
    | .error e => .error e
    | .ok ls => .ok { kind := m.kind, layers := ls, nodes := m.nodes, outputs := m.outputs }

/-- `compress_model` of `SVD` in same_training_and_inference.py (83-105), of `BiasOnly` (71-93) and
of `WeightClustering` (114-128); `optimize_model` of the periodic `SVD` (121-150); the first half of
`compress_model` of `SVD` in different_training_and_inference.py (94-108) and of `get_training_model`
of EPR (170-175). -/
def optimizeModel (a : Shipped) (alg : Compressor V) (fresh : String → String → V)
    (m : KModel (MLayer V T)) : Except WErr (KModel (WLayer V T)) :=
  cloneModel (trainingLayer a alg fresh) m

/-- `compress_model` of the periodic `SVD` (152-170) and of EPR (189-198), applied to a model that
has been trained, and the second half of `compress_model` of `SVD` in
different_training_and_inference.py (103-112). -/
def compressTrained {S : Type} [DecidableEq S] (shape : V → S) (alg : Compressor V)
    (fresh : Wrapped V → String → V) (m : KModel (WLayer V T)) : Except WErr (KModel (WLayer V T)) :=
  cloneModel (inferenceLayer shape alg fresh) m

/-- `SVD.compress_model`, different_training_and_inference.py 81-112. -/
def compressDifferent {S : Type} [DecidableEq S] (shape : V → S) (alg : Compressor V)
    (fresh : String → String → V) (fresh' : Wrapped V → String → V) (m : KModel (MLayer V T)) :
    Except WErr (KModel (WLayer V T)) :=
  match optimizeModel .svdDifferent alg fresh m with
  | .error e => .error e
  | .ok t => compressTrained shape alg fresh' t

/-- `model.count_params()`; `size` is the number of elements of a weight. -/
def countParams (size : V → Nat) (m : KModel (MLayer V T)) : Nat :=
  (m.layers.map fun
    | .input => 0
    | .layer l => (l.weights.map fun e => size e.2).sum).sum

/-- The number of inputs of a model. -/
def inputCount {L : Type} (m : KModel L) : Nat :=
  (m.layers.filter fun | .input => true | .layer _ => false).length

/-- `get_training_model` of EPR, epr.py 166-187: the model for training and the weight of the
regularization loss.  `model.input.shape` (line 176) needs a model with one input. -/
def eprTrainingModel [Field α] (alg : Compressor V) (fresh : String → String → V) (size : V → Nat)
    (regularizationWeight : α) (m : KModel (MLayer V T)) :
    Except WErr (KModel (WLayer V T) × α) :=
  match optimizeModel .epr alg fresh m with
  | .error e => .error e
  | .ok t =>
    if inputCount m = 1 then
      if countParams size m = 0 then .error .zeroDivision
      else .ok (t, regularizationWeight / (countParams size m : α))
    else .error .severalInputs

/-- The losses that `get_training_model` adds, epr.py 182-187: one for each entry of the
`attr_name_map` of each layer (`Attributes.lean`), with the training weights of that name.
`penalty` is `regularization_loss` of the algorithm. -/
def eprLosses [Field α] (weight : α) (penalty : List V → α)
    (layers : List (TrainingLayer V × (String → List V))) : List α :=
  layers.flatMap fun l => l.1.map.map fun e => weight * penalty (l.2 e.2)

/-! ## What a model computes -/

/-- Executing calls, in order; `call i args` is a call of layer `i`. -/
def evalNodes (call : Nat → List T → Option T) : List (Nat × List Nat) → List T → Option (List T)
  | [], done => some done
  | (i, ins) :: rest, done =>
    match call i (ins.filterMap (done[·]?)) with
    | none => none
    | some v => evalNodes call rest (done ++ [v])

/-- A call of layer `i`: an input layer returns what is fed, another layer computes; `weights` gives
the weights that a layer computes with. -/
def callLayer {L : Type} (weights : L → String → Option V)
    (compute : L → (String → Option V) → List T → T) (layers : List (Item L)) (feed : Nat → T)
    (i : Nat) (args : List T) : Option T :=
  match layers[i]? with
  | none => none
  | some .input => some (feed i)
  | some (.layer l) => some (compute l (weights l) args)

/-- The outputs of a model. -/
def modelOutput {L : Type} (weights : L → String → Option V)
    (compute : L → (String → Option V) → List T → T) (m : KModel L) (feed : Nat → T) :
    Option (List T) :=
  (evalNodes (callLayer weights compute m.layers feed) m.nodes []).map fun done =>
    m.outputs.filterMap (done[·]?)

/-- The original model. -/
def MLayer.output (m : KModel (MLayer V T)) (feed : Nat → T) : Option (List T) :=
  modelOutput (fun l n => l.weights.lookup n) MLayer.compute m feed

/-- A model of training wrappers: `_TrainingWrapper.call`, optimize.py 137-160. -/
def trainingOutput (alg : Compressor V) (m : KModel (WLayer V T)) (feed : Nat → T) :
    Option (List T) :=
  modelOutput (fun l n => l.wrapped.trainingWeight alg n) WLayer.compute m feed

/-- A model of inference wrappers: `_InferenceWrapper.call`, optimize.py 233-247. -/
def inferenceOutput (alg : Compressor V) (m : KModel (WLayer V T)) (feed : Nat → T) :
    Option (List T) :=
  modelOutput (fun l n => l.wrapped.inferenceWeight alg n) WLayer.compute m feed

end Verif.Compression
