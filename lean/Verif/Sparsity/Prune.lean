import Verif.Sparsity.Registry

/-!
# Model of `sparsity/keras/prune.py` and of the configuration of `PruneLowMagnitude`

Paths are relative to `/repo/tensorflow_model_optimization/python/core/`.  A Keras model is modelled
by the tree of its layers (connectivity and weights are kept by `keras.models.clone_model`, which is
library code: it replaces each layer that is not an `InputLayer` by what the clone function returns).
-/

namespace Verif.Sparsity

/-- Serialized form / identity of a pruning schedule: class name and arguments. -/
structure ScheduleCfg where
  cls : String
  args : List (String × String)
  deriving DecidableEq, Repr

/-- The arguments kept by a pruning wrapper, `pruning_wrapper.py` lines 149-157. -/
structure WrapCfg where
  schedule : ScheduleCfg
  blockSize : Nat × Nat
  pooling : String
  mByN : Option (Nat × Nat)
  deriving DecidableEq, Repr

/-- Sequential and functional models can be cloned, subclassed ones cannot. -/
inductive ModelKind | sequential | functional | subclass
  deriving DecidableEq, Repr

/-- A Keras object: an input layer, a plain layer, a pruning wrapper around a layer, or a (possibly
nested) model. -/
inductive KObj where
  | input (name : String)
  | layer (l : LayerObj)
  | wrapped (l : LayerObj) (cfg : WrapCfg)
  | model (kind : ModelKind) (layers : List KObj)

/-- `ValueError`s of `prune_low_magnitude`. -/
inductive PruneStructError
  | subclassed | unsupportedLayer | badObject | policy | badPooling
  deriving DecidableEq, Repr

/-- `PruneLowMagnitude(layer, **params)`, `pruning_wrapper.py` lines 159-199: the pooling type and the
layer are validated. -/
def wrap (params : WrapCfg) (l : LayerObj) : Except PruneStructError KObj :=
  if params.pooling ≠ "AVG" ∧ params.pooling ≠ "MAX" then .error .badPooling
  else if canWrap l then .ok (.wrapped l params) else .error .unsupportedLayer

mutual
/-- `_add_pruning_wrapper`, `prune.py` lines 175-189; `policy` is `allow_pruning` of the policy, if
any.  Input layers are cloned by `clone_model` without calling the function. -/
def addPruningWrapper (params : WrapCfg) (policy : Option (LayerObj → Bool)) :
    KObj → Except PruneStructError KObj
  | .input n => .ok (.input n)
  | .layer l =>
    match policy with
    | some allow => if allow l then wrap params l else .ok (.layer l)
    | none => wrap params l
  | .wrapped l c => .ok (.wrapped l c)
  | .model k ls =>
    if k = .subclass then .error .subclassed
    else match addPruningWrapperL params policy ls with
      | .error e => .error e
      | .ok ls' => .ok (.model k ls')
/-- `keras.models.clone_model` applying the clone function to every layer. -/
def addPruningWrapperL (params : WrapCfg) (policy : Option (LayerObj → Bool)) :
    List KObj → Except PruneStructError (List KObj)
  | [] => .ok []
  | x :: xs =>
    match addPruningWrapper params policy x with
    | .error e => .error e
    | .ok x' =>
      match addPruningWrapperL params policy xs with
      | .error e => .error e
      | .ok xs' => .ok (x' :: xs')
end

mutual
/-- `_strip_pruning_wrapper`, `prune.py` lines 256-270. -/
def stripWrapper : KObj → KObj
  | .input n => .input n
  | .layer l => .layer l
  | .wrapped l _ => .layer l
  | .model k ls => .model k (stripWrapperL ls)
/-- `clone_model` with the strip function. -/
def stripWrapperL : List KObj → List KObj
  | [] => []
  | x :: xs => stripWrapper x :: stripWrapperL xs
end

mutual
/-- `collect_prunable_layers`, `pruning_wrapper.py` lines 400-410, on one element of `model.layers`. -/
def collectOne : KObj → List (LayerObj × WrapCfg)
  | .input _ => []
  | .layer _ => []
  | .wrapped l c => [(l, c)]
  | .model _ ls => collectPrunable ls
/-- `collect_prunable_layers(model)` on `model.layers`. -/
def collectPrunable : List KObj → List (LayerObj × WrapCfg)
  | [] => []
  | x :: xs => collectOne x ++ collectPrunable xs
end

/-- What can be passed to `prune_low_magnitude`: a list of layers or one object. -/
inductive ToPrune
  | list (ls : List KObj)
  | obj (o : KObj)

/-- `_prune_list`, `prune.py` lines 157-173 (no policy; a model inside the list is not a supported
layer). -/
def pruneList (params : WrapCfg) : List KObj → Except PruneStructError (List KObj)
  | [] => .ok []
  | x :: xs =>
    let r : Except PruneStructError KObj := match x with
      | .wrapped l c => .ok (.wrapped l c)
      | .input n => .ok (.input n)
      | .layer l => wrap params l
      | .model _ _ => .error .unsupportedLayer
    match r with
    | .error e => .error e
    | .ok x' =>
      match pruneList params xs with
      | .error e => .error e
      | .ok xs' => .ok (x' :: xs')

/-- `prune_low_magnitude`, `prune.py` lines 191-221.  `ensure` is the outcome of
`pruning_policy.ensure_model_supports_pruning`.  A single layer is always wrapped; wrapping a
wrapper or an input layer fails because their classes are not registered. -/
def pruneLowMagnitude (params : WrapCfg) (policy : Option (LayerObj → Bool)) (ensure : Bool)
    (x : ToPrune) : Except PruneStructError ToPrune :=
  match x with
  | .list ls => (pruneList params ls).map .list
  | .obj (.model k ls) =>
    if k = .subclass then .error .badObject
    else if policy.isSome ∧ ensure = false then .error .policy
    else (addPruningWrapper params policy (.model k ls)).map .obj
  | .obj (.layer l) => (wrap params l).map .obj
  | .obj (.wrapped _ _) => .error .unsupportedLayer
  | .obj (.input _) => .error .unsupportedLayer

/-! ## Configuration -/

/-- Values occurring in a wrapper configuration. -/
inductive CfgVal
  | schedule (s : ScheduleCfg)
  | pair (a b : Nat)
  | str (s : String)
  | layer (l : LayerObj)
  deriving DecidableEq, Repr

/-- `PruneLowMagnitude.get_config`, `pruning_wrapper.py` lines 338-345: base configuration (name and
layer) plus schedule, block size and pooling type. -/
def wrapperGetConfig (l : LayerObj) (c : WrapCfg) : List (String × CfgVal) :=
  [("layer", .layer l), ("pruning_schedule", .schedule c.schedule),
   ("block_size", .pair c.blockSize.1 c.blockSize.2), ("block_pooling_type", .str c.pooling)]

/-- `PruneLowMagnitude.from_config`, `pruning_wrapper.py` lines 347-367, followed by the constructor
with its defaults (lines 124-130): only the two schedule classes are known (lines 355-358); an
absent `sparsity_m_by_n` is `None`. -/
def wrapperFromConfig (cfg : List (String × CfgVal)) : Option (LayerObj × WrapCfg) :=
  match cfg.lookup "pruning_schedule", cfg.lookup "layer" with
  | some (.schedule s), some (.layer l) =>
    if s.cls = "ConstantSparsity" ∨ s.cls = "PolynomialDecay" then
      let block := match cfg.lookup "block_size" with | some (.pair a b) => (a, b) | _ => (1, 1)
      let pool := match cfg.lookup "block_pooling_type" with | some (.str p) => p | _ => "AVG"
      let mbn := match cfg.lookup "sparsity_m_by_n" with | some (.pair a b) => some (a, b) | _ => none
      some (l, ⟨s, block, pool, mbn⟩)
    else none
  | _, _ => none

end Verif.Sparsity
