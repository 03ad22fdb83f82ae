import Verif.Quant.Transforms8Bit

/-
Model of the functions a user calls to quantize a model,

  /repo/tensorflow_model_optimization/python/core/quantization/keras/quantize.py
    `quantize_annotate_model`, `quantize_apply`, `quantize_model`

A model is the list of its layers (in the order of the configuration) and its weights.  The wrapper
`QuantizeAnnotate` (quantize_annotate.py lines 34-122) is represented by the field `annotation` of
the layer it wraps, and connections are named by the wrapped layer; the wrapper's own name, which
does not survive `quantize_apply`, is left out.  `keras.models.clone_model` does not apply its
`clone_function` to `InputLayer`s and fails if two layers of the new model have the same name.
-/
namespace Verif.Quant.Apply

open Verif.Quant.Transformer Verif.Quant.Transforms8Bit

/-- A layer of the model the user hands in: `annotation` is `none` for a layer that is not wrapped
in `QuantizeAnnotate` and `some c` for one that is wrapped with the quantize config `c` (or
`None`); the Booleans are `isinstance(layer, Lambda)` and `isinstance(layer, keras.Model)`. -/
structure ALayer (U : Type) where
  layer : Layer
  isLambda : Bool := false
  isModel : Bool := false
  annotation : Option (Option U) := none
deriving DecidableEq, Repr

/-- A Sequential or functional model. -/
structure AModel (V U : Type) where
  functional : Bool
  built : Bool
  layers : List (ALayer U)
  outputs : List (String × Nat × Nat)
  weights : String → List (String × V)

/-- What can be passed as a model. -/
inductive Arg (α : Type) where
  /-- `None` -/
  | none
  /-- not a `keras.Model` -/
  | other
  /-- a `keras.Model` that is neither Sequential nor functional -/
  | subclassed
  | model (m : α)

variable {V U : Type}

/-- A function that may raise an exception, applied to every element of a list in order. -/
def mapExcept {α β : Type} (f : α → Except String β) : List α → Except String (List β)
  | [] => .ok []
  | x :: xs =>
    match f x with
    | .error e => .error e
    | .ok y =>
      match mapExcept f xs with
      | .error e => .error e
      | .ok ys => .ok (y :: ys)

/-- `_add_quant_wrapper`, lines 206-228, as `clone_model` applies it. -/
def addWrapper (a : ALayer U) : Except String (ALayer U) :=
  if a.layer.cls = "InputLayer" then .ok a
  else if a.annotation.isSome then .ok a
  else if a.isLambda then .ok a
  else if a.isModel then
    .error "ValueError: Quantizing a keras Model inside another keras Model is not supported."
  else .ok { a with annotation := some none }

/-- `quantize_annotate_model`, lines 145-230. -/
def annotateModel : Arg (AModel V U) → Except String (AModel V U)
  | .none => .error "ValueError: `to_annotate` cannot be None"
  | .other => .error "ValueError: `to_annotate` can only be a `keras.Model` instance."
  | .subclassed =>
    .error "ValueError: `to_annotate` can only either be a keras Sequential or Functional model."
  | .model m =>
    match mapExcept addWrapper m.layers with
    | .error e => .error e
    | .ok ls => .ok { m with layers := ls }

/-- Whether the model has an annotated layer of that name. -/
def isAnnotated (m : AModel V U) (name : String) : Bool :=
  m.layers.any fun a => decide (a.layer.name = name) && a.annotation.isSome

/-- The layer before the one with the given name in a Sequential model. -/
def previous : List (ALayer U) → String → Option String
  | x :: y :: rest, name =>
    if y.layer.name = name then some x.layer.name else previous (y :: rest) name
  | _, _ => none

/-- The layer that feeds `a`, if `a` is called once, with one tensor: `layer._inbound_nodes` and
`node.inbound_layers`, lines 384-390. -/
def feeder (m : AModel V U) (a : ALayer U) : Option String :=
  if m.functional then
    match a.layer.inbound with
    | [[c]] => some c.src
    | _ => none
  else previous m.layers a.layer.name

/-- `requires_output_quantize`, lines 376-390. -/
def requiresOutput (m : AModel V U) : List String :=
  m.layers.filterMap fun a =>
    if a.annotation.isSome then (feeder m a).filter fun n => !isAnnotated m n else none

/-- Whether the output of the input layer `name` goes to an annotated layer, lines 480-483. -/
def feedsAnnotated (m : AModel V U) (name : String) : Bool :=
  m.layers.any fun a => a.annotation.isSome &&
    (if m.functional then decide (name ∈ inboundNames a.layer)
     else decide (previous m.layers a.layer.name = some name))

/-- The entry of one layer in `layer_quantize_map`, lines 393-395 and 480-483. -/
def mapEntry (m : AModel V U) (a : ALayer U) : Option (Meta U) :=
  match a.annotation with
  | some c => some { config := some (c.map fun u => ⟨.custom u, false, false⟩) }
  | none => if a.layer.cls = "InputLayer" && feedsAnnotated m a.layer.name then some {} else none

/-- `layer_quantize_map` as it is passed to the layout transform. -/
def quantizeMap (m : AModel V U) (name : String) : Option (Meta U) :=
  (m.layers.find? fun a => a.layer.name = name).bind (mapEntry m)

/-- `_extract_original_model` (lines 374-400) and the constructor of `ModelTransformer`: the model
without annotations, its metadata, and the names in the map as candidates. -/
def unwrap (m : AModel V U) : Graph V (Meta U) :=
  { functional := m.functional
    layers := m.layers.map (·.layer)
    outputs := m.outputs
    weights := m.weights
    metadata := quantizeMap m
    candidates := (m.layers.filter fun a => (mapEntry m a).isSome).map fun a => a.layer.name }

/-- A layer of the quantized model: as it was, in a `QuantizeWrapperV2` with an `OutputOnlyConfig`
around a config of the registry, or in a `QuantizeWrapperV2` with a config. -/
inductive OLayer (U : Type) where
  | plain (l : Layer)
  | outputOnly (l : Layer) (q : QConfig U)
  | quantized (l : Layer) (q : QConfig U)
deriving DecidableEq, Repr

/-- The layer inside. -/
def OLayer.layer : OLayer U → Layer
  | .plain l => l
  | .outputOnly l _ => l
  | .quantized l _ => l

/-- A quantized model. -/
structure OModel (V U : Type) where
  layers : List (OLayer U)
  outputs : List (String × Nat × Nat)
  weights : String → List (String × V)

/-- `len(layer._outbound_nodes)`: the number of times the output of the layer is used. -/
def outboundCount (g : Graph V (Meta U)) (name : String) : Nat :=
  (g.layers.flatMap inboundNames).count name

/-- `_quantize`, lines 402-456, as `clone_model` applies it.  `reg` is the registry: the config it
has for a layer, if it supports the layer. -/
def quantizeLayer (reg : Layer → Option (QConfig U)) (requires : List String)
    (g : Graph V (Meta U)) (l : Layer) : Except String (OLayer U) :=
  if l.cls = "InputLayer" then .ok (.plain l)
  else if l.cls = "QuantizeLayer" then
    if outboundCount g l.name > 1 then .ok (.plain l)
    else
      match g.metadata l.name with
      | none => .ok (.plain l)
      | some i =>
        if i.config.isSome then .error "TypeError: unexpected keyword argument quantize_config"
        else .ok (.plain (if i.quantizer then
          { l with config := setKey l.config "quantizer" "None" } else l))
  else if ((g.metadata l.name).isNone ∧ l.name ∉ requires)
      ∨ l.cls ∈ ["QuantizeWrapper", "QuantizeWrapperV2"] then .ok (.plain l)
  else if l.name ∈ requires then
    match reg l with
    | none => .ok (.plain l)
    | some q => .ok (.outputOnly l q)
  else
    match ((g.metadata l.name).getD default).get with
    | some q => .ok (.quantized l q)
    | none =>
      match reg l with
      | some q => .ok (.quantized l q)
      | none => .error "RuntimeError: the layer is not supported"

/-- A `QuantizeScheme`: the layout transform and the registry. -/
structure Scheme (V U : Type) where
  transform : Graph V (Meta U) → Except String (Graph V (Meta U))
  registry : Layer → Option (QConfig U)

/-- `quantize_apply`, lines 289-500. -/
def quantizeApply (scheme : Scheme V U) : Arg (AModel V U) → Except String (OModel V U)
  | .none => .error "ValueError: `model` cannot be None"
  | .other => .error "ValueError: `model` can only be a `keras.Model` instance."
  | .subclassed =>
    .error "ValueError: `model` can only either be a keras Sequential or Functional model."
  | .model m =>
    if !m.layers.any fun a => a.annotation.isSome then
      .error "ValueError: `model` must contain at least one annotated layer."
    else if !m.built then .error "ValueError: `model` must be a built model."
    else if ¬ (m.layers.map fun a => a.layer.name).Nodup then
      .error "ValueError: layer names should be unique"
    else
      match scheme.transform (unwrap m) with
      | .error e => .error e
      | .ok g =>
        match mapExcept (quantizeLayer scheme.registry (requiresOutput m) g) g.layers with
        | .error e => .error e
        | .ok ls => .ok { layers := ls, outputs := g.outputs, weights := g.weights }

/-- `quantize_model`, lines 83-142. -/
def quantizeModel (scheme : Scheme V U) (arg : Arg (AModel V U)) : Except String (OModel V U) :=
  match annotateModel arg with
  | .error e => .error e
  | .ok m => quantizeApply scheme (.model m)

/-- `Default8BitQuantizeScheme` (default_8bit_quantize_scheme.py lines 22-35) and
`DefaultNBitQuantizeScheme` (default_n_bit_quantize_scheme.py lines 22-41): the default layout
transform, which runs for at most `fuel` turns here (that a sufficient number exists is
`C58_default_terminates`), and the default registry, of which only the supported classes matter. -/
def defaultScheme [DecidableEq V] [DecidableEq U] (metaEq : Meta U → Meta U → Bool)
    (auto : String → Nat → String) (c : Classes) (expand : V → V) (str1 str2 : String → String)
    (fuel : Nat) : Scheme V U :=
  { transform := fun g =>
      (run metaEq (transforms auto c expand str1 str2) fuel
        (start (transforms auto c expand str1 str2) g)).getD (.error "still running")
    registry := fun l => if c.supported l.cls then some ⟨.default c.params l.cls, false, false⟩ else none }

end Verif.Quant.Apply
