import Verif.Quant.Config

/-!
# QuantizeWrapper, QuantizeAwareActivation and QuantizeLayer

`quantization/keras/quantize_wrapper.py`, `quantize_aware_activation.py`, `quantize_layer.py` and the
configs of `quantize_config.py` that delegate to another config.

A quantizer is what the wrapper sees of it: `build` and `__call__` with the variables it made.  A config
is its five methods.  So the model covers user-defined quantizers and configs.  A layer's `call` is a
program that may read all weights of the layer, may call the activations of the layer and of its cells any
number of times, and may keep state of its own (such as moving statistics).  The attributes of a layer hold
references to variables or tensors, and activation functions or references to `QuantizeAwareActivation`s.
-/

namespace Verif.Quant.Wrapper
open Verif.Quant.Config

/-- A quantizer object: `build` and `__call__` (`quantizers.py` 40-95).  A failing call changes nothing. -/
structure Quant (T V : Type*) where
  build : Option (List ℕ) → Except Err V
  call : V → Bool → T → Except Err (T × V)

/-- A weight attribute of a layer: a variable (by its number) or a tensor. -/
inductive WVal (T : Type*) where
  | var (i : ℕ)
  | tensor (t : T)

/-- An activation function: its `__name__`, or the name of its class if it has none
(`quantize_aware_activation.py` 127-130), and what it computes. -/
structure Act (T : Type*) where
  name : String
  fn : T → T

/-- An activation attribute of a layer: a function, or the `j`-th `QuantizeAwareActivation` of the
wrapper. -/
inductive AVal (T : Type*) where
  | fn (a : Act T)
  | aware (j : ℕ)

/-- A layer that is wrapped. -/
abbrev Layer (T : Type*) := KLayer (WVal T) (AVal T)

/-- The layer itself (`none`) or one of its cells. -/
def part {W A : Type*} (l : KLayer W A) : Option ℕ → Option (Cell W A)
  | none => some l.own
  | some k => l.cells.bind fun cs => cs[k]?

/-- An attribute of a layer: the part it belongs to and its name. -/
abbrev Key := Option ℕ × String

/-- `getattr` of a weight. -/
def weightAt {W A : Type*} (l : KLayer W A) (k : Key) : Option W := (part l k.1).bind fun c => c.weight k.2

/-- `getattr` of an activation. -/
def activationAt {W A : Type*} (l : KLayer W A) (k : Key) : Option A := (part l k.1).bind fun c => c.activation k.2

/-- What a layer returns: a tensor, or a list or tuple of tensors. -/
inductive Out (T : Type*) where
  | one (t : T)
  | many (ts : List T)

/-- The run of a layer's `call`: it ends, or it calls the activation `k` on a tensor and goes on with the
result. -/
inductive Prog (T S : Type*) where
  | ret (o : Out T) (s : S)
  | act (k : Key) (x : T) (next : T → Prog T S)

/-- The method `call` of a layer: state of the layer, weights, the argument `training` if it is passed,
inputs. -/
abbrev LayerFn (T S : Type*) := S → (Key → Option T) → Option Bool → T → Prog T S

/-- The five methods of a `QuantizeConfig`, `quantize_config.py` 30-160. -/
structure Conf (T V : Type*) where
  getWeights : Layer T → Except Err (List (WVal T × Quant T V))
  getActivations : Layer T → Except Err (List (AVal T × Quant T V))
  getOutput : Layer T → Except Err (List (Quant T V))
  setWeights : List (WVal T) → Layer T → Option Err × Layer T
  setActivations : List (AVal T) → Layer T → Option Err × Layer T

/-! ## QuantizeAwareActivation -/

/-- `_PRE_QUANT_ACTIVATIONS`, line 88. -/
def preQuant (name : String) : Bool := name ∈ ["softmax", "sigmoid", "tanh", "gelu"]

/-- `_POST_QUANT_ACTIVATIONS`, line 91. -/
def postQuant (name : String) : Bool := name ∈ ["linear", "relu", "swish", "gelu"]

/-- `_NO_QUANTIZE_ACTIVATIONS`, line 94. -/
def noQuant (name : String) : Bool := name ∈ ["NoOpActivation"]

/-- A `QuantizeAwareActivation`. -/
structure Aware (T V : Type*) where
  act : Act T
  quantizer : Quant T V
  pre : Option V
  post : Option V
  training : Bool

section
variable {T V S : Type*}

/-- Variables, if they are needed; `quantizer.build(None, ...)`. -/
def buildIf (q : Quant T V) (needed : Bool) : Except Err (Option V) :=
  if needed then (q.build none).map some else .ok none

/-- The constructor, lines 102-125.  The property `training` has no value before it is set; the wrapper
sets it before each call. -/
def Aware.make (a : Act T) (q : Quant T V) : Except Err (Aware T V) :=
  if !(preQuant a.name || postQuant a.name || noQuant a.name) then .error .value
  else
    match buildIf q (preQuant a.name) with
    | .error e => .error e
    | .ok pre =>
      match buildIf q (postQuant a.name) with
      | .error e => .error e
      | .ok post => .ok ⟨a, q, pre, post, false⟩

/-- `utils.smart_cond(training, quantizer with training=True, quantizer with training=False)`, if it is
needed. -/
def quantizeIf (q : Quant T V) (v : Option V) (training : Bool) (x : T) : Except Err (T × Option V) :=
  match v with
  | none => .ok (x, none)
  | some v =>
    match q.call v training x with
    | .error e => .error e
    | .ok r => .ok (r.1, some r.2)

/-- `__call__`, lines 156-183.  `_pre_activation_vars` exists exactly if `_should_pre_quantize`. -/
def Aware.call (a : Aware T V) (x : T) : Except Err T × Aware T V :=
  match quantizeIf a.quantizer a.pre a.training x with
  | .error e => (.error e, a)
  | .ok r =>
    match quantizeIf a.quantizer a.post a.training (a.act.fn r.1) with
    | .error e => (.error e, { a with pre := r.2 })
    | .ok r' => (.ok r'.1, { a with pre := r.2, post := r'.2 })

/-! ## QuantizeWrapper -/

/-- A built `QuantizeWrapper` and what it refers to.  The outputs of `get_output_quantizers` after the
first are never used. -/
structure Wrapper (T V S : Type*) where
  /-- the variables of the layer -/
  floats : ℕ → T
  layer : Layer T
  state : S
  /-- `_weight_vars` -/
  weightVars : List (ℕ × Quant T V × V)
  /-- `_quantize_activations` -/
  acts : List (Aware T V)
  /-- `_output_quantizers[0]` and `_output_quantizer_vars` -/
  output : Option (Quant T V × V)

/-- The loop over the weights in `build`, lines 113-122.  A weight that is not a variable has no name. -/
def buildWeights (shape : ℕ → List ℕ) : List (WVal T × Quant T V) → Except Err (List (ℕ × Quant T V × V))
  | [] => .ok []
  | (.tensor _, _) :: _ => .error .attribute
  | (.var i, q) :: rest =>
    match q.build (some (shape i)) with
    | .error e => .error e
    | .ok v =>
      match buildWeights shape rest with
      | .error e => .error e
      | .ok r => .ok ((i, q, v) :: r)

/-- The loop over the activations in `build`, lines 124-130.  A `QuantizeAwareActivation` (of another
wrapper) has no `__name__`, and its class is not supported. -/
def buildActs : List (AVal T × Quant T V) → Except Err (List (Aware T V))
  | [] => .ok []
  | (.aware _, _) :: _ => .error .value
  | (.fn a, q) :: rest =>
    match Aware.make a q with
    | .error e => .error e
    | .ok x =>
      match buildActs rest with
      | .error e => .error e
      | .ok r => .ok (x :: r)

/-- The output quantizer in `build`, lines 132-136. -/
def buildOutput (outShape : List ℕ) : List (Quant T V) → Except Err (Option (Quant T V × V))
  | [] => .ok none
  | q :: _ =>
    match q.build (some outShape) with
    | .error e => .error e
    | .ok v => .ok (some (q, v))

/-- `build`, lines 103-136, after the layer itself has been built. -/
def build (conf : Conf T V) (shape : ℕ → List ℕ) (outShape : List ℕ) (floats : ℕ → T) (l : Layer T) (s : S) :
    Except Err (Wrapper T V S) :=
  match conf.getWeights l with
  | .error e => .error e
  | .ok ws =>
    match buildWeights shape ws with
    | .error e => .error e
    | .ok wv =>
      match conf.getActivations l with
      | .error e => .error e
      | .ok as =>
        match buildActs as with
        | .error e => .error e
        | .ok acts =>
          match conf.getOutput l with
          | .error e => .error e
          | .ok qs =>
            match buildOutput outShape qs with
            | .error e => .error e
            | .ok out => .ok ⟨floats, l, s, wv, acts, out⟩

/-- The loop over the weights in `call`, lines 153-161: the quantized weights, or the exception, and the
variables of the quantizers. -/
def quantizeWeights (floats : ℕ → T) (training : Bool) :
    List (ℕ × Quant T V × V) → Except Err (List T) × List (ℕ × Quant T V × V)
  | [] => (.ok [], [])
  | (i, q, v) :: rest =>
    match q.call v training (floats i) with
    | .error e => (.error e, (i, q, v) :: rest)
    | .ok r =>
      match quantizeWeights floats training rest with
      | (.error e, rest') => (.error e, (i, q, r.2) :: rest')
      | (.ok ws, rest') => (.ok (r.1 :: ws), (i, q, r.2) :: rest')

/-- The value of a weight attribute. -/
def WVal.value (floats : ℕ → T) : WVal T → T
  | .var i => floats i
  | .tensor t => t

/-- The run of the layer's `call`. -/
def runLayer (attr : Key → Option (AVal T)) : List (Aware T V) → Prog T S → Except Err (Out T × S) × List (Aware T V)
  | acts, .ret o s => (.ok (o, s), acts)
  | acts, .act k x next =>
    match attr k with
    | none => (.error .attribute, acts)
    | some (.fn a) => runLayer attr acts (next (a.fn x))
    | some (.aware j) =>
      match acts[j]? with
      | none => (.error .attribute, acts)
      | some a =>
        match a.call x with
        | (.error e, a') => (.error e, acts.set j a')
        | (.ok y, a') => runLayer attr (acts.set j a') (next y)

/-- The end of `call`, lines 180-195. -/
def quantizeOutput (training : Bool) (output : Option (Quant T V × V)) (o : Out T) :
    Except Err (Out T) × Option (Quant T V × V) :=
  match output with
  | none => (.ok o, none)
  | some (q, v) =>
    match o with
    | .many _ => (.error .runtime, some (q, v))
    | .one t =>
      match q.call v training t with
      | .error e => (.error e, some (q, v))
      | .ok r => (.ok (.one r.1), some (q, r.2))

/-- `call`, lines 148-195.  `takesTraining` says whether the layer's `call` has an argument `training`. -/
def call (conf : Conf T V) (fn : LayerFn T S) (takesTraining : Bool) (w : Wrapper T V S) (training : Bool) (x : T) :
    Except Err (Out T) × Wrapper T V S :=
  match quantizeWeights w.floats training w.weightVars with
  | (.error e, wv) => (.error e, { w with weightVars := wv })
  | (.ok ws, wv) =>
    match conf.setWeights (ws.map .tensor) w.layer with
    | (some e, l) => (.error e, { w with weightVars := wv, layer := l })
    | (none, l) =>
      let acts := w.acts.map fun a => { a with training := training }
      match conf.setActivations ((List.range acts.length).map .aware) l with
      | (some e, l) => (.error e, { w with weightVars := wv, layer := l, acts := acts })
      | (none, l) =>
        match runLayer (activationAt l) acts (fn w.state (fun k => (weightAt l k).map (WVal.value w.floats))
          (if takesTraining then some training else none) x) with
        | (.error e, acts) => (.error e, { w with weightVars := wv, layer := l, acts := acts })
        | (.ok (o, s), acts) =>
          match quantizeOutput training w.output o with
          | (r, out) => (r, { w with weightVars := wv, layer := l, acts := acts, state := s, output := out })

/-- What can happen to a wrapper: it is called, or something (an optimizer, `set_weights`) assigns a
variable of the layer; assigning a tensor of another shape fails. -/
inductive Event (T : Type*) where
  | call (training : Bool) (x : T)
  | assign (i : ℕ) (t : T)

/-- `Variable.assign`. -/
def assign (shape : ℕ → List ℕ) (tshape : T → List ℕ) (floats : ℕ → T) (i : ℕ) (t : T) : ℕ → T :=
  if tshape t = shape i then Function.update floats i t else floats

/-- A history: the results of the calls and the wrapper at the end. -/
def run (conf : Conf T V) (fn : LayerFn T S) (takesTraining : Bool) (shape : ℕ → List ℕ) (tshape : T → List ℕ) :
    List (Event T) → Wrapper T V S → List (Except Err (Out T)) × Wrapper T V S
  | [], w => ([], w)
  | .call training x :: rest, w =>
    match call conf fn takesTraining w training x with
    | (r, w') =>
      match run conf fn takesTraining shape tshape rest w' with
      | (rs, w'') => (r :: rs, w'')
  | .assign i t :: rest, w =>
    run conf fn takesTraining shape tshape rest { w with floats := assign shape tshape w.floats i t }

/-- The constructor, lines 46-85: `none` for a layer or config that is `None`; `isLayer` says whether it is a
`keras.layers.Layer` and no `keras.Model`. -/
structure LayerArg where
  isLayer : Bool
  name : String

/-- The checks and the name of a new wrapper, lines 56-88. -/
def construct {C : Type*} (layer : Option LayerArg) (config : Option C) (prefix' : Option String)
    (name : Option String) : Except Err (String × C) :=
  match layer with
  | none => .error .value
  | some l =>
    if !l.isLayer then .error .value
    else
      match config with
      | none => .error .value
      | some c => .ok (name.getD (prefix'.getD "" ++ l.name), c)

/-! ## QuantizeLayer -/

/-- The constructor, lines 39-54: no quantizer, a quantizer, or something else. -/
inductive QArg (T V : Type*) where
  | nothing
  | quantizer (q : Quant T V)
  | other

/-- The constructor, lines 39-54. -/
def quantizeLayer : QArg T V → Except Err (Option (Quant T V))
  | .nothing => .ok none
  | .quantizer q => .ok (some q)
  | .other => .error .value

/-- `build`, lines 56-66. -/
def quantizeLayerBuild (inputShape : List ℕ) : Option (Quant T V) → Except Err (Option (Quant T V × V))
  | none => .ok none
  | some q => (q.build (some inputShape)).map fun v => some (q, v)

/-- `call`, lines 68-84. -/
def quantizeLayerCall (training : Bool) (s : Option (Quant T V × V)) (x : T) :
    Except Err T × Option (Quant T V × V) :=
  match s with
  | none => (.ok x, none)
  | some (q, v) =>
    match q.call v training x with
    | .error e => (.error e, some (q, v))
    | .ok r => (.ok r.1, some (q, r.2))

/-! ## Configs -/

/-- The shape of a weight attribute. -/
def WVal.shape (shape : ℕ → List ℕ) (tshape : T → List ℕ) : WVal T → List ℕ
  | .var i => shape i
  | .tensor t => tshape t

/-- The `__name__` of an activation attribute; a `QuantizeAwareActivation` has none. -/
def AVal.pyName : AVal T → ActName
  | .fn a => some a.name
  | .aware _ => none

/-- The config objects of the registries, with the meaning of their quantizers. -/
def ofConfig (sem : Quantizer → Quant T V) (shape : ℕ → List ℕ) (tshape : T → List ℕ) (c : Config) : Conf T V where
  getWeights l := (c.getWeights l).map fun ws => ws.map fun w => (w.1, sem w.2)
  getActivations l := (c.getActivations l).map fun as => as.map fun a => (a.1, sem a.2)
  getOutput l := (c.getOutput AVal.pyName l).map fun qs => qs.map sem
  setWeights ws l := c.setWeights (WVal.shape shape tshape) ws l
  setActivations as l := c.setActivations as l

/-- `OutputOnlyConfig`, `quantize_config.py` 205-225, around any config. -/
def outputOnly (c : Conf T V) : Conf T V where
  getWeights _ := .ok []
  getActivations := c.getActivations
  getOutput := c.getOutput
  setWeights _ l := (none, l)
  setActivations := c.setActivations

/-- `FixedQuantizeConfig`, `quantize_config.py` 235-270, around any config. -/
def fixedConfig (q : Quant T V) (c : Conf T V) : Conf T V where
  getWeights := c.getWeights
  getActivations l := (c.getActivations l).map fun as => as.map fun a => (a.1, q)
  getOutput l := (c.getOutput l).map fun qs => qs.map fun _ => q
  setWeights := c.setWeights
  setActivations := c.setActivations

/-- The shipped quantizers as the wrapper sees them; every failure is a `ValueError` here. -/
def shipped {α : Type*} [Field α] [LinearOrder α] [IsStrictOrderedRing α] [FloorRing α] (q : Quantizer) :
    Quant (QTensor α) (RangeVars α) where
  build s :=
    match q.build s with
    | none => .error .value
    | some v => .ok v
  call v training t :=
    match q.call v training t with
    | none => .error .value
    | some r => .ok r

end

end Verif.Quant.Wrapper
