import Verif.Quant.Transformer

/-
Model of the default layout transforms, of the 8-bit scheme and of the n-bit scheme,

  /repo/tensorflow_model_optimization/python/core/quantization/keras/default_8bit/
    default_8bit_transforms.py
    default_8bit_quantize_layout_transform.py
  /repo/tensorflow_model_optimization/python/core/quantization/keras/experimental/default_n_bit/
    default_n_bit_transforms.py
    default_n_bit_quantize_layout_transform.py

Line numbers without a file are those of default_8bit_transforms.py.  The two files of transforms differ
in the number of bits, in the concat transform (two places) and in the order of the list; the functions
below take the number of bits as an argument, which is `none` for the 8-bit scheme.

Each transform is its pattern and its replacement.  Layer names made up by Keras (`unique_object_name`
or the automatic name of a layer constructed without a name) are `auto prefix k` for the next value
`k` of a counter, where `auto` is a parameter (`autoName` is the instance `prefix_k`).  The configuration of a new layer has the entries the code passes to the
constructor; the other entries (all defaults) are left out.
-/
namespace Verif.Quant.Transforms8Bit

open Verif.Quant.Transformer

/-- `num_bits_weight` and `num_bits_activation` of the n-bit scheme; `none`: the 8-bit scheme, whose
classes have no such arguments. -/
abbrev Bits := Option (Nat × Nat)

/-- The arguments of a registry: `DefaultNBitQuantizeRegistry(disable_per_axis, num_bits_weight,
num_bits_activation)` or `Default8BitQuantizeRegistry(disable_per_axis)`. -/
structure Params where
  bits : Bits := none
  disablePerAxis : Bool := false
deriving DecidableEq, Repr

/-- What a quantize config is: the user's own config, `NoOpQuantizeConfig`,
`Default8BitOutputQuantizeConfig()` or `DefaultNBitOutputQuantizeConfig(bits)`, or the config that the
registry with these arguments has for a layer class. -/
inductive Kind (U : Type) where
  | custom (u : U)
  | noOp
  | output (bits : Bits)
  | default (params : Params) (cls : String)
deriving DecidableEq, Repr

/-- A quantize config; `outputOff` says that its method `get_output_quantizers` was replaced by
`_disable_output_quantize`, and `savedOff` that its attribute `quantize_output` was set to `False`, which
`get_config` returns. -/
structure QConfig (U : Type) where
  kind : Kind U
  outputOff : Bool := false
  savedOff : Bool := false
deriving DecidableEq, Repr

/-- `hasattr(quantize_config, 'quantize_output')` for the configs of the 8-bit scheme.  (A user's own
config may have an attribute of this name; what it means is up to the user, and it is left out.) -/
def Kind.hasQuantizeOutput {U : Type} : Kind U → Bool
  | .output none => true
  | .default p _ => p.bits.isNone
  | _ => false

/-- A metadata dictionary: the key `'quantize_config'` (absent, `None` or a config) and whether the
key `'quantizer'` (always `None`) is present. -/
structure Meta (U : Type) where
  config : Option (Option (QConfig U)) := none
  quantizer : Bool := false
deriving DecidableEq, Repr

instance {U : Type} : Inhabited (Meta U) := ⟨{}⟩

variable {V U : Type}

/-- `_get_quantize_config`, lines 83-84: `metadata.get('quantize_config')`. -/
def Meta.get (m : Meta U) : Option (QConfig U) := m.config.getD none

/-- `metadata['quantize_config'] = config`. -/
def Meta.set (m : Meta U) (k : Kind U) : Meta U := { m with config := some (some ⟨k, false, false⟩) }

/-- `layer['config'][key] = value`. -/
def setKey (config : List (String × String)) (key value : String) : List (String × String) :=
  if config.any fun e => e.1 = key then
    config.map fun e => if e.1 = key then (key, value) else e
  else config ++ [(key, value)]

/-- The serialized `NoOpActivation`. -/
def noOpActivation : String := "{'class_name': 'NoOpActivation', 'config': {}}"

/-- `layer_node.layer['config']['activation'] = NoOpActivation`. -/
def setNoOp : Node V (Meta U) → Node V (Meta U)
  | .mk l w m ins => .mk { l with config := setKey l.config "activation" noOpActivation } w m ins

/-- `layer_node.metadata['quantize_config'] = config`. -/
def setConfig (k : Kind U) : Node V (Meta U) → Node V (Meta U)
  | .mk l w m ins => .mk l w (m.set k) ins

/-- Replacing the input nodes (the Python code updates them in place). -/
def withInputs : Node V (Meta U) → List (Node V (Meta U)) → Node V (Meta U)
  | .mk l w m _, ins => .mk l w m ins

/-- An update of the first input node. -/
def onInput (f : Node V (Meta U) → Node V (Meta U)) (n : Node V (Meta U)) : Node V (Meta U) :=
  match n.inputs with
  | [] => n
  | i :: is => withInputs n (f i :: is)

/-- Whether the node has a config: `_get_quantize_config(layer_node) is not None`. -/
def hasConfig (n : Node V (Meta U)) : Bool := n.info.get.isSome

/-- `_has_custom_quantize_config(n, n.input_layers[0], ...)` along `depth` further layers, lines
87-91, where `skip` tells which depths are not inspected. -/
def chainHasConfig : List Bool → Node V (Meta U) → Bool
  | [], _ => false
  | look :: more, n =>
    (look && hasConfig n) ||
      (match n.inputs with
       | [] => false
       | i :: _ => chainHasConfig more i)

def bnClass : String := "BatchNormalization|SyncBatchNormalization"
def convClass : String := "Conv2D|DepthwiseConv2D"
def squeezeName : String := "sepconv1d_squeeze.*"

/-- `Conv2D|DepthwiseConv2D` with a linear activation. -/
def convPattern : Pattern := .mk convClass [("activation", "linear")] []
/-- `Conv2DBatchNormQuantize.pattern`, lines 115-119. -/
def convBNPattern : Pattern := .mk bnClass [] [convPattern]
/-- `Conv2DReshapeBatchNormQuantize.pattern`, lines 155-162. -/
def convReshapeBNPattern : Pattern :=
  .mk bnClass [] [.mk "Lambda" [("name", squeezeName)] [convPattern]]
/-- `DenseBatchNormQuantize.pattern`, lines 265-268. -/
def denseBNPattern : Pattern := .mk bnClass [] [.mk "Dense" [("activation", "linear")] []]

/-- `_replace` of `Conv2DBatchNormQuantize` (lines 121-133) and `DenseBatchNormQuantize` (lines
270-282): the producer gets a no-op activation and the batch normalization an output-only config. -/
def replaceBN (b : Bits) (n : Node V (Meta U)) : Node V (Meta U) :=
  if chainHasConfig [true, true] n then n else setConfig (.output b) (onInput setNoOp n)

/-- `Conv2DReshapeBatchNormQuantize.replacement`, lines 164-169: the reshape layer is not
inspected. -/
def replaceReshapeBN (b : Bits) (n : Node V (Meta U)) : Node V (Meta U) :=
  if chainHasConfig [true, false, true] n then n
  else setConfig (.output b) (onInput (onInput setNoOp) n)

/-- `_replace` of `Conv2DBatchNormReLUQuantize` (lines 185-198) and `DenseBatchNormReLUQuantize`
(lines 308-321): the producer gets a no-op activation, the batch normalization a no-op config. -/
def replaceBNReLU (n : Node V (Meta U)) : Node V (Meta U) :=
  if chainHasConfig [true, true, true] n then n
  else onInput (fun bn => setConfig .noOp (onInput setNoOp bn)) n

/-- `Conv2DReshapeBatchNormReLUQuantize.replacement`, lines 234-240. -/
def replaceReshapeBNReLU (n : Node V (Meta U)) : Node V (Meta U) :=
  if chainHasConfig [true, true, false, true] n then n
  else onInput (fun bn => setConfig .noOp (onInput (onInput setNoOp) bn)) n

/-- `LayerReLUQuantize.replacement`, lines 578-585. -/
def replaceLayerReLU (n : Node V (Meta U)) : Node V (Meta U) := onInput (setConfig .noOp) n

/-- A transform whose replacement neither fails nor makes up names. -/
def pureTransform (name : String) (pattern : Pattern) (f : Node V (Meta U) → Node V (Meta U)) :
    Transform V (Meta U) :=
  { name := name, pattern := pattern, replacement := fun k n => .ok (f n, k) }

/-- The automatic name with counter `k`. -/
def autoName (pre : String) (k : Nat) : String := pre ++ "_" ++ toString k

/-- The metadata `{'quantize_config': None}`. -/
def noneMeta : Meta U := { config := some none }

/-- The entry `key` of the old configuration under the key `new`. -/
def entry (l : Layer) (new key : String) : String × String := (new, l.get key)

/-- `SeparableConv1DQuantize.replacement`, lines 371-470: a `Lambda` that expands, a
`SeparableConv2D` and a `Lambda` that squeezes.  `expand` is `np.expand_dims(., 0)`; `str1` and
`str2` stand for the computations on `kernel_size`/`dilation_rate` and on `strides`, of which only
the text of the result is kept. -/
def replaceSepConv1D (auto : String → Nat → String) (expand : V → V) (str1 str2 : String → String)
    (k : Nat) (n : Node V (Meta U)) : Except String (Node V (Meta U) × Nat) :=
  if hasConfig n then .ok (n, k)
  else if n.layer.get "padding" = "causal" then
    .error "SeparableConv1D with causal padding is not supported."
  else
    let l := n.layer
    let spatial := if l.get "data_format" = "channels_last" then "1" else "2"
    let ws := n.weights.map (·.2)
    let bias := if l.get "use_bias" = "True" then
        (ws.drop 2).take 1 |>.map fun w => ("bias:0", w) else []
    let weights :=
      ((ws.take 1).map fun w => ("depthwise_kernel:0", expand w)) ++
      (((ws.drop 1).take 1).map fun w => ("pointwise_kernel:0", expand w)) ++ bias
    let conv : Layer :=
      { name := l.name ++ "_QAT_SepConv2D", cls := "SeparableConv2D", inbound := []
        config :=
          [("kernel_size", str1 (l.get "kernel_size")), ("strides", str2 (l.get "strides")),
           ("dilation_rate", str1 (l.get "dilation_rate"))] ++
          (["filters", "padding", "data_format", "depth_multiplier", "activation", "use_bias",
            "depthwise_initializer", "pointwise_initializer", "bias_initializer",
            "depthwise_regularizer", "pointwise_regularizer", "bias_regularizer",
            "activity_regularizer", "depthwise_constraint", "pointwise_constraint",
            "bias_constraint", "trainable"].map fun key => entry l key key) }
    let expandLayer : Layer :=
      { name := auto "sepconv1d_expand" k, cls := "Lambda", inbound := []
        config := [("function", "expand_dims " ++ spatial)] }
    let squeezeLayer : Layer :=
      { name := auto "sepconv1d_squeeze" (k + 1), cls := "Lambda", inbound := []
        config := [("function", "squeeze " ++ spatial)] }
    let noOp : Meta U := { config := some (some ⟨.noOp, false, false⟩) }
    .ok (.mk squeezeLayer [] noOp [.mk conv weights noneMeta [.mk expandLayer [] noOp []]], k + 2)

/-- `SeparableConvQuantize.replacement`, lines 491-564: a `DepthwiseConv2D` and a `Conv2D`. -/
def replaceSepConv (auto : String → Nat → String) (k : Nat) (n : Node V (Meta U)) :
    Except String (Node V (Meta U) × Nat) :=
  if hasConfig n then .ok (n, k)
  else
    let l := n.layer
    let ws := n.weights.map (·.2)
    let dconv : Layer :=
      { name := auto "depthwise_conv2d" k, cls := "DepthwiseConv2D", inbound := []
        config :=
          [("activation", "linear"), ("use_bias", "False")] ++
          (["kernel_size", "strides", "padding", "depth_multiplier", "data_format",
            "dilation_rate", "depthwise_initializer", "depthwise_regularizer",
            "depthwise_constraint", "trainable"].map fun key => entry l key key) }
    let conv : Layer :=
      { name := auto "conv2d" (k + 1), cls := "Conv2D", inbound := []
        config :=
          [("kernel_size", "(1, 1)"), ("strides", "(1, 1)"), ("padding", "valid"), ("groups", "1"),
           entry l "kernel_initializer" "pointwise_initializer",
           entry l "kernel_regularizer" "pointwise_regularizer",
           entry l "kernel_constraint" "pointwise_constraint"] ++
          (["filters", "data_format", "dilation_rate", "activation", "use_bias",
            "bias_initializer", "bias_regularizer", "activity_regularizer", "bias_constraint",
            "trainable"].map fun key => entry l key key) }
    let dweights := (ws.take 1).map fun w => ("depthwise_kernel:0", w)
    let cweights := (((ws.drop 1).take 1).map fun w => ("kernel:0", w)) ++
      (if l.get "use_bias" = "True" then ((ws.drop 2).take 1).map fun w => ("bias:0", w) else [])
    .ok (.mk conv cweights noneMeta [.mk dconv dweights noneMeta []], k + 2)

/-- The number of bits for activations. -/
def activationBits : Bits → Nat
  | none => 8
  | some b => b.2

/-- `InputLayerQuantize.replacement`, lines 616-629 (n-bit: lines 661-675): a `QuantizeLayer` after the
input. -/
def replaceInput (b : Bits) (auto : String → Nat → String) (k : Nat) (n : Node V (Meta U)) :
    Except String (Node V (Meta U) × Nat) :=
  .ok (.mk { name := auto "quantize_layer" k, cls := "QuantizeLayer", inbound := []
             config := [("quantizer", "AllValuesQuantizer"),
               ("num_bits", toString (activationBits b))] } [] default [n], k + 1)

/-- The scheme, and what the concat transform needs to know about layer classes: the names in
`keras.layers` (`_get_layer_type`, lines 649-656) and the classes the registry supports
(`_is_supported_layer`). -/
structure Classes where
  keras : String → Bool
  supported : String → Bool
  params : Params := {}

/-- `_disable_output_quantize`, lines 658-664 (n-bit: lines 706-709, which leaves the attribute
`quantize_output` alone). -/
def disableOutput (b : Bits) (n : Node V (Meta U)) : Node V (Meta U) :=
  match n with
  | .mk l w m ins =>
    .mk l w { m with config := m.config.map fun c => c.map fun q =>
      { q with outputOff := true, savedOff := q.savedOff || (b.isNone && q.kind.hasQuantizeOutput) } } ins

/-- What the loop over the feeding layers does with one of them, lines 674-699: `none` means that
the transform gives up; the Boolean says whether the config is in `feed_quantize_configs`.  The n-bit
transform (lines 720-742) does not know the class `QuantizeLayer`.  The registry is made without the
argument `disable_per_axis` (lines 670-671; n-bit: lines 715-718). -/
def feed (c : Classes) (n : Node V (Meta U)) : Option (Node V (Meta U) × Bool) :=
  if hasConfig n then some (n, true)
  else if n.layer.cls = "QuantizeLayer" then
    match c.params.bits, n with
    | none, .mk l w m ins => some (.mk l w { m with quantizer := true } ins, false)
    | some _, _ => none
  else if !c.keras n.layer.cls then none
  else if n.layer.cls = "Concatenate" then some (setConfig .noOp n, false)
  else if !c.supported n.layer.cls then none
  else some (setConfig (.default { bits := c.params.bits } n.layer.cls) n, true)

/-- The loop over the feeding layers: the layers as they are after it, and whether it gave up (the
layers before the one where it gave up have been changed in place by then). -/
def feeds (c : Classes) : List (Node V (Meta U)) → List (Node V (Meta U) × Bool) × Bool
  | [] => ([], true)
  | n :: ns =>
    match feed c n with
    | none => ((n :: ns).map fun x => (x, false), false)
    | some e => (e :: (feeds c ns).1, (feeds c ns).2)

/-- `ConcatTransform.replacement`, lines 666-712. -/
def replaceConcat (c : Classes) (n : Node V (Meta U)) : Node V (Meta U) :=
  if (feeds c n.inputs).2 then
    let n' := withInputs n ((feeds c n.inputs).1.map fun e => if e.2 then disableOutput c.params.bits e.1 else e.1)
    if hasConfig n' then n' else setConfig (.output c.params.bits) n'
  else withInputs n ((feeds c n.inputs).1.map (·.1))

/-- A `Concatenate` of `k` layers of any class. -/
def concatPattern (k : Nat) : Pattern := .mk "Concatenate" [] (List.replicate k (.mk ".*" [] []))

/-- The layers in front of a ReLU that `LayerReLUQuantize` looks for. -/
def producer : Pattern := .mk "Add|Conv2D|DepthwiseConv2D|Dense" [] []

def reluAct (p : Pattern) : Pattern := .mk "Activation" [("activation", "relu")] [p]

/-- The transforms for a `Dense` layer in front of a batch normalization, lines 262-346. -/
def denseTransforms (b : Bits) : List (Transform V (Meta U)) :=
  [ pureTransform "DenseBatchNormQuantize" denseBNPattern (replaceBN b),
    pureTransform "DenseBatchNormReLUQuantize" (.mk "ReLU" [] [denseBNPattern]) replaceBNReLU,
    pureTransform "DenseBatchNormActivationQuantize" (reluAct denseBNPattern) replaceBNReLU ]

/-- The transforms for a layer in front of a ReLU, lines 567-605. -/
def reluTransforms : List (Transform V (Meta U)) :=
  [ pureTransform "LayerReLUQuantize" (.mk "ReLU" [] [producer]) replaceLayerReLU,
    pureTransform "LayerReluActivationQuantize" (reluAct producer) replaceLayerReLU ]

/-- The transforms of `Default8BitQuantizeLayoutTransform.apply`, in order
(default_8bit_quantize_layout_transform.py lines 53-73), and of `DefaultNBitQuantizeLayoutTransform.apply`
(default_n_bit_quantize_layout_transform.py lines 57-134), where the last five come in another order. -/
def transforms (auto : String → Nat → String) (c : Classes) (expand : V → V) (str1 str2 : String → String) :
    List (Transform V (Meta U)) :=
  [ { name := "InputLayerQuantize", pattern := .mk "InputLayer" [] []
      replacement := replaceInput c.params.bits auto },
    { name := "SeparableConv1DQuantize", pattern := .mk "SeparableConv1D" [] []
      replacement := replaceSepConv1D auto expand str1 str2 },
    { name := "SeparableConvQuantize", pattern := .mk "SeparableConv2D" [] []
      replacement := replaceSepConv auto },
    pureTransform "Conv2DReshapeBatchNormReLUQuantize" (.mk "ReLU" [] [convReshapeBNPattern])
      replaceReshapeBNReLU,
    pureTransform "Conv2DReshapeBatchNormActivationQuantize" (reluAct convReshapeBNPattern)
      replaceReshapeBNReLU,
    pureTransform "Conv2DBatchNormReLUQuantize" (.mk "ReLU" [] [convBNPattern]) replaceBNReLU,
    pureTransform "Conv2DBatchNormActivationQuantize" (reluAct convBNPattern) replaceBNReLU,
    pureTransform "Conv2DReshapeBatchNormQuantize" convReshapeBNPattern (replaceReshapeBN c.params.bits),
    pureTransform "Conv2DBatchNormQuantize" convBNPattern (replaceBN c.params.bits),
    pureTransform "ConcatTransform6Inputs" (concatPattern 6) (replaceConcat c),
    pureTransform "ConcatTransform5Inputs" (concatPattern 5) (replaceConcat c),
    pureTransform "ConcatTransform4Inputs" (concatPattern 4) (replaceConcat c),
    pureTransform "ConcatTransform3Inputs" (concatPattern 3) (replaceConcat c),
    pureTransform "ConcatTransform" (concatPattern 2) (replaceConcat c) ] ++
  (match c.params.bits with
   | none => denseTransforms none ++ reluTransforms
   | some b => reluTransforms ++ denseTransforms (some b))

end Verif.Quant.Transforms8Bit
