import Verif.Quant.Ops
import Mathlib.Logic.Function.Basic

/-!
# Quantize configs and quantize registries

`quantization/keras/default_8bit/default_8bit_quantize_registry.py` (below `R8`),
`quantization/keras/experimental/default_n_bit/default_n_bit_quantize_registry.py` (below `RN`),
`default_8bit_quantizers.py`, `default_n_bit_quantizers.py`, `default_8bit_quantize_configs.py`,
`default_n_bit_quantize_configs.py`, `quantize_config.py` and the equality methods of `quantizers.py`.

The 8-bit and the n-bit classes are modelled together; `nBit` says which family an object belongs to.
A layer is what the configs see of it: its class, its weight and activation attributes, and the cells
of an RNN layer.  Python exceptions are values of `Err`; methods that mutate the layer return the
layer they leave behind together with the exception, if any.
-/

namespace Verif.Quant.Config
open Verif.Quant

/-- The exceptions that can be raised. -/
inductive Err where
  | value
  | runtime
  | attribute
  | type
  deriving DecidableEq

/-! ## Quantizers -/

/-- The quantizer classes the configs use. -/
inductive QClass where
  | lastValue
  | movingAverage
  | allValues
  /-- `Default8BitConvWeightsQuantizer`, `DefaultNBitConvWeightsQuantizer` -/
  | convWeights
  /-- `Default8BitConvTransposeWeightsQuantizer`, `DefaultNBitConvTransposeWeightsQuantizer` -/
  | convTransposeWeights
  deriving DecidableEq

/-- The base class in `quantizers.py`, `default_8bit_quantizers.py` 23, 49. -/
def QClass.kind : QClass → QKind
  | .lastValue => .lastValue
  | .movingAverage => .movingAverage
  | .allValues => .allValues
  | .convWeights => .lastValue
  | .convTransposeWeights => .lastValue

/-- A quantizer object. -/
structure Quantizer where
  cls : QClass
  cfg : QCfg
  deriving DecidableEq

/-- `__eq__` of the quantizers, `quantizers.py` 211-218, 283-290, 361-368: `isinstance` of the base
class, then the four constructor arguments. -/
def Quantizer.eq (a b : Quantizer) : Bool :=
  decide (a.cls.kind = b.cls.kind) && decide (a.cfg.numBits = b.cfg.numBits) &&
    decide (a.cfg.perAxis = b.cfg.perAxis) && decide (a.cfg.symmetric = b.cfg.symmetric) &&
    decide (a.cfg.narrow = b.cfg.narrow)

section Tensors
variable {α : Type*} [Field α] [LinearOrder α] [IsStrictOrderedRing α] [FloorRing α]

/-- `tf.transpose(inputs, (0, 1, 3, 2))`; a tensor of another rank than 4 is an error. -/
def transpose0132 (t : QTensor α) : Option (QTensor α) :=
  match t.shape with
  | [a, b, c, d] => some ⟨[a, b, d, c], (List.range (a * b * (d * c))).map fun p =>
      t.data.getD ((p / (d * c)) * (c * d) + (p % c) * d + p % (d * c) / c) 0⟩
  | _ => none

/-- `build`: `default_8bit_quantizers.py` 32-46 for the convolution quantizer (the last dimension of a
`None` shape is a `TypeError`), else the one of the base class. -/
def Quantizer.build (q : Quantizer) (shape : Option (List ℕ)) : Option (RangeVars α) :=
  match q.cls with
  | .convWeights => shape.map fun s => addRangeWeights true (some s)
  | c => some (c.kind.build q.cfg shape)

/-- `__call__`: `default_8bit_quantizers.py` 58-63 for the transposed convolution, else the one of the
base class. -/
def Quantizer.call (q : Quantizer) (v : RangeVars α) (training : Bool) (t : QTensor α) :
    Option (QTensor α × RangeVars α) :=
  match q.cls with
  | .convTransposeWeights =>
    (transpose0132 t).bind fun t' => (QKind.lastValue.call q.cfg v training t').bind fun r =>
      (transpose0132 r.1).map fun o => (o, r.2)
  | c => c.kind.call q.cfg v training t

end Tensors

/-! ## Layers -/

/-- The attributes of a layer or of an RNN cell.  `none` means that there is no such attribute. -/
structure Cell (W A : Type*) where
  cls : String
  weight : String → Option W
  activation : String → Option A

/-- A layer; `cells` are the cells of an RNN layer (`_get_rnn_cells`, R8 65-70), `none` for a layer
without an attribute `cell`. -/
structure KLayer (W A : Type*) where
  own : Cell W A
  cells : Option (List (Cell W A))

/-! ## The default configs -/

/-- An element of `weight_attrs` or `activation_attrs`: an attribute name, or the list of names of one
RNN cell. -/
inductive AttrVal where
  | one (s : String)
  | many (l : List String)
  deriving DecidableEq

/-- The class of a default config. -/
inductive CClass where
  | plain
  | rnn
  | conv
  | convTranspose
  deriving DecidableEq

/-- `Default8BitQuantizeConfig`, `DefaultNBitQuantizeConfig` and their subclasses. -/
structure DConfig where
  nBit : Bool
  cls : CClass
  weightAttrs : List AttrVal
  activationAttrs : List AttrVal
  quantizeOutput : Bool
  /-- `_num_bits_weight`, `_num_bits_activation` of the n-bit classes -/
  bitsWeight : ℕ
  bitsActivation : ℕ
  weightQuantizer : Quantizer
  activationQuantizer : Quantizer
  deriving DecidableEq

/-- The constructors, R8 289-299, 517-522, 528-533; RN 322-337, 548-557, 564-574.  In the 8-bit family
both numbers of bits are 8. -/
def DConfig.mk' (nBit : Bool) (cls : CClass) (w a : List AttrVal) (out : Bool) (bw ba : ℕ) : DConfig :=
  let bw := if nBit then bw else 8
  let ba := if nBit then ba else 8
  { nBit := nBit, cls := cls, weightAttrs := w, activationAttrs := a, quantizeOutput := out
    bitsWeight := bw, bitsActivation := ba
    weightQuantizer := match cls with
      | .conv => ⟨.convWeights, ⟨bw, true, true, true⟩⟩
      | .convTranspose => ⟨.convTransposeWeights, ⟨bw, false, true, true⟩⟩
      | _ => ⟨.lastValue, ⟨bw, false, true, true⟩⟩
    activationQuantizer := ⟨.movingAverage, ⟨ba, false, false, false⟩⟩ }

/-- `__eq__`, R8 364-372, RN 404-412.  `activation_attrs` is compared with itself. -/
def DConfig.eq (a b : DConfig) : Bool :=
  decide (a.nBit = b.nBit) && (decide (a.weightAttrs = b.weightAttrs) &&
    decide (a.activationAttrs = a.activationAttrs) && a.weightQuantizer.eq b.weightQuantizer &&
    a.activationQuantizer.eq b.activationQuantizer && decide (a.quantizeOutput = b.quantizeOutput))

/-- The attribute names one cell contributes; a string is iterated over its characters. -/
def AttrVal.names : AttrVal → List String
  | .one s => s.toList.map fun c => String.ofList [c]
  | .many l => l

/-- The name of an attribute; `getattr` with a list is a `TypeError`. -/
def AttrVal.name : AttrVal → Option String
  | .one s => some s
  | .many _ => none

section Access
variable {W A : Type*}

/-- `getattr` for every name of a list. -/
def getAll {X : Type*} (get : String → Option X) : List String → Except Err (List X)
  | [] => .ok []
  | a :: rest =>
    match get a with
    | none => .error .attribute
    | some x =>
      match getAll get rest with
      | .error e => .error e
      | .ok xs => .ok (x :: xs)

/-- The loop over `zip(attrs, cells)` of the RNN getters, R8 381-399. -/
def getCells {X : Type*} (get : Cell W A → String → Option X) :
    List AttrVal → List (Cell W A) → Except Err (List X)
  | a :: as, c :: cs =>
    match getAll (get c) a.names with
    | .error e => .error e
    | .ok xs =>
      match getCells get as cs with
      | .error e => .error e
      | .ok ys => .ok (xs ++ ys)
  | _, _ => .ok []

/-- The attribute names of a non-recurrent config. -/
def plainNames : List AttrVal → Except Err (List String)
  | [] => .ok []
  | .one s :: rest => (plainNames rest).map (s :: ·)
  | .many _ :: _ => .error .type

/-- The attributes of a layer a config refers to, without the quantizers: `get_weights_and_quantizers`
and `get_activations_and_quantizers`, R8 301-307, 381-399. -/
def getAttrs {X : Type*} (cls : CClass) (get : Cell W A → String → Option X) (attrs : List AttrVal)
    (l : KLayer W A) : Except Err (List X) :=
  match cls with
  | .rnn =>
    match l.cells with
    | none => .error .attribute
    | some cs => getCells get attrs cs
  | _ =>
    match plainNames attrs with
    | .error e => .error e
    | .ok names => getAll (get l.own) names

/-- `get_weights_and_quantizers`, R8 301-303, 381-389. -/
def DConfig.getWeights (c : DConfig) (l : KLayer W A) : Except Err (List (W × Quantizer)) :=
  (getAttrs c.cls Cell.weight c.weightAttrs l).map fun ws => ws.map fun w => (w, c.weightQuantizer)

/-- `get_activations_and_quantizers`, R8 305-307, 391-399. -/
def DConfig.getActivations (c : DConfig) (l : KLayer W A) : Except Err (List (A × Quantizer)) :=
  (getAttrs c.cls Cell.activation c.activationAttrs l).map fun as => as.map fun a => (a, c.activationQuantizer)

/-- `get_output_quantizers`, R8 337-340. -/
def DConfig.getOutput (c : DConfig) : List Quantizer :=
  if c.quantizeOutput then [c.activationQuantizer] else []

/-- `setattr(layer, weight_attr, weight)`. -/
def Cell.setWeight (c : Cell W A) (name : String) (w : W) : Cell W A :=
  { c with weight := Function.update c.weight name (some w) }

/-- `setattr(layer, activation_attr, activation)`. -/
def Cell.setActivation (c : Cell W A) (name : String) (a : A) : Cell W A :=
  { c with activation := Function.update c.activation name (some a) }

/-- The loop of `set_quantize_weights` over one layer or cell, R8 316-323, 416-429. -/
def setWeightsLoop (shape : W → List ℕ) : List (String × W) → Cell W A → Option Err × Cell W A
  | [], c => (none, c)
  | (a, w) :: rest, c =>
    match c.weight a with
    | none => (some .attribute, c)
    | some cur =>
      if shape cur ≠ shape w then (some .value, c) else setWeightsLoop shape rest (c.setWeight a w)

/-- The loop of `set_quantize_activations` over one layer or cell, R8 333-335, 440-445. -/
def setActivationsLoop : List (String × A) → Cell W A → Cell W A
  | [], c => c
  | (a, x) :: rest, c => setActivationsLoop rest (c.setActivation a x)

/-- The loop of `set_quantize_weights` over the cells of an RNN, R8 416-429. -/
def setWeightsCells (shape : W → List ℕ) : List AttrVal → List W → List (Cell W A) →
    Option Err × List (Cell W A)
  | a :: as, ws, c :: cs =>
    match setWeightsLoop shape (a.names.zip ws) c with
    | (some e, c') => (some e, c' :: cs)
    | (none, c') =>
      match setWeightsCells shape as (ws.drop a.names.length) cs with
      | (e, cs') => (e, c' :: cs')
  | _, _, cs => (none, cs)

/-- The loop of `set_quantize_activations` over the cells of an RNN, R8 440-445. -/
def setActivationsCells : List AttrVal → List A → List (Cell W A) → List (Cell W A)
  | a :: as, xs, c :: cs =>
    setActivationsLoop (a.names.zip xs) c :: setActivationsCells as (xs.drop a.names.length) cs
  | _, _, cs => cs

/-- `_flatten`, R8 401-406. -/
def flattenAttrs (attrs : List AttrVal) : List String := attrs.flatMap AttrVal.names

/-- `set_quantize_weights`, R8 309-323, 408-429. -/
def DConfig.setWeights (shape : W → List ℕ) (c : DConfig) (ws : List W) (l : KLayer W A) :
    Option Err × KLayer W A :=
  match c.cls with
  | .rnn =>
    if (flattenAttrs c.weightAttrs).length ≠ ws.length then (some .value, l)
    else
      match l.cells with
      | none => (some .attribute, l)
      | some cs =>
        match setWeightsCells shape c.weightAttrs ws cs with
        | (e, cs') => (e, { l with cells := some cs' })
  | _ =>
    if c.weightAttrs.length ≠ ws.length then (some .value, l)
    else
      match plainNames c.weightAttrs with
      | .error e => (some e, l)
      | .ok names =>
        match setWeightsLoop shape (names.zip ws) l.own with
        | (e, own') => (e, { l with own := own' })

/-- `set_quantize_activations`, R8 325-335, 431-445. -/
def DConfig.setActivations (c : DConfig) (xs : List A) (l : KLayer W A) : Option Err × KLayer W A :=
  match c.cls with
  | .rnn =>
    if (flattenAttrs c.activationAttrs).length ≠ xs.length then (some .value, l)
    else
      match l.cells with
      | none => (some .attribute, l)
      | some cs => (none, { l with cells := some (setActivationsCells c.activationAttrs xs cs) })
  | _ =>
    if c.activationAttrs.length ≠ xs.length then (some .value, l)
    else
      match plainNames c.activationAttrs with
      | .error e => (some e, l)
      | .ok names => (none, { l with own := setActivationsLoop (names.zip xs) l.own })

end Access

/-! ## The other shipped configs -/

/-- An activation function as the configs see it: its `__name__`, if it has one. -/
abbrev ActName := Option String

/-- A quantize config. -/
inductive Config where
  /-- the default configs -/
  | dflt (c : DConfig)
  /-- `Default8BitActivationQuantizeConfig` (R8 448-511), `DefaultNBitActivationQuantizeConfig`
  (RN 486-542; it has no `quantize_output`) -/
  | activation (nBit : Bool) (bits : ℕ) (quantizeOutput : Bool)
  /-- `Default8BitOutputQuantizeConfig`, `default_8bit_quantize_configs.py` 21-46 -/
  | output (bits : ℕ) (quantizeOutput : Bool)
  /-- `NoOpQuantizeConfig`, `default_8bit_quantize_configs.py` 49-68 -/
  | noOp
  /-- `OutputOnlyConfig`, `quantize_config.py` 205-232 -/
  | outputOnly (c : Config)
  deriving DecidableEq

section Access
variable {W A : Type*}

/-- `_assert_activation_layer`, R8 464-468. -/
def assertActivation (l : KLayer W A) : Except Err Unit :=
  if l.own.cls = "Activation" then .ok () else .error .runtime

/-- `get_weights_and_quantizers`: R8 470-472, `default_8bit_quantize_configs.py` 27-28, 52-53,
`quantize_config.py` 211-212. -/
def Config.getWeights (l : KLayer W A) : Config → Except Err (List (W × Quantizer))
  | .dflt c => c.getWeights l
  | .activation _ _ _ => (assertActivation l).map fun _ => []
  | _ => .ok []

/-- `get_activations_and_quantizers`: R8 474-476, `default_8bit_quantize_configs.py` 30-31, 55-56,
`quantize_config.py` 217-218. -/
def Config.getActivations (l : KLayer W A) : Config → Except Err (List (A × Quantizer))
  | .dflt c => c.getActivations l
  | .activation _ _ _ => (assertActivation l).map fun _ => []
  | .outputOnly c => c.getActivations l
  | _ => .ok []

/-- The activations whose output is quantized: R8 494, RN 524. -/
def outputNames (nBit : Bool) : List String :=
  if nBit then ["relu", "relu6", "swish"] else ["relu", "swish", "gelu", "relu6"]

/-- `get_output_quantizers`: R8 484-504, RN 517-536 (without gelu), `default_8bit_quantize_configs.py`
39-43, 64-65, `quantize_config.py` 224-225.  `name` gives the `__name__` of an activation. -/
def Config.getOutput (name : A → ActName) (l : KLayer W A) : Config → Except Err (List Quantizer)
  | .dflt c => .ok c.getOutput
  | .activation nBit bits quantizeOutput =>
    match assertActivation l with
    | .error e => .error e
    | .ok _ =>
      if !quantizeOutput && !nBit then .ok []
      else
        match l.own.activation "activation" with
        | none => .error .attribute
        | some a =>
          match name a with
          | none => .error .value
          | some n =>
            if n ∈ outputNames nBit then
              .ok [⟨.movingAverage, ⟨bits, false, false, false⟩⟩]
            else if n ∈ ["linear", "softmax", "sigmoid", "tanh"] then .ok []
            else .error .value
  | .output bits quantizeOutput =>
    .ok (if quantizeOutput then [⟨.movingAverage, ⟨bits, false, false, false⟩⟩] else [])
  | .noOp => .ok []
  | .outputOnly c => c.getOutput name l

/-- `set_quantize_weights`: R8 478-479, `default_8bit_quantize_configs.py` 33-34, 58-59,
`quantize_config.py` 214-215. -/
def Config.setWeights (shape : W → List ℕ) (ws : List W) (l : KLayer W A) : Config → Option Err × KLayer W A
  | .dflt c => c.setWeights shape ws l
  | .activation _ _ _ =>
    match assertActivation l with
    | .error e => (some e, l)
    | .ok _ => (none, l)
  | _ => (none, l)

/-- `set_quantize_activations`: R8 481-482, `default_8bit_quantize_configs.py` 36-37, 61-62,
`quantize_config.py` 220-222. -/
def Config.setActivations (xs : List A) (l : KLayer W A) : Config → Option Err × KLayer W A
  | .dflt c => c.setActivations xs l
  | .activation _ _ _ =>
    match assertActivation l with
    | .error e => (some e, l)
    | .ok _ => (none, l)
  | .outputOnly c => c.setActivations xs l
  | _ => (none, l)

end Access

/-! ## The registries -/

/-- `_LAYER_QUANTIZE_INFO`: R8 79-169, RN 88-178: class, weight attributes, activation attributes,
`quantize_output`. -/
def layerQuantizeInfo : List (String × List String × List String × Bool) := [
  ("ReLU", [], [], true),
  ("Softmax", [], [], false),
  ("LeakyReLU", [], [], true),
  ("Concatenate", [], [], true),
  ("Cropping1D", [], [], false),
  ("Cropping2D", [], [], false),
  ("Cropping3D", [], [], false),
  ("UpSampling2D", [], [], true),
  ("ZeroPadding1D", [], [], false),
  ("ZeroPadding2D", [], [], false),
  ("ActivityRegularization", [], [], false),
  ("Dense", ["kernel"], ["activation"], false),
  ("Dropout", [], [], false),
  ("Flatten", [], [], false),
  ("Permute", [], [], false),
  ("Reshape", [], [], false),
  ("SpatialDropout1D", [], [], false),
  ("SpatialDropout2D", [], [], false),
  ("SpatialDropout3D", [], [], false),
  ("AveragePooling1D", [], [], true),
  ("AveragePooling2D", [], [], true),
  ("GlobalAveragePooling1D", [], [], true),
  ("GlobalAveragePooling2D", [], [], true),
  ("GlobalAveragePooling3D", [], [], true),
  ("GlobalMaxPooling1D", [], [], false),
  ("GlobalMaxPooling2D", [], [], false),
  ("GlobalMaxPooling3D", [], [], false),
  ("MaxPooling2D", [], [], false),
  ("Add", [], [], true)]

/-- An entry of `_layer_quantize_map`: a `_QuantizeInfo` (which the n-bit registries share) or a
`QuantizeConfig`. -/
inductive Entry where
  | info (w a : List String) (out : Bool)
  | config (c : Config)

/-- A registry object: the arguments of its constructor, R8 171, RN 180-185. -/
structure Registry where
  nBit : Bool
  disablePerAxis : Bool
  bitsWeight : ℕ
  bitsActivation : ℕ
  deriving DecidableEq

/-- `_layer_quantize_map`, R8 171-197, RN 180-225. -/
def Registry.lookup (r : Registry) (cls : String) : Option Entry :=
  let convClass := if r.disablePerAxis then CClass.plain else CClass.conv
  let mk := fun cc w => Entry.config (.dflt (.mk' r.nBit cc [.one w] [.one "activation"] false
    r.bitsWeight r.bitsActivation))
  if cls = "Activation" then
    some (.config (.activation r.nBit (if r.nBit then r.bitsActivation else 8) true))
  else if cls = "Conv2DTranspose" then some (mk .convTranspose "kernel")
  else if cls = "Conv2D" then some (mk convClass "kernel")
  else if cls = "DepthwiseConv2D" then some (mk convClass "depthwise_kernel")
  else (layerQuantizeInfo.lookup cls).map fun e => .info e.1 e.2.1 e.2.2

/-- `_is_rnn_layer`, R8 202-208. -/
def isRNN (cls : String) : Bool := cls ∈ ["GRU", "LSTM", "RNN", "SimpleRNN"]

/-- `supports`, R8 215-237. -/
def Registry.supports {W A : Type*} (r : Registry) (l : KLayer W A) : Bool :=
  if (r.lookup l.own.cls).isSome then true
  else if isRNN l.own.cls then
    match l.cells with
    | none => false
    | some cs => cs.all fun c => (r.lookup c.cls).isSome
  else false

/-- The attributes of one RNN cell, R8 273-277; an `Activation` config has none. -/
def Registry.cellAttrs (r : Registry) (cls : String) : Except Err (AttrVal × AttrVal) :=
  match r.lookup cls with
  | some (.info w a _) => .ok (.many w, .many a)
  | some (.config (.dflt c)) =>
    .ok (.many (c.weightAttrs.filterMap AttrVal.name), .many (c.activationAttrs.filterMap AttrVal.name))
  | some (.config _) => .error .attribute
  | none => .error .attribute

/-- The loop over the cells, R8 271-277. -/
def Registry.rnnAttrs (r : Registry) : List String → Except Err (List AttrVal × List AttrVal)
  | [] => .ok ([], [])
  | c :: cs =>
    match r.cellAttrs c with
    | .error e => .error e
    | .ok wa =>
      match r.rnnAttrs cs with
      | .error e => .error e
      | .ok rest => .ok (wa.1 :: rest.1, wa.2 :: rest.2)

/-- `get_quantize_config`, R8 239-283, RN 267-316.  `shared` are the numbers of bits stored in the
`_QuantizeInfo` objects; the 8-bit config does not use them. -/
def Registry.getConfig {W A : Type*} (shared : ℕ × ℕ) (r : Registry) (l : KLayer W A) : Except Err Config :=
  if !r.supports l then .error .value
  else
    match r.lookup l.own.cls with
    | some (.config c) => .ok c
    | some (.info w a out) =>
      .ok (.dflt (.mk' r.nBit .plain (w.map .one) (a.map .one) out shared.1 shared.2))
    | none =>
      match r.rnnAttrs ((l.cells.getD []).map Cell.cls) with
      | .error e => .error e
      | .ok wa => .ok (.dflt (.mk' r.nBit .rnn wa.1 wa.2 false r.bitsWeight r.bitsActivation))

/-! ## Histories of n-bit registries -/

/-- The process: the bits stored in the class attribute `_LAYER_QUANTIZE_INFO` and the registries
constructed so far. -/
structure Process where
  shared : ℕ × ℕ
  registries : List Registry

/-- A process before any registry is constructed, RN 41-47. -/
def Process.init : Process := ⟨(8, 8), []⟩

/-- Construction of a registry, R8 171-197, RN 180-225: an n-bit registry overwrites the bits of the
shared `_QuantizeInfo` objects. -/
def Process.construct (p : Process) (r : Registry) : Process :=
  ⟨if r.nBit then (r.bitsWeight, r.bitsActivation) else p.shared, p.registries ++ [r]⟩

/-- A history of constructions. -/
def Process.run (rs : List Registry) : Process := rs.foldl Process.construct Process.init

end Verif.Quant.Config
