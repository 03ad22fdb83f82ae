import Mathlib.Data.Rat.Defs
import Verif.Quant.Config

/-!
# Saving and loading: `get_config`, `from_config` and Keras' (legacy) object serialization

`QC` = `quantization/keras/quantize_config.py`, `QZ` = `quantizers.py`, `QW` = `quantize_wrapper.py`,
`QL` = `quantize_layer.py`, `QA` = `quantize_annotate.py`, `QU` = `utils.py`, `QQ` = `quantize.py`,
`R8` = `default_8bit/default_8bit_quantize_registry.py`, `C8` = `default_8bit/default_8bit_quantize_configs.py`,
`Z8` = `default_8bit/default_8bit_quantizers.py`, and `RN`, `CN`, `ZN` the same in `experimental/default_n_bit/`.

Keras: `serialize_keras_object` and `deserialize_keras_object` of `keras/saving/legacy/serialization.py` (called
through QU 27-44).  Not modelled: shared-object ids, strings that name registered functions.
-/

namespace Verif.Quant.Serialize
open Verif.Quant.Config (Err)

mutual
/-- A Python value as it occurs in a configuration: `None`, a boolean, a number, a string, a list of strings, a list
of lists of strings (RNN attributes), a dictionary, an object (its class and its attributes). -/
inductive Val where
  | null
  | bool (b : Bool)
  | num (q : ℚ)
  | str (s : String)
  | strs (l : List String)
  | strss (l : List (List String))
  | dict (fields : Fields)
  | obj (cls : String) (attrs : Fields)
/-- The items of a dictionary or the attributes of an object, in insertion order. -/
inductive Fields where
  | nil
  | cons (key : String) (val : Val) (rest : Fields)
end

/-- `d.get(key)`. -/
def Fields.get (key : String) : Fields → Option Val
  | .nil => none
  | .cons k v rest => if k = key then some v else rest.get key

/-- `d[key] = v` for a key that is present. -/
def Fields.set (key : String) (v : Val) : Fields → Fields
  | .nil => .nil
  | .cons k w rest => if k = key then .cons k v rest else .cons k w (rest.set key v)

/-- The keys of a dictionary. -/
def Fields.keys : Fields → List String
  | .nil => []
  | .cons k _ rest => k :: rest.keys

/-- A dictionary from its items. -/
def Fields.ofList : List (String × Val) → Fields
  | [] => .nil
  | (k, v) :: rest => .cons k v (.ofList rest)

/-- The items of a dictionary. -/
def Fields.toList : Fields → List (String × Val)
  | .nil => []
  | .cons k v rest => (k, v) :: rest.toList

/-- How `from_config` of a class treats its argument. -/
inductive FromConfig where
  /-- `cls(**config)`: QC 193-202, 230-232, QZ 115-125, R8 342-352, 509-511, RN 380-390. -/
  | plain
  /-- `config[key] = deserialize_keras_object(config[key])`, in place, then `cls(**config)`: QC 283-285. -/
  | inPlace (key : String)
  /-- `config = config.copy()`, then each of the keys is popped and deserialized, then `cls(...)`: QW 202-222,
  QL 93-103, QA 113-129. -/
  | copy (keys : List String)

/-- A class: the parameters of its constructor with their defaults; a check of the arguments the constructor makes
(a `ValueError` if it fails); the attributes it sets; the attributes `get_config` returns, under which key, and
whether `get_config` serializes them itself; how `from_config` works. -/
structure Class where
  params : List (String × Option Val)
  check : List (String × Val) → Bool := fun _ => true
  attrs : List (String × Val) → List (String × Val) := id
  config : List (String × String × Bool)
  fromConfig : FromConfig := .plain

/-- Binding keyword arguments to parameters: every argument must name a parameter, every parameter without a default
must be given, otherwise `TypeError`. -/
def bindParams (kwargs : List (String × Val)) : List (String × Option Val) → Except Err (List (String × Val))
  | [] => .ok []
  | (p, dflt) :: rest =>
    match bindParams kwargs rest with
    | .error e => .error e
    | .ok r =>
      match kwargs.lookup p, dflt with
      | some v, _ => .ok ((p, v) :: r)
      | none, some v => .ok ((p, v) :: r)
      | none, none => .error .type

/-- `cls(**kwargs)`. -/
def construct (c : Class) (name : String) (kwargs : List (String × Val)) : Except Err Val :=
  if kwargs.all fun kv => (c.params.map Prod.fst).contains kv.1 then
    match bindParams kwargs c.params with
    | .error e => .error e
    | .ok args => if c.check args then .ok (.obj name (.ofList (c.attrs args))) else .error .value
  else .error .type

/-- Appending the flag that marks an object Keras serialized on its own account. -/
def passive : Val → Val
  | .dict f => .dict (.ofList (f.toList ++ [("__passive_serialization__", .bool true)]))
  | v => v

/-- The value Keras stores for an item of `get_config`: strings are kept, objects are serialized and marked, values it
cannot serialize are kept. -/
def storeItem (v : Val) (s : Except Err Val) : Val :=
  match v with
  | .str _ => v
  | .dict _ => v
  | _ =>
    match s with
    | .ok j => passive j
    | .error _ => v

/-- The items of the serialized configuration, from the attributes and their serializations; `none` if a `getattr`
or a serialization inside `get_config` fails. -/
def configItems (attrs : List (String × Val × Except Err Val)) :
    List (String × String × Bool) → Option (List (String × Val))
  | [] => some []
  | (key, attr, pre) :: rest =>
    match attrs.lookup attr, configItems attrs rest with
    | some (v, s), some r =>
      if pre then
        match s with
        | .ok j => some ((key, j) :: r)
        | .error _ => none
      else some ((key, storeItem v s) :: r)
    | _, _ => none

mutual
/-- `serialize_keras_object`; `K` are the classes of the program. -/
def serialize (K : String → Class) : Val → Except Err Val
  | .null => .ok .null
  | .obj cls attrs =>
    match configItems (serializeAll K attrs) (K cls).config with
    | some items => .ok (.dict (.ofList [("class_name", .str cls), ("config", .dict (.ofList items))]))
    | none => .error .value
  | _ => .error .value
/-- Serializing every attribute. -/
def serializeAll (K : String → Class) : Fields → List (String × Val × Except Err Val)
  | .nil => []
  | .cons k v rest => (k, v, serialize K v) :: serializeAll K rest
end

/-- Whether an item of a configuration carries the mark of `passive`. -/
def isPassive : Val → Bool
  | .dict f => f.keys.contains "__passive_serialization__"
  | _ => false

/-- What deserializing a value does: the object, and the value as it is afterwards (dictionaries are changed in
place); or an exception (what it leaves behind is not modelled). -/
abbrev Loaded := Except Err (Val × Val)

/-- `class_and_config_for_serialized_keras_object`: marked items are replaced by their objects, in place. -/
def loadPassive : List (String × Val × Loaded) → Except Err (List (String × Val × Loaded))
  | [] => .ok []
  | (k, v, l) :: rest =>
    match loadPassive rest with
    | .error e => .error e
    | .ok r =>
      if isPassive v && k ≠ "name" then
        match l with
        | .error e => .error e
        | .ok (o, _) => .ok ((k, o, .error .value) :: r)
      else .ok ((k, v, l) :: r)

/-- `deserialize_keras_object` on the items named: the items with the objects, and the items as they are afterwards. -/
def loadKeys : List String → List (String × Val × Loaded) → Except Err (List (String × Val) × List (String × Val))
  | _, [] => .ok ([], [])
  | keys, (k, v, l) :: rest =>
    match loadKeys keys rest with
    | .error e => .error e
    | .ok (args, after) =>
      if keys.contains k then
        match l with
        | .error e => .error e
        | .ok (o, w) => .ok ((k, o) :: args, (k, w) :: after)
      else .ok ((k, v) :: args, (k, v) :: after)

/-- `cls.from_config(config)`: the object, and `config` afterwards. -/
def fromConfig (c : Class) (name : String) (items : List (String × Val × Loaded)) :
    Except Err (Val × List (String × Val)) :=
  match c.fromConfig with
  | .plain =>
    match construct c name (items.map fun i => (i.1, i.2.1)) with
    | .error e => .error e
    | .ok o => .ok (o, items.map fun i => (i.1, i.2.1))
  | .inPlace key =>
    if (items.map Prod.fst).contains key then
      match loadKeys [key] items with
      | .error e => .error e
      | .ok (args, _) =>
        match construct c name args with
        | .error e => .error e
        | .ok o => .ok (o, args)
    else .error .value
  | .copy keys =>
    if keys.all fun k => (items.map Prod.fst).contains k then
      match loadKeys keys items with
      | .error e => .error e
      | .ok (args, after) =>
        match construct c name args with
        | .error e => .error e
        | .ok o => .ok (o, after)
    else .error .value

/-- `deserialize_keras_object` for a dictionary, from its items: the class must be in scope. -/
def loadObject (K : String → Class) (scope : List String) (name : Val)
    (items : List (String × Val × Loaded)) : Except Err (Val × Fields) :=
  match name with
  | .str cls =>
    if scope.contains cls then
      match loadPassive items with
      | .error e => .error e
      | .ok items' =>
        match fromConfig (K cls) cls items' with
        | .error e => .error e
        | .ok (o, after) => .ok (o, .ofList after)
    else .error .value
  | _ => .error .value

mutual
/-- `deserialize_keras_object`. -/
def deserialize (K : String → Class) (scope : List String) : Val → Loaded
  | .null => .ok (.null, .null)
  | .dict fields =>
    match fields.get "class_name", lookConfig K scope fields with
    | some name, some items =>
      match loadObject K scope name items with
      | .error e => .error e
      | .ok (o, after) => .ok (o, .dict (fields.set "config" (.dict after)))
    | _, _ => .error .value
  | _ => .error .value
/-- The items of `config["config"]`, each with what deserializing it gives. -/
def lookConfig (K : String → Class) (scope : List String) : Fields → Option (List (String × Val × Loaded))
  | .nil => none
  | .cons k v rest => if k = "config" then inner K scope v else lookConfig K scope rest
/-- The items of a dictionary, each with what deserializing it gives. -/
def inner (K : String → Class) (scope : List String) : Val → Option (List (String × Val × Loaded))
  | .dict fields => some (deserializeAll K scope fields)
  | _ => none
/-- Deserializing every item. -/
def deserializeAll (K : String → Class) (scope : List String) : Fields → List (String × Val × Loaded)
  | .nil => []
  | .cons k v rest => (k, v, deserialize K scope v) :: deserializeAll K scope rest
end

/-! ## The classes of the library -/

/-- Attributes under their own names, none of them serialized by `get_config` itself. -/
def own (names : List String) : List (String × String × Bool) := names.map fun n => (n, n, false)

/-- The constructor arguments of a range quantizer. -/
def rangeAttrs (bits : Val) (perAxis symmetric narrow : Bool) : Fields :=
  .ofList [("num_bits", bits), ("per_axis", .bool perAxis), ("symmetric", .bool symmetric),
    ("narrow_range", .bool narrow)]

def rangeNames : List String := ["num_bits", "per_axis", "symmetric", "narrow_range"]

/-- `LastValueQuantizer`, `MovingAverageQuantizer`, `AllValuesQuantizer`: QZ 156-210, 227-282, 299-360. -/
def rangeQuantizer : Class :=
  { params := [("num_bits", none), ("per_axis", none), ("symmetric", none), ("narrow_range", none)]
    config := own rangeNames }

/-- `FixedQuantizer`, QZ 377-425. -/
def fixedQuantizer : Class :=
  { params := [("num_bits", none), ("init_min", none), ("init_max", none), ("narrow_range", none)]
    config := own ["num_bits", "init_min", "init_max", "narrow_range"] }

/-- `NoQuantizer`, QZ 442-468; `NoOpQuantizeConfig`, C8 48-69, CN 52-73. -/
def noArguments : Class := { params := [], config := [] }

/-- `Default8BitConvWeightsQuantizer` (`perAxis`) and `Default8BitConvTransposeWeightsQuantizer`, Z8 25-66:
constructors without parameters, `get_config` inherited from `LastValueQuantizer`. -/
def convQuantizer8 (perAxis : Bool) : Class :=
  { params := []
    attrs := fun _ => (rangeAttrs (.num 8) perAxis true true).toList
    config := own rangeNames }

/-- The value of an argument. -/
def argOf (args : List (String × Val)) (p : String) : Val := (args.lookup p).getD .null

/-- `DefaultNBitConvWeightsQuantizer`, `DefaultNBitConvTransposeWeightsQuantizer`, ZN 25-82. -/
def convQuantizerN (perAxis : Bool) : Class :=
  { params := [("num_bits_weight", some (.num 8)), ("num_bits_activation", some (.num 8))]
    attrs := fun args => (rangeAttrs (argOf args "num_bits_weight") perAxis true true).toList ++
      [("_num_bits_weight", argOf args "num_bits_weight"), ("_num_bits_activation", argOf args "num_bits_activation")]
    config := own rangeNames }

/-- The quantizers of a default config; the class of the weight quantizer and its `per_axis`. -/
def defaultQuantizers (cls : String) (perAxis : Bool) (bw ba : Val) : List (String × Val) :=
  [("weight_quantizer", .obj cls (rangeAttrs bw perAxis true true)),
    ("activation_quantizer", .obj "MovingAverageQuantizer" (rangeAttrs ba false false false))]

/-- The default 8-bit configs with attributes, R8 289-362, 514-533. -/
def defaultConfig8 (cls : String) (perAxis : Bool) : Class :=
  { params := [("weight_attrs", none), ("activation_attrs", none), ("quantize_output", none)]
    attrs := fun args => args ++ defaultQuantizers cls perAxis (.num 8) (.num 8)
    config := own ["weight_attrs", "activation_attrs", "quantize_output"] }

/-- The default n-bit configs with attributes, RN 322-402, 548-574; the attributes of the bits are private, their keys
are not.  (The private attributes of the weight quantizer of convolutions are left out: they repeat the bits.) -/
def defaultConfigN (cls : String) (perAxis : Bool) : Class :=
  { params := [("weight_attrs", none), ("activation_attrs", none), ("quantize_output", none),
      ("num_bits_weight", some (.num 8)), ("num_bits_activation", some (.num 8))]
    attrs := fun args => [("weight_attrs", argOf args "weight_attrs"),
      ("activation_attrs", argOf args "activation_attrs"), ("quantize_output", argOf args "quantize_output"),
      ("_num_bits_weight", argOf args "num_bits_weight"), ("_num_bits_activation", argOf args "num_bits_activation")] ++
      defaultQuantizers cls perAxis (argOf args "num_bits_weight") (argOf args "num_bits_activation")
    config := own ["weight_attrs", "activation_attrs", "quantize_output"] ++
      [("num_bits_weight", "_num_bits_weight", false), ("num_bits_activation", "_num_bits_activation", false)] }

/-- `Default8BitActivationQuantizeConfig`, R8 455-463, 506-511; `Default8BitOutputQuantizeConfig`, C8 22-46. -/
def outputConfig8 : Class :=
  { params := [("quantize_output", some (.bool true))], config := own ["quantize_output"] }

/-- `DefaultNBitActivationQuantizeConfig`, RN 493-496, 538-542; `DefaultNBitOutputQuantizeConfig`, CN 25-50. -/
def outputConfigN : Class :=
  { params := [("num_bits_weight", some (.num 8)), ("num_bits_activation", some (.num 8))]
    attrs := fun args => [("_num_bits_weight", argOf args "num_bits_weight"),
      ("_num_bits_activation", argOf args "num_bits_activation")]
    config := [("num_bits_weight", "_num_bits_weight", false), ("num_bits_activation", "_num_bits_activation", false)] }

/-- `OutputOnlyConfig`, QC 205-232: `get_config` returns the inner config itself. -/
def outputOnlyConfig : Class := { params := [("quantize_config", none)], config := own ["quantize_config"] }

/-- `FixedQuantizeConfig`, QC 235-285: `get_config` serializes the inner config. -/
def fixedQuantizeConfig : Class :=
  { params := [("config", none), ("num_bits", none), ("init_min", none), ("init_max", none), ("narrow_range", none)]
    attrs := fun args => args ++ [("fixed_quantizer", .obj "FixedQuantizer" (.ofList [("num_bits", argOf args "num_bits"),
      ("init_min", argOf args "init_min"), ("init_max", argOf args "init_max"),
      ("narrow_range", argOf args "narrow_range")]))]
    config := ("config", "config", true) :: own ["num_bits", "init_min", "init_max", "narrow_range"]
    fromConfig := .inPlace "config" }

/-- Whether an argument is an object (in the code: a `keras.layers.Layer` that is not a model, a `Quantizer`). -/
def isObj : Val → Bool
  | .obj _ _ => true
  | _ => false

/-- Whether an argument is `None`. -/
def isNull : Val → Bool
  | .null => true
  | _ => false

/-- `QuantizeWrapper`, `QuantizeWrapperV2`, QW 45-81, 197-222.  The arguments handed on to Keras are `name`,
`trainable` and `dtype`. -/
def quantizeWrapper : Class :=
  { params := [("name", none), ("trainable", some (.bool true)), ("dtype", some (.str "float32")), ("layer", none),
      ("quantize_config", none)]
    check := fun args => isObj (argOf args "layer") && !isNull (argOf args "quantize_config")
    config := own ["name", "trainable", "dtype"] ++ [("layer", "layer", true), ("quantize_config", "quantize_config", true)]
    fromConfig := .copy ["quantize_config", "layer"] }

/-- `QuantizeAnnotate`, QA 51-90, 108-129. -/
def quantizeAnnotate : Class :=
  { params := [("name", none), ("trainable", some (.bool true)), ("dtype", some (.str "float32")), ("layer", none),
      ("quantize_config", some .null)]
    check := fun args => isObj (argOf args "layer")
    config := own ["name", "trainable", "dtype"] ++ [("layer", "layer", true), ("quantize_config", "quantize_config", true)]
    fromConfig := .copy ["quantize_config", "layer"] }

/-- `QuantizeLayer`, QL 39-55, 86-103. -/
def quantizeLayer : Class :=
  { params := [("name", none), ("trainable", some (.bool true)), ("dtype", some (.str "float32")), ("quantizer", none)]
    check := fun args => isNull (argOf args "quantizer") || isObj (argOf args "quantizer")
    config := own ["name", "trainable", "dtype"] ++ [("quantizer", "quantizer", true)]
    fromConfig := .copy ["quantizer"] }

/-- The classes of the library by name; the second component says whether `quantize_scope` (QQ 63-79) knows it. -/
def library : List (String × Class × Bool) := [
  ("LastValueQuantizer", rangeQuantizer, true), ("MovingAverageQuantizer", rangeQuantizer, true),
  ("AllValuesQuantizer", rangeQuantizer, true), ("FixedQuantizer", fixedQuantizer, true),
  ("NoQuantizer", noArguments, true),
  ("Default8BitConvWeightsQuantizer", convQuantizer8 true, false),
  ("Default8BitConvTransposeWeightsQuantizer", convQuantizer8 false, false),
  ("DefaultNBitConvWeightsQuantizer", convQuantizerN true, false),
  ("DefaultNBitConvTransposeWeightsQuantizer", convQuantizerN false, false),
  ("Default8BitQuantizeConfig", defaultConfig8 "LastValueQuantizer" false, true),
  ("Default8BitQuantizeConfigRNN", defaultConfig8 "LastValueQuantizer" false, true),
  ("Default8BitConvQuantizeConfig", defaultConfig8 "Default8BitConvWeightsQuantizer" true, true),
  ("Default8BitConvTransposeQuantizeConfig", defaultConfig8 "Default8BitConvTransposeWeightsQuantizer" false, true),
  ("Default8BitActivationQuantizeConfig", outputConfig8, true),
  ("Default8BitOutputQuantizeConfig", outputConfig8, true),
  ("NoOpQuantizeConfig", noArguments, true),
  ("DefaultNBitQuantizeConfig", defaultConfigN "LastValueQuantizer" false, true),
  ("DefaultNBitQuantizeConfigRNN", defaultConfigN "LastValueQuantizer" false, true),
  ("DefaultNBitConvQuantizeConfig", defaultConfigN "DefaultNBitConvWeightsQuantizer" true, true),
  ("DefaultNBitConvTransposeQuantizeConfig", defaultConfigN "DefaultNBitConvTransposeWeightsQuantizer" false, true),
  ("DefaultNBitActivationQuantizeConfig", outputConfigN, true),
  ("DefaultNBitOutputQuantizeConfig", outputConfigN, true),
  ("OutputOnlyConfig", outputOnlyConfig, true), ("FixedQuantizeConfig", fixedQuantizeConfig, true),
  ("QuantizeWrapper", quantizeWrapper, true), ("QuantizeWrapperV2", quantizeWrapper, true),
  ("QuantizeAnnotate", quantizeAnnotate, true), ("QuantizeLayer", quantizeLayer, true)]

/-- The classes of a program: those of the library, and the user's (also Keras' layers). -/
def classes (user : String → Class) (name : String) : Class :=
  match library.lookup name with
  | some c => c.1
  | none => user name

/-- `quantize_scope(*args)`, QQ 34-81: the names it registers, and those of the user (and Keras' layers). -/
def quantizeScope (user : List String) : List String :=
  (library.filter fun c => c.2.2).map Prod.fst ++ user

end Verif.Quant.Serialize
