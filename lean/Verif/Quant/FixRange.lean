import Verif.Quant.Serialize

/-!
# `fix_input_output_range` and `remove_input_range` of `quantization/keras/quantize.py` (`QQ`)
-/

namespace Verif.Quant.FixRange
open Verif.Quant.Config (Err)
open Verif.Quant.Serialize

/-- Nested node data of a model configuration: strings, numbers, the dictionary of call arguments, lists, and
dictionaries (only their values matter). -/
inductive Nested where
  | str (s : String)
  | num (n : ℤ)
  | kwargs
  | list (l : List Nested)
  | dict (values : List Nested)

/-- `_is_serialized_node_data`, QQ 540-546: a list of three or four elements, the first a string. -/
def isNodeData : Nested → Bool
  | .list [.str _, _, _] => true
  | .list [.str _, _, _, _] => true
  | _ => false

mutual
/-- `_nested_to_flatten_node_data_list`, QQ 549-560. -/
def flatten : Nested → Except Err (List Nested)
  | .list l => if isNodeData (.list l) then .ok [.list l] else flattenAll l
  | .dict l => flattenAll l
  | _ => .error .value
/-- `sum(map(..., ...), [])`. -/
def flattenAll : List Nested → Except Err (List Nested)
  | [] => .ok []
  | n :: rest =>
    match flatten n, flattenAll rest with
    | .ok a, .ok b => .ok (a ++ b)
    | .error e, _ => .error e
    | _, .error e => .error e
end

/-- `x[0]` of node data. -/
def headName : Nested → Option String
  | .list (.str s :: _) => some s
  | _ => none

/-- One step of `_unwrap_first_input_name`: `None` unless a list that is not empty. -/
def firstOf : Nested → Option Nested
  | .list (x :: _) => some x
  | _ => none

/-- `_unwrap_first_input_name`, QQ 504-527. -/
def unwrapFirstInputName (n : Nested) : Option String :=
  match firstOf n with
  | none => none
  | some a =>
    match firstOf a with
    | none => none
    | some b =>
      match firstOf b with
      | some (.str s) => some s
      | _ => none

/-- A layer of a model: the object, the name Keras knows it under, its inbound nodes. -/
structure MLayer where
  obj : Val
  inbound : Nested

/-- A model.  `weights`: the values of the variables of each layer; `none` stands for newly initialised. -/
structure Model (W : Type*) where
  functional : Bool
  layers : List MLayer
  inputLayers : Nested
  outputLayers : Nested
  weights : String → Option W

/-- What the functions raise: an exception of loading, the `ValueError` for models that are not quantized, an
`IndexError`, a `KeyError`. -/
inductive FixErr where
  | load (e : Err)
  | notQuantized
  | index
  | key
  deriving DecidableEq

/-- A layer configuration: the serialized object and its inbound nodes. -/
structure LConf where
  ser : Val
  inbound : Nested

/-- `model.get_config()['layers']`. -/
def getLayers (K : String → Class) : List MLayer → Except FixErr (List LConf)
  | [] => .ok []
  | l :: rest =>
    match serialize K l.obj, getLayers K rest with
    | .ok s, .ok r => .ok (⟨s, l.inbound⟩ :: r)
    | .error e, _ => .error (.load e)
    | _, .error e => .error e

/-- `d[key] = v`. -/
def put (key : String) (v : Val) : Fields → Fields
  | .nil => .cons key v .nil
  | .cons k w rest => if k = key then .cons k v rest else .cons k w (put key v rest)

/-- `layer_config['config']`. -/
def configOf : Val → Option Fields
  | .dict f =>
    match f.get "config" with
    | some (.dict g) => some g
    | _ => none
  | _ => none

/-- `layer_config['config'][key] = v`. -/
def putConfig (key : String) (v : Val) : Val → Val
  | .dict f =>
    match f.get "config" with
    | some (.dict g) => .dict (f.set "config" (.dict (put key v g)))
    | _ => .dict f
  | w => w

/-- `layer_config['config']['name']`. -/
def nameOf (s : Val) : Option String :=
  match configOf s with
  | none => none
  | some f =>
    match f.get "name" with
    | some (.str n) => some n
    | _ => none

/-- `layer_config['class_name']`. -/
def classOf : Val → Option String
  | .dict f =>
    match f.get "class_name" with
    | some (.str n) => some n
    | _ => none
  | _ => none

/-- `layer_config['config'].get('quantize_config')`, if the key is present. -/
def quantizeConfigOf (s : Val) : Option Val :=
  match configOf s with
  | none => none
  | some f => f.get "quantize_config"

/-- The arguments of a fixed range. -/
structure Range where
  numBits : ℚ
  lo : ℚ
  hi : ℚ
  narrow : Bool

/-- `FixedQuantizer(...)`, QQ 608-612. -/
def fixedQuantizerObj (r : Range) : Val :=
  .obj "FixedQuantizer" (.ofList [("num_bits", .num r.numBits), ("init_min", .num r.lo), ("init_max", .num r.hi),
    ("narrow_range", .bool r.narrow)])

/-- `_wrap_fixed_range`, QQ 529-537. -/
def wrapFixedRange (K : String → Class) (scope : List String) (quantizeConfig : Val) (r : Range) : Except FixErr Val :=
  let items : List (String × Val) := [("config", quantizeConfig), ("num_bits", .num r.numBits),
    ("init_min", .num r.lo), ("init_max", .num r.hi), ("narrow_range", .bool r.narrow)]
  match fromConfig (K "FixedQuantizeConfig") "FixedQuantizeConfig"
      (items.map fun kv => (kv.1, kv.2, deserialize K scope kv.2)) with
  | .error e => .error (.load e)
  | .ok (o, _) =>
    match serialize K o with
    | .error e => .error (.load e)
    | .ok j => .ok j

/-- Whether the first input of the layer is one of the inputs of the model, QQ 617-625. -/
def fedByInput (inputs : List Nested) (l : LConf) : Bool :=
  match unwrapFirstInputName l.inbound with
  | none => false
  | some n => inputs.any fun i => headName i == some n

/-- The loop over the layers fed by an input, QQ 618-627, 702-712. -/
def setInput (inputs : List Nested) (q : Val) (l : LConf) : LConf :=
  if fedByInput inputs l then { l with ser := putConfig "quantizer" q l.ser } else l

/-- Fixing the range of an output layer, if its configuration has a `quantize_config`: QQ 634-641, 651-658. -/
def setOutput (K : String → Class) (scope : List String) (r : Range) (l : LConf) : Except FixErr LConf :=
  match quantizeConfigOf l.ser with
  | none => .ok l
  | some c =>
    match wrapFixedRange K scope c r with
    | .error e => .error e
    | .ok j => .ok { l with ser := putConfig "quantize_config" j l.ser }

/-- Whether the layer is one of the outputs of the model, QQ 631-633. -/
def isOutput (outputs : List Nested) (l : LConf) : Bool :=
  match nameOf l.ser with
  | none => false
  | some n => outputs.any fun i => headName i == some n

/-- The loop over the output layers, QQ 629-642. -/
def setOutputs (K : String → Class) (scope : List String) (r : Range) (outputs : List Nested) :
    List LConf → Except FixErr (List LConf)
  | [] => .ok []
  | l :: rest =>
    match (if isOutput outputs l then setOutput K scope r l else .ok l), setOutputs K scope r outputs rest with
    | .ok a, .ok b => .ok (a :: b)
    | .error e, _ => .error e
    | _, .error e => .error e

/-- `from_config` of the model: every layer is rebuilt, with newly initialised weights. -/
def fromLayers (K : String → Class) (scope : List String) : List LConf → Except FixErr (List MLayer)
  | [] => .ok []
  | l :: rest =>
    match deserialize K scope l.ser, fromLayers K scope rest with
    | .ok (o, _), .ok r => .ok (⟨o, l.inbound⟩ :: r)
    | .error e, _ => .error (.load e)
    | _, .error e => .error e

/-- `keras.Model.from_config`, `keras.Sequential.from_config`. -/
def rebuild {W : Type*} (K : String → Class) (scope : List String) (m : Model W) (l : List LConf) :
    Except FixErr (Model W) :=
  match fromLayers K scope l with
  | .error e => .error e
  | .ok ls => .ok { m with layers := ls, weights := fun _ => none }

/-- The check and the change of the second layer of a Sequential model, QQ 646-650, 716-720. -/
def setSecond (q : Val) : List LConf → Except FixErr (List LConf)
  | [] => .error .notQuantized
  | [_] => .error .index
  | a :: b :: rest =>
    if classOf b.ser = some "QuantizeLayer" then .ok (a :: { b with ser := putConfig "quantizer" q b.ser } :: rest)
    else .error .notQuantized

/-- Fixing the range of the last layer, QQ 651-658. -/
def setLast (K : String → Class) (scope : List String) (r : Range) : List LConf → Except FixErr (List LConf)
  | [] => .error .index
  | [l] =>
    match setOutput K scope r l with
    | .error e => .error e
    | .ok l' => .ok [l']
  | l :: rest =>
    match setLast K scope r rest with
    | .error e => .error e
    | .ok r' => .ok (l :: r')

/-- The serialized form of an input quantizer. -/
def serializeQuantizer (K : String → Class) (q : Val) : Except FixErr Val :=
  match serialize K q with
  | .error e => .error (.load e)
  | .ok j => .ok j

/-- Both functions: `q` is the quantizer for the inputs, `out` the range for the outputs, if they are changed. -/
def changeRanges {W : Type*} (K : String → Class) (scope : List String) (q : Val) (out : Option Range) (m : Model W) :
    Except FixErr (Model W) :=
  match getLayers K m.layers, serializeQuantizer K q with
  | .error e, _ => .error e
  | _, .error e => .error e
  | .ok ls, .ok j =>
    if m.functional then
      match flatten m.inputLayers with
      | .error e => .error (.load e)
      | .ok inputs =>
        match out with
        | none => rebuild K scope m (ls.map (setInput inputs j))
        | some r =>
          match flatten m.outputLayers with
          | .error e => .error (.load e)
          | .ok outputs =>
            match setOutputs K scope r outputs (ls.map (setInput inputs j)) with
            | .error e => .error e
            | .ok ls' => rebuild K scope m ls'
    else
      match setSecond j ls with
      | .error e => .error e
      | .ok ls' =>
        match out with
        | none => rebuild K scope m ls'
        | some r =>
          match setLast K scope r ls' with
          | .error e => .error e
          | .ok ls'' => rebuild K scope m ls''

/-- `fix_input_output_range`, QQ 563-662. -/
def fixInputOutputRange {W : Type*} (K : String → Class) (scope : List String) (input output : Range) (m : Model W) :
    Except FixErr (Model W) :=
  changeRanges K scope (fixedQuantizerObj input) (some output) m

/-- `remove_input_range`, QQ 671-724. -/
def removeInputRange {W : Type*} (K : String → Class) (scope : List String) (m : Model W) : Except FixErr (Model W) :=
  changeRanges K scope (.obj "NoQuantizer" .nil) none m

end Verif.Quant.FixRange
