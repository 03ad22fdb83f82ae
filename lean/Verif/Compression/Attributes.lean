import Mathlib.Data.String.Basic
import Mathlib.Data.List.Sort

/-!
# Model of the attribute substitution of the weight compression wrappers

  /repo/tensorflow_model_optimization/python/core/common/keras/compression/internal/optimize.py

`_TrainingWrapper` and `_InferenceWrapper` replace `layer.add_weight`, so that the layer stores
dummy tensors where it would have stored compressible weights, and write computed tensors into
attributes of the layer before each `layer.call`.  `Optimize.lean` models the values of the weights;
here it is the question which attribute of the layer gets which value.

A Python object that the layer stores is known by the call of `add_weight` that returned it (two
calls never return the same object).  `V` are values of tensors.
-/
namespace Verif.Compression

variable {V : Type}

/-- A call `self.add_weight(*args, **kwargs)` in `layer.build`, as far as the wrappers look at it:
the first and second positional argument and the keywords `name` and `shape` (lines 78-90 and
192-207). -/
structure AddWeight where
  argName : Option String := none
  argShape : Option (List Nat) := none
  kwName : Option String := none
  kwShape : Option (List Nat) := none
  deriving DecidableEq

/-- Lines 78-82 / 193-197: the keyword wins. -/
def AddWeight.name (c : AddWeight) : Option String := c.kwName.or c.argName

/-- Lines 87-91 / 205-209.  (The length test of line 88 is part of `argShape`.) -/
def AddWeight.shape (c : AddWeight) : Option (List Nat) := c.kwShape.or c.argShape

/-- What an attribute of the layer can hold. -/
inductive AVal (V : Type) where
  /-- the dummy tensor returned for the `k`-th call of `add_weight` -/
  | zeros (k : Nat)
  /-- the variable returned for the `k`-th call of `add_weight` -/
  | variable (k : Nat)
  /-- a tensor computed by a wrapper -/
  | computed (v : V)
  /-- any other object -/
  | other
  deriving DecidableEq

/-- An attribute of the layer: stored in the object, or a read-only property of its class, which
returns what another attribute holds (`some`) or raises an `AttributeError` (`none`), as `input`
and `output` do before the layer has been called. -/
inductive Attr (V : Type) where
  | stored (v : AVal V)
  | property (source : Option String)
  deriving DecidableEq

/-- A layer: `build` consists of statements `self.attr = self.add_weight(...)`, in order; `others`
are the attributes the object has besides. -/
structure LayerSrc (V : Type) where
  assigns : List (String × AddWeight)
  others : List (String × Attr V)

/-- The attributes of a layer object. -/
abbrev Attrs (V : Type) := List (String × Attr V)

/-- `getattr(layer, name)`; `none` is an `AttributeError`. -/
def getAttr (as : Attrs V) (name : String) : Option (AVal V) :=
  match as.lookup name with
  | some (.stored v) => some v
  | some (.property (some src)) =>
    match as.lookup src with
    | some (.stored v) => some v
    | _ => none
  | _ => none

/-- Errors of the wrappers. -/
inductive AttrErr where
  /-- `setattr` on a read-only property -/
  | attribute
  /-- `self.dummy_name_to_tensor[name]` -/
  | key
  /-- `tf.zeros(None)` -/
  | value
  /-- `name` is not bound (line 134) -/
  | unbound
  deriving DecidableEq

/-- `setattr(layer, name, v)`: a new attribute is created, a property cannot be set. -/
def setStored (as : Attrs V) (name : String) (v : AVal V) : Except AttrErr (Attrs V) :=
  match as.lookup name with
  | some (.property _) => .error .attribute
  | some (.stored _) => .ok (as.map fun e => if e.1 = name then (name, .stored v) else e)
  | none => .ok (as ++ [(name, .stored v)])

/-- A dictionary update `d[name] = k`. -/
def setDummy (d : List (String × Nat)) (name : String) (k : Nat) : List (String × Nat) :=
  (name, k) :: d.filter fun e => e.1 ≠ name

/-- `_skip_compressible_weights`, lines 62-95 and 177-210, for the `k`-th call: the returned object
and the new `dummy_name_to_tensor` (which only the training wrapper has). -/
def skipWeight (compressible : List String) (d : List (String × Nat)) (k : Nat) (c : AddWeight) :
    Except AttrErr (AVal V × List (String × Nat)) :=
  match c.name with
  | none => .ok (.variable k, d)
  | some n =>
    if n ∈ compressible then
      match c.shape with
      | none => .error .value
      | some _ => .ok (.zeros k, setDummy d n k)
    else .ok (.variable k, d)

/-- `layer.build`, with `add_weight` replaced, from the `k`-th call on. -/
def runBuild (compressible : List String) :
    List (String × AddWeight) → Nat → List (String × Nat) →
      Except AttrErr (Attrs V × List (String × Nat))
  | [], _, d => .ok ([], d)
  | (attr, c) :: rest, k, d =>
    match skipWeight compressible d k c with
    | .error e => .error e
    | .ok (v, d') =>
      match runBuild compressible rest (k + 1) d' with
      | .error e => .error e
      | .ok (as, d'') => .ok ((attr, .stored v) :: as, d'')

/-- `_get_name_by_tensor`, lines 55-60. -/
def nameByTensor (d : List (String × Nat)) : AVal V → Option String
  | .zeros k => (d.find? fun e => e.2 = k).map (·.1)
  | _ => none

/-- `dir(layer)`: the names of the attributes, sorted. -/
def dirNames (as : Attrs V) : List String := (as.map (·.1)).insertionSort (· ≤ ·)

/-- The loop of `_TrainingWrapper.build`, lines 124-135, over the names still to be visited.  The
local variable `name` keeps its value when `getattr` raises; it is `none` while it is unbound. -/
def attrNameMap (as : Attrs V) (d : List (String × Nat)) :
    List String → Option (Option String) → Except AttrErr (List (String × String))
  | [], _ => .ok []
  | attr :: rest, name =>
    let name' := match getAttr as attr with
      | some v => some (nameByTensor d v)
      | none => name
    match name' with
    | none => .error .unbound
    | some none => attrNameMap as d rest name'
    | some (some n) =>
      match attrNameMap as d rest name' with
      | .error e => .error e
      | .ok m => .ok ((attr, n) :: m)

/-- A built `_TrainingWrapper`: the attributes of the layer and `attr_name_map`. -/
structure TrainingLayer (V : Type) where
  attrs : Attrs V
  map : List (String × String)
  deriving DecidableEq

/-- `_TrainingWrapper.build`, lines 97-135.  The loop over `compressible_weights` (lines 105-122)
raises a `KeyError` for a name that no call of `add_weight` used, and leaves its last name in the
local variable `name`. -/
def buildTraining (compressible : List String) (src : LayerSrc V) :
    Except AttrErr (TrainingLayer V) :=
  match runBuild compressible src.assigns 0 [] with
  | .error e => .error e
  | .ok (as, d) =>
    if compressible.all fun n => (d.lookup n).isSome then
      let attrs := as ++ src.others
      match attrNameMap attrs d (dirNames attrs) (compressible.getLast?.map some) with
      | .error e => .error e
      | .ok m => .ok ⟨attrs, m⟩
    else .error .key

/-- The substitution before `layer.call`: one `setattr` for each entry. -/
def setAll (value : String → V) : List (String × String) → Attrs V → Except AttrErr (Attrs V)
  | [], as => .ok as
  | (attr, n) :: rest, as =>
    match setStored as attr (.computed (value n)) with
    | .error e => .error e
    | .ok as' => setAll value rest as'

/-- `_TrainingWrapper.call`, lines 137-155: the attributes that `layer.call` (line 160) then sees.
`value n` is `project_training_weights` of the training weights of `n`. -/
def callTraining (value : String → V) (l : TrainingLayer V) : Except AttrErr (Attrs V) :=
  setAll value l.map l.attrs

/-- `_InferenceWrapper.build`, lines 212-231: only the attributes of the layer. -/
def buildInference (names : List String) (src : LayerSrc V) : Except AttrErr (Attrs V) :=
  match runBuild names src.assigns 0 [] with
  | .error e => .error e
  | .ok (as, _) => .ok (as ++ src.others)

/-- `_InferenceWrapper.call`, lines 233-244: here the name of the weight is taken as the name of the
attribute.  `value n` is `decompress_weights` of the compressed weights of `n`. -/
def callInference (value : String → V) (names : List String) (as : Attrs V) :
    Except AttrErr (Attrs V) :=
  setAll value (names.map fun n => (n, n)) as

/-- The name of a compressible weight, lines 385-392 of `create_layer_for_training`: the variable
name without the layer name and one more character in front, up to the first colon. -/
def compressibleName (layerName variableName : String) : String :=
  let name :=
    if variableName.toList.take layerName.length = layerName.toList then
      variableName.toList.drop (layerName.length + 1)
    else variableName.toList
  String.ofList (name.takeWhile (· ≠ ':'))

end Verif.Compression
