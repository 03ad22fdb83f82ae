/-!
# Trees of encoding stages

Models `internal/tensor_encoding/core/core_encoder.py` (class `Encoder`, `EncoderComposer`, the
splitting by commuting structure), the `fully_commutes_with_sum` property of
`core/gather_encoder.py` and the state threading of `core/simple_encoder.py`.

A Python `dict` appears in two forms: as an association list where a stage sees it, and as a list of
keys with a value function in the recursive structures; the constructor `missing` is what that
function returns at other keys, and reading it is a `KeyError`.
Exceptions (`KeyError`, failed `assert`, an error inside a stage) are `none`.
Name scopes and `tf.function` tracing are not modelled.
-/

namespace Verif.Encoding

/-- `AdaptiveEncodingStageInterface` (`core/encoding_stage.py`): what an `Encoder` calls of a stage.
`T` tensors, `P` parameter dictionaries, `S` states, `U` state update tensors, `Sh` shapes. -/
structure Stage (T P S U Sh : Type) where
  compressible : List String
  commutes : Bool
  needsShape : Bool
  initialState : S
  updateState : S → U → S
  getParams : S → P × P
  encode : T → P → List (String × T) × U
  decode : List (String × T) → P → Option Nat → Option Sh → Option T

/-- `EncodingStageInterface`: a stage without state. -/
structure BasicStage (T P Sh : Type) where
  compressible : List String
  commutes : Bool
  needsShape : Bool
  getParams : P × P
  encode : T → P → List (String × T)
  decode : List (String × T) → P → Option Nat → Option Sh → Option T

/-- `as_adaptive_encoding_stage` / `NoneStateAdaptiveEncodingStage`, `core/encoding_stage.py`
726-810.  `s₀`, `u₀` stand for the empty dictionaries. -/
def BasicStage.asAdaptive {T P Sh S U : Type} (s₀ : S) (u₀ : U) (b : BasicStage T P Sh) :
    Stage T P S U Sh where
  compressible := b.compressible
  commutes := b.commutes
  needsShape := b.needsShape
  initialState := s₀
  updateState := fun _ _ => s₀
  getParams := fun _ => b.getParams
  encode := fun x p => (b.encode x p, u₀)
  decode := b.decode

/-- `Encoder` (`core_encoder.py` 38-77): a stage and a dictionary of children. -/
inductive Encoder (T P S U Sh : Type) where
  | missing
  | node (stage : Stage T P S U Sh) (keys : List String) (child : String → Encoder T P S U Sh)

/-- The dictionaries `{PARAMS | SHAPE | STATE | TENSORS | COMMUTE: a, CHILDREN: {...}}`. -/
inductive PTree (A : Type) where
  | missing
  | node (val : A) (keys : List String) (child : String → PTree A)

/-- Encoded values: a tensor, or a dictionary where a stage has not been decoded. -/
inductive Enc (T : Type) where
  | missing
  | tensor (t : T)
  | dict (keys : List String) (val : String → Enc T)

variable {T P S U Sh : Type}

/-- `fully_commutes_with_sum`, `core_encoder.py` 78-92. -/
def Encoder.fullyCommutes : Encoder T P S U Sh → Bool
  | .missing => false
  | .node stage keys child => (keys.all fun k => (child k).fullyCommutes) && stage.commutes

/-- `_commuting_structure_impl`, `core_encoder.py` 110-120. -/
def Encoder.commutingStructure : Encoder T P S U Sh → (previous : Bool) → PTree Bool
  | .missing, _ => .missing
  | .node stage keys child, previous =>
    let current := previous && stage.commutes
    .node current keys fun k => (child k).commutingStructure current

/-- `tf.nest.flatten` of such a dictionary.  (`tf.nest` sorts keys; the order of the leaves is
immaterial below as long as it is the same when packing again.) -/
def PTree.flatten {A : Type} : PTree A → List A
  | .missing => []
  | .node a keys child => a :: keys.flatMap fun k => (child k).flatten

/-- `GatherEncoder.fully_commutes_with_sum`, `core/gather_encoder.py` 371-373: the *sum* of the
flags, used as a truth value. -/
def gatherFullyCommutes (e : Encoder T P S U Sh) : Nat :=
  ((e.commutingStructure true).flatten.map Bool.toNat).sum

/-- Run `f` on every key; all must succeed (the Python loops over `children` and
`encoded_tensors`).  The result is again a value function. -/
def forKeys {A : Type} (missing : A) (keys : List String) (f : String → Option A) :
    Option (String → A) :=
  if keys.all fun k => (f k).isSome then
    some fun k => if k ∈ keys then (f k).getD missing else missing
  else none

/-- `_initial_state_impl`, `core_encoder.py` 159-169. -/
def Encoder.initialState : Encoder T P S U Sh → PTree S
  | .missing => .missing
  | .node stage keys child =>
    .node stage.initialState keys fun k => if k ∈ keys then (child k).initialState else .missing

/-- `_update_state_impl`, `core_encoder.py` 192-205. -/
def Encoder.updateState : Encoder T P S U Sh → PTree S → PTree U → Option (PTree S)
  | .node stage keys child, .node s sKeys sChild, .node u uKeys uChild =>
    (forKeys .missing keys fun k =>
      if k ∈ sKeys ∧ k ∈ uKeys then (child k).updateState (sChild k) (uChild k) else none).map
    fun c => .node (stage.updateState s u) keys c
  | _, _, _ => none

/-- `_get_params_impl`, `core_encoder.py` 229-243: `(encode_params, decode_params)`. -/
def Encoder.getParams : Encoder T P S U Sh → PTree S → Option (PTree P × PTree P)
  | .node stage keys child, .node s sKeys sChild =>
    let p := stage.getParams s
    (forKeys (.missing, .missing) keys fun k =>
      if k ∈ sKeys then (child k).getParams (sChild k) else none).map
    fun c => (.node p.1 keys fun k => (c k).1, .node p.2 keys fun k => (c k).2)
  | _, _ => none

/-- `_encode_impl`, `core_encoder.py` 280-300:
`(encoded_tensors, state_update_tensors, input_shapes)`. -/
def Encoder.encode (shapeOf : T → Sh) : Encoder T P S U Sh → T → PTree P →
    Option (Enc T × PTree U × PTree (Option Sh))
  | .node stage keys child, x, .node p pKeys pChild =>
    let r := stage.encode x p
    (forKeys (.missing, .missing, .missing) keys fun k =>
      match r.1.lookup k with
      | some t => if k ∈ pKeys then (child k).encode shapeOf t (pChild k) else none
      | none => none).map
    fun c =>
      (.dict (r.1.map (·.1)) fun k =>
          if k ∈ keys then (c k).1
          else match r.1.lookup k with
            | some t => .tensor t
            | none => .missing,
        .node r.2 keys fun k => (c k).2.1,
        .node (if stage.needsShape then some (shapeOf x) else none) keys fun k => (c k).2.2)
  | _, _, _ => none

/-- The dictionary of tensors handed to `stage.decode`: every value must be a tensor. -/
def asTensors (keys : List String) (val : String → Enc T) : Option (List (String × T)) :=
  match keys with
  | [] => some []
  | k :: ks =>
    match val k, asTensors ks val with
    | .tensor t, some rest => some ((k, t) :: rest)
    | _, _ => none

/-- `_decode_before_sum_impl`, `core_encoder.py` 362-404.  A parameter that the split replaced by
`None` is `none`; decoding with it is an error. -/
def Encoder.decodeBeforeSum : Encoder T P S U Sh → (force : Bool) → Enc T → PTree (Option P) →
    PTree (Option Sh) → Option (Enc T)
  | .node stage keys child, force, .dict eKeys val, .node p pKeys pChild, .node sh shKeys shChild =>
    let force' := force || !stage.commutes
    match forKeys .missing eKeys fun k =>
        if k ∈ keys then
          if k ∈ pKeys ∧ k ∈ shKeys then
            (child k).decodeBeforeSum force' (val k) (pChild k) (shChild k)
          else none
        else some (val k) with
    | none => none
    | some temp =>
      if force' then
        match asTensors eKeys temp, p with
        | some d, some p => (stage.decode d p none sh).map .tensor
        | _, _ => none
      else some (.dict eKeys temp)
  | _, _, _, _, _ => none

/-- `decode`, `core_encoder.py` 302-327. -/
def Encoder.decode (e : Encoder T P S U Sh) (x : Enc T) (p : PTree (Option P))
    (sh : PTree (Option Sh)) : Option (Enc T) :=
  e.decodeBeforeSum true x p sh

/-- `_decode_after_sum_impl`, `core_encoder.py` 443-463. -/
def Encoder.decodeAfterSum : Encoder T P S U Sh → Enc T → PTree (Option P) → Nat →
    PTree (Option Sh) → Option T
  | .missing, _, _, _, _ => none
  | .node stage keys child, x, p, n, sh =>
    if stage.commutes = false then
      match x with
      | .tensor t => some t
      | _ => none
    else
      match x, p, sh with
      | .dict eKeys val, .node p pKeys pChild, .node sh shKeys shChild =>
        match forKeys .missing eKeys fun k =>
            if k ∈ keys then
              if k ∈ pKeys ∧ k ∈ shKeys then
                ((child k).decodeAfterSum (val k) (pChild k) n (shChild k)).map Enc.tensor
              else none
            else some (val k) with
        | none => none
        | some temp =>
          match asTensors eKeys temp, p with
          | some d, some p => stage.decode d p (some n) sh
          | _, _ => none
      | _, _, _ => none

/-- `_split_value_by_commuting_structure`, `core_encoder.py` 586-616, first component; a value that
is not relevant becomes `none`. -/
def splitBefore {A : Type} : PTree (Option A) → PTree Bool → PTree (Option A)
  | .node a keys child, .node c _ cChild =>
    .node (if c then none else a) keys fun k => splitBefore (child k) (cChild k)
  | _, _ => .missing

/-- The second component of the same. -/
def splitAfter {A : Type} : PTree (Option A) → PTree Bool → PTree (Option A)
  | .node a keys child, .node c _ cChild =>
    .node (if c then a else none) keys fun k => splitAfter (child k) (cChild k)
  | _, _ => .missing

/-- Full parameters, as `get_params` returns them. -/
def PTree.full {A : Type} : PTree A → PTree (Option A)
  | .missing => .missing
  | .node a keys child => .node (some a) keys fun k => (child k).full

/-! ## SimpleEncoder -/

/-- `tf.nest.pack_sequence_as(structure, flat)` for such dictionaries: rebuild the tree and return
the unused rest. -/
def PTree.packAux {A B : Type} : PTree B → List A → Option (PTree A × List A)
  | .missing, l => some (.missing, l)
  | .node _ _ _, [] => none
  | .node _ keys child, a :: l =>
    (packKeys keys (fun k => (child k).packAux) l).map fun r => (.node a keys r.1, r.2)
where
  /-- the children, in key order -/
  packKeys {A : Type} : List String → (String → List A → Option (PTree A × List A)) → List A →
      Option ((String → PTree A) × List A)
    | [], _, l => some (fun _ => .missing, l)
    | k :: ks, f, l =>
      match f k l with
      | none => none
      | some (t, l') => (packKeys ks f l').map fun r => (fun j => if j = k then t else r.1 j, r.2)

/-- `tf.nest.pack_sequence_as`: everything must be used up. -/
def PTree.pack {A B : Type} (structure_ : PTree B) (flat : List A) : Option (PTree A) :=
  match structure_.packAux flat with
  | some (t, []) => some t
  | _ => none

/-- What `SimpleEncoder.encode` returns: encoded tensors with decode parameters and shapes, kept
together in one dictionary (`core/simple_encoder.py` 108-125; flattening it to joined string paths
and splitting off Python constants is not modelled here). -/
structure SimpleEncoded (T P Sh : Type) where
  tensors : Enc T
  params : PTree P
  shapes : PTree (Option Sh)

/-- `encode_fn`, `core/simple_encoder.py` 99-126: encode with the packed state and return the
updated flat state. -/
def simpleEncode (shapeOf : T → Sh) (e : Encoder T P S U Sh) (x : T) (flat : List S) :
    Option (SimpleEncoded T P Sh × List S) :=
  match e.initialState.pack flat with
  | none => none
  | some state =>
    match e.getParams state with
    | none => none
    | some (ep, dp) =>
      match e.encode shapeOf x ep with
      | none => none
      | some (enc, u, sh) =>
        (e.updateState state u).map fun s' => (⟨enc, dp, sh⟩, s'.flatten)

/-- `decode_fn`, `core/simple_encoder.py` 128-140. -/
def simpleDecode (e : Encoder T P S U Sh) (x : SimpleEncoded T P Sh) : Option T :=
  match e.decode x.tensors x.params.full x.shapes with
  | some (.tensor t) => some t
  | _ => none

/-- Encode a sequence of inputs, each with the state its predecessor returned. -/
def simpleRun (shapeOf : T → Sh) (e : Encoder T P S U Sh) : List T → List S →
    Option (List (SimpleEncoded T P Sh) × List S)
  | [], flat => some ([], flat)
  | x :: xs, flat =>
    match simpleEncode shapeOf e x flat with
    | none => none
    | some (enc, flat') =>
      (simpleRun shapeOf e xs flat').map fun r => (enc :: r.1, r.2)

end Verif.Encoding
