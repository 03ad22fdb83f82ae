import Verif.Encoding.Encoder

/-!
# GatherEncoder

`internal/tensor_encoding/core/gather_encoder.py` 118-362 (`GatherEncoder.from_encoder`).

The functions that `from_encoder` creates are modelled as functions of the encoder.  Their signature checks against the
specs recorded by the trial run are modelled by comparing with the values of the trial run: only element types and shapes
(`sigOf`) are compared.

Simplifications: parameters and shapes stay in one dictionary; dividing them into Python constants and tensors and merging
them again (`split_dict_py_tf`, `merge_dicts`) and the flattening to joined string paths are not repeated here (they are in
`Dict.lean`); signatures of parameters and states are not compared.
-/

namespace Verif.Encoding

variable {T P S U Sh Γ : Type} [DecidableEq Γ]

/-- `py_utils.assert_compatible(spec, value)`, `utils/py_utils.py` 170-190, on encoded values: same structure, and every
tensor has the element type and shape of its counterpart. -/
def Enc.compatible (sigOf : T → Γ) : Enc T → Enc T → Bool
  | .tensor a, .tensor b => sigOf a = sigOf b
  | .dict ks v, .dict ks' w => ks = ks' && ks.all fun k => (v k).compatible sigOf (w k)
  | _, _ => false

/-- What `get_params` returns, `gather_encoder.py` 210-248: encode parameters, decode parameters before the sum, and, after
the sum, parameters and shapes. -/
structure GatherParams (P Sh : Type) where
  encode : PTree P
  before : PTree (Option P)
  after : PTree (Option P)
  shapes : PTree (Option Sh)

/-- `get_params_fn`, `gather_encoder.py` 210-248; `zeros` is `tf.zeros(tensorspec.shape, tensorspec.dtype)`. -/
def gatherGetParams (shapeOf : T → Sh) (e : Encoder T P S U Sh) (zeros : T) (flat : List S) :
    Option (GatherParams P Sh) :=
  match e.initialState.pack flat with
  | none => none
  | some st =>
    match e.getParams st with
    | none => none
    | some (ep, dp) =>
      (e.encode shapeOf zeros ep).map fun r =>
        ⟨ep, splitBefore dp.full (e.commutingStructure true), splitAfter dp.full (e.commutingStructure true),
          splitAfter r.2.2 (e.commutingStructure true)⟩

/-- What a client sends: encoded tensors and the shapes needed before the sum. -/
structure GatherEncoded (T Sh : Type) where
  tensors : Enc T
  shapes : PTree (Option Sh)

/-- `encode_fn`, `gather_encoder.py` 259-289: encoding and flat state update tensors. -/
def gatherEncode (shapeOf : T → Sh) (sigOf : T → Γ) (e : Encoder T P S U Sh) (zeros x : T) (ep : PTree P) :
    Option (GatherEncoded T Sh × List U) :=
  if sigOf x = sigOf zeros then
    (e.encode shapeOf x ep).map fun r =>
      (⟨r.1, splitBefore r.2.2 (e.commutingStructure true)⟩, r.2.1.flatten)
  else none

/-- `decode_before_sum_fn`, `gather_encoder.py` 294-318, where `spec` is the encoding of the trial run. -/
def gatherDecodeBefore (sigOf : T → Γ) (e : Encoder T P S U Sh) (spec : Enc T) (x : GatherEncoded T Sh)
    (before : PTree (Option P)) : Option (Enc T) :=
  if x.tensors.compatible sigOf spec then e.decodeBeforeSum false x.tensors before x.shapes else none

/-- `decode_after_sum_fn`, `gather_encoder.py` 325-341, where `spec` is the partial decoding of the trial run. -/
def gatherDecodeAfter (sigOf : T → Γ) (e : Encoder T P S U Sh) (spec x : Enc T) (after : PTree (Option P))
    (shapes : PTree (Option Sh)) (n : Nat) : Option T :=
  if x.compatible sigOf spec then e.decodeAfterSum x after n shapes else none

/-- What `from_encoder` records: the encoding of zeros, its partial decoding and the state update tensors. -/
structure GatherSpec (T U : Type) where
  encoded : Enc T
  part : Enc T
  updates : PTree U

/-- `update_state_fn`, `gather_encoder.py` 348-356, where `updates` has the structure of the state update tensors. -/
def gatherUpdateState (e : Encoder T P S U Sh) (updates : PTree U) (flat : List S) (us : List U) : Option (List S) :=
  match e.initialState.pack flat, updates.pack us with
  | some st, some u => (e.updateState st u).map PTree.flatten
  | _, _ => none

/-- `from_encoder`, `gather_encoder.py` 118-362: the trial run on zeros.  An error in the trial run, or a decoded value of
another type or shape, is an error.  (The structure of the state update tensors is that of the trial encoding.) -/
def gatherFromEncoder (shapeOf : T → Sh) (sigOf : T → Γ) (e : Encoder T P S U Sh) (zeros : T) :
    Option (GatherSpec T U) :=
  match gatherGetParams shapeOf e zeros e.initialState.flatten with
  | none => none
  | some gp =>
    match e.encode shapeOf zeros gp.encode, gatherEncode shapeOf sigOf e zeros zeros gp.encode with
    | some r, some x =>
      match gatherDecodeBefore sigOf e x.1.tensors x.1 gp.before with
      | none => none
      | some b =>
        match gatherDecodeAfter sigOf e b b gp.after gp.shapes 1 with
        | none => none
        | some y =>
          if sigOf y = sigOf zeros ∧ (gatherUpdateState e r.2.1 e.initialState.flatten x.2).isSome then
            some ⟨x.1.tensors, b, r.2.1⟩
          else none
    | _, _ => none

end Verif.Encoding
