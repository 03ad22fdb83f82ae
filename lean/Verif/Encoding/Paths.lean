import Mathlib.Data.List.Sort
import Mathlib.Data.String.Basic
import Verif.Encoding.Dict

/-!
# Flat dictionaries with joined paths

`internal/tensor_encoding/utils/py_utils.py` 164-167 (`flatten_with_joined_string_paths`) and its use in
`core/simple_encoder.py` 109-146 and `core/gather_encoder.py` 259-341.

What encoders exchange with the user is a nested dictionary (`PyVal`), made flat by joining the keys of a path with `/`, and
made nested again with `tf.nest.flatten` and `tf.nest.pack_sequence_as`.  `tree` and `tf.nest` visit the keys of every
dictionary in sorted order (of code points).  All errors are `none`.
-/

namespace Verif.Encoding
namespace PyVal

variable {V : Type}

/-- The order in which `tree` and `tf.nest` visit keys. -/
def sortKeys (keys : List String) : List String := keys.insertionSort (· ≤ ·)

/-- `tree.flatten_with_path(structure)`. -/
def flattenWithPath : PyVal V → List (List String × PyVal V)
  | .dict keys val => (sortKeys keys).flatMap fun k => (val k).flattenWithPath.map fun p => (k :: p.1, p.2)
  | v => [([], v)]

/-- `separator.join(path)` with `separator='/'`. -/
def joinPath : List String → String
  | [] => ""
  | [k] => k
  | k :: k' :: ks => k ++ ("/" ++ joinPath (k' :: ks))

/-- `d[k] = v`: a new key is added at the end. -/
def setKey {A : Type} (d : List (String × A)) (kv : String × A) : List (String × A) :=
  if kv.1 ∈ d.map Prod.fst then d.map fun p => if p.1 = kv.1 then kv else p else d ++ [kv]

/-- A dictionary with these items (distinct keys). -/
def ofItems (items : List (String × PyVal V)) : PyVal V :=
  .dict (items.map Prod.fst) fun k => (items.lookup k).getD .missing

/-- `collections.OrderedDict(flatten_with_joined_string_paths(structure))`, `py_utils.py` 164-167. -/
def flatDict (d : PyVal V) : PyVal V :=
  ofItems ((d.flattenWithPath.map fun p => (joinPath p.1, p.2)).foldl setKey [])

/-- The loop of `pack_sequence_as` over the sorted keys of a dictionary. -/
def packKeys {A : Type} : List String → (String → List A → Option (A × List A)) → List A →
    Option (List (String × A) × List A)
  | [], _, xs => some ([], xs)
  | k :: ks, f, xs =>
    match f k xs with
    | none => none
    | some r => (packKeys ks f r.2).map fun s => ((k, r.1) :: s.1, s.2)

/-- `_packed_nest_with_indices`, the recursion of `pack_sequence_as`: the packed value and the unused part of the
sequence. -/
def packFrom : PyVal V → List (PyVal V) → Option (PyVal V × List (PyVal V))
  | .dict keys val, xs =>
    (packKeys (sortKeys keys) (fun k => (val k).packFrom) xs).map fun r =>
      (.dict keys fun k => (r.1.lookup k).getD .missing, r.2)
  | _, [] => none
  | _, x :: xs => some (x, xs)

/-- `tf.nest.pack_sequence_as(structure, flat_sequence)`: `ValueError` if the numbers of leaves differ. -/
def packSequenceAs (structure' : PyVal V) (xs : List (PyVal V)) : Option (PyVal V) :=
  match structure'.packFrom xs with
  | some (r, []) => some r
  | _ => none

/-- `tf.nest.flatten(structure)`. -/
def leaves (d : PyVal V) : List (PyVal V) := d.flattenWithPath.map Prod.snd

/-- What `encode_fn` of `SimpleEncoder` returns to the user, `simple_encoder.py` 109-128, and what it keeps: the tensors and
the Python values of the flat dictionary. -/
def simpleSend (full : PyVal V) : Option (PyVal V × PyVal V) :=
  full.flatDict.splitDict.map fun r => (r.2, r.1)

/-- The beginning of `decode_fn` of `SimpleEncoder`, `simple_encoder.py` 136-143: `full` stands for the recorded
structure. -/
def simpleReceive (full flatPy sent : PyVal V) : Option (PyVal V) :=
  (sent.merge flatPy).bind fun m => full.packSequenceAs m.leaves

/-- What `encode_fn` of `GatherEncoder` returns to the user, `gather_encoder.py` 272-287, and what it keeps: the recorded
structure of the tensors and the Python values. -/
def gatherSend (full : PyVal V) : Option (PyVal V × PyVal V × PyVal V) :=
  full.splitDict.map fun r => (r.2.flatDict, r.2, r.1)

/-- The beginning of `decode_before_sum_fn` of `GatherEncoder`, `gather_encoder.py` 299-303. -/
def gatherReceive (structure' py sent : PyVal V) : Option (PyVal V) :=
  (structure'.packSequenceAs sent.leaves).bind fun t => t.merge py

/-- What `decode_before_sum_fn` returns, `gather_encoder.py` 314-318. -/
def partSend (part : PyVal V) : PyVal V := if part.isDict then part.flatDict else part

/-- The beginning of `decode_after_sum_fn`, `gather_encoder.py` 331-333. -/
def partReceive (structure' sent : PyVal V) : Option (PyVal V) := structure'.packSequenceAs sent.leaves

end PyVal
end Verif.Encoding
