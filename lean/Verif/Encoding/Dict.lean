import Verif.Prelude

/-!
# Splitting and merging nested dictionaries

`internal/tensor_encoding/utils/py_utils.py` 83-161.

A Python value is a non-dict Python object (`py`), a TensorFlow tensor (`tf`), or a `dict`, given by
the list of its keys in insertion order and a value function (`missing` stands for "no such key").
`TypeError` and `ValueError` are both `none`.
-/

namespace Verif.Encoding

inductive PyVal (V : Type) where
  | missing
  | py (v : V)
  | tf (v : V)
  | dict (keys : List String) (val : String → PyVal V)

namespace PyVal

variable {V : Type}

/-- `isinstance(v, dict)`. -/
def isDict : PyVal V → Bool
  | .dict _ _ => true
  | _ => false

/-- `tf.is_tensor(v)`. -/
def isTf : PyVal V → Bool
  | .tf _ => true
  | _ => false

/-- `split_dict_py_tf`, `py_utils.py` 83-112, on a value; at top level the value must be a dict
(`splitDict`).  Both components keep the key order. -/
def split : PyVal V → PyVal V × PyVal V
  | .dict keys val =>
    (.dict (keys.filter fun k => (val k).isDict || !(val k).isTf)
        fun k => if (val k).isDict then (val k).split.1 else val k,
     .dict (keys.filter fun k => (val k).isDict || (val k).isTf)
        fun k => if (val k).isDict then (val k).split.2 else val k)
  | v => (v, v)

/-- `split_dict_py_tf`: `TypeError` if the argument is not a dict. -/
def splitDict (d : PyVal V) : Option (PyVal V × PyVal V) :=
  if d.isDict then some d.split else none

/-- `merge_dicts`, `py_utils.py` 115-161. -/
def merge : PyVal V → PyVal V → Option (PyVal V)
  | .dict k1 v1, .dict k2 v2 =>
    -- first loop
    if k1.all fun k => !(v1 k).isDict ||
        (decide (k ∈ k2) && (v2 k).isDict && ((v1 k).merge (v2 k)).isSome) then
      -- second loop
      if k2.all fun k =>
          if (v2 k).isDict then decide (k ∈ k1) && (v1 k).isDict else !decide (k ∈ k1) then
        some (.dict (k1 ++ k2.filter fun k => !(v2 k).isDict) fun k =>
          if k ∈ k1 then
            if (v1 k).isDict then ((v1 k).merge (v2 k)).getD .missing else v1 k
          else v2 k)
      else none
    else none
  | _, _ => none

end PyVal
end Verif.Encoding
