import Verif.Encoding.Encoder

/-!
# EncoderComposer

`internal/tensor_encoding/core/core_encoder.py` 466-548.  A program holds references to composer
objects; `add_child` mutates the object it is called on, `add_parent` creates an object that points
to the one it is called on.  We model the objects as a heap (a list; the reference is the index) and
a program as a sequence of constructor / `add_child` / `add_parent` calls.

Not modelled: the `isinstance` check of the constructor (stages are typed here).
-/

namespace Verif.Encoding

variable {T P S U Sh : Type}

/-- One `EncoderComposer` object: `_stage` and `_children` (`core_encoder.py` 477-491); a child is a
reference to another composer. -/
structure CNode (T P S U Sh : Type) where
  stage : Stage T P S U Sh
  children : List (String × Nat)

abbrev Heap (T P S U Sh : Type) := List (CNode T P S U Sh)

/-- The `KeyError`s of `add_child` and `add_parent`; `noObject` is not a Python error, it is a call
on a reference that does not exist. -/
inductive ComposeErr where
  | notCompressible
  | keyUsed
  | noObject
  deriving DecidableEq, Repr

/-- `EncoderComposer(stage)`, `core_encoder.py` 477-491: returns the new reference. -/
def Heap.new (h : Heap T P S U Sh) (st : Stage T P S U Sh) : Heap T P S U Sh × Nat :=
  (h ++ [⟨st, []⟩], h.length)

/-- `add_child(stage, key)`, `core_encoder.py` 493-517. -/
def Heap.addChild (h : Heap T P S U Sh) (i : Nat) (st : Stage T P S U Sh) (key : String) :
    Except ComposeErr (Heap T P S U Sh × Nat) :=
  match h[i]? with
  | none => .error .noObject
  | some c =>
    if key ∉ c.stage.compressible then .error .notCompressible
    else if key ∈ c.children.map (·.1) then .error .keyUsed
    else .ok ((h.set i ⟨c.stage, c.children ++ [(key, h.length)]⟩) ++ [⟨st, []⟩], h.length)

/-- `add_parent(stage, key)`, `core_encoder.py` 519-537. -/
def Heap.addParent (h : Heap T P S U Sh) (i : Nat) (st : Stage T P S U Sh) (key : String) :
    Except ComposeErr (Heap T P S U Sh × Nat) :=
  match h[i]? with
  | none => .error .noObject
  | some _ =>
    if key ∉ st.compressible then .error .notCompressible
    else .ok (h ++ [⟨st, [(key, i)]⟩], h.length)

/-- `make()`, `core_encoder.py` 539-548.  The recursion follows references, so it is bounded by
fuel here; `none` means the fuel ran out (or a dangling reference). -/
def Heap.make (h : Heap T P S U Sh) : Nat → Nat → Option (Encoder T P S U Sh)
  | 0, _ => none
  | fuel + 1, i =>
    match h[i]? with
    | none => none
    | some c =>
      (forKeys .missing (c.children.map (·.1)) fun k =>
        (c.children.lookup k).bind fun j => h.make fuel j).map fun ch => .node c.stage (c.children.map (·.1)) ch

/-- The calls a program can make. -/
inductive ComposeOp (T P S U Sh : Type) where
  | new (st : Stage T P S U Sh)
  | addChild (i : Nat) (st : Stage T P S U Sh) (key : String)
  | addParent (i : Nat) (st : Stage T P S U Sh) (key : String)

/-- Effect of one call on the heap; a call that raises changes nothing. -/
def Heap.step (h : Heap T P S U Sh) : ComposeOp T P S U Sh → Heap T P S U Sh
  | .new st => (h.new st).1
  | .addChild i st key =>
    match h.addChild i st key with
    | .ok r => r.1
    | .error _ => h
  | .addParent i st key =>
    match h.addParent i st key with
    | .ok r => r.1
    | .error _ => h

/-- A whole program. -/
def Heap.run (ops : List (ComposeOp T P S U Sh)) : Heap T P S U Sh :=
  ops.foldl Heap.step []

end Verif.Encoding
