import Mathlib.Data.Nat.Notation

/-!
# The class decorators of encoding stages, and the adapter to stages with a state

`internal/tensor_encoding/core/encoding_stage.py` (paths relative to
`/repo/tensorflow_model_optimization/python/core/`).  `tf_style_encoding_stage(cls)` returns a subclass of `cls`
whose instances hold an instance of `cls` in the attribute `_wrapped_class`, and whose `__getattr__` asks that
instance for attributes that are not found otherwise.  The methods of `cls` run with the outer object as `self`.

Python's attribute access is modelled: `object.__getattribute__` looks in the dictionary of the instance, then in the
classes; `__getattr__` is called if that fails; assignments and deletions work on the dictionary of the instance.
A method is a program that reads, writes and deletes attributes of `self`.  Not modelled: the name scopes and the
conversion of arguments to tensors that the decorated methods add; data descriptors.
-/

namespace Verif.Encoding.Decorators
variable {V R : Type*}

/-- A dictionary of attributes. -/
abbrev Attrs (V : Type*) := String → Option V

def Attrs.set (d : Attrs V) (a : String) (v : V) : Attrs V := fun b => if b = a then some v else d b
def Attrs.del (d : Attrs V) (a : String) : Attrs V := fun b => if b = a then none else d b
def Attrs.empty : Attrs V := fun _ => none

/-- Python objects.  `plain`: an instance of a class without `__getattr__`.  `deco`: an instance of a class with the
`__getattr__` of `TFStyleEncodingStage`; `wrapped` is its attribute `_wrapped_class`, if that is set.  `cls` are the
attributes found in its classes, `dict` those of the instance other than `_wrapped_class`. -/
inductive Obj (V : Type*) where
  | plain (cls dict : Attrs V)
  | deco (cls dict : Attrs V) (wrapped : Option (Obj V))

/-- `object.__getattribute__(self, attr)`, which does not call `__getattr__`. -/
def Obj.getattribute : Obj V → String → Option V
  | .plain cls dict, a => (dict a).orElse fun _ => cls a
  | .deco cls dict _, a => (dict a).orElse fun _ => cls a

/-- `self.attr` with at most `fuel` nested calls of `__getattr__` (537-538, 595-596:
`self._wrapped_class.__getattribute__(attr)`).  The outer `none` is an exhausted stack, the inner one an
`AttributeError`. -/
def Obj.getAttrF : ℕ → Obj V → String → Option (Option V)
  | _, .plain cls dict, a => some ((Obj.plain cls dict).getattribute a)
  | fuel, .deco cls dict (some w), a =>
    some (((Obj.deco cls dict (some w)).getattribute a).orElse fun _ => w.getattribute a)
  | fuel, .deco cls dict none, a =>
    match (Obj.deco cls dict none).getattribute a with
    | some v => some (some v)
    | none =>
      match fuel with
      | 0 => none
      | fuel + 1 => Obj.getAttrF fuel (.deco cls dict none) "_wrapped_class"

/-- `self.attr` for an object whose `_wrapped_class` is set, or that has no `__getattr__`. -/
def Obj.getAttr : Obj V → String → Option V
  | .plain cls dict, a => (Obj.plain cls dict).getattribute a
  | .deco cls dict w, a =>
    ((Obj.deco cls dict w).getattribute a).orElse fun _ => w.bind fun o => o.getattribute a

/-- `self.attr = v`. -/
def Obj.setAttr : Obj V → String → V → Obj V
  | .plain cls dict, a, v => .plain cls (dict.set a v)
  | .deco cls dict w, a, v => .deco cls (dict.set a v) w

/-- `del self.attr`; `none` is an `AttributeError`. -/
def Obj.delAttr : Obj V → String → Option (Obj V)
  | .plain cls dict, a => if (dict a).isSome then some (.plain cls (dict.del a)) else none
  | .deco cls dict w, a => if (dict a).isSome then some (.deco cls (dict.del a) w) else none

/-- Definitions of classes: a class with the class attributes `cls` whose constructor sets `init`; a decorated class
(531-559, 589-626); a subclass with further class attributes whose constructor calls the one of its base class and
then sets `init`. -/
inductive Cls (V : Type*) where
  | base (cls init : Attrs V)
  | decorate (c : Cls V)
  | sub (c : Cls V) (cls init : Attrs V)

/-- The class attributes an instance sees, by method resolution order. -/
def Cls.attrs : Cls V → Attrs V
  | .base cls _ => cls
  | .decorate c => c.attrs
  | .sub c cls _ => fun a => (cls a).orElse fun _ => c.attrs a

/-- What a constructor of a subclass does after the one of its base class, and the class attributes of the
subclass. -/
def Obj.extend (o : Obj V) (cls init : Attrs V) : Obj V :=
  match o with
  | .plain c d => .plain (fun a => (cls a).orElse fun _ => c a) (fun a => (init a).orElse fun _ => d a)
  | .deco c d w => .deco (fun a => (cls a).orElse fun _ => c a) (fun a => (init a).orElse fun _ => d a) w

/-- The constructor; of a decorated class 534-535, 592-593: `self._wrapped_class = cls(*args, **kwargs)`, and nothing
else. -/
def Cls.new : Cls V → Obj V
  | .base cls init => .plain cls init
  | .decorate c => .deco c.attrs Attrs.empty (some c.new)
  | .sub c cls init => c.new.extend cls init

/-- A method of a stage: it reads attributes of `self` (an absent one may be an error, or handled, as the method
likes), writes and deletes them, and returns. -/
inductive Prog (V R : Type*) where
  | ret (r : R)
  | get (a : String) (k : Option V → Prog V R)
  | set (a : String) (v : V) (k : Prog V R)
  | del (a : String) (k : Bool → Prog V R)

/-- Running a method; whether a deletion succeeded is told to the method. -/
def Prog.run : Prog V R → Obj V → R × Obj V
  | .ret r, o => (r, o)
  | .get a k, o => (k (o.getAttr a)).run o
  | .set a v k, o => k.run (o.setAttr a v)
  | .del a k, o =>
    match o.delAttr a with
    | some o' => (k true).run o'
    | none => (k false).run o

/-- Calls of methods one after the other: the results. -/
def runAll : List (Prog V R) → Obj V → List R
  | [], _ => []
  | p :: ps, o => (p.run o).1 :: runAll ps (p.run o).2

/-- `copy.copy`, `copy.deepcopy` and `pickle.loads` make an object without calling `__init__`
(`object.__reduce_ex__`) and then ask for its attribute `__setstate__`, before they set its dictionary. -/
def Obj.blank : Obj V → Obj V
  | .plain cls _ => .plain cls Attrs.empty
  | .deco cls _ _ => .deco cls Attrs.empty none

/-! ## `as_adaptive_encoding_stage` -/

/-- A stage as the adapter sees it: how many arguments after `self` its three methods take, and what they compute. -/
structure Stage (X P E : Type*) where
  getParams : P
  encode : X → P → E
  decode : E → P → X
  /-- the methods take the argument `name` that the decorators add (541, 545, 549-554) -/
  takesName : Bool

/-- The number of arguments a method takes after `self`: 163, 194, 217-221 (the abstract methods) and 541-554. -/
def arity (s : Stage X P E) (base : ℕ) : ℕ := if s.takesName then base + 1 else base

/-- A call with `given` positional arguments; too many are a `TypeError`. -/
def callPositional (s : Stage X P E) (base given : ℕ) (r : β) : Option β :=
  if given ≤ arity s base then some r else none

/-- `NoneStateAdaptiveEncodingStage.get_params`, 796-798: `get_params(name)`. -/
def adaptedGetParams (s : Stage X P E) : Option P := callPositional s 0 1 s.getParams

/-- `NoneStateAdaptiveEncodingStage.encode`, 800-801: `encode(x, encode_params, name), {}`; the second component is
the (empty) dictionary of state updates. -/
def adaptedEncode (s : Stage X P E) (x : X) (p : P) : Option (E × List (String × E)) :=
  (callPositional s 2 3 (s.encode x p)).map fun e => (e, [])

/-- `NoneStateAdaptiveEncodingStage.decode`, 803-810: five positional arguments. -/
def adaptedDecode (s : Stage X P E) (e : E) (p : P) : Option X := callPositional s 4 5 (s.decode e p)

/-- The decorators add the argument `name` to the methods. -/
def decorateStage (s : Stage X P E) : Stage X P E := { s with takesName := true }

end Verif.Encoding.Decorators
