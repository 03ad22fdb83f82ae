import Mathlib.Data.Nat.Notation

/-!
# Model of one weight compression algorithm object shared by many layers

  /repo/tensorflow_model_optimization/python/core/common/keras/compression/algorithm.py
  /repo/tensorflow_model_optimization/python/core/common/keras/compression/internal/optimize.py
  /repo/tensorflow_model_optimization/python/core/common/keras/compression/algorithms/
    periodical_update_and_scheduling.py

`optimize_model` wraps every layer with the same algorithm object, and the base class keeps three
attributes in that object (`weight_reprs`, `update_ops`, `tensor_weight_pairs`) that every layer's
`build` and `call` overwrite.  Here these attributes are modelled as they are, with variables and
tensors known by object identity (a number each).  `Optimize.lean` and `Attributes.lean` treat the
values and the attributes of one layer.

Simplified: eager execution (`weight.assign` happens at once; in graph mode the operations run in
the same order by automatic control dependencies), dtypes and shapes are left out, and
`_prevent_constant_folding` is a new tensor with the same value.
-/
namespace Verif.Compression

variable {V : Type}

/-- The tensor that the code of an algorithm passes to `update_training_weight`: the `k`-th argument
of `project_training_weights`, or another tensor object, which may be an argument of an earlier call
that the algorithm has kept. -/
inductive Ref where
  | arg (k : ℕ)
  | other (id : ℕ)
  deriving DecidableEq

/-- The code of a `WeightCompressor` subclass (algorithm.py 33-173): the values it passes to
`add_training_weight` in `init_training_weights`, the calls of `update_training_weight` it makes in
`project_training_weights`, in order, and what that returns. -/
structure AlgCode (V : Type) where
  init : V → List V
  project : List V → List (Ref × V) × V

/-- The attributes of the algorithm object that the base class handles. -/
structure AlgObj (V : Type) where
  /-- `weight_reprs`, algorithm.py 85-89 -/
  reprs : List V
  /-- `tensor_weight_pairs`, algorithm.py 110: identities of tensor and variable -/
  pairs : List (ℕ × ℕ)
  /-- `update_ops`, algorithm.py 109, 132: variable and value -/
  updateOps : List (ℕ × V)

/-- A training wrapper (optimize.py 43-160): `training_weights`, by the name of the weight they
stand for, as identities of variables, and `attr_name_map`. -/
structure TLayer where
  weights : List (String × List ℕ)
  attrs : List (String × String)

/-- Everything there is: the algorithm object, the variables (number and values), the number of
tensors made so far, and the layers wrapped so far. -/
structure Shared (V : Type) where
  alg : AlgObj V
  vars : List V
  tensors : ℕ
  layers : List TLayer

/-- `add_training_weight`, algorithm.py 72-89. -/
def AlgObj.add (a : AlgObj V) (v : V) : AlgObj V := { a with reprs := a.reprs ++ [v] }

/-- `algorithm.weight_reprs = []; algorithm.init_training_weights(w)`: optimize.py 112-113 and
282-283. -/
def AlgObj.initWeights (code : AlgCode V) (a : AlgObj V) (w : V) : AlgObj V :=
  (code.init w).foldl AlgObj.add { a with reprs := [] }

/-- `_TrainingWrapper.build`, optimize.py 103-120: new variables for every compressible weight, which
is a dummy tensor `zeros w` at this time. -/
def buildWeights (code : AlgCode V) (zeros : V → V) :
    List (String × V) → AlgObj V → List V → List (String × List ℕ) × AlgObj V × List V
  | [], a, vars => ([], a, vars)
  | (name, w) :: rest, a, vars =>
    let a' := a.initWeights code (zeros w)
    let r := buildWeights code zeros rest a' (vars ++ a'.reprs)
    ((name, (List.range a'.reprs.length).map (vars.length + ·)) :: r.1, r.2)

/-- `_map_to_training_weights`, optimize.py 278-301, for the compressible weights: the values from
the pretrained weights, in order. -/
def mapWeights (code : AlgCode V) : List (String × V) → AlgObj V → List V × AlgObj V
  | [], a => ([], a)
  | (_, w) :: rest, a =>
    let a' := a.initWeights code w
    let r := mapWeights code rest a'
    (a'.reprs ++ r.1, r.2)

/-- `create_layer_for_training`, optimize.py 343-417, on the compressible weights `ws` of a layer:
build, map, `set_weights` (a `ValueError` if the numbers of weights differ). -/
def Shared.create (code : AlgCode V) (zeros : V → V) (ws : List (String × V))
    (attrs : List (String × String)) (s : Shared V) : Except String (Shared V) :=
  let b := buildWeights code zeros ws s.alg s.vars
  let m := mapWeights code ws b.2.1
  if m.1.length + s.vars.length = b.2.2.length then
    .ok { alg := m.2, vars := s.vars ++ m.1, tensors := s.tensors, layers := s.layers ++ [⟨b.1, attrs⟩] }
  else .error "ValueError: set_weights"

/-- `update_training_weight`, algorithm.py 112-136: the first pair whose tensor is the given object.
The result says if there was one; otherwise a `ValueError` is raised. -/
def updateTrainingWeight (a : AlgObj V) (vars : List V) (tensor : ℕ) (v : V) :
    (AlgObj V × List V) × Bool :=
  match a.pairs.find? (fun p => p.1 == tensor) with
  | some p => (({ a with updateOps := a.updateOps ++ [(p.2, v)] }, vars.set p.2 v), true)
  | none => ((a, vars), false)

/-- The identity of the tensor meant by a reference, in a call whose arguments are the tensors
`base`, …, `base + n - 1`; no object when there is none (yet). -/
def Ref.identity (base n : ℕ) : Ref → Option ℕ
  | .arg k => if k < n then some (base + k) else none
  | .other id => if id < base then some id else none

/-- The calls of `update_training_weight` made in one `project_training_weights`, in order, up to the
first that raises. -/
def updateAll (base n : ℕ) : List (Ref × V) → AlgObj V → List V → (AlgObj V × List V) × Bool
  | [], a, vars => ((a, vars), true)
  | (r, v) :: rest, a, vars =>
    match r.identity base n with
    | none => ((a, vars), false)
    | some id =>
      match updateTrainingWeight a vars id v with
      | (s, true) => updateAll base n rest s.1 s.2
      | (s, false) => (s, false)

/-- One turn of the loop of `_TrainingWrapper.call`, optimize.py 141-154, for an attribute that
stands for the training weights `ids`: read them, make new tensors of them, `init_update_ops`
(algorithm.py 108-110), project.  `none`: an exception. -/
def callWeight (code : AlgCode V) (ids : List ℕ) (s : Shared V) : Shared V × Option V :=
  let values := ids.filterMap (s.vars[·]?)
  let tensors := (List.range ids.length).map (s.tensors + ·)
  let a : AlgObj V := { s.alg with pairs := tensors.zip ids, updateOps := [] }
  let p := code.project values
  let u := updateAll s.tensors ids.length p.1 a s.vars
  ({ s with alg := u.1.1, vars := u.1.2, tensors := s.tensors + ids.length },
    if u.2 then some p.2 else none)

/-- The loop of `_TrainingWrapper.call`, optimize.py 138-155: the tensors set as attributes of the
layer, or nothing after an exception (a missing name is a `KeyError`). -/
def callAttrs (code : AlgCode V) (weights : List (String × List ℕ)) :
    List (String × String) → Shared V → Shared V × Option (List (String × V))
  | [], s => (s, some [])
  | (attr, name) :: rest, s =>
    match weights.lookup name with
    | none => (s, none)
    | some ids =>
      match callWeight code ids s with
      | (s', none) => (s', none)
      | (s', some v) =>
        let r := callAttrs code weights rest s'
        (r.1, r.2.map ((attr, v) :: ·))

/-- What can happen: a layer is wrapped, the `j`-th wrapped layer is called (in training or
inference: `call` has no `training` argument), the optimizer sets the `k`-th training weight for
`name` of the `j`-th layer, or user code calls `add_training_weight` on the algorithm. -/
inductive SEvent (V : Type) where
  | create (ws : List (String × V)) (attrs : List (String × String))
  | call (j : ℕ)
  | train (j : ℕ) (name : String) (k : ℕ) (v : V)
  | add (v : V)

/-- One event; the output is what a call sets as attributes. -/
def Shared.step (code : AlgCode V) (zeros : V → V) (s : Shared V) :
    SEvent V → Shared V × Option (List (String × V))
  | .create ws attrs =>
    match s.create code zeros ws attrs with
    | .ok s' => (s', none)
    | .error _ => (s, none)
  | .call j =>
    match s.layers[j]? with
    | none => (s, none)
    | some l => callAttrs code l.weights l.attrs s
  | .train j name k v =>
    match s.layers[j]? with
    | none => (s, none)
    | some l =>
      match l.weights.lookup name with
      | none => (s, none)
      | some ids =>
        match ids[k]? with
        | none => (s, none)
        | some i => ({ s with vars := s.vars.set i v }, none)
  | .add v => ({ s with alg := s.alg.add v }, none)

/-- A history, with the outputs of all its events. -/
def Shared.run (code : AlgCode V) (zeros : V → V) :
    Shared V → List (SEvent V) → Shared V × List (Option (List (String × V)))
  | s, [] => (s, [])
  | s, e :: es =>
    let r := s.step code zeros e
    let t := Shared.run code zeros r.1 es
    (t.1, r.2 :: t.2)

/-- A new algorithm object, before any layer is wrapped. -/
def Shared.start : Shared V := ⟨⟨[], [], []⟩, [], 0, []⟩

/-- The training weights of the `j`-th layer. -/
def Shared.weights (s : Shared V) (j : ℕ) : Option (List (String × List V)) :=
  s.layers[j]?.map fun l => l.weights.map fun e => (e.1, e.2.filterMap (s.vars[·]?))

/-! ## The shipped algorithm that updates its training weights -/

/-- A training weight of the periodic SVD: the weight or the step counter. -/
inductive SvdVal (W : Type) where
  | weight (w : W)
  | counter (n : ℕ)
  deriving DecidableEq

/-- `SVD` of periodical_update_and_scheduling.py: `init_training_weights` (42-56) and
`project_training_weights` (61-96).  `reduced step w` is the truncated decomposition computed at an
update step (lines 66-94, modelled in `Algorithms.lean`).  Other lists of arguments do not occur
(Python raises a `TypeError`): nothing is updated. -/
def periodicSvd {W : Type} (freq : ℕ) (reduced : ℕ → W → W) : AlgCode (SvdVal W) where
  init := fun v => [v, .counter 0]
  project := fun
    | [.weight w, .counter n] =>
      ((.arg 1, .counter (n + 1)) ::
        (if n % freq = 0 then [(.arg 0, .weight (reduced n w))] else []), .weight w)
    | v :: _ => ([], v)
    | [] => ([], .counter 0)

end Verif.Compression
