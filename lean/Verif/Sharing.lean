/-!
# Which model owns which variables

`quantization/keras/quantize.py` 83-230 and 289-502, `graph_transformations/model_transformer.py` 540-640,
`sparsity/keras/prune.py` 157-262, at the level of layer objects and variables: wrapping a layer
keeps the layer object with its variables, making a layer from its config makes new variables.

Simplified: models are flat lists of built layers (nested models are rejected by quantization and cloned
recursively by pruning); input layers, which have no variables, are left out; what the layout
transforms do to the layers is an arbitrary function of names and weights (`Quant/Transformer` and
`Quant/Transforms8Bit` model them); the wrappers' variables are made when the wrapper is made (Keras makes
them in `build`).
-/

namespace Verif.Sharing

variable {V : Type u}

/-- All variables there are; a variable is its position. -/
structure Store (V : Type u) where
  vals : List V

/-- New variables with the given values. -/
def Store.alloc (s : Store V) (vs : List V) : Store V × List Nat :=
  (⟨s.vals ++ vs⟩, List.range' s.vals.length vs.length)

/-- `variable.assign`. -/
def Store.assign (s : Store V) (id : Nat) (v : V) : Store V := ⟨s.vals.set id v⟩

/-- A sequence of assignments: `batch_set_value`, or training. -/
def Store.assignAll (s : Store V) (l : List (Nat × V)) : Store V := l.foldl (fun s p => s.assign p.1 p.2) s

/-- The wrappers. -/
inductive WKind where
  | annotate
  | prune
  | quantize
  deriving DecidableEq

/-- A layer object: its name and its variables, or a wrapper with its own variables and the wrapped object. -/
inductive Obj where
  | layer (name : String) (vars : List Nat)
  | wrapper (kind : WKind) (own : List Nat) (inner : Obj)
  deriving DecidableEq

/-- `layer.weights`. -/
def Obj.vars : Obj → List Nat
  | .layer _ vs => vs
  | .wrapper _ own inner => inner.vars ++ own

/-- `layer.name` of the layer in the wrappers. -/
def Obj.name : Obj → String
  | .layer n _ => n
  | .wrapper _ _ inner => inner.name

/-- `model.get_weights()`. -/
def getWeights (s : Store V) (m : List Obj) : List V := (m.flatMap Obj.vars).filterMap fun i => s.vals[i]?

/-- `model.set_weights(values)`. -/
def setWeights (s : Store V) (m : List Obj) (values : List V) : Store V :=
  s.assignAll ((m.flatMap Obj.vars).zip values)

/-- The default `clone_function`, `layer.__class__.from_config(layer.get_config())`, and building: new
objects with new variables, which get initial values.  A wrapper's `from_config` makes the wrapped layer from its
config too (`quantize_annotate.py` 112-130). -/
def fresh (init : Nat → V) (s : Store V) : Obj → Store V × Obj
  | .layer n vs =>
    let r := s.alloc ((List.range' s.vals.length vs.length).map init)
    (r.1, .layer n r.2)
  | .wrapper k own inner =>
    let r := fresh init s inner
    let q := r.1.alloc ((List.range' r.1.vals.length own.length).map init)
    (q.1, .wrapper k q.2 r.2)

/-- `keras.models.clone_model(model, clone_function=f)`. -/
def cloneModel (f : Store V → Obj → Store V × Obj) (s : Store V) : List Obj → Store V × List Obj
  | [] => (s, [])
  | o :: m =>
    let r := f s o
    let q := cloneModel f r.1 m
    (q.1, r.2 :: q.2)

/-- `_add_quant_wrapper`, `quantize.py` 204-227; the annotation has no variables of its own. -/
def addAnnotation (lambda : String → Bool) (s : Store V) (o : Obj) : Store V × Obj :=
  match o with
  | .wrapper .annotate _ _ => (s, o)
  | _ => if lambda o.name then (s, o) else (s, .wrapper .annotate [] o)

/-- `quantize_annotate_model`, `quantize.py` 229-230. -/
def annotateModel (lambda : String → Bool) (s : Store V) (m : List Obj) : Store V × List Obj :=
  cloneModel (addAnnotation lambda) s m

/-- `_unwrap`, `quantize.py` 379-397. -/
def unwrap : Obj → Obj
  | .wrapper .annotate _ inner => inner
  | o => o

/-- The names and weights of the layers, `model_transformer.py` 569-572. -/
def layerWeights (s : Store V) (m : List Obj) : List (String × List V) :=
  m.map fun o => (o.name, o.vars.filterMap fun i => s.vals[i]?)

/-- `from_config` of the transformed config and setting the weights, `model_transformer.py` 624-636. -/
def rebuild (s : Store V) : List (String × List V) → Store V × List Obj
  | [] => (s, [])
  | (n, vs) :: rest =>
    let r := s.alloc vs
    let q := rebuild r.1 rest
    (q.1, .layer n r.2 :: q.2)

/-- `_quantize`, `quantize.py` 402-455: `quantizer` gives the variables of the wrapper, if the layer is
wrapped. -/
def addQuantizer (quantizer : String → Option (List V)) (s : Store V) (o : Obj) : Store V × Obj :=
  match quantizer o.name with
  | none => (s, o)
  | some own =>
    let r := s.alloc own
    (r.1, .wrapper .quantize r.2 o)

/-- `quantize_apply`, `quantize.py` 457-501: a copy with the same weights, without the annotations, transformed
and wrapped. -/
def quantizeApply (init : Nat → V) (transform : List (String × List V) → List (String × List V))
    (quantizer : String → Option (List V)) (s : Store V) (m : List Obj) : Store V × List Obj :=
  let c := cloneModel (fresh init) s m
  let s₁ := setWeights c.1 c.2 (getWeights s m)
  let u := c.2.map unwrap
  let t := rebuild s₁ (transform (layerWeights s₁ u))
  cloneModel (addQuantizer quantizer) t.1 t.2

/-- `quantize_model`, `quantize.py` 140-142. -/
def quantizeModel (lambda : String → Bool) (init : Nat → V)
    (transform : List (String × List V) → List (String × List V)) (quantizer : String → Option (List V))
    (s : Store V) (m : List Obj) : Store V × List Obj :=
  let a := annotateModel lambda s m
  quantizeApply init transform quantizer a.1 a.2

/-- `_add_pruning_wrapper`, `prune.py` 174-189: `own` gives the values of the wrapper's variables (masks,
thresholds, step). -/
def addPruning (allow : String → Bool) (own : String → List V) (s : Store V) (o : Obj) : Store V × Obj :=
  match o with
  | .wrapper .prune _ _ => (s, o)
  | _ =>
    if allow o.name then
      let r := s.alloc (own o.name)
      (r.1, .wrapper .prune r.2 o)
    else (s, o)

/-- `prune_low_magnitude` of a model, `prune.py` 209-212. -/
def pruneModel (allow : String → Bool) (own : String → List V) (s : Store V) (m : List Obj) : Store V × List Obj :=
  cloneModel (addPruning allow own) s m

/-- `_strip_pruning_wrapper`, `prune.py` 246-259, for a model. -/
def stripPruning (m : List Obj) : List Obj :=
  m.map fun o => match o with
    | .wrapper .prune _ inner => inner
    | o => o

end Verif.Sharing
