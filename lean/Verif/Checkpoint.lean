import Verif.Sparsity.Wrapper
import Verif.Clustering.Wrapper
import Verif.Quant.Wrapper
import Verif.Quant.Preserve

/-!
# Saving and restoring the variables of wrapped layers

A checkpoint (`model.save_weights`, `tf.train.Checkpoint`, the weights in a saved model) holds the values of the
variables of a model: what was made with `add_weight`, and the variables of the wrapped layers.  Attributes of
the wrappers that are plain tensors or Python objects are not in it.  To resume training in a new process the
model is built again (from code, or from its configuration), which runs `build` on other initial weights, and
the saved values are assigned to the variables.  Paths are relative to
`/repo/tensorflow_model_optimization/python/core/`.

Not modelled: the file formats; the weights of a layer that are not optimized; the variables of the optimizer
(they are arbitrary values in the histories of the wrappers).
-/

namespace Verif.Sparsity
variable {α : Type*}

/-- The value of a variable. -/
inductive Value (α : Type*) where
  | tensor (shape : List ℕ) (data : List α)
  | scalar (x : α)
  | int (i : ℤ)

/-- The values of the `weights` of a pruning wrapper, in order: `trainable_weights` and `non_trainable_weights`,
`sparsity/keras/pruning_wrapper.py` 378-384: first the layer's, then what `build` (234-268) adds, a mask and a
threshold for each prunable weight and then the step. -/
def PLayer.values (l : PLayer α) : List (Value α) :=
  (l.vars.map fun v => .tensor v.shape v.weight) ++
    (l.vars.flatMap fun v => [.tensor v.shape v.mask, .scalar v.threshold]) ++ [.int l.step]

/-- Assigning the weights, in order; the values that are left over.  Another shape is an error. -/
def loadWeights : List (PVar α) → List (Value α) → Option (List (PVar α) × List (Value α))
  | [], vals => some ([], vals)
  | v :: vs, .tensor s d :: vals =>
    if s = v.shape then
      match loadWeights vs vals with
      | none => none
      | some r => some ({ v with weight := d } :: r.1, r.2)
    else none
  | _ :: _, _ => none

/-- Assigning the masks and thresholds, in order. -/
def loadMasks : List (PVar α) → List (Value α) → Option (List (PVar α) × List (Value α))
  | [], vals => some ([], vals)
  | v :: vs, .tensor s d :: .scalar t :: vals =>
    if s = v.shape then
      match loadMasks vs vals with
      | none => none
      | some r => some ({ v with mask := d, threshold := t } :: r.1, r.2)
    else none
  | _ :: _, _ => none

/-- Assigning saved values to the `weights` of a pruning wrapper, in order. -/
def PLayer.load (l : PLayer α) (vals : List (Value α)) : Option (PLayer α) :=
  match loadWeights l.vars vals with
  | none => none
  | some (vs, rest) =>
    match loadMasks vs rest with
    | some (vs', [.int s]) => some { l with vars := vs', step := s }
    | _ => none

/-- The saved values of all pruned layers of a model. -/
def PModel.save (m : PModel α) : List (List (Value α)) := m.layers.map PLayer.values

/-- Assigning them layer by layer. -/
def loadLayers : List (PLayer α) → List (List (Value α)) → Option (List (PLayer α))
  | [], [] => some []
  | l :: ls, v :: vs =>
    match l.load v with
    | none => none
    | some l' =>
      match loadLayers ls vs with
      | none => none
      | some ls' => some (l' :: ls')
  | _, _ => none

/-- Restoring a model: a new `UpdatePruningStep` callback knows no layers yet. -/
def PModel.restore (m : PModel α) (vals : List (List (Value α))) : Option (PModel α) :=
  match loadLayers m.layers vals with
  | none => none
  | some ls => some ⟨ls, false⟩

/-- `get_weights` of the wrapper, `sparsity/keras/pruning_wrapper.py` 392-393: of the wrapped layer only. -/
def PLayer.getWeights (l : PLayer α) : List (Value α) := l.vars.map fun v => .tensor v.shape v.weight

/-- `set_weights` of the wrapper, `sparsity/keras/pruning_wrapper.py` 395-396. -/
def PLayer.setWeights (l : PLayer α) (vals : List (Value α)) : Option (PLayer α) :=
  match loadWeights l.vars vals with
  | some (vs, []) => some { l with vars := vs }
  | _ => none

end Verif.Sparsity

namespace Verif.Clustering
variable {ι α : Type*}

/-- The variables of a clustering wrapper: the original weight, tracked by the wrapper
(`clustering/keras/cluster_wrapper.py` 196-200), the centroids (219-226) and the associations (251-260).  The
sparsity mask and the index of the zero centroid (263-275) are plain tensors. -/
structure CSaved (ι α : Type*) where
  orig : ι → α
  cents : ℕ → List α
  pulling : ι → ℕ

def CState.save (s : CState ι α) : CSaved ι α := ⟨s.orig, s.cents, s.pulling⟩

/-- Restoring a wrapper that was just built: the layer still has its original weight, whose variable is
assigned. -/
def CState.restore (s : CState ι α) (c : CSaved ι α) : CState ι α :=
  { s with orig := c.orig, cents := c.cents, pulling := c.pulling, kernel := c.orig }

end Verif.Clustering

namespace Verif.Quant.Wrapper
variable {T V S : Type*}

/-- The variables of a quantize wrapper: of the wrapped layer (also those of its own state), and those the
quantizers made in `build` (`quantization/keras/quantize_wrapper.py` 90-146,
`quantize_aware_activation.py` 102-125). -/
structure QSaved (T V S : Type*) where
  floats : ℕ → T
  state : S
  weightVars : List V
  acts : List (Option V × Option V)
  output : Option V

def Wrapper.save (w : Wrapper T V S) : QSaved T V S :=
  ⟨w.floats, w.state, w.weightVars.map fun e => e.2.2, w.acts.map fun a => (a.pre, a.post), w.output.map Prod.snd⟩

/-- Assigning the values of the variables of weight quantizers, in order. -/
def restoreWeightVars : List (ℕ × Quant T V × V) → List V → List (ℕ × Quant T V × V)
  | e :: es, v :: vs => (e.1, e.2.1, v) :: restoreWeightVars es vs
  | es, _ => es

/-- Assigning the values of the variables of one activation: those that exist. -/
def restoreAct (a : Aware T V) (v : Option V × Option V) : Aware T V :=
  { a with
    pre := match a.pre, v.1 with
      | some _, some x => some x
      | p, _ => p
    post := match a.post, v.2 with
      | some _, some x => some x
      | p, _ => p }

/-- Assigning the values of the variables of activations, in order. -/
def restoreActs : List (Aware T V) → List (Option V × Option V) → List (Aware T V)
  | a :: as, v :: vs => restoreAct a v :: restoreActs as vs
  | as, _ => as

/-- Assigning the values of the variables of the output quantizer. -/
def restoreOutput : Option (Quant T V × V) → Option V → Option (Quant T V × V)
  | some (q, _), some v => some (q, v)
  | o, _ => o

/-- Restoring a wrapper. -/
def Wrapper.restore (w : Wrapper T V S) (c : QSaved T V S) : Wrapper T V S :=
  { floats := c.floats
    layer := w.layer
    state := c.state
    weightVars := restoreWeightVars w.weightVars c.weightVars
    acts := restoreActs w.acts c.acts
    output := restoreOutput w.output c.output }

end Verif.Quant.Wrapper

namespace Verif.Quant
variable {α : Type*} [Field α] [LinearOrder α] [IsStrictOrderedRing α] [FloorRing α]

/-- The variables of a layer with a cluster preserving weight quantizer: the original weights and the centroids if
they were made, `quantization/keras/collab_opts/cluster_preserve/cluster_preserve_quantize_registry.py` 365-384 (the
associations, 402-410, are recomputed before they are used), the kernel and the range variables.  The masks
(345-349) are plain tensors. -/
structure CPSaved (α : Type*) where
  clusters : Option (List α × Bool × List (List α))
  kernel : List α
  vars : RangeVars α

/-- The flag tells the rank of the centroids: a matrix with a row per channel, or a vector. -/
def CPBuilt.save (b : CPBuilt α) (s : CPState α) : CPSaved α :=
  ⟨if b.active then some (s.orig, b.perChannel, s.cents) else none, s.kernel, s.vars⟩

/-- Assigning the saved values to the variables of a layer that was just built: it must have the same variables,
with the same shapes. -/
def CPBuilt.restore (b : CPBuilt α) (s : CPState α) (c : CPSaved α) : Option (CPState α) :=
  if c.kernel.length = s.kernel.length then
    match b.active, c.clusters with
    | false, none => some { s with kernel := c.kernel, vars := c.vars }
    | true, some (orig, ch, cents) =>
      if ch = b.perChannel ∧ orig.length = s.orig.length ∧ cents.map List.length = s.cents.map List.length then
        some ⟨orig, cents, c.kernel, c.vars⟩
      else none
    | _, _ => none
  else none

end Verif.Quant
