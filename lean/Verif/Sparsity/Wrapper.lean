import Verif.Sparsity.MByN

/-!
# Model of the pruning wrapper and callback as a state machine

`sparsity/keras/pruning_wrapper.py` lines 227-333, `sparsity/keras/pruning_impl.py` lines 204-313 and
`sparsity/keras/pruning_callbacks.py` lines 48-79, in eager execution without a distribution
strategy.  Paths are relative to `/repo/tensorflow_model_optimization/python/core/`.

Not modelled here: graph mode (where TensorFlow may run independent updates in any order), distribution
strategies (`pruning_impl.py` lines 213-236, 287-306; see `Sparsity/Distributed`), the output of the wrapped layer.
-/

namespace Verif.Sparsity

variable {α : Type*} [Field α] [LinearOrder α] [IsStrictOrderedRing α] [FloorRing α]

/-- Row-major multi-index of flat position `p`. -/
def unravel : List ℕ → ℕ → List ℕ
  | [], _ => []
  | n :: ns, p => p / ns.prod % n :: unravel ns (p % ns.prod)

/-- Row-major flat position of a multi-index. -/
def ravel : List ℕ → List ℕ → ℕ
  | _ :: ns, i :: is => i * ns.prod + ravel ns is
  | _, _ => 0

/-- A tensor from its row-major entries. -/
def Tensor.ofFlat (shape : List ℕ) (l : List α) : Tensor α := ⟨shape, fun ix => l.getD (ravel shape ix) 0⟩

/-- The row-major entries of a tensor. -/
def Tensor.flat (t : Tensor α) : List α := (List.range t.shape.prod).map fun p => t.get (unravel t.shape p)

/-- One `(weight, mask, threshold)` triple of `pruning_vars`, `pruning_wrapper.py` lines 234-264. -/
structure PVar (α : Type*) where
  shape : List ℕ
  weight : List α
  mask : List α
  threshold : α

/-- Constructor arguments of `PruneLowMagnitude`, `pruning_wrapper.py` lines 124-152.  `schedule` is
the schedule object seen as the function `__call__`. -/
structure PruneCfg (α : Type*) where
  schedule : ℤ → Bool × α
  blockH : ℕ
  blockW : ℕ
  pool : PoolType
  mByN : Option (ℕ × ℕ)

/-- State of one pruning wrapper: configuration, variables and `pruning_step`. -/
structure PLayer (α : Type*) where
  cfg : PruneCfg α
  vars : List (PVar α)
  step : ℤ

/-- Exceptions of a forward pass. -/
inductive PruneError
  | callbackMissing          -- `_PRUNE_CALLBACK_ERROR_MSG`, pruning_wrapper.py l.297-300
  | mask (e : MaskError)
  deriving DecidableEq, Repr

/-- `Pruning._maybe_update_block_mask`, `pruning_impl.py` lines 149-202, dispatching on the
configuration; the threshold is 999 for m-by-n. -/
def computeMask (cfg : PruneCfg α) (step : ℤ) (shape : List ℕ) (w : List α) :
    Except MaskError (α × List α) :=
  match cfg.mByN with
  | some (m, n) =>
    match updateMaskMByN (Tensor.ofFlat shape w) m n with
    | none => .error .badRank
    | some t => .ok (999, t.flat)
  | none =>
    if cfg.blockH = 1 ∧ cfg.blockW = 1 then updateMask (cfg.schedule step).2 w
    else match shape with
      | [r, c] =>
        match blockMaskPath (cfg.schedule step).2 cfg.blockH cfg.blockW cfg.pool (Mat.ofFlat r c w) with
        | .error e => .error e
        | .ok (t, m) => .ok (t, m.flat)
      | _ => .error .poolRank

/-- `maybe_update_masks`, `pruning_impl.py` lines 259-264. -/
def shouldUpdate (cfg : PruneCfg α) (step : ℤ) : Bool :=
  match cfg.mByN with
  | some _ => decide (step = 1)
  | none => (cfg.schedule step).1

/-- `mask_update.update`, `pruning_impl.py` lines 272-281: the variables are updated in order; an
exception leaves the remaining ones untouched. -/
def updateVars (cfg : PruneCfg α) (step : ℤ) : List (PVar α) → List (PVar α) × Option PruneError
  | [] => ([], none)
  | v :: vs =>
    match computeMask cfg step v.shape v.weight with
    | .error e => (v :: vs, some (.mask e))
    | .ok (t, m) =>
      let r := updateVars cfg step vs
      ({ v with mask := m, threshold := t } :: r.1, r.2)

/-- `weight_mask_op`, `pruning_impl.py` lines 246-254: `weight <- weight * mask`. -/
def applyMask (v : PVar α) : PVar α := { v with weight := List.zipWith (· * ·) v.weight v.mask }

/-- `PruneLowMagnitude.call`, `pruning_wrapper.py` lines 285-321: increment the step (training only),
check it, update the masks if due, then always multiply the weights with the masks. -/
def callLayer (training : Bool) (l : PLayer α) : PLayer α × Option PruneError :=
  if training then
    let l1 := { l with step := l.step + 1 }
    if l1.step < 1 then (l1, some .callbackMissing)
    else if shouldUpdate l1.cfg l1.step then
      let r := updateVars l1.cfg l1.step l1.vars
      match r.2 with
      | some e => ({ l1 with vars := r.1 }, some e)
      | none => ({ l1 with vars := r.1.map applyMask }, none)
    else ({ l1 with vars := l1.vars.map applyMask }, none)
  else ({ l with vars := l.vars.map applyMask }, none)

/-- A forward pass of a model calls its pruned layers in order; an exception stops it. -/
def forward (training : Bool) : List (PLayer α) → List (PLayer α) × Option PruneError
  | [] => ([], none)
  | l :: ls =>
    match callLayer training l with
    | (l', some e) => (l' :: ls, some e)
    | (l', none) =>
      let r := forward training ls
      (l' :: r.1, r.2)

/-- The pruned layers of a model together with the `UpdatePruningStep` callback, which knows the
layers only after `on_train_begin`. -/
structure PModel (α : Type*) where
  layers : List (PLayer α)
  collected : Bool

/-- What can happen to a pruned model. `optimizer f` gives every pruned weight an arbitrary new
value: entry `i` of variable `v` of layer `l` becomes `f l v i`. -/
inductive PEvent (α : Type*)
  | optimizer (f : ℕ → ℕ → ℕ → α)
  | call (training : Bool)
  | trainBegin
  | epochEnd

/-- An optimizer step: overwrites the weights, nothing else. -/
def optimizerStep (f : ℕ → ℕ → ℕ → α) (ls : List (PLayer α)) : List (PLayer α) :=
  ls.mapIdx fun li l => { l with vars := l.vars.mapIdx fun vi v =>
    { v with weight := v.weight.mapIdx fun i _ => f li vi i } }

/-- `UpdatePruningStep.on_train_begin`, `pruning_callbacks.py` lines 54-65: only the first collected
layer's step is inspected; if it is -1 all steps are set to 0. -/
def onTrainBegin (ls : List (PLayer α)) : List (PLayer α) :=
  match ls with
  | [] => []
  | l :: _ => if l.step = -1 then ls.map fun x => { x with step := 0 } else ls

/-- One event; the second component is the exception, if any. -/
def pStep (m : PModel α) : PEvent α → PModel α × Option PruneError
  | .optimizer f => ({ m with layers := optimizerStep f m.layers }, none)
  | .call training =>
    let r := forward training m.layers
    ({ m with layers := r.1 }, r.2)
  | .trainBegin => (⟨onTrainBegin m.layers, true⟩, none)
  | .epochEnd =>
    -- `on_epoch_end`, pruning_callbacks.py lines 67-79
    (if m.collected then
      { m with layers := m.layers.map fun l => { l with vars := l.vars.map applyMask } }
     else m, none)

/-- A history; exceptions are caught by the user and the history goes on. -/
def pRun (m : PModel α) (h : List (PEvent α)) : PModel α := h.foldl (fun m e => (pStep m e).1) m

/-- State right after `build`, `pruning_wrapper.py` lines 227-275: masks 1, thresholds 0, step -1. -/
def freshLayer (cfg : PruneCfg α) (weights : List (List ℕ × List α)) : PLayer α :=
  ⟨cfg, weights.map fun w => ⟨w.1, w.2, List.replicate w.2.length 1, 0⟩, -1⟩

end Verif.Sparsity
