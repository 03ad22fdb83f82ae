import Verif.Sparsity.Wrapper

/-!
# Pruning with an estimator: `sparsity/keras/estimator_utils.py` lines 24-83

Paths are relative to `/repo/tensorflow_model_optimization/python/core/`.

The estimator builds a TensorFlow graph.  `PruningEstimatorSpec` groups the updates of the pruning
wrappers (`pruning_wrapper.py` lines 289-321), its own step increments and the training op with `tf.group`
(lines 44-63), which puts no order on them: one training step executes these operations in any order that
respects the data and control dependencies.  Simplification: `update`, `mask`, `forward` and `optimizer`
are atomic for each layer.
-/

namespace Verif.Sparsity

variable {α : Type*} [Field α] [LinearOrder α] [IsStrictOrderedRing α] [FloorRing α]

/-- Exceptions of `PruningEstimatorSpec(...)`. -/
inductive EstErr where
  | noMode | noTrainOp | initFn
  deriving DecidableEq, Repr

/-- `PruningEstimatorSpec.__new__`, `estimator_utils.py` lines 27-83: the checks.  `scaffold` says, if a
scaffold is given, whether it has an `init_fn`. -/
def estimatorSpec (mode trainOp : Bool) (scaffold : Option Bool) : Except EstErr Unit :=
  if mode = false then .error .noMode
  else if trainOp = false then .error .noTrainOp
  else match scaffold with
    | some true => .error .initFn
    | _ => .ok ()

/-- The operations of one training step that concern one pruned layer. -/
inductive GOp where
  | incRead     -- reading `pruning_step`, `pruning_wrapper.py` l.291
  | incWrite    -- `assign(pruning_step, pruning_step + 1)`, l.290-291
  | check       -- `assert_greater_equal(pruning_step, 1)`, l.296-300
  | update      -- `conditional_mask_update`, l.301-303, after `check`
  | mask        -- `weight_mask_op`, l.321
  | forward     -- the wrapped layer reads its weights, l.330-333
  | optimizer   -- the training op writes the weights; needs the result of `forward`
  | est         -- `assign_add(pruning_step, 1)` or `assign(pruning_step, step)`, `estimator_utils.py` l.49-54
  deriving DecidableEq, Repr

/-- A pruned layer during a training step: its state, the value held by the operation `step + 1`, and the
weights used by the forward pass. -/
structure GLayer (α : Type*) where
  layer : PLayer α
  reg : ℤ
  used : List (List α)

/-- One operation.  `step` is the argument of `PruningEstimatorSpec` (`none`: count), `f` the new weights
the optimizer computes: entry `i` of variable `v` becomes `f v i`. -/
def gOp (step : Option ℤ) (f : ℕ → ℕ → α) (g : GLayer α) : GOp → GLayer α × Option PruneError
  | .incRead => ({ g with reg := g.layer.step }, none)
  | .incWrite => ({ g with layer := { g.layer with step := g.reg + 1 } }, none)
  | .check => (g, if g.layer.step < 1 then some .callbackMissing else none)
  | .update =>
    if shouldUpdate g.layer.cfg g.layer.step then
      ({ g with layer := { g.layer with vars := (updateVars g.layer.cfg g.layer.step g.layer.vars).1 } },
        (updateVars g.layer.cfg g.layer.step g.layer.vars).2)
    else (g, none)
  | .mask => ({ g with layer := { g.layer with vars := g.layer.vars.map applyMask } }, none)
  | .forward => ({ g with used := g.layer.vars.map PVar.weight }, none)
  | .optimizer => ({ g with layer := { g.layer with vars := (g.layer.vars.mapIdx fun vi v =>
      { v with weight := v.weight.mapIdx fun i _ => f vi i }) } }, none)
  | .est =>
    match step with
    | none => ({ g with layer := { g.layer with step := g.layer.step + 1 } }, none)
    | some s => ({ g with layer := { g.layer with step := s } }, none)

/-- Executing operations of one layer in a given order, up to the first error. -/
def gOps (step : Option ℤ) (f : ℕ → ℕ → α) (g : GLayer α) : List GOp → GLayer α × Option PruneError
  | [] => (g, none)
  | o :: os =>
    match gOp step f g o with
    | (g', some e) => (g', some e)
    | (g', none) => gOps step f g' os

/-- Executing operations of all layers, interleaved; `(i, o)` is operation `o` of layer `i`.  An error
aborts the session call. -/
def gSched (step : Option ℤ) (f : ℕ → ℕ → ℕ → α) (gs : List (GLayer α)) :
    List (ℕ × GOp) → List (GLayer α) × Option PruneError
  | [] => (gs, none)
  | (i, o) :: os =>
    match gs[i]? with
    | none => gSched step f gs os
    | some g =>
      match gOp step (f i) g o with
      | (g', some e) => (gs.set i g', some e)
      | (g', none) => gSched step f (gs.set i g') os

/-- One training step of the estimator, executed in the order `sched`. -/
def estimatorStep (step : Option ℤ) (f : ℕ → ℕ → ℕ → α) (sched : List (ℕ × GOp)) (ls : List (PLayer α)) :
    List (GLayer α) × Option PruneError :=
  gSched step f (ls.map fun l => ⟨l, 0, []⟩) sched

/-- `init_fn`, `estimator_utils.py` lines 65-66: run once when training starts from scratch. -/
def estimatorInit (step : Option ℤ) (ls : List (PLayer α)) : List (PLayer α) :=
  ls.map fun l => { l with step := match step with
    | none => l.step + 1
    | some s => s }

/-- A training run: the optimizer results and the order of every step; it stops at the first error. -/
def estimatorTrain (ls : List (PLayer α)) :
    List (Option ℤ × (ℕ → ℕ → ℕ → α) × List (ℕ × GOp)) → List (PLayer α) × Option PruneError
  | [] => (ls, none)
  | (step, f, sched) :: rest =>
    match estimatorStep step f sched ls with
    | (gs, some e) => (gs.map GLayer.layer, some e)
    | (gs, none) => estimatorTrain (gs.map GLayer.layer) rest

end Verif.Sparsity
