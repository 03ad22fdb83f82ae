import Verif.Sparsity.Wrapper
import Verif.Sparsity.Prune

/-!
# One-shot pruning: `sparsity/keras/tools/sparsity_tooling.py`

Paths are relative to `/repo/tensorflow_model_optimization/python/core/`.
-/

namespace Verif.Sparsity

variable {α : Type*} [Field α] [LinearOrder α] [IsStrictOrderedRing α] [FloorRing α]

/-- `StepIndependentConstantSparsity.__call__`, `sparsity_tooling.py` lines 47-48. -/
def stepIndependent (s : α) : ℤ → Bool × α := fun _ => (true, s)

/-- `StepIndependentConstantSparsity.get_config`, `sparsity_tooling.py` lines 50-56. -/
def stepIndependentCfg (s : String) : ScheduleCfg :=
  ⟨"StepIndependentConstantSparsity", [("target_sparsity", s)]⟩

/-- One turn of the loop of `_apply_pruning`, `sparsity_tooling.py` lines 63-64:
`conditional_mask_update` (`pruning_impl.py` lines 256-283), then `weight_mask_op`. -/
def pruneNow (l : PLayer α) : PLayer α × Option PruneError :=
  if shouldUpdate l.cfg l.step then
    match updateVars l.cfg l.step l.vars with
    | (vs, some e) => ({ l with vars := vs }, some e)
    | (vs, none) => ({ l with vars := vs.map applyMask }, none)
  else ({ l with vars := l.vars.map applyMask }, none)

/-- `_apply_pruning`, `sparsity_tooling.py` lines 59-64, over the collected layers. -/
def applyPruning : List (PLayer α) → List (PLayer α) × Option PruneError
  | [] => ([], none)
  | l :: ls =>
    match pruneNow l with
    | (l', some e) => (l' :: ls, some e)
    | (l', none) => (l' :: (applyPruning ls).1, (applyPruning ls).2)

/-- `prune_for_benchmark`, `sparsity_tooling.py` lines 67-95.  `layers` are the prunable weights (shape,
row-major entries) of the layers of the model in the order of `collect_prunable_layers`; the wrappers
are freshly built (`prune_low_magnitude` builds them because the model is built), with the default
pooling.  Which layers are wrapped and collected is the subject of `Sparsity/Prune.lean`. -/
def pruneForBenchmark (s : α) (bh bw : ℕ) (layers : List (List (List ℕ × List α))) :
    List (PLayer α) × Option PruneError :=
  applyPruning (layers.map (freshLayer ⟨stepIndependent s, bh, bw, .AVG, none⟩))

end Verif.Sparsity
