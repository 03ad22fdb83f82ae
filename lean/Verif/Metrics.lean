/-!
# Model of the usage monitoring

  /repo/tensorflow_model_optimization/python/core/keras/metrics.py

`prune_low_magnitude`, `prune_for_benchmark` and `quantize_apply` are decorated with
`MonitorBoolGauge`, and the wrappers set a cell when they are constructed.  A cell of a gauge is
known by the name of the gauge and the label of the cell; `tensorflow.python.eager.monitoring` is
trusted to keep the last value of each cell.
-/
namespace Verif.Metrics

/-- The cells that have been set, with their values. -/
abbrev Cells := List ((String × String) × Bool)

/-- `bool_gauge.get_cell(label).set(value)`. -/
def setCell (c : Cells) (gauge label : String) (value : Bool) : Cells :=
  ((gauge, label), value) :: c

/-- The value of a cell; cells that were never set are false. -/
def value (c : Cells) (gauge label : String) : Bool := (c.lookup (gauge, label)).getD false

/-- How a call ends: it returns, raises an `Exception`, or raises something that is only a
`BaseException` (`KeyboardInterrupt`, `SystemExit`), which `except Exception` lets through. -/
inductive Outcome (β ε : Type) where
  | returned (b : β)
  | raised (e : ε)
  | interrupted (e : ε)
  deriving DecidableEq

/-- A Python function: it may read and change the state `σ` of the program, and the cells. -/
abbrev Func (σ α β ε : Type) := σ → Cells → α → Outcome β ε × σ × Cells

/-- `MonitorBoolGauge.get_usage_gauge`, lines 50-62: the gauge for a name, or a `ValueError`. -/
def usageGauge (name : String) : Except String String :=
  if name = "prune_for_benchmark_usage" then .ok "/tfmot/api/sparsity/prune_for_benchmark"
  else if name = "prune_low_magnitude_usage" then .ok "/tfmot/api/sparsity/prune_low_magnitude"
  else if name = "prune_low_magnitude_wrapper_usage" then .ok "/tfmot/api/sparsity/pruning_wrapper"
  else if name = "quantize_apply_usage" then .ok "/tfmot/api/quantization/quantize_apply"
  else if name = "quantize_wrapper_usage" then .ok "/tfmot/api/quantization/quantize_wrapper"
  else .error "ValueError"

/-- `MonitorBoolGauge.__call__`, lines 64-78 (a gauge is truthy, so line 75 returns `inner`). -/
def monitored {σ α β ε : Type} (gauge : String) (f : Func σ α β ε) : Func σ α β ε :=
  fun s c a =>
    match f s c a with
    | (.returned b, s', c') => (.returned b, s', setCell c' gauge "success" true)
    | (.raised e, s', c') => (.raised e, s', setCell c' gauge "failure" true)
    | (.interrupted e, s', c') => (.interrupted e, s', c')

/-- `MonitorBoolGauge.set`, lines 80-88. -/
def setUsage (gauge label : String) (v : Bool) (c : Cells) : Cells := setCell c gauge label v

end Verif.Metrics
