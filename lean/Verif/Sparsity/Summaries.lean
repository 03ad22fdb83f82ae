import Verif.Sparsity.Wrapper

/-!
# `PruningSummaries`: `sparsity/keras/pruning_callbacks.py` lines 82-141

Paths are relative to `/repo/tensorflow_model_optimization/python/core/`.  TF 2.x eager mode.
-/

namespace Verif.Sparsity

variable {α : Type*} [Field α] [LinearOrder α] [IsStrictOrderedRing α] [FloorRing α]

/-- A pruning wrapper and its name.  Its masks and thresholds are created by `add_weight('mask')` and
`add_weight('threshold')` (`pruning_wrapper.py` lines 244-259) inside the name scope of the wrapper; eager
TensorFlow does not make variable names unique. -/
structure NamedLayer (α : Type*) where
  name : String
  layer : PLayer α

/-- NumPy values: an array, a number, not-a-number. -/
inductive NpVal (α : Type*) where
  | array (l : List α)
  | num (x : α)
  | nan

/-- `np.mean`; the mean of an empty array is not a number. -/
def npMean : NpVal α → NpVal α
  | .array [] => .nan
  | .array (x :: l) => .num ((x :: l).sum / ((x :: l).length : α))
  | .num x => .num x
  | .nan => .nan

/-- `1 - v`. -/
def oneMinus : NpVal α → NpVal α
  | .array l => .array (l.map fun x => 1 - x)
  | .num x => .num (1 - x)
  | .nan => .nan

/-- `params` and `values` before the iterations are appended, `pruning_callbacks.py` lines 116-120. -/
def layerParams (l : NamedLayer α) : List (String × NpVal α) :=
  l.layer.vars.flatMap fun v =>
    [(l.name ++ "/mask:0", .array v.mask), (l.name ++ "/threshold:0", .num v.threshold)]

/-- `l[::2]`. -/
def everyOther {β : Type*} : List β → List β
  | [] => []
  | [x] => [x]
  | x :: _ :: l => x :: everyOther l

/-- `d.update({k: v})` on a `dict`, kept as an association list in insertion order. -/
def dictSet {β : Type*} (d : List (String × β)) (k : String) (v : β) : List (String × β) :=
  match d with
  | [] => [(k, v)]
  | (k', v') :: d => if k' = k then (k, v) :: d else (k', v') :: dictSet d k v

/-- `PruningSummaries.on_epoch_begin`, `pruning_callbacks.py` lines 110-141, and `_log_pruning_metrics`,
98-108: the records (name, value, step) written to the log. -/
def pruningSummaries (iterations : ℕ) (ls : List (NamedLayer α)) :
    List (String × NpVal α × NpVal α) :=
  let params := ls.flatMap layerParams ++ [("iterations", .num (iterations : α))]
  let iteration := (params.getLast?.map Prod.snd).getD .nan
  let pairs := params.dropLast
  let logs := (everyOther pairs).foldl
    (fun d p => dictSet d (p.1 ++ "/sparsity") (oneMinus (npMean p.2))) []
  let logs := (everyOther pairs.tail).foldl
    (fun d p => dictSet d (p.1 ++ "/threshold") p.2) logs
  logs.map fun r => (r.1, r.2, iteration)

end Verif.Sparsity
