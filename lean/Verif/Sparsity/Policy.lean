import Mathlib.Data.Finset.Card
import Mathlib.Data.Fintype.Basic
import Mathlib.Algebra.Field.Defs
import Mathlib.Data.Finset.Union

/-!
# Pruning policy and the sparsity-checking tool

Models `sparsity/keras/pruning_policy.py` (`PruneForLatencyOnXNNPack`) and
`sparsity/keras/tools/check_sparsity_m_by_n.py` (`calculate_sparsity`, `ignore_tensor`).
-/

namespace Verif.Sparsity

/-- What `isinstance` and attribute reads of `pruning_policy.py` 98-246 can see of a layer.
Simplification: only the classes the policy mentions are told apart, all others are `other`.
`Conv2D` subclasses are represented as `conv2d`.  `conv2d.kernelShape` is `layer.kernel.shape[:3]`
when the layer has a `kernel`. -/
inductive Kind where
  | add | multiply | relu | leakyRelu | elu | dropout
  | zeroPadding (p : (Nat × Nat) × (Nat × Nat))
  | depthwise (kernel strides dilation : Nat × Nat) (padding : String) (depthMultiplier : Nat)
  | conv2d (kernel strides dilation : Nat × Nat) (padding : String) (groups : Nat)
      (kernelShape : Option (Nat × Nat × Nat))
  | gap (keepdims : Bool)
  | batchNorm (axis : List Nat)
  | upsampling (interpolation : String)
  | activation (name : String)
  | tfOp (isListedFunction : Bool) (name : String)
  | prune (inner : Kind)
  | other (cls : String)
  deriving DecidableEq, Repr

/-- `allow_pruning`, `pruning_policy.py` 98-100. -/
def xnnAllowPruning : Kind → Bool
  | .conv2d k .. => k == (1, 1)
  | _ => false

/-- `producers[0] if len(producers) == 1 and isinstance(producers[0], ZeroPadding2D)`
(`pruning_policy.py` 147-152 and 180-182): the padding of the only producer. -/
def solePadding : List Kind → Option ((Nat × Nat) × (Nat × Nat))
  | [.zeroPadding p] => some p
  | _ => none

/-- `_start_layer_stop_fn`, `pruning_policy.py` 142-152.  `padding` is already lower-cased. -/
def startStop (k : Kind) (producers : List Kind) : Bool :=
  match k with
  | .conv2d _ strides _ padding _ shape =>
    shape == some (3, 3, 3) && strides == (2, 2) && padding == "valid"
      && solePadding producers == some ((1, 1), (1, 1))
  | _ => false

/-- `_end_layer_stop_fn`, `pruning_policy.py` 154-156. -/
def endStop : Kind → Bool
  | .gap _ => true
  | _ => false

/-- `_check_layer_support`, `pruning_policy.py` 158-246.  The producers of the layer inside a
pruning wrapper are empty: the wrapped layer has no inbound nodes of its own. -/
def layerSupported (k : Kind) (producers : List Kind) : Bool :=
  match k with
  | .add | .multiply | .relu | .leakyRelu | .elu | .dropout | .zeroPadding _ => true
  | .depthwise kernel strides dilation padding dm =>
    let zp := solePadding producers
    let case1 := kernel == (3, 3) && strides == (1, 1) && padding == "same"
    let case2 := kernel == (3, 3) && (strides == (1, 1) || strides == (2, 2))
      && padding == "valid" && zp == some ((1, 1), (1, 1))
    let case3 := kernel == (5, 5) && strides == (1, 1) && padding == "same"
    let case4 := kernel == (5, 5) && (strides == (1, 1) || strides == (2, 2))
      && padding == "valid" && zp == some ((2, 2), (2, 2))
    dm == 1 && dilation == (1, 1) && (case1 || case2 || case3 || case4)
  | .conv2d kernel strides dilation _ groups _ =>
    groups == 1 && dilation == (1, 1) && kernel == (1, 1) && strides == (1, 1)
  | .gap keepdims => keepdims
  | .batchNorm axis => axis == [3]
  | .upsampling i => i == "bilinear"
  | .activation n => ["relu", "relu6", "leaky_relu", "elu", "sigmoid"].contains n
  | .tfOp listed n => listed || ["identity", "add", "subtract", "multiply"].contains n
  | .prune inner => layerSupported inner []
  | .other _ => false

/-- What one call of `_lookup_layers` can do: return a set of layers or let the `ValueError`
raised by its stop function escape. -/
inductive Lookup (L : Type) where
  | found (s : Finset L)
  | raised (at_ : L)

/-- What a stop function answers at a layer: a Boolean, or `none` when it raises. -/
abbrev StopFn (L : Type) := L → Option Bool

/-- `_lookup_layers`, `pruning_policy.py` 122-140: the loop, started with the sets `toVisit`,
`used`, `acc`.  `set.pop()` removes an arbitrary element, so the loop is a relation: every layer of
`toVisit` may be the one that is popped. -/
inductive LookupRun {L : Type} [DecidableEq L] (stop : StopFn L) (next : L → List L) :
    Finset L → Finset L → Finset L → Lookup L → Prop where
  /-- `while to_visit` ends, `return found_layers` (140) -/
  | done {used acc} : LookupRun stop next ∅ used acc (.found acc)
  /-- the stop function raises (129) -/
  | raise {toVisit used acc x} (hx : x ∈ toVisit) (h : stop x = none) :
      LookupRun stop next toVisit used acc (.raised x)
  /-- `found_layers.add(layer)` (129-130) -/
  | stop {toVisit used acc x r} (hx : x ∈ toVisit) (h : stop x = some true)
      (rest : LookupRun stop next (toVisit.erase x) used (insert x acc) r) :
      LookupRun stop next toVisit used acc r
  /-- `if not next_layers: return set()` (133-134) -/
  | dead {toVisit used acc x} (hx : x ∈ toVisit) (h : stop x = some false) (hn : next x = []) :
      LookupRun stop next toVisit used acc (.found ∅)
  /-- the unused next layers are queued (135-138) -/
  | step {toVisit used acc x r} (hx : x ∈ toVisit) (h : stop x = some false) (hn : next x ≠ [])
      (rest : LookupRun stop next (toVisit.erase x ∪ ((next x).toFinset \ used))
        (used ∪ (next x).toFinset) acc r) :
      LookupRun stop next toVisit used acc r

/-- A whole call of `_lookup_layers`, `pruning_policy.py` 122-140. -/
def Lookups {L : Type} [DecidableEq L] (sources : Finset L) (stop : StopFn L) (next : L → List L)
    (r : Lookup L) : Prop :=
  LookupRun stop next sources sources ∅ r

/-- A built Keras graph as seen by the policy.  `consumers` and `producers` are
`_get_consumers` / `_get_producers` (`pruning_policy.py` 102-120) — after the unpacking of nested
`Sequential` models —, `inputs` and `outputs` the layers of the model's input and output tensors
(`pruning_policy.py` 261 and 280).  `graphNetworkOrSequential` and `built` are the two flags tested
at 252-258. -/
structure LayerGraph (L : Type) where
  kind : L → Kind
  consumers : L → List L
  producers : L → List L
  inputs : Finset L
  outputs : Finset L
  graphNetworkOrSequential : Bool := true
  built : Bool := true

/-- The ways `ensure_model_supports_pruning` can end. -/
inductive EnsureOutcome (L : Type) where
  | accepted
  | subclassed | unbuilt | noStart | noEnd
  | unsupported (layer : L)

section
variable {L : Type} [DecidableEq L] (G : LayerGraph L)

/-- The stop function of the search for start layers (262-266). -/
def LayerGraph.startFn : StopFn L := fun x =>
  some (startStop (G.kind x) ((G.producers x).map G.kind))

/-- The stop function of the search for end layers (281-285). -/
def LayerGraph.endFn : StopFn L := fun x => some (endStop (G.kind x))

/-- `visit_fn`, `pruning_policy.py` 292-298. -/
def LayerGraph.visitFn (ends : Finset L) : StopFn L := fun x =>
  if x ∉ ends ∧ layerSupported (G.kind x) ((G.producers x).map G.kind) = false then none
  else some (decide (x ∈ ends))

/-- `ensure_model_supports_pruning`, `pruning_policy.py` 248-302, as a relation because
`set.pop()` is unspecified. -/
inductive Ensure : EnsureOutcome L → Prop where
  | subclassed (h : G.graphNetworkOrSequential = false) : Ensure .subclassed
  | unbuilt (h : G.graphNetworkOrSequential = true) (hb : G.built = false) : Ensure .unbuilt
  | noStart (h : G.graphNetworkOrSequential = true) (hb : G.built = true)
      (h1 : Lookups G.inputs G.startFn G.consumers (.found ∅)) : Ensure .noStart
  | noEnd {starts} (h : G.graphNetworkOrSequential = true) (hb : G.built = true)
      (h1 : Lookups G.inputs G.startFn G.consumers (.found starts)) (hs : starts ≠ ∅)
      (h2 : Lookups G.outputs G.endFn G.producers (.found ∅)) : Ensure .noEnd
  | unsupported {starts ends x} (h : G.graphNetworkOrSequential = true) (hb : G.built = true)
      (h1 : Lookups G.inputs G.startFn G.consumers (.found starts)) (hs : starts ≠ ∅)
      (h2 : Lookups G.outputs G.endFn G.producers (.found ends)) (he : ends ≠ ∅)
      (h3 : Lookups (starts.biUnion fun s => (G.consumers s).toFinset) (G.visitFn ends) G.consumers
        (.raised x)) : Ensure (.unsupported x)
  | accepted {starts ends found} (h : G.graphNetworkOrSequential = true) (hb : G.built = true)
      (h1 : Lookups G.inputs G.startFn G.consumers (.found starts)) (hs : starts ≠ ∅)
      (h2 : Lookups G.outputs G.endFn G.producers (.found ends)) (he : ends ≠ ∅)
      (h3 : Lookups (starts.biUnion fun s => (G.consumers s).toFinset) (G.visitFn ends) G.consumers
        (.found found)) : Ensure .accepted

end

/-- `calculate_sparsity`, `tools/check_sparsity_m_by_n.py` 53-60, on the flat list of entries,
with exact division. -/
def calculateSparsity {α : Type} [Field α] [DecidableEq α] (w : List α) : α :=
  let nnz := w.countP (· ≠ 0)
  if nnz ≠ 0 then 1 - (nnz : α) / (w.length : α) else 1

end Verif.Sparsity
