import Verif.Clustering.Wrapper
import Mathlib.Logic.Function.Basic

/-!
# Clustering: the wrapper and the layer object it modifies

`clustering/keras/cluster_wrapper.py`, the three wrapper classes, and `strip_clustering`
(`clustering/keras/cluster.py` 305-376), at the level of attributes: which attribute of which
sublayer holds a variable, which a plain tensor, and what Keras therefore reports as `layer.weights`.

`Verif.Clustering.Wrapper` describes what happens to the values of one weight; here the same update is
run for every clusterable weight of a layer with sublayers.
-/

namespace Verif.Clustering

/-- One step of an attribute path: an attribute, or an element of a list attribute
(`StackedRNNCells.cells[i]`). -/
inductive Key where
  | attr (s : String)
  | idx (i : ℕ)
  deriving DecidableEq, Repr

/-- What an attribute of a Keras layer holds: a variable (by identity) or a plain tensor. -/
inductive Slot (τ : Type*) where
  | var (v : ℕ)
  | tensor (t : τ)
  deriving DecidableEq, Repr

/-- The variable in a slot. -/
def Slot.var? {τ : Type*} : Slot τ → Option ℕ
  | .var v => some v
  | .tensor _ => none

/-- A Keras layer with its sublayers, listed in the order in which Keras gathers weights (a layer
before its sublayers, sublayers in the order of creation).  Every (sub)layer comes with the attribute
path that leads to it and its weight attributes in the order in which they were tracked.  Only
trainable weights are modelled. -/
abbrev KLay (τ : Type*) := List (List Key × List (String × Slot τ))

variable {τ : Type*}

/-- `layer.weights`: the tracked variables (Keras `Layer.weights`, read by `cluster_wrapper.py` 203). -/
def weights (L : KLay τ) : List ℕ := L.flatMap fun b => b.2.filterMap fun a => a.2.var?

/-- `getattr` along a path. -/
def getAttr (L : KLay τ) (path : List Key) (name : String) : Option (Slot τ) :=
  (L.lookup path).bind fun own => own.lookup name

/-- Keras `Layer.__setattr__`: the old value is deleted (and no longer tracked), the new value is
tracked last if it is a variable. -/
def setOwn (own : List (String × Slot τ)) (name : String) (s : Slot τ) : List (String × Slot τ) :=
  own.filter (fun a => a.1 ≠ name) ++ [(name, s)]

/-- `setattr` along a path. -/
def setAttr (L : KLay τ) (path : List Key) (name : String) (s : Slot τ) : KLay τ :=
  L.map fun b => if b.1 = path then (b.1, setOwn b.2 name s) else b

/-- The shapes of layers the wrappers distinguish (`cluster_wrapper.py` 404-498): a layer with its own
weights, an `RNN` with one cell, an `RNN` with `StackedRNNCells`, a `Bidirectional`, a
`MultiHeadAttention`. -/
inductive Shape where
  | flat
  | cell
  | stacked
  | bidirectional
  | mha
  deriving DecidableEq, Repr

/-- Names of clusterable weights: `kernel`; `kernel/0`; `_query_dense.kernel`.  (The parts are kept
apart; the code splits the string.) -/
inductive WName where
  | plain (attr : String)
  | indexed (attr : String) (i : ℕ)
  | dotted (sub attr : String)
  deriving DecidableEq, Repr

/-- The registry's clusterable weights (`clustering_registry.py` 186-231): `own` are the names of the
map (or those a `ClusterableLayer` lists), `cells` the number of cells. -/
def registryNames (own : List String) (cells : ℕ) : Shape → List WName
  | .flat => own.map .plain
  | .cell => [.indexed "kernel" 0, .indexed "recurrent_kernel" 0]
  | .stacked => (List.range cells).flatMap fun i => [.indexed "kernel" i, .indexed "recurrent_kernel" i]
  | .bidirectional =>
    (List.range 2).flatMap fun i => [.indexed "kernel" i, .indexed "recurrent_kernel" i]
  | .mha => [.dotted "_query_dense" "kernel", .dotted "_key_dense" "kernel",
      .dotted "_value_dense" "kernel", .dotted "_output_dense" "kernel"]

/-- Where `get_weight_from_layer` / `set_weight_to_layer` look (`cluster_wrapper.py` 177-181,
412-453, 459-466); `none` = an exception. -/
def locate : Shape → WName → Option (List Key × String)
  | .flat, .plain a => some ([], a)
  | .cell, .indexed a _ => some ([.attr "cell"], a)
  | .stacked, .indexed a i => some ([.attr "cell", .idx i], a)
  | .bidirectional, .indexed a i =>
    if i = 0 then some ([.attr "forward_layer", .attr "cell"], a)
    else if i = 1 then some ([.attr "backward_layer", .attr "cell"], a)
    else none
  | .mha, .dotted s a => some ([.attr s], a)
  | _, _ => none

/-- What the wrapper records for a clusterable weight (`cluster_wrapper.py` 197-206): its name, where
it lives, the original variable, and its position in `layer.weights`. -/
structure Item where
  name : WName
  path : List Key
  attr : String
  var : ℕ
  pos : ℕ
  deriving DecidableEq, Repr

/-- One turn of the loop of `build`, `cluster_wrapper.py` 188-206; `none` = an exception. -/
def makeItem (sh : Shape) (L : KLay τ) (n : WName) : Option Item :=
  match locate sh n with
  | none => none
  | some loc =>
    match getAttr L loc.1 loc.2 with
    | some (.var v) => if v ∈ weights L then some ⟨n, loc.1, loc.2, v, (weights L).idxOf v⟩ else none
    | _ => none

variable {ι : Type*} {α : Type*} [Field α] [LinearOrder α] [IsStrictOrderedRing α]

/-- A built wrapper: the wrapped layer as it is now and as it was built, the values of all variables,
and the clustering variables of every clusterable weight (`cluster_wrapper.py` 118-143). -/
structure OState (ι α : Type*) where
  layer : KLay (ι → α)
  built : KLay (ι → α)
  items : List Item
  vars : ℕ → ι → α
  st : WName → CState ι α

/-- `build`, `cluster_wrapper.py` 183-275, with the initial centroids `c0`; `ch n` gives the channels
of the weight called `n`. -/
def OState.build (sh : Shape) (names : List WName) (ch : WName → ι → ℕ) (L : KLay (ι → α))
    (vars : ℕ → ι → α) (c0 : WName → ℕ → List α) : Option (OState ι α) :=
  match names.mapM (makeItem sh L) with
  | none => none
  | some items =>
    some ⟨L, L, items, vars, fun n =>
      match items.find? fun it => it.name = n with
      | some it => CState.build (ch n) (vars it.var) (c0 n)
      | none => CState.build (ch n) (fun _ => 0) (c0 n)⟩

/-- One turn of the loop of `update_clustered_weights_associations`, `cluster_wrapper.py` 277-326. -/
def OState.updateOne (ps : Bool) (ch : WName → ι → ℕ) (s : OState ι α) (it : Item) : OState ι α :=
  let cs := CState.update ps (ch it.name) { s.st it.name with orig := s.vars it.var }
  { s with
    layer := setAttr s.layer it.path it.attr (.tensor cs.kernel)
    st := Function.update s.st it.name cs }

/-- `update_clustered_weights_associations`. -/
def OState.update (ps : Bool) (ch : WName → ι → ℕ) (s : OState ι α) : OState ι α :=
  s.items.foldl (OState.updateOne ps ch) s

/-- What can happen to a built wrapper. -/
inductive OEvent (ι α : Type*) where
  /-- a forward pass, `cluster_wrapper.py` 328-332 -/
  | call
  /-- an optimizer step or loading weights: all variables take arbitrary values -/
  | assign (vars : ℕ → ι → α) (cents : WName → ℕ → ℕ → α)

/-- Effect of an event. -/
def OState.step (ps : Bool) (ch : WName → ι → ℕ) (s : OState ι α) : OEvent ι α → OState ι α
  | .call => s.update ps ch
  | .assign vs cs =>
    { s with
      vars := vs
      st := fun n => { s.st n with
        cents := fun k => (List.range ((s.st n).cents k).length).map (cs n k) } }

/-- A history. -/
def OState.run (ps : Bool) (ch : WName → ι → ℕ) (s : OState ι α) (es : List (OEvent ι α)) :
    OState ι α := es.foldl (OState.step ps ch) s

/-- The value an attribute has. -/
def Slot.value (vars : ℕ → τ) : Slot τ → τ
  | .var v => vars v
  | .tensor t => t

/-- `get_weight_from_layer`, as a value. -/
def OState.read (s : OState ι α) (it : Item) : Option (ι → α) :=
  (getAttr s.layer it.path it.attr).map (Slot.value s.vars)

/-- The branch of `_strip_clustering_wrapper` for `ClusterWeights` and `ClusterWeightsRNN`,
`cluster.py` 347-368: the values of the weights of the clean layer, which is built from the config and
so has the weights of the layer as it was built, in that order; `none` = an exception (`set_weights`
checks the number of weights). -/
def OState.strip (ps : Bool) (ch : WName → ι → ℕ) (s : OState ι α) : Option (List (ι → α)) :=
  let s := s.update ps ch
  match s.items.mapM fun it => (s.read it).map fun x => (it.pos, x) with
  | none => none
  | some placed =>
    let ws := restoreWeights ((weights s.layer).map s.vars) placed
    if ws.length = (weights s.built).length then some ws else none

/-- One turn of the loop of `ClusterWeightsMHA.strip_clustering`, `cluster_wrapper.py` 477-485.  The
attribute is set on the layer itself, under the dotted name. -/
def OState.stripMhaOne (s : OState ι α) (it : Item) : OState ι α :=
  match it.name, s.read it with
  | .dotted sub a, some x =>
    { s with
      vars := Function.update s.vars it.var x
      layer := setAttr s.layer [] (sub ++ "." ++ a) (.var it.var) }
  | _, _ => s

/-- The branch for `ClusterWeightsMHA`, `cluster.py` 340-345: the wrapped layer itself is returned. -/
def OState.stripMha (ps : Bool) (ch : WName → ι → ℕ) (s : OState ι α) : OState ι α :=
  let s := s.update ps ch
  s.items.foldl OState.stripMhaOne s

end Verif.Clustering
