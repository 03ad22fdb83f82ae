import Verif.Clustering.Objects

/-!
# Clustering on several replicas

`clustering/keras/cluster_wrapper.py` 183-332 under `tf.distribute.MirroredStrategy` (used by
`clustering/keras/cluster_distributed_test.py`).

Every replica has its own copy of every variable: the original weights and the centroids are mirrored
variables, the pulling indices are `ON_READ` variables (`cluster_wrapper.py` 249-257).  The replicas run
the same Python code in threads; the wrapped layer is one Python object that all of them share, and
`update_clustered_weights_associations` puts tensors into its attributes (`cluster_wrapper.py`
180-181, 324-326).  The threads can be interleaved in any way.

Simplified: a turn of the loop over the weights is one step (within it only the last action, setting
the attribute of the layer, touches something shared), and so is `layer.call`, which reads the
attributes.  An assignment inside a replica changes the copy of that replica (this is what
TensorFlow does for variables without aggregation and for `ON_READ` variables).  An optimizer step or
loading weights gives all copies of a variable the same value.  Sparsity masks and the indices of the
zero centroids are tensors made in `build`, the same for all replicas.
-/

namespace Verif.Clustering

variable {ι : Type*} {α : Type*} [Field α] [LinearOrder α] [IsStrictOrderedRing α]

/-- A built wrapper on several replicas: the shared layer, the copies of the variables (by replica),
what each replica has still to do in the forward pass, and the values of the clusterable attributes
that its last `layer.call` has read. -/
structure RState (ι α : Type*) where
  layer : KLay (ι → α)
  built : KLay (ι → α)
  items : List Item
  vars : ℕ → ℕ → ι → α
  st : ℕ → WName → CState ι α
  todo : ℕ → List Item
  running : ℕ → Bool
  seen : ℕ → List (Option (ι → α))

/-- The wrapper as replica `r` sees it. -/
def RState.view (s : RState ι α) (r : ℕ) : OState ι α := ⟨s.layer, s.built, s.items, s.vars r, s.st r⟩

/-- A model built under the strategy: `cluster_wrapper.py` 183-275 gives all copies the same values. -/
def RState.mirrored (s : OState ι α) : RState ι α :=
  ⟨s.layer, s.built, s.items, fun _ => s.vars, fun _ => s.st, fun _ => [], fun _ => false, fun _ => []⟩

/-- The next step of replica `r`: one turn of the loop of `update_clustered_weights_associations`
(`cluster_wrapper.py` 277-326), and after the loop `layer.call` (332). -/
def RState.turn (ps : Bool) (ch : WName → ι → ℕ) (s : RState ι α) (r : ℕ) : RState ι α :=
  if s.running r then
    match s.todo r with
    | [] => { s with
        running := Function.update s.running r false
        seen := Function.update s.seen r (s.items.map (s.view r).read) }
    | it :: rest =>
      let v := OState.updateOne ps ch (s.view r) it
      { s with
        layer := v.layer
        st := Function.update s.st r v.st
        todo := Function.update s.todo r rest }
  else s

/-- A forward pass on `n` replicas: `schedule` says whose turn it is. -/
def RState.pass (ps : Bool) (ch : WName → ι → ℕ) (n : ℕ) (schedule : List ℕ) (s : RState ι α) :
    RState ι α :=
  schedule.foldl (RState.turn ps ch)
    { s with todo := fun _ => s.items, running := fun r => decide (r < n) }

/-- What can happen to the model. -/
inductive REvent (ι α : Type*) where
  /-- a forward pass of all replicas (`cluster_wrapper.py` 328-332) -/
  | call (schedule : List ℕ)
  /-- an optimizer step or loading weights -/
  | assign (vars : ℕ → ι → α) (cents : WName → ℕ → ℕ → α)

/-- Effect of an event. -/
def RState.step (ps : Bool) (ch : WName → ι → ℕ) (n : ℕ) (s : RState ι α) : REvent ι α → RState ι α
  | .call schedule => s.pass ps ch n schedule
  | .assign vs cs =>
    { s with
      vars := fun _ => vs
      st := fun r w => { s.st r w with
        cents := fun k => (List.range ((s.st r w).cents k).length).map (cs w k) } }

/-- A history. -/
def RState.run (ps : Bool) (ch : WName → ι → ℕ) (n : ℕ) (s : RState ι α) (es : List (REvent ι α)) :
    RState ι α := es.foldl (RState.step ps ch n) s

end Verif.Clustering
