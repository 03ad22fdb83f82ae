import Verif.Sparsity.Wrapper

/-!
# Pruning under a mirrored distribution strategy

`sparsity/keras/pruning_impl.py` 204-313 and `pruning_wrapper.py` 227-321, `pruning_callbacks.py` 48-79
when the model is trained on several replicas (`tf.distribute.MirroredStrategy`).  Every variable has
one copy per replica.  A layer is the list of its copies, the primary copy first.

What TensorFlow does: a variable read in cross-replica context is its primary copy;
`distribution.extended.update` assigns to all copies; an assignment in replica context to a variable
without aggregation (`pruning_step`, `pruning_wrapper.py` 268-274) assigns to the copy of that replica;
`batch_reduce_to(MEAN)` gives the mean of the replicas' values.  `merge_call` waits for all replicas, so
the three steps of a forward pass are taken by all replicas together.
-/

namespace Verif.Sparsity

variable {α : Type*} [Field α] [LinearOrder α] [IsStrictOrderedRing α] [FloorRing α]

/-- Entrywise mean of the replicas' tensors (`ReduceOp.MEAN`, `pruning_impl.py` 218-219). -/
def meanList (xs : List (List α)) : List α :=
  match xs with
  | [] => []
  | x :: _ => (List.range x.length).map fun i => (xs.map fun l => l.getD i 0).sum / (xs.length : α)

/-- `weight * mask` of variable `vi` in one replica (`pruning_impl.py` 240-243). -/
def maskedValue (l : PLayer α) (vi : ℕ) : List α :=
  match l.vars[vi]? with
  | none => []
  | some v => (applyMask v).weight

/-- `_weight_assign_objs` in replica context, `pruning_impl.py` 213-246: the mean of the masked weights
is assigned to all copies. -/
def dMask (rs : List (PLayer α)) : List (PLayer α) :=
  rs.map fun l => { l with vars := l.vars.mapIdx fun vi v =>
    { v with weight := meanList (rs.map fun r => maskedValue r vi) } }

/-- `distribution.extended.update` of masks and thresholds, `pruning_impl.py` 297-303. -/
def copyMasks (vs : List (PVar α)) (l : PLayer α) : PLayer α :=
  { l with vars := (List.zipWith
      (fun v new => { v with mask := new.mask, threshold := new.threshold }) l.vars vs) }

/-- `mask_update_distributed`, `pruning_impl.py` 285-306: whether to update, and the new masks, come
from the primary copies. -/
def dUpdateMasks (p : PLayer α) (rs : List (PLayer α)) : List (PLayer α) × Option PruneError :=
  if shouldUpdate p.cfg p.step then
    (rs.map (copyMasks (updateVars p.cfg p.step p.vars).1), (updateVars p.cfg p.step p.vars).2)
  else (rs, none)

/-- `PruneLowMagnitude.call` on all replicas, `pruning_wrapper.py` 285-321. -/
def dCallLayer (training : Bool) (rs : List (PLayer α)) : List (PLayer α) × Option PruneError :=
  if training then
    let rs1 := rs.map fun l => { l with step := l.step + 1 }
    if rs1.any fun l => decide (l.step < 1) then (rs1, some .callbackMissing)
    else
      match rs1 with
      | [] => ([], none)
      | p :: _ =>
        match dUpdateMasks p rs1 with
        | (rs2, some e) => (rs2, some e)
        | (rs2, none) => (dMask rs2, none)
  else (dMask rs, none)

/-- A forward pass on all replicas. -/
def dForward (training : Bool) : List (List (PLayer α)) → List (List (PLayer α)) × Option PruneError
  | [] => ([], none)
  | l :: ls =>
    match dCallLayer training l with
    | (l', some e) => (l' :: ls, some e)
    | (l', none) =>
      let r := dForward training ls
      (l' :: r.1, r.2)

/-- The pruned layers of a model, each with its copies, and the callback. -/
structure DModel (α : Type*) where
  layers : List (List (PLayer α))
  collected : Bool

/-- What can happen.  `optimizer f`: entry `i` of variable `v` of layer `l` becomes `f r l v i` on
replica `r`. -/
inductive DEvent (α : Type*)
  | optimizer (f : ℕ → ℕ → ℕ → ℕ → α)
  | call (training : Bool)
  | trainBegin
  | epochEnd

/-- An assignment to all weights of all replicas. -/
def dOptimizer (f : ℕ → ℕ → ℕ → ℕ → α) (ls : List (List (PLayer α))) : List (List (PLayer α)) :=
  ls.mapIdx fun li rs => rs.mapIdx fun r l => { l with vars := l.vars.mapIdx fun vi v =>
    { v with weight := v.weight.mapIdx fun i _ => f r li vi i } }

/-- `on_train_begin`, `pruning_callbacks.py` 54-65: the primary copy of the first layer's step is
inspected; `batch_set_value` assigns to all copies. -/
def dTrainBegin (ls : List (List (PLayer α))) : List (List (PLayer α)) :=
  match ls with
  | [] => []
  | rs :: _ =>
    match rs with
    | [] => ls
    | p :: _ => if p.step = -1 then ls.map fun rs => rs.map fun l => { l with step := 0 } else ls

/-- `weight_mask_op` in cross-replica context (`pruning_impl.py` 247-252, from `on_epoch_end`): the
primary copy's weight times the primary copy's mask is assigned to all copies. -/
def dEpochEnd (rs : List (PLayer α)) : List (PLayer α) :=
  match rs with
  | [] => []
  | p :: _ => rs.map fun l => { l with vars := (List.zipWith
      (fun v q => { v with weight := (applyMask q).weight }) l.vars p.vars) }

/-- One event; the second component is the exception, if any. -/
def dStep (m : DModel α) : DEvent α → DModel α × Option PruneError
  | .optimizer f => ({ m with layers := dOptimizer f m.layers }, none)
  | .call training =>
    let r := dForward training m.layers
    ({ m with layers := r.1 }, r.2)
  | .trainBegin => (⟨dTrainBegin m.layers, true⟩, none)
  | .epochEnd => (if m.collected then { m with layers := m.layers.map dEpochEnd } else m, none)

/-- A history. -/
def dRun (m : DModel α) (h : List (DEvent α)) : DModel α := h.foldl (fun m e => (dStep m e).1) m

/-- A model copied to `n` replicas (variables are created with the same initial value on all replicas,
or restored from a checkpoint). -/
def mirrored (n : ℕ) (m : PModel α) : DModel α := ⟨m.layers.map (List.replicate n), m.collected⟩

end Verif.Sparsity
