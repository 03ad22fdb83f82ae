import Verif.Quant.Ops

/-!
# Quantizers on several replicas

`quantization/keras/quant_ops.py` 48-309, `quantization/keras/quantizers.py` 131-148 and
`quantization/keras/quantize_layer.py` 67-88 when the model is trained on several replicas
(`tf.distribute.MirroredStrategy`).  The variables `min_var` and `max_var` are made by `add_weight` without
an aggregation (`quantizers.py` 138-147), so every replica has its own copy.

What TensorFlow does: a variable read in replica context is the copy of that replica; an assignment in
replica context to a variable without aggregation (`tf_compat.assign`, `quant_ops.py` 105-106 and 201-202)
assigns to the copy of that replica only; `assign_moving_average` (298-301) in replica context reduces the
value by the mean over all replicas and updates all copies; all replicas take part in that reduction, so a
failure in one is a failure of all.  Saving writes the primary copy, and
loading gives all copies the saved value.
-/

namespace Verif.Quant
open Verif Verif.Clustering Verif.Encoding

variable {α : Type*} [Field α] [LinearOrder α] [IsStrictOrderedRing α] [FloorRing α]

/-- The results of all replicas, or the failure of one. -/
def collect {β : Type*} : List (Option β) → Option (List β)
  | [] => some []
  | none :: _ => none
  | some x :: rest => (collect rest).map (x :: ·)

/-- Entry `c` of a value assigned to a variable. -/
def RangeVar.entry : RangeVar α → ℕ → α
  | .scalar a, _ => a
  | .vector l, c => l.getD c 0

/-- `ReduceOp.MEAN` of the replicas' values, entry by entry (in `assign_moving_average`, called at
`quant_ops.py` 298-301). -/
def meanVar (vs : List (RangeVar α)) : RangeVar α :=
  match vs with
  | .vector l :: _ => .vector ((List.range l.length).map fun c => (vs.map fun v => v.entry c).sum / (vs.length : α))
  | _ => .scalar ((vs.map fun v => v.entry 0).sum / (vs.length : α))

/-- `assign_sub((variable - value) * (1 - decay))` for a value of the shape of the variable (in
`assign_moving_average`, called at `quant_ops.py` 298-301). -/
def emaVar (var value : RangeVar α) : RangeVar α :=
  match var with
  | .scalar a => .scalar (ema a (value.entry 0))
  | .vector l => .vector ((List.range l.length).map fun c => ema (l.getD c 0) (value.entry c))

/-- A training call on all replicas, `quant_ops.py` 85-106, 160-202, 257-301: `vs` are the copies of the
variables and `ts` the tensors, by replica.  MovingAvg computes the range of the batch exactly as LastValue
does (257-296 and 160-199), what differs is the assignment. -/
def QKind.dUpdate (k : QKind) (cfg : QCfg) (vs : List (RangeVars α)) (ts : List (QTensor α)) :
    Option (List (RangeVars α)) :=
  match k with
  | .movingAverage =>
    (collect (List.zipWith (QKind.lastValue.update cfg) vs ts)).map fun new =>
      vs.map fun v => ⟨emaVar v.lo (meanVar (new.map fun w => w.lo)), emaVar v.hi (meanVar (new.map fun w => w.hi))⟩
  | _ => collect (List.zipWith (k.update cfg) vs ts)

/-- `__call__` of the three quantizers on all replicas, `quantizers.py` 179-201, 250-273, 330-351: every
replica quantizes its tensor with its own copy. -/
def QKind.dCall (k : QKind) (cfg : QCfg) (vs : List (RangeVars α)) (training : Bool) (ts : List (QTensor α)) :
    Option (List (QTensor α) × List (RangeVars α)) :=
  let perChannel := cfg.perAxis && (k != .allValues)
  let quantize := fun vs' => (collect (List.zipWith (fakeQuantVars cfg perChannel) vs' ts)).map fun os => (os, vs')
  if training then (k.dUpdate cfg vs ts).bind quantize else quantize vs

/-- What happens to a quantizer of a model on several replicas. -/
inductive DEvent (α : Type*) where
  /-- a forward pass, with the tensors of the replicas -/
  | call (training : Bool) (ts : List (QTensor α))
  /-- the model is saved and loaded -/
  | reload

/-- A history of events; the result is the outputs of the calls, by replica, and the final copies.  Loading
gives all copies the value of the primary one. -/
def QKind.dRun (k : QKind) (cfg : QCfg) : List (RangeVars α) → List (DEvent α) →
    Option (List (List (QTensor α)) × List (RangeVars α))
  | vs, [] => some ([], vs)
  | vs, .call training ts :: rest =>
    (k.dCall cfg vs training ts).bind fun r => (k.dRun cfg r.2 rest).map fun s => (r.1 :: s.1, s.2)
  | vs, .reload :: rest =>
    match vs with
    | [] => k.dRun cfg [] rest
    | v :: vs' => k.dRun cfg (List.replicate (vs'.length + 1) v) rest

/-- The variables of a model built for `n` replicas: `build`, with all copies the same. -/
def QKind.dBuild (k : QKind) (cfg : QCfg) (n : ℕ) (shape : Option (List ℕ)) : List (RangeVars α) :=
  List.replicate n (k.build cfg shape)

end Verif.Quant
