import Verif.Quant.Ops

/-!
# Sparsity and cluster preserving weight quantizers

`quantization/keras/collab_opts/prune_preserve/prune_preserve_quantize_registry.py` and
`quantization/keras/collab_opts/cluster_preserve/cluster_preserve_quantize_registry.py`.

Kernels are `QTensor`s (shape and row-major entries).  Only `channels_last` is modelled: with
`channels_first` the code takes the number of channels from axis 1 but slices the last axis.
-/

namespace Verif.Quant
open Verif Verif.Clustering Verif.Encoding

variable {α : Type*} [Field α] [LinearOrder α] [IsStrictOrderedRing α] [FloorRing α]

/-- `PrunePreserveDefault8BitWeightsQuantizer` and `ClusterPreserveDefault8BitWeightsQuantizer`
constructor arguments, `prune_preserve_quantize_registry.py` 308-317,
`cluster_preserve_quantize_registry.py` 504-515. -/
def cfgDense8 : QCfg := ⟨8, false, true, true⟩

/-- `Default8BitConvWeightsQuantizer.__init__`, `default_8bit_quantizers.py` 26-32, used by the
`Conv` variants. -/
def cfgConv8 : QCfg := ⟨8, true, true, true⟩

/-! ## Sparsity preserving -/

/-- `_build_sparsity_mask`, `prune_preserve_quantize_registry.py` 259-263. -/
def sparsityMask (w : List α) : List α := w.map fun x => divideNoNan x x

/-- `tf.multiply` of a kernel and the mask. -/
def applyMask (w mask : List α) : List α := List.zipWith (· * ·) w mask

/-- `PrunePreserveDefaultWeightsQuantizer.__call__`, `prune_preserve_quantize_registry.py` 284-305. -/
def prunePreserveCall (cfg : QCfg) (mask : List α) (v : RangeVars α) (training : Bool) (t : QTensor α) :
    Option (QTensor α × RangeVars α) :=
  QKind.lastValue.call cfg v training ⟨t.shape, applyMask t.data mask⟩

/-- A history of calls of the quantizer built for the kernel `t₀`; between calls the kernel changes
arbitrarily (each event carries the kernel at the time of the call). -/
def prunePreserveRun (cfg : QCfg) (mask : List α) : RangeVars α → List (Bool × QTensor α) →
    Option (List (QTensor α) × RangeVars α)
  | v, [] => some ([], v)
  | v, (training, t) :: rest =>
    (prunePreserveCall cfg mask v training t).bind fun r =>
      (prunePreserveRun cfg mask r.2 rest).map fun s => (r.1 :: s.1, s.2)

/-- `build` (264-281, 331-338) followed by a history of calls. -/
def prunePreserveHistory (cfg : QCfg) (t₀ : QTensor α) (hist : List (Bool × QTensor α)) :
    Option (List (QTensor α) × RangeVars α) :=
  prunePreserveRun cfg (sparsityMask t₀.data) (QKind.lastValue.build cfg (some t₀.shape)) hist

/-! ## Cluster preserving -/

/-- `tf.unique` on a flat tensor: the values in order of first occurrence,
`cluster_preserve_quantize_registry.py` 44-67. -/
def uniques : List α → List α
  | [] => []
  | x :: xs => x :: (uniques xs).filter fun y => y ≠ x

/-- `get_centroids`, `cluster_preserve_quantize_registry.py` 70-122: the centroids (one row per channel,
or one row for the whole kernel), their number and whether they are per channel. -/
def getCentroids (isConv : Bool) (t : QTensor α) : List (List α) × ℕ × Bool :=
  let rows := (List.range t.dim).map fun c => uniques (column t.dim t.data c)
  let counts := rows.map List.length
  let mx := counts.foldr max 0
  let mn := counts.foldr min mx
  if !isConv || decide (1 < mx - mn) then ([uniques t.data], (uniques t.data).length, false)
  else (rows.map fun r => r ++ List.replicate (mx - r.length) 1, mx, true)

/-- What `_build_clusters` fixes for a layer. -/
structure CPBuilt (α : Type*) where
  shape : List ℕ
  /-- clustered per channel -/
  perChannel : Bool
  /-- clustering variables were created -/
  active : Bool
  /-- `SPARSITY_MASK` and `CENTROIDS_MASK`, if sparsity was to be preserved at build -/
  masks : Option (List α × List (List α))

/-- The variables of a layer: `ori_weights_vars_tf`, `cluster_centroids_tf`, the kernel, and the range
variables.  (`pulling_indices_tf` is recomputed by every training call and read only there.) -/
structure CPState (α : Type*) where
  orig : List α
  cents : List (List α)
  kernel : List α
  vars : RangeVars α

/-- Build of a layer, `cluster_preserve_quantize_registry.py` 310-430, 530-539.  `flag` is
`preserve_sparsity` of the quantizer, which is shared by all layers with the same config class; the
first component is its value afterwards. -/
def CPBuild (cfg : QCfg) (isConv flag : Bool) (t : QTensor α) : Bool × CPBuilt α × CPState α :=
  let flag' := flag && t.data.any fun x => x = 0
  let (cents, num, perChannel) := getCentroids isConv t
  let centMask := cents.map fun row =>
    (List.range num).map fun j => (1 : α) - if j = argmin (row.map fun c => |c|) then 1 else 0
  (flag',
    { shape := t.shape
      perChannel := perChannel
      active := decide (num ≤ 1024) && !decide (num ≤ 1)
      masks := if flag' then some (sparsityMask t.data, centMask) else none },
    { orig := t.data, cents := cents, kernel := t.data
      vars := QKind.lastValue.build cfg (some t.shape) })

/-- The row of centroids used at position `i`. -/
def CPBuilt.row (b : CPBuilt α) (cents : List (List α)) (i : ℕ) : List α :=
  cents.getD (if b.perChannel then i % (b.shape.getLast?.getD 1) else 0) []

/-- `get_pulling_indices` followed by `get_clustered_weight`. -/
def CPBuilt.clustered (b : CPBuilt α) (cents : List (List α)) (orig : List α) : List α :=
  orig.mapIdx fun i w => clusteredEntry (b.row cents i) (pullingIndex (b.row cents i) w) w

/-- The part of `__call__` before quantization, `cluster_preserve_quantize_registry.py` 456-487: the
tensor to be quantized and the new state.  A missing mask is a `KeyError`. -/
def CPBuilt.prepare (b : CPBuilt α) (training flag : Bool) (s : CPState α) :
    Option (List α × CPState α) :=
  if training then
    if b.active then
      if flag then
        match b.masks with
        | none => none
        | some (mask, centMask) =>
          let orig := applyMask s.orig mask
          let cents := List.zipWith (List.zipWith (· * ·)) s.cents centMask
          let out := b.clustered cents orig
          some (out, { s with orig := orig, cents := cents, kernel := out })
      else
        let out := b.clustered s.cents s.orig
        some (out, { s with kernel := out })
    else
      if flag then
        match b.masks with
        | none => none
        | some (mask, _) => some (applyMask s.kernel mask, s)
      else some (s.kernel, s)
  else some (s.kernel, s)

/-- `__call__`, `cluster_preserve_quantize_registry.py` 441-498. -/
def CPBuilt.call (b : CPBuilt α) (cfg : QCfg) (training flag : Bool) (s : CPState α) :
    Option (QTensor α × CPState α) :=
  (b.prepare training flag s).bind fun p =>
    (QKind.lastValue.call cfg p.2.vars training ⟨b.shape, p.1⟩).map fun r =>
      (r.1, { p.2 with vars := r.2 })

/-- What happens to a layer: a call (with the value of `preserve_sparsity` at that time), or an optimizer
step.  When the layer is clustered the kernel variable is not part of the computation (it is only
assigned to), so only the original weights and the centroids get gradients; otherwise only the kernel
exists. -/
inductive CPEvent (α : Type*) where
  | call (training flag : Bool)
  | optimizer (orig : ℕ → α) (cents : ℕ → ℕ → α) (kernel : ℕ → α)

/-- One event; the output if it is a call. -/
def CPBuilt.step (b : CPBuilt α) (cfg : QCfg) (s : CPState α) :
    CPEvent α → Option (List (QTensor α) × CPState α)
  | .call training flag => (b.call cfg training flag s).map fun r => ([r.1], r.2)
  | .optimizer orig cents kernel =>
    if b.active then
      some ([], { s with
        orig := s.orig.mapIdx fun i _ => orig i
        cents := s.cents.mapIdx fun r row => row.mapIdx fun j _ => cents r j })
    else some ([], { s with kernel := s.kernel.mapIdx fun i _ => kernel i })

/-- A history of events: all outputs and the final state. -/
def CPBuilt.run (b : CPBuilt α) (cfg : QCfg) : CPState α → List (CPEvent α) →
    Option (List (QTensor α) × CPState α)
  | s, [] => some ([], s)
  | s, e :: rest =>
    (b.step cfg s e).bind fun r => (b.run cfg r.2 rest).map fun q => (r.1 ++ q.1, q.2)

/-- Building all layers that share one quantizer object (`_config_quantizer_map`,
`cluster_preserve_quantize_registry.py` 190-196) in order. -/
def CPBuildAll (cfg : QCfg) (isConv : Bool) : Bool → List (QTensor α) →
    Bool × List (CPBuilt α × CPState α)
  | flag, [] => (flag, [])
  | flag, t :: ts =>
    let r := CPBuild cfg isConv flag t
    let q := CPBuildAll cfg isConv r.1 ts
    (q.1, r.2 :: q.2)

end Verif.Quant
