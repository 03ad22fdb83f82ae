import Verif.Prelude
import Mathlib.Data.Fin.VecNotation

/-!
# Clustering: assignment, gather and gradients

`clustering/keras/clustering_algorithm.py`.  Tensors are flat lists for `ClusteringAlgorithm`
(the code only broadcasts over the last axis, so the shape is irrelevant) and rank-4 tensors for
`ClusteringAlgorithmPerChannel`.
-/

namespace Verif.Clustering

variable {α : Type*} [Field α] [LinearOrder α] [IsStrictOrderedRing α]

/-- `tf.argmin`: position of the first minimum. -/
def argmin : List α → ℕ
  | [] => 0
  | x :: xs => if xs.all fun y => decide (x ≤ y) then 0 else argmin xs + 1

/-- `tf.sign`. -/
def sgn (x : α) : α := if 0 < x then 1 else if x < 0 then -1 else 0

/-- `get_pulling_indices` for one weight, `clustering_algorithm.py` 132-139. -/
def pullingIndex (cs : List α) (w : α) : ℕ := argmin (cs.map fun c => |w - c|)

/-- `get_pulling_indices`, `clustering_algorithm.py` 110-139. -/
def pullingIndices (cs : List α) (ws : List α) : List ℕ := ws.map (pullingIndex cs)

/-- `add_gradient_to_original_weight` for one entry, forward value; `clustering_algorithm.py`
101-102. -/
def addGradient (clustered orig : α) : α := clustered * sgn (orig + 1000000)

/-- `get_clustered_weight` for one entry, forward value, `clustering_algorithm.py` 183-194:
gather, then `add_gradient_to_original_weight`.  (The aggregation mode does not change the forward
value.) -/
def clusteredEntry (cs : List α) (i : ℕ) (w : α) : α := addGradient (cs.getD i 0) w

/-- `get_clustered_weight`, forward value. -/
def clusteredWeight (cs : List α) (idx : List ℕ) (ws : List α) : List α :=
  List.zipWith (clusteredEntry cs) idx ws

/-! ## Backward pass -/

/-- `GradientAggregation`, `cluster_config.py` 40-50. -/
inductive Aggregation where
  | sum
  | avg
  deriving DecidableEq, Repr

/-- Gradient of `tf.gather` with respect to the table: entry `j` collects the gradients of the
positions that were gathered from `j` (TensorFlow's `UnsortedSegmentSum`). -/
def segmentSum (n : ℕ) (idx : List ℕ) (g : List α) : List α :=
  (List.range n).map fun j => (((idx.zip g).filter fun p => p.1 == j).map (·.2)).sum

/-- `tf.math.bincount(arr, minlength=n)` for indices below `n`. -/
def bincount (n : ℕ) (idx : List ℕ) : List ℕ := (List.range n).map fun j => idx.count j

/-- `tf.math.divide_no_nan`. -/
def divideNoNan (a b : α) : α := if b = 0 then 0 else a / b

/-- The gradient with respect to `clustered_weight` and `original_weight` of
`add_gradient_to_original_weight`, `clustering_algorithm.py` 104-106: the incoming gradient, twice. -/
def addGradientBackward (g : List α) : List α × List α := (g, g)

/-- The gradient reaching `self.cluster_centroids` and `original_weight` when the clustered weight
receives the gradient `g`: `get_clustered_weight` with `average_centroids_gradient_by_cluster_size`
(`clustering_algorithm.py` 66-79, 162-194). -/
def backward (agg : Aggregation) (n : ℕ) (idx : List ℕ) (g : List α) : List α × List α :=
  let (dClustered, dOriginal) := addGradientBackward g
  let dCentroids := segmentSum n idx dClustered
  match agg with
  | .sum => (dCentroids, dOriginal)
  | .avg => (List.zipWith (fun d (k : ℕ) => divideNoNan d (k : α)) dCentroids (bincount n idx),
      dOriginal)

/-! ## Per-channel clustering of rank-4 kernels -/

/-- A rank-4 tensor; `val` is only meaningful inside `shape`. -/
structure T4 (β : Type*) where
  shape : Fin 4 → ℕ
  val : (Fin 4 → ℕ) → β

/-- The position of `m` in the permutation `p`. -/
def permInv (p : Fin 4 → Fin 4) (m : Fin 4) : Fin 4 :=
  if p 0 = m then 0 else if p 1 = m then 1 else if p 2 = m then 2 else 3

/-- `tf.transpose(t, perm=p)`: output axis `k` is input axis `p k`. -/
def T4.transpose {β : Type*} (t : T4 β) (p : Fin 4 → Fin 4) : T4 β where
  shape k := t.shape (p k)
  val i := t.val fun m => i (permInv p m)

inductive DataFormat where
  | channelsFirst
  | channelsLast
  deriving DecidableEq, Repr

/-- The axis the code takes for the channel axis: 1 for `channels_first`, -1 otherwise
(`clustering_algorithm.py` 216-217, 260-262; `clustering_centroids.py` 65-68;
`cluster_wrapper.py` 210-213). -/
def channelAxis : DataFormat → Fin 4
  | .channelsFirst => 1
  | .channelsLast => 3

/-- `tf.convert_to_tensor([f(weight[:, c, :, :] or weight[:, :, :, c]) for c in range(C)])`: the
slices stacked along a new first axis. -/
def stackChannels {β γ : Type*} (df : DataFormat) (w : T4 β) (f : ℕ → β → γ) : T4 γ where
  shape := match df with
    | .channelsFirst => ![w.shape 1, w.shape 0, w.shape 2, w.shape 3]
    | .channelsLast => ![w.shape 3, w.shape 0, w.shape 1, w.shape 2]
  val i := match df with
    | .channelsFirst => f (i 0) (w.val ![i 1, i 0, i 2, i 3])
    | .channelsLast => f (i 0) (w.val ![i 1, i 2, i 3, i 0])

/-- The permutation that moves the first axis back to the channel axis:
`(1, 0, 2, 3)` / `(1, 2, 3, 0)`, `clustering_algorithm.py` 231-234, 305-308. -/
def unstackPerm : DataFormat → Fin 4 → Fin 4
  | .channelsFirst => ![1, 0, 2, 3]
  | .channelsLast => ![1, 2, 3, 0]

/-- The permutation that moves the channel axis to the front: `(1, 0, 2, 3)` / `(3, 0, 1, 2)`,
`clustering_algorithm.py` 268-272. -/
def stackPerm : DataFormat → Fin 4 → Fin 4
  | .channelsFirst => ![1, 0, 2, 3]
  | .channelsLast => ![3, 0, 1, 2]

/-- `ClusteringAlgorithmPerChannel.get_pulling_indices`, `clustering_algorithm.py` 200-236. -/
def pullingPerChannel (df : DataFormat) (cs : List (List α)) (w : T4 α) : T4 ℕ :=
  (stackChannels df w fun c x => pullingIndex (cs.getD c []) x).transpose (unstackPerm df)

/-- `ClusteringAlgorithmPerChannel.get_clustered_weight`, forward value,
`clustering_algorithm.py` 238-318. -/
def clusteredPerChannel (df : DataFormat) (cs : List (List α)) (idx : T4 ℕ) (w : T4 α) : T4 α :=
  let idx' := idx.transpose (stackPerm df)
  let gathered : T4 α := ⟨idx'.shape, fun i => (cs.getD (i 0) []).getD (idx'.val i) 0⟩
  let back := gathered.transpose (unstackPerm df)
  ⟨back.shape, fun i => addGradient (back.val i) (w.val i)⟩

end Verif.Clustering
