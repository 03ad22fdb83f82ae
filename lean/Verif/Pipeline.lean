import Verif.Sparsity.Wrapper
import Verif.Clustering.Wrapper
import Verif.Quant.Preserve

/-!
# Collaborative optimization: one kernel through several tools

The documented workflow: `prune_low_magnitude`, `fit`, `strip_pruning`; `cluster_weights` with
`preserve_sparsity`, `fit`, `strip_clustering`; `quantize_apply` with the prune-preserving
(`collab_opts/prune_preserve/`) or the cluster-preserving (`collab_opts/cluster_preserve/`) scheme,
`fit`.  Each tool starts from the kernel the previous one leaves in the model; nothing but the kernel is
handed over.
-/

namespace Verif.Pipeline

variable {α : Type*} [Field α] [LinearOrder α] [IsStrictOrderedRing α] [FloorRing α]

/-- The kernel in the model that `strip_clustering` returns (`clustering/keras/cluster.py` 335-368),
when the wrapper was built with `preserve_sparsity` for a layer with the kernel `ws`
(`cluster_wrapper.py` 183-275) and `es` happened since.  `init` is the centroid initialization of one
interval (`clustering_centroids.py`), `n` the number of clusters.  Not clustered per channel. -/
def strippedKernel (init : Clustering.IntervalInit α) (n : ℕ) (ws : List α)
    (es : List (Clustering.CEvent ℕ α)) : List α :=
  (List.range ws.length).map
    (Clustering.CState.run true (fun _ => 0) (fun p => ws.getD p 0)
      (fun _ => Clustering.zeroCentroids init n ws) (es ++ [.call])).kernel

/-- The model after training has ended: `UpdatePruningStep.on_epoch_end` has run
(`pruning_callbacks.py` 67-79).  `strip_pruning` (`prune.py` 216-262) returns the wrapped layers
themselves, so the kernels are those of this state. -/
def pruned (m : Sparsity.PModel α) (hist : List (Sparsity.PEvent α)) : Sparsity.PModel α :=
  (Sparsity.pStep (Sparsity.pRun m hist) .epochEnd).1

/-- The outputs of the quantized kernel and the final state under cluster-preserving quantization
(`cluster_preserve_quantize_registry.py` 310-498), started from the kernel `k`. -/
def pcqat (cfg : Quant.QCfg) (isConv : Bool) (shape : List ℕ) (k : List α)
    (evs : List (Quant.CPEvent α)) : Option (List (Quant.QTensor α) × Quant.CPState α) :=
  (Quant.CPBuild cfg isConv true ⟨shape, k⟩).2.1.run cfg
    (Quant.CPBuild cfg isConv true ⟨shape, k⟩).2.2 evs

/-- The outputs of the quantized kernel under prune-preserving quantization
(`prune_preserve_quantize_registry.py` 259-305), started from the kernel `k`. -/
def pqat (cfg : Quant.QCfg) (shape : List ℕ) (k : List α) (calls : List (Bool × Quant.QTensor α)) :
    Option (List (Quant.QTensor α) × Quant.RangeVars α) :=
  Quant.prunePreserveHistory cfg ⟨shape, k⟩ calls

end Verif.Pipeline
