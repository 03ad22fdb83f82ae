import Mathlib.Analysis.SpecialFunctions.Pow.Real
import Mathlib.Data.Matrix.Mul
import Mathlib.Data.Real.Basic
import Verif.Clustering.Algorithm

/-!
# Model of the weight compression algorithms

  /repo/tensorflow_model_optimization/python/core/common/keras/compression/
    schedules.py
    algorithms/periodical_update_and_scheduling.py
    algorithms/same_training_and_inference.py, different_training_and_inference.py
    algorithms/weight_clustering.py, bias_only.py, epr.py

Numbers are real numbers.
-/

namespace Verif.Compression

/-! ## `schedules.py` -/

/-- The `dtype` of the result: a float type or an integer type. -/
inductive DType where
  | float
  | int
deriving DecidableEq, Repr

/-- `tf.cast` of a real number: to an integer type it drops the fractional part. -/
noncomputable def castTo : DType → ℝ → ℝ
  | .float, x => x
  | .int, x => if 0 ≤ x then ((⌊x⌋ : ℤ) : ℝ) else ((⌈x⌉ : ℤ) : ℝ)

/-- `PolynomialDecay`, schedules.py lines 40-122. -/
structure Decay where
  startValue : ℝ
  decaySteps : ℤ
  endValue : ℝ
  beginStep : ℤ
  exponent : ℝ
  dtype : DType

/-- `_during_decay`, lines 107-122; `none` is the `0/0` (or another division by zero) of the
quotient. -/
noncomputable def Decay.during (d : Decay) (step : ℤ) : Option ℝ :=
  if d.decaySteps = 0 then none
  else
    some (d.endValue + castTo d.dtype ((d.startValue - d.endValue) *
      (1 - ((step - d.beginStep : ℤ) : ℝ) / (d.decaySteps : ℝ)) ^ d.exponent))

/-- `__call__` and `_after_begin_step`, lines 91-105. -/
noncomputable def Decay.call (d : Decay) (step : ℤ) : Option ℝ :=
  if step < d.beginStep then some (castTo d.dtype d.startValue)
  else if d.beginStep + d.decaySteps < step then some (castTo d.dtype d.endValue)
  else d.during step

/-! ## The SVD algorithms -/

/-- The rank of periodical_update_and_scheduling.py lines 62-72: the integer quotient is the
truncation of the float quotient by `tf.cast`. -/
def scheduledRank (full target warmup step : ℕ) : ℕ :=
  min (if step < warmup then (full * (warmup - step) + target * step) / warmup else target) full

open Matrix in
/-- The contract of `tf.linalg.svd` for a matrix: `s` are the singular values. -/
structure IsSvd {m n k : ℕ} (w : Matrix (Fin m) (Fin n) ℝ) (s : Fin k → ℝ)
    (u : Matrix (Fin m) (Fin k) ℝ) (v : Matrix (Fin n) (Fin k) ℝ) : Prop where
  product : w = u * diagonal s * vᵀ
  left : uᵀ * u = 1
  right : vᵀ * v = 1
  sorted : Antitone s
  nonneg : ∀ i, 0 ≤ s i

/-- The number of columns a slice `[:rank]` keeps. -/
def kept (rank k : ℕ) : ℕ := min rank k

/-- The embedding of the columns that are kept. -/
def keep (rank k : ℕ) : Fin (kept rank k) → Fin k := Fin.castLE (Nat.min_le_right rank k)

open Matrix in
/-- `compress_training_weights`, periodical_update_and_scheduling.py lines 98-117 and
different_training_and_inference.py lines 50-68, after the decomposition: `[u, sv]`.  The kernel of
a `Conv2D` is a family of matrices, one for each position, and is compressed one by one. -/
noncomputable def svdCompress {m n k : ℕ} (rank : ℕ) (s : Fin k → ℝ) (u : Matrix (Fin m) (Fin k) ℝ)
    (v : Matrix (Fin n) (Fin k) ℝ) :
    Matrix (Fin m) (Fin (kept rank k)) ℝ × Matrix (Fin (kept rank k)) (Fin n) ℝ :=
  (u.submatrix id (keep rank k),
    diagonal (fun i => s (keep rank k i)) * (v.submatrix id (keep rank k))ᵀ)

/-- `decompress_weights`, `tf.matmul(u, sv)`. -/
noncomputable def svdDecompress {m n r : ℕ} (c : Matrix (Fin m) (Fin r) ℝ × Matrix (Fin r) (Fin n) ℝ) :
    Matrix (Fin m) (Fin n) ℝ := c.1 * c.2

/-- The state of a weight under the periodic algorithm: the variables `w` and `step`. -/
structure Periodic (m n : ℕ) where
  w : Matrix (Fin m) (Fin n) ℝ
  step : ℕ

/-- A singular value decomposition for every matrix (`tf.linalg.svd`). -/
structure Svd (m n : ℕ) where
  s : Matrix (Fin m) (Fin n) ℝ → Fin (min m n) → ℝ
  u : Matrix (Fin m) (Fin n) ℝ → Matrix (Fin m) (Fin (min m n)) ℝ
  v : Matrix (Fin m) (Fin n) ℝ → Matrix (Fin n) (Fin (min m n)) ℝ

/-- `project_training_weights`, periodical_update_and_scheduling.py lines 60-96: the weight used in
the forward pass (the old one) and the variables after the update ops. -/
noncomputable def project {m n : ℕ} (svd : Svd m n) (rank freq warmup : ℕ) (st : Periodic m n) :
    Matrix (Fin m) (Fin n) ℝ × Periodic m n :=
  (st.w,
    { step := st.step + 1
      w := if st.step % freq = 0 then
          svdDecompress (svdCompress (scheduledRank (min m n) rank warmup st.step)
            (svd.s st.w) (svd.u st.w) (svd.v st.w))
        else st.w })

/-! ## Weight clustering -/

section Clustering
variable {α : Type*} [Field α] [LinearOrder α] [IsStrictOrderedRing α]

/-- `WeightClustering.init_training_weights`, weight_clustering.py lines 57-95, for given centroids
(see Clustering/Centroids for their initialization): the variables `cluster_centroids` and
`pulling_indices`. -/
def clusterInit (centroids : List α) (weights : List α) : List α × List ℕ :=
  (centroids, Clustering.pullingIndices centroids weights)

/-- `decompress_weights` and `project_training_weights`, weight_clustering.py lines 97-108:
`tf.gather` (an index outside the table cannot occur). -/
def clusterDecompress (c : List α × List ℕ) : List α := c.2.map fun i => c.1.getD i 0

end Clustering

/-! ## Bias only -/

/-- `BiasOnly.init_training_weights`, bias_only.py lines 35-57: `bias_mean` and `bias_shape`. -/
noncomputable def biasInit (bias : List ℝ) : ℝ × ℕ := (bias.sum / bias.length, bias.length)

/-- `BiasOnly.decompress_weights`, bias_only.py lines 59-65. -/
noncomputable def biasDecompress (c : ℝ × ℕ) : List ℝ := List.replicate c.2 c.1

/-! ## Entropy penalized reparameterization of biases and dense kernels -/

/-- What `compress_training_weights` of `FastEPR` returns (epr.py lines 303-321): the entropy coder
stores the rounded quotients without loss, the shape is cast to `uint16` and the logarithm of the
step to `float16`. -/
structure EprCompressed where
  symbols : List ℤ
  shape : List ℕ
  logStep : ℝ

/-- `project_training_weights`: `_transform_dense_weight(..., quantized=False)`, epr.py lines 42-51.
`round` is `tfc.round_st`. -/
noncomputable def eprProject (round : ℝ → ℤ) (w : List ℝ) (logStep : ℝ) : List ℝ :=
  w.map fun x => (round (x / Real.exp logStep) : ℝ) * Real.exp logStep

/-- `compress_training_weights`, epr.py lines 303-321; `half` rounds to `float16`. -/
noncomputable def eprCompress (round : ℝ → ℤ) (half : ℝ → ℝ) (w : List ℝ) (shape : List ℕ)
    (logStep : ℝ) : EprCompressed :=
  { symbols := w.map fun x => round (x / Real.exp logStep)
    shape := shape.map (· % 65536)
    logStep := half logStep }

/-- `decompress_weights`, epr.py lines 323-345, for biases and dense kernels: the entropy decoder
reads as many symbols as the shape says and fails if that is not the number of symbols stored. -/
noncomputable def eprDecompress (c : EprCompressed) : Option (List ℝ × List ℕ) :=
  if c.shape.prod = c.symbols.length then
    some (c.symbols.map fun (q : ℤ) => (q : ℝ) * Real.exp c.logStep, c.shape)
  else none

end Verif.Compression
