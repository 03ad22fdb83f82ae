import Verif.Clustering.Algorithm

/-!
# Clustering: centroid initialisation

`clustering/keras/clustering_centroids.py`.  Weights of an interval are flat lists.
-/

namespace Verif.Clustering

variable {α : Type*} [Field α] [LinearOrder α] [IsStrictOrderedRing α] [FloorRing α]

/-- `tf.reduce_min` of a non-empty tensor (the empty case is never reached with a positive number of
clusters, see `C24_no_empty_interval`). -/
def reduceMin : List α → α
  | [] => 0
  | x :: xs => xs.foldl min x

/-- `tf.reduce_max` of a non-empty tensor. -/
def reduceMax : List α → α
  | [] => 0
  | x :: xs => xs.foldl max x

/-- `tf.linspace(start, stop, num)`. -/
def linspace (start stop : α) (num : ℕ) : List α :=
  (List.range num).map fun (i : ℕ) =>
    if num ≤ 1 then start else start + (i : α) * ((stop - start) / ((num : α) - 1))

/-- An implementation of `_calculate_centroids_for_interval(weight_interval, number)`. -/
abbrev IntervalInit (α : Type*) := List α → ℤ → List α

/-- `LinearCentroidsInitialisation`, `clustering_centroids.py` 209-223. -/
def linearInit : IntervalInit α := fun ws n =>
  if n ≤ 0 then [] else linspace (reduceMin ws) (reduceMax ws) n.toNat

/-- `RandomCentroidsInitialisation`, `clustering_centroids.py` 245-257; `u` are the uniform draws
from [0, 1). -/
def randomInit (u : ℕ → α) : IntervalInit α := fun ws n =>
  (List.range n.toNat).map fun i => reduceMin ws + u i * (reduceMax ws - reduceMin ws)

/-- `TFLinearEquationSolver`, `clustering_centroids.py` 260-294. -/
structure LineSolver (α : Type*) where
  a : α
  b : α

/-- Constructor, lines 266-275. -/
def LineSolver.new (x1 y1 x2 y2 : α) : LineSolver α where
  a := (y2 - y1) / max (x2 - x1) (1 / 1000)
  b := y1 - x1 * ((y2 - y1) / max (x2 - x1) (1 / 1000))

/-- `solve_for_x`, line 284. -/
def LineSolver.solveForX (s : LineSolver α) (y : α) : α := (y - s.b) / s.a

/-- `TFCumulativeDistributionFunction.get_cdf_value`, `clustering_centroids.py` 303-306. -/
def cdfValue (ws : List α) (x : α) : α :=
  ((ws.filter fun w => decide (w ≤ x)).length : α) / (ws.length : α)

/-- `tf.searchsorted(seq, v, side='right')` for a sorted sequence: number of entries `≤ v`. -/
def searchsortedRight (seq : List α) (v : α) : ℕ :=
  (seq.takeWhile fun s => decide (s ≤ v)).length

/-- `get_single_centroid`, `clustering_centroids.py` 342-362. -/
def singleCentroid (grid cdf : List α) (i : ℕ) : α :=
  let iClipped := min i (cdf.length - 1)
  let iPrevious := iClipped - 1
  let x1 := grid.getD iClipped 0
  let x2 := grid.getD iPrevious 0
  let y1 := cdf.getD iClipped 0
  let y2 := cdf.getD iPrevious 0
  if y2 = y1 then x1 else (LineSolver.new x1 y1 x2 y2).solveForX y1

/-- The gap on either side of the interval, `clustering_centroids.py` 379-381. -/
def densityGap (preserveSparsity : Bool) (ws : List α) : α :=
  if preserveSparsity then min (1 / 100) (min |reduceMin ws| |reduceMax ws| / 2) else 1 / 100

/-- The evaluation grid, `clustering_centroids.py` 390-391. -/
def densityGrid (preserveSparsity : Bool) (ws : List α) : List α :=
  linspace (reduceMin ws - densityGap preserveSparsity ws)
    (reduceMax ws + densityGap preserveSparsity ws) 30

/-- `DensityBasedCentroidsInitialisation._calculate_centroids_for_interval`,
`clustering_centroids.py` 368-406. -/
def densityInit (preserveSparsity : Bool) : IntervalInit α := fun ws n =>
  if n ≤ 0 then []
  else
    let grid := densityGrid preserveSparsity ws
    let cdf := grid.map (cdfValue ws)
    let probabilities := linspace (1 / 100) 1 n.toNat
    probabilities.map fun p => singleCentroid grid cdf (searchsortedRight cdf p)

/-- `_regular_clustering`, `clustering_centroids.py` 76-81. -/
def regularCentroids (init : IntervalInit α) (numberOfClusters : ℤ) (ws : List α) : List α :=
  init ws numberOfClusters

/-- `_zero_centroid_initialization`, `clustering_centroids.py` 97-166. -/
def zeroCentroids (init : IntervalInit α) (numberOfClusters : ℤ) (ws : List α) : List α :=
  let negative := ws.filter fun w => decide (w < 0)
  let positive := ws.filter fun w => decide (0 < w)
  let nonZero := negative.length + positive.length
  if nonZero = 0 then [0]
  else
    let k := numberOfClusters - 1
    let ratio : α := (negative.length : α) / (nonZero : α)
    let nNeg : ℤ := roundHalfEven ((k : α) * ratio)
    let nPos : ℤ := k - nNeg
    init negative nNeg ++ [0] ++ init positive nPos

/-- `tf.convert_to_tensor` of a list of vectors: they must have equal lengths. -/
def toTensor (rows : List (List α)) : Option (List (List α)) :=
  match rows with
  | [] => some []
  | r :: rs => if rs.all fun r' => decide (r'.length = r.length) then some (r :: rs) else none

/-- `get_cluster_centroids`, `clustering_centroids.py` 194-206, for one channel list (`channels` has
the weights of every channel; not per channel = one "channel" holding all weights), with
`_per_channel_clustering` (83-95) and `_per_channel_zero_centroid_initialization` (168-192). -/
def clusterCentroids (init : IntervalInit α) (preserveSparsity : Bool) (numberOfClusters : ℤ)
    (channels : List (List α)) : Option (List (List α)) :=
  toTensor (channels.map fun ws =>
    if preserveSparsity then zeroCentroids init numberOfClusters ws
    else regularCentroids init numberOfClusters ws)

end Verif.Clustering
