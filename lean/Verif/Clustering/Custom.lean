import Verif.Clustering.Wrapper

/-!
# Clustering: layers that bring their own clustering algorithm

`clustering/keras/clusterable_layer.py`, `ClusteringLookupRegistry` in
`clustering/keras/clustering_registry.py` (28-58) and the parts of
`clustering/keras/cluster_wrapper.py` that use the algorithm.

A `ClusterableLayer` can return a class for a weight, whose `get_pulling_indices` is the user's; the
other methods are those of `ClusteringAlgorithm`, as `clusterable_layer.py` 49-66 wants it.  Here
tensors are lists of their entries, because the user's function may look at the whole tensor and may
return anything.

Simplified: tensors that do not have the same number of entries do not fit together (broadcasting is
left out); an index out of range is an exception, as on a CPU; negative indices, which are out of
range too, are left out.
-/

namespace Verif.Clustering

variable {α : Type*} [Field α] [LinearOrder α] [IsStrictOrderedRing α]

/-- `get_pulling_indices` of an algorithm: a function of the centroids and of the weight. -/
abbrev Pull (α : Type*) := List α → List α → List ℕ

/-- A layer as the lookup sees it.  `method` is its attribute `get_clusterable_algorithm`: absent, or
a method that may return `None`. -/
structure CustomLayer (α : Type*) where
  conv2D : Bool
  clusterableLayer : Bool
  method : Option (String → Option (Pull α))

/-- The algorithms the lookup can return. -/
inductive Impl (α : Type*) where
  | perChannel
  | standard
  | own (f : Pull α)

/-- `ClusteringLookupRegistry.get_clustering_impl`, `clustering_registry.py` 31-58. -/
def clusteringImpl (l : CustomLayer α) (name : String) (perChannel : Bool) : Impl α :=
  if perChannel && l.conv2D then .perChannel
  else if l.clusterableLayer then
    match l.method with
    | none => .standard
    | some m =>
      match m name with
      | some f => .own f
      | none => .standard
  else .standard

/-- The `get_pulling_indices` of an algorithm other than the per-channel one (which
`Algorithm.lean` models). -/
def Impl.pull : Impl α → Pull α
  | .own f => f
  | _ => pullingIndices

/-- The variables a wrapper has for one weight (`cluster_wrapper.py` 118-143), its algorithm, and the
tensor that is put in place of the weight. -/
structure PWeight (α : Type*) where
  name : String
  pull : Pull α
  orig : List α
  cents : List α
  mask : List α
  zeroIdx : ℕ
  pulling : List ℕ
  kernel : List α

/-- `get_clustered_weight`, `clustering_algorithm.py` 141-194, forward value, for arbitrary indices;
`none` = an exception. -/
def gatherWeight (cs : List α) (idx : List ℕ) (ws : List α) : Option (List α) :=
  if idx.all (fun i => decide (i < cs.length)) && decide (idx.length = ws.length) then
    some (clusteredWeight cs idx ws)
  else none

/-- One turn of the loop of `build`, `cluster_wrapper.py` 188-275, without per-channel clustering;
`c0` are the initial centroids.  The clustered weights are computed only to make the mask. -/
def PWeight.build (ps : Bool) (l : CustomLayer α) (c0 : List α) (name : String) (w0 : List α) :
    Option (PWeight α) :=
  let pull := (clusteringImpl l name false).pull
  let idx := pull c0 w0
  if ps then
    match gatherWeight c0 idx w0 with
    | none => none
    | some ws => some ⟨name, pull, w0, c0, ws.map fun x => if x ≠ 0 then 1 else 0,
        argmin (c0.map fun x => |x|), idx, w0⟩
  else some ⟨name, pull, w0, c0, [], 0, idx, w0⟩

/-- One turn of the loop of `update_clustered_weights_associations`, `cluster_wrapper.py` 277-326.
The indices are assigned to a variable with the shape they had in `build`. -/
def PWeight.update (ps : Bool) (s : PWeight α) : Option (PWeight α) :=
  let cents := if ps then resetZero s.cents s.zeroIdx else s.cents
  let w := if ps then List.zipWith (· * ·) s.orig s.mask else s.orig
  let idx := s.pull cents w
  if idx.length = s.pulling.length then
    match gatherWeight cents idx w with
    | none => none
    | some k => some { s with cents := cents, pulling := idx, kernel := k }
  else none

/-- `build` of a wrapper around a layer with the given clusterable weights; `c0` gives the initial
centroids of every weight. -/
def customBuild (ps : Bool) (l : CustomLayer α) (c0 : String → List α) :
    List (String × List α) → Option (List (PWeight α))
  | [] => some []
  | (n, w) :: rest =>
    match PWeight.build ps l (c0 n) n w with
    | none => none
    | some s => (customBuild ps l c0 rest).map (s :: ·)

/-- A forward pass, `cluster_wrapper.py` 328-332: the loop over the weights. -/
def customCall (ps : Bool) : List (PWeight α) → Option (List (PWeight α))
  | [] => some []
  | s :: rest =>
    match s.update ps with
    | none => none
    | some s' => (customCall ps rest).map (s' :: ·)

/-- What can happen to a built wrapper. -/
inductive PEvent (α : Type*) where
  | call
  /-- an optimizer step or loading weights: the original weights and the centroids get arbitrary
  values -/
  | assign (origs cents : String → ℕ → α)

/-- Effect of an event; `none` = an exception. -/
def customStep (ps : Bool) (s : List (PWeight α)) : PEvent α → Option (List (PWeight α))
  | .call => customCall ps s
  | .assign os cs => some (s.map fun w => { w with
      orig := (List.range w.orig.length).map (os w.name)
      cents := (List.range w.cents.length).map (cs w.name) })

/-- A history, as long as there is no exception. -/
def customRun (ps : Bool) : List (PEvent α) → List (PWeight α) → Option (List (PWeight α))
  | [], s => some s
  | e :: es, s =>
    match customStep ps s e with
    | none => none
    | some s' => customRun ps es s'

/-- `strip_clustering`, `cluster.py` 347-368: the associations are updated, and the clustered tensors
become the weights. -/
def customStrip (ps : Bool) (s : List (PWeight α)) : Option (List (String × List α)) :=
  (customCall ps s).map fun s' => s'.map fun w => (w.name, w.kernel)

end Verif.Clustering
