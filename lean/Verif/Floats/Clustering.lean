import Verif.Floats.Rounding
import Verif.Clustering.Wrapper

/-!
# Clustering in rounded arithmetic

`clustering/keras/clustering_algorithm.py` 94-194 and `clustering/keras/cluster_wrapper.py` 166-326, as in
`Verif/Clustering/Algorithm.lean` and `Verif/Clustering/Wrapper.lean`, with a rounding after every operation.
Comparisons, absolute values, signs, `argmin` and `gather` are exact.
-/

namespace Verif.Floats
open Verif.Clustering

variable {ι : Type*} {α : Type*} [Field α] [LinearOrder α] [IsStrictOrderedRing α] [FloorRing α]

/-- `get_pulling_indices` for one weight, `clustering_algorithm.py` 132-139. -/
def pullingIndexF (R : Rounding α) (cs : List α) (w : α) : ℕ := argmin (cs.map fun c => |R.rnd (w - c)|)

/-- `get_clustered_weight` for one entry, forward value, `clustering_algorithm.py` 101-102, 183-194. -/
def clusteredEntryF (R : Rounding α) (cs : List α) (i : ℕ) (w : α) : α :=
  R.rnd (cs.getD i 0 * sgn (R.rnd (w + 1000000)))

/-- `build`, `cluster_wrapper.py` 183-275. -/
def cBuildF (R : Rounding α) (ch : ι → ℕ) (w0 : ι → α) (c0 : ℕ → List α) : CState ι α :=
  let pulling := fun p => pullingIndexF R (c0 (ch p)) (w0 p)
  let clustered := fun p => clusteredEntryF R (c0 (ch p)) (pulling p) (w0 p)
  { orig := w0
    cents := c0
    mask := fun p => if clustered p ≠ 0 then 1 else 0
    zeroIdx := fun c => argmin ((c0 c).map fun x => |x|)
    pulling := pulling
    kernel := w0 }

/-- `_get_zero_idx_mask` and `_get_zero_centroid`, `cluster_wrapper.py` 166-175. -/
def resetZeroF (R : Rounding α) (cs : List α) (z : ℕ) : List α :=
  cs.map fun c => R.rnd (c * (if c ≠ cs.getD z 0 then 1 else 0))

/-- `update_clustered_weights_associations`, `cluster_wrapper.py` 277-326. -/
def cUpdateF (R : Rounding α) (preserveSparsity : Bool) (ch : ι → ℕ) (s : CState ι α) : CState ι α :=
  let cents := if preserveSparsity then fun c => resetZeroF R (s.cents c) (s.zeroIdx c) else s.cents
  let w := if preserveSparsity then fun p => R.rnd (s.orig p * s.mask p) else s.orig
  let pulling := fun p => pullingIndexF R (cents (ch p)) (w p)
  { s with
    cents := cents
    pulling := pulling
    kernel := fun p => clusteredEntryF R (cents (ch p)) (pulling p) (w p) }

/-- Effect of an event; the optimizer assigns rounded numbers. -/
def cStepF (R : Rounding α) (preserveSparsity : Bool) (ch : ι → ℕ) (s : CState ι α) : CEvent ι α → CState ι α
  | .call => cUpdateF R preserveSparsity ch s
  | .assign o c =>
    { s with
      orig := fun p => R.rnd (o p)
      cents := fun k => (List.range (s.cents k).length).map fun i => R.rnd (c k i) }

/-- A history of events after `build`. -/
def cRunF (R : Rounding α) (preserveSparsity : Bool) (ch : ι → ℕ) (w0 : ι → α) (c0 : ℕ → List α)
    (es : List (CEvent ι α)) : CState ι α :=
  es.foldl (cStepF R preserveSparsity ch) (cBuildF R ch w0 c0)

end Verif.Floats
