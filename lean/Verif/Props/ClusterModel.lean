import Verif.Clustering.Model
import Mathlib.Data.List.Basic

/-!
# Properties C67 - C69: clustering whole models, deserialisation scope, registry consistency
-/

set_option linter.unusedSectionVars false
namespace Verif.Props
open Verif.Clustering

/-! ## Specification -/

mutual
/-- All non-model objects of a nested model, in depth-first order. -/
def Spec.cLeaves : CObj → List CObj
  | .input n => [.input n]
  | .layer n l => [.layer n l]
  | .wrapped c n w => [.wrapped c n w]
  | .model _ ls => Spec.cLeavesL ls
def Spec.cLeavesL : List CObj → List CObj
  | [] => []
  | x :: xs => Spec.cLeaves x ++ Spec.cLeavesL xs
end

mutual
/-- No clustering wrapper anywhere. -/
def Spec.CUnwrapped : CObj → Prop
  | .input _ => True
  | .layer _ _ => True
  | .wrapped _ _ _ => False
  | .model _ ls => Spec.CUnwrappedL ls
def Spec.CUnwrappedL : List CObj → Prop
  | [] => True
  | x :: xs => Spec.CUnwrapped x ∧ Spec.CUnwrappedL xs
end

/-- The documented wrapper of a layer: recurrent layers and attention get their own wrapper class and
are never clustered per channel; per-channel clustering applies to `Conv2D` only. -/
def Spec.wrapperFor (p : ClusterParams) (n : String) (l : CLayer) : CObj :=
  .wrapped (match l.kind with
      | .rnn => .clusterWeightsRNN | .mha => .clusterWeightsMHA
      | .conv2D => .clusterWeights | .other => .clusterWeights) n
    ⟨l, p.numberOfClusters, p.preserveSparsity, decide (l.kind = .conv2D) && p.perChannel⟩

/-- The only layers that may be skipped: convolutions found to be too small. -/
def Spec.skipped (p : ClusterParams) (l : CLayer) : Prop :=
  l.kind = .conv2D ∧ hasEnoughWeights l p.numberOfClusters p.perChannel = .ok false

/-- What clustering does to one leaf. -/
def Spec.ClusterLeaf (p : ClusterParams) : CObj → CObj → Prop
  | .layer n l, y => (Spec.skipped p l ∧ y = .layer n l) ∨ (¬ Spec.skipped p l ∧ l.clusterable = true ∧
      y = Spec.wrapperFor p n l)
  | x, y => y = x

/-! ## C67 -/

theorem Aux.new_ok {l : CLayer} {n : ℤ} {ps pc : Bool} {w : CWrapper}
    (h : CWrapper.new l (some n) ps pc = .ok w) :
    l.clusterable = true ∧ w = ⟨l, n, ps, decide (l.kind = .conv2D) && pc⟩ := by
  unfold CWrapper.new at h
  by_cases hc : l.clusterable = false
  · simp [hc] at h
  · rw [if_neg hc] at h
    dsimp only at h
    split_ifs at h with h1 h2 <;> simp only [Except.ok.injEq] at h <;> subst h <;>
      simp_all

theorem Aux.cluster_leaf {p : ClusterParams} {n : String} {l : CLayer} {y : CObj}
    (h : addClustering p (.layer n l) = .ok y) : Spec.ClusterLeaf p (.layer n l) y := by
  unfold addClustering at h
  simp only [Spec.ClusterLeaf]
  cases ha : addWrapper l p.numberOfClusters p.preserveSparsity p.perChannel with
  | error e => rw [ha] at h; simp at h
  | ok o =>
    rw [ha] at h
    cases o with
    | none =>
      simp only [Except.ok.injEq] at h
      refine .inl ⟨?_, h.symm⟩
      unfold addWrapper at ha
      split at ha
      · cases hn : CWrapper.new l (some p.numberOfClusters) p.preserveSparsity false <;>
          rw [hn] at ha <;> simp [Except.map] at ha
      · cases hn : CWrapper.new l (some p.numberOfClusters) p.preserveSparsity false <;>
          rw [hn] at ha <;> simp [Except.map] at ha
      · rename_i hk
        split at ha
        · simp at ha
        · rename_i hh; exact ⟨hk, hh⟩
        · cases hn : CWrapper.new l (some p.numberOfClusters) p.preserveSparsity p.perChannel <;>
            rw [hn] at ha <;> simp [Except.map] at ha
      · cases hn : CWrapper.new l (some p.numberOfClusters) p.preserveSparsity p.perChannel <;>
          rw [hn] at ha <;> simp [Except.map] at ha
    | some w =>
      simp only [Except.ok.injEq] at h
      subst h
      right
      unfold addWrapper at ha
      split at ha
      · rename_i hk
        cases hn : CWrapper.new l (some p.numberOfClusters) p.preserveSparsity false <;>
          rw [hn] at ha <;> simp only [Except.map, reduceCtorEq, Except.ok.injEq, Option.some.injEq] at ha
        subst ha
        obtain ⟨h1, h2⟩ := Aux.new_ok hn
        refine ⟨by simp [Spec.skipped, hk], h1, ?_⟩
        simp [Spec.wrapperFor, wrapperClass, hk, h2]
      · rename_i hk
        cases hn : CWrapper.new l (some p.numberOfClusters) p.preserveSparsity false <;>
          rw [hn] at ha <;> simp only [Except.map, reduceCtorEq, Except.ok.injEq, Option.some.injEq] at ha
        subst ha
        obtain ⟨h1, h2⟩ := Aux.new_ok hn
        refine ⟨by simp [Spec.skipped, hk], h1, ?_⟩
        simp [Spec.wrapperFor, wrapperClass, hk, h2]
      · rename_i hk
        split at ha
        · simp at ha
        · simp at ha
        · rename_i hh
          cases hn : CWrapper.new l (some p.numberOfClusters) p.preserveSparsity p.perChannel <;>
            rw [hn] at ha <;> simp only [Except.map, reduceCtorEq, Except.ok.injEq, Option.some.injEq] at ha
          subst ha
          obtain ⟨h1, h2⟩ := Aux.new_ok hn
          refine ⟨by simp [Spec.skipped, hh], h1, ?_⟩
          simp [Spec.wrapperFor, wrapperClass, hk, h2]
      · rename_i hk
        cases hn : CWrapper.new l (some p.numberOfClusters) p.preserveSparsity p.perChannel <;>
          rw [hn] at ha <;> simp only [Except.map, reduceCtorEq, Except.ok.injEq, Option.some.injEq] at ha
        subst ha
        obtain ⟨h1, h2⟩ := Aux.new_ok hn
        refine ⟨by simp [Spec.skipped, hk], h1, ?_⟩
        simp [Spec.wrapperFor, wrapperClass, hk, h2]

mutual
theorem Aux.cleaves_add (p : ClusterParams) (x x' : CObj) (h : addClustering p x = .ok x') :
    List.Forall₂ (Spec.ClusterLeaf p) (Spec.cLeaves x) (Spec.cLeaves x') := by
  cases x with
  | input n =>
    simp only [addClustering, Except.ok.injEq] at h; subst h
    simp [Spec.cLeaves, Spec.ClusterLeaf]
  | layer n l =>
    have hl := Aux.cluster_leaf h
    have hy : Spec.cLeaves x' = [x'] := by
      simp only [Spec.ClusterLeaf] at hl
      rcases hl with ⟨-, rfl⟩ | ⟨-, -, rfl⟩ <;> simp [Spec.cLeaves, Spec.wrapperFor]
    rw [hy]
    simpa [Spec.cLeaves] using hl
  | wrapped c n w =>
    simp only [addClustering, Except.ok.injEq] at h; subst h
    simp [Spec.cLeaves, Spec.ClusterLeaf]
  | model k ls =>
    simp only [addClustering] at h
    split_ifs at h
    split at h
    · simp at h
    · rename_i ls' hl
      simp only [Except.ok.injEq] at h
      subst h
      simpa [Spec.cLeaves] using Aux.cleaves_addL p ls ls' hl
theorem Aux.cleaves_addL (p : ClusterParams) (xs xs' : List CObj) (h : addClusteringL p xs = .ok xs') :
    List.Forall₂ (Spec.ClusterLeaf p) (Spec.cLeavesL xs) (Spec.cLeavesL xs') := by
  cases xs with
  | nil => simp only [addClusteringL, Except.ok.injEq] at h; subst h; simp [Spec.cLeavesL]
  | cons x xs =>
    simp only [addClusteringL] at h
    split at h
    · simp at h
    · rename_i x' hx
      split at h
      · simp at h
      · rename_i xs'' hxs
        simp only [Except.ok.injEq] at h
        subst h
        simp only [Spec.cLeavesL]
        exact List.rel_append (Aux.cleaves_add p x x' hx) (Aux.cleaves_addL p xs xs'' hxs)
end

mutual
theorem Aux.cadd_idem (p : ClusterParams) (x x' : CObj) (h : addClustering p x = .ok x') :
    addClustering p x' = .ok x' := by
  cases x with
  | input n => simp only [addClustering, Except.ok.injEq] at h; subst h; rfl
  | layer n l =>
    have hl := Aux.cluster_leaf h
    simp only [Spec.ClusterLeaf] at hl
    rcases hl with ⟨-, rfl⟩ | ⟨-, -, rfl⟩
    · exact h
    · simp [Spec.wrapperFor, addClustering]
  | wrapped c n w => simp only [addClustering, Except.ok.injEq] at h; subst h; rfl
  | model k ls =>
    simp only [addClustering] at h
    split_ifs at h with hk
    split at h
    · simp at h
    · rename_i ls' hl
      simp only [Except.ok.injEq] at h
      subst h
      simp only [addClustering, if_neg hk, Aux.cadd_idemL p ls ls' hl]
theorem Aux.cadd_idemL (p : ClusterParams) (xs xs' : List CObj) (h : addClusteringL p xs = .ok xs') :
    addClusteringL p xs' = .ok xs' := by
  cases xs with
  | nil => simp only [addClusteringL, Except.ok.injEq] at h; subst h; rfl
  | cons x xs =>
    simp only [addClusteringL] at h
    split at h
    · simp at h
    · rename_i x' hx
      split at h
      · simp at h
      · rename_i xs'' hxs
        simp only [Except.ok.injEq] at h
        subst h
        simp only [addClusteringL, Aux.cadd_idem p x x' hx, Aux.cadd_idemL p xs xs'' hxs]
end

mutual
theorem Aux.cstrip_add (p : ClusterParams) (x x' : CObj) (h : addClustering p x = .ok x') :
    stripClustering x' = stripClustering x := by
  cases x with
  | input n => simp only [addClustering, Except.ok.injEq] at h; subst h; rfl
  | layer n l =>
    have hl := Aux.cluster_leaf h
    simp only [Spec.ClusterLeaf] at hl
    rcases hl with ⟨-, rfl⟩ | ⟨-, -, rfl⟩
    · rfl
    · simp [Spec.wrapperFor, stripClustering]
  | wrapped c n w => simp only [addClustering, Except.ok.injEq] at h; subst h; rfl
  | model k ls =>
    simp only [addClustering] at h
    split_ifs at h
    split at h
    · simp at h
    · rename_i ls' hl
      simp only [Except.ok.injEq] at h
      subst h
      simp only [stripClustering, Aux.cstrip_addL p ls ls' hl]
theorem Aux.cstrip_addL (p : ClusterParams) (xs xs' : List CObj) (h : addClusteringL p xs = .ok xs') :
    stripClusteringL xs' = stripClusteringL xs := by
  cases xs with
  | nil => simp only [addClusteringL, Except.ok.injEq] at h; subst h; rfl
  | cons x xs =>
    simp only [addClusteringL] at h
    split at h
    · simp at h
    · rename_i x' hx
      split at h
      · simp at h
      · rename_i xs'' hxs
        simp only [Except.ok.injEq] at h
        subst h
        simp only [stripClusteringL, Aux.cstrip_add p x x' hx, Aux.cstrip_addL p xs xs'' hxs]
end

mutual
theorem Aux.cstrip_unwrapped (x : CObj) (h : Spec.CUnwrapped x) : stripClustering x = x := by
  cases x with
  | input n => rfl
  | layer n l => rfl
  | wrapped c n w => exact absurd h (by simp [Spec.CUnwrapped])
  | model k ls =>
    simp only [stripClustering]
    rw [Aux.cstrip_unwrappedL ls (by simpa [Spec.CUnwrapped] using h)]
theorem Aux.cstrip_unwrappedL (xs : List CObj) (h : Spec.CUnwrappedL xs) : stripClusteringL xs = xs := by
  cases xs with
  | nil => rfl
  | cons x xs =>
    simp only [Spec.CUnwrappedL] at h
    simp only [stripClusteringL]
    rw [Aux.cstrip_unwrapped x h.1, Aux.cstrip_unwrappedL xs h.2]
end

mutual
theorem Aux.cstrip_isUnwrapped (x : CObj) : Spec.CUnwrapped (stripClustering x) := by
  cases x with
  | input n => simp [stripClustering, Spec.CUnwrapped]
  | layer n l => simp [stripClustering, Spec.CUnwrapped]
  | wrapped c n w => simp [stripClustering, Spec.CUnwrapped]
  | model k ls => simpa [stripClustering, Spec.CUnwrapped] using Aux.cstrip_isUnwrappedL ls
theorem Aux.cstrip_isUnwrappedL (xs : List CObj) : Spec.CUnwrappedL (stripClusteringL xs) := by
  cases xs with
  | nil => simp [stripClusteringL, Spec.CUnwrappedL]
  | cons x xs =>
    simp only [stripClusteringL, Spec.CUnwrappedL]
    exact ⟨Aux.cstrip_isUnwrapped x, Aux.cstrip_isUnwrappedL xs⟩
end

/-- **C67 (which layers are wrapped).** If `cluster_weights(model)` succeeds, the leaves of the result
are those of the model in the same order; every plain layer is replaced by the documented wrapper
around it with the requested parameters, except convolutions that are too small, which stay; inputs
and existing wrappers (with *their* parameters) stay.  The result is again a model. -/
theorem C67_wraps_exactly (p : ClusterParams) (k : Bool) (ls : List CObj) (y : CObj)
    (h : clusterWeights p (.model k ls) = .ok y) :
    ∃ ls', y = .model k ls' ∧
      List.Forall₂ (Spec.ClusterLeaf p) (Spec.cLeaves (.model k ls)) (Spec.cLeaves (.model k ls')) := by
  unfold clusterWeights at h
  split_ifs at h
  have hl := Aux.cleaves_add _ _ _ h
  simp only [addClustering] at h
  split_ifs at h
  split at h
  · simp at h
  · simp only [Except.ok.injEq] at h
    subst h
    exact ⟨_, rfl, hl⟩

/-- **C67 (idempotent).** Clustering the result again with the same parameters changes nothing. -/
theorem C67_idempotent (p : ClusterParams) (o y : CObj) (h : clusterWeights p o = .ok y) :
    clusterWeights p y = .ok y := by
  unfold clusterWeights at h ⊢
  split_ifs at h ⊢
  exact Aux.cadd_idem _ _ _ h

/-- **C67 (strip inverts).** Stripping a clustered model gives back the original model structure,
provided the original contained no clustering wrappers. -/
theorem C67_strip_cluster (p : ClusterParams) (o y : CObj) (hu : Spec.CUnwrapped o)
    (h : clusterWeights p o = .ok y) : stripClustering y = o := by
  unfold clusterWeights at h
  split_ifs at h
  rw [Aux.cstrip_add _ _ _ h, Aux.cstrip_unwrapped _ hu]

/-- **C67 (strip).** After `strip_clustering` no wrapper is left, and it changes nothing on a model
without wrappers. -/
theorem C67_strip_clean (o : CObj) :
    Spec.CUnwrapped (stripClustering o) ∧ (Spec.CUnwrapped o → stripClustering o = o) :=
  ⟨Aux.cstrip_isUnwrapped o, Aux.cstrip_unwrapped o⟩

mutual
/-- Every layer not yet wrapped is supported, large enough information is available to decide about
convolutions, and no model is subclassed. -/
def Spec.Clusterable (p : ClusterParams) : CObj → Prop
  | .input _ => True
  | .wrapped _ _ _ => True
  | .layer _ l => Spec.skipped p l ∨
      (l.clusterable = true ∧ (l.kind = .conv2D →
        hasEnoughWeights l p.numberOfClusters p.perChannel = .ok true))
  | .model k ls => k = false ∧ Spec.ClusterableL p ls
def Spec.ClusterableL (p : ClusterParams) : List CObj → Prop
  | [] => True
  | x :: xs => Spec.Clusterable p x ∧ Spec.ClusterableL p xs
end

theorem Aux.new_isOk (l : CLayer) (n : ℤ) (ps pc : Bool) (hn : (if ps then 2 else 1) < n) :
    (∃ w, CWrapper.new l (some n) ps pc = .ok w) ↔ l.clusterable = true := by
  unfold CWrapper.new
  by_cases hc : l.clusterable = false
  · simp [hc]
  · rw [if_neg hc]
    have : ¬ (n ≤ if ps = true then 2 else 1) := by
      cases ps <;> simp_all
    simp only [this, if_false]
    simp_all

theorem Aux.map_some_ok {ε β : Type} (e : Except ε β) :
    (∃ o, e.map some = .ok o) ↔ ∃ w, e = .ok w := by
  cases e <;> simp [Except.map]

mutual
theorem Aux.cadd_succeeds (p : ClusterParams)
    (hn : (if p.preserveSparsity then 2 else 1) < p.numberOfClusters) (x : CObj) :
    (∃ x', addClustering p x = .ok x') ↔ Spec.Clusterable p x := by
  cases x with
  | input n => simp [addClustering, Spec.Clusterable]
  | wrapped c n w => simp [addClustering, Spec.Clusterable]
  | layer n l =>
    have key : (∃ x', addClustering p (.layer n l) = .ok x') ↔
        ∃ o, addWrapper l p.numberOfClusters p.preserveSparsity p.perChannel = .ok o := by
      simp only [addClustering]
      cases ha : addWrapper l p.numberOfClusters p.preserveSparsity p.perChannel with
      | error e => simp
      | ok o => cases o <;> simp
    rw [key]
    simp only [Spec.Clusterable, Spec.skipped]
    unfold addWrapper
    cases hk : l.kind with
    | rnn => simp only; rw [Aux.map_some_ok, Aux.new_isOk _ _ _ _ hn]; simp
    | mha => simp only; rw [Aux.map_some_ok, Aux.new_isOk _ _ _ _ hn]; simp
    | other => simp only; rw [Aux.map_some_ok, Aux.new_isOk _ _ _ _ hn]; simp
    | conv2D =>
      simp only
      cases hh : hasEnoughWeights l p.numberOfClusters p.perChannel with
      | error e => simp
      | ok b =>
        cases b with
        | false => simp
        | true => simp only; rw [Aux.map_some_ok, Aux.new_isOk _ _ _ _ hn]; simp
  | model k ls =>
    have ih := Aux.cadd_succeedsL p hn ls
    simp only [addClustering, Spec.Clusterable]
    cases k with
    | true => simp
    | false =>
      rw [← ih]
      cases h : addClusteringL p ls <;> simp
theorem Aux.cadd_succeedsL (p : ClusterParams)
    (hn : (if p.preserveSparsity then 2 else 1) < p.numberOfClusters) (xs : List CObj) :
    (∃ xs', addClusteringL p xs = .ok xs') ↔ Spec.ClusterableL p xs := by
  cases xs with
  | nil => simp [addClusteringL, Spec.ClusterableL]
  | cons x xs =>
    have h1 := Aux.cadd_succeeds p hn x
    have h2 := Aux.cadd_succeedsL p hn xs
    simp only [addClusteringL, Spec.ClusterableL, ← h1, ← h2]
    cases ha : addClustering p x with
    | error e => simp
    | ok x' =>
      cases hb : addClusteringL p xs with
      | error e => simp
      | ok xs' => simp
end

/-- The documented ways to initialise the cluster centroids (`cluster_config.py` `CentroidInitialization`). -/
def Spec.documentedInits : List String :=
  ["LINEAR", "RANDOM", "DENSITY_BASED", "KMEANS_PLUS_PLUS"].map ("CentroidInitialization." ++ ·)

mutual
theorem Aux.cadd_not_init (p : ClusterParams) : ∀ o : CObj, addClustering p o ≠ .error .badInit
  | .input n => by simp [addClustering]
  | .layer n l => by
    simp only [addClustering]
    split <;> simp
  | .wrapped c n w => by simp [addClustering]
  | .model sub ls => by
    have h := Aux.cadd_not_initL p ls
    simp only [addClustering]
    split_ifs
    · simp
    · cases hl : addClusteringL p ls with
      | error e => rw [hl] at h; simpa using h
      | ok ls' => simp
theorem Aux.cadd_not_initL (p : ClusterParams) : ∀ xs : List CObj, addClusteringL p xs ≠ .error .badInit
  | [] => by simp [addClusteringL]
  | x :: xs => by
    have h1 := Aux.cadd_not_init p x
    have h2 := Aux.cadd_not_initL p xs
    simp only [addClusteringL]
    cases ha : addClustering p x with
    | error e => rw [ha] at h1; simpa using h1
    | ok x' =>
      cases hb : addClusteringL p xs with
      | error e => rw [hb] at h2; simpa using h2
      | ok xs' => simp
end

/-- **C67 (initialisation).**  An initialisation is rejected exactly when it is not a documented one, whatever is to be
clustered. -/
theorem C67_init (p : ClusterParams) (o : CObj) :
    clusterWeights p o = .error .badInit ↔ p.init ∉ Spec.documentedInits := by
  have : Spec.documentedInits = supportedInits := by decide
  have h0 := Aux.cadd_not_init p o
  unfold clusterWeights
  rw [this]
  split_ifs with h <;> simp [h, h0]

/-- **C67 (success).** With valid parameters `cluster_weights` succeeds exactly when no (nested) model
is subclassed and every plain layer is either a too small convolution or supported. -/
theorem C67_succeeds_iff (p : ClusterParams) (o : CObj) (hi : p.init ∈ Spec.documentedInits)
    (hn : (if p.preserveSparsity then 2 else 1) < p.numberOfClusters) :
    (∃ y, clusterWeights p o = .ok y) ↔ Spec.Clusterable p o := by
  rw [← Aux.cadd_succeeds p hn o]
  rw [show Spec.documentedInits = supportedInits by decide] at hi
  simp [clusterWeights, hi]

namespace Example
/-- Parameters used in the examples. -/
def cparams : ClusterParams := ⟨4, "CentroidInitialization.LINEAR", false, false, .sum⟩
/-- A nested model with a recurrent layer, a tiny convolution and an existing wrapper. -/
def cmodel : CObj := .model false
  [.input "in", .layer "d" ⟨.other, true, .channelsLast, 8, [8, 2]⟩,
   .model false [.layer "tiny" ⟨.conv2D, true, .channelsLast, 4, [4, 1]⟩,
     .layer "big" ⟨.conv2D, true, .channelsLast, 40, [40, 1]⟩,
     .layer "lstm" ⟨.rnn, true, .channelsLast, 0, [8, 8, 4]⟩]]
end Example

/-- The hypotheses are met by a nested model. -/
example : (∃ y, clusterWeights Example.cparams Example.cmodel = .ok y) ∧
    Spec.CUnwrapped Example.cmodel := by
  refine ⟨(C67_succeeds_iff _ _ (by decide) (by decide)).2 ?_, ?_⟩
  · simp only [Example.cmodel, Spec.Clusterable, Spec.ClusterableL, Spec.skipped, true_and, and_true]
    refine ⟨.inr (by simp), .inl (by decide +kernel), .inr (fun _ => by decide +kernel),
      .inr (by simp)⟩
  · simp [Example.cmodel, Spec.CUnwrapped, Spec.CUnwrappedL]

/-! ## C68 -/

/-- Every custom wrapper class that occurs is in the scope (specification). -/
def Spec.AllResolve (scope : List String) (o : CObj) : Prop :=
  ∀ c n w, CObj.wrapped c n w ∈ Spec.cLeaves o → c.name ∈ scope

mutual
theorem Aux.resolvable_iff (scope : List String) (o : CObj) :
    resolvable scope o = true ↔ Spec.AllResolve scope o := by
  cases o with
  | input n => simp [resolvable, Spec.AllResolve, Spec.cLeaves]
  | layer n l => simp [resolvable, Spec.AllResolve, Spec.cLeaves]
  | wrapped c n w =>
    simp only [resolvable, Spec.AllResolve, Spec.cLeaves, List.mem_singleton, CObj.wrapped.injEq,
      decide_eq_true_eq]
    constructor
    · rintro h c' n' w' ⟨rfl, -, -⟩; exact h
    · intro h; exact h c n w ⟨rfl, rfl, rfl⟩
  | model k ls =>
    simp only [resolvable, Spec.AllResolve, Spec.cLeaves]
    exact Aux.resolvable_iffL scope ls
theorem Aux.resolvable_iffL (scope : List String) (os : List CObj) :
    resolvableL scope os = true ↔
      ∀ c n w, CObj.wrapped c n w ∈ Spec.cLeavesL os → c.name ∈ scope := by
  cases os with
  | nil => simp [resolvableL, Spec.cLeavesL]
  | cons x xs =>
    simp only [resolvableL, Bool.and_eq_true, Aux.resolvable_iff scope x, Aux.resolvable_iffL scope xs,
      Spec.cLeavesL, List.mem_append, Spec.AllResolve]
    constructor
    · rintro ⟨h1, h2⟩ c n w (h | h)
      · exact h1 c n w h
      · exact h2 c n w h
    · intro h
      exact ⟨fun c n w hm => h c n w (.inl hm), fun c n w hm => h c n w (.inr hm)⟩
end

/-- **C68 (partial).** A clustered model without recurrent and attention layers can be deserialised
inside `cluster_scope`: every wrapper class in it is registered there. -/
theorem C68_scope_partial (p : ClusterParams) (o y : CObj) (hu : Spec.CUnwrapped o)
    (hk : ∀ n l, CObj.layer n l ∈ Spec.cLeaves o → l.kind ≠ .rnn ∧ l.kind ≠ .mha)
    (h : clusterWeights p o = .ok y) : resolvable clusterScope y = true := by
  rw [Aux.resolvable_iff]
  unfold clusterWeights at h
  split_ifs at h
  have hl := Aux.cleaves_add _ _ _ h
  have hno : ∀ c n w, CObj.wrapped c n w ∉ Spec.cLeaves o := by
    clear hl h hk
    intro c n w
    have : ∀ (m : CObj), Spec.CUnwrapped m → CObj.wrapped c n w ∉ Spec.cLeaves m := by
      intro m
      refine CObj.rec (motive_1 := fun m => Spec.CUnwrapped m → CObj.wrapped c n w ∉ Spec.cLeaves m)
        (motive_2 := fun ms => Spec.CUnwrappedL ms → CObj.wrapped c n w ∉ Spec.cLeavesL ms)
        ?_ ?_ ?_ ?_ ?_ ?_ m
      · intro n; simp [Spec.cLeaves]
      · intro n l; simp [Spec.cLeaves]
      · intro c n w; simp [Spec.CUnwrapped]
      · intro k ls ih; simpa [Spec.CUnwrapped, Spec.cLeaves] using ih
      · simp [Spec.cLeavesL]
      · intro x xs h1 h2
        simp only [Spec.CUnwrappedL, Spec.cLeavesL, List.mem_append, not_or]
        rintro ⟨a, b⟩; exact ⟨h1 a, h2 b⟩
    exact this o hu
  intro c n w hm
  obtain ⟨i, hi, he⟩ := List.getElem_of_mem hm
  have hlen := hl.length_eq
  have hi' : i < (Spec.cLeaves o).length := by omega
  have hg := (List.forall₂_iff_get.1 hl).2 i hi' hi
  simp only [List.get_eq_getElem] at hg
  rw [he] at hg
  have hmem : (Spec.cLeaves o)[i] ∈ Spec.cLeaves o := List.getElem_mem _
  generalize (Spec.cLeaves o)[i] = x at hg hmem
  cases x with
  | input m => simp [Spec.ClusterLeaf] at hg
  | wrapped c' n' w' => exact absurd hmem (hno _ _ _)
  | model k ls => 
    simp [Spec.ClusterLeaf] at hg
  | layer m l =>
    have hk' := hk m l hmem
    simp only [Spec.ClusterLeaf, reduceCtorEq, and_false, false_or, Spec.wrapperFor,
      CObj.wrapped.injEq] at hg
    obtain ⟨-, -, hc, -, -⟩ := hg
    subst hc
    cases hkk : l.kind <;> simp_all [WrapperClass.name, clusterScope]

/-- **C68 is violated by the code.** A clustered model with an LSTM (or attention) layer contains a
wrapper class that `cluster_scope` does not register. -/
theorem C68_rnn_violated : ∃ o y, clusterWeights Example.cparams o = .ok y ∧
    resolvable clusterScope y = false := by
  refine ⟨.model false [.layer "lstm" ⟨.rnn, true, .channelsLast, 0, [8, 8, 4]⟩],
    .model false [.wrapped .clusterWeightsRNN "lstm"
      ⟨⟨.rnn, true, .channelsLast, 0, [8, 8, 4]⟩, 4, false, false⟩], ?_, ?_⟩
  · rfl
  · decide

/-- The same for attention. -/
theorem C68_mha_violated : ∃ o y, clusterWeights Example.cparams o = .ok y ∧
    resolvable clusterScope y = false := by
  refine ⟨.layer "att" ⟨.mha, true, .channelsLast, 0, [8, 8, 4]⟩,
    .wrapped .clusterWeightsMHA "att"
      ⟨⟨.mha, true, .channelsLast, 0, [8, 8, 4]⟩, 4, false, false⟩, ?_, ?_⟩
  · rfl
  · decide

/-! ## C69 -/

/-- **C69 (partial).** A layer the clustering registry supports can be built, i.e. the names of its
clusterable weights can be computed, if its weights exist when it is wrapped (`trainableNow =
trainableBuilt`), it is not itself a recurrent cell, and the cells of a recurrent layer are
elementary. -/
theorem C69_buildable_partial (l : RLayer) (h : supports l = true)
    (hb : l.trainableNow = l.trainableBuilt)
    (hcell : l.cls ∉ ["GRUCell", "LSTMCell", "SimpleRNNCell", "StackedRNNCells"])
    (hrnn : l.isRnn = true → l.cls ∈ ["GRU", "LSTM", "SimpleRNN", "RNN", "Bidirectional"])
    (hel : l.cls ∈ ["GRU", "LSTM", "SimpleRNN", "RNN", "Bidirectional"] →
      ∀ c ∈ l.cells, c.cls ∈ ["GRUCell", "LSTMCell", "SimpleRNNCell"]) :
    (clusterableNames l).isSome := by
  have hr : ∀ (cells : List RCell) (i : ℕ),
      (∀ c ∈ cells, c.cls ∈ ["GRUCell", "LSTMCell", "SimpleRNNCell"]) →
      (rnnWeightNames cells i).isSome := by
    intro cells
    induction cells with
    | nil => intro i _; rfl
    | cons c cs ih =>
      intro i hc
      have h1 := hc c (by simp)
      have h2 := ih (i + 1) (fun c hm => hc c (by simp [hm]))
      have h3 : c.cls ∈ supportedRnnCells ∧ c.cls ≠ "StackedRNNCells" ∧ c.cls ≠ "Bidirectional" := by
        simp only [List.mem_cons, List.not_mem_nil, or_false] at h1
        rcases h1 with h1 | h1 | h1 <;> rw [h1] <;> decide
      simp only [rnnWeightNames, if_pos h3, Option.isSome_map, h2]
  unfold clusterableNames
  by_cases h1 : l.cls ∈ supportedRnnLayers
  · rw [if_pos h1]; exact hr _ _ (hel h1)
  · rw [if_neg h1]
    by_cases h2 : l.cls ∈ supportedMhaLayers
    · rw [if_pos h2]; rfl
    · rw [if_neg h2, Option.isSome_map]
      unfold weightNames
      by_cases h3 : l.trainableBuilt = true
      · simp only [h3, Bool.not_true, Bool.false_eq_true, if_false]
        unfold supports at h
        rw [hb, h3] at h
        simp only [Bool.not_true, Bool.false_and, Bool.false_eq_true, if_false] at h
        split_ifs at h with h4 h5
        · exact h4
        · exfalso
          simp only [supportedRnnCells, supportedRnnLayers, List.mem_cons, List.not_mem_nil,
            or_false] at h5 h1 hcell
          tauto
        · simp [h2] at h
      · simp [h3]

example : supports ⟨"Dense", true, true, false, []⟩ = true ∧
    supports ⟨"Bidirectional", true, true, false, [⟨"LSTMCell", false⟩, ⟨"LSTMCell", false⟩]⟩ = true ∧
    clusterableNames ⟨"Bidirectional", true, true, false, [⟨"LSTMCell", false⟩, ⟨"LSTMCell", false⟩]⟩ =
      some [("kernel", 0), ("recurrent_kernel", 0), ("kernel", 1), ("recurrent_kernel", 1)] := by
  decide

/-- **C69 (recurrent layers).** The clusterable weights of a recurrent layer with elementary cells are
the kernel and the recurrent kernel of each of its cells, in order, tagged with the cell's index. -/
theorem C69_rnn_names (l : RLayer)
    (h : l.cls ∈ ["GRU", "LSTM", "SimpleRNN", "RNN", "Bidirectional"])
    (hel : ∀ c ∈ l.cells, c.cls ∈ ["GRUCell", "LSTMCell", "SimpleRNNCell"]) :
    clusterableNames l = some ((List.range l.cells.length).flatMap
      fun i => [("kernel", i), ("recurrent_kernel", i)]) := by
  have hr : ∀ (cells : List RCell) (i : ℕ),
      (∀ c ∈ cells, c.cls ∈ ["GRUCell", "LSTMCell", "SimpleRNNCell"]) →
      rnnWeightNames cells i = some ((List.range' i cells.length).flatMap
        fun i => [("kernel", i), ("recurrent_kernel", i)]) := by
    intro cells
    induction cells with
    | nil => intro i _; rfl
    | cons c cs ih =>
      intro i hc
      have h1 := hc c (by simp)
      have h2 := ih (i + 1) (fun c hm => hc c (by simp [hm]))
      have h3 : c.cls ∈ supportedRnnCells ∧ c.cls ≠ "StackedRNNCells" ∧ c.cls ≠ "Bidirectional" := by
        simp only [List.mem_cons, List.not_mem_nil, or_false] at h1
        rcases h1 with h1 | h1 | h1 <;> rw [h1] <;> decide
      simp only [rnnWeightNames, if_pos h3, h2, List.length_cons, List.range'_succ,
        List.flatMap_cons, Option.map_some, List.cons_append, List.nil_append]
  unfold clusterableNames
  have h' : l.cls ∈ supportedRnnLayers := by
    simp only [supportedRnnLayers, List.mem_cons, List.not_mem_nil, or_false] at h ⊢
    tauto
  rw [if_pos h', hr _ _ hel, List.range_eq_range']

/-- **C69 (acceptance of recurrent layers).** A `GRU`, `LSTM`, `SimpleRNN` or `RNN` layer is accepted
exactly if each of its cells is one of the built-in cells and not a user-defined `ClusterableLayer`. -/
theorem C69_rnn_accept (l : RLayer) (h : l.cls ∈ ["GRU", "LSTM", "SimpleRNN", "RNN"])
    (hr : l.isRnn = true) :
    supports l = true ↔ ∀ c ∈ l.cells,
      c.cls ∈ ["GRUCell", "LSTMCell", "SimpleRNNCell", "StackedRNNCells", "Bidirectional"] ∧
        c.clusterableLayer = false := by
  have h1 : (layersWeightsMap.lookup l.cls).isSome = false ∧ l.cls ∉ supportedRnnCells ∧
      l.cls ∈ supportedRnnLayers := by
    simp only [List.mem_cons, List.not_mem_nil, or_false] at h
    rcases h with h | h | h | h <;> rw [h] <;> decide
  unfold supports
  simp only [hr, h1.1, h1.2.1, h1.2.2, Bool.not_true, Bool.and_false, Bool.false_eq_true, if_false, if_true,
    List.all_eq_true, Bool.and_eq_true, decide_eq_true_eq, Bool.not_eq_true']
  simp only [supportedRnnCells]

/-- **C69 (acceptance of other layers).** A layer with trainable weights that is neither a recurrent
layer nor a cell is accepted exactly if its class is in the table of clusterable layers or it is
`MultiHeadAttention`. -/
theorem C69_accept (l : RLayer) (ht : l.trainableNow = true) 
    (h1 : l.cls ∉ ["GRUCell", "LSTMCell", "SimpleRNNCell", "StackedRNNCells", "Bidirectional"])
    (h2 : l.cls ∉ ["GRU", "LSTM", "SimpleRNN", "RNN"]) :
    supports l = true ↔ l.cls ∈ ["Conv1D", "Conv1DTranspose", "Conv2D", "Conv2DTranspose", "Conv3D",
      "Conv3DTranspose", "DepthwiseConv2D", "SeparableConv1D", "SeparableConv2D", "Dense", "Embedding",
      "LocallyConnected1D", "LocallyConnected2D", "BatchNormalization", "LayerNormalization",
      "MultiHeadAttention"] := by
  have h1 : l.cls ∉ supportedRnnCells := h1
  have h2 : l.cls ∉ supportedRnnLayers := by
    simp only [supportedRnnCells, supportedRnnLayers, List.mem_cons, List.not_mem_nil, or_false] at h1 h2 ⊢
    tauto
  unfold supports
  simp only [ht, h1, h2, Bool.not_true, Bool.false_and, Bool.false_eq_true, if_false]
  split
  · rename_i h
    simp only [true_iff]
    rw [List.lookup_isSome_iff] at h
    simp only [layersWeightsMap] at h
    simp only [List.mem_cons, List.not_mem_nil, or_false, exists_eq_or_imp, exists_eq_left, beq_iff_eq] at h ⊢
    tauto
  · rename_i h
    rw [List.lookup_isSome_iff] at h
    simp only [layersWeightsMap] at h
    simp only [List.mem_cons, List.not_mem_nil, or_false, exists_eq_or_imp, exists_eq_left, beq_iff_eq,
      supportedMhaLayers, decide_eq_true_eq] at h ⊢
    tauto

/-- What clustering is documented to replace in each layer class with weights of its own: the kernel of
dense, convolution and locally connected layers, the pointwise kernel of separable convolutions, the
embeddings; nothing in depthwise convolutions and normalizations. -/
def Spec.documented : List (String × List String) :=
  [("Dense", ["kernel"]), ("Conv1D", ["kernel"]), ("Conv2D", ["kernel"]), ("Conv3D", ["kernel"]),
   ("Conv1DTranspose", ["kernel"]), ("Conv2DTranspose", ["kernel"]), ("Conv3DTranspose", ["kernel"]),
   ("LocallyConnected1D", ["kernel"]), ("LocallyConnected2D", ["kernel"]),
   ("SeparableConv1D", ["pointwise_kernel"]), ("SeparableConv2D", ["pointwise_kernel"]),
   ("Embedding", ["embeddings"]), ("DepthwiseConv2D", []), ("BatchNormalization", []),
   ("LayerNormalization", [])]

/-- **C69 (which weights).** The clusterable weights of a trainable layer of a documented class are
exactly the documented ones. -/
theorem C69_names (l : RLayer) (ns : List String) (hc : (l.cls, ns) ∈ Spec.documented)
    (ht : l.trainableBuilt = true) :
    clusterableNames l = some (ns.map fun n => (n, 0)) := by
  obtain ⟨cls, now, built, rnn, cells⟩ := l
  simp only at hc ht
  subst ht
  simp only [Spec.documented, List.mem_cons, Prod.mk.injEq, List.not_mem_nil, or_false] at hc
  rcases hc with h | h | h | h | h | h | h | h | h | h | h | h | h | h | h <;>
    (obtain ⟨rfl, rfl⟩ := h; rfl)

/-- **C69 (attention).** The clusterable weights of a multi-head attention layer are the kernels of
its four projections. -/
theorem C69_mha_names (l : RLayer) (hc : l.cls = "MultiHeadAttention") :
    clusterableNames l = some [("_query_dense.kernel", 0), ("_key_dense.kernel", 0),
      ("_value_dense.kernel", 0), ("_output_dense.kernel", 0)] := by
  obtain ⟨cls, now, built, rnn, cells⟩ := l
  simp only at hc
  subst hc
  rfl

/-- **C69 (nothing to cluster).** A layer that is neither recurrent nor an attention layer and has no
trainable weights has no clusterable weights, whatever its class. -/
theorem C69_no_weights (l : RLayer) (ht : l.trainableBuilt = false)
    (hc : l.cls ∉ ["GRU", "LSTM", "SimpleRNN", "RNN", "Bidirectional", "MultiHeadAttention"]) :
    clusterableNames l = some [] := by
  have h1 : l.cls ∉ supportedRnnLayers ∧ l.cls ∉ supportedMhaLayers := by
    simp only [supportedRnnLayers, supportedMhaLayers, List.mem_cons, List.not_mem_nil, or_false] at hc ⊢
    tauto
  simp [clusterableNames, weightNames, h1.1, h1.2, ht]

example : clusterableNames ⟨"SeparableConv2D", false, true, false, []⟩ =
    some [("pointwise_kernel", 0)] :=
  C69_names ⟨"SeparableConv2D", false, true, false, []⟩ ["pointwise_kernel"] (by decide) rfl

/-- **C69 is violated (bare cell).** A bare `LSTMCell` layer is accepted, but building its wrapper
fails. -/
theorem C69_cell_violated : supports ⟨"LSTMCell", true, true, false, []⟩ = true ∧
    clusterableNames ⟨"LSTMCell", true, true, false, []⟩ = none := by decide

/-- **C69 is violated (not built yet).** Any layer without weights when it is wrapped is accepted,
also one of an unsupported class, whose wrapper then fails when it is built. -/
theorem C69_unbuilt_violated : supports ⟨"EinsumDense", false, true, false, []⟩ = true ∧
    clusterableNames ⟨"EinsumDense", false, true, false, []⟩ = none := by decide

/-- **C69 is violated (stacked cells in a bidirectional layer).** `Bidirectional(RNN([...]))` is
accepted, but its stacked cell has no kernel. -/
theorem C69_bidirectional_stacked_violated :
    supports ⟨"Bidirectional", true, true, false,
      [⟨"StackedRNNCells", false⟩, ⟨"StackedRNNCells", false⟩]⟩ = true ∧
    clusterableNames ⟨"Bidirectional", true, true, false,
      [⟨"StackedRNNCells", false⟩, ⟨"StackedRNNCells", false⟩]⟩ = none := by decide

end Verif.Props
