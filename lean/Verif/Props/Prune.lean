import Verif.Sparsity.Prune
import Mathlib.Data.List.Basic

/-!
# Properties C14, C15, C16, C18: structure of pruned models, configuration, collection, registry
-/

namespace Verif.Props
open Verif.Sparsity

/-! ## Specification -/

mutual
/-- All non-model objects of a nested model, in depth-first order. -/
def Spec.leaves : KObj → List KObj
  | .input n => [.input n]
  | .layer l => [.layer l]
  | .wrapped l c => [.wrapped l c]
  | .model _ ls => Spec.leavesL ls
def Spec.leavesL : List KObj → List KObj
  | [] => []
  | x :: xs => Spec.leaves x ++ Spec.leavesL xs
end

mutual
/-- No pruning wrapper anywhere. -/
def Spec.Unwrapped : KObj → Prop
  | .input _ => True
  | .layer _ => True
  | .wrapped _ _ => False
  | .model _ ls => Spec.UnwrappedL ls
def Spec.UnwrappedL : List KObj → Prop
  | [] => True
  | x :: xs => Spec.Unwrapped x ∧ Spec.UnwrappedL xs
end

/-- What pruning must do to one leaf. -/
def Spec.pruneLeaf (params : WrapCfg) (policy : Option (LayerObj → Bool)) : KObj → KObj
  | .layer l => if (match policy with | none => true | some a => a l) then .wrapped l params else .layer l
  | x => x

/-! ## C14 -/

mutual
theorem Aux.strip_add (params : WrapCfg) (policy : Option (LayerObj → Bool)) (x x' : KObj)
    (h : addPruningWrapper params policy x = .ok x') : stripWrapper x' = stripWrapper x := by
  cases x with
  | input n => simp only [addPruningWrapper, Except.ok.injEq] at h; rw [← h]
  | layer l =>
    simp only [addPruningWrapper, wrap] at h
    split at h <;> (try split_ifs at h) <;> simp_all [stripWrapper] <;> (subst h; simp [stripWrapper])
  | wrapped l c => simp only [addPruningWrapper, Except.ok.injEq] at h; rw [← h]
  | model k ls =>
    simp only [addPruningWrapper] at h
    split_ifs at h
    split at h
    · simp at h
    · rename_i ls' hl
      simp only [Except.ok.injEq] at h
      subst h
      simp only [stripWrapper]
      rw [Aux.strip_addL params policy ls ls' hl]
theorem Aux.strip_addL (params : WrapCfg) (policy : Option (LayerObj → Bool)) (xs xs' : List KObj)
    (h : addPruningWrapperL params policy xs = .ok xs') : stripWrapperL xs' = stripWrapperL xs := by
  cases xs with
  | nil => simp only [addPruningWrapperL, Except.ok.injEq] at h; rw [← h]
  | cons x xs =>
    simp only [addPruningWrapperL] at h
    split at h
    · simp at h
    · rename_i x' hx
      split at h
      · simp at h
      · rename_i xs'' hxs
        simp only [Except.ok.injEq] at h
        subst h
        simp only [stripWrapperL]
        rw [Aux.strip_add params policy x x' hx, Aux.strip_addL params policy xs xs'' hxs]
end

mutual
theorem Aux.strip_unwrapped (x : KObj) (h : Spec.Unwrapped x) : stripWrapper x = x := by
  cases x with
  | input n => rfl
  | layer l => rfl
  | wrapped l c => exact absurd h (by simp [Spec.Unwrapped])
  | model k ls =>
    simp only [stripWrapper]
    rw [Aux.strip_unwrappedL ls (by simpa [Spec.Unwrapped] using h)]
theorem Aux.strip_unwrappedL (xs : List KObj) (h : Spec.UnwrappedL xs) : stripWrapperL xs = xs := by
  cases xs with
  | nil => rfl
  | cons x xs =>
    simp only [Spec.UnwrappedL] at h
    simp only [stripWrapperL]
    rw [Aux.strip_unwrapped x h.1, Aux.strip_unwrappedL xs h.2]
end

mutual
theorem Aux.strip_isUnwrapped (x : KObj) : Spec.Unwrapped (stripWrapper x) := by
  cases x with
  | input n => simp [stripWrapper, Spec.Unwrapped]
  | layer l => simp [stripWrapper, Spec.Unwrapped]
  | wrapped l c => simp [stripWrapper, Spec.Unwrapped]
  | model k ls => simpa [stripWrapper, Spec.Unwrapped] using Aux.strip_isUnwrappedL ls
theorem Aux.strip_isUnwrappedL (xs : List KObj) : Spec.UnwrappedL (stripWrapperL xs) := by
  cases xs with
  | nil => simp [stripWrapperL, Spec.UnwrappedL]
  | cons x xs =>
    simp only [stripWrapperL, Spec.UnwrappedL]
    exact ⟨Aux.strip_isUnwrapped x, Aux.strip_isUnwrappedL xs⟩
end

mutual
theorem Aux.leaves_add (params : WrapCfg) (policy : Option (LayerObj → Bool)) (x x' : KObj)
    (h : addPruningWrapper params policy x = .ok x') :
    Spec.leaves x' = (Spec.leaves x).map (Spec.pruneLeaf params policy) := by
  cases x with
  | input n => simp only [addPruningWrapper, Except.ok.injEq] at h; rw [← h]; rfl
  | layer l =>
    simp only [addPruningWrapper, wrap] at h
    split at h
    · split_ifs at h with h1
      all_goals simp only [Except.ok.injEq] at h
      all_goals subst h
      all_goals simp [Spec.leaves, Spec.pruneLeaf, h1]
    · split_ifs at h
      all_goals simp only [Except.ok.injEq] at h
      all_goals subst h
      all_goals simp [Spec.leaves, Spec.pruneLeaf]
  | wrapped l c => simp only [addPruningWrapper, Except.ok.injEq] at h; rw [← h]; rfl
  | model k ls =>
    simp only [addPruningWrapper] at h
    split_ifs at h
    split at h
    · simp at h
    · rename_i ls' hl
      simp only [Except.ok.injEq] at h
      subst h
      simp only [Spec.leaves]
      rw [Aux.leaves_addL params policy ls ls' hl]
theorem Aux.leaves_addL (params : WrapCfg) (policy : Option (LayerObj → Bool)) (xs xs' : List KObj)
    (h : addPruningWrapperL params policy xs = .ok xs') :
    Spec.leavesL xs' = (Spec.leavesL xs).map (Spec.pruneLeaf params policy) := by
  cases xs with
  | nil => simp only [addPruningWrapperL, Except.ok.injEq] at h; rw [← h]; rfl
  | cons x xs =>
    simp only [addPruningWrapperL] at h
    split at h
    · simp at h
    · rename_i x' hx
      split at h
      · simp at h
      · rename_i xs'' hxs
        simp only [Except.ok.injEq] at h
        subst h
        simp only [Spec.leavesL, List.map_append]
        rw [Aux.leaves_add params policy x x' hx, Aux.leaves_addL params policy xs xs'' hxs]
end

mutual
theorem Aux.add_idem (params params' : WrapCfg) (policy : Option (LayerObj → Bool)) (x x' : KObj)
    (h : addPruningWrapper params policy x = .ok x') :
    addPruningWrapper params' policy x' = .ok x' := by
  cases x with
  | input n => simp only [addPruningWrapper, Except.ok.injEq] at h; rw [← h]; rfl
  | layer l =>
    simp only [addPruningWrapper, wrap] at h
    split at h
    · split_ifs at h with h1
      all_goals simp only [Except.ok.injEq] at h
      all_goals subst h
      all_goals simp [addPruningWrapper, h1]
    · split_ifs at h
      all_goals simp only [Except.ok.injEq] at h
      all_goals subst h
      all_goals simp [addPruningWrapper]
  | wrapped l c => simp only [addPruningWrapper, Except.ok.injEq] at h; rw [← h]; rfl
  | model k ls =>
    simp only [addPruningWrapper] at h
    split_ifs at h with hk
    split at h
    · simp at h
    · rename_i ls' hl
      simp only [Except.ok.injEq] at h
      subst h
      simp only [addPruningWrapper, if_neg hk, Aux.add_idemL params params' policy ls ls' hl]
theorem Aux.add_idemL (params params' : WrapCfg) (policy : Option (LayerObj → Bool)) (xs xs' : List KObj)
    (h : addPruningWrapperL params policy xs = .ok xs') :
    addPruningWrapperL params' policy xs' = .ok xs' := by
  cases xs with
  | nil => simp only [addPruningWrapperL, Except.ok.injEq] at h; rw [← h]; rfl
  | cons x xs =>
    simp only [addPruningWrapperL] at h
    split at h
    · simp at h
    · rename_i x' hx
      split at h
      · simp at h
      · rename_i xs'' hxs
        simp only [Except.ok.injEq] at h
        subst h
        simp only [addPruningWrapperL, Aux.add_idem params params' policy x x' hx,
          Aux.add_idemL params params' policy xs xs'' hxs]
end

/-- Pruning a model whose result is `y`. -/
theorem Aux.prune_model {params : WrapCfg} {policy : Option (LayerObj → Bool)} {ensure : Bool}
    {k : ModelKind} {ls : List KObj} {y : ToPrune}
    (h : pruneLowMagnitude params policy ensure (.obj (.model k ls)) = .ok y) :
    ∃ o, y = .obj o ∧ addPruningWrapper params policy (.model k ls) = .ok o ∧ k ≠ .subclass ∧
      ¬ (policy.isSome ∧ ensure = false) := by
  simp only [pruneLowMagnitude] at h
  split_ifs at h with h1 h2
  cases ha : addPruningWrapper params policy (.model k ls) with
  | error e => rw [ha] at h; simp [Except.map] at h
  | ok o =>
    rw [ha] at h
    simp only [Except.map, Except.ok.injEq] at h
    exact ⟨o, h.symm, rfl, h1, h2⟩

/-- **C14 (which layers are wrapped).** If `prune_low_magnitude(model)` succeeds, the leaves of the
result are the leaves of the model, in the same order, each plain layer that the policy allows (every
one without policy) replaced by a wrapper with the requested parameters around it, and all other
leaves (inputs, existing wrappers with *their* parameters, disallowed layers) unchanged; the result
is again a model. -/
theorem C14_wraps_exactly (params : WrapCfg) (policy : Option (LayerObj → Bool)) (ensure : Bool)
    (k : ModelKind) (ls : List KObj) (y : ToPrune)
    (h : pruneLowMagnitude params policy ensure (.obj (.model k ls)) = .ok y) :
    ∃ ls', y = .obj (.model k ls') ∧
      Spec.leaves (.model k ls') = (Spec.leaves (.model k ls)).map (Spec.pruneLeaf params policy) := by
  obtain ⟨o, rfl, ho, hk, -⟩ := Aux.prune_model h
  have hl := Aux.leaves_add _ _ _ _ ho
  simp only [addPruningWrapper, if_neg hk] at ho
  split at ho
  · simp at ho
  · simp only [Except.ok.injEq] at ho
    subst ho
    exact ⟨_, rfl, hl⟩

/-- **C14 (idempotent).** Pruning the result again with the same policy, whatever the other
parameters, changes nothing. -/
theorem C14_idempotent (params params' : WrapCfg) (policy : Option (LayerObj → Bool)) (ensure : Bool)
    (k : ModelKind) (ls : List KObj) (y : ToPrune)
    (h : pruneLowMagnitude params policy ensure (.obj (.model k ls)) = .ok y) :
    pruneLowMagnitude params' policy ensure y = .ok y := by
  obtain ⟨ls', rfl, -⟩ := C14_wraps_exactly _ _ _ _ _ _ h
  obtain ⟨o, ho, ha, hk, hp⟩ := Aux.prune_model h
  simp only [ToPrune.obj.injEq] at ho
  subst ho
  simp only [pruneLowMagnitude, if_neg hk, if_neg hp, Aux.add_idem params params' policy _ _ ha,
    Except.map]

/-- **C14 (strip inverts prune).** Stripping a pruned model gives back the original model (nesting,
order and layers), provided the original had no pruning wrappers. -/
theorem C14_strip_prune (params : WrapCfg) (policy : Option (LayerObj → Bool)) (ensure : Bool)
    (k : ModelKind) (ls : List KObj) (o : KObj) (hu : Spec.Unwrapped (.model k ls))
    (h : pruneLowMagnitude params policy ensure (.obj (.model k ls)) = .ok (.obj o)) :
    stripWrapper o = .model k ls := by
  obtain ⟨o', ho, ha, -⟩ := Aux.prune_model h
  simp only [ToPrune.obj.injEq] at ho
  subst ho
  rw [Aux.strip_add _ _ _ _ ha, Aux.strip_unwrapped _ hu]

/-- **C14 (strip removes exactly the wrappers).** The result of `strip_pruning` contains no wrapper,
and on a model without wrappers it is the identity (so it is idempotent). -/
theorem C14_strip_clean (o : KObj) :
    Spec.Unwrapped (stripWrapper o) ∧ (Spec.Unwrapped o → stripWrapper o = o) ∧
      stripWrapper (stripWrapper o) = stripWrapper o :=
  ⟨Aux.strip_isUnwrapped o, Aux.strip_unwrapped o,
    Aux.strip_unwrapped _ (Aux.strip_isUnwrapped o)⟩

mutual
/-- Nested subclassed models and unsupported allowed layers do not occur. -/
def Spec.Prunable (policy : Option (LayerObj → Bool)) : KObj → Prop
  | .input _ => True
  | .layer l => (match policy with | none => true | some a => a l) = true → canWrap l = true
  | .wrapped _ _ => True
  | .model k ls => k ≠ .subclass ∧ Spec.PrunableL policy ls
def Spec.PrunableL (policy : Option (LayerObj → Bool)) : List KObj → Prop
  | [] => True
  | x :: xs => Spec.Prunable policy x ∧ Spec.PrunableL policy xs
end

mutual
theorem Aux.add_succeeds (params : WrapCfg) (policy : Option (LayerObj → Bool)) (x : KObj)
    (hpool : params.pooling = "AVG" ∨ params.pooling = "MAX") :
    (∃ x', addPruningWrapper params policy x = .ok x') ↔ Spec.Prunable policy x := by
  have hp : ¬ (params.pooling ≠ "AVG" ∧ params.pooling ≠ "MAX") := by
    rintro ⟨h1, h2⟩; rcases hpool with h | h
    · exact h1 h
    · exact h2 h
  cases x with
  | input n => simp [addPruningWrapper, Spec.Prunable]
  | layer l =>
    simp only [addPruningWrapper, wrap, Spec.Prunable, if_neg hp]
    cases policy with
    | none => by_cases hc : canWrap l = true <;> simp [hc]
    | some a => by_cases hc : canWrap l = true <;> by_cases ha : a l = true <;> simp [hc, ha]
  | wrapped l c => simp [addPruningWrapper, Spec.Prunable]
  | model k ls =>
    have ih := Aux.add_succeedsL params policy ls hpool
    simp only [addPruningWrapper, Spec.Prunable]
    by_cases hk : k = .subclass
    · simp [hk]
    · rw [if_neg hk, ← ih]
      cases h : addPruningWrapperL params policy ls with
      | error e => simp
      | ok ls' => simp [hk]
theorem Aux.add_succeedsL (params : WrapCfg) (policy : Option (LayerObj → Bool)) (xs : List KObj)
    (hpool : params.pooling = "AVG" ∨ params.pooling = "MAX") :
    (∃ xs', addPruningWrapperL params policy xs = .ok xs') ↔ Spec.PrunableL policy xs := by
  cases xs with
  | nil => simp [addPruningWrapperL, Spec.PrunableL]
  | cons x xs =>
    have h1 := Aux.add_succeeds params policy x hpool
    have h2 := Aux.add_succeedsL params policy xs hpool
    simp only [addPruningWrapperL, Spec.PrunableL, ← h1, ← h2]
    cases ha : addPruningWrapper params policy x with
    | error e => simp
    | ok x' =>
      cases hb : addPruningWrapperL params policy xs with
      | error e => simp
      | ok xs' => simp
end

/-- **C14 (success).** Pruning a model (valid pooling type) succeeds exactly when the policy, if one is
given, accepts the model, neither it nor a nested model is subclassed and every not yet wrapped
layer that the policy allows is prunable. -/
theorem C14_succeeds_iff (params : WrapCfg) (policy : Option (LayerObj → Bool)) (k : ModelKind)
    (ls : List KObj) (ensure : Bool) (hpool : params.pooling = "AVG" ∨ params.pooling = "MAX") :
    (∃ y, pruneLowMagnitude params policy ensure (.obj (.model k ls)) = .ok y) ↔
      (policy ≠ none → ensure = true) ∧ Spec.Prunable policy (.model k ls) := by
  rw [← Aux.add_succeeds params policy _ hpool]
  by_cases hk : k = .subclass
  · simp [pruneLowMagnitude, addPruningWrapper, hk]
  · simp only [pruneLowMagnitude, if_neg hk]
    cases policy with
    | none => cases addPruningWrapper params none (.model k ls) <;> simp [Except.map]
    | some a =>
      cases ensure with
      | false => simp
      | true => cases addPruningWrapper params (some a) (.model k ls) <;> simp [Except.map]

/-- **C14 (lists).** Pruning a list of layers wraps each layer that is not already wrapped with the
requested parameters, whatever the policy, and leaves wrappers (and inputs) alone; a model inside the
list is rejected. -/
theorem C14_list (params : WrapCfg) (policy : Option (LayerObj → Bool)) (ensure : Bool)
    (ls : List KObj) (y : ToPrune) (h : pruneLowMagnitude params policy ensure (.list ls) = .ok y) :
    y = .list (ls.map (Spec.pruneLeaf params none)) ∧ ∀ k xs, KObj.model k xs ∉ ls := by
  simp only [pruneLowMagnitude] at h
  cases hp : pruneList params ls with
  | error e => rw [hp] at h; simp [Except.map] at h
  | ok ls' =>
    rw [hp] at h
    simp only [Except.map, Except.ok.injEq] at h
    subst h
    have gen : ∀ (ls ls' : List KObj), pruneList params ls = .ok ls' →
        ls' = ls.map (Spec.pruneLeaf params none) ∧ ∀ k xs, KObj.model k xs ∉ ls := by
      intro ls
      induction ls with
      | nil =>
        intro ls' h
        simp only [pruneList, Except.ok.injEq] at h
        subst h; simp
      | cons x xs ih =>
        intro ls' h
        simp only [pruneList] at h
        split at h
        · simp at h
        · rename_i x' hx
          split at h
          · simp at h
          · rename_i xs' hxs
            simp only [Except.ok.injEq] at h
            subst h
            obtain ⟨e, hm⟩ := ih _ hxs
            have hx2 : x' = Spec.pruneLeaf params none x ∧ ∀ k ys, x ≠ .model k ys := by
              cases x with
              | input n => simp at hx; subst hx; simp [Spec.pruneLeaf]
              | wrapped l c => simp at hx; subst hx; simp [Spec.pruneLeaf]
              | layer l =>
                simp only [wrap] at hx
                split_ifs at hx
                simp only [Except.ok.injEq] at hx
                simp [Spec.pruneLeaf, ← hx]
              | model k ys => simp at hx
            refine ⟨by rw [e, hx2.1]; rfl, ?_⟩
            intro k ys hmem
            rcases List.mem_cons.1 hmem with h | h
            · exact hx2.2 k ys h.symm
            · exact hm k ys h
    obtain ⟨e, hm⟩ := gen ls ls' hp
    exact ⟨by rw [e], hm⟩

/-- **C14 (single layer).** A single prunable layer is wrapped with the requested parameters, a layer
that is not prunable is rejected. -/
theorem C14_single_layer (params : WrapCfg) (policy : Option (LayerObj → Bool)) (ensure : Bool)
    (l : LayerObj) (hpool : params.pooling = "AVG" ∨ params.pooling = "MAX") :
    (canWrap l = true →
      pruneLowMagnitude params policy ensure (.obj (.layer l)) = .ok (.obj (.wrapped l params))) ∧
    (canWrap l = false → ∃ e, pruneLowMagnitude params policy ensure (.obj (.layer l)) = .error e) := by
  have hp : ¬ (params.pooling ≠ "AVG" ∧ params.pooling ≠ "MAX") := by
    rintro ⟨h1, h2⟩; rcases hpool with h | h
    · exact h1 h
    · exact h2 h
  constructor
  · intro h; simp [pruneLowMagnitude, wrap, if_neg hp, h, Except.map]
  · intro h; exact ⟨.unsupportedLayer, by simp [pruneLowMagnitude, wrap, if_neg hp, h, Except.map]⟩

/-- A nested model with a wrapper already in it. -/
def Aux.exModel : KObj := .model .functional
  [.input "in", .layer ⟨"d1", "Dense", none, []⟩,
   .model .sequential [.wrapped ⟨"c", "Conv2D", none, []⟩ ⟨⟨"ConstantSparsity", []⟩, (1, 1), "AVG", none⟩,
     .layer ⟨"r", "ReLU", none, []⟩]]

example : ∃ y, pruneLowMagnitude ⟨⟨"PolynomialDecay", []⟩, (1, 1), "MAX", none⟩ none true
    (.obj Aux.exModel) = .ok y := by
  unfold Aux.exModel
  rw [C14_succeeds_iff _ _ _ _ _ (Or.inr rfl)]
  simp [Spec.Prunable, Spec.PrunableL]
  decide

/-! ## C15 -/

/-- **C15 (partial).** Rebuilding from the configuration keeps the wrapped layer, schedule, block size
and pooling type of every wrapper that uses one of the two library schedules; the m-by-n request is
kept exactly if there was none.  Missing: `sparsity_m_by_n` (see `C15_mbyn_violated`) and
user-defined schedules. -/
theorem C15_roundtrip_partial (l : LayerObj) (c : WrapCfg)
    (hs : c.schedule.cls = "ConstantSparsity" ∨ c.schedule.cls = "PolynomialDecay") :
    wrapperFromConfig (wrapperGetConfig l c) = some (l, { c with mByN := none }) ∧
    (wrapperFromConfig (wrapperGetConfig l c) = some (l, c) ↔ c.mByN = none) := by
  have h : wrapperFromConfig (wrapperGetConfig l c) = some (l, { c with mByN := none }) := by
    simp [wrapperFromConfig, wrapperGetConfig, hs, List.lookup]
  refine ⟨h, ?_⟩
  rw [h]
  obtain ⟨a, b, p, m⟩ := c
  simp [eq_comm]

/-- **C15 (violated).** A 2-by-4 wrapper comes back as an unstructured one. -/
theorem C15_mbyn_violated : ∃ l c, c.mByN = some (2, 4) ∧
    ∃ c', wrapperFromConfig (wrapperGetConfig l c) = some (l, c') ∧ c'.mByN = none :=
  ⟨⟨"d", "Dense", none, []⟩, ⟨⟨"ConstantSparsity", []⟩, (1, 1), "AVG", some (2, 4)⟩, rfl, _,
    (C15_roundtrip_partial _ _ (Or.inl rfl)).1, rfl⟩

/-- **C15 (violated).** A wrapper with a user-defined schedule cannot be rebuilt at all. -/
theorem C15_custom_schedule_violated (l : LayerObj) (c : WrapCfg)
    (h1 : c.schedule.cls ≠ "ConstantSparsity") (h2 : c.schedule.cls ≠ "PolynomialDecay") :
    wrapperFromConfig (wrapperGetConfig l c) = none := by
  simp [wrapperFromConfig, wrapperGetConfig, h1, h2, List.lookup]

/-! ## C16 -/

/-- The pruning wrappers among the leaves of a model. -/
def Spec.wrappers (ls : List KObj) : List (LayerObj × WrapCfg) :=
  ls.filterMap fun x => match x with | .wrapped l c => some (l, c) | _ => none

mutual
theorem Aux.collect_one (x : KObj) : collectOne x = Spec.wrappers (Spec.leaves x) := by
  cases x with
  | input n => rfl
  | layer l => rfl
  | wrapped l c => rfl
  | model k ls => simp only [collectOne, Spec.leaves]; exact Aux.collect_list ls
theorem Aux.collect_list (xs : List KObj) : collectPrunable xs = Spec.wrappers (Spec.leavesL xs) := by
  cases xs with
  | nil => rfl
  | cons x xs =>
    simp only [collectPrunable, Spec.leavesL]
    rw [Aux.collect_one x, Aux.collect_list xs]
    unfold Spec.wrappers
    rw [List.filterMap_append]
end

/-- **C16.** `collect_prunable_layers(model)` is the list of all pruning wrappers occurring at any
nesting depth, in order and with multiplicity. -/
theorem C16_collects_all (k : ModelKind) (ls : List KObj) :
    collectPrunable ls = Spec.wrappers (Spec.leaves (.model k ls)) := by
  simp only [Spec.leaves]; exact Aux.collect_list ls

/-- **C16 (after pruning).** After `prune_low_magnitude` (no policy) on a model the callback collects
one wrapper per leaf that is not an input, in order: each formerly plain layer is among them. -/
theorem C16_after_prune (params : WrapCfg) (ensure : Bool) (k : ModelKind) (ls : List KObj)
    (ls' : List KObj)
    (h : pruneLowMagnitude params none ensure (.obj (.model k ls)) = .ok (.obj (.model k ls'))) :
    collectPrunable ls' = (Spec.leaves (.model k ls)).filterMap (fun x => match x with
      | .layer l => some (l, params)
      | .wrapped l c => some (l, c)
      | _ => none) := by
  obtain ⟨ls'', he, hl⟩ := C14_wraps_exactly _ _ _ _ _ _ h
  simp only [ToPrune.obj.injEq, KObj.model.injEq, true_and] at he
  subst he
  rw [C16_collects_all k, hl]
  unfold Spec.wrappers
  rw [List.filterMap_map]
  congr 1
  funext x
  cases x <;> rfl

example : collectPrunable [Aux.exModel] =
    [(⟨"c", "Conv2D", none, []⟩, ⟨⟨"ConstantSparsity", []⟩, (1, 1), "AVG", none⟩)] := rfl

/-! ## C18 -/

/-- Built-in classes with prunable attributes, as documented in the registry. -/
def Spec.builtin (cls : String) : Prop := ∃ ws, (cls, ws) ∈ layersWeightsMap

def Spec.builtinCell (cls : String) : Prop := cls = "GRUCell" ∨ cls = "LSTMCell" ∨ cls = "SimpleRNNCell"

/-- **C18 (support).** A layer can be wrapped exactly when it implements the prunable interface, its
class is a registered built-in, or it is an RNN layer each of whose cells is a registered cell or
implements the prunable interface. -/
theorem C18_supports_iff (l : LayerObj) :
    canWrap l = true ↔ l.custom.isSome = true ∨ Spec.builtin l.cls ∨
      (l.cls ∈ rnnLayers ∧ ∀ c ∈ l.cells, Spec.builtinCell c.cls ∨ c.custom.isSome = true) := by
  unfold canWrap registrySupports
  have e1 : ∀ s, (layersWeightsMap.map (·.1)).contains s = true ↔ Spec.builtin s := by
    intro s
    rw [List.contains_iff_mem, List.mem_map]
    constructor
    · rintro ⟨⟨a, b⟩, h, rfl⟩; exact ⟨b, h⟩
    · rintro ⟨b, h⟩; exact ⟨(s, b), h, rfl⟩
  have e2 : ∀ s, (rnnCellsWeightsMap.map (·.1)).contains s = true ↔ Spec.builtinCell s := by
    intro s
    rw [List.contains_iff_mem]
    simp [rnnCellsWeightsMap, Spec.builtinCell]
  rw [Bool.or_eq_true]
  apply or_congr Iff.rfl
  by_cases h1 : Spec.builtin l.cls
  · simp only [(e1 l.cls).2 h1, if_true, h1, true_or]
  · have h1' : ¬ (layersWeightsMap.map (·.1)).contains l.cls = true := fun h => h1 ((e1 _).1 h)
    simp only [h1', h1, false_or]
    by_cases h2 : l.cls ∈ rnnLayers
    · have h2' : rnnLayers.contains l.cls = true := List.contains_iff_mem.2 h2
      simp only [h2', h2, if_true, true_and, Bool.false_eq_true, if_false]
      rw [List.all_eq_true]
      constructor
      · intro h c hc
        rcases Bool.or_eq_true _ _ ▸ h c hc with h | h
        · exact Or.inl ((e2 _).1 h)
        · exact Or.inr h
      · intro h c hc
        rw [Bool.or_eq_true]
        rcases h c hc with h | h
        · exact Or.inl ((e2 _).2 h)
        · exact Or.inr h
    · simp only [List.contains_iff_mem, h2, if_false, false_and]
      simp

/-- **C18 (weights exist for everything that is accepted).** -/
theorem C18_accepted_has_weights (l : LayerObj) :
    (∃ ws, prunableWeights l = .ok ws) ↔ canWrap l = true := by
  unfold prunableWeights canWrap
  cases hc : l.custom with
  | some ws => simp
  | none =>
    simp only [Option.isSome_none, Bool.false_or]
    by_cases hs : registrySupports l = true
    · simp only [hs, if_true, iff_true]
      by_cases hr : rnnLayers.contains l.cls = true
      · simp only [hr, if_true]
        have hnb : (layersWeightsMap.map (·.1)).contains l.cls = false := by
          have : l.cls ∈ rnnLayers := List.contains_iff_mem.1 hr
          simp only [rnnLayers, List.mem_cons, List.not_mem_nil, or_false] at this
          rcases this with h | h | h | h <;> rw [h] <;> decide
        have hall : ∀ c ∈ l.cells, (rnnCellsWeightsMap.map (·.1)).contains c.cls || c.custom.isSome := by
          unfold registrySupports at hs
          simp only [hnb, hr, if_true, Bool.false_eq_true, if_false, List.all_eq_true] at hs
          exact hs
        clear hs hr hnb hc
        generalize 0 = i
        revert hall
        generalize l.cells = cs
        intro hall
        induction cs generalizing i with
        | nil => exact ⟨[], rfl⟩
        | cons c cs ih =>
          obtain ⟨rest, hrest⟩ := ih (i + 1) fun c hc => hall c (by simp [hc])
          have hcell : ∃ ws, cellWeights i c = .ok ws := by
            unfold cellWeights
            cases hl : rnnCellsWeightsMap.lookup c.cls with
            | some ws => exact ⟨_, rfl⟩
            | none =>
              have := hall c (by simp)
              have hn : (rnnCellsWeightsMap.map (·.1)).contains c.cls = false := by
                simp only [rnnCellsWeightsMap, List.lookup] at hl
                simp only [rnnCellsWeightsMap, List.map_cons, List.map_nil, List.contains_cons]
                split at hl
                · simp at hl
                · split at hl
                  · simp at hl
                  · split at hl
                    · simp at hl
                    · simp_all
              rw [hn, Bool.false_or] at this
              obtain ⟨ws, hws⟩ := Option.isSome_iff_exists.1 this
              rw [hws]; exact ⟨_, rfl⟩
          obtain ⟨ws, hws⟩ := hcell
          exact ⟨ws ++ rest, by simp [rnnWeights, hws, hrest]⟩
      · rw [if_neg hr]; exact ⟨_, rfl⟩
    · simp [hs]

/-- What the cells of an RNN contribute: kernel and recurrent kernel of a registered cell, the
declared weights of a custom one. -/
def Spec.cellAttrs (c : Cell) : List String :=
  if c.cls = "GRUCell" ∨ c.cls = "LSTMCell" ∨ c.cls = "SimpleRNNCell" then ["kernel", "recurrent_kernel"]
  else c.custom.getD []

theorem Aux.cellWeights_ok {i : Nat} {c : Cell} {ws : List WeightRef} (h : cellWeights i c = .ok ws) :
    ws = (Spec.cellAttrs c).map fun a => ⟨some i, a⟩ := by
  unfold cellWeights at h
  unfold Spec.cellAttrs
  by_cases h1 : c.cls = "GRUCell" ∨ c.cls = "LSTMCell" ∨ c.cls = "SimpleRNNCell"
  · rw [if_pos h1]
    rcases h1 with e | e | e <;> rw [e] at h <;>
      simp [rnnCellsWeightsMap, List.lookup] at h <;> simp [← h]
  · rw [if_neg h1]
    simp only [not_or] at h1
    obtain ⟨a, b, d⟩ := h1
    have hl : rnnCellsWeightsMap.lookup c.cls = none := by
      have a' : (c.cls == "GRUCell") = false := by simpa using a
      have b' : (c.cls == "LSTMCell") = false := by simpa using b
      have d' : (c.cls == "SimpleRNNCell") = false := by simpa using d
      simp [rnnCellsWeightsMap, List.lookup, a', b', d']
    rw [hl] at h
    simp only at h
    split at h
    · rename_i w hw
      simp only [Except.ok.injEq] at h
      rw [hw, ← h]; rfl
    · simp at h

/-- **C18 (RNN).** The prunable weights of an accepted built-in RNN are those of its cells, cell by
cell in order. -/
theorem C18_rnn_concat (l : LayerObj) (hc : l.custom = none) (hr : l.cls ∈ rnnLayers)
    (ws : List WeightRef) (h : prunableWeights l = .ok ws) :
    ws = (l.cells.zipIdx.map fun p => (Spec.cellAttrs p.1).map fun a => ⟨some p.2, a⟩).flatten := by
  unfold prunableWeights at h
  rw [hc] at h
  simp only at h
  split_ifs at h with h1 h2
  · have gen : ∀ (cs : List Cell) (i : Nat) (ws : List WeightRef), rnnWeights i cs = .ok ws →
        ws = ((cs.zipIdx i).map fun p => (Spec.cellAttrs p.1).map fun a => ⟨some p.2, a⟩).flatten := by
      intro cs
      induction cs with
      | nil => intro i ws h; simp only [rnnWeights, Except.ok.injEq] at h; rw [← h]; rfl
      | cons c cs ih =>
        intro i ws h
        simp only [rnnWeights] at h
        split at h
        · simp at h
        · rename_i w hw
          split at h
          · simp at h
          · rename_i rest hrest
            simp only [Except.ok.injEq] at h
            rw [← h, ih _ _ hrest, Aux.cellWeights_ok hw]
            simp [List.zipIdx_cons]
    exact gen l.cells 0 ws h
  · exact absurd (List.contains_iff_mem.2 hr) h2

/-- The documented prunable attributes of the built-in layers that are not recurrent: convolutions,
dense and locally connected layers prune their kernel, separable convolutions their pointwise kernel,
embeddings the table, attention the kernels of its four projections; nothing else is pruned, in
particular no bias. -/
def Spec.documentedWeights (cls : String) : List String :=
  if cls ∈ ["Conv1D", "Conv2D", "Conv2DTranspose", "Conv3D", "Conv3DTranspose", "Dense",
      "LocallyConnected1D", "LocallyConnected2D"] then ["kernel"]
  else if cls ∈ ["SeparableConv1D", "SeparableConv2D"] then ["pointwise_kernel"]
  else if cls = "Embedding" then ["embeddings"]
  else if cls = "MultiHeadAttention" then
    ["_query_dense.kernel", "_key_dense.kernel", "_value_dense.kernel", "_output_dense.kernel"]
  else []

/-- **C18 (built-in layers).** The prunable weights of an accepted built-in layer are the documented
ones. -/
theorem C18_builtin_weights (l : LayerObj) (hc : l.custom = none) (hr : l.cls ∉ rnnLayers)
    (ws : List WeightRef) (h : prunableWeights l = .ok ws) :
    ws = (Spec.documentedWeights l.cls).map fun a => ⟨none, a⟩ := by
  have table : ∀ p ∈ layersWeightsMap, p.2 = Spec.documentedWeights p.1 := by decide +kernel
  unfold prunableWeights at h
  rw [hc] at h
  simp only at h
  split_ifs at h with h1 h2
  · exact absurd (List.contains_iff_mem.1 h2) hr
  · simp only [Except.ok.injEq] at h
    rw [← h]
    congr 1
    have hin : (layersWeightsMap.map (·.1)).contains l.cls = true := by
      unfold registrySupports at h1
      split_ifs at h1 with h3
      · exact h3
    have hl : ∃ w, layersWeightsMap.lookup l.cls = some w := by
      have : ∀ (m : List (String × List String)) s, (m.map (·.1)).contains s = true →
          ∃ w, m.lookup s = some w := by
        intro m s
        induction m with
        | nil => simp
        | cons p m ih =>
          intro hh
          obtain ⟨a, b⟩ := p
          by_cases e : s = a
          · exact ⟨b, by simp [List.lookup, e]⟩
          · have : (s == a) = false := by simpa using e
            simp only [List.lookup, this]
            apply ih
            simpa [e] using hh
      exact this _ _ hin
    obtain ⟨w, hw⟩ := hl
    rw [hw, Option.getD_some]
    have mem : (l.cls, w) ∈ layersWeightsMap := by
      have : ∀ (m : List (String × List String)) s w, m.lookup s = some w → (s, w) ∈ m := by
        intro m s w
        induction m with
        | nil => simp
        | cons p m ih =>
          obtain ⟨a, b⟩ := p
          by_cases e : s = a
          · subst e; simp [List.lookup]; rintro rfl; simp
          · have : (s == a) = false := by simpa using e
            simp only [List.lookup, this]
            intro hh
            exact List.mem_cons_of_mem _ (ih hh)
      exact this _ _ _ hw
    exact table _ mem

example : prunableWeights ⟨"d", "Dense", none, []⟩ = .ok [⟨none, "kernel"⟩] := rfl

/-- A stacked RNN with a custom prunable cell. -/
example : (prunableWeights ⟨"r", "RNN", none, [⟨"LSTMCell", none⟩, ⟨"MyCell", some ["w"]⟩]⟩).toOption =
    some [⟨some 0, "kernel"⟩, ⟨some 0, "recurrent_kernel"⟩, ⟨some 1, "w"⟩] := by decide

/-- **C18 (violated).** The registry means to support the `Rescaling` preprocessing layer but registers
its metaclass, so such a layer is rejected. -/
theorem C18_rescaling_violated : canWrap ⟨"r", "Rescaling", none, []⟩ = false := by decide

end Verif.Props
