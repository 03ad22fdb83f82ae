import Verif.Props.Wrapper
import Verif.Props.ClusterWrapper
import Verif.Props.CompressionSchedules

/-!
# C107: evaluating a model between training steps does not change its training

Pruning, clustering and periodic SVD; quantization is in `EvaluationQuant.lean`.
-/
set_option linter.unusedSectionVars false
namespace Verif.Props

section Pruning
open Verif.Sparsity
variable {α : Type*} [Field α] [LinearOrder α] [IsStrictOrderedRing α] [FloorRing α]

/-- An optimizer: the new values of the weights depend on the state after the forward pass. -/
abbrev Spec.Optimizer (α : Type*) := List (PLayer α) → ℕ → ℕ → ℕ → α

/-- One training step: forward pass, then optimizer; an exception ends the training. -/
def Spec.trainBatch (g : Spec.Optimizer α) (m : PModel α) : Except PruneError (PModel α) :=
  match pStep m (.call true) with
  | (m', none) => .ok (pStep m' (.optimizer (g m'.layers))).1
  | (_, some e) => .error e

/-- The training steps of an epoch. -/
def Spec.trainBatches : List (Spec.Optimizer α) → PModel α → Except PruneError (PModel α)
  | [], m => .ok m
  | g :: gs, m =>
    match Spec.trainBatch g m with
    | .ok m' => Spec.trainBatches gs m'
    | .error e => .error e

/-- `n` evaluation steps. -/
def Spec.evaluations : ℕ → PModel α → PModel α
  | 0, m => m
  | n + 1, m => Spec.evaluations n (pStep m (.call false)).1

/-- `fit`, after `on_train_begin`: for every epoch its training steps, then the given number of
validation steps, then the callbacks. -/
def Spec.fitEpochs : List (List (Spec.Optimizer α) × ℕ) → PModel α → Except PruneError (PModel α)
  | [], m => .ok m
  | (gs, n) :: rest, m =>
    match Spec.trainBatches gs m with
    | .ok m' => Spec.fitEpochs rest (pStep (Spec.evaluations n m') .epochEnd).1
    | .error e => .error e

/-- `fit` with the `UpdatePruningStep` callback. -/
def Spec.fit (epochs : List (List (Spec.Optimizer α) × ℕ)) (m : PModel α) :
    Except PruneError (PModel α) := Spec.fitEpochs epochs (pStep m .trainBegin).1

/-- All weights with mask zero are zero. -/
def Spec.AlreadyMasked (l : PLayer α) : Prop := ∀ v ∈ l.vars, applyMask v = v

theorem Aux.applyMask_idem {v : PVar α} (h : Spec.GoodVar v) :
    applyMask (applyMask v) = applyMask v := by
  obtain ⟨h1, h2, h3⟩ := h
  unfold applyMask
  dsimp only
  congr 1
  apply List.ext_getElem
  · simp [h1, h2]
  · intro i hi hi'
    simp only [List.getElem_zipWith]
    have hm : i < v.mask.length := by simp at hi; omega
    rcases h3 v.mask[i] (List.getElem_mem hm) with z | o
    · rw [z]; simp
    · rw [o]; simp

theorem Aux.forward_false (ls : List (PLayer α)) :
    forward false ls = (ls.map fun l => { l with vars := l.vars.map applyMask }, none) := by
  induction ls with
  | nil => rfl
  | cons l ls ih =>
    have : callLayer false l = ({ l with vars := l.vars.map applyMask }, none) := rfl
    simp only [forward, this, ih, List.map_cons]

theorem Aux.maskAll_idem {ls : List (PLayer α)} (h : ∀ l ∈ ls, ∀ v ∈ l.vars, Spec.GoodVar v) :
    (ls.map fun l => { l with vars := l.vars.map applyMask }).map
      (fun l => { l with vars := l.vars.map applyMask }) =
    ls.map fun l => { l with vars := l.vars.map applyMask } := by
  rw [List.map_map]
  apply List.map_congr_left
  intro l hl
  simp only [Function.comp_apply, List.map_map, PLayer.mk.injEq, true_and, and_true]
  apply List.map_congr_left
  intro v hv
  exact Aux.applyMask_idem (h l hl v hv)

theorem Aux.evaluations_spec (n : ℕ) : ∀ m : PModel α,
    (∀ l ∈ m.layers, ∀ v ∈ l.vars, Spec.GoodVar v) →
    Spec.evaluations n m = m ∨ Spec.evaluations n m =
      { m with layers := m.layers.map fun l => { l with vars := l.vars.map applyMask } } := by
  induction n with
  | zero => exact fun m _ => Or.inl rfl
  | succ n ih =>
    intro m h
    right
    have hs : (pStep m (.call false)).1 =
        { m with layers := m.layers.map fun l => { l with vars := l.vars.map applyMask } } := by
      simp only [pStep, Aux.forward_false]
    have hg : ∀ l ∈ (pStep m (.call false)).1.layers, ∀ v ∈ l.vars, Spec.GoodVar v := by
      rw [hs]
      intro l hl
      obtain ⟨l', hl', rfl⟩ := List.mem_map.1 hl
      exact Aux.map_applyMask_good (h l' hl')
    unfold Spec.evaluations
    rcases ih _ hg with h1 | h1
    · rw [h1, hs]
    · rw [h1, hs]
      dsimp only
      rw [Aux.maskAll_idem h]

theorem Aux.trainBatches_good (gs : List (Spec.Optimizer α)) : ∀ m m' : PModel α,
    (∀ l ∈ m.layers, Spec.GoodLayer l) → Spec.trainBatches gs m = .ok m' →
    (∀ l ∈ m'.layers, Spec.GoodLayer l) ∧ m'.collected = m.collected := by
  induction gs with
  | nil =>
    intro m m' h e
    cases e
    exact ⟨h, rfl⟩
  | cons g gs ih =>
    intro m m' h e
    have h1 := Aux.pStep_good (.call true) h
    have hc1 : (pStep m (.call true)).1.collected = m.collected := rfl
    unfold Spec.trainBatches Spec.trainBatch at e
    rcases hs : pStep m (.call true) with ⟨m1, _ | er⟩
    · rw [hs] at e h1 hc1
      dsimp only at e h1 hc1
      have h2 := Aux.pStep_good (.optimizer (g m1.layers)) h1
      obtain ⟨h3, h4⟩ := ih _ _ h2 e
      exact ⟨h3, h4.trans hc1⟩
    · rw [hs] at e
      cases e

/-- **C107** (pruning, `fit`).  Training with validation data, with any number of validation steps
after each epoch, gives the same model (weights, masks, thresholds and step counters) and raises the
same errors as training without, whatever the optimizer does. -/
theorem C107_pruning_fit (m : PModel α) (hm : Spec.GoodModel m)
    (hb : ∀ l ∈ m.layers, Spec.PosBlock l.cfg) (epochs : List (List (Spec.Optimizer α) × ℕ)) :
    Spec.fit epochs m = Spec.fit (epochs.map fun e => (e.1, 0)) m := by
  have key : ∀ (epochs : List (List (Spec.Optimizer α) × ℕ)) (m : PModel α),
      (∀ l ∈ m.layers, Spec.GoodLayer l) → m.collected = true →
      Spec.fitEpochs epochs m = Spec.fitEpochs (epochs.map fun e => (e.1, 0)) m := by
    intro epochs
    induction epochs with
    | nil => intro m _ _; rfl
    | cons e rest ih =>
      intro m hg hc
      obtain ⟨gs, n⟩ := e
      simp only [List.map_cons, Spec.fitEpochs]
      cases hr : Spec.trainBatches gs m with
      | error e => rfl
      | ok m' =>
        dsimp only
        obtain ⟨hg', hc'⟩ := Aux.trainBatches_good gs m m' hg hr
        have hv : ∀ l ∈ m'.layers, ∀ v ∈ l.vars, Spec.GoodVar v := fun l hl => (hg' l hl).2
        have hE : (pStep (Spec.evaluations n m') .epochEnd).1 = (pStep m' .epochEnd).1 := by
          rcases Aux.evaluations_spec n m' hv with h1 | h1
          · rw [h1]
          · rw [h1]
            simp only [pStep, hc', hc, if_true]
            rw [Aux.maskAll_idem hv]
        have h0 : Spec.evaluations 0 m' = m' := rfl
        rw [hE, h0]
        apply ih
        · exact Aux.pStep_good .epochEnd hg'
        · simp [pStep, hc', hc]
  exact key epochs _ (Aux.pStep_good .trainBegin fun l hl => ⟨hb l hl, hm l hl⟩) rfl

/-- **C107** (pruning, one evaluation anywhere).  In every reachable state an evaluation changes no
mask, threshold, step counter or unpruned weight, and a training step after it has the same result
as without it, if no layer updates its mask in that step except those whose pruned weights are zero
already.

Partial: see `C107_pruning_violated` for a step with an update of the mask. -/
theorem C107_pruning_step_partial (m : PModel α) (hm : Spec.GoodModel m)
    (hb : ∀ l ∈ m.layers, Spec.PosBlock l.cfg) (hist : List (PEvent α)) :
    List.Forall₂ (fun l l' => l'.cfg = l.cfg ∧ l'.step = l.step ∧
        List.Forall₂ (fun v v' => v'.shape = v.shape ∧ v'.mask = v.mask ∧
          v'.threshold = v.threshold ∧ Spec.Masked v v') l.vars l'.vars)
      (pRun m hist).layers (pStep (pRun m hist) (.call false)).1.layers ∧
    ∀ g m', (∀ l ∈ (pRun m hist).layers,
        shouldUpdate l.cfg (l.step + 1) = false ∨ Spec.AlreadyMasked l) →
      Spec.trainBatch g (pRun m hist) = .ok m' →
      Spec.trainBatch g (pStep (pRun m hist) (.call false)).1 = .ok m' := by
  have hg := Aux.pRun_good hist (fun l hl => ⟨hb l hl, hm l hl⟩ : ∀ l ∈ m.layers, Spec.GoodLayer l)
  generalize pRun m hist = m1 at hg
  have hs : (pStep m1 (.call false)).1 =
      { m1 with layers := m1.layers.map fun l => { l with vars := l.vars.map applyMask } } := by
    simp only [pStep, Aux.forward_false]
  rw [hs]
  constructor
  · dsimp only
    rw [List.forall₂_map_right_iff]
    refine List.forall₂_same.2 fun l hl => ⟨rfl, rfl, ?_⟩
    rw [List.forall₂_map_right_iff]
    exact List.forall₂_same.2 fun v hv => ⟨rfl, rfl, rfl, Aux.applyMask_masked ((hg l hl).2 v hv)⟩
  · intro g m' hdue h
    have hfw : ∀ ls : List (PLayer α), (∀ l ∈ ls, Spec.GoodLayer l) →
        (∀ l ∈ ls, shouldUpdate l.cfg (l.step + 1) = false ∨ Spec.AlreadyMasked l) →
        (forward true ls).2 = none →
        forward true (ls.map fun l => { l with vars := l.vars.map applyMask }) =
          forward true ls := by
      intro ls
      induction ls with
      | nil => intro _ _ _; rfl
      | cons l ls ih =>
        intro h1 h2 h3
        have hl : (callLayer true l).2 = none := by
          unfold forward at h3
          rcases hc : callLayer true l with ⟨l', _ | e⟩
          · rfl
          · rw [hc] at h3; simp at h3
        have hcl : callLayer true { l with vars := l.vars.map applyMask } = callLayer true l := by
          have hidem : (l.vars.map applyMask).map applyMask = l.vars.map applyMask := by
            rw [List.map_map]
            exact List.map_congr_left fun v hv => Aux.applyMask_idem ((h1 l (by simp)).2 v hv)
          rcases h2 l (by simp) with hd | hd
          · unfold callLayer at hl ⊢
            simp only [if_true] at hl ⊢
            by_cases hst : l.step + 1 < 1
            · simp [hst] at hl
            · simp only [hst, if_false, hd, Bool.false_eq_true, hidem]
          · have : l.vars.map applyMask = l.vars := by
              conv_rhs => rw [← List.map_id l.vars]
              exact List.map_congr_left fun v hv => hd v hv
            rw [this]
        have hr : (forward true ls).2 = none := by
          unfold forward at h3
          rcases hc : callLayer true l with ⟨l', _ | e⟩
          · rw [hc] at h3; exact h3
          · rw [hc] at hl; simp at hl
        simp only [List.map_cons, forward, hcl,
          ih (fun l hl => h1 l (by simp [hl])) (fun l hl => h2 l (by simp [hl])) hr]
        rcases hc : callLayer true l with ⟨l', _ | e⟩
        · rfl
        · rw [hc] at hl; simp at hl
    unfold Spec.trainBatch pStep at h ⊢
    dsimp only at h ⊢
    cases hn : (forward true m1.layers).2 with
    | some e => rw [hn] at h; cases h
    | none =>
      rw [hfw m1.layers hg hdue hn]
      exact h

/-- Pruning half of two weights at every step. -/
def Example.evalCfg : PruneCfg ℚ := ⟨fun _ => (true, 1/2), 1, 1, .AVG, none⟩

/-- The weights 1 and 2. -/
def Example.evalModel : PModel ℚ := ⟨[freshLayer Example.evalCfg [([2], [1, 2])]], false⟩

/-- An optimizer that sets the weights to 3 and 2. -/
def Example.evalOptimizer : Spec.Optimizer ℚ := fun _ _ _ i => if i = 0 then 3 else 2

/-- The masks at the end. -/
def Example.evalMasks (m : Except PruneError (PModel ℚ)) : Option (List (List (List ℚ))) :=
  match m with
  | .ok m => some (m.layers.map fun l => l.vars.map fun v => v.mask)
  | .error _ => none

/-- Two training steps. -/
def Example.evalTwice : Except PruneError (PModel ℚ) :=
  Spec.trainBatches [Example.evalOptimizer, Example.evalOptimizer]
    (pStep Example.evalModel .trainBegin).1

/-- Two training steps with an evaluation between them. -/
def Example.evalBetween : Except PruneError (PModel ℚ) :=
  match Spec.trainBatch Example.evalOptimizer (pStep Example.evalModel .trainBegin).1 with
  | .ok m => Spec.trainBatch Example.evalOptimizer (pStep m (.call false)).1
  | .error e => .error e

/-- **C107** is violated for pruning: an evaluation sets the pruned weights to zero, which the
optimizer has just changed, so the next update of the mask decides differently. -/
theorem C107_pruning_violated :
    Example.evalMasks Example.evalTwice = some [[[1, 0]]] ∧
    Example.evalMasks Example.evalBetween = some [[[0, 1]]] := by
  constructor <;> decide +kernel

example : Spec.GoodModel Example.evalModel ∧ ∀ l ∈ Example.evalModel.layers, Spec.PosBlock l.cfg := by
  constructor
  · intro l hl v hv
    simp only [Example.evalModel, List.mem_singleton] at hl
    subst hl
    simp only [freshLayer, List.map_cons, List.map_nil, List.mem_singleton] at hv
    subst hv
    refine ⟨by simp, by simp, ?_⟩
    intro x hx
    exact Or.inr (List.eq_of_mem_replicate hx)
  · intro l hl
    simp only [Example.evalModel, List.mem_singleton] at hl
    subst hl
    exact ⟨le_refl _, le_refl _⟩

end Pruning

section Clustering
open Verif.Clustering
variable {κ ι : Type*} {α : Type*} [Field α] [LinearOrder α] [IsStrictOrderedRing α]

/-- What is done with a model of clustered weights: training steps (a forward pass, then an optimizer
that gives all original weights and centroids new values, which depend on the state after the forward
pass), and evaluations (forward passes). -/
inductive Spec.ClusterPhase (κ ι α : Type*) where
  | train (g : (κ → CState ι α) → κ → (ι → α) × (ℕ → ℕ → α))
  | evaluate

/-- A forward pass through all clustered layers. -/
def Spec.clusterForward (preserve : κ → Bool) (ch : κ → ι → ℕ) (s : κ → CState ι α) :
    κ → CState ι α := fun k => (s k).step (preserve k) (ch k) .call

/-- One phase. -/
def Spec.clusterPhase (preserve : κ → Bool) (ch : κ → ι → ℕ) (s : κ → CState ι α) :
    Spec.ClusterPhase κ ι α → κ → CState ι α
  | .train g =>
    let s' := Spec.clusterForward preserve ch s
    fun k => (s' k).step (preserve k) (ch k) (.assign (g s' k).1 (g s' k).2)
  | .evaluate => Spec.clusterForward preserve ch s

/-- A history. -/
def Spec.clusterPhases (preserve : κ → Bool) (ch : κ → ι → ℕ) (s : κ → CState ι α)
    (ps : List (Spec.ClusterPhase κ ι α)) : κ → CState ι α :=
  ps.foldl (Spec.clusterPhase preserve ch) s

/-- Whether a phase is training. -/
def Spec.ClusterPhase.isTrain : Spec.ClusterPhase κ ι α → Bool
  | .train _ => true
  | .evaluate => false

theorem Aux.resetZero_idem (cs : List α) (z : ℕ) :
    resetZero (resetZero cs z) z = resetZero cs z := by
  have hz : (resetZero cs z).getD z 0 = 0 := by
    unfold resetZero
    rw [List.getD_eq_getElem?_getD, List.getElem?_map]
    rcases h : cs[z]? with _ | c
    · rfl
    · have : cs.getD z 0 = c := by rw [List.getD_eq_getElem?_getD, h]; rfl
      rw [this]
      simp
  have h1 : resetZero (resetZero cs z) z =
      (resetZero cs z).map fun c => c * (if c ≠ (resetZero cs z).getD z 0 then 1 else 0) := rfl
  rw [h1, hz]
  conv_rhs => rw [← List.map_id (resetZero cs z)]
  apply List.map_congr_left
  intro c _
  by_cases hc : c = 0
  · simp [hc]
  · simp [hc]

theorem Aux.update_idem (p : Bool) (ch : ι → ℕ) (s : CState ι α) :
    (s.update p ch).update p ch = s.update p ch := by
  cases p with
  | false => simp [CState.update]
  | true => simp [CState.update, Aux.resetZero_idem]

theorem Aux.clusterForward_idem (preserve : κ → Bool) (ch : κ → ι → ℕ) (s : κ → CState ι α) :
    Spec.clusterForward preserve ch (Spec.clusterForward preserve ch s) =
      Spec.clusterForward preserve ch s := by
  funext k
  exact Aux.update_idem (preserve k) (ch k) (s k)

/-- **C107** (clustering).  However evaluations are mixed with training steps, from any state on,
whatever the optimizer does: the next forward pass computes with the same clustered weights, and the
original weights, centroids, masks and cluster indices are then the same, as if the evaluations had
not happened.  If the history ends with a training step they are the same already. -/
theorem C107_clustering (preserve : κ → Bool) (ch : κ → ι → ℕ) (s : κ → CState ι α)
    (ps : List (Spec.ClusterPhase κ ι α)) :
    Spec.clusterForward preserve ch (Spec.clusterPhases preserve ch s ps) =
      Spec.clusterForward preserve ch
        (Spec.clusterPhases preserve ch s (ps.filter Spec.ClusterPhase.isTrain)) ∧
    ∀ g, Spec.clusterPhases preserve ch s (ps ++ [.train g]) =
      Spec.clusterPhases preserve ch s (ps.filter Spec.ClusterPhase.isTrain ++ [.train g]) := by
  have key : ∀ (ps : List (Spec.ClusterPhase κ ι α)) (s s' : κ → CState ι α),
      Spec.clusterForward preserve ch s = Spec.clusterForward preserve ch s' →
      Spec.clusterForward preserve ch (Spec.clusterPhases preserve ch s ps) =
      Spec.clusterForward preserve ch
        (Spec.clusterPhases preserve ch s' (ps.filter Spec.ClusterPhase.isTrain)) := by
    intro ps
    induction ps with
    | nil => exact fun s s' h => h
    | cons p ps ih =>
      intro s s' h
      cases p with
      | train g =>
        have hf : (Spec.ClusterPhase.train g :: ps).filter Spec.ClusterPhase.isTrain =
            .train g :: ps.filter Spec.ClusterPhase.isTrain := rfl
        rw [hf]
        apply ih
        have : Spec.clusterPhase preserve ch s (.train g) =
            Spec.clusterPhase preserve ch s' (.train g) := by
          simp only [Spec.clusterPhase, h]
        rw [this]
      | evaluate =>
        have hf : (Spec.ClusterPhase.evaluate :: ps).filter
            (Spec.ClusterPhase.isTrain (κ := κ) (ι := ι) (α := α)) =
            ps.filter Spec.ClusterPhase.isTrain := rfl
        rw [hf]
        apply ih
        exact (Aux.clusterForward_idem preserve ch s).trans h
  refine ⟨key ps s s rfl, fun g => ?_⟩
  have := key ps s s rfl
  unfold Spec.clusterPhases at this ⊢
  rw [List.foldl_append, List.foldl_append]
  simp only [List.foldl_cons, List.foldl_nil, Spec.clusterPhase, this]

end Clustering

section Svd
open Verif.Compression

/-- **C107** is violated for the periodic SVD: every forward pass, also one of an evaluation, counts
as a step, so the rank is lowered after fewer training steps and, when the counter is a multiple of
`update_freq`, the evaluation itself replaces the weight by its truncation. -/
theorem C107_svd_violated {m n : ℕ} (svd : Svd m n) (rank freq warmup : ℕ)
    (w : Matrix (Fin m) (Fin n) ℝ) (deltas : List (Matrix (Fin m) (Fin n) ℝ)) :
    (project svd rank freq warmup
      (deltas.foldl (Spec.trainStep svd rank freq warmup) ⟨w, 0⟩)).2.step = deltas.length + 1 ∧
    (freq ∣ deltas.length →
      (project svd rank freq warmup
        (deltas.foldl (Spec.trainStep svd rank freq warmup) ⟨w, 0⟩)).2.w =
        let w' := (deltas.foldl (Spec.trainStep svd rank freq warmup) ⟨w, 0⟩).w
        svdDecompress (svdCompress (scheduledRank (min m n) rank warmup deltas.length)
          (svd.s w') (svd.u w') (svd.v w'))) := by
  have hc := C63_counter svd rank freq warmup w deltas
  refine ⟨by simp only [project, hc], fun h => ?_⟩
  generalize deltas.foldl (Spec.trainStep svd rank freq warmup) ⟨w, 0⟩ = st at hc
  obtain ⟨w', k⟩ := st
  dsimp only at hc
  subst hc
  have : deltas.length % freq = 0 := Nat.mod_eq_zero_of_dvd h
  simp only [project, this, if_true]

end Svd

end Verif.Props
