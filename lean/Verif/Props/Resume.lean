import Verif.Checkpoint
import Verif.Props.Wrapper
import Verif.Props.ClusterWrapper
import Verif.Props.EvaluationQuant

/-!
# Property C108: training can be interrupted and resumed from a checkpoint

At any point of a history the variables are saved; later the model is built again from other initial weights, the
variables are restored, and training goes on.  It must go on as if it had not been interrupted.
-/

set_option linter.unusedSectionVars false
namespace Verif.Props

/-! ## Pruning -/

section Pruning
open Verif.Sparsity
variable {α : Type*} [Field α] [LinearOrder α] [IsStrictOrderedRing α] [FloorRing α]

/-- Two models are built by the same code: the same layers, configurations and shapes of weights. -/
def Spec.SameBuild (m m' : PModel α) : Prop :=
  List.Forall₂ (fun l l' => l'.cfg = l.cfg ∧ l'.vars.map PVar.shape = l.vars.map PVar.shape) m.layers m'.layers

namespace Aux

theorem loadWeights_values : ∀ (vs' vs : List (PVar α)) (rest : List (Value α)),
    vs'.map PVar.shape = vs.map PVar.shape →
    loadWeights vs' ((vs.map fun v => Value.tensor v.shape v.weight) ++ rest) =
      some (List.zipWith (fun v' v => { v' with weight := v.weight }) vs' vs, rest)
  | [], [], rest, _ => rfl
  | [], _ :: _, _, h => by simp at h
  | _ :: _, [], _, h => by simp at h
  | v' :: vs', v :: vs, rest, h => by
    simp only [List.map_cons, List.cons.injEq] at h
    simp only [List.map_cons, List.cons_append, loadWeights, h.1, if_true,
      loadWeights_values vs' vs rest h.2, List.zipWith_cons_cons]

theorem loadMasks_values : ∀ (vs' vs : List (PVar α)) (rest : List (Value α)),
    vs'.map PVar.shape = vs.map PVar.shape → vs'.map PVar.weight = vs.map PVar.weight →
    loadMasks vs' ((vs.flatMap fun v => [Value.tensor v.shape v.mask, .scalar v.threshold]) ++ rest) =
      some (vs, rest)
  | [], [], rest, _, _ => rfl
  | [], _ :: _, _, h, _ => by simp at h
  | _ :: _, [], _, h, _ => by simp at h
  | v' :: vs', v :: vs, rest, h, hw => by
    simp only [List.map_cons, List.cons.injEq] at h hw
    obtain ⟨s', w', m', t'⟩ := v'
    obtain ⟨s, w, m, t⟩ := v
    obtain ⟨rfl, h⟩ := h
    obtain ⟨rfl, hw⟩ := hw
    simp only [List.flatMap_cons, List.cons_append, List.nil_append, List.append_assoc, loadMasks, if_true,
      loadMasks_values vs' vs rest h hw]

theorem load_values {l l' : PLayer α} (hc : l'.cfg = l.cfg)
    (hs : l'.vars.map PVar.shape = l.vars.map PVar.shape) : l'.load l.values = some l := by
  have hlen : l'.vars.length = l.vars.length := by simpa using congrArg List.length hs
  unfold PLayer.load PLayer.values
  rw [List.append_assoc, loadWeights_values _ _ _ hs]
  dsimp only
  have h1 : (List.zipWith (fun v' v => ({ v' with weight := v.weight } : PVar α)) l'.vars l.vars).map PVar.shape =
      l.vars.map PVar.shape := by
    rw [← hs]
    apply List.ext_getElem
    · simp [hlen]
    · intro i h1 h2
      simp
  have h2 : (List.zipWith (fun v' v => ({ v' with weight := v.weight } : PVar α)) l'.vars l.vars).map PVar.weight =
      l.vars.map PVar.weight := by
    apply List.ext_getElem
    · simp [hlen]
    · intro i h1 h2
      simp
  rw [loadMasks_values _ _ _ h1 h2]
  dsimp only
  obtain ⟨cfg, vars, step⟩ := l
  dsimp only at hc
  rw [hc]

theorem loadLayers_values {ls ls' : List (PLayer α)}
    (h : List.Forall₂ (fun l l' => l'.cfg = l.cfg ∧ l'.vars.map PVar.shape = l.vars.map PVar.shape) ls ls') :
    loadLayers ls' (ls.map PLayer.values) = some ls := by
  induction h with
  | nil => rfl
  | cons h1 _ ih =>
    simp only [List.map_cons, loadLayers, load_values h1.1 h1.2, ih]

theorem updateVars_shapes (cfg : PruneCfg α) (step : ℤ) (vs : List (PVar α)) :
    (updateVars cfg step vs).1.map PVar.shape = vs.map PVar.shape := by
  induction vs with
  | nil => rfl
  | cons v vs ih =>
    unfold updateVars
    cases computeMask cfg step v.shape v.weight with
    | error e => rfl
    | ok r =>
      simp only [List.map_cons]
      rw [ih]

theorem applyMask_shapes (vs : List (PVar α)) : (vs.map applyMask).map PVar.shape = vs.map PVar.shape := by
  rw [List.map_map]; rfl

theorem callLayer_shapes (tr : Bool) (l : PLayer α) :
    (callLayer tr l).1.cfg = l.cfg ∧ (callLayer tr l).1.vars.map PVar.shape = l.vars.map PVar.shape := by
  unfold callLayer
  cases tr with
  | false => exact ⟨rfl, applyMask_shapes _⟩
  | true =>
    simp only [if_true]
    split_ifs with h1 h2
    · exact ⟨rfl, rfl⟩
    · split
      · exact ⟨rfl, updateVars_shapes _ _ _⟩
      · exact ⟨rfl, (applyMask_shapes _).trans (updateVars_shapes _ _ _)⟩
    · exact ⟨rfl, applyMask_shapes _⟩

theorem callLayer_step_ge (tr : Bool) (l : PLayer α) : l.step ≤ (callLayer tr l).1.step := by
  unfold callLayer
  cases tr with
  | false => exact le_refl _
  | true =>
    simp only [if_true]
    split_ifs with h1 h2
    · simp
    · split <;> simp
    · simp

theorem forward_shapes (tr : Bool) (ls : List (PLayer α)) :
    List.Forall₂ (fun l l' => (l'.cfg = l.cfg ∧ l'.vars.map PVar.shape = l.vars.map PVar.shape) ∧ l.step ≤ l'.step)
      ls (forward tr ls).1 := by
  induction ls with
  | nil => exact .nil
  | cons l ls ih =>
    unfold forward
    have h1 := callLayer_shapes tr l
    have h2 := callLayer_step_ge tr l
    rcases hc : callLayer tr l with ⟨l', e⟩
    rw [hc] at h1 h2
    cases e with
    | some e =>
      exact .cons ⟨h1, h2⟩ (List.forall₂_same.2 fun l _ => ⟨⟨rfl, rfl⟩, le_refl _⟩)
    | none => exact .cons ⟨h1, h2⟩ ih

theorem mapIdx_forall₂ {β γ : Type*} {R : β → γ → Prop} (f : ℕ → β → γ) (h : ∀ i x, R x (f i x)) (l : List β) :
    List.Forall₂ R l (l.mapIdx f) := by
  induction l generalizing f with
  | nil => exact .nil
  | cons x xs ih =>
    rw [List.mapIdx_cons]
    exact .cons (h 0 x) (ih (fun i => f (i + 1)) fun i x => h (i + 1) x)

theorem pStep_shapes (m : PModel α) (e : PEvent α) :
    List.Forall₂ (fun l l' => l'.cfg = l.cfg ∧ l'.vars.map PVar.shape = l.vars.map PVar.shape)
      m.layers (pStep m e).1.layers := by
  cases e with
  | optimizer f =>
    refine mapIdx_forall₂ _ (fun i l => ⟨rfl, ?_⟩) _
    apply List.ext_getElem
    · simp
    · intro j h1 h2
      simp
  | call tr => exact (forward_shapes tr m.layers).imp fun _ _ h => h.1
  | trainBegin =>
    change List.Forall₂ _ m.layers (onTrainBegin m.layers)
    cases m.layers with
    | nil => exact .nil
    | cons l ls =>
      unfold onTrainBegin
      dsimp only
      split_ifs
      · rw [List.forall₂_map_right_iff]
        exact List.forall₂_same.2 fun l _ => ⟨rfl, rfl⟩
      · exact List.forall₂_same.2 fun l _ => ⟨rfl, rfl⟩
  | epochEnd =>
    unfold pStep
    dsimp only
    split_ifs
    · rw [List.forall₂_map_right_iff]
      exact List.forall₂_same.2 fun l _ => ⟨rfl, applyMask_shapes _⟩
    · exact List.forall₂_same.2 fun l _ => ⟨rfl, rfl⟩

theorem pRun_shapes (m : PModel α) (hist : List (PEvent α)) :
    List.Forall₂ (fun l l' => l'.cfg = l.cfg ∧ l'.vars.map PVar.shape = l.vars.map PVar.shape)
      m.layers (pRun m hist).layers := by
  induction hist generalizing m with
  | nil => exact List.forall₂_same.2 fun l _ => ⟨rfl, rfl⟩
  | cons e rest ih =>
    exact forall₂_trans (pStep_shapes m e) (ih (pStep m e).1) fun _ _ _ h1 h2 => ⟨h2.1.trans h1.1, h2.2.trans h1.2⟩

/-- The step of the first layer, which `on_train_begin` inspects. -/
def headStep : List (PLayer α) → ℤ
  | [] => 0
  | l :: _ => l.step

theorem pStep_head (m : PModel α) (e : PEvent α) (h : -1 ≤ headStep m.layers) :
    headStep m.layers ≤ headStep (pStep m e).1.layers ∧
      (e = .trainBegin → 0 ≤ headStep (pStep m e).1.layers) := by
  obtain ⟨layers, collected⟩ := m
  cases layers with
  | nil =>
    have : (pStep ⟨[], collected⟩ e).1.layers = ([] : List (PLayer α)) := by
      cases e <;> first | rfl | (unfold pStep; dsimp only; split_ifs <;> rfl)
    rw [this]
    exact ⟨le_refl _, fun _ => le_refl _⟩
  | cons l ls =>
    cases e with
    | optimizer f =>
      refine ⟨?_, fun h => nomatch h⟩
      simp [pStep, optimizerStep, headStep, List.mapIdx_cons]
    | call tr =>
      refine ⟨?_, fun h => nomatch h⟩
      have := forward_shapes tr (l :: ls)
      change l.step ≤ headStep (forward tr (l :: ls)).1
      cases hf : (forward tr (l :: ls)).1 with
      | nil => rw [hf] at this; cases this
      | cons l' ls' =>
        rw [hf] at this
        cases this with
        | cons h1 _ => exact h1.2
    | trainBegin =>
      change l.step ≤ headStep (onTrainBegin (l :: ls)) ∧ (_ → 0 ≤ headStep (onTrainBegin (l :: ls)))
      change -1 ≤ l.step at h
      unfold onTrainBegin
      dsimp only
      split_ifs with hs
      · exact ⟨by rw [hs]; exact (by decide : (-1 : ℤ) ≤ 0), fun _ => le_refl _⟩
      · change l.step ≤ l.step ∧ (_ → 0 ≤ l.step)
        exact ⟨le_refl _, fun _ => by omega⟩
    | epochEnd =>
      refine ⟨?_, fun h => nomatch h⟩
      unfold pStep
      dsimp only
      split_ifs <;> exact le_refl _

theorem pRun_head (m : PModel α) (hist : List (PEvent α)) (h : -1 ≤ headStep m.layers)
    (hc : m.collected = true → 0 ≤ headStep m.layers) :
    ((pRun m hist).collected = true → 0 ≤ headStep (pRun m hist).layers) ∧
    (m.collected = true ∨ PEvent.trainBegin ∈ hist → (pRun m hist).collected = true) := by
  induction hist generalizing m with
  | nil => exact ⟨hc, fun h => h.elim id (fun h => by cases h)⟩
  | cons e rest ih =>
    obtain ⟨h1, h2⟩ := pStep_head m e h
    have hcol : (pStep m e).1.collected = true ↔ m.collected = true ∨ e = .trainBegin := by
      cases e with
      | optimizer f => simp [pStep]
      | call tr => simp [pStep]
      | trainBegin => simp [pStep]
      | epochEnd =>
        unfold pStep
        dsimp only
        split_ifs with hm <;> simp [hm]
    obtain ⟨g1, g2⟩ := ih (pStep m e).1 (h.trans h1) (by
      intro hx
      rcases hcol.1 hx with hm | he
      · exact (hc hm).trans h1
      · exact h2 he)
    refine ⟨g1, fun hx => g2 ?_⟩
    rcases hx with hx | hx
    · exact Or.inl (hcol.2 (Or.inl hx))
    · rcases List.mem_cons.1 hx with he | hx
      · exact Or.inl (hcol.2 (Or.inr he.symm))
      · exact Or.inr hx

end Aux

/-- **C108** (pruning, state).  After any history, saving the variables and restoring them into a model that the
same code built from any other weights gives back all weights, masks, thresholds and steps. -/
theorem C108_pruning_state (m m' : PModel α) (hb : Spec.SameBuild m m') (hist : List (PEvent α)) :
    m'.restore (pRun m hist).save = some ⟨(pRun m hist).layers, false⟩ := by
  unfold PModel.restore PModel.save
  rw [Aux.loadLayers_values]
  have h := Aux.pRun_shapes m hist
  unfold Spec.SameBuild at hb
  have h' : List.Forall₂ (fun l l' => l'.cfg = l.cfg ∧ l'.vars.map PVar.shape = l.vars.map PVar.shape)
      (pRun m hist).layers m.layers := (List.Forall₂.flip h).imp fun _ _ h => ⟨h.1.symm, h.2.symm⟩
  exact Aux.forall₂_trans h' hb fun _ _ _ h1 h2 => ⟨h2.1.trans h1.1, h2.2.trans h1.2⟩

/-- **C108** (pruning, resuming).  Wherever the training of a new model is interrupted after `fit` has started, a new
process that restores the checkpoint and calls `fit` again goes on as if there had been no interruption:
with the same steps, masks and weights, whatever the optimizer does. -/
theorem C108_pruning_resume (m m' : PModel α) (hb : Spec.SameBuild m m') (hnew : ∀ l ∈ m.layers, l.step = -1)
    (hcol : m.collected = false) (hist : List (PEvent α)) (hfit : PEvent.trainBegin ∈ hist) :
    ∃ r, m'.restore (pRun m hist).save = some r ∧
      ∀ rest, pRun r (.trainBegin :: rest) = pRun m (hist ++ rest) := by
  refine ⟨_, C108_pruning_state m m' hb hist, fun rest => ?_⟩
  have h1 : -1 ≤ Aux.headStep m.layers := by
    cases hm : m.layers with
    | nil => exact (by decide : (-1 : ℤ) ≤ 0)
    | cons l ls => rw [hm] at hnew; exact (hnew l (by simp)).ge
  obtain ⟨h2, h3⟩ := Aux.pRun_head m hist h1 (by rw [hcol]; exact fun h => nomatch h)
  have h4 := h3 (Or.inr hfit)
  have h5 := h2 h4
  have key : (pStep ⟨(pRun m hist).layers, false⟩ .trainBegin).1 = pRun m hist := by
    change (⟨onTrainBegin (pRun m hist).layers, true⟩ : PModel α) = pRun m hist
    have : onTrainBegin (pRun m hist).layers = (pRun m hist).layers := by
      cases hl : (pRun m hist).layers with
      | nil => rfl
      | cons l ls =>
        rw [hl] at h5
        change 0 ≤ l.step at h5
        unfold onTrainBegin
        dsimp only
        rw [if_neg (by omega)]
    rw [this]
    rcases hp : pRun m hist with ⟨ls, c⟩
    rw [hp] at h4
    dsimp only at h4 ⊢
    rw [h4]
  have : pRun m (hist ++ rest) = pRun (pRun m hist) rest := by
    unfold pRun; rw [List.foldl_append]
  rw [this]
  change pRun (pStep ⟨(pRun m hist).layers, false⟩ .trainBegin).1 rest = _
  rw [key]

/-- **C108** is violated for `get_weights` and `set_weights` of a pruned layer: they are those of the wrapped layer,
so the masks of the restored layer are 1 and its step is -1, and pruning starts again. -/
theorem C108_get_weights_violated (l : PLayer α) (weights : List (List ℕ × List α))
    (hs : weights.map Prod.fst = l.vars.map PVar.shape) :
    ∃ r, (freshLayer l.cfg weights).setWeights l.getWeights = some r ∧ r.step = -1 ∧
      r.vars.map PVar.weight = l.vars.map PVar.weight ∧ ∀ v ∈ r.vars, ∀ x ∈ v.mask, x = 1 := by
  have hs' : (freshLayer l.cfg weights).vars.map PVar.shape = l.vars.map PVar.shape := by
    rw [← hs]
    unfold freshLayer
    rw [List.map_map]
    rfl
  have hlen : (freshLayer l.cfg weights).vars.length = l.vars.length := by simpa using congrArg List.length hs'
  have h := Aux.loadWeights_values _ _ [] hs'
  rw [List.append_nil] at h
  refine ⟨_, by unfold PLayer.setWeights PLayer.getWeights; rw [h], rfl, ?_, ?_⟩
  · apply List.ext_getElem
    · simp [hlen]
    · intro i h1 h2
      simp
  · intro v hv
    obtain ⟨i, hi, rfl⟩ := List.mem_iff_getElem.1 hv
    intro x hx
    simp only [List.getElem_zipWith] at hx
    simp only [freshLayer, List.getElem_map, List.mem_replicate] at hx
    exact hx.2

end Pruning

/-! ## Clustering -/

section Clustering
open Verif.Clustering
variable {ι α : Type*} [Field α] [LinearOrder α] [IsStrictOrderedRing α]

/-- The weights with which the forward passes of a history compute. -/
def Spec.kernels (preserve : Bool) (ch : ι → ℕ) : CState ι α → List (CEvent ι α) → List (ι → α)
  | _, [] => []
  | s, .call :: rest => (s.step preserve ch .call).kernel :: Spec.kernels preserve ch (s.step preserve ch .call) rest
  | s, .assign o c :: rest => Spec.kernels preserve ch (s.step preserve ch (.assign o c)) rest

/-- The state after a history. -/
def Spec.continue (preserve : Bool) (ch : ι → ℕ) (s : CState ι α) (es : List (CEvent ι α)) : CState ι α :=
  es.foldl (CState.step preserve ch) s

namespace Aux

/-- Equal variables, and equal masks if they are used. -/
structure SameC (preserve : Bool) (s t : CState ι α) : Prop where
  saved : s.save = t.save
  masks : preserve = true → s.mask = t.mask ∧ s.zeroIdx = t.zeroIdx

theorem sameC_call {preserve : Bool} (ch : ι → ℕ) {s t : CState ι α} (h : SameC preserve s t) :
    SameC preserve (s.step preserve ch .call) (t.step preserve ch .call) ∧
      (s.step preserve ch .call).kernel = (t.step preserve ch .call).kernel := by
  obtain ⟨h1, h2⟩ := h
  obtain ⟨o, c, m, z, p, k⟩ := s
  obtain ⟨o', c', m', z', p', k'⟩ := t
  simp only [CState.save, CSaved.mk.injEq] at h1
  obtain ⟨rfl, rfl, rfl⟩ := h1
  cases preserve with
  | false =>
    exact ⟨⟨rfl, fun h => nomatch h⟩, rfl⟩
  | true =>
    obtain ⟨h3, h4⟩ := h2 rfl
    dsimp only at h3 h4
    subst h3 h4
    exact ⟨⟨rfl, fun _ => ⟨rfl, rfl⟩⟩, rfl⟩

theorem sameC_assign {preserve : Bool} (ch : ι → ℕ) {s t : CState ι α} (h : SameC preserve s t) (o : ι → α)
    (c : ℕ → ℕ → α) :
    SameC preserve (s.step preserve ch (.assign o c)) (t.step preserve ch (.assign o c)) := by
  obtain ⟨h1, h2⟩ := h
  simp only [CState.save, CSaved.mk.injEq] at h1
  refine ⟨?_, fun hp => h2 hp⟩
  simp only [CState.save, CState.step, CSaved.mk.injEq]
  rw [h1.2.1]
  exact ⟨trivial, rfl, h1.2.2⟩

theorem step_masks (preserve : Bool) (ch : ι → ℕ) (s : CState ι α) (e : CEvent ι α) :
    (s.step preserve ch e).mask = s.mask ∧ (s.step preserve ch e).zeroIdx = s.zeroIdx := by
  cases e <;> exact ⟨rfl, rfl⟩

theorem run_masks (preserve : Bool) (ch : ι → ℕ) (es : List (CEvent ι α)) (s : CState ι α) :
    (es.foldl (CState.step preserve ch) s).mask = s.mask ∧
      (es.foldl (CState.step preserve ch) s).zeroIdx = s.zeroIdx := by
  induction es generalizing s with
  | nil => exact ⟨rfl, rfl⟩
  | cons e es ih =>
    obtain ⟨h1, h2⟩ := ih (s.step preserve ch e)
    obtain ⟨h3, h4⟩ := step_masks preserve ch s e
    exact ⟨h1.trans h3, h2.trans h4⟩

theorem sameC_run {preserve : Bool} (ch : ι → ℕ) (es : List (CEvent ι α)) : ∀ {s t : CState ι α},
    SameC preserve s t → Spec.kernels preserve ch s es = Spec.kernels preserve ch t es ∧
      SameC preserve (Spec.continue preserve ch s es) (Spec.continue preserve ch t es) := by
  induction es with
  | nil => exact fun h => ⟨rfl, h⟩
  | cons e es ih =>
    intro s t h
    cases e with
    | call =>
      obtain ⟨h1, h2⟩ := sameC_call ch h
      obtain ⟨h3, h4⟩ := ih h1
      exact ⟨congrArg₂ List.cons h2 h3, h4⟩
    | assign o c => exact ih (sameC_assign ch h o c)

end Aux

/-- **C108** (clustering).  After any history, a wrapper that was built again and restored goes on as if there had
been no interruption: all forward passes compute with the same weights, and all variables stay the same.

Partial: with sparsity preserved the wrapper must be built again from the weights and centroids with which it
was first built, since the masks are not saved; see `C108_clustering_violated`. -/
theorem C108_clustering_partial (preserve : Bool) (ch : ι → ℕ) (w0 w0' : ι → α) (c0 c0' : ℕ → List α)
    (h : preserve = true → w0' = w0 ∧ c0' = c0) (hist rest : List (CEvent ι α)) :
    Spec.kernels preserve ch ((CState.build ch w0' c0').restore (CState.run preserve ch w0 c0 hist).save) rest =
      Spec.kernels preserve ch (CState.run preserve ch w0 c0 hist) rest ∧
    (Spec.continue preserve ch ((CState.build ch w0' c0').restore (CState.run preserve ch w0 c0 hist).save) rest).save =
      (Spec.continue preserve ch (CState.run preserve ch w0 c0 hist) rest).save := by
  have hs : Aux.SameC preserve ((CState.build ch w0' c0').restore (CState.run preserve ch w0 c0 hist).save)
      (CState.run preserve ch w0 c0 hist) := by
    refine ⟨rfl, fun hp => ?_⟩
    obtain ⟨rfl, rfl⟩ := h hp
    obtain ⟨h1, h2⟩ := Aux.run_masks preserve ch hist (CState.build ch w0' c0')
    exact ⟨h1.symm, h2.symm⟩
  obtain ⟨h1, h2⟩ := Aux.sameC_run ch rest hs
  exact ⟨h1, h2.saved⟩

namespace Example

/-- A pruned weight `[0, 1]`, and the weight `[1, 0]` a new model happens to have. -/
def resumeOld (p : ℕ) : ℚ := if p = 0 then 0 else 1
def resumeNew (p : ℕ) : ℚ := if p = 0 then 1 else 0
def resumeCents (_ : ℕ) : List ℚ := [0, 1]
/-- The wrapper in training, and restored in a new process. -/
def resumeSaved : CState ℕ ℚ := CState.run true (fun _ => 0) resumeOld resumeCents [.call]
def resumeLoaded : CState ℕ ℚ := (CState.build (fun _ => 0) resumeNew resumeCents).restore resumeSaved.save

end Example

/-- **C108** is violated for clustering with `preserve_sparsity`: the masks are made by `build` from the weights of
the new model.  In the restored model a weight of 1 is computed as 0 at once, without any training, and a
pruned weight that drifts comes back. -/
theorem C108_clustering_violated :
    (Example.resumeSaved.step true (fun _ => 0) .call).kernel 1 = 1 ∧
    (Example.resumeLoaded.step true (fun _ => 0) .call).kernel 1 = 0 ∧
    ∃ e : CEvent ℕ ℚ, (Spec.continue true (fun _ => 0) Example.resumeSaved [e, .call]).kernel 0 = 0 ∧
      (Spec.continue true (fun _ => 0) Example.resumeLoaded [e, .call]).kernel 0 = 1 := by
  refine ⟨by decide +kernel, by decide +kernel, .assign (fun _ => 1) (fun _ j => j), ?_, ?_⟩
  · decide +kernel
  · decide +kernel

/-- Without `preserve_sparsity` the same restored wrapper computes with the right weights. -/
example : ((CState.build (fun _ => 0) Example.resumeNew Example.resumeCents).restore
      (CState.run false (fun _ => 0) Example.resumeOld Example.resumeCents [.call]).save |>.step false (fun _ => 0)
        .call).kernel 1 = 1 := by decide +kernel

end Clustering

/-! ## Quantization -/

section Quantization
open Verif.Quant.Wrapper Verif.Quant.Config
variable {T V S : Type*}

namespace Aux

/-- The parts of a state that no event changes. -/
structure Skel (st st' : Spec.RefState T V S) : Prop where
  weights : st'.weightVars.map (fun e => (e.1, e.2.1)) = st.weightVars.map fun e => (e.1, e.2.1)
  acts : st'.acts.map (fun a => (a.act, a.quantizer, a.pre.isSome, a.post.isSome)) =
    st.acts.map fun a => (a.act, a.quantizer, a.pre.isSome, a.post.isSome)
  output : st'.output.map Prod.fst = st.output.map Prod.fst

theorem Skel.trans {a b c : Spec.RefState T V S} (h : Skel a b) (h' : Skel b c) : Skel a c :=
  ⟨h'.weights.trans h.weights, h'.acts.trans h.acts, h'.output.trans h.output⟩

theorem rangesAfter_skel (floats : ℕ → T) (tr : Bool) (wv : List (ℕ × Quant T V × V)) :
    (Spec.rangesAfter floats tr wv).map (fun e => (e.1, e.2.1)) = wv.map fun e => (e.1, e.2.1) := by
  induction wv with
  | nil => rfl
  | cons e rest ih =>
    unfold Spec.rangesAfter
    cases e.2.1.call e.2.2 tr (floats e.1) with
    | error er => rfl
    | ok r => simp only [List.map_cons, ih]

theorem quantizeIf_isSome {q : Quant T V} {v : Option V} {tr : Bool} {x : T} {r : T × Option V}
    (h : quantizeIf q v tr x = .ok r) : r.2.isSome = v.isSome := by
  cases v with
  | none => cases h; rfl
  | some v =>
    unfold quantizeIf at h
    dsimp only at h
    cases hq : q.call v tr x with
    | error e => rw [hq] at h; cases h
    | ok r' => rw [hq] at h; cases h; rfl

theorem awareCall_skel (a : Aware T V) (x : T) :
    ((a.call x).2.act, (a.call x).2.quantizer, (a.call x).2.pre.isSome, (a.call x).2.post.isSome) =
      (a.act, a.quantizer, a.pre.isSome, a.post.isSome) := by
  unfold Aware.call
  cases h1 : quantizeIf a.quantizer a.pre a.training x with
  | error e => rfl
  | ok r =>
    dsimp only
    cases h2 : quantizeIf a.quantizer a.post a.training (a.act.fn r.1) with
    | error e => dsimp only; rw [quantizeIf_isSome h1]
    | ok r' => dsimp only; rw [quantizeIf_isSome h1, quantizeIf_isSome h2]

theorem map_set_self {β γ : Type*} (f : β → γ) {l : List β} {j : ℕ} {a b : β} (h : l[j]? = some a)
    (hf : f b = f a) : (l.set j b).map f = l.map f := by
  rw [List.map_set, hf]
  exact set_self (by rw [List.getElem?_map, h]; rfl)

theorem execute_skel (attr : Key → Option (AVal T)) (p : Prog T S) : ∀ acts : List (Aware T V),
    (Spec.execute attr p acts).2.map (fun a => (a.act, a.quantizer, a.pre.isSome, a.post.isSome)) =
      acts.map fun a => (a.act, a.quantizer, a.pre.isSome, a.post.isSome) := by
  induction p with
  | ret o s => exact fun acts => rfl
  | act k x next ih =>
    intro acts
    unfold Spec.execute
    cases attr k with
    | none => rfl
    | some v =>
      cases v with
      | fn a => exact ih _ acts
      | aware j =>
        dsimp only
        cases hj : acts[j]? with
        | none => rfl
        | some a =>
          dsimp only
          have hset := map_set_self (fun a : Aware T V => (a.act, a.quantizer, a.pre.isSome, a.post.isSome)) hj
            (awareCall_skel a x)
          cases (a.call x).1 with
          | error e => exact hset
          | ok y => exact (ih y _).trans hset

theorem outputAfter_skel (tr : Bool) (out : Option (Quant T V × V)) (o : Out T) :
    (Spec.outputAfter tr out o).2.map Prod.fst = out.map Prod.fst := by
  cases out with
  | none => rfl
  | some qv =>
    cases o with
    | many ts => rfl
    | one t =>
      unfold Spec.outputAfter
      dsimp only
      cases qv.1.call qv.2 tr t <;> rfl

theorem emulate_skel (fn : LayerFn T S) (takes : Bool) (l₀ : Layer T) (wk ak : List Key)
    (st : Spec.RefState T V S) (tr : Bool) (x : T) :
    Skel st (Spec.emulate fn takes l₀ wk ak st tr x).2 := by
  have hw := rangesAfter_skel st.floats tr st.weightVars
  unfold Spec.emulate
  dsimp only
  cases Spec.quantized st.floats tr st.weightVars with
  | error e => exact ⟨hw, rfl, rfl⟩
  | ok ws =>
    dsimp only
    have ha := execute_skel (Spec.overwrite ak ((List.range st.acts.length).map .aware) (activationAt l₀))
        (fn st.state (Spec.overwrite wk ws fun k => (weightAt l₀ k).map (WVal.value st.floats))
          (if takes then some tr else none) x)
        (st.acts.map fun a => ({ a with training := tr } : Aware T V))
    rw [List.map_map] at ha
    rcases he : Spec.execute (Spec.overwrite ak ((List.range st.acts.length).map .aware) (activationAt l₀))
        (fn st.state (Spec.overwrite wk ws fun k => (weightAt l₀ k).map (WVal.value st.floats))
          (if takes then some tr else none) x)
        (st.acts.map fun a => ({ a with training := tr } : Aware T V)) with ⟨r, a2⟩
    rw [he] at ha ⊢
    cases r with
    | error e => exact ⟨hw, ha, rfl⟩
    | ok os => exact ⟨hw, ha, outputAfter_skel tr st.output os.1⟩

theorem emulateRun_skel (fn : LayerFn T S) (takes : Bool) (shape : ℕ → List ℕ) (tshape : T → List ℕ)
    (l₀ : Layer T) (wk ak : List Key) (events : List (Event T)) : ∀ st : Spec.RefState T V S,
    Skel st (Spec.emulateRun fn takes shape tshape l₀ wk ak events st).2 := by
  induction events with
  | nil => exact fun st => ⟨rfl, rfl, rfl⟩
  | cons e rest ih =>
    intro st
    cases e with
    | call tr x => exact (emulate_skel fn takes l₀ wk ak st tr x).trans (ih _)
    | assign i t =>
      have := ih { st with floats := if tshape t = shape i then Function.update st.floats i t else st.floats }
      exact ⟨this.weights, this.acts, this.output⟩

theorem emulateRun_unflag (fn : LayerFn T S) (takes : Bool) (shape : ℕ → List ℕ)
    (tshape : T → List ℕ) (l₀ : Layer T) (wk ak : List Key) (events : List (Event T)) :
    ∀ st st' : Spec.RefState T V S, unflag st = unflag st' →
      (Spec.emulateRun fn takes shape tshape l₀ wk ak events st).1 =
        (Spec.emulateRun fn takes shape tshape l₀ wk ak events st').1 ∧
      unflag (Spec.emulateRun fn takes shape tshape l₀ wk ak events st).2 =
        unflag (Spec.emulateRun fn takes shape tshape l₀ wk ak events st').2 := by
  induction events with
  | nil => exact fun st st' h => ⟨rfl, h⟩
  | cons e rest ih =>
    intro st st' h
    cases e with
    | assign i t =>
      exact ih { st with floats := if tshape t = shape i then Function.update st.floats i t else st.floats }
        { st' with floats := if tshape t = shape i then Function.update st'.floats i t else st'.floats }
        (by
          obtain ⟨fl, s, wv, acts, out⟩ := st
          obtain ⟨fl', s', wv', acts', out'⟩ := st'
          simp only [unflag, Spec.RefState.mk.injEq] at h ⊢
          obtain ⟨rfl, rfl, rfl, h4, rfl⟩ := h
          exact ⟨rfl, rfl, rfl, h4, rfl⟩)
    | call tr x =>
      obtain ⟨e1, e2⟩ := emulate_unflag fn takes l₀ wk ak h tr x
      obtain ⟨i1, i2⟩ := ih _ _ e2
      exact ⟨congrArg₂ List.cons e1 i1, i2⟩

theorem run_inv {conf : Conf T V} {shape : ℕ → List ℕ} {tshape : T → List ℕ} {l₀ : Layer T}
    {wk ak : List Key} (hlaw : Spec.Lawful conf shape tshape l₀ wk ak) (fn : LayerFn T S) (takes : Bool)
    (events : List (Event T)) : ∀ w : Wrapper T V S, WInv shape tshape l₀ wk ak w →
    WInv shape tshape l₀ wk ak (run conf fn takes shape tshape events w).2 := by
  induction events with
  | nil => exact fun w hw => hw
  | cons e rest ih =>
    intro w hw
    cases e with
    | call tr x => exact ih _ (call_refines hlaw fn takes w hw tr x).2.2.1
    | assign i t => exact ih _ (assign_inv hw i t)

theorem restoreWeightVars_eq : ∀ (es es' : List (ℕ × Quant T V × V)),
    es.map (fun e => (e.1, e.2.1)) = es'.map (fun e => (e.1, e.2.1)) →
    restoreWeightVars es (es'.map fun e => e.2.2) = es'
  | [], [], _ => rfl
  | [], _ :: _, h => by simp at h
  | _ :: _, [], h => by simp at h
  | e :: es, e' :: es', h => by
    simp only [List.map_cons, List.cons.injEq, Prod.mk.injEq] at h
    simp only [List.map_cons, restoreWeightVars, restoreWeightVars_eq es es' h.2, h.1.1, h.1.2]

theorem restoreActs_eq : ∀ (as as' : List (Aware T V)),
    as.map (fun a => (a.act, a.quantizer, a.pre.isSome, a.post.isSome)) =
      as'.map (fun a => (a.act, a.quantizer, a.pre.isSome, a.post.isSome)) →
    (restoreActs as (as'.map fun a => (a.pre, a.post))).map (fun a => ({ a with training := false } : Aware T V)) =
      as'.map (fun a => ({ a with training := false } : Aware T V))
  | [], [], _ => rfl
  | [], _ :: _, h => by simp at h
  | _ :: _, [], h => by simp at h
  | a :: as, a' :: as', h => by
    simp only [List.map_cons, List.cons.injEq, Prod.mk.injEq] at h
    simp only [List.map_cons, restoreActs, restoreActs_eq as as' h.2]
    obtain ⟨⟨h1, h2, h3, h4⟩, -⟩ := h
    obtain ⟨f, q, pre, post, tr⟩ := a
    obtain ⟨f', q', pre', post', tr'⟩ := a'
    dsimp only at h1 h2 h3 h4
    subst h1 h2
    unfold restoreAct
    cases pre <;> cases pre' <;> simp at h3 <;> cases post <;> cases post' <;> simp at h4 <;> rfl

theorem restoreOutput_eq (o o' : Option (Quant T V × V)) (h : o.map Prod.fst = o'.map Prod.fst) :
    restoreOutput o (o'.map Prod.snd) = o' := by
  cases o with
  | none => cases o' with
    | none => rfl
    | some _ => simp at h
  | some qv => cases o' with
    | none => simp at h
    | some qv' =>
      obtain ⟨q, v⟩ := qv
      obtain ⟨q', v'⟩ := qv'
      simp only [Option.map_some, Option.some.injEq] at h
      subst h
      rfl

/-- The values of the weights do not matter for `build`. -/
theorem build_again {conf : Conf T V} {shape : ℕ → List ℕ} {outShape : List ℕ} {floats floats' : ℕ → T}
    {l : Layer T} {s s' : S} {w w' : Wrapper T V S} (h : build conf shape outShape floats l s = .ok w)
    (h' : build conf shape outShape floats' l s' = .ok w') :
    w'.weightVars = w.weightVars ∧ w'.acts = w.acts ∧ w'.output = w.output := by
  unfold build at h h'
  cases h1 : conf.getWeights l with
  | error e => rw [h1] at h; cases h
  | ok ws =>
    rw [h1] at h h'; dsimp only at h h'
    cases h2 : buildWeights shape ws with
    | error e => rw [h2] at h; cases h
    | ok wv =>
      rw [h2] at h h'; dsimp only at h h'
      cases h3 : conf.getActivations l with
      | error e => rw [h3] at h; cases h
      | ok as =>
        rw [h3] at h h'; dsimp only at h h'
        cases h4 : buildActs as with
        | error e => rw [h4] at h; cases h
        | ok acts =>
          rw [h4] at h h'; dsimp only at h h'
          cases h5 : conf.getOutput l with
          | error e => rw [h5] at h; cases h
          | ok qs =>
            rw [h5] at h h'; dsimp only at h h'
            cases h6 : buildOutput outShape qs with
            | error e => rw [h6] at h; cases h
            | ok out =>
              rw [h6] at h h'
              cases h
              cases h'
              exact ⟨rfl, rfl, rfl⟩

theorem save_of_unflag {w w' : Wrapper T V S}
    (h : unflag (Spec.view w) = unflag (Spec.view w')) : w.save = w'.save := by
  unfold Wrapper.save
  simp only [unflag, Spec.view, Spec.RefState.mk.injEq] at h
  obtain ⟨h1, h2, h3, h4, h5⟩ := h
  have ha := congrArg (List.map fun a : Aware T V => (a.pre, a.post)) h4
  simp only [List.map_map, Function.comp_def] at ha
  rw [h1, h2, h3, ha, h5]

end Aux

/-- **C108** (quantization).  After any history of calls and updates of the weights, the variables are saved, the layer
is built and wrapped again with other weights, and the variables are restored: then all later calls have the
same results and leave the same variables as without the interruption. -/
theorem C108_quantization {conf : Conf T V} {shape : ℕ → List ℕ} {tshape : T → List ℕ} {l₀ : Layer T}
    {wk ak : List Key} (hlaw : Spec.Lawful conf shape tshape l₀ wk ak) (fn : LayerFn T S) (takes : Bool)
    (outShape : List ℕ) (floats floats' : ℕ → T) (s s' : S) (w w' : Wrapper T V S)
    (hb : build conf shape outShape floats l₀ s = .ok w) (hb' : build conf shape outShape floats' l₀ s' = .ok w')
    (hf : ∀ i, tshape (floats i) = shape i) (hf' : ∀ i, tshape (floats' i) = shape i)
    (hk : ∀ ws, conf.getWeights l₀ = .ok ws → ∀ e ∈ ws, Spec.KeepsShape tshape e.2)
    (hist rest : List (Event T)) :
    (run conf fn takes shape tshape rest (w'.restore (run conf fn takes shape tshape hist w).2.save)).1 =
      (run conf fn takes shape tshape rest (run conf fn takes shape tshape hist w).2).1 ∧
    (run conf fn takes shape tshape rest (w'.restore (run conf fn takes shape tshape hist w).2.save)).2.save =
      (run conf fn takes shape tshape rest (run conf fn takes shape tshape hist w).2).2.save := by
  have hw := Aux.build_inv hlaw hb hf hk
  have hw' := Aux.build_inv hlaw hb' hf' hk
  have hv := Aux.run_inv hlaw fn takes hist w hw
  have hsk := Aux.emulateRun_skel fn takes shape tshape l₀ wk ak hist (Spec.view w)
  rw [← (Aux.run_refines hlaw fn takes hist w hw).2] at hsk
  obtain ⟨b1, b2, b3⟩ := Aux.build_again hb hb'
  generalize (run conf fn takes shape tshape hist w).2 = v at hv hsk ⊢
  have e1 : restoreWeightVars w'.weightVars (v.weightVars.map fun e => e.2.2) = v.weightVars :=
    Aux.restoreWeightVars_eq _ _ (by rw [b1]; exact hsk.weights.symm)
  have e2 := Aux.restoreActs_eq w'.acts v.acts (by rw [b2]; exact hsk.acts.symm)
  have e3 : restoreOutput w'.output (v.output.map Prod.snd) = v.output :=
    Aux.restoreOutput_eq _ _ (by rw [b3]; exact hsk.output.symm)
  have hu : Aux.unflag (Spec.view (w'.restore v.save)) = Aux.unflag (Spec.view v) := by
    simp only [Aux.unflag, Spec.view, Wrapper.restore, Wrapper.save, Spec.RefState.mk.injEq]
    exact ⟨trivial, trivial, e1, e2, e3⟩
  have hr : Aux.WInv shape tshape l₀ wk ak (w'.restore v.save) := by
    refine ⟨hw'.parts, hw'.weights, hw'.acts, hw'.present, ?_, ?_, ?_⟩
    · change List.Forall₂ _ wk (restoreWeightVars w'.weightVars (v.weightVars.map fun e => e.2.2))
      rw [e1]
      have h1 := hw'.current
      have h2 : w'.weightVars.map (fun e => (e.1, e.2.1)) = v.weightVars.map fun e => (e.1, e.2.1) := by
        rw [b1]; exact hsk.weights.symm
      have h3 : List.Forall₂ (fun k (i : ℕ × Quant T V) => ∃ cur, weightAt w'.layer k = some cur ∧
          cur.shape shape tshape = shape i.1) wk (v.weightVars.map fun e => (e.1, e.2.1)) := by
        rw [← h2, List.forall₂_map_right_iff]
        exact h1
      rw [List.forall₂_map_right_iff] at h3
      exact h3
    · change ∀ e ∈ restoreWeightVars w'.weightVars (v.weightVars.map fun e => e.2.2), _
      rw [e1]
      exact hv.keeps
    · have := congrArg List.length e2
      simp only [List.length_map] at this
      exact this.trans hv.count
  obtain ⟨r1, r2⟩ := Aux.run_refines hlaw fn takes rest _ hr
  obtain ⟨q1, q2⟩ := Aux.run_refines hlaw fn takes rest _ hv
  obtain ⟨u1, u2⟩ := Aux.emulateRun_unflag fn takes shape tshape l₀ wk ak rest _ _ hu
  refine ⟨by rw [r1, q1, u1], Aux.save_of_unflag ?_⟩
  rw [r2, q2, u2]

end Quantization

/-! ## Sparsity-preserving quantization -/

section Preserve
open Verif.Quant

/-- **C108** (sparsity-preserving quantization).  If the rebuilt kernel has its zeros where the original one had
them, the restored quantizer goes on as without the interruption.

Partial: the mask is a plain tensor made by `build`; see `C108_prune_preserve_violated`. -/
theorem C108_prune_preserve_partial {α : Type*} [Field α] [LinearOrder α] [IsStrictOrderedRing α] [FloorRing α]
    (cfg : QCfg) (t₀ t₀' : QTensor α) (hz : List.Forall₂ (fun x y => x = 0 ↔ y = 0) t₀.data t₀'.data)
    (hist rest : List (Bool × QTensor α)) (os : List (QTensor α)) (v : RangeVars α)
    (h : prunePreserveHistory cfg t₀ hist = some (os, v)) :
    (prunePreserveRun cfg (sparsityMask t₀'.data) v rest).map (fun r => (os ++ r.1, r.2)) =
      prunePreserveHistory cfg t₀ (hist ++ rest) := by
  have hm : sparsityMask t₀'.data = sparsityMask t₀.data := by
    unfold sparsityMask
    revert hz
    generalize t₀.data = d, t₀'.data = d'
    intro hz
    induction hz with
    | nil => rfl
    | @cons x y _ _ h1 _ ih =>
      rw [List.map_cons, List.map_cons, ih]
      have hx : Verif.Clustering.divideNoNan x x = if x = 0 then 0 else 1 := by
        unfold Verif.Clustering.divideNoNan
        split_ifs with h0
        · rfl
        · exact div_self h0
      have hy : Verif.Clustering.divideNoNan y y = if y = 0 then 0 else 1 := by
        unfold Verif.Clustering.divideNoNan
        split_ifs with h0
        · rfl
        · exact div_self h0
      rw [hx, hy]
      simp only [h1]
  rw [hm]
  unfold prunePreserveHistory at h ⊢
  generalize (QKind.lastValue.build cfg (some t₀.shape) : RangeVars α) = v₀ at h ⊢
  clear hz hm
  induction hist generalizing v₀ os with
  | nil =>
    cases h
    simp
  | cons e hist ih =>
    obtain ⟨tr, t⟩ := e
    simp only [prunePreserveRun, Option.bind_eq_some_iff, Option.map_eq_some_iff] at h
    obtain ⟨r, h1, q, h2, h3⟩ := h
    cases h3
    have := ih q.1 r.2 (by rw [h2])
    simp only [List.cons_append, prunePreserveRun, h1, Option.bind_some, ← this, Option.map_map]
    rfl

/-- **C108** is violated for sparsity-preserving quantization: the mask of a new kernel without zeros lets the pruned
entry come back. -/
theorem C108_prune_preserve_violated :
    ∃ (t₀ t₀' t : QTensor ℚ) (v : RangeVars ℚ) (o o' : QTensor ℚ) (u u' : RangeVars ℚ),
      prunePreserveCall cfgDense8 (sparsityMask t₀.data) v true t = some (o, u) ∧ o.data.head? = some 0 ∧
      prunePreserveCall cfgDense8 (sparsityMask t₀'.data) v true t = some (o', u') ∧ o'.data.head? = some 127 :=
  ⟨⟨[2], [0, 1]⟩, ⟨[2], [1, 1]⟩, ⟨[2], [127, 127]⟩, QKind.lastValue.build cfgDense8 (some [2]), _, _, _, _, rfl,
    by decide +kernel, rfl, by decide +kernel⟩

end Preserve

/-! ## The hypotheses can be met -/

namespace Example
open Verif.Sparsity

/-- Prunes half of the entries at every step. -/
def resumeCfg : PruneCfg ℚ := ⟨fun _ => (true, 1 / 2), 1, 1, .AVG, none⟩
def resumeModel (w : List ℚ) : PModel ℚ := ⟨[freshLayer resumeCfg [([4], w)]], false⟩
def resumeHistory : List (PEvent ℚ) := [.trainBegin, .call true, .optimizer (fun _ _ i => i), .call false]

/-- The run is saved and restored into a model with other weights: the masks are not trivial, and the next training
step has the number 2. -/
example : Spec.SameBuild (resumeModel [1, 2, 3, 4]) (resumeModel [9, 9, 9, 9]) ∧
    (∀ l ∈ (resumeModel [1, 2, 3, 4]).layers, l.step = -1) ∧ PEvent.trainBegin ∈ resumeHistory ∧
    ((pRun (resumeModel [1, 2, 3, 4]) resumeHistory).layers.map fun l => (l.step, l.vars.map PVar.mask)) =
      [(1, [[0, 0, 1, 1]])] ∧
    ((pRun (resumeModel [1, 2, 3, 4]) (resumeHistory ++ [.call true])).layers.map PLayer.step) = [2] := by
  refine ⟨.cons ⟨rfl, rfl⟩ .nil, ?_, by simp [resumeHistory], by decide +kernel, by decide +kernel⟩
  intro l hl
  simp only [resumeModel, List.mem_singleton] at hl
  subst hl
  rfl

open Verif.Quant.Wrapper Verif.Quant.Config in
/-- A wrapped layer is saved after a training call and restored into one built with the kernel 7: the counter of the
weight quantizer goes on at 1. -/
example : ∃ w w', build (S := ℕ) affineConf (fun _ => []) [] (fun i => if i = 0 then 25 else 3) affine 0 = .ok w ∧
    build (S := ℕ) affineConf (fun _ => []) [] (fun i => if i = 0 then 7 else 0) affine 0 = .ok w' ∧
    (w'.restore (run affineConf affineFn false (fun _ => []) (fun _ => []) [.call true 1] w).2.save).weightVars.map
      (fun e => e.2.2) = [1] ∧
    (w'.restore (run affineConf affineFn false (fun _ => []) (fun _ => []) [.call true 1] w).2.save).floats 0 = 25 := by
  refine ⟨_, _, rfl, rfl, by decide +kernel, by decide +kernel⟩

end Example

end Verif.Props
