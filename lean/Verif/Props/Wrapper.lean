import Verif.Sparsity.Wrapper
import Verif.Props.MByN

/-!
# Properties C10-C13: pruning through training histories
-/

set_option linter.unusedSectionVars false
namespace Verif.Props
open Verif Verif.Sparsity

variable {α : Type*} [Field α] [LinearOrder α] [IsStrictOrderedRing α] [FloorRing α]

/-! ## Specification -/

/-- A variable whose tensors have the size of its shape and whose mask is 0/1. -/
def Spec.GoodVar (v : PVar α) : Prop :=
  v.weight.length = v.shape.prod ∧ v.mask.length = v.shape.prod ∧ ∀ x ∈ v.mask, x = 0 ∨ x = 1

/-- A model (fresh or restored from a checkpoint) all of whose pruning masks are 0/1. -/
def Spec.GoodModel (m : PModel α) : Prop := ∀ l ∈ m.layers, ∀ v ∈ l.vars, Spec.GoodVar v

/-- `after` is `before` with pruned entries zeroed: at each position either the mask is 0 and the
weight is 0, or the mask is 1 and the weight has the value it had before. -/
def Spec.Masked (before after : PVar α) : Prop :=
  after.weight.length = before.weight.length ∧ after.mask.length = before.weight.length ∧
  ∀ i (_ : i < before.weight.length) (_ : i < after.weight.length) (_ : i < after.mask.length),
    (after.mask[i] = 0 ∧ after.weight[i] = 0) ∨
    (after.mask[i] = 1 ∧ after.weight[i] = before.weight[i])

/-- Number of training calls in a history. -/
def Spec.trainCalls (h : List (PEvent α)) : ℕ :=
  h.countP fun e => match e with | .call true => true | _ => false

/-- Masks and thresholds of a layer. -/
def Spec.masks (l : PLayer α) : List (List α × α) := l.vars.map fun v => (v.mask, v.threshold)

/-! ## helper lemmas -/

theorem Aux.unravel_inShape (shape : List ℕ) (p : ℕ) (hp : p < shape.prod) :
    Spec.InShape (unravel shape p) shape := by
  induction shape generalizing p with
  | nil => trivial
  | cons n ns ih =>
    rw [List.prod_cons] at hp
    have hns : 0 < ns.prod := by
      rcases Nat.eq_zero_or_pos ns.prod with h | h
      · rw [h] at hp; simp at hp
      · exact h
    have hn : 0 < n := by
      rcases Nat.eq_zero_or_pos n with h | h
      · rw [h] at hp; simp at hp
      · exact h
    exact ⟨Nat.mod_lt _ hn, ih _ (Nat.mod_lt _ hns)⟩

theorem Aux.updateMask_good {s : α} {w : List α} {t : α} {m : List α}
    (h : updateMask s w = .ok (t, m)) : m.length = w.length ∧ ∀ x ∈ m, x = 0 ∨ x = 1 := by
  obtain ⟨hm, -⟩ := Aux.updateMask_ok h
  refine ⟨by simp [hm], ?_⟩
  intro x hx
  rw [hm, List.mem_map] at hx
  obtain ⟨y, -, rfl⟩ := hx
  by_cases c : t ≤ |y| <;> simp [c]

theorem Aux.blockMaskPath_good {s : α} {bh bw r c : ℕ} {t : PoolType} {f : Mat α} {thr : α} {m : Mat α}
    (hr : f.rows = r) (hc : f.cols = c) (hbh : 1 ≤ bh) (hbw : 1 ≤ bw)
    (h : blockMaskPath s bh bw t f = .ok (thr, m)) :
    m.flat.length = r * c ∧ ∀ x ∈ m.flat, x = 0 ∨ x = 1 := by
  unfold blockMaskPath at h
  split_ifs at h
  dsimp only at h
  cases hu : updateMask s (factorizedPool t bh bw ⟨f.rows, f.cols, fun i j => |f.at_ i j|⟩).flat with
  | error e => rw [hu] at h; simp at h
  | ok x =>
    obtain ⟨t', nm⟩ := x
    rw [hu] at h
    simp only at h
    split_ifs at h
    simp only [Except.ok.injEq, Prod.mk.injEq] at h
    obtain ⟨rfl, rfl⟩ := h
    refine ⟨by rw [Aux.flat_length]; simp [hr, hc], ?_⟩
    intro x hx
    unfold Mat.flat at hx
    rw [List.mem_map] at hx
    obtain ⟨p, hp, rfl⟩ := hx
    rw [List.mem_range] at hp
    simp only at hp
    have hc0 : 0 < f.cols := by
      rcases Nat.eq_zero_or_pos f.cols with h | h
      · rw [h] at hp; simp at hp
      · exact h
    have hi : p / f.cols < f.rows := by rw [Nat.div_lt_iff_lt_mul hc0]; exact hp
    have hj : p % f.cols < f.cols := Nat.mod_lt _ hc0
    simp only
    rw [Aux.expandTensor_at _ bh bw _ _ hbh hbw
      (lt_of_lt_of_le hi (Aux.sameOut_mul _ _ hbh)) (lt_of_lt_of_le hj (Aux.sameOut_mul _ _ hbw))]
    simp only [Mat.ofFlat, List.getD_eq_getElem?_getD]
    cases hg : nm[p / f.cols / bh * (factorizedPool t bh bw ⟨f.rows, f.cols, fun i j => |f.at_ i j|⟩).cols
        + p % f.cols / bw]? with
    | none => left; rfl
    | some y =>
      exact (Aux.updateMask_good hu).2 y (List.mem_of_getElem? hg)

theorem Aux.updateMaskMByN_good {w : Tensor α} {m n : ℕ} {T : Tensor α}
    (h : updateMaskMByN w m n = some T) :
    T.flat.length = w.shape.prod ∧ ∀ x ∈ T.flat, x = 0 ∨ x = 1 := by
  have hrank : w.shape.length = 2 ∨ w.shape.length = 4 := by
    by_contra hc
    rw [not_or] at hc
    have := (C09_other_ranks w hc.1 hc.2).1
    simp [updateMaskMByN, this] at h
  obtain ⟨M, hM, hpos, hback, -⟩ := C09_layout_lossless w hrank
  by_cases hmn : m < n
  · obtain ⟨K, hK, k1, k2, k01, -⟩ := C08_mask M m n hmn
    obtain ⟨T', hT', hs, hg⟩ := hback K k1 k2
    have : T' = T := by simpa [updateMaskMByN, hM, hK, hT', Except.toOption] using h
    subst this
    refine ⟨by simp [Tensor.flat, hs], ?_⟩
    intro x hx
    unfold Tensor.flat at hx
    rw [List.mem_map] at hx
    obtain ⟨p, hp, rfl⟩ := hx
    rw [List.mem_range, hs] at hp
    have hin := Aux.unravel_inShape _ _ hp
    rw [hs]
    obtain ⟨r, c, hl, e⟩ := hg _ hin
    obtain ⟨r', c', hl', -, hc', -⟩ := hpos _ hin
    rw [hl] at hl'
    simp only [Option.some.injEq, Prod.mk.injEq] at hl'
    obtain ⟨rfl, rfl⟩ := hl'
    rw [e]
    exact k01 r c hc'
  · rw [updateMaskMByN, hM] at h
    simp [C08_reject M m n (by omega)] at h

/-- Block sizes are positive (as `tf.nn.pool` requires). -/
def Spec.PosBlock (cfg : PruneCfg α) : Prop := 1 ≤ cfg.blockH ∧ 1 ≤ cfg.blockW

theorem Aux.computeMask_good {cfg : PruneCfg α} {step : ℤ} {shape : List ℕ} {w : List α} {t : α}
    {m : List α} (hb : Spec.PosBlock cfg) (hw : w.length = shape.prod)
    (h : computeMask cfg step shape w = .ok (t, m)) :
    m.length = shape.prod ∧ ∀ x ∈ m, x = 0 ∨ x = 1 := by
  unfold computeMask at h
  split at h
  · split at h
    · simp at h
    · rename_i T hT
      simp only [Except.ok.injEq, Prod.mk.injEq] at h
      obtain ⟨-, rfl⟩ := h
      exact Aux.updateMaskMByN_good hT
  · split_ifs at h
    · have := Aux.updateMask_good h
      rwa [hw] at this
    · split at h
      · rename_i r c
        split at h
        · simp at h
        · rename_i t' m' hm
          simp only [Except.ok.injEq, Prod.mk.injEq] at h
          obtain ⟨-, rfl⟩ := h
          have := Aux.blockMaskPath_good (r := r) (c := c) rfl rfl hb.1 hb.2 hm
          simpa using this
      · simp at h

theorem Aux.applyMask_good {v : PVar α} (h : Spec.GoodVar v) : Spec.GoodVar (applyMask v) := by
  obtain ⟨h1, h2, h3⟩ := h
  exact ⟨by simp [applyMask, h1, h2], h2, h3⟩

theorem Aux.applyMask_masked {v : PVar α} (h : Spec.GoodVar v) : Spec.Masked v (applyMask v) := by
  obtain ⟨h1, h2, h3⟩ := h
  refine ⟨by simp [applyMask, h1, h2], by simp [applyMask, h1, h2], ?_⟩
  intro i hi _ hm
  have hm' : i < v.mask.length := hm
  have e : (applyMask v).weight[i]'(by simp [applyMask]; omega) = v.weight[i] * v.mask[i] := by
    simp [applyMask]
  rcases h3 v.mask[i] (List.getElem_mem hm') with z | o
  · left; exact ⟨z, by rw [e, z, mul_zero]⟩
  · right; exact ⟨o, by rw [e, o, mul_one]⟩

theorem Aux.updateVars_spec (cfg : PruneCfg α) (step : ℤ) (vs : List (PVar α)) :
    List.Forall₂ (fun v v' => v'.shape = v.shape ∧ v'.weight = v.weight ∧
        ((v'.mask = v.mask ∧ v'.threshold = v.threshold) ∨
          computeMask cfg step v.shape v.weight = .ok (v'.threshold, v'.mask)))
      vs (updateVars cfg step vs).1 ∧
    ((updateVars cfg step vs).2 = none →
      List.Forall₂ (fun v v' => computeMask cfg step v.shape v.weight = .ok (v'.threshold, v'.mask))
        vs (updateVars cfg step vs).1) := by
  induction vs with
  | nil => simp [updateVars]
  | cons v vs ih =>
    unfold updateVars
    cases hc : computeMask cfg step v.shape v.weight with
    | error e =>
      simp only [reduceCtorEq, false_implies, and_true]
      refine List.forall₂_same.2 fun _ _ => ⟨rfl, rfl, Or.inl ⟨rfl, rfl⟩⟩
    | ok x =>
      obtain ⟨t, m⟩ := x
      simp only
      refine ⟨List.Forall₂.cons ⟨rfl, rfl, Or.inr hc⟩ ih.1, fun h => ?_⟩
      exact List.Forall₂.cons hc (ih.2 h)

theorem Aux.forall₂_left {β γ : Type*} {R : β → γ → Prop} {P : β → Prop} {Q : γ → Prop} {l : List β}
    {l' : List γ} (h : List.Forall₂ R l l') (hp : ∀ x ∈ l, P x)
    (himp : ∀ a b, R a b → P a → Q b) : ∀ y ∈ l', Q y := by
  induction h with
  | nil => simp
  | cons hab _ ih =>
    intro y hy
    rcases List.mem_cons.1 hy with rfl | hy
    · exact himp _ _ hab (hp _ (by simp))
    · exact ih (fun x hx => hp x (by simp [hx])) y hy

theorem Aux.updateVars_good {cfg : PruneCfg α} {step : ℤ} {vs : List (PVar α)}
    (hb : Spec.PosBlock cfg) (h : ∀ v ∈ vs, Spec.GoodVar v) :
    ∀ v ∈ (updateVars cfg step vs).1, Spec.GoodVar v := by
  refine Aux.forall₂_left (Aux.updateVars_spec cfg step vs).1 h ?_
  rintro a b ⟨h1, h2, h3⟩ ⟨g1, g2, g3⟩
  rcases h3 with ⟨e, -⟩ | hc
  · exact ⟨by rw [h1, h2, g1], by rw [e, h1, g2], by rw [e]; exact g3⟩
  · obtain ⟨c1, c2⟩ := Aux.computeMask_good hb g1 hc
    exact ⟨by rw [h1, h2, g1], by rw [h1, c1], c2⟩

def Spec.GoodLayer (l : PLayer α) : Prop := Spec.PosBlock l.cfg ∧ ∀ v ∈ l.vars, Spec.GoodVar v

theorem Aux.map_applyMask_good {vs : List (PVar α)} (h : ∀ v ∈ vs, Spec.GoodVar v) :
    ∀ v ∈ vs.map applyMask, Spec.GoodVar v := by
  intro v hv
  obtain ⟨u, hu, rfl⟩ := List.mem_map.1 hv
  exact Aux.applyMask_good (h u hu)

theorem Aux.callLayer_good {tr : Bool} {l : PLayer α} (h : Spec.GoodLayer l) :
    Spec.GoodLayer (callLayer tr l).1 := by
  obtain ⟨hb, hv⟩ := h
  unfold callLayer
  cases tr with
  | false => exact ⟨hb, Aux.map_applyMask_good hv⟩
  | true =>
    simp only [if_true]
    split_ifs
    · exact ⟨hb, hv⟩
    · split
      · exact ⟨hb, Aux.updateVars_good hb hv⟩
      · exact ⟨hb, Aux.map_applyMask_good (Aux.updateVars_good hb hv)⟩
    · exact ⟨hb, Aux.map_applyMask_good hv⟩

/-- A successful forward pass called every layer successfully. -/
theorem Aux.forward_ok {tr : Bool} {ls : List (PLayer α)} (h : (forward tr ls).2 = none) :
    List.Forall₂ (fun l l' => callLayer tr l = (l', none)) ls (forward tr ls).1 := by
  induction ls with
  | nil => simp [forward]
  | cons l ls ih =>
    unfold forward at h ⊢
    rcases hc : callLayer tr l with ⟨l', _ | e⟩
    · rw [hc] at h
      exact List.Forall₂.cons hc (ih h)
    · rw [hc] at h; simp at h

/-- Any forward pass either calls a layer or leaves it alone. -/
theorem Aux.forward_any (tr : Bool) (ls : List (PLayer α)) :
    List.Forall₂ (fun l l' => l' = l ∨ l' = (callLayer tr l).1) ls (forward tr ls).1 := by
  induction ls with
  | nil => simp [forward]
  | cons l ls ih =>
    unfold forward
    rcases hc : callLayer tr l with ⟨l', _ | e⟩
    · exact List.Forall₂.cons (Or.inr (by rw [hc])) ih
    · refine List.Forall₂.cons (Or.inr (by rw [hc])) (List.forall₂_same.2 fun _ _ => Or.inl rfl)

theorem Aux.forall₂_mapIdx {β : Type*} {R : β → β → Prop} (f : ℕ → β → β) (l : List β)
    (h : ∀ i a, R a (f i a)) : List.Forall₂ R l (l.mapIdx f) := by
  induction l generalizing f with
  | nil => simp
  | cons a l ih =>
    rw [List.mapIdx_cons]
    exact List.Forall₂.cons (h 0 a) (ih _ fun i a => h (i + 1) a)

/-- Everything that can happen to a layer in one event, without regard to success. -/
theorem Aux.pStep_layers (m : PModel α) (e : PEvent α) :
    List.Forall₂ (fun l l' => l'.cfg = l.cfg ∧
        match e with
        | .optimizer _ => l'.step = l.step ∧
            List.Forall₂ (fun v v' => v'.shape = v.shape ∧ v'.mask = v.mask ∧
              v'.threshold = v.threshold ∧ v'.weight.length = v.weight.length) l.vars l'.vars
        | .call tr => l' = l ∨ l' = (callLayer tr l).1
        | .trainBegin => l'.vars = l.vars ∧ (l'.step = l.step ∨ l'.step = 0)
        | .epochEnd => l'.step = l.step ∧ (l'.vars = l.vars ∨ l'.vars = l.vars.map applyMask))
      m.layers (pStep m e).1.layers := by
  have cfgEq : ∀ tr (l : PLayer α), (callLayer tr l).1.cfg = l.cfg := by
    intro tr l
    unfold callLayer
    cases tr
    · rfl
    · simp only [if_true]
      split_ifs
      · rfl
      · split <;> rfl
      · rfl
  cases e with
  | optimizer f =>
    refine Aux.forall₂_mapIdx _ _ ?_
    intro i l
    refine ⟨rfl, rfl, Aux.forall₂_mapIdx _ _ ?_⟩
    intro j v
    exact ⟨rfl, rfl, rfl, by simp⟩
  | call tr =>
    refine (Aux.forward_any tr m.layers).imp ?_
    rintro l l' (rfl | rfl)
    · exact ⟨rfl, Or.inl rfl⟩
    · exact ⟨cfgEq tr l, Or.inr rfl⟩
  | trainBegin =>
    simp only [pStep, onTrainBegin]
    split
    · rename_i h; simp [h]
    · rename_i l ls h
      split_ifs
      · rw [h, List.forall₂_map_right_iff]
        exact List.forall₂_same.2 fun x _ => ⟨rfl, rfl, Or.inr rfl⟩
      · rw [h]
        exact List.forall₂_same.2 fun x _ => ⟨rfl, rfl, Or.inl rfl⟩
  | epochEnd =>
    simp only [pStep]
    split_ifs
    · rw [List.forall₂_map_right_iff]
      exact List.forall₂_same.2 fun x _ => ⟨rfl, rfl, Or.inr rfl⟩
    · exact List.forall₂_same.2 fun x _ => ⟨rfl, rfl, Or.inl rfl⟩

theorem Aux.pStep_good {m : PModel α} (e : PEvent α) (h : ∀ l ∈ m.layers, Spec.GoodLayer l) :
    ∀ l ∈ (pStep m e).1.layers, Spec.GoodLayer l := by
  refine Aux.forall₂_left (Aux.pStep_layers m e) h ?_
  rintro l l' ⟨hcfg, hr⟩ hg
  cases e with
  | optimizer f =>
    refine ⟨by unfold Spec.PosBlock; rw [hcfg]; exact hg.1, ?_⟩
    refine Aux.forall₂_left hr.2 hg.2 ?_
    rintro a b ⟨h1, h2, h3, h4⟩ ⟨g1, g2, g3⟩
    exact ⟨by rw [h4, h1, g1], by rw [h2, h1, g2], by rw [h2]; exact g3⟩
  | call tr =>
    rcases hr with rfl | rfl
    · exact hg
    · exact Aux.callLayer_good hg
  | trainBegin =>
    exact ⟨by unfold Spec.PosBlock; rw [hcfg]; exact hg.1, by rw [hr.1]; exact hg.2⟩
  | epochEnd =>
    refine ⟨by unfold Spec.PosBlock; rw [hcfg]; exact hg.1, ?_⟩
    rcases hr.2 with e | e
    · rw [e]; exact hg.2
    · rw [e]; exact Aux.map_applyMask_good hg.2

theorem Aux.pRun_good {m : PModel α} (hist : List (PEvent α)) (h : ∀ l ∈ m.layers, Spec.GoodLayer l) :
    ∀ l ∈ (pRun m hist).layers, Spec.GoodLayer l := by
  induction hist generalizing m with
  | nil => exact h
  | cons e es ih => exact ih (Aux.pStep_good e h)

/-! ## C10 -/

theorem Aux.masked_trans {v u w : PVar α} (h1 : u.weight = v.weight) (h : Spec.Masked u w) :
    Spec.Masked v w := by
  unfold Spec.Masked at *
  simp only [h1] at h
  exact h

/-- **C10 (forward passes).** Take any model whose masks are 0/1, any history of optimizer updates,
forward passes, training starts and epoch ends (failed calls included), and then a forward pass in
either mode that succeeds.  Afterwards every pruned weight of every layer is 0 and every kept weight
has the value the history (in particular the optimizer) had left there. -/
theorem C10_after_forward (m : PModel α) (hm : Spec.GoodModel m)
    (hb : ∀ l ∈ m.layers, Spec.PosBlock l.cfg) (hist : List (PEvent α)) (training : Bool)
    (hok : (pStep (pRun m hist) (.call training)).2 = none) :
    List.Forall₂ (fun l l' => List.Forall₂ Spec.Masked l.vars l'.vars)
      (pRun m hist).layers (pStep (pRun m hist) (.call training)).1.layers := by
  have hg := Aux.pRun_good hist (fun l hl => ⟨hb l hl, hm l hl⟩ : ∀ l ∈ m.layers, Spec.GoodLayer l)
  have hf := Aux.forward_ok (tr := training) (ls := (pRun m hist).layers) hok
  have : List.Forall₂ (fun l l' => Spec.GoodLayer l ∧ callLayer training l = (l', none))
      (pRun m hist).layers (forward training (pRun m hist).layers).1 := by
    revert hf hg
    generalize (forward training (pRun m hist).layers).1 = ls'
    generalize (pRun m hist).layers = ls
    intro hg hf
    induction hf with
    | nil => exact .nil
    | cons hc _ ih =>
      exact .cons ⟨hg _ (by simp), hc⟩ (ih fun l hl => hg l (by simp [hl]))
  refine this.imp ?_
  rintro l l' ⟨⟨hb, hv⟩, hc⟩
  have mapMasked : ∀ vs : List (PVar α), (∀ v ∈ vs, Spec.GoodVar v) →
      List.Forall₂ Spec.Masked vs (vs.map applyMask) := by
    intro vs hvs
    rw [List.forall₂_map_right_iff]
    exact List.forall₂_same.2 fun x hx => Aux.applyMask_masked (hvs x hx)
  unfold callLayer at hc
  cases training with
  | false =>
    simp only [Bool.false_eq_true, if_false, Prod.mk.injEq, and_true] at hc
    subst hc
    exact mapMasked _ hv
  | true =>
    simp only [if_true] at hc
    split_ifs at hc with h1 h2
    · simp at hc
    · split at hc
      · simp at hc
      · simp only [Prod.mk.injEq, and_true] at hc
        subst hc
        simp only
        have s1 := (Aux.updateVars_spec l.cfg (l.step + 1) l.vars).1
        have s2 := mapMasked _ (Aux.updateVars_good (step := l.step + 1) hb hv)
        revert s1 s2
        generalize (updateVars l.cfg (l.step + 1) l.vars).1 = us
        generalize computeMask l.cfg (l.step + 1) = cm
        generalize l.vars = vs
        intro s1 s2
        rw [List.forall₂_map_right_iff] at s2 ⊢
        rw [List.forall₂_same] at s2
        induction s1 with
        | nil => exact .nil
        | cons hh _ ih =>
          exact .cons (Aux.masked_trans hh.2.1 (s2 _ (by simp))) (ih fun x hx => s2 x (by simp [hx]))
    · simp only [Prod.mk.injEq, and_true] at hc
      subst hc
      exact mapMasked _ hv

/-- **C10 (epoch ends).** The same right after an epoch end, once the callback has seen a training
start.  This is what makes the weights saved after training sparse. -/
theorem C10_after_epoch_end (m : PModel α) (hm : Spec.GoodModel m)
    (hb : ∀ l ∈ m.layers, Spec.PosBlock l.cfg) (hist : List (PEvent α))
    (hc : (pRun m hist).collected = true) :
    List.Forall₂ (fun l l' => List.Forall₂ Spec.Masked l.vars l'.vars)
      (pRun m hist).layers (pStep (pRun m hist) .epochEnd).1.layers := by
  have hg := Aux.pRun_good hist (fun l hl => ⟨hb l hl, hm l hl⟩ : ∀ l ∈ m.layers, Spec.GoodLayer l)
  simp only [pStep, hc, if_true]
  rw [List.forall₂_map_right_iff]
  refine List.forall₂_same.2 fun l hl => ?_
  rw [List.forall₂_map_right_iff]
  exact List.forall₂_same.2 fun v hv => Aux.applyMask_masked ((hg l hl).2 v hv)

/-- The callback knows the layers as soon as a training start is in the history. -/
theorem C10_collected (m : PModel α) (hist : List (PEvent α)) (h : PEvent.trainBegin ∈ hist) :
    (pRun m hist).collected = true := by
  have mono : ∀ (hist : List (PEvent α)) (m : PModel α), m.collected = true →
      (pRun m hist).collected = true := by
    intro hist
    induction hist with
    | nil => intro m hm; exact hm
    | cons e es ih =>
      intro m hm
      apply ih
      cases e <;> simp [pStep, hm]
  induction hist generalizing m with
  | nil => simp at h
  | cons e es ih =>
    rcases List.mem_cons.1 h with rfl | h
    · exact mono es _ rfl
    · exact ih _ h

/-- A concrete history: start, one optimizer step, a training call at sparsity 1/2 that prunes. -/
def Aux.exLayer : PLayer ℚ := freshLayer ⟨fun _ => (true, 1/2), 1, 1, .AVG, none⟩ [([2, 2], [1, 2, 3, 4])]

example :
    let m : PModel ℚ := pRun ⟨[Aux.exLayer], false⟩
      [.trainBegin, .optimizer (fun _ _ i => if i = 0 then 9 else i), .call true]
    m.layers.map (fun l => (l.step, l.vars.map fun v => (v.weight, v.mask))) =
      [(1, [([9, 0, 0, 3], [1, 0, 0, 1])])] ∧
    (pStep (pRun ⟨[Aux.exLayer], false⟩ [.trainBegin]) (.call true)).2 = none := by
  decide +kernel

/-- Fresh models satisfy the hypothesis of C10. -/
theorem C10_fresh_good (cfg : PruneCfg α) (ws : List (List ℕ × List α))
    (h : ∀ w ∈ ws, w.2.length = w.1.prod) :
    ∀ v ∈ (freshLayer cfg ws).vars, Spec.GoodVar v := by
  intro v hv
  simp only [freshLayer, List.mem_map] at hv
  obtain ⟨w, hw, rfl⟩ := hv
  exact ⟨h w hw, by simp [h w hw], fun x hx => Or.inr (List.eq_of_mem_replicate hx)⟩

/-! ## C11 -/

theorem Aux.masks_map_applyMask (vs : List (PVar α)) :
    (vs.map applyMask).map (fun v => (v.mask, v.threshold)) = vs.map fun v => (v.mask, v.threshold) := by
  rw [List.map_map]; rfl

/-- **C11 (initially).** A fresh wrapper has one mask per weight, of the weight's size and all ones, zero
thresholds and step -1, and holds the given weights. -/
theorem C11_fresh (cfg : PruneCfg α) (ws : List (List ℕ × List α)) :
    (freshLayer cfg ws).step = -1 ∧ (freshLayer cfg ws).cfg = cfg ∧
    (freshLayer cfg ws).vars.map (fun v => (v.shape, v.weight)) = ws ∧
    ∀ v ∈ (freshLayer cfg ws).vars, v.mask.length = v.weight.length ∧ (∀ x ∈ v.mask, x = 1) ∧
      v.threshold = 0 := by
  refine ⟨rfl, rfl, ?_, ?_⟩
  · simp [freshLayer, List.map_map, Function.comp_def]
  · intro v hv
    simp only [freshLayer, List.mem_map] at hv
    obtain ⟨w, hw, rfl⟩ := hv
    exact ⟨by simp, fun x hx => List.eq_of_mem_replicate hx, rfl⟩

/-- **C11 (nothing else changes masks).** Optimizer updates, inference calls, training starts and
epoch ends leave every mask and threshold as it is. -/
theorem C11_only_training_calls (m : PModel α) (e : PEvent α) (he : e ≠ .call true) :
    List.Forall₂ (fun l l' => Spec.masks l' = Spec.masks l) m.layers (pStep m e).1.layers := by
  refine (Aux.pStep_layers m e).imp ?_
  rintro l l' ⟨-, h⟩
  unfold Spec.masks
  cases e with
  | optimizer f =>
    have h2 := h.2
    revert h2
    generalize l.vars = a
    generalize l'.vars = b
    intro h2
    induction h2 with
    | nil => rfl
    | cons hh _ ih => simp only [List.map_cons, hh.2.1, hh.2.2.1, ih]
  | call tr =>
    cases tr with
    | true => exact absurd rfl he
    | false =>
      rcases h with rfl | rfl
      · rfl
      · simp only [callLayer, Bool.false_eq_true, if_false, Aux.masks_map_applyMask]
  | trainBegin => rw [h.1]
  | epochEnd =>
    rcases h.2 with h | h
    · rw [h]
    · rw [h, Aux.masks_map_applyMask]

/-- **C11 (training calls).** In a training call a layer's masks change only if its schedule asks to
prune at the step this call runs with (m-by-n layers: only at step 1). -/
theorem C11_only_when_scheduled (m : PModel α) :
    List.Forall₂ (fun l l' => Spec.masks l' = Spec.masks l ∨
        (match l.cfg.mByN with
          | none => (l.cfg.schedule (l.step + 1)).1 = true
          | some _ => l.step + 1 = 1))
      m.layers (pStep m (.call true)).1.layers := by
  refine (Aux.pStep_layers m (.call true)).imp ?_
  rintro l l' ⟨-, rfl | rfl⟩
  · exact Or.inl rfl
  · unfold callLayer Spec.masks
    simp only [if_true]
    split_ifs with h1 h2
    · exact Or.inl rfl
    · right
      unfold shouldUpdate at h2
      split at h2 <;> simp_all
    · left; exact Aux.masks_map_applyMask _

/-- **C11 (at a pruning step).** In a successful training call, a layer (element-wise pruning) whose
schedule answers `(True, s)` at the step of this call gets, for every weight, exactly the magnitude
mask at sparsity `s` of the weights as they were when the call started. -/
theorem C11_pruning_step (m : PModel α) (hok : (pStep m (.call true)).2 = none) :
    List.Forall₂ (fun l l' => l'.step = l.step + 1 ∧
        ∀ s, l.cfg.mByN = none → l.cfg.blockH = 1 → l.cfg.blockW = 1 →
        l.cfg.schedule (l.step + 1) = (true, s) →
        List.Forall₂ (fun v v' => updateMask s v.weight = .ok (v'.threshold, v'.mask)) l.vars l'.vars)
      m.layers (pStep m (.call true)).1.layers := by
  refine (Aux.forward_ok (tr := true) (ls := m.layers) hok).imp ?_
  intro l l' hc
  unfold callLayer at hc
  simp only [if_true] at hc
  split_ifs at hc with h1 h2
  · simp at hc
  · split at hc
    · simp at hc
    · rename_i he
      simp only [Prod.mk.injEq, and_true] at hc
      subst hc
      refine ⟨rfl, ?_⟩
      intro s hm hbh hbw hs
      have := (Aux.updateVars_spec l.cfg (l.step + 1) l.vars).2 he
      simp only
      rw [List.forall₂_map_right_iff]
      refine this.imp ?_
      intro v v' hcm
      unfold computeMask at hcm
      simp only [hm, hbh, hbw, and_self, if_true, hs] at hcm
      exact hcm
  · simp only [Prod.mk.injEq, and_true] at hc
    subst hc
    refine ⟨rfl, ?_⟩
    intro s hm _ _ hs
    exfalso; apply h2
    simp [shouldUpdate, hm, hs]

theorem Aux.run_append (m : PModel α) (h : List (PEvent α)) (e : PEvent α) :
    pRun m (h ++ [e]) = (pStep (pRun m h) e).1 := by
  unfold pRun; rw [List.foldl_append]; rfl

theorem Aux.callLayer_step_mono (tr : Bool) (l : PLayer α) :
    (callLayer tr l).1.step = l.step + (if tr then 1 else 0) := by
  unfold callLayer
  cases tr with
  | false => simp
  | true =>
    simp only [if_true]
    split_ifs
    · rfl
    · split <;> rfl
    · rfl

theorem Aux.forall₂_trans {β : Type*} {R S T : β → β → Prop} {a b c : List β}
    (h1 : List.Forall₂ R a b) (h2 : List.Forall₂ S b c) (h : ∀ x y z, R x y → S y z → T x z) :
    List.Forall₂ T a c := by
  induction h1 generalizing c with
  | nil => cases h2; exact .nil
  | cons hr _ ih =>
    cases h2 with
    | cons hs h2 => exact .cons (h _ _ _ hr hs) (ih h2)

theorem Aux.forall₂_and {β γ : Type*} {R S : β → γ → Prop} {a : List β} {b : List γ}
    (h1 : List.Forall₂ R a b) (h2 : List.Forall₂ S a b) : List.Forall₂ (fun x y => R x y ∧ S x y) a b := by
  induction h1 with
  | nil => exact .nil
  | cons hr _ ih => cases h2 with | cons hs h2 => exact .cons ⟨hr, hs⟩ (ih h2)

theorem Aux.trainCalls_cons (e : PEvent α) (h : List (PEvent α)) :
    Spec.trainCalls (e :: h) = Spec.trainCalls h + Spec.trainCalls [e] := by
  unfold Spec.trainCalls
  rw [List.countP_cons, List.countP_cons]; simp

/-- One event moves a non-negative step by 0 or 1, and only training calls move it. -/
theorem Aux.step_bound (m : PModel α) (e : PEvent α) (hpos : ∀ l ∈ m.layers, 0 ≤ l.step) :
    List.Forall₂ (fun l l' => l.step ≤ l'.step ∧ l'.step ≤ l.step + (Spec.trainCalls [e] : ℤ))
      m.layers (pStep m e).1.layers := by
  have base := Aux.pStep_layers m e
  cases e with
  | optimizer f =>
    refine base.imp ?_
    rintro l l' ⟨-, h, -⟩; simp [h, Spec.trainCalls]
  | epochEnd =>
    refine base.imp ?_
    rintro l l' ⟨-, h, -⟩; simp [h, Spec.trainCalls]
  | call tr =>
    refine base.imp ?_
    rintro l l' ⟨-, rfl | rfl⟩
    · simp
    · rw [Aux.callLayer_step_mono]
      cases tr <;> simp [Spec.trainCalls]
  | trainBegin =>
    simp only [pStep, onTrainBegin]
    split
    · rename_i h; simp [h]
    · rename_i l ls h
      have : l.step ≠ -1 := by
        have := hpos l (by simp [h]); omega
      rw [if_neg this, h]
      exact List.forall₂_same.2 fun x _ => by simp [Spec.trainCalls]

/-- **C11 (between pruning steps).** Take a model whose steps are counting (>= 0) and any history with
`n` training calls.  A layer (not m-by-n) whose schedule does not ask to prune at any of the next
`n` steps has, at the end, exactly the masks and thresholds it had at the start. -/
theorem C11_between (m : PModel α) (hist : List (PEvent α)) (hpos : ∀ l ∈ m.layers, 0 ≤ l.step) :
    List.Forall₂ (fun l l' =>
        (l.cfg.mByN = none →
          (∀ t, l.step < t → t ≤ l.step + (Spec.trainCalls hist : ℤ) → (l.cfg.schedule t).1 = false) →
          Spec.masks l' = Spec.masks l))
      m.layers (pRun m hist).layers := by
  suffices H : List.Forall₂ (fun l l' => l'.cfg = l.cfg ∧
        l.step ≤ l'.step ∧ l'.step ≤ l.step + (Spec.trainCalls hist : ℤ) ∧
        (l.cfg.mByN = none →
          (∀ t, l.step < t → t ≤ l.step + (Spec.trainCalls hist : ℤ) → (l.cfg.schedule t).1 = false) →
          Spec.masks l' = Spec.masks l))
      m.layers (pRun m hist).layers from H.imp fun _ _ h => h.2.2.2
  induction hist generalizing m with
  | nil => exact List.forall₂_same.2 fun l _ => ⟨rfl, le_rfl, by simp [Spec.trainCalls], fun _ _ => rfl⟩
  | cons e es ih =>
    have s1 := Aux.step_bound m e hpos
    have hpos' : ∀ l ∈ (pStep m e).1.layers, 0 ≤ l.step :=
      Aux.forall₂_left s1 hpos fun a b h h0 => h0.trans h.1
    have s2 := ih (pStep m e).1 hpos'
    have s3 : List.Forall₂ (fun l l' => Spec.masks l' = Spec.masks l ∨
        (e = .call true ∧ (l.cfg.mByN = none → (l.cfg.schedule (l.step + 1)).1 = true)))
        m.layers (pStep m e).1.layers := by
      by_cases he : e = .call true
      · subst he
        refine (C11_only_when_scheduled m).imp ?_
        rintro l l' (h | h)
        · exact Or.inl h
        · refine Or.inr ⟨rfl, fun hn => ?_⟩
          rw [hn] at h; exact h
      · exact (C11_only_training_calls m e he).imp fun _ _ h => Or.inl h
    have s4 := (Aux.pStep_layers m e).imp (S := fun l l' => l'.cfg = l.cfg) fun _ _ h => h.1
    refine Aux.forall₂_trans (Aux.forall₂_and (Aux.forall₂_and s1 s3) s4) s2 ?_
    rintro x y z ⟨⟨⟨a1, a2⟩, a3⟩, a4⟩ ⟨b0, b1, b2, b3⟩
    have tc := Aux.trainCalls_cons e es
    refine ⟨by rw [b0, a4], by omega, by rw [tc]; push_cast; omega, ?_⟩
    intro hn hs
    rw [b3 (by rw [a4]; exact hn) (fun t h1 h2 => by
      rw [a4]; apply hs t (by omega); rw [tc]; push_cast; omega)]
    rcases a3 with h | ⟨rfl, h⟩
    · exact h
    · exfalso
      have := h hn
      rw [hs (x.step + 1) (by omega) (by rw [tc]; simp [Spec.trainCalls])] at this
      simp at this

/-- **C11 (masks stay 0/1).** -/
theorem C11_masks_binary (m : PModel α) (hm : Spec.GoodModel m)
    (hb : ∀ l ∈ m.layers, Spec.PosBlock l.cfg) (hist : List (PEvent α)) :
    Spec.GoodModel (pRun m hist) := by
  have hg := Aux.pRun_good hist (fun l hl => ⟨hb l hl, hm l hl⟩ : ∀ l ∈ m.layers, Spec.GoodLayer l)
  exact fun l hl => (hg l hl).2

/-! ## C12 -/

/-- **C12 (callback needed).** On a freshly built model with at least one pruned layer, whatever
happened before except a training start or a training call, the first training call fails with the
"callback missing" error. -/
theorem C12_first_call_fails_without_callback (m : PModel α) (hne : m.layers ≠ [])
    (hfresh : ∀ l ∈ m.layers, l.step = -1) (hist : List (PEvent α))
    (hh : ∀ e ∈ hist, e ≠ .trainBegin ∧ e ≠ .call true) :
    (pStep (pRun m hist) (.call true)).2 = some .callbackMissing := by
  have hinv : (pRun m hist).layers ≠ [] ∧ ∀ l ∈ (pRun m hist).layers, l.step = -1 := by
    induction hist generalizing m with
    | nil => exact ⟨hne, hfresh⟩
    | cons e es ih =>
      have hr := Aux.pStep_layers m e
      refine ih (pStep m e).1 ?_ ?_ (fun e' he' => hh e' (by simp [he']))
      · intro h0
        rw [h0] at hr
        cases hm : m.layers with
        | nil => exact hne hm
        | cons a b => rw [hm] at hr; cases hr
      · refine Aux.forall₂_left hr hfresh ?_
        rintro l l' ⟨-, h⟩ hl
        have he := hh e (by simp)
        cases e with
        | optimizer f => rw [h.1, hl]
        | epochEnd => rw [h.1, hl]
        | trainBegin => exact absurd rfl he.1
        | call tr =>
          cases tr with
          | true => exact absurd rfl he.2
          | false =>
            rcases h with rfl | rfl
            · exact hl
            · rw [Aux.callLayer_step_mono]; simpa using hl
  obtain ⟨h1, h2⟩ := hinv
  cases hl : (pRun m hist).layers with
  | nil => exact absurd hl h1
  | cons a b =>
    have := h2 a (by simp [hl])
    simp [pStep, hl, forward, callLayer, this]

/-- **C12 (counting).** After a training start on a fresh or a resumed model (all steps equal to some
`s >= -1`), the n-th training call of any error-free history runs with step `max s 0 + n`: the step
of every layer is `max s 0` plus the number of training calls, and inference calls, optimizer
updates, epoch ends and further training starts do not move it. -/
theorem C12_step_counts (m : PModel α) (s : ℤ) (hs : -1 ≤ s) (hall : ∀ l ∈ m.layers, l.step = s)
    (hist : List (PEvent α))
    (hok : ∀ pre e post, hist = pre ++ e :: post →
      (pStep (pRun (pStep m .trainBegin).1 pre) e).2 = none) :
    ∀ l ∈ (pRun (pStep m .trainBegin).1 hist).layers, l.step = max s 0 + Spec.trainCalls hist := by
  have hbase : ∀ l ∈ (pStep m .trainBegin).1.layers, l.step = max s 0 := by
    simp only [pStep, onTrainBegin]
    split
    · simp
    · rename_i l ls h
      have hl : l.step = s := hall l (by simp [h])
      split_ifs with hc
      · intro x hx
        obtain ⟨y, -, rfl⟩ := List.mem_map.1 hx
        simp only
        omega
      · intro x hx
        rw [hall x hx]; omega
  clear hall
  revert hbase hok
  generalize (pStep m .trainBegin).1 = m0
  have hz : 0 ≤ max s 0 := le_max_right _ _
  revert hz
  generalize max s 0 = z
  intro hz hok hbase
  induction hist generalizing m0 z with
  | nil => simpa [pRun, Spec.trainCalls] using hbase
  | cons e es ih =>
    have h0 := hok [] e es rfl
    simp only [pRun, List.foldl_nil] at h0
    have hstep : ∀ l ∈ (pStep m0 e).1.layers, l.step = z + Spec.trainCalls [e] := by
      cases e with
      | optimizer f =>
        refine Aux.forall₂_left (Aux.pStep_layers m0 _) hbase ?_
        rintro l l' ⟨-, h, -⟩ hl; simp [h, hl, Spec.trainCalls]
      | epochEnd =>
        refine Aux.forall₂_left (Aux.pStep_layers m0 _) hbase ?_
        rintro l l' ⟨-, h, -⟩ hl; simp [h, hl, Spec.trainCalls]
      | trainBegin =>
        simp only [pStep, onTrainBegin]
        split
        · simp
        · rename_i l ls h
          have hl : l.step = z := hbase l (by simp [h])
          rw [if_neg (by omega)]
          simpa [Spec.trainCalls] using hbase
      | call tr =>
        refine Aux.forall₂_left (Aux.forward_ok (tr := tr) (ls := m0.layers) h0) hbase ?_
        intro l l' hc hl
        have := Aux.callLayer_step_mono tr l
        rw [hc] at this
        rw [this, hl]
        cases tr <;> simp [Spec.trainCalls]
    have := ih (pStep m0 e).1 (z + Spec.trainCalls [e]) (by omega) (fun pre e' post hp => by
      have := hok (e :: pre) e' post (by simp [hp])
      simpa [pRun] using this) hstep
    intro l hl
    rw [this l hl, Aux.trainCalls_cons e es]; push_cast; omega

/-- **C12 (no spurious failure).** Under the same conditions a training call never fails with the
"callback missing" error. -/
theorem C12_no_callback_error (m : PModel α) (s : ℤ) (hs : -1 ≤ s) (hall : ∀ l ∈ m.layers, l.step = s)
    (hist : List (PEvent α))
    (hok : ∀ pre e post, hist = pre ++ e :: post →
      (pStep (pRun (pStep m .trainBegin).1 pre) e).2 = none) :
    (pStep (pRun (pStep m .trainBegin).1 hist) (.call true)).2 ≠ some .callbackMissing := by
  have h := C12_step_counts m s hs hall hist hok
  have hpos : ∀ l ∈ (pRun (pStep m .trainBegin).1 hist).layers, 0 ≤ l.step := by
    intro l hl; rw [h l hl]; positivity
  revert hpos
  simp only [pStep]
  generalize (pRun (onTrainBegin m.layers |> fun l => (⟨l, true⟩ : PModel α)) hist).layers = ls
  intro hpos
  induction ls with
  | nil => simp [forward]
  | cons l ls ih =>
    unfold forward
    have hl := hpos l (by simp)
    rcases hc : callLayer true l with ⟨l', _ | e⟩
    · exact ih fun x hx => hpos x (by simp [hx])
    · simp only [ne_eq, Option.some.injEq]
      rintro rfl
      unfold callLayer at hc
      simp only [if_true] at hc
      rw [if_neg (by omega)] at hc
      split_ifs at hc
      · split at hc
        · rename_i e' he'
          simp only [Prod.mk.injEq, Option.some.injEq] at hc
          obtain ⟨-, rfl⟩ := hc
          have : ∀ (vs : List (PVar α)) (st : ℤ),
              (updateVars l.cfg st vs).2 ≠ some .callbackMissing := by
            intro vs st
            induction vs with
            | nil => simp [updateVars]
            | cons v vs ih =>
              unfold updateVars
              split
              · simp
              · exact ih
          exact this _ _ he'
        · simp at hc
      · simp at hc

/-- **C12 (violated: the check does not survive a caught failure).** The failing call has already
incremented the step, so on a one-layer model *retrying* without the callback succeeds (here with an
element-wise layer that prunes at every step). -/
theorem C12_retry_violated :
    let m0 : PModel ℚ := ⟨[Aux.exLayer], false⟩
    (pStep m0 (.call true)).2 = some .callbackMissing ∧
    (pStep (pStep m0 (.call true)).1 (.call true)).2 = none := by
  decide +kernel

/-- **C12 (violated: mixed models).** `on_train_begin` looks at the first pruned layer only.  If that
layer is resumed (step >= 0) and a later one is fresh (-1), training fails with "callback missing"
although the callback is installed. -/
theorem C12_mixed_violated (m : PModel α) (a b : PLayer α) (hm : m.layers = [a, b])
    (ha : 0 ≤ a.step) (hb : b.step = -1)
    (hcall : (callLayer true a).2 = none) :
    (pStep (pStep m .trainBegin).1 (.call true)).2 = some .callbackMissing := by
  have h1 : (pStep m .trainBegin).1.layers = [a, b] := by
    simp only [pStep, onTrainBegin, hm]
    rw [if_neg (by omega)]
  simp only [pStep] at h1 ⊢
  rw [h1]
  unfold forward
  rcases hc : callLayer true a with ⟨a', _ | e⟩
  · simp [forward, callLayer, hb]
  · rw [hc] at hcall; simp at hcall

/-! ## C13 -/

/-- **C13.** An m-by-n layer whose step has reached 1 never changes its masks again, in any history on
a counting model, whatever its schedule says. -/
theorem C13_fixed_after_first (m : PModel α) (hist : List (PEvent α)) (hpos : ∀ l ∈ m.layers, 0 ≤ l.step) :
    List.Forall₂ (fun l l' => l.cfg.mByN ≠ none → 1 ≤ l.step → Spec.masks l' = Spec.masks l)
      m.layers (pRun m hist).layers := by
  suffices H : List.Forall₂ (fun l l' => l'.cfg = l.cfg ∧ l.step ≤ l'.step ∧
      (l.cfg.mByN ≠ none → 1 ≤ l.step → Spec.masks l' = Spec.masks l))
      m.layers (pRun m hist).layers from H.imp fun _ _ h => h.2.2
  induction hist generalizing m with
  | nil => exact List.forall₂_same.2 fun l _ => ⟨rfl, le_rfl, fun _ _ => rfl⟩
  | cons e es ih =>
    have s1 := Aux.step_bound m e hpos
    have hpos' : ∀ l ∈ (pStep m e).1.layers, 0 ≤ l.step :=
      Aux.forall₂_left s1 hpos fun a b h h0 => h0.trans h.1
    have s2 := ih (pStep m e).1 hpos'
    have s3 : List.Forall₂ (fun l l' => Spec.masks l' = Spec.masks l ∨
        (l.cfg.mByN ≠ none → l.step + 1 = 1))
        m.layers (pStep m e).1.layers := by
      by_cases he : e = .call true
      · subst he
        refine (C11_only_when_scheduled m).imp ?_
        rintro l l' (h | h)
        · exact Or.inl h
        · refine Or.inr fun hn => ?_
          cases hc : l.cfg.mByN with
          | none => exact absurd hc hn
          | some x => rw [hc] at h; exact h
      · exact (C11_only_training_calls m e he).imp fun _ _ h => Or.inl h
    have s4 := (Aux.pStep_layers m e).imp (S := fun l l' => l'.cfg = l.cfg) fun _ _ h => h.1
    refine Aux.forall₂_trans (Aux.forall₂_and (Aux.forall₂_and s1 s3) s4) s2 ?_
    rintro x y z ⟨⟨⟨a1, a2⟩, a3⟩, a4⟩ ⟨b0, b1, b2⟩
    refine ⟨by rw [b0, a4], by omega, ?_⟩
    intro hn h1
    rw [b2 (by rw [a4]; exact hn) (by omega)]
    rcases a3 with h | h
    · exact h
    · have := h hn; omega

/-- **C13 (first call).** In the first training call after a training start on a fresh model every
m-by-n layer gets the m-by-n mask of its current weights, whatever its schedule says (if the call
succeeds). -/
theorem C13_first_call (m : PModel α) (hfresh : ∀ l ∈ m.layers, l.step = -1)
    (hok : (pStep (pStep m .trainBegin).1 (.call true)).2 = none) :
    List.Forall₂ (fun l l' => ∀ a b, l.cfg.mByN = some (a, b) →
        List.Forall₂ (fun v v' => ∃ T, updateMaskMByN (Tensor.ofFlat v.shape v.weight) a b = some T ∧
          v'.mask = T.flat) l.vars l'.vars)
      m.layers (pStep (pStep m .trainBegin).1 (.call true)).1.layers := by
  have hb : List.Forall₂ (fun l l' => l'.cfg = l.cfg ∧ l'.vars = l.vars ∧ l'.step = 0)
      m.layers (pStep m .trainBegin).1.layers := by
    simp only [pStep, onTrainBegin]
    split
    · rename_i h; simp [h]
    · rename_i l ls h
      rw [if_pos (hfresh l (by simp [h])), List.forall₂_map_right_iff, h]
      exact List.forall₂_same.2 fun x _ => ⟨rfl, rfl, rfl⟩
  have hf := Aux.forward_ok (tr := true) (ls := (pStep m .trainBegin).1.layers) hok
  refine Aux.forall₂_trans hb hf ?_
  rintro x y z ⟨h1, h2, h3⟩ hc a b hab
  unfold callLayer at hc
  simp only [if_true] at hc
  rw [if_neg (by omega)] at hc
  have hsu : shouldUpdate y.cfg (y.step + 1) = true := by
    simp [shouldUpdate, h1, hab, h3]
  rw [if_pos hsu] at hc
  split at hc
  · simp at hc
  · rename_i he
    simp only [Prod.mk.injEq, and_true] at hc
    subst hc
    have := (Aux.updateVars_spec y.cfg (y.step + 1) y.vars).2 he
    simp only
    rw [List.forall₂_map_right_iff, ← h2]
    refine this.imp ?_
    intro v v' hcm
    unfold computeMask at hcm
    simp only [h1, hab] at hcm
    cases hT : updateMaskMByN (Tensor.ofFlat v.shape v.weight) a b with
    | none => rw [hT] at hcm; simp at hcm
    | some T =>
      rw [hT] at hcm
      simp only [Except.ok.injEq, Prod.mk.injEq] at hcm
      exact ⟨T, rfl, hcm.2.symm⟩

/-- Non-vacuity of C13: a 2-by-4 layer with a schedule that never prunes still gets its mask at the
first training call and keeps it. -/
example :
    let l : PLayer ℚ := freshLayer ⟨fun _ => (false, 0), 1, 1, .AVG, some (2, 4)⟩ [([4, 1], [1, -5, 3, 2])]
    let m : PModel ℚ := pRun ⟨[l], false⟩ [.trainBegin, .call true, .optimizer (fun _ _ i => 10 - i), .call true]
    m.layers.map (fun l => (l.step, l.vars.map fun v => (v.weight, v.mask))) =
      [(2, [([0, 9, 8, 0], [0, 1, 1, 0])])] := by
  decide +kernel

end Verif.Props
