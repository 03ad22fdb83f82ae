import Verif.Sparsity.Estimator
import Verif.Props.Wrapper
import Mathlib.Data.List.Permutation

/-!
# C103: pruning with an estimator, for every order of execution
-/

set_option linter.unusedSectionVars false

namespace Verif.Props
open Verif.Sparsity

variable {α : Type*} [Field α] [LinearOrder α] [IsStrictOrderedRing α] [FloorRing α]

/-- The operations of layer `i`, in the order in which they are executed. -/
def Spec.opsOf (i : ℕ) (sched : List (ℕ × GOp)) : List GOp :=
  (sched.filter fun p => p.1 = i).map Prod.snd

/-- An order in which TensorFlow may execute the operations of a layer: each once, a value is read before
the result computed from it is written, the assertion comes before the mask update, the forward pass before
the optimizer. -/
def Spec.PossibleOrder (ops : List GOp) : Prop :=
  ops.Perm [.incRead, .incWrite, .check, .update, .mask, .forward, .optimizer, .est] ∧
  [GOp.incRead, .incWrite].Sublist ops ∧ [GOp.check, .update].Sublist ops ∧
  [GOp.forward, .optimizer].Sublist ops

instance (ops : List GOp) : Decidable (Spec.PossibleOrder ops) := by
  unfold Spec.PossibleOrder; infer_instance

/-- A possible order of execution for `n` layers. -/
def Spec.PossibleSched (n : ℕ) (sched : List (ℕ × GOp)) : Prop :=
  ∀ i < n, Spec.PossibleOrder (Spec.opsOf i sched)

theorem Aux.opsOf_cons (i j : ℕ) (o : GOp) (s : List (ℕ × GOp)) :
    Spec.opsOf i ((j, o) :: s) = if j = i then o :: Spec.opsOf i s else Spec.opsOf i s := by
  unfold Spec.opsOf
  rw [List.filter_cons]
  by_cases h : j = i <;> simp [h]

/-- Operations of different layers do not interfere. -/
theorem Aux.gSched_local (step : Option ℤ) (f : ℕ → ℕ → ℕ → α) (sched : List (ℕ × GOp)) :
    ∀ (gs gs' : List (GLayer α)), gSched step f gs sched = (gs', none) →
      gs'.length = gs.length ∧ ∀ (i : ℕ) (g : GLayer α), gs[i]? = some g →
        ∃ g', gs'[i]? = some g' ∧ gOps step (f i) g (Spec.opsOf i sched) = (g', none) := by
  induction sched with
  | nil => intro gs gs' h; cases h; exact ⟨rfl, fun i g hg => ⟨g, hg, rfl⟩⟩
  | cons x s ih =>
    obtain ⟨j, o⟩ := x
    intro gs gs' h
    unfold gSched at h
    cases hj : gs[j]? with
    | none =>
      rw [hj] at h
      obtain ⟨hl, hi⟩ := ih _ _ h
      refine ⟨hl, fun i g hg => ?_⟩
      have : j ≠ i := by rintro rfl; rw [hj] at hg; cases hg
      rw [Aux.opsOf_cons, if_neg this]
      exact hi i g hg
    | some gj =>
      rw [hj] at h
      dsimp only at h
      rcases ho : gOp step (f j) gj o with ⟨g1, e⟩
      rw [ho] at h
      cases e with
      | some e => cases h
      | none =>
        dsimp only at h
        obtain ⟨hl, hi⟩ := ih _ _ h
        refine ⟨by rw [hl, List.length_set], fun i g hg => ?_⟩
        rw [Aux.opsOf_cons]
        have hlt : j < gs.length := (List.getElem?_eq_some_iff.1 hj).1
        by_cases hji : j = i
        · subst hji
          rw [if_pos rfl]
          rw [hj] at hg
          cases hg
          obtain ⟨g', hg', hr⟩ := hi j g1 (by rw [List.getElem?_set_self hlt])
          exact ⟨g', hg', by simp only [gOps, ho]; exact hr⟩
        · rw [if_neg hji]
          exact hi i g (by rw [List.getElem?_set_ne hji]; exact hg)

/-- Any property of single layers that every operation preserves holds throughout. -/
theorem Aux.gSched_inv (P : GLayer α → Prop) (step : Option ℤ) (f : ℕ → ℕ → ℕ → α)
    (hP : ∀ f' g o, P g → P (gOp step f' g o).1) (sched : List (ℕ × GOp)) :
    ∀ gs : List (GLayer α), (∀ g ∈ gs, P g) → ∀ g ∈ (gSched step f gs sched).1, P g := by
  induction sched with
  | nil => intro gs h; exact h
  | cons x s ih =>
    obtain ⟨j, o⟩ := x
    intro gs h
    unfold gSched
    cases hj : gs[j]? with
    | none => exact ih gs h
    | some gj =>
      dsimp only
      have hgj : P gj := h gj (List.mem_of_getElem? hj)
      have h1 := hP (f j) gj o hgj
      rcases ho : gOp step (f j) gj o with ⟨g1, e⟩
      rw [ho] at h1
      have h2 : ∀ g ∈ gs.set j g1, P g := by
        intro g hg
        rcases List.mem_or_eq_of_mem_set hg with hg | rfl
        · exact h g hg
        · exact h1
      cases e with
      | some e => exact h2
      | none => exact ih _ h2

theorem Aux.gOp_good (step : Option ℤ) (f : ℕ → ℕ → α) (g : GLayer α) (o : GOp)
    (h : Spec.GoodLayer g.layer) : Spec.GoodLayer (gOp step f g o).1.layer := by
  obtain ⟨hb, hv⟩ := h
  cases o with
  | incRead => exact ⟨hb, hv⟩
  | incWrite => exact ⟨hb, hv⟩
  | check => exact ⟨hb, hv⟩
  | update =>
    unfold gOp
    dsimp only
    split_ifs
    · exact ⟨hb, Aux.updateVars_good hb hv⟩
    · exact ⟨hb, hv⟩
  | mask => exact ⟨hb, Aux.map_applyMask_good hv⟩
  | forward => exact ⟨hb, hv⟩
  | optimizer =>
    refine ⟨hb, ?_⟩
    intro v hm
    obtain ⟨i, hi, rfl⟩ := List.mem_mapIdx.1 hm
    obtain ⟨h1, h2, h3⟩ := hv _ (List.getElem_mem hi)
    exact ⟨by rw [List.length_mapIdx]; exact h1, h2, h3⟩
  | est => cases step <;> exact ⟨hb, hv⟩

/-- **C103 (masks).**  Whatever the order of execution and even if steps fail, all masks are 0/1 at any
time of any training run with an estimator. -/
theorem C103_masks (ls : List (PLayer α)) (hg : ∀ l ∈ ls, Spec.PosBlock l.cfg)
    (hv : ∀ l ∈ ls, ∀ v ∈ l.vars, Spec.GoodVar v)
    (run : List (Option ℤ × (ℕ → ℕ → ℕ → α) × List (ℕ × GOp))) :
    ∀ l ∈ (estimatorTrain ls run).1, ∀ v ∈ l.vars, Spec.GoodVar v := by
  have key : ∀ (run : List (Option ℤ × (ℕ → ℕ → ℕ → α) × List (ℕ × GOp))) (ls : List (PLayer α)),
      (∀ l ∈ ls, Spec.GoodLayer l) → ∀ l ∈ (estimatorTrain ls run).1, Spec.GoodLayer l := by
    intro run
    induction run with
    | nil => intro ls h; exact h
    | cons x run ih =>
      obtain ⟨step, f, sched⟩ := x
      intro ls h
      have h1 := Aux.gSched_inv (fun g : GLayer α => Spec.GoodLayer g.layer) step f
        (fun f' g o => Aux.gOp_good step f' g o) sched (ls.map fun l => ⟨l, 0, []⟩) (by
          intro g hgm
          obtain ⟨l, hl, rfl⟩ := List.mem_map.1 hgm
          exact h l hl)
      unfold estimatorTrain estimatorStep
      rcases hs : gSched step f (ls.map fun l => ⟨l, 0, []⟩) sched with ⟨gs, e⟩
      rw [hs] at h1
      have h2 : ∀ l ∈ gs.map GLayer.layer, Spec.GoodLayer l := by
        intro l hl
        obtain ⟨g, hgm, rfl⟩ := List.mem_map.1 hl
        exact h1 g hgm
      cases e with
      | some e => exact h2
      | none => exact ih _ h2
  intro l hl
  exact (key run ls (fun l hl => ⟨hg l hl, hv l hl⟩) l hl).2

/-- Effect of an operation on `pruning_step` and the value read from it. -/
def Aux.stepOp (step : Option ℤ) (p : ℤ × ℤ) : GOp → ℤ × ℤ
  | .incRead => (p.1, p.1)
  | .incWrite => (p.2 + 1, p.2)
  | .est => (match step with | none => p.1 + 1 | some s => s, p.2)
  | _ => p

theorem Aux.gOps_step (step : Option ℤ) (f : ℕ → ℕ → α) (ops : List GOp) :
    ∀ (g g' : GLayer α), gOps step f g ops = (g', none) →
      (g'.layer.step, g'.reg) =
        (ops.filter fun o => o = .incRead ∨ o = .incWrite ∨ o = .est).foldl (Aux.stepOp step)
          (g.layer.step, g.reg) := by
  induction ops with
  | nil => intro g g' h; cases h; rfl
  | cons o os ih =>
    intro g g' h
    unfold gOps at h
    rcases ho : gOp step f g o with ⟨g1, e⟩
    rw [ho] at h
    cases e with
    | some e => cases h
    | none =>
      have h := ih _ _ h
      rw [h]
      have hg1 : g1 = (gOp step f g o).1 := by rw [ho]
      subst hg1
      cases o with
      | update =>
        simp only [gOp]
        split_ifs <;> simp
      | est => cases step <;> simp [Aux.stepOp, gOp]
      | _ => simp [Aux.stepOp, gOp]

/-- The three possible orders of the operations that write `pruning_step`. -/
theorem Aux.step_orders (ops : List GOp) (h : Spec.PossibleOrder ops) :
    (ops.filter fun o => o = .incRead ∨ o = .incWrite ∨ o = .est) ∈
      [[GOp.est, .incRead, .incWrite], [.incRead, .est, .incWrite], [.incRead, .incWrite, .est]] := by
  obtain ⟨hp, hs, -, -⟩ := h
  have hp' := hp.filter fun o => decide (o = .incRead ∨ o = .incWrite ∨ o = .est)
  have hs' := hs.filter fun o => decide (o = .incRead ∨ o = .incWrite ∨ o = .est)
  revert hp' hs'
  generalize (ops.filter fun o => decide (o = .incRead ∨ o = .incWrite ∨ o = .est)) = F
  intro hp' hs'
  have hp2 : F.Perm [.incRead, .incWrite, .est] := hp'
  have hs2 : [GOp.incRead, .incWrite].Sublist F := hs'
  have hm := List.mem_permutations'.2 hp2
  have e : ([GOp.incRead, .incWrite, .est] : List GOp).permutations' =
      [[.incRead, .incWrite, .est], [.incWrite, .incRead, .est], [.incWrite, .est, .incRead],
       [.incRead, .est, .incWrite], [.est, .incRead, .incWrite], [.est, .incWrite, .incRead]] := by
    decide
  rw [e] at hm
  simp only [List.mem_cons, List.not_mem_nil, or_false] at hm
  rcases hm with rfl | rfl | rfl | rfl | rfl | rfl
  · decide
  · revert hs2; decide
  · revert hs2; decide
  · decide
  · decide
  · revert hs2; decide

/-- How a training step changes the pruning step from `old` to `new`. -/
def Spec.Advanced (step : Option ℤ) (old new : ℤ) : Prop :=
  match step with
  | none => new = old + 1 ∨ new = old + 2
  | some s => new = s ∨ new = s + 1 ∨ new = old + 1

/-- **C103 (pruning step), partial.**  In every possible order of execution a training step that succeeds
advances the pruning step of every layer by one or two if no step is given, and otherwise sets it to the
given step, to the one after it, or advances it by one.  Missing: that it always advances by exactly one, or
always is the given step (`C103_step_violated`). -/
theorem C103_step_partial (ls : List (PLayer α)) (step : Option ℤ) (f : ℕ → ℕ → ℕ → α)
    (sched : List (ℕ × GOp)) (hs : Spec.PossibleSched ls.length sched) (gs : List (GLayer α))
    (h : estimatorStep step f sched ls = (gs, none)) :
    List.Forall₂ (fun l g => Spec.Advanced step l.step g.layer.step) ls gs := by
  obtain ⟨hl, hi⟩ := Aux.gSched_local step f sched _ _ h
  rw [List.length_map] at hl
  rw [List.forall₂_iff_get]
  refine ⟨hl.symm, fun i h1 h2 => ?_⟩
  obtain ⟨g', hg', hr⟩ := hi i ⟨ls[i], 0, []⟩ (by simp [List.getElem?_eq_getElem h1])
  have e : gs[i] = g' := by
    rw [List.getElem?_eq_getElem h2] at hg'; exact Option.some.inj hg'
  have ho := Aux.step_orders _ (hs i h1)
  have hst := Aux.gOps_step step (f i) _ _ _ hr
  simp only [List.get_eq_getElem, e]
  revert ho hst
  generalize ((Spec.opsOf i sched).filter fun o => decide (o = .incRead ∨ o = .incWrite ∨ o = .est)) = F
  intro ho hst
  simp only [List.mem_cons, List.not_mem_nil, or_false] at ho
  cases step with
  | none =>
    rcases ho with rfl | rfl | rfl <;>
      simp only [List.foldl_cons, List.foldl_nil, Aux.stepOp, Prod.mk.injEq] at hst <;>
      simp only [Spec.Advanced] <;> omega
  | some s =>
    rcases ho with rfl | rfl | rfl <;>
      simp only [List.foldl_cons, List.foldl_nil, Aux.stepOp, Prod.mk.injEq] at hst <;>
      simp only [Spec.Advanced] <;> omega

/-- No operation makes the check fail once the step is positive. -/
theorem Aux.gSched_check (step : Option ℤ) (hstep : ∀ s, step = some s → 1 ≤ s) (f : ℕ → ℕ → ℕ → α)
    (sched : List (ℕ × GOp)) :
    ∀ gs : List (GLayer α), (∀ g ∈ gs, 1 ≤ g.layer.step ∧ 0 ≤ g.reg) →
      (gSched step f gs sched).2 ≠ some .callbackMissing := by
  have hP : ∀ (f' : ℕ → ℕ → α) (g : GLayer α) (o : GOp), 1 ≤ g.layer.step ∧ 0 ≤ g.reg →
      (1 ≤ (gOp step f' g o).1.layer.step ∧ 0 ≤ (gOp step f' g o).1.reg) ∧
        (gOp step f' g o).2 ≠ some .callbackMissing := by
    intro f' g o ⟨h1, h2⟩
    cases o with
    | update =>
      simp only [gOp]
      split_ifs
      · refine ⟨⟨h1, h2⟩, ?_⟩
        dsimp only
        generalize g.layer.vars = vs
        induction vs with
        | nil => simp [updateVars]
        | cons v vs ih =>
          unfold updateVars
          split
          · simp
          · exact ih
      · exact ⟨⟨h1, h2⟩, by simp⟩
    | check =>
      simp only [gOp]
      refine ⟨⟨h1, h2⟩, ?_⟩
      rw [if_neg (by omega)]
      simp
    | est =>
      cases step with
      | none => exact ⟨⟨by simp only [gOp]; omega, h2⟩, by simp [gOp]⟩
      | some s => exact ⟨⟨hstep s rfl, h2⟩, by simp [gOp]⟩
    | incRead => exact ⟨⟨h1, by simp only [gOp]; omega⟩, by simp [gOp]⟩
    | incWrite => exact ⟨⟨by simp only [gOp]; omega, h2⟩, by simp [gOp]⟩
    | _ => exact ⟨⟨h1, h2⟩, by simp [gOp]⟩
  induction sched with
  | nil => intro gs _; simp [gSched]
  | cons x s ih =>
    obtain ⟨j, o⟩ := x
    intro gs h
    unfold gSched
    cases hj : gs[j]? with
    | none => exact ih gs h
    | some gj =>
      dsimp only
      have h1 := hP (f j) gj o (h gj (List.mem_of_getElem? hj))
      rcases ho : gOp step (f j) gj o with ⟨g1, e⟩
      rw [ho] at h1
      cases e with
      | some e => exact h1.2
      | none =>
        refine ih _ ?_
        intro g hg
        rcases List.mem_or_eq_of_mem_set hg with hg | rfl
        · exact h g hg
        · exact h1.1

/-- **C103 (no spurious errors after the first step).**  In every order of execution: once the pruning
steps are positive, training steps never fail with the "callback missing" error. -/
theorem C103_check (ls : List (PLayer α)) (hls : ∀ l ∈ ls, 1 ≤ l.step) (step : Option ℤ)
    (hstep : ∀ s, step = some s → 1 ≤ s) (f : ℕ → ℕ → ℕ → α) (sched : List (ℕ × GOp)) :
    (estimatorStep step f sched ls).2 ≠ some .callbackMissing := by
  refine Aux.gSched_check step hstep f sched _ ?_
  intro g hg
  obtain ⟨l, hl, rfl⟩ := List.mem_map.1 hg
  exact ⟨hls l hl, le_refl _⟩

/-- **C103 (sparsity), partial.**  After a training step in which the masking of the weights of a layer
happened to be the last of its operations on weights and masks, pruned entries of that layer are zero.
Missing: all other orders (`C103_sparsity_violated`). -/
theorem C103_sparsity_partial (ls : List (PLayer α)) (step : Option ℤ) (f : ℕ → ℕ → ℕ → α)
    (hg : ∀ l ∈ ls, Spec.PosBlock l.cfg) (hv : ∀ l ∈ ls, ∀ v ∈ l.vars, Spec.GoodVar v)
    (sched : List (ℕ × GOp)) (gs : List (GLayer α)) (h : estimatorStep step f sched ls = (gs, none))
    (i : ℕ) (a b : List GOp) (ho : Spec.opsOf i sched = a ++ .mask :: b)
    (hb : ∀ o ∈ b, o ≠ .update ∧ o ≠ .optimizer) (g : GLayer α) (hgi : gs[i]? = some g) :
    ∀ v ∈ g.layer.vars, ∀ (p : ℕ), v.mask[p]? = some 0 → v.weight[p]? = some 0 := by
  have happ : ∀ (a b : List GOp) (g g' : GLayer α), gOps step (f i) g (a ++ b) = (g', none) →
      ∃ g1, gOps step (f i) g a = (g1, none) ∧ gOps step (f i) g1 b = (g', none) := by
    intro a
    induction a with
    | nil => intro b g g' h; exact ⟨g, rfl, h⟩
    | cons o a ih =>
      intro b g g' h
      simp only [List.cons_append, gOps] at h ⊢
      rcases hoo : gOp step (f i) g o with ⟨g1, e⟩
      rw [hoo] at h
      cases e with
      | some e => cases h
      | none => exact ih b g1 g' h
  have hgood : ∀ (a : List GOp) (g g' : GLayer α), gOps step (f i) g a = (g', none) →
      Spec.GoodLayer g.layer → Spec.GoodLayer g'.layer := by
    intro a
    induction a with
    | nil => intro g g' h hg; cases h; exact hg
    | cons o a ih =>
      intro g g' h hg
      simp only [gOps] at h
      have h1 := Aux.gOp_good step (f i) g o hg
      rcases ho : gOp step (f i) g o with ⟨g1, e⟩
      rw [ho] at h h1
      cases e with
      | some e => cases h
      | none => exact ih g1 g' h h1
  have htail : ∀ (b : List GOp), (∀ o ∈ b, o ≠ .update ∧ o ≠ .optimizer) → ∀ (g g' : GLayer α),
      gOps step (f i) g b = (g', none) → (∃ vs : List (PVar α), (∀ v ∈ vs, Spec.GoodVar v) ∧
        g.layer.vars = vs.map applyMask) →
      ∃ vs : List (PVar α), (∀ v ∈ vs, Spec.GoodVar v) ∧ g'.layer.vars = vs.map applyMask := by
    intro b
    induction b with
    | nil => intro _ g g' h hx; cases h; exact hx
    | cons o b ih =>
      intro hb g g' h hx
      simp only [gOps] at h
      have hn := hb o List.mem_cons_self
      have key : ∃ vs : List (PVar α), (∀ v ∈ vs, Spec.GoodVar v) ∧
          (gOp step (f i) g o).1.layer.vars = vs.map applyMask := by
        obtain ⟨vs, hvs, e⟩ := hx
        cases o with
        | update => exact absurd rfl hn.1
        | optimizer => exact absurd rfl hn.2
        | mask =>
          refine ⟨g.layer.vars, ?_, rfl⟩
          rw [e]
          exact Aux.map_applyMask_good hvs
        | est => cases step <;> exact ⟨vs, hvs, e⟩
        | _ => exact ⟨vs, hvs, e⟩
      rcases ho : gOp step (f i) g o with ⟨g1, e⟩
      rw [ho] at h key
      cases e with
      | some e => cases h
      | none => exact ih (fun o' h' => hb o' (List.mem_cons_of_mem _ h')) g1 g' h key
  obtain ⟨hl, hi⟩ := Aux.gSched_local step f sched _ _ h
  rw [List.length_map] at hl
  have hlt : i < ls.length := by rw [← hl]; exact (List.getElem?_eq_some_iff.1 hgi).1
  obtain ⟨g', hg', hr⟩ := hi i ⟨ls[i], 0, []⟩ (by simp [List.getElem?_eq_getElem hlt])
  rw [hgi] at hg'
  cases hg'
  rw [ho] at hr
  obtain ⟨g1, hr1, hr2⟩ := happ _ _ _ _ hr
  have hg1 := hgood _ _ _ hr1 ⟨hg _ (List.getElem_mem hlt), hv _ (List.getElem_mem hlt)⟩
  simp only [gOps, gOp] at hr2
  obtain ⟨vs, hvs, e⟩ := htail b hb _ _ hr2 ⟨g1.layer.vars, hg1.2, rfl⟩
  intro v hvm p hp
  rw [e] at hvm
  obtain ⟨u, hu, rfl⟩ := List.mem_map.1 hvm
  obtain ⟨u1, u2, -⟩ := hvs u hu
  have hp' : u.mask[p]? = some 0 := hp
  have hlt' : p < u.weight.length := by
    rw [u1, ← u2]; exact (List.getElem?_eq_some_iff.1 hp').1
  simp only [applyMask, List.getElem?_zipWith, hp', List.getElem?_eq_getElem hlt']
  simp

/-- **C103 (constructor).**  The specification is created exactly if a mode and a training op are given and
a given scaffold has no `init_fn`. -/
theorem C103_spec (mode trainOp : Bool) (scaffold : Option Bool) :
    estimatorSpec mode trainOp scaffold = .ok () ↔
      mode = true ∧ trainOp = true ∧ scaffold ≠ some true := by
  unfold estimatorSpec
  cases mode <;> cases trainOp <;> rcases scaffold with _ | _ | _ <;> simp

namespace Example
/-- One layer, one weight of four entries, half of it to be pruned at every step. -/
def estLayer (step : ℤ) : PLayer ℚ :=
  ⟨⟨fun _ => (true, 1/2), 1, 1, .AVG, none⟩, [⟨[4], [1, 4, 2, 3], [1, 1, 1, 1], 0⟩], step⟩

def orderA : List GOp := [.incRead, .incWrite, .est, .check, .update, .mask, .forward, .optimizer]
def orderB : List GOp := [.check, .incRead, .est, .incWrite, .update, .forward, .optimizer, .mask]

def estRun (step : Option ℤ) (o : List GOp) (l : PLayer ℚ) :=
  estimatorStep step (fun _ _ i => (i : ℚ) + 10) (o.map fun x => (0, x)) [l]

example : Spec.PossibleSched 1 (orderA.map fun x => (0, x)) ∧
    Spec.PossibleSched 1 (orderB.map fun x => (0, x)) := by
  constructor <;> intro i hi <;> obtain rfl : i = 0 := by omega
  · decide
  · decide
end Example

/-- **C103, violated (step).**  The same training step advances the pruning step by two in one possible
order and by one in another. -/
theorem C103_step_violated :
    Spec.PossibleOrder Example.orderA ∧ Spec.PossibleOrder Example.orderB ∧
    (Example.estRun none Example.orderA (Example.estLayer 5)).1.map (fun g => g.layer.step) = [7] ∧
    (Example.estRun none Example.orderA (Example.estLayer 5)).2 = none ∧
    (Example.estRun none Example.orderB (Example.estLayer 5)).1.map (fun g => g.layer.step) = [6] ∧
    (Example.estRun none Example.orderB (Example.estLayer 5)).2 = none := by
  refine ⟨by decide, by decide, ?_, ?_, ?_, ?_⟩ <;> decide +kernel

/-- **C103, violated (first step).**  Right after the initialisation the first training step fails in a
possible order. -/
theorem C103_first_step_violated :
    estimatorInit none [Example.estLayer (-1)] = [Example.estLayer 0] ∧
    Spec.PossibleOrder Example.orderB ∧
    (Example.estRun none Example.orderB (Example.estLayer 0)).2 = some .callbackMissing := by
  refine ⟨rfl, by decide, ?_⟩
  decide +kernel

/-- **C103, violated (sparsity).**  After a training step in a possible order pruned entries are not
zero, and nothing masks them afterwards (an estimator has no callback). -/
theorem C103_sparsity_violated :
    Spec.PossibleOrder Example.orderA ∧
    (Example.estRun none Example.orderA (Example.estLayer 5)).2 = none ∧
    ((Example.estRun none Example.orderA (Example.estLayer 5)).1.map fun g =>
      g.layer.vars.map fun v => (v.weight, v.mask)) = [[([10, 11, 12, 13], [0, 1, 0, 1])]] := by
  refine ⟨by decide, ?_, ?_⟩ <;> decide +kernel

end Verif.Props
