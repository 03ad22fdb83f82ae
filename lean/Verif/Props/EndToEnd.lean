import Verif.Props.Wrapper

/-!
# Property C99: the sparsity that can be measured in the trained weights

The theorems about masks (C05-C09) and about histories (C10-C13) put together: what is true of the
weights themselves after a training run.
-/

set_option linter.unusedSectionVars false
namespace Verif.Props
open Verif Verif.Sparsity

variable {α : Type*} [Field α] [LinearOrder α] [IsStrictOrderedRing α] [FloorRing α]

/-! ## Specification -/

/-- `after` can be read off the model right after a pass over all layers or at an epoch end: the last
event is a forward pass that succeeded, or an epoch end. -/
def Spec.Settles (m : PModel α) (e : PEvent α) : Prop :=
  (∃ t, e = .call t ∧ (pStep m e).2 = none) ∨ (e = .epochEnd ∧ m.collected = true)

/-! ## Helper lemmas -/

theorem Aux.ravel_unravel (shape : List ℕ) (p : ℕ) (hp : p < shape.prod) :
    ravel shape (unravel shape p) = p := by
  induction shape generalizing p with
  | nil => simp at hp; simp [hp, ravel, unravel]
  | cons n ns ih =>
    rw [List.prod_cons] at hp
    have hns : 0 < ns.prod := by
      rcases Nat.eq_zero_or_pos ns.prod with h | h
      · rw [h] at hp; simp at hp
      · exact h
    have h1 : p / ns.prod < n := by
      rw [Nat.div_lt_iff_lt_mul hns]; exact hp
    simp only [unravel, ravel]
    rw [ih _ (Nat.mod_lt _ hns), Nat.mod_eq_of_lt h1]
    exact Nat.div_add_mod' p ns.prod

theorem Aux.ravel_lt (shape ix : List ℕ) (h : Spec.InShape ix shape) : ravel shape ix < shape.prod := by
  induction shape generalizing ix with
  | nil => cases ix <;> simp_all [Spec.InShape, ravel]
  | cons n ns ih =>
    cases ix with
    | nil => simp [Spec.InShape] at h
    | cons i is =>
      have h1 := ih is h.2
      simp only [ravel, List.prod_cons]
      calc i * ns.prod + ravel ns is < i * ns.prod + ns.prod := by omega
        _ = (i + 1) * ns.prod := by ring
        _ ≤ n * ns.prod := Nat.mul_le_mul_right _ h.1

theorem Aux.unravel_ravel (shape ix : List ℕ) (h : Spec.InShape ix shape) :
    unravel shape (ravel shape ix) = ix := by
  induction shape generalizing ix with
  | nil => cases ix <;> simp_all [Spec.InShape, unravel]
  | cons n ns ih =>
    cases ix with
    | nil => simp [Spec.InShape] at h
    | cons i is =>
      have h1 := Aux.ravel_lt ns is h.2
      have h2 := ih is h.2
      simp only [ravel, unravel]
      rw [Nat.add_comm, Nat.add_mul_div_right _ _ (by omega), Nat.div_eq_of_lt h1, Nat.zero_add,
        Nat.mod_eq_of_lt h.1, Nat.add_mul_mod_self_right, Nat.mod_eq_of_lt h1, h2]

theorem Aux.tflat_get (t : Tensor α) (ix : List ℕ) (h : Spec.InShape ix t.shape) :
    t.flat[ravel t.shape ix]? = some (t.get ix) := by
  unfold Tensor.flat
  rw [List.getElem?_map, List.getElem?_range (Aux.ravel_lt _ _ h)]
  simp [Aux.unravel_ravel _ _ h]

/-- The m-by-n mask of one tensor makes every other tensor of the same shape m-by-n sparse. -/
theorem Aux.masked_accepted (w x T : Tensor α) (m n : ℕ) (h : updateMaskMByN w m n = some T)
    (hx : x.shape = w.shape)
    (hz : ∀ ix, Spec.InShape ix w.shape → T.get ix = 0 → x.get ix = 0) :
    m < n ∧ (w.shape.length = 2 ∨ w.shape.length = 4) ∧ T.shape = w.shape ∧
      isPrunedMByN x m n = .ok true := by
  have hrank : w.shape.length = 2 ∨ w.shape.length = 4 := by
    by_contra hc
    rw [not_or] at hc
    have := (C09_other_ranks w hc.1 hc.2).1
    simp [updateMaskMByN, this] at h
  obtain ⟨M, hM, hpos, hback, -⟩ := C09_layout_lossless w hrank
  have hmn : m < n := by
    by_contra hc
    rw [updateMaskMByN, hM] at h
    simp [C08_reject M m n (by omega)] at h
  obtain ⟨K, hK, k1, k2, k01, kcount, -, -⟩ := C08_mask M m n hmn
  obtain ⟨T', hT, hTs, hTget⟩ := hback K k1 k2
  have : T' = T := by simpa [updateMaskMByN, hM, hK, hT, Except.toOption] using h
  subst this
  refine ⟨hmn, hrank, hTs, ?_⟩
  have hrank' : x.shape.length = 2 ∨ x.shape.length = 4 := by rw [hx]; exact hrank
  unfold isPrunedMByN
  rw [if_neg (by omega)]
  obtain ⟨P, hP, -⟩ := C09_layout_lossless x hrank'
  rw [hP]
  simp only [Except.ok.injEq]
  have hdim : P.rows = M.rows ∧ P.cols = M.cols := by
    obtain ⟨shape, get⟩ := w
    obtain ⟨xs, xget⟩ := x
    simp only at hx
    subst hx
    rcases hrank with h | h
    · match xs, h with
      | [a, b], _ =>
        simp only [weightsRearrange, Except.ok.injEq] at hM hP
        subst hM; subst hP; exact ⟨rfl, rfl⟩
    · match xs, h with
      | [a, b, c, d], _ =>
        simp only [weightsRearrange, Except.ok.injEq] at hM hP
        subst hM; subst hP; exact ⟨rfl, rfl⟩
  apply C08_checker_complete _ _ _ (by omega)
  intro row g hrow hg
  have hsub : ((Spec.group P.cols n g).filter fun c => P.at_ row c ≠ 0) ⊆
      ((Spec.group M.cols n g).filter fun c => K.at_ row c = 1) := by
    intro c hc
    rw [hdim.2] at hc
    simp only [Finset.mem_filter] at hc ⊢
    refine ⟨hc.1, ?_⟩
    have hcM : c < M.cols := by
      have := hc.1
      simp only [Spec.group, Finset.mem_filter, Finset.mem_range] at this
      exact this.1
    obtain ⟨ix, hin, hlp, hall⟩ := Aux.layout_surj hrank w.get hM (by omega : row < M.rows) hcM
    have hP' : weightsRearrange ⟨w.shape, x.get⟩ = .ok P := by
      rw [← hx]; exact hP
    have e1 := (hall _ P hP').1
    obtain ⟨r', c', hlp', hT'⟩ := hTget ix hin
    rw [hlp] at hlp'
    simp only [Option.some.injEq, Prod.mk.injEq] at hlp'
    obtain ⟨rfl, rfl⟩ := hlp'
    rcases k01 row c hcM with z | o
    · exfalso; apply hc.2
      rw [e1]
      exact hz ix hin (by rw [hT', z])
    · exact o
  calc _ ≤ ((Spec.group M.cols n g).filter fun c => K.at_ row c = 1).card := Finset.card_le_card hsub
    _ ≤ n - m := by rw [kcount row g (by rw [← hdim.2]; exact hg)]; exact min_le_right _ _

theorem Aux.map_shape {a b : List (PVar α)} (h : List.Forall₂ (fun v v' => v'.shape = v.shape) a b) :
    b.map (·.shape) = a.map (·.shape) := by
  induction h with
  | nil => rfl
  | cons h _ ih => rw [List.map_cons, List.map_cons, h, ih]

theorem Aux.shapes_callLayer (tr : Bool) (l : PLayer α) :
    (callLayer tr l).1.vars.map (·.shape) = l.vars.map (·.shape) := by
  have ha : ∀ vs : List (PVar α), (vs.map applyMask).map (·.shape) = vs.map (·.shape) := by
    intro vs; rw [List.map_map]; rfl
  have hu : (updateVars l.cfg (l.step + 1) l.vars).1.map (·.shape) = l.vars.map (·.shape) := by
    exact Aux.map_shape ((Aux.updateVars_spec l.cfg (l.step + 1) l.vars).1.imp fun _ _ h => h.1)
  unfold callLayer
  cases tr
  · exact ha _
  · simp only [if_true]
    split_ifs
    · rfl
    · split
      · exact hu
      · exact (ha _).trans hu
    · exact ha _

/-- Configurations and shapes never change. -/
theorem Aux.shapes_step (m : PModel α) (e : PEvent α) :
    List.Forall₂ (fun l l' => l'.cfg = l.cfg ∧ l'.vars.map (·.shape) = l.vars.map (·.shape))
      m.layers (pStep m e).1.layers := by
  refine (Aux.pStep_layers m e).imp ?_
  rintro l l' ⟨h1, h2⟩
  refine ⟨h1, ?_⟩
  cases e with
  | optimizer f =>
    exact Aux.map_shape (h2.2.imp fun _ _ h => h.1)
  | call tr =>
    rcases h2 with rfl | rfl
    · rfl
    · exact Aux.shapes_callLayer _ _
  | trainBegin => rw [h2.1]
  | epochEnd =>
    rcases h2.2 with h | h
    · rw [h]
    · rw [h, List.map_map]; rfl

theorem Aux.shapes_run (m : PModel α) (hist : List (PEvent α)) :
    List.Forall₂ (fun l l' => l'.cfg = l.cfg ∧ l'.vars.map (·.shape) = l.vars.map (·.shape))
      m.layers (pRun m hist).layers := by
  induction hist generalizing m with
  | nil => exact List.forall₂_same.2 fun l _ => ⟨rfl, rfl⟩
  | cons e es ih =>
    refine Aux.forall₂_trans (Aux.shapes_step m e) (ih (pStep m e).1) ?_
    rintro x y z ⟨a1, a2⟩ ⟨b1, b2⟩
    exact ⟨b1.trans a1, b2.trans a2⟩

/-- After a settling event pruned entries are 0. -/
theorem Aux.settled_zero (m : PModel α) (hm : Spec.GoodModel m)
    (hb : ∀ l ∈ m.layers, Spec.PosBlock l.cfg) (hist : List (PEvent α)) (e : PEvent α)
    (he : Spec.Settles (pRun m hist) e) :
    ∀ l ∈ (pStep (pRun m hist) e).1.layers, ∀ v ∈ l.vars,
      ∀ k : ℕ, v.mask[k]? = some 0 → v.weight[k]? = some 0 := by
  have H : List.Forall₂ (fun l l' => List.Forall₂ Spec.Masked l.vars l'.vars)
      (pRun m hist).layers (pStep (pRun m hist) e).1.layers := by
    rcases he with ⟨t, rfl, h⟩ | ⟨rfl, h⟩
    · exact C10_after_forward m hm hb hist t h
    · exact C10_after_epoch_end m hm hb hist h
  refine Aux.forall₂_left (P := fun _ => True) H (fun _ _ => trivial) ?_
  intro l l' h _
  refine Aux.forall₂_left (P := fun _ => True) h (fun _ _ => trivial) ?_
  rintro a b ⟨h1, h2, h3⟩ _ k hk
  obtain ⟨hk1, hk2⟩ := List.getElem?_eq_some_iff.1 hk
  rcases h3 k (by omega) (by omega) hk1 with ⟨-, h⟩ | ⟨h, -⟩
  · rw [List.getElem?_eq_getElem (by omega), h]
  · rw [hk2] at h; exact absurd h zero_ne_one

/-! ## C99 -/

/-- **C99 (m-by-n).**  Take any pruned model that has not been trained yet, whose training starts and
whose first training call succeeds; then any history of optimizer steps, calls (also failing ones),
training starts and epoch ends; then a successful call or an epoch end.  Then the library's checker
accepts every pruned weight of every layer with m-by-n sparsity as it is at that moment. -/
theorem C99_mbyn (m : PModel α) (hm : Spec.GoodModel m) (hb : ∀ l ∈ m.layers, Spec.PosBlock l.cfg)
    (hfresh : ∀ l ∈ m.layers, l.step = -1)
    (hok : (pStep (pStep m .trainBegin).1 (.call true)).2 = none)
    (hist : List (PEvent α)) (e : PEvent α)
    (he : Spec.Settles (pRun m (.trainBegin :: .call true :: hist)) e) :
    ∀ l ∈ (pRun m (.trainBegin :: .call true :: hist ++ [e])).layers,
      ∀ a b, l.cfg.mByN = some (a, b) → ∀ v ∈ l.vars,
        isPrunedMByN (Tensor.ofFlat v.shape v.weight) a b = .ok true := by
  have hz := Aux.settled_zero m hm hb (.trainBegin :: .call true :: hist) e he
  rw [← Aux.run_append] at hz
  set m1 := (pStep (pStep m .trainBegin).1 (.call true)).1 with hm1
  have hrun : pRun m (.trainBegin :: .call true :: hist ++ [e]) = pRun m1 (hist ++ [e]) := rfl
  rw [hrun] at hz ⊢
  -- the steps are at 1 after the first call
  have hstep : ∀ l ∈ m1.layers, l.step = 1 := by
    have h0 : ∀ l ∈ (pStep m .trainBegin).1.layers, l.step = 0 := by
      simp only [pStep, onTrainBegin]
      split
      · simp
      · rename_i l ls h
        rw [if_pos (hfresh l (by simp [h]))]
        simp
    have hc := C11_pruning_step (pStep m .trainBegin).1 hok
    exact Aux.forall₂_left hc h0 fun a b h h' => by rw [h.1, h']; rfl
  have r1 := C13_first_call m hfresh hok
  have r2 : List.Forall₂ (fun l l' => l'.cfg = l.cfg ∧ l'.vars.map (·.shape) = l.vars.map (·.shape))
      m.layers m1.layers := Aux.shapes_run m [.trainBegin, .call true]
  have r3 := C13_fixed_after_first m1 (hist ++ [e]) (fun l hl => by rw [hstep l hl]; decide)
  have r4 := Aux.shapes_run m1 (hist ++ [e])
  have r12 := Aux.forall₂_and r1 r2
  have r34 : List.Forall₂ (fun l l' => (l'.cfg = l.cfg ∧
      l'.vars.map (·.shape) = l.vars.map (·.shape)) ∧
      (l.cfg.mByN ≠ none → Spec.masks l' = Spec.masks l)) m1.layers (pRun m1 (hist ++ [e])).layers := by
    have hall : List.Forall₂ (fun l _ => l.step = 1) m1.layers (pRun m1 (hist ++ [e])).layers := by
      have := r4.length_eq
      revert hstep this
      generalize m1.layers = xs
      generalize (pRun m1 (hist ++ [e])).layers = ys
      intro hs hl
      induction xs generalizing ys with
      | nil => cases ys with
        | nil => exact List.Forall₂.nil
        | cons => simp at hl
      | cons x xs ih => cases ys with
        | nil => simp at hl
        | cons y ys =>
          exact List.Forall₂.cons (hs x (by simp)) (ih ys (fun l h => hs l (by simp [h])) (by simpa using hl))
    refine (Aux.forall₂_and (Aux.forall₂_and r3 r4) hall).imp ?_
    rintro l l' ⟨⟨a, b⟩, c⟩
    exact ⟨b, fun h => a h (by rw [c])⟩
  have r := Aux.forall₂_trans (T := fun (x z : PLayer α) => ∀ a b, z.cfg.mByN = some (a, b) →
      ∀ v ∈ z.vars, ∃ (v0 : PVar α) (T : Tensor α), v0.shape = v.shape ∧ v.mask = T.flat ∧
        updateMaskMByN (Tensor.ofFlat v0.shape v0.weight) a b = some T) r12 r34 ?_
  · refine fun l hl a b hab v hv => ?_
    have := Aux.forall₂_left (P := fun _ => True) r (fun _ _ => trivial) (fun x z h _ => h) l hl a b hab v hv
    obtain ⟨v0, T, h1, h2, h3⟩ := this
    have hacc := Aux.masked_accepted (Tensor.ofFlat v0.shape v0.weight) (Tensor.ofFlat v.shape v.weight) T
      a b h3 h1.symm ?_
    · exact hacc.2.2.2
    · intro ix hix h0
      have hTs : T.shape = v0.shape := (Aux.masked_accepted (Tensor.ofFlat v0.shape v0.weight)
        ⟨v0.shape, fun _ => 0⟩ T a b h3 rfl (fun _ _ _ => rfl)).2.2.1
      have hg := Aux.tflat_get T ix (by rw [hTs]; exact hix)
      rw [h0, hTs, ← h2] at hg
      have := hz l hl v hv _ hg
      simp only [Tensor.ofFlat, List.getD_eq_getElem?_getD]
      rw [← h1, this]
      rfl
  · rintro x y z ⟨c1, c2, c3⟩ ⟨⟨d1, d2⟩, d3⟩ a b hab v hv
    have hxy : x.cfg.mByN = some (a, b) := by rw [← c2, ← d1]; exact hab
    have hyn : y.cfg.mByN ≠ none := by rw [c2, hxy]; simp
    have hmask := d3 hyn
    obtain ⟨i, hi, rfl⟩ := List.getElem_of_mem hv
    have hlen : z.vars.length = y.vars.length := by simpa using congrArg List.length d2
    have hlen' : y.vars.length = x.vars.length := by simpa using congrArg List.length c3
    have e1 : z.vars[i].shape = (y.vars[i]'(by omega)).shape := by
      have := congrArg (fun l => l[i]?) d2
      simpa [hi, (by omega : i < y.vars.length)] using this
    have e2 : (y.vars[i]'(by omega)).shape = (x.vars[i]'(by omega)).shape := by
      have := congrArg (fun l => l[i]?) c3
      simpa [(by omega : i < y.vars.length), (by omega : i < x.vars.length)] using this
    have e3 : z.vars[i].mask = (y.vars[i]'(by omega)).mask := by
      have := congrArg (fun l => l[i]?) hmask
      simp only [Spec.masks, List.getElem?_map, List.getElem?_eq_getElem hi,
        List.getElem?_eq_getElem (by omega : i < y.vars.length), Option.map_some, Option.some.injEq,
        Prod.mk.injEq] at this
      exact this.1
    obtain ⟨T, hT, hTm⟩ := (List.forall₂_iff_get.1 (c1 a b hxy)).2 i (by omega) (by omega)
    simp only [List.get_eq_getElem] at hT hTm
    exact ⟨x.vars[i]'(by omega), T, by rw [e1, e2], by rw [e3, hTm], hT⟩

/-- The masks a layer ends up with are those of its last pruning step. -/
theorem Aux.last_mask (m : PModel α) (hm : Spec.GoodModel m)
    (hb : ∀ l ∈ m.layers, Spec.PosBlock l.cfg) (hpos : ∀ l ∈ m.layers, 0 ≤ l.step)
    (hok : (pStep m (.call true)).2 = none) (hist : List (PEvent α)) (e : PEvent α)
    (he : Spec.Settles (pRun m (.call true :: hist)) e) :
    List.Forall₂ (fun l l' => l'.cfg = l.cfg ∧ (l.cfg.mByN = none →
        (l.cfg.schedule (l.step + 1)).1 = true →
        (∀ t, l.step + 1 < t → t ≤ l.step + 1 + (Spec.trainCalls (hist ++ [e]) : ℤ) →
          (l.cfg.schedule t).1 = false) →
        List.Forall₂ (fun v v' => v'.shape = v.shape ∧ v'.weight.length = v.weight.length ∧
          computeMask l.cfg (l.step + 1) v.shape v.weight = .ok (v'.threshold, v'.mask) ∧
          ∀ k : ℕ, v'.mask[k]? = some 0 → v'.weight[k]? = some 0) l.vars l'.vars))
      m.layers (pRun m (.call true :: hist ++ [e])).layers := by
  have hz := Aux.settled_zero m hm hb (.call true :: hist) e he
  rw [← Aux.run_append] at hz
  have hgood := C11_masks_binary m hm hb (.call true :: hist ++ [e])
  have hf := Aux.forward_ok (tr := true) (ls := m.layers) hok
  set m1 := (pStep m (.call true)).1 with hm1
  have hrun : pRun m (.call true :: hist ++ [e]) = pRun m1 (hist ++ [e]) := rfl
  rw [hrun] at hz hgood ⊢
  have r1 : List.Forall₂ (fun l l' => l.cfg = l'.cfg ∧ 0 ≤ l'.step ∧ l'.step = l.step + 1 ∧
      ((∀ v ∈ l.vars, Spec.GoodVar v) ∧
      (l.cfg.mByN = none → (l.cfg.schedule (l.step + 1)).1 = true →
        List.Forall₂ (fun v v' => v'.shape = v.shape ∧
          computeMask l.cfg (l.step + 1) v.shape v.weight = .ok (v'.threshold, v'.mask))
          l.vars l'.vars))) m.layers m1.layers := by
    have hmem : List.Forall₂ (fun l l' => callLayer true l = (l', none) ∧
        (0 ≤ l.step ∧ ∀ v ∈ l.vars, Spec.GoodVar v)) m.layers m1.layers := by
      have hp : ∀ l ∈ m.layers, 0 ≤ l.step ∧ ∀ v ∈ l.vars, Spec.GoodVar v :=
        fun l hl => ⟨hpos l hl, hm l hl⟩
      change List.Forall₂ _ m.layers (forward true m.layers).1
      revert hp hf
      generalize (forward true m.layers).1 = ys
      generalize m.layers = xs
      intro hf
      induction hf with
      | nil => intro _; exact List.Forall₂.nil
      | cons h _ ih =>
        intro hp
        exact List.Forall₂.cons ⟨h, hp _ (by simp)⟩ (ih fun l hl => hp l (by simp [hl]))
    refine hmem.imp ?_
    rintro l l' ⟨hc, h0, hg⟩
    unfold callLayer at hc
    simp only [if_true] at hc
    rw [if_neg (by omega)] at hc
    split_ifs at hc with h2
    · split at hc
      · simp at hc
      · rename_i hu
        simp only [Prod.mk.injEq, and_true] at hc
        subst hc
        refine ⟨rfl, by simp only; omega, rfl, hg, fun _ _ => ?_⟩
        have hs := Aux.updateVars_spec l.cfg (l.step + 1) l.vars
        simp only
        rw [List.forall₂_map_right_iff]
        refine (Aux.forall₂_and hs.1 (hs.2 hu)).imp ?_
        rintro v v' ⟨a, b⟩
        exact ⟨a.1, b⟩
    · simp only [Prod.mk.injEq, and_true] at hc
      subst hc
      refine ⟨rfl, by simp only; omega, rfl, hg, fun hn hs => ?_⟩
      exfalso; apply h2
      simp [shouldUpdate, hn, hs]
  have hpos1 : ∀ l ∈ m1.layers, 0 ≤ l.step :=
    Aux.forall₂_left (P := fun _ => True) r1 (fun _ _ => trivial) fun a b h _ => h.2.1
  have r2 := C11_between m1 (hist ++ [e]) hpos1
  have r3 := Aux.shapes_run m1 (hist ++ [e])
  have r23 : List.Forall₂ (fun l l' => ((l.cfg.mByN = none →
          (∀ t, l.step < t → t ≤ l.step + (Spec.trainCalls (hist ++ [e]) : ℤ) →
            (l.cfg.schedule t).1 = false) → Spec.masks l' = Spec.masks l) ∧
        (l'.cfg = l.cfg ∧ l'.vars.map (·.shape) = l.vars.map (·.shape))) ∧
        ∀ v ∈ l'.vars, Spec.GoodVar v ∧ ∀ k : ℕ, v.mask[k]? = some 0 → v.weight[k]? = some 0)
      m1.layers (pRun m1 (hist ++ [e])).layers := by
    have h := Aux.forall₂_and r2 r3
    revert h hz hgood
    unfold Spec.GoodModel
    generalize (pRun m1 (hist ++ [e])).layers = ys
    generalize m1.layers = xs
    intro hg hz h
    induction h with
    | nil => exact List.Forall₂.nil
    | cons h _ ih =>
      refine List.Forall₂.cons ⟨h, fun v hv => ⟨hg _ (by simp) v hv, hz _ (by simp) v hv⟩⟩
        (ih (fun l hl => hg l (by simp [hl])) fun l hl => hz l (by simp [hl]))
  refine Aux.forall₂_trans r1 r23 ?_
  rintro x y z ⟨c1, c2, c3, c4, c5⟩ ⟨⟨d1, d2, d3⟩, d4⟩
  refine ⟨by rw [d2, c1], fun hn hs ht => ?_⟩
  have hmask := d1 (by rw [← c1]; exact hn) (by rw [← c1, c3]; exact ht)
  have hc := List.forall₂_iff_get.1 (c5 hn hs)
  have hlen : z.vars.length = y.vars.length := by simpa using congrArg List.length d3
  refine List.forall₂_iff_get.2 ⟨by rw [hc.1, hlen], fun i h1 h2 => ?_⟩
  obtain ⟨f1, f2⟩ := hc.2 i h1 (by omega)
  have e1 : z.vars[i].shape = (y.vars[i]'(by omega)).shape := by
    have := congrArg (fun l => l[i]?) d3
    simpa [h2, (by omega : i < y.vars.length)] using this
  have e3 : z.vars[i].mask = (y.vars[i]'(by omega)).mask ∧
      z.vars[i].threshold = (y.vars[i]'(by omega)).threshold := by
    have := congrArg (fun l => l[i]?) hmask
    simp only [Spec.masks, List.getElem?_map, List.getElem?_eq_getElem h2,
      List.getElem?_eq_getElem (by omega : i < y.vars.length), Option.map_some, Option.some.injEq,
      Prod.mk.injEq] at this
    exact this
  simp only [List.get_eq_getElem] at f1 f2 ⊢
  obtain ⟨g1, g2⟩ := d4 _ (List.getElem_mem h2)
  refine ⟨by rw [e1, f1], ?_, ?_, g2⟩
  · rw [g1.1, e1, f1, (c4 _ (List.getElem_mem h1)).1]
  · rw [e3.1, e3.2]; exact f2

/-- **C99 (element-wise pruning).**  Take any model under training and a successful training call with
which a layer's schedule prunes to sparsity `s`; then any history in which the schedule does not prune
that layer again; then a successful call or an epoch end.  Let `w` be a weight of that layer when
the pruning call started, `n` its size and `k` the number of entries to keep.  Then in the final
weight every entry is 0 that was smaller in magnitude than at least `k` entries of `w`; and if no two
entries of `w` had the same magnitude, at most `k` of the `n` entries are not 0. -/
theorem C99_elementwise (m : PModel α) (hm : Spec.GoodModel m)
    (hb : ∀ l ∈ m.layers, Spec.PosBlock l.cfg) (hpos : ∀ l ∈ m.layers, 0 ≤ l.step)
    (hok : (pStep m (.call true)).2 = none) (hist : List (PEvent α)) (e : PEvent α)
    (he : Spec.Settles (pRun m (.call true :: hist)) e) :
    List.Forall₂ (fun l l' => ∀ s, l.cfg.mByN = none → l.cfg.blockH = 1 → l.cfg.blockW = 1 →
        l.cfg.schedule (l.step + 1) = (true, s) → 0 ≤ s →
        (∀ t, l.step + 1 < t → t ≤ l.step + 1 + (Spec.trainCalls (hist ++ [e]) : ℤ) →
          (l.cfg.schedule t).1 = false) →
        List.Forall₂ (fun v v' => v.weight ≠ [] → ∀ k, Spec.KeepCount s v.weight.length k →
          (∀ (i : ℕ) (x : α), v.weight[i]? = some x →
            k ≤ Spec.countAbs v.weight (fun a => |x| < a) → v'.weight[i]? = some 0) ∧
          ((v.weight.map abs).Nodup → v'.weight.countP (fun x => decide (x ≠ 0)) ≤ k))
          l.vars l'.vars)
      m.layers (pRun m (.call true :: hist ++ [e])).layers := by
  refine (Aux.last_mask m hm hb hpos hok hist e he).imp ?_
  rintro l l' ⟨-, h⟩ s hn hbh hbw hs hs0 ht
  refine (h hn (by rw [hs]) ht).imp ?_
  rintro v v' ⟨-, hlen, hcm, hz⟩ hne k hk
  unfold computeMask at hcm
  simp only [hn, hbh, hbw, and_self, if_true, hs] at hcm
  obtain ⟨hmask, -⟩ := Aux.updateMask_ok hcm
  obtain ⟨q1, -, -⟩ := C06_excess_only_ties s hs0 v.weight hne hcm k hk
  constructor
  · intro i x hx hcount
    apply hz
    have hlt : |x| < v'.threshold := by
      by_contra hge
      rw [not_lt] at hge
      have : Spec.countAbs v.weight (fun a => |x| < a) ≤ Spec.countAbs v.weight (fun a => v'.threshold < a) := by
        unfold Spec.countAbs
        apply List.countP_mono_left
        intro y _ hy
        simp only [decide_eq_true_eq] at hy ⊢
        exact lt_of_le_of_lt hge hy
      omega
    rw [hmask, List.getElem?_map, hx, Option.map_some, if_neg (by simpa using hlt)]
  · intro hd
    rw [← C06_exact_without_ties s hs0 v.weight hne hd hcm k hk]
    have hml : v'.mask.length = v.weight.length := by rw [hmask, List.length_map]
    have h01 : ∀ x ∈ v'.mask, x = 0 ∨ x = 1 := (Aux.updateMask_good hcm).2
    unfold Spec.kept
    have hz' : ∀ (i : ℕ), v'.mask[i]? = some 0 → v'.weight[i]? = some 0 := hz
    have hl2 : v'.weight.length = v'.mask.length := by omega
    revert hz' h01 hl2
    generalize v'.weight = a
    generalize v'.mask = b
    intro h01 hz' hl2
    clear * - hz' h01 hl2
    induction a generalizing b with
    | nil => simp
    | cons x a ih =>
      cases b with
      | nil => simp at hl2
      | cons y b =>
        have := ih b (fun z hz => h01 z (by simp [hz])) (fun i => by simpa using hz' (i + 1))
          (by simpa using hl2)
        rw [List.countP_cons, List.countP_cons]
        simp only [ne_eq, decide_not] at this ⊢
        rcases h01 y (by simp) with rfl | rfl
        · have hx : x = 0 := by simpa using hz' 0
          simp only [hx]
          simpa using this
        · by_cases hx : x = 0
          · simp [hx]; omega
          · simp [hx]; omega

/-- **C99 (block pruning).**  The same for a layer with blocks larger than one entry, whose weights
are matrices: the final weight is 0 in every block that was dropped; which blocks those are is what
C07 says about the mask `M`, computed for the weights as they were when the pruning call started. -/
theorem C99_blocks (m : PModel α) (hm : Spec.GoodModel m)
    (hb : ∀ l ∈ m.layers, Spec.PosBlock l.cfg) (hpos : ∀ l ∈ m.layers, 0 ≤ l.step)
    (hok : (pStep m (.call true)).2 = none) (hist : List (PEvent α)) (e : PEvent α)
    (he : Spec.Settles (pRun m (.call true :: hist)) e) :
    List.Forall₂ (fun l l' => ∀ s, l.cfg.mByN = none → ¬ (l.cfg.blockH = 1 ∧ l.cfg.blockW = 1) →
        l.cfg.schedule (l.step + 1) = (true, s) →
        (∀ t, l.step + 1 < t → t ≤ l.step + 1 + (Spec.trainCalls (hist ++ [e]) : ℤ) →
          (l.cfg.schedule t).1 = false) →
        List.Forall₂ (fun v v' => ∃ r c M, v.shape = [r, c] ∧ v'.shape = [r, c] ∧
          maybeUpdateBlockMask s l.cfg.blockH l.cfg.blockW l.cfg.pool
            ⟨r, c, fun i j => v.weight.getD (i * c + j) 0⟩ = .ok (v'.threshold, M) ∧
          ∀ i j, i < r → j < c → M.at_ i j = 0 → v'.weight[i * c + j]? = some 0)
          l.vars l'.vars)
      m.layers (pRun m (.call true :: hist ++ [e])).layers := by
  refine (Aux.last_mask m hm hb hpos hok hist e he).imp ?_
  rintro l l' ⟨-, h⟩ s hn hbl hs ht
  refine (h hn (by rw [hs]) ht).imp ?_
  rintro v v' ⟨hsh, hlen, hcm, hz⟩
  unfold computeMask at hcm
  simp only [hn, hbl, if_false, hs] at hcm
  split at hcm
  · rename_i r c hshape
    cases hM : blockMaskPath s l.cfg.blockH l.cfg.blockW l.cfg.pool (Mat.ofFlat r c v.weight) with
    | error x => rw [hM] at hcm; cases hcm
    | ok x =>
      obtain ⟨t, M⟩ := x
      rw [hM] at hcm
      simp only [Except.ok.injEq, Prod.mk.injEq] at hcm
      refine ⟨r, c, M, hshape, by rw [hsh, hshape], ?_, ?_⟩
      · rw [maybeUpdateBlockMask, if_neg hbl, ← hcm.1]
        exact hM
      · intro i j hi hj h0
        have hd : M.rows = r ∧ M.cols = c := by
          unfold blockMaskPath at hM
          split_ifs at hM
          dsimp only at hM
          split at hM
          · cases hM
          · split_ifs at hM
            simp only [Except.ok.injEq, Prod.mk.injEq] at hM
            rw [← hM.2]
            exact ⟨rfl, rfl⟩
        apply hz
        rw [← hcm.2]
        unfold Mat.flat
        rw [hd.1, hd.2, List.getElem?_map, List.getElem?_range]
        · simp only [Option.map_some, Option.some.injEq]
          have e1 : (i * c + j) / c = i := by
            rw [Nat.mul_comm, Nat.mul_add_div (by omega), Nat.div_eq_of_lt hj, Nat.add_zero]
          have e2 : (i * c + j) % c = j := by
            rw [Nat.mul_comm, Nat.mul_add_mod, Nat.mod_eq_of_lt hj]
          rw [e1, e2, h0]
        · calc i * c + j < i * c + c := by omega
            _ = (i + 1) * c := by ring
            _ ≤ r * c := Nat.mul_le_mul_right _ hi
  · cases hcm

/-! ## Examples -/

/-- Three pruned layers: element-wise at 50%, 1x2 blocks at 50%, and 2-by-4; all prune at step 1 only. -/
def Example.threeLayers : PModel ℚ :=
  ⟨[freshLayer ⟨fun t => (decide (t = 1), 1/2), 1, 1, .AVG, none⟩ [([2, 2], [1, -4, 3, 2])],
    freshLayer ⟨fun t => (decide (t = 1), 1/2), 1, 2, .MAX, none⟩ [([2, 4], [1, 2, 3, 4, 8, 7, 6, 5])],
    freshLayer ⟨fun _ => (false, 0), 1, 1, .AVG, some (2, 4)⟩ [([4, 1], [1, -5, 3, 2])]], false⟩

/-- A run with an optimizer step after pruning, ended by an epoch end. -/
def Example.threeRun : List (PEvent ℚ) :=
  [.trainBegin, .call true, .optimizer (fun _ _ i => 10 + i), .call true,
    .optimizer (fun _ _ i => 20 + i), .epochEnd]

example : (pRun Example.threeLayers Example.threeRun).layers.map (fun l => l.vars.map (·.weight)) =
    [[[0, 21, 22, 0]], [[0, 0, 0, 0, 24, 25, 26, 27]], [[0, 21, 22, 0]]] := by decide +kernel

example : (pStep (pStep Example.threeLayers .trainBegin).1 (.call true)).2 = none ∧
    Spec.Settles (pRun Example.threeLayers [.trainBegin, .call true]) (.call true) := by
  refine ⟨by decide +kernel, Or.inl ⟨true, rfl, by decide +kernel⟩⟩

example : ∀ l ∈ Example.threeLayers.layers, ∀ v ∈ l.vars, Spec.GoodVar v := by
  simp [Example.threeLayers, freshLayer, Spec.GoodVar]

end Verif.Props
