import Verif.Sparsity.Distributed
import Verif.Props.Wrapper

/-!
# C98: pruning on several replicas
-/

set_option linter.unusedSectionVars false

namespace Verif.Props
open Verif.Sparsity

variable {α : Type*} [Field α] [LinearOrder α] [IsStrictOrderedRing α] [FloorRing α]

/-! ## Specification -/

/-- The same thing happens on a single device. -/
def Spec.oneDevice : DEvent α → PEvent α
  | .optimizer f => .optimizer (f 0)
  | .call t => .call t
  | .trainBegin => .trainBegin
  | .epochEnd => .epochEnd

/-- Optimizer steps give all replicas the same weights (as Keras optimizers do, which reduce the
gradients first). -/
def Spec.Common : DEvent α → Prop
  | .optimizer f => ∀ r, f r = f 0
  | _ => True

/-- Two copies of a layer agree in everything but the weights. -/
def Spec.MirrorSame (l l' : PLayer α) : Prop :=
  l.cfg = l'.cfg ∧ l.step = l'.step ∧
    l.vars.map (fun v => (v.shape, v.mask, v.threshold)) =
      l'.vars.map (fun v => (v.shape, v.mask, v.threshold))

/-- All copies agree in everything but the weights, and are well formed. -/
def Spec.Copies (rs : List (PLayer α)) : Prop :=
  rs ≠ [] ∧ (∀ l ∈ rs, Spec.GoodLayer l) ∧ ∀ l ∈ rs, ∀ l' ∈ rs, Spec.MirrorSame l l'

/-- Pruned weights are zero. -/
def Spec.PrunedZero (l : PLayer α) : Prop :=
  ∀ v ∈ l.vars, v.weight.length = v.mask.length ∧
    ∀ i : ℕ, v.mask[i]? = some 0 → v.weight[i]? = some 0

/-! ## Helper lemmas -/

theorem Aux.mean_eq (xs : List (List α)) (x : List α) (hx : xs ≠ []) (h : ∀ y ∈ xs, y = x) :
    meanList xs = x := by
  cases xs with
  | nil => exact absurd rfl hx
  | cons y ys =>
    have hy : y = x := h y (by simp)
    have hm : ∀ i : ℕ, ((y :: ys).map fun l => l.getD i 0).sum = ((y :: ys).length : α) * x.getD i 0 := by
      intro i
      have : ((y :: ys).map fun l => l.getD i 0) = List.replicate (y :: ys).length (x.getD i 0) := by
        refine List.eq_replicate_iff.2 ⟨by simp, fun z hz => ?_⟩
        obtain ⟨w, hw, rfl⟩ := List.mem_map.1 hz
        rw [h w hw]
      rw [this, List.sum_replicate, nsmul_eq_mul]
    have hne : (((y :: ys).length : ℕ) : α) ≠ 0 := by
      exact_mod_cast (by simp : (y :: ys).length ≠ 0)
    simp only [meanList, hm]
    refine List.ext_getElem (by simp [hy]) fun i h1 h2 => ?_
    simp only [List.getElem_map, List.getElem_range]
    rw [mul_comm, mul_div_assoc, div_self hne, mul_one, List.getD_eq_getElem?_getD,
      List.getElem?_eq_getElem h2]
    rfl

theorem Aux.mean_replicate (n : ℕ) (hn : 1 ≤ n) (x : List α) : meanList (List.replicate n x) = x :=
  Aux.mean_eq _ _ (by intro h; simp at h; omega) fun _ hy => List.eq_of_mem_replicate hy

theorem Aux.dMask_replicate (n : ℕ) (hn : 1 ≤ n) (l : PLayer α) :
    dMask (List.replicate n l) = List.replicate n { l with vars := l.vars.map applyMask } := by
  simp only [dMask, List.map_replicate, Aux.mean_replicate n hn]
  congr 2
  refine List.ext_getElem (by simp) fun i h1 h2 => ?_
  have hi : i < l.vars.length := by simpa using h1
  simp only [List.getElem_mapIdx, List.getElem_map, maskedValue, List.getElem?_eq_getElem hi]
  rfl

theorem Aux.copy_updateVars (cfg : PruneCfg α) (step : ℤ) (vs : List (PVar α)) :
    List.zipWith (fun v new : PVar α => { v with mask := new.mask, threshold := new.threshold }) vs
      (updateVars cfg step vs).1 = (updateVars cfg step vs).1 := by
  induction vs with
  | nil => rfl
  | cons v vs ih =>
    simp only [updateVars]
    split
    · simp only [List.zipWith_cons_cons, List.cons.injEq, true_and]
      refine List.ext_getElem (by simp) fun i h1 h2 => ?_
      simp
    · simp only [List.zipWith_cons_cons, List.cons.injEq, true_and]
      exact ih

theorem Aux.dCallLayer_replicate (n : ℕ) (hn : 1 ≤ n) (tr : Bool) (l : PLayer α) :
    dCallLayer tr (List.replicate n l) = (List.replicate n (callLayer tr l).1, (callLayer tr l).2) := by
  obtain ⟨k, rfl⟩ : ∃ k, n = k + 1 := ⟨n - 1, by omega⟩
  cases tr with
  | false => simp only [dCallLayer, callLayer, Bool.false_eq_true, if_false, Aux.dMask_replicate _ hn]
  | true =>
    simp only [dCallLayer, callLayer, if_true, List.map_replicate]
    by_cases h1 : l.step + 1 < 1
    · rw [if_pos h1, if_pos]
      simp [List.replicate_succ, h1]
    · rw [if_neg h1, if_neg]
      · rw [List.replicate_succ]
        simp only
        rw [← List.replicate_succ]
        unfold dUpdateMasks
        by_cases h2 : shouldUpdate l.cfg (l.step + 1) = true
        · simp only [h2, if_true, List.map_replicate, copyMasks, Aux.copy_updateVars]
          cases h3 : (updateVars l.cfg (l.step + 1) l.vars).2 with
          | some e => simp only
          | none => simp only [Aux.dMask_replicate _ hn]
        · simp only [h2, Bool.false_eq_true, if_false, Aux.dMask_replicate _ hn]
      · simp [h1]

theorem Aux.dForward_replicate (n : ℕ) (hn : 1 ≤ n) (tr : Bool) (ls : List (PLayer α)) :
    dForward tr (ls.map (List.replicate n)) =
      ((forward tr ls).1.map (List.replicate n), (forward tr ls).2) := by
  induction ls with
  | nil => rfl
  | cons l ls ih =>
    simp only [List.map_cons, dForward, forward, Aux.dCallLayer_replicate n hn]
    cases h : callLayer tr l with
    | mk l' e =>
      cases e with
      | some e => simp
      | none => simp [ih]

theorem Aux.dEpochEnd_replicate (n : ℕ) (l : PLayer α) :
    dEpochEnd (List.replicate n l) = List.replicate n { l with vars := l.vars.map applyMask } := by
  cases n with
  | zero => rfl
  | succ k =>
    rw [List.replicate_succ]
    simp only [dEpochEnd]
    rw [← List.replicate_succ, List.map_replicate]
    congr 2
    refine List.ext_getElem (by simp) fun i h1 h2 => ?_
    simp [applyMask]

theorem Aux.dStep_mirrored (n : ℕ) (hn : 1 ≤ n) (m : PModel α) (e : DEvent α) (he : Spec.Common e) :
    dStep (mirrored n m) e = (mirrored n (pStep m (Spec.oneDevice e)).1, (pStep m (Spec.oneDevice e)).2) := by
  cases e with
  | optimizer f =>
    have hf : ∀ r, f r = f 0 := he
    simp only [dStep, pStep, Spec.oneDevice, mirrored, dOptimizer, optimizerStep, Prod.mk.injEq, and_true,
      DModel.mk.injEq]
    refine List.ext_getElem (by simp) fun i h1 h2 => ?_
    simp only [List.getElem_mapIdx, List.getElem_map, hf]
    refine List.ext_getElem (by simp) fun j h3 h4 => ?_
    simp
  | call t =>
    simp only [dStep, pStep, Spec.oneDevice, mirrored, Aux.dForward_replicate n hn]
  | trainBegin =>
    obtain ⟨k, rfl⟩ : ∃ k, n = k + 1 := ⟨n - 1, by omega⟩
    simp only [dStep, pStep, Spec.oneDevice, mirrored, Prod.mk.injEq, and_true, DModel.mk.injEq]
    cases hl : m.layers with
    | nil => rfl
    | cons l ls =>
      simp only [List.map_cons, dTrainBegin, onTrainBegin, List.replicate_succ]
      by_cases h : l.step = -1
      · simp [h, List.replicate_succ]
      · simp [h, List.replicate_succ]
  | epochEnd =>
    obtain ⟨ls, c⟩ := m
    cases c with
    | false => rfl
    | true => simp [dStep, pStep, Spec.oneDevice, mirrored, Aux.dEpochEnd_replicate]

/-! ## C98 -/

/-- **C98 (replicas behave like one device).**  A model that starts with the same variables on `n`
replicas and whose optimizer steps give all replicas the same weights: after every history all replicas
have exactly the weights, masks, thresholds and steps that a single device would have, and an event
raises on the replicas exactly what it would raise there. -/
theorem C98_one_device (n : ℕ) (hn : 1 ≤ n) (m : PModel α) (hist : List (DEvent α))
    (h : ∀ e ∈ hist, Spec.Common e) :
    dRun (mirrored n m) hist = mirrored n (pRun m (hist.map Spec.oneDevice)) ∧
    ∀ e, Spec.Common e → (dStep (dRun (mirrored n m) hist) e).2 =
      (pStep (pRun m (hist.map Spec.oneDevice)) (Spec.oneDevice e)).2 := by
  have key : dRun (mirrored n m) hist = mirrored n (pRun m (hist.map Spec.oneDevice)) := by
    induction hist generalizing m with
    | nil => rfl
    | cons e es ih =>
      simp only [dRun, List.foldl_cons, List.map_cons, pRun]
      rw [Aux.dStep_mirrored n hn m e (h e (by simp))]
      exact ih _ fun e' he' => h e' (by simp [he'])
  refine ⟨key, fun e he => ?_⟩
  rw [key, Aux.dStep_mirrored n hn _ e he]

/-! ### Replicas whose weights differ -/

theorem Aux.same_getElem {l l' : PLayer α} (h : Spec.MirrorSame l l') (i : ℕ) (v : PVar α)
    (hv : l.vars[i]? = some v) :
    ∃ v', l'.vars[i]? = some v' ∧ v'.shape = v.shape ∧ v'.mask = v.mask ∧ v'.threshold = v.threshold := by
  have h1 : (l.vars.map fun v => (v.shape, v.mask, v.threshold))[i]? = some (v.shape, v.mask, v.threshold) := by
    rw [List.getElem?_map, hv]; rfl
  rw [h.2.2, List.getElem?_map] at h1
  obtain ⟨v', h2, h3⟩ := Option.map_eq_some_iff.1 h1
  simp only [Prod.mk.injEq] at h3
  exact ⟨v', h2, h3.1, h3.2.1, h3.2.2⟩

theorem Aux.same_length {l l' : PLayer α} (h : Spec.MirrorSame l l') :
    l.vars.length = l'.vars.length := by
  have := congrArg List.length h.2.2
  simpa using this

/-- Giving all copies the same weights, masked. -/
theorem Aux.copies_set {rs : List (PLayer α)} (h : Spec.Copies rs) (W : ℕ → List α)
    (hW : ∀ p ∈ rs, ∀ (vi : ℕ) (v : PVar α), p.vars[vi]? = some v →
      (W vi).length = v.mask.length ∧ ∀ i : ℕ, v.mask[i]? = some 0 → (W vi)[i]? = some 0) :
    let rs' := rs.map fun l => { l with vars := l.vars.mapIdx fun vi v => { v with weight := W vi } }
    Spec.Copies rs' ∧ ∃ l, (∀ r ∈ rs', r = l) ∧ Spec.PrunedZero l := by
  intro rs'
  obtain ⟨hne, hg, hs⟩ := h
  obtain ⟨p, hp⟩ := List.exists_mem_of_ne_nil rs hne
  let q : PLayer α := { p with vars := p.vars.mapIdx fun vi v => { v with weight := W vi } }
  have hall : ∀ r ∈ rs', r = q := by
    intro r hr
    obtain ⟨l, hl, rfl⟩ := List.mem_map.1 hr
    have hlp := hs l hl p hp
    have hvars : (l.vars.mapIdx fun vi v => { v with weight := W vi }) =
        p.vars.mapIdx fun vi v => { v with weight := W vi } := by
      refine List.ext_getElem (by simp [Aux.same_length hlp]) fun i h1 h2 => ?_
      have hi : i < l.vars.length := by simpa using h1
      have hi' : i < p.vars.length := by simpa using h2
      obtain ⟨v', e, e1, e2, e3⟩ := Aux.same_getElem hlp i l.vars[i] (List.getElem?_eq_getElem hi)
      rw [List.getElem?_eq_getElem hi'] at e
      simp only [Option.some.injEq] at e
      simp only [List.getElem_mapIdx, e, PVar.mk.injEq, e1, e2, e3, and_self]
    simp only [q, hvars, PLayer.mk.injEq]
    exact ⟨hlp.1, trivial, hlp.2.1⟩
  have hq : Spec.GoodLayer q ∧ Spec.PrunedZero q := by
    refine ⟨⟨(hg p hp).1, fun v hv => ?_⟩, fun v hv => ?_⟩
    · obtain ⟨i, hi, rfl⟩ := List.mem_iff_getElem.1 hv
      have hi' : i < p.vars.length := by simpa [q] using hi
      have hgv := (hg p hp).2 _ (List.getElem_mem hi')
      have hw := hW p hp i _ (List.getElem?_eq_getElem hi')
      simp only [q, List.getElem_mapIdx]
      exact ⟨hw.1.trans hgv.2.1, hgv.2.1, hgv.2.2⟩
    · obtain ⟨i, hi, rfl⟩ := List.mem_iff_getElem.1 hv
      have hi' : i < p.vars.length := by simpa [q] using hi
      have hw := hW p hp i _ (List.getElem?_eq_getElem hi')
      simp only [q, List.getElem_mapIdx]
      exact hw
  refine ⟨⟨by simpa [rs'] using hne, fun l hl => by rw [hall l hl]; exact hq.1, fun l hl l' hl' => ?_⟩,
    q, hall, hq.2⟩
  rw [hall l hl, hall l' hl']
  exact ⟨rfl, rfl, rfl⟩

theorem Aux.masked_value {l : PLayer α} (hg : Spec.GoodLayer l) (vi : ℕ) (v : PVar α)
    (hv : l.vars[vi]? = some v) :
    (maskedValue l vi).length = v.mask.length ∧
      ∀ i : ℕ, v.mask[i]? = some 0 → (maskedValue l vi)[i]? = some 0 := by
  have hgv := hg.2 v (List.mem_of_getElem? hv)
  simp only [maskedValue, hv, applyMask]
  refine ⟨by simp [hgv.1, hgv.2.1], fun i hi => ?_⟩
  obtain ⟨hlt, h0⟩ := List.getElem?_eq_some_iff.1 hi
  have hlt' : i < v.weight.length := by rw [hgv.1, ← hgv.2.1]; exact hlt
  rw [List.getElem?_eq_getElem (by simp; omega)]
  simp [h0]

theorem Aux.dMask_copies {rs : List (PLayer α)} (h : Spec.Copies rs) :
    Spec.Copies (dMask rs) ∧ ∃ l, (∀ r ∈ dMask rs, r = l) ∧ Spec.PrunedZero l := by
  refine Aux.copies_set h (fun vi => meanList (rs.map fun r => maskedValue r vi)) ?_
  intro p hp vi v hv
  obtain ⟨hne, hg, hs⟩ := h
  have hmv : ∀ r ∈ rs, (maskedValue r vi).length = v.mask.length ∧
      ∀ i : ℕ, v.mask[i]? = some 0 → (maskedValue r vi)[i]? = some 0 := by
    intro r hr
    obtain ⟨v', e, -, e2, -⟩ := Aux.same_getElem (hs p hp r hr) vi v hv
    rw [← e2]
    exact Aux.masked_value (hg r hr) vi v' e
  cases rs with
  | nil => exact absurd rfl hne
  | cons r0 rs =>
    simp only [List.map_cons, meanList, List.length_map, List.length_range]
    refine ⟨(hmv r0 (by simp)).1, fun i hi => ?_⟩
    have hlt := (List.getElem?_eq_some_iff.1 hi).1
    rw [List.getElem?_map, List.getElem?_range (by rw [(hmv r0 (by simp)).1]; exact hlt)]
    simp only [Option.map_some, Option.some.injEq]
    rw [← List.map_cons (f := fun l : List α => l.getD i 0), ← List.map_cons (f := fun r => maskedValue r vi),
      List.map_map, List.sum_eq_zero, zero_div]
    intro x hx
    obtain ⟨r, hr, rfl⟩ := List.mem_map.1 hx
    simp only [Function.comp_apply, List.getD_eq_getElem?_getD, (hmv r hr).2 i hi, Option.getD_some]

theorem Aux.dEpochEnd_copies {rs : List (PLayer α)} (h : Spec.Copies rs) :
    Spec.Copies (dEpochEnd rs) ∧ ∃ l, (∀ r ∈ dEpochEnd rs, r = l) ∧ Spec.PrunedZero l := by
  obtain ⟨p, ps, rfl⟩ : ∃ p ps, rs = p :: ps := List.exists_cons_of_ne_nil h.1
  have key := Aux.copies_set h (fun vi => maskedValue p vi) (by
    intro r hr vi v hv
    obtain ⟨v', e, -, e2, -⟩ := Aux.same_getElem (h.2.2 r hr p (by simp)) vi v hv
    rw [← e2]
    exact Aux.masked_value (h.2.1 p (by simp)) vi v' e)
  have heq : dEpochEnd (p :: ps) = (p :: ps).map fun l =>
      { l with vars := l.vars.mapIdx fun vi v => { v with weight := maskedValue p vi } } := by
    simp only [dEpochEnd]
    refine List.map_congr_left fun l hl => ?_
    have hlen := Aux.same_length (h.2.2 l hl p (by simp))
    simp only [PLayer.mk.injEq, true_and, and_true]
    refine List.ext_getElem (by simp [hlen]) fun i h1 h2 => ?_
    have hi' : i < p.vars.length := by simp at h1; omega
    simp [maskedValue, List.getElem?_eq_getElem hi']
  rw [heq]
  exact key

theorem Aux.copies_step {rs : List (PLayer α)} (h : Spec.Copies rs) (f : ℤ → ℤ) :
    Spec.Copies (rs.map fun l => { l with step := f l.step }) := by
  refine ⟨by simpa using h.1, fun l hl => ?_, fun l hl l' hl' => ?_⟩
  · obtain ⟨r, hr, rfl⟩ := List.mem_map.1 hl
    exact h.2.1 r hr
  · obtain ⟨r, hr, rfl⟩ := List.mem_map.1 hl
    obtain ⟨r', hr', rfl⟩ := List.mem_map.1 hl'
    obtain ⟨a, b, c⟩ := h.2.2 r hr r' hr'
    exact ⟨a, by simp only [b], c⟩

theorem Aux.copyMasks_getElem {l : PLayer α} {vs : List (PVar α)} (hl : vs.length = l.vars.length)
    (i : ℕ) (hi : i < (copyMasks vs l).vars.length) :
    (copyMasks vs l).vars[i] = { l.vars[i]'(by simp [copyMasks] at hi; omega) with
      mask := (vs[i]'(by simp [copyMasks] at hi; omega)).mask
      threshold := (vs[i]'(by simp [copyMasks] at hi; omega)).threshold } := by
  simp [copyMasks]

theorem Aux.dUpdateMasks_copies {rs : List (PLayer α)} (h : Spec.Copies rs) {p : PLayer α} (hp : p ∈ rs) :
    Spec.Copies (dUpdateMasks p rs).1 := by
  unfold dUpdateMasks
  split
  · have hu := (Aux.updateVars_spec p.cfg p.step p.vars).1
    have hgu := Aux.updateVars_good (step := p.step) (h.2.1 p hp).1 (h.2.1 p hp).2
    generalize (updateVars p.cfg p.step p.vars).1 = vs at hu hgu
    have hlen : ∀ r ∈ rs, vs.length = r.vars.length := fun r hr => by
      rw [← hu.length_eq, Aux.same_length (h.2.2 p hp r hr)]
    have hshape : ∀ (r : PLayer α) (hr : r ∈ rs) (i : ℕ) (h1 : i < r.vars.length) (h2 : i < vs.length),
        r.vars[i].shape = vs[i].shape := by
      intro r hr i h1 h2
      have h3 : i < p.vars.length := by rw [Aux.same_length (h.2.2 p hp r hr)]; exact h1
      obtain ⟨v', e, e1, -⟩ := Aux.same_getElem (h.2.2 p hp r hr) i _ (List.getElem?_eq_getElem h3)
      rw [List.getElem?_eq_getElem h1] at e
      simp only [Option.some.injEq] at e
      rw [e, e1]
      have := (List.forall₂_iff_get.1 hu).2 i h3 h2
      simpa using this.1.symm
    refine ⟨by simpa using h.1, fun l hl => ?_, fun l hl l' hl' => ?_⟩
    · obtain ⟨r, hr, rfl⟩ := List.mem_map.1 hl
      refine ⟨(h.2.1 r hr).1, fun v hv => ?_⟩
      obtain ⟨i, hi, rfl⟩ := List.mem_iff_getElem.1 hv
      rw [Aux.copyMasks_getElem (hlen r hr) i hi]
      have h2 : i < vs.length := by simp [copyMasks] at hi; omega
      have h1 : i < r.vars.length := by simp [copyMasks] at hi; omega
      have g1 := (h.2.1 r hr).2 _ (List.getElem_mem h1)
      have g2 := hgu _ (List.getElem_mem h2)
      refine ⟨g1.1, ?_, g2.2.2⟩
      simp only [hshape r hr i h1 h2]
      exact g2.2.1
    · obtain ⟨r, hr, rfl⟩ := List.mem_map.1 hl
      obtain ⟨r', hr', rfl⟩ := List.mem_map.1 hl'
      have hrr := h.2.2 r hr r' hr'
      refine ⟨hrr.1, hrr.2.1, ?_⟩
      refine List.ext_getElem ?_ fun i h1 h2 => ?_
      · simp [copyMasks, ← hlen r hr, ← hlen r' hr']
      · simp only [List.getElem_map]
        rw [Aux.copyMasks_getElem (hlen r hr) i (by simpa using h1),
          Aux.copyMasks_getElem (hlen r' hr') i (by simpa using h2)]
        have k2 : i < vs.length := by simp [copyMasks] at h1; omega
        have k1 : i < r.vars.length := by simp [copyMasks] at h1; omega
        have k3 : i < r'.vars.length := by simp [copyMasks] at h2; omega
        simp only [hshape r hr i k1 k2, hshape r' hr' i k3 k2]
  · exact h

theorem Aux.dCallLayer_copies {rs : List (PLayer α)} (h : Spec.Copies rs) (tr : Bool) :
    Spec.Copies (dCallLayer tr rs).1 ∧ ((dCallLayer tr rs).2 = none →
      ∃ l, (∀ r ∈ (dCallLayer tr rs).1, r = l) ∧ Spec.PrunedZero l) := by
  cases tr with
  | false =>
    simp only [dCallLayer, Bool.false_eq_true, if_false]
    exact ⟨(Aux.dMask_copies h).1, fun _ => (Aux.dMask_copies h).2⟩
  | true =>
    have h1 := Aux.copies_step h (· + 1)
    simp only [dCallLayer, if_true]
    generalize (rs.map fun l => { l with step := l.step + 1 }) = rs1 at h1
    split
    · exact ⟨h1, fun he => by cases he⟩
    · cases rs1 with
      | nil => exact absurd rfl h1.1
      | cons p ps =>
        simp only
        have h2 := Aux.dUpdateMasks_copies h1 (p := p) (by simp)
        cases hd : dUpdateMasks p (p :: ps) with
        | mk rs2 e =>
          rw [hd] at h2
          cases e with
          | some e => exact ⟨h2, fun he => by cases he⟩
          | none => exact ⟨(Aux.dMask_copies h2).1, fun _ => (Aux.dMask_copies h2).2⟩

theorem Aux.dForward_copies (tr : Bool) (ls : List (List (PLayer α))) (h : ∀ rs ∈ ls, Spec.Copies rs) :
    (∀ rs ∈ (dForward tr ls).1, Spec.Copies rs) ∧ ((dForward tr ls).2 = none →
      ∀ rs ∈ (dForward tr ls).1, ∃ l, (∀ r ∈ rs, r = l) ∧ Spec.PrunedZero l) := by
  induction ls with
  | nil => simp [dForward]
  | cons rs ls ih =>
    have h1 := Aux.dCallLayer_copies (h rs (by simp)) tr
    have ih := ih fun x hx => h x (by simp [hx])
    simp only [dForward]
    cases hd : dCallLayer tr rs with
    | mk rs' e =>
      rw [hd] at h1
      cases e with
      | some e =>
        refine ⟨fun x hx => ?_, fun he => by cases he⟩
        rcases List.mem_cons.1 hx with rfl | hx
        · exact h1.1
        · exact h x (by simp [hx])
      | none =>
        refine ⟨fun x hx => ?_, fun he x hx => ?_⟩
        · rcases List.mem_cons.1 hx with rfl | hx
          · exact h1.1
          · exact ih.1 x hx
        · rcases List.mem_cons.1 hx with rfl | hx
          · exact h1.2 rfl
          · exact ih.2 he x hx

theorem Aux.dOptimizer_copies (f : ℕ → ℕ → ℕ → ℕ → α) (ls : List (List (PLayer α)))
    (h : ∀ rs ∈ ls, Spec.Copies rs) : ∀ rs ∈ dOptimizer f ls, Spec.Copies rs := by
  intro rs hrs
  obtain ⟨li, hli, rfl⟩ := List.mem_iff_getElem.1 hrs
  have hli' : li < ls.length := by simpa [dOptimizer] using hli
  have hc := h _ (List.getElem_mem hli')
  simp only [dOptimizer, List.getElem_mapIdx]
  generalize ls[li] = rs at hc
  have hsame : ∀ (r : ℕ) (l : PLayer α), Spec.MirrorSame
      { l with vars := l.vars.mapIdx fun vi v => { v with weight := v.weight.mapIdx fun i _ => f r li vi i } } l := by
    intro r l
    refine ⟨rfl, rfl, ?_⟩
    refine List.ext_getElem (by simp) fun i h1 h2 => ?_
    simp
  refine ⟨by simpa using hc.1, fun l hl => ?_, fun l hl l' hl' => ?_⟩
  · obtain ⟨r, hr, rfl⟩ := List.mem_iff_getElem.1 hl
    have hr' : r < rs.length := by simpa using hr
    simp only [List.getElem_mapIdx]
    refine ⟨(hc.2.1 _ (List.getElem_mem hr')).1, fun v hv => ?_⟩
    obtain ⟨i, hi, rfl⟩ := List.mem_iff_getElem.1 hv
    have hi' : i < rs[r].vars.length := by simpa using hi
    have hgv := (hc.2.1 _ (List.getElem_mem hr')).2 _ (List.getElem_mem hi')
    simp only [List.getElem_mapIdx]
    exact ⟨by simpa using hgv.1, hgv.2.1, hgv.2.2⟩
  · obtain ⟨r, hr, rfl⟩ := List.mem_iff_getElem.1 hl
    obtain ⟨r', hr', rfl⟩ := List.mem_iff_getElem.1 hl'
    have k : r < rs.length := by simpa using hr
    have k' : r' < rs.length := by simpa using hr'
    simp only [List.getElem_mapIdx]
    have s1 := hsame r rs[r]
    have s2 := hsame r' rs[r']
    have s3 := hc.2.2 _ (List.getElem_mem k) _ (List.getElem_mem k')
    exact ⟨s1.1.trans (s3.1.trans s2.1.symm), s1.2.1.trans (s3.2.1.trans s2.2.1.symm),
      s1.2.2.trans (s3.2.2.trans s2.2.2.symm)⟩

theorem Aux.dTrainBegin_copies (ls : List (List (PLayer α))) (h : ∀ rs ∈ ls, Spec.Copies rs) :
    ∀ rs ∈ dTrainBegin ls, Spec.Copies rs := by
  intro rs hrs
  unfold dTrainBegin at hrs
  split at hrs
  · cases hrs
  · split at hrs
    · exact h rs hrs
    · split at hrs
      · obtain ⟨x, hx, rfl⟩ := List.mem_map.1 hrs
        exact Aux.copies_step (h x hx) (fun _ => 0)
      · exact h rs hrs

theorem Aux.dStep_copies (m : DModel α) (h : ∀ rs ∈ m.layers, Spec.Copies rs) (e : DEvent α) :
    ∀ rs ∈ (dStep m e).1.layers, Spec.Copies rs := by
  cases e with
  | optimizer f => exact Aux.dOptimizer_copies f m.layers h
  | call t => exact (Aux.dForward_copies t m.layers h).1
  | trainBegin => exact Aux.dTrainBegin_copies m.layers h
  | epochEnd =>
    intro rs hrs
    simp only [dStep] at hrs
    split at hrs
    · obtain ⟨x, hx, rfl⟩ := List.mem_map.1 hrs
      exact (Aux.dEpochEnd_copies (h x hx)).1
    · exact h rs hrs

theorem Aux.dRun_copies (m : DModel α) (h : ∀ rs ∈ m.layers, Spec.Copies rs) (hist : List (DEvent α)) :
    ∀ rs ∈ (dRun m hist).layers, Spec.Copies rs := by
  induction hist generalizing m with
  | nil => exact h
  | cons e es ih => exact ih _ (Aux.dStep_copies m h e)

/-- **C98 (replicas are brought together).**  Even if optimizer steps leave different weights on the
replicas: as long as the copies of masks, thresholds and steps agree to begin with they always do, and
after every forward pass without exception and after every epoch end all replicas have the same
weights, zero at all pruned positions. -/
theorem C98_together (m : DModel α) (h : ∀ rs ∈ m.layers, Spec.Copies rs) (hist : List (DEvent α)) :
    (∀ rs ∈ (dRun m hist).layers, ∀ l ∈ rs, ∀ l' ∈ rs, Spec.MirrorSame l l') ∧
    (∀ t, (dStep (dRun m hist) (.call t)).2 = none →
      ∀ rs ∈ (dStep (dRun m hist) (.call t)).1.layers, ∃ l, (∀ r ∈ rs, r = l) ∧ Spec.PrunedZero l) ∧
    ((dRun m hist).collected = true → ∀ rs ∈ (dStep (dRun m hist) .epochEnd).1.layers,
      ∃ l, (∀ r ∈ rs, r = l) ∧ Spec.PrunedZero l) := by
  have hc := Aux.dRun_copies m h hist
  refine ⟨fun rs hrs => (hc rs hrs).2.2, fun t he => (Aux.dForward_copies t _ hc).2 he, fun hcol rs hrs => ?_⟩
  simp only [dStep, hcol, if_true] at hrs
  obtain ⟨x, hx, rfl⟩ := List.mem_map.1 hrs
  exact (Aux.dEpochEnd_copies (hc x hx)).2

/-- C98: models as they are built meet the hypothesis of `C98_together`. -/
theorem C98_mirrored (n : ℕ) (hn : 1 ≤ n) (m : PModel α) (hm : Spec.GoodModel m)
    (hb : ∀ l ∈ m.layers, Spec.PosBlock l.cfg) : ∀ rs ∈ (mirrored n m).layers, Spec.Copies rs := by
  intro rs hrs
  obtain ⟨l, hl, rfl⟩ := List.mem_map.1 hrs
  refine ⟨by intro h; simp at h; omega, fun x hx => ?_, fun x hx y hy => ?_⟩
  · rw [List.eq_of_mem_replicate hx]; exact ⟨hb l hl, hm l hl⟩
  · rw [List.eq_of_mem_replicate hx, List.eq_of_mem_replicate hy]; exact ⟨rfl, rfl, rfl⟩

namespace Example

/-- Two weights, half of them pruned at every step. -/
def twoReplicas : PModel ℚ :=
  ⟨[freshLayer ⟨fun _ => (true, 1/2), 1, 1, .AVG, none⟩ [([2], [1, 3])]], false⟩

/-- A step in which the replicas' weights come apart; the mask comes from the first replica. -/
example : (dRun (mirrored 2 twoReplicas) [.trainBegin, .call true, .optimizer fun r _ _ i =>
      if r = 0 then 5 - (i : ℚ) else 2 * (i : ℚ) + 1, .call true]).layers.map
        (fun rs => rs.map fun l => l.vars.map fun v => (v.mask, v.weight)) =
    [[[([1, 0], [3, 0])], [([1, 0], [3, 0])]]] := by decide +kernel

example : ∀ e ∈ ([.trainBegin, .call true, .optimizer fun _ _ _ i => (i : ℚ), .epochEnd] : List (DEvent ℚ)),
    Spec.Common e := by
  intro e he
  simp only [List.mem_cons, List.not_mem_nil, or_false] at he
  rcases he with rfl | rfl | rfl | rfl
  · trivial
  · trivial
  · intro r; rfl
  · trivial

end Example

end Verif.Props
