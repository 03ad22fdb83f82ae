import Verif.Quant.Distributed
import Verif.Props.QuantOps

/-!
# C120: quantization-aware training on several replicas

A range that is used for quantization should reflect what all replicas have seen.
-/

set_option linter.unusedSectionVars false
namespace Verif.Props
open Verif Verif.Clustering Verif.Encoding Verif.Quant

variable {α : Type*} [Field α] [LinearOrder α] [IsStrictOrderedRing α] [FloorRing α]

/-! ## Helpers -/

theorem Aux.collect_replicate {β : Type*} (n : ℕ) (o : Option β) (hn : 0 < n) :
    collect (List.replicate n o) = o.map (List.replicate n) := by
  obtain ⟨m, rfl⟩ : ∃ m, n = m + 1 := ⟨n - 1, by omega⟩
  clear hn
  cases o with
  | none => rfl
  | some x =>
    induction m with
    | zero => rfl
    | succ m ih => rw [List.replicate_succ, collect, ih]; rfl

theorem Aux.collect_some {β : Type*} : ∀ (l : List (Option β)) (r : List β),
    collect l = some r ↔ l = r.map some
  | [], r => by cases r <;> simp [collect]
  | none :: l, r => by cases r <;> simp [collect]
  | some x :: l, r => by
    have ih := Aux.collect_some l
    cases r with
    | nil => simp [collect]
    | cons y r => simp [collect, Option.map_eq_some_iff, ih, and_comm]

theorem Aux.zipWith_replicate_both {β γ δ : Type*} (f : β → γ → δ) (n : ℕ) (a : β) (b : γ) :
    List.zipWith f (List.replicate n a) (List.replicate n b) = List.replicate n (f a b) := by
  induction n with
  | zero => rfl
  | succ n ih => simp only [List.replicate_succ, List.zipWith_cons_cons, ih]

theorem Aux.meanVar_replicate (n : ℕ) (hn : 0 < n) (x : RangeVar α) : meanVar (List.replicate n x) = x := by
  have hc : (n : α) ≠ 0 := by exact_mod_cast hn.ne'
  have key : ∀ c, ((List.replicate n x).map fun v => v.entry c).sum / ((List.replicate n x).length : α) = x.entry c := by
    intro c
    simp only [List.map_replicate, List.sum_replicate, List.length_replicate, nsmul_eq_mul]
    rw [mul_div_cancel_left₀ _ hc]
  obtain ⟨m, rfl⟩ : ∃ m, n = m + 1 := ⟨n - 1, by omega⟩
  cases x with
  | scalar a =>
    have := key 0
    rw [List.replicate_succ] at this ⊢
    simp only [meanVar]
    rw [this]; rfl
  | vector l =>
    have h2 : ∀ c, ((List.replicate (m + 1) (RangeVar.vector l)).map fun v => v.entry c).sum /
      ((List.replicate (m + 1) (RangeVar.vector l)).length : α) = (RangeVar.vector l).entry c := key
    rw [List.replicate_succ] at h2 ⊢
    simp only [meanVar, h2]
    congr 1
    apply List.ext_getElem
    · simp
    · intro i h1 h2
      simp only [List.getElem_map, List.getElem_range, RangeVar.entry]
      rw [List.getD_eq_getElem _ _ h2]

/-- MovingAvg is LastValue's value moved in. -/
theorem Aux.update_ema (cfg : QCfg) (v : RangeVars α) (t : QTensor α) :
    QKind.movingAverage.update cfg v t =
      (QKind.lastValue.update cfg v t).map fun w => ⟨emaVar v.lo w.lo, emaVar v.hi w.hi⟩ := by
  obtain ⟨lo, hi⟩ := v
  unfold QKind.update
  simp only
  split
  · split
    · cases lo <;> cases hi <;> try rfl
      rename_i lo hi
      simp only
      split
      · rename_i h
        simp only [Option.map_some, emaVar, RangeVar.entry, Option.some.injEq, RangeVars.mk.injEq, RangeVar.vector.injEq,
          h.1, h.2]
        constructor <;>
        · apply List.map_congr_left
          intro c hc
          rw [Aux.getD_map_range, if_pos (List.mem_range.1 hc)]
      · rfl
    · rfl
  · cases lo <;> cases hi <;> rfl

theorem Aux.dUpdate_same (k : QKind) (cfg : QCfg) (n : ℕ) (hn : 0 < n) (v : RangeVars α) (t : QTensor α) :
    k.dUpdate cfg (List.replicate n v) (List.replicate n t) = (k.update cfg v t).map (List.replicate n) := by
  cases k <;> simp only [QKind.dUpdate, Aux.zipWith_replicate_both, Aux.collect_replicate _ _ hn]
  rw [Aux.update_ema]
  cases QKind.lastValue.update cfg v t with
  | none => rfl
  | some w => simp only [Option.map_some, List.map_replicate, Aux.meanVar_replicate n hn]

theorem Aux.dCall_same (k : QKind) (cfg : QCfg) (n : ℕ) (hn : 0 < n) (v : RangeVars α) (tr : Bool) (t : QTensor α) :
    k.dCall cfg (List.replicate n v) tr (List.replicate n t) =
      (k.call cfg v tr t).map fun r => (List.replicate n r.1, List.replicate n r.2) := by
  unfold QKind.dCall QKind.call
  cases tr
  · simp only [Bool.false_eq_true, if_false, Aux.zipWith_replicate_both, Aux.collect_replicate _ _ hn]
    cases fakeQuantVars cfg (cfg.perAxis && k != .allValues) v t <;> rfl
  · simp only [if_true, Aux.dUpdate_same k cfg n hn]
    cases k.update cfg v t with
    | none => rfl
    | some w =>
      simp only [Option.map_some, Option.bind_some, Aux.zipWith_replicate_both, Aux.collect_replicate _ _ hn]
      cases fakeQuantVars cfg (cfg.perAxis && k != .allValues) w t <;> rfl

/-! ## The same tensor on all replicas: weights -/

/-- A history of one device, run on `n` devices with the same tensors; `none` is saving and loading. -/
def Spec.onEach (n : ℕ) : List (Option (Bool × QTensor α)) → List (DEvent α)
  | [] => []
  | some (tr, t) :: rest => .call tr (List.replicate n t) :: Spec.onEach n rest
  | none :: rest => .reload :: Spec.onEach n rest

/-- C120: if all replicas quantize the same tensors, as for the weights of a layer, which are the same on all
replicas, everything is as on one device: all copies of the range variables are the same, and all outputs.
In particular (`n = 1`) a strategy with one replica changes nothing. -/
theorem C120_same_data (k : QKind) (cfg : QCfg) (n : ℕ) (hn : 0 < n) :
    ∀ (hist : List (Option (Bool × QTensor α))) (v : RangeVars α),
    k.dRun cfg (List.replicate n v) (Spec.onEach n hist) =
      (k.run cfg v (hist.filterMap id)).map fun r => (r.1.map (List.replicate n), List.replicate n r.2)
  | [], v => rfl
  | none :: hist, v => by
    have ih := C120_same_data k cfg n hn hist v
    obtain ⟨m, rfl⟩ : ∃ m, n = m + 1 := ⟨n - 1, by omega⟩
    rw [List.filterMap_cons_none (by rfl), ← ih]
    simp only [Spec.onEach, List.replicate_succ, QKind.dRun, List.length_replicate]
  | some (tr, t) :: hist, v => by
    rw [List.filterMap_cons_some (b := (tr, t)) (by rfl)]
    simp only [Spec.onEach, QKind.dRun, QKind.run, Aux.dCall_same k cfg n hn]
    cases k.call cfg v tr t with
    | none => rfl
    | some r =>
      simp only [Option.map_some, Option.bind_some, C120_same_data k cfg n hn hist r.2]
      cases k.run cfg r.2 (hist.filterMap id) <;> rfl

/-! ## Moving averages: activations -/

theorem Aux.dCall_vars {k : QKind} {cfg : QCfg} {vs vs' : List (RangeVars α)} {tr : Bool} {ts os : List (QTensor α)}
    (h : k.dCall cfg vs tr ts = some (os, vs')) :
    (tr = false → vs' = vs) ∧ (tr = true → k.dUpdate cfg vs ts = some vs') ∧
      collect (List.zipWith (fakeQuantVars cfg (cfg.perAxis && (k != .allValues))) vs' ts) = some os := by
  unfold QKind.dCall at h
  cases tr
  · simp only [Bool.false_eq_true, if_false, Option.map_eq_some_iff] at h
    obtain ⟨o', h1, h2⟩ := h
    cases h2
    exact ⟨fun _ => rfl, by simp, h1⟩
  · simp only [if_true, Option.bind_eq_some_iff, Option.map_eq_some_iff] at h
    obtain ⟨w, h1, o', h2, h3⟩ := h
    cases h3
    exact ⟨by simp, fun _ => h1, h2⟩

/-- Invariants of a history on several replicas. -/
theorem Aux.drun_invariant {k : QKind} {cfg : QCfg} (P : List (RangeVars α) → Prop) (E : DEvent α → Prop)
    (hP : ∀ vs vs' ts, P vs → E (.call true ts) → k.dUpdate cfg vs ts = some vs' → P vs')
    (hR : ∀ v vs, P (v :: vs) → P (List.replicate (vs.length + 1) v)) :
    ∀ (hist : List (DEvent α)) (vs vs' : List (RangeVars α)) (outs : List (List (QTensor α))),
      (∀ e ∈ hist, E e) → P vs → k.dRun cfg vs hist = some (outs, vs') → P vs'
  | [], vs, vs', outs, _, h0, h => by
    simp only [QKind.dRun, Option.some.injEq, Prod.mk.injEq] at h
    rw [← h.2]; exact h0
  | .call tr ts :: hist, vs, vs', outs, hp, h0, h => by
    simp only [QKind.dRun, Option.bind_eq_some_iff, Option.map_eq_some_iff] at h
    obtain ⟨⟨o, w⟩, h1, ⟨outs', w'⟩, h2, h3⟩ := h
    cases h3
    obtain ⟨hf, ht, -⟩ := Aux.dCall_vars h1
    refine Aux.drun_invariant P E hP hR hist w _ _ (fun e he => hp e (List.mem_cons_of_mem _ he)) ?_ h2
    cases tr
    · rw [hf rfl]; exact h0
    · exact hP vs w ts h0 (hp _ List.mem_cons_self) (ht rfl)
  | .reload :: hist, vs, vs', outs, hp, h0, h => by
    have hp' := fun e he => hp e (List.mem_cons_of_mem _ he)
    cases vs with
    | nil => exact Aux.drun_invariant P E hP hR hist _ _ _ hp' h0 h
    | cons v vs => exact Aux.drun_invariant P E hP hR hist _ _ _ hp' (hR v vs h0) h

/-- C120: all copies of a moving average are always the same, whatever the replicas see. -/
theorem C120_average_mirrored (cfg : QCfg) (n : ℕ) (shape : Option (List ℕ)) (hist : List (DEvent α))
    (outs : List (List (QTensor α))) (vs : List (RangeVars α))
    (h : QKind.movingAverage.dRun cfg (QKind.movingAverage.dBuild cfg n shape) hist = some (outs, vs)) :
    ∃ v, vs = List.replicate n v := by
  refine Aux.drun_invariant (fun vs => ∃ v, vs = List.replicate n v) (fun _ => True) ?_ ?_ hist _ vs outs
    (fun _ _ => trivial) ⟨_, rfl⟩ h
  · rintro vs vs' ts ⟨v, rfl⟩ - hu
    simp only [QKind.dUpdate, Option.map_eq_some_iff] at hu
    obtain ⟨new, -, rfl⟩ := hu
    exact ⟨_, List.map_replicate⟩
  · rintro v vs ⟨w, e⟩
    have := congrArg List.length e
    simp only [List.length_cons, List.length_replicate] at this
    exact ⟨v, by rw [this]⟩

theorem Aux.average_update {cfg : QCfg} {n : ℕ} (hn : 0 < n) {lo hi : α} {ts : List (QTensor α)} (hl : ts.length = n)
    {vs' : List (RangeVars α)}
    (h : QKind.movingAverage.dUpdate cfg (List.replicate n ⟨.scalar lo, .scalar hi⟩) ts = some vs') :
    vs' = List.replicate n
      ⟨.scalar (ema lo ((ts.map fun t => (batchRange cfg (reduceMin t.data) (reduceMax t.data)).1).sum / n)),
        .scalar (ema hi ((ts.map fun t => (batchRange cfg (reduceMin t.data) (reduceMax t.data)).2).sum / n))⟩ := by
  simp only [QKind.dUpdate, Option.map_eq_some_iff, Aux.collect_some] at h
  obtain ⟨new, e, rfl⟩ := h
  have hz : ∀ (m : ℕ) (ts : List (QTensor α)) (v : RangeVars α), ts.length = m →
      List.zipWith (QKind.lastValue.update cfg) (List.replicate m v) ts = ts.map (QKind.lastValue.update cfg v) := by
    intro m
    induction m with
    | zero => intro ts v h; rw [List.length_eq_zero_iff.1 h]; rfl
    | succ m ih =>
      intro ts v h
      cases ts with
      | nil => cases h
      | cons t ts => rw [List.replicate_succ, List.zipWith_cons_cons, List.map_cons, ih ts v (by simpa using h)]
  rw [hz n ts _ hl] at e
  have hp : cfg.perAxis = false := by
    by_contra hp
    rw [Bool.not_eq_false] at hp
    cases ts with
    | nil => simp at hl; omega
    | cons t ts =>
      cases new with
      | nil => simp at e
      | cons w new =>
        simp only [List.map_cons, List.cons.injEq] at e
        have := e.1
        simp only [QKind.update, hp, if_true] at this
        split at this <;> cases this
  have e' : new = ts.map fun t => (⟨.scalar (batchRange cfg (reduceMin t.data) (reduceMax t.data)).1,
      .scalar (batchRange cfg (reduceMin t.data) (reduceMax t.data)).2⟩ : RangeVars α) := by
    apply List.map_injective_iff.2 (Option.some_injective _)
    rw [← e, List.map_map]
    apply List.map_congr_left
    intro t _
    simp [QKind.update, hp]
  subst e'
  have hmean : ∀ f : QTensor α → α, meanVar (ts.map fun t => RangeVar.scalar (f t)) = .scalar ((ts.map f).sum / n) := by
    intro f
    cases ts with
    | nil => simp at hl; omega
    | cons t ts => simp [meanVar, RangeVar.entry, ← hl, Function.comp_def]
  simp only [List.map_replicate, List.map_map, Function.comp_def, hmean, emaVar, RangeVar.entry]

theorem Aux.forall₂_map {β γ : Type*} {R : γ → β → Prop} {f : β → γ} : ∀ {ms : List γ} {ts : List β},
    List.Forall₂ R ms ts → (∀ m, ∀ t ∈ ts, R m t → f t = m) → ts.map f = ms
  | _, _, .nil, _ => rfl
  | _, _, .cons h hs, H => by
    rw [List.map_cons, H _ _ List.mem_cons_self h, Aux.forall₂_map hs fun m t ht => H m t (List.mem_cons_of_mem _ ht)]

/-- C120 (not symmetric): a training call moves both ends of the range, on all replicas, one thousandth of
the way to the mean, over the replicas, of the ends of what each replica sees (zero included). -/
theorem C120_average_step (cfg : QCfg) (hs : cfg.symmetric = false) (n : ℕ) (hn : 0 < n) (lo hi : α)
    (ts os : List (QTensor α)) (hl : ts.length = n) (hne : ∀ t ∈ ts, t.data ≠ []) (vs' : List (RangeVars α))
    (h : QKind.movingAverage.dCall cfg (List.replicate n ⟨.scalar lo, .scalar hi⟩) true ts = some (os, vs'))
    (ms Ms : List α) (hm : List.Forall₂ (fun m t => Spec.IsMin m (0 :: t.data)) ms ts)
    (hM : List.Forall₂ (fun M t => Spec.IsMax M (0 :: t.data)) Ms ts) :
    vs' = List.replicate n ⟨.scalar (lo + (ms.sum / n - lo) / 1000), .scalar (hi + (Ms.sum / n - hi) / 1000)⟩ := by
  have hu := Aux.average_update hn hl ((Aux.dCall_vars h).2.1 rfl)
  have e1 : (ts.map fun t => (batchRange cfg (reduceMin t.data) (reduceMax t.data)).1) = ms := by
    refine Aux.forall₂_map hm fun m t ht hmt => ?_
    obtain ⟨a, b⟩ := Aux.reduceMin_isMin (hne t ht)
    simp only [batchRange, hs, Bool.false_eq_true, if_false]
    apply le_antisymm
    · rcases List.mem_cons.1 hmt.1 with h | h
      · rw [h]; exact min_le_right _ _
      · exact (min_le_left _ _).trans (b _ h)
    · exact le_min (hmt.2 _ (List.mem_cons_of_mem _ a)) (hmt.2 _ List.mem_cons_self)
  have e2 : (ts.map fun t => (batchRange cfg (reduceMin t.data) (reduceMax t.data)).2) = Ms := by
    refine Aux.forall₂_map hM fun M t ht hmt => ?_
    obtain ⟨a, b⟩ := Aux.reduceMax_isMax (hne t ht)
    simp only [batchRange, hs, Bool.false_eq_true, if_false]
    apply le_antisymm
    · exact max_le (hmt.2 _ (List.mem_cons_of_mem _ a)) (hmt.2 _ List.mem_cons_self)
    · rcases List.mem_cons.1 hmt.1 with h | h
      · rw [h]; exact le_max_right _ _
      · exact (b _ h).trans (le_max_left _ _)
  rw [hu, e1, e2, Aux.ema_eq, Aux.ema_eq]
  congr 3 <;> ring

theorem Aux.mean_ge {β : Type*} {l : List β} (hne : l ≠ []) {n : ℕ} (hl : l.length = n) (f : β → α) (a : α)
    (h : ∀ x ∈ l, a ≤ f x) : a ≤ (l.map f).sum / n := by
  have hn : (0 : α) < n := by
    rw [← hl]; exact_mod_cast List.length_pos_iff.2 hne
  have key : ∀ l : List β, (∀ x ∈ l, a ≤ f x) → a * l.length ≤ (l.map f).sum := by
    intro l
    induction l with
    | nil => simp
    | cons x l ih =>
      intro h
      have h1 := ih fun y hy => h y (List.mem_cons_of_mem _ hy)
      have h3 := h x List.mem_cons_self
      simp only [List.length_cons, List.map_cons, List.sum_cons, Nat.cast_add, Nat.cast_one]
      linarith
  have h1 := key l h
  rw [hl] at h1
  exact (le_div_iff₀ hn).2 h1

theorem Aux.sum_map_neg {β : Type*} (l : List β) (f : β → α) : (l.map fun x => -f x).sum = -(l.map f).sum := by
  induction l with
  | nil => simp
  | cons x l ih => simp only [List.map_cons, List.sum_cons, ih]; ring

/-- The tensors of a call are proper and there is one for each of the `n` replicas. -/
def Spec.ProperCall (n : ℕ) : DEvent α → Prop
  | .call _ ts => ts.length = n ∧ ∀ t ∈ ts, Spec.ProperTensor t
  | .reload => True

/-- What a replica sees in a training call. -/
def Spec.Trained (e : DEvent α) (t : QTensor α) : Prop := ∃ ts, e = .call true ts ∧ t ∈ ts

/-- C120: on several replicas too, the range of a moving average contains zero, and (not symmetric) does not
extend beyond the initial `[-6, 6]` and what the replicas have seen in training. -/
theorem C120_average_hull (cfg : QCfg) (hb : 2 ≤ cfg.numBits) (n : ℕ) (hn : 0 < n) (shape : Option (List ℕ))
    (hist : List (DEvent α)) (hp : ∀ e ∈ hist, Spec.ProperCall n e) (outs : List (List (QTensor α)))
    (vs : List (RangeVars α))
    (h : QKind.movingAverage.dRun cfg (QKind.movingAverage.dBuild cfg n shape) hist = some (outs, vs)) :
    ∃ lo hi, vs = List.replicate n ⟨.scalar lo, .scalar hi⟩ ∧ lo ≤ 0 ∧ 0 ≤ hi ∧
      ∀ B B' : α, cfg.symmetric = false → B ≤ -6 → 6 ≤ B' →
        (∀ e ∈ hist, ∀ t, Spec.Trained e t → ∀ x ∈ t.data, B ≤ x ∧ x ≤ B') → B ≤ lo ∧ hi ≤ B' := by
  refine Aux.drun_invariant (fun vs => ∃ lo hi : α, vs = List.replicate n ⟨.scalar lo, .scalar hi⟩ ∧ lo ≤ 0 ∧ 0 ≤ hi ∧
      ∀ B B' : α, cfg.symmetric = false → B ≤ -6 → 6 ≤ B' →
        (∀ e ∈ hist, ∀ t, Spec.Trained e t → ∀ x ∈ t.data, B ≤ x ∧ x ≤ B') → B ≤ lo ∧ hi ≤ B') (· ∈ hist) ?_ ?_ hist _ vs
    outs (fun _ he => he) ⟨-6, 6, rfl, by norm_num, by norm_num, fun _ _ _ h1 h2 _ => ⟨h1, h2⟩⟩ h
  · rintro vs vs' ts ⟨lo, hi, rfl, h1, h2, h3⟩ he hu
    obtain ⟨hl, hpt⟩ := hp _ he
    have hne : ts ≠ [] := by
      rintro rfl
      simp at hl
      omega
    rw [Aux.average_update hn hl hu]
    have hspec := fun t ht => Aux.batchRange_spec (cfg := cfg) hb (Aux.min_le_max (hpt t ht).2)
    refine ⟨_, _, rfl, ?_, ?_, ?_⟩
    · have : (ts.map fun t => (batchRange cfg (reduceMin t.data) (reduceMax t.data)).1).sum / n ≤ 0 := by
        have := Aux.mean_ge (n := n) hne hl (fun t => -(batchRange cfg (reduceMin t.data) (reduceMax t.data)).1) 0
          fun t ht => neg_nonneg.2 (hspec t ht).2.2.1
        rw [Aux.sum_map_neg, neg_div] at this
        linarith
      rw [Aux.ema_eq]; linarith
    · have : 0 ≤ (ts.map fun t => (batchRange cfg (reduceMin t.data) (reduceMax t.data)).2).sum / n := by
        apply div_nonneg _ (by positivity)
        apply List.sum_nonneg
        intro x hx
        obtain ⟨t, ht, rfl⟩ := List.mem_map.1 hx
        exact (hspec t ht).2.2.2.1
      rw [Aux.ema_eq]; linarith
    · intro B B' hs hB hB' hbt
      obtain ⟨g1, g2⟩ := h3 B B' hs hB hB' hbt
      have hbr : ∀ t ∈ ts, B ≤ (batchRange cfg (reduceMin t.data) (reduceMax t.data)).1 ∧
          (batchRange cfg (reduceMin t.data) (reduceMax t.data)).2 ≤ B' := by
        intro t ht
        rw [(hspec t ht).2.2.2.2.2 hs]
        have htr : Spec.Trained (.call true ts) t := ⟨ts, rfl, ht⟩
        exact ⟨le_min (hbt _ he t htr _ (Aux.reduceMin_isMin (hpt t ht).2).1).1 (by linarith),
          max_le (hbt _ he t htr _ (Aux.reduceMax_isMax (hpt t ht).2).1).2 (by linarith)⟩
      have m1 : B ≤ (ts.map fun t => (batchRange cfg (reduceMin t.data) (reduceMax t.data)).1).sum / n := by
        have := Aux.mean_ge (n := n) hne hl (fun t => (batchRange cfg (reduceMin t.data) (reduceMax t.data)).1) B
          fun t ht => (hbr t ht).1
        exact this
      have m2 : (ts.map fun t => (batchRange cfg (reduceMin t.data) (reduceMax t.data)).2).sum / n ≤ B' := by
        have := Aux.mean_ge (n := n) hne hl (fun t => -(batchRange cfg (reduceMin t.data) (reduceMax t.data)).2) (-B')
          fun t ht => neg_le_neg (hbr t ht).2
        rw [Aux.sum_map_neg, neg_div] at this
        linarith
      rw [Aux.ema_eq, Aux.ema_eq]
      constructor <;> linarith
  · rintro v vs ⟨lo, hi, e, h⟩
    have hl := congrArg List.length e
    simp only [List.length_cons, List.length_replicate] at hl
    have : v = ⟨.scalar lo, .scalar hi⟩ := List.eq_of_mem_replicate (by rw [← e]; exact List.mem_cons_self)
    exact ⟨lo, hi, by rw [hl, this], h⟩

/-! ## LastValue and AllValues: every replica on its own -/

/-- What replica `r` sees of a history. -/
inductive Spec.Share (r : ℕ) : List (DEvent α) → List (Bool × QTensor α) → Prop
  | nil : Spec.Share r [] []
  | call {tr : Bool} {ts : List (QTensor α)} {t : QTensor α} {hist : List (DEvent α)} {own : List (Bool × QTensor α)} :
      ts[r]? = Option.some t → Spec.Share r hist own → Spec.Share r (.call tr ts :: hist) ((tr, t) :: own)
  | reload {hist : List (DEvent α)} {own : List (Bool × QTensor α)} :
      Spec.Share r hist own → Spec.Share r (.reload :: hist) own

theorem Aux.collect_at {β γ δ : Type*} {f : β → γ → Option δ} {xs : List β} {ys : List γ} {zs : List δ}
    (h : collect (List.zipWith f xs ys) = some zs) {r : ℕ} {x : β} {y : γ} (hx : xs[r]? = some x) (hy : ys[r]? = some y) :
    ∃ z, zs[r]? = some z ∧ f x y = some z := by
  rw [Aux.collect_some] at h
  have := congrArg (fun l => l[r]?) h
  simp only [List.getElem?_zipWith, hx, hy, List.getElem?_map] at this
  cases hz : zs[r]? with
  | none => rw [hz] at this; simp at this
  | some z => rw [hz] at this; simp only [Option.map_some, Option.some.injEq] at this; exact ⟨z, rfl, this⟩

/-- C120: with LastValue and AllValues the range of a replica, and what it computes, is that of a single
device that sees what this replica sees and nothing else, until the model is saved and loaded; that of the primary
replica, which is the one that is saved, is so for ever. -/
theorem C120_own_data_only (k : QKind) (hk : k ≠ .movingAverage) (cfg : QCfg) (r : ℕ) :
    ∀ (hist : List (DEvent α)) (own : List (Bool × QTensor α)) (vs vs' : List (RangeVars α)) (v : RangeVars α)
      (outs : List (List (QTensor α))), Spec.Share r hist own → (r = 0 ∨ DEvent.reload ∉ hist) → vs[r]? = some v →
      k.dRun cfg vs hist = some (outs, vs') →
      ∃ v' os, k.run cfg v own = some (os, v') ∧ vs'[r]? = some v' ∧ List.Forall₂ (fun o all => all[r]? = some o) os outs := by
  intro hist
  induction hist with
  | nil =>
    intro own vs vs' v outs hsh _ hv h
    cases hsh
    simp only [QKind.dRun, Option.some.injEq, Prod.mk.injEq] at h
    rw [← h.1, ← h.2]
    exact ⟨v, [], rfl, hv, .nil⟩
  | cons e hist ih =>
    intro own vs vs' v outs hsh hr hv h
    have hr' : r = 0 ∨ DEvent.reload ∉ hist := hr.imp_right fun h h' => h (List.mem_cons_of_mem _ h')
    cases hsh with
    | reload hsh =>
      have h0 : r = 0 := hr.resolve_right (by simp)
      subst h0
      cases vs with
      | nil => simp at hv
      | cons w vs =>
        simp only [List.getElem?_cons_zero, Option.some.injEq] at hv
        subst hv
        exact ih _ _ _ _ _ hsh (.inl rfl) (by simp [List.replicate_succ]) h
    | @call tr ts t _ own ht hsh =>
      simp only [QKind.dRun, Option.bind_eq_some_iff, Option.map_eq_some_iff] at h
      obtain ⟨⟨o, w⟩, h1, ⟨outs', w'⟩, h2, h3⟩ := h
      cases h3
      obtain ⟨hf, hu, hq⟩ := Aux.dCall_vars h1
      have hw : ∃ x, w[r]? = some x ∧ ((tr = false ∧ x = v) ∨ (tr = true ∧ k.update cfg v t = some x)) := by
        cases tr
        · rw [hf rfl]; exact ⟨v, hv, .inl ⟨rfl, rfl⟩⟩
        · have := hu rfl
          have hd : k.dUpdate cfg vs ts = collect (List.zipWith (k.update cfg) vs ts) := by
            cases k
            · rfl
            · exact absurd rfl hk
            · rfl
          rw [hd] at this
          obtain ⟨x, e1, e2⟩ := Aux.collect_at this hv ht
          exact ⟨x, e1, .inr ⟨rfl, e2⟩⟩
      obtain ⟨x, hx, hux⟩ := hw
      obtain ⟨y, hy, hqy⟩ := Aux.collect_at hq hx ht
      obtain ⟨v', os, g1, g2, g3⟩ := ih _ _ _ _ _ hsh hr' hx h2
      refine ⟨v', y :: os, ?_, g2, .cons hy g3⟩
      have hc : k.call cfg v tr t = some (y, x) := by
        unfold QKind.call
        rcases hux with ⟨rfl, rfl⟩ | ⟨rfl, e⟩
        · simp [hqy]
        · simp [e, hqy]
      simp [QKind.run, hc, g1]

/-- C120: an AllValues range of a replica contains every value this replica has seen in training since the
model was built (not saved and loaded in between); for the primary replica, even then. -/
theorem C120_own_data_covered_partial (cfg : QCfg) (hb : 2 ≤ cfg.numBits) (n r : ℕ) (hr : r < n) (shape : Option (List ℕ))
    (hist : List (DEvent α)) (hp : ∀ e ∈ hist, Spec.ProperCall n e) (h0 : r = 0 ∨ DEvent.reload ∉ hist)
    (outs : List (List (QTensor α))) (vs : List (RangeVars α))
    (h : QKind.allValues.dRun cfg (QKind.allValues.dBuild cfg n shape) hist = some (outs, vs)) :
    ∃ lo hi, vs[r]? = some ⟨.scalar lo, .scalar hi⟩ ∧
      ∀ (ts : List (QTensor α)) (t : QTensor α), .call true ts ∈ hist → ts[r]? = some t → ∀ x ∈ t.data, lo ≤ x ∧ x ≤ hi := by
  have hshare : ∀ hist : List (DEvent α), (∀ e ∈ hist, Spec.ProperCall n e) →
      ∃ own : List (Bool × QTensor α), Spec.Share r hist own ∧ (∀ e ∈ own, Spec.ProperTensor e.2) ∧
        ∀ (ts : List (QTensor α)) (t : QTensor α), .call true ts ∈ hist → ts[r]? = some t → (true, t) ∈ own := by
    intro hist
    induction hist with
    | nil => intro _; exact ⟨[], .nil, by simp, by simp⟩
    | cons e hist ih =>
      intro hp
      obtain ⟨own, g1, g2, g3⟩ := ih fun e he => hp e (List.mem_cons_of_mem _ he)
      cases e with
      | reload =>
        refine ⟨own, .reload g1, g2, fun ts t ht => g3 ts t ?_⟩
        simpa using ht
      | call tr ts =>
        obtain ⟨hl, hpt⟩ := hp _ List.mem_cons_self
        have hrt : r < ts.length := by omega
        refine ⟨(tr, ts[r]) :: own, .call (List.getElem?_eq_getElem hrt) g1, ?_, ?_⟩
        · intro e he
          rcases List.mem_cons.1 he with rfl | he
          · exact hpt _ (List.getElem_mem hrt)
          · exact g2 e he
        · intro ts' t ht hts
          rcases List.mem_cons.1 ht with he | ht
          · simp only [DEvent.call.injEq] at he
            obtain ⟨rfl, rfl⟩ := he
            rw [List.getElem?_eq_getElem hrt, Option.some.injEq] at hts
            rw [hts]; exact List.mem_cons_self
          · exact List.mem_cons_of_mem _ (g3 ts' t ht hts)
  obtain ⟨own, g1, g2, g3⟩ := hshare hist hp
  obtain ⟨v', os, e1, e2, -⟩ := C120_own_data_only .allValues (by simp) cfg r hist own _ _ (QKind.allValues.build cfg shape) _
    g1 h0 (by simp [QKind.dBuild, List.getElem?_replicate, hr]) h
  obtain ⟨lo, hi, rfl, hc, -⟩ := C49_all_values_covers cfg hb shape own g2 os v' e1
  exact ⟨lo, hi, e2, fun ts t ht hts => hc t (g3 ts t ht hts)⟩

/-! ## What is lost -/

/-- The quantizer of the inputs of a model (`default_8bit_transforms.py` 617-619). -/
def Example.inputQuantizer : QCfg := ⟨8, false, false, false⟩

/-- `m` training steps, in which one replica sees 1 and the other sees 100, then saving and loading. -/
def Example.unevenTraining (m : ℕ) : List (DEvent ℚ) :=
  List.replicate m (.call true [⟨[1], [1]⟩, ⟨[1], [100]⟩]) ++ [.reload]

/-- C120 fails for the quantizer of the inputs: however often a replica other than the primary one has seen the
value 100 in training, the saved model takes 100 for 1. -/
theorem C120_inputs_violated (m : ℕ) : ∃ outs vs,
    QKind.allValues.dRun Example.inputQuantizer (QKind.allValues.dBuild Example.inputQuantizer 2 none)
      (Example.unevenTraining (m + 1)) = some (outs, vs) ∧
    QKind.allValues.dCall Example.inputQuantizer vs false [⟨[1], [100]⟩, ⟨[1], [100]⟩] =
      some ([⟨[1], [1]⟩, ⟨[1], [1]⟩], vs) := by
  have step : ∀ vs : List (RangeVars ℚ), vs = QKind.allValues.dBuild Example.inputQuantizer 2 none ∨
      vs = [⟨.scalar 0, .scalar 1⟩, ⟨.scalar 0, .scalar 100⟩] → ∀ m,
      ∃ outs, QKind.allValues.dRun Example.inputQuantizer vs (Example.unevenTraining (m + 1)) =
        some (outs, [⟨.scalar 0, .scalar 1⟩, ⟨.scalar 0, .scalar 1⟩]) := by
    intro vs hvs m
    have hc : QKind.allValues.dCall Example.inputQuantizer vs true [⟨[1], [1]⟩, ⟨[1], [100]⟩] =
        some ([⟨[1], [1]⟩, ⟨[1], [100]⟩], [⟨.scalar 0, .scalar 1⟩, ⟨.scalar 0, .scalar 100⟩]) := by
      rcases hvs with rfl | rfl <;> decide +kernel
    induction m generalizing vs with
    | zero => exact ⟨[_], by simp [Example.unevenTraining, QKind.dRun, hc, List.replicate_succ]; rfl⟩
    | succ m ih =>
      obtain ⟨outs, h⟩ := ih _ (.inr rfl) (by decide +kernel)
      refine ⟨[⟨[1], [1]⟩, ⟨[1], [100]⟩] :: outs, ?_⟩
      rw [Example.unevenTraining, List.replicate_succ, List.cons_append, QKind.dRun, hc, Option.bind_some]
      rw [Example.unevenTraining] at h
      simp only [h, Option.map_some]
  obtain ⟨outs, h⟩ := step _ (.inl rfl) m
  exact ⟨outs, _, h, by decide +kernel⟩

/-- C120 fails also for LastValue on values that differ between the replicas: what the primary replica saw last
is all that the saved range says. -/
theorem C120_last_value_violated : ∃ outs vs,
    QKind.lastValue.dRun Example.inputQuantizer (QKind.lastValue.dBuild Example.inputQuantizer 2 none)
      (Example.unevenTraining 1) = some (outs, vs) ∧ vs = List.replicate 2 ⟨.scalar 0, .scalar 1⟩ :=
  ⟨[[⟨[1], [1]⟩, ⟨[1], [100]⟩]], _, by decide +kernel, rfl⟩

/-! ## Non-vacuity -/

/-- Two channels of weights on three replicas, two training steps and an evaluation, saved in between. -/
def Example.weightHist : List (Option (Bool × QTensor ℚ)) :=
  [some (true, ⟨[2, 2], [1, -3, 2, 5]⟩), none, some (true, ⟨[2, 2], [1, -2, 4, 1]⟩), some (false, ⟨[2, 2], [1, 1, 1, 1]⟩)]

example : (QKind.lastValue.dRun ⟨8, true, true, true⟩ (List.replicate 3 (QKind.lastValue.build ⟨8, true, true, true⟩ (some [2, 2])))
      (Spec.onEach 3 Example.weightHist)).map (fun r => r.2) =
    some (List.replicate 3 (⟨.vector [-4, -2], .vector [4, 2]⟩ : RangeVars ℚ)) := by decide +kernel

/-- Two replicas: the moving average moves to the mean of the two ranges. -/
example : (QKind.movingAverage.dCall Example.inputQuantizer (List.replicate 2 (⟨.scalar (-6), .scalar 6⟩ : RangeVars ℚ)) true
      [⟨[1], [1]⟩, ⟨[2], [-4, 100]⟩]).map (fun r => r.2) =
    some (List.replicate 2 ⟨.scalar (-6 + (-4 / 2 + 6) / 1000), .scalar (6 + (101 / 2 - 6) / 1000)⟩) := by decide +kernel

/-- The share of the second replica. -/
example : Spec.Share 1 ([.call true [⟨[1], [1]⟩, ⟨[1], [100]⟩], .reload, .call false [⟨[1], [2]⟩, ⟨[1], [3]⟩]] : List (DEvent ℚ))
    [(true, ⟨[1], [100]⟩), (false, ⟨[1], [3]⟩)] :=
  .call rfl (.reload (.call rfl .nil))

end Verif.Props
