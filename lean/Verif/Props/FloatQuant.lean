import Verif.Floats.Quant
import Verif.Props.FloatUniform
import Verif.Props.QuantOps

/-!
# C48, C49, C72, C73 in rounded arithmetic: range tracking
-/

set_option linter.unusedSectionVars false

namespace Verif.Props
open Verif Verif.Floats Verif.Clustering Verif.Quant

variable {α : Type*} [Field α] [LinearOrder α] [IsStrictOrderedRing α] [FloorRing α]

/-- A batch: non-empty, of numbers of the format. -/
def Spec.FloatBatch (R : Rounding α) (b : List α) : Prop := b ≠ [] ∧ ∀ x ∈ b, R.rnd x = x

theorem Aux.min_rep (R : Rounding α) {a b : α} (ha : R.rnd a = a) (hb : R.rnd b = b) :
    R.rnd (min a b) = min a b := by
  rcases min_choice a b with h | h <;> rw [h] <;> assumption

theorem Aux.max_rep (R : Rounding α) {a b : α} (ha : R.rnd a = a) (hb : R.rnd b = b) :
    R.rnd (max a b) = max a b := by
  rcases max_choice a b with h | h <;> rw [h] <;> assumption

theorem Aux.rnd_nonpos (R : Rounding α) {x : α} (h : x ≤ 0) : R.rnd x ≤ 0 := by
  have := R.mono h
  rwa [Aux.rnd_zero] at this

/-- The range of a batch covers the batch and zero, and its ends are numbers of the format. -/
theorem Aux.batchRangeF_spec (R : Rounding α) {cfg : QCfg} (hb : 2 ≤ cfg.numBits) {m M : α} (h : m ≤ M)
    (hm : R.rnd m = m) (hM : R.rnd M = M) :
    (batchRangeF R cfg m M).1 ≤ 0 ∧ 0 ≤ (batchRangeF R cfg m M).2 ∧
    (batchRangeF R cfg m M).1 ≤ m ∧ M ≤ (batchRangeF R cfg m M).2 ∧
    R.rnd (batchRangeF R cfg m M).1 = (batchRangeF R cfg m M).1 ∧
    R.rnd (batchRangeF R cfg m M).2 = (batchRangeF R cfg m M).2 := by
  have hr := Aux.ratio_neg (α := α) hb
  unfold batchRangeF
  split_ifs
  · dsimp only
    refine ⟨?_, ?_, min_le_left _ _, le_max_left _ _, Aux.min_rep R hm (R.idem _), Aux.max_rep R hM (R.idem _)⟩
    · rcases le_or_gt m 0 with h0 | h0
      · exact (min_le_left _ _).trans h0
      · exact (min_le_right _ _).trans (Aux.rnd_nonpos R (div_nonpos_of_nonneg_of_nonpos (by linarith) hr.le))
    · rcases le_or_gt 0 M with h0 | h0
      · exact h0.trans (le_max_left _ _)
      · exact (Aux.rnd_nonneg R (mul_nonneg_of_nonpos_of_nonpos (by linarith) hr.le)).trans (le_max_right _ _)
  · exact ⟨min_le_right _ _, le_max_right _ _, min_le_left _ _, le_max_left _ _,
      Aux.min_rep R hm (Aux.rnd_zero R), Aux.max_rep R hM (Aux.rnd_zero R)⟩

theorem Aux.emaF_neg (R : Rounding α) (d v x : α) : emaF R d (-v) (-x) = -emaF R d v x := by
  unfold emaF
  rw [show -v - -x = -(v - x) by ring, R.neg, neg_mul, R.neg,
    show -v - -R.rnd (R.rnd (v - x) * d) = -(v - R.rnd (R.rnd (v - x) * d)) by ring, R.neg]

theorem Aux.emaF_nonpos (R : Rounding α) {d v x : α} (hd0 : 0 ≤ d) (hd1 : d ≤ 1) (hv : R.rnd v = v) (h1 : v ≤ 0)
    (h2 : x ≤ 0) : emaF R d v x ≤ 0 := by
  unfold emaF
  refine Aux.rnd_nonpos R ?_
  have key : v ≤ R.rnd (R.rnd (v - x) * d) := by
    rcases le_or_gt x v with h | h
    · exact h1.trans (Aux.rnd_nonneg R (mul_nonneg (Aux.rnd_nonneg R (by linarith)) hd0))
    · have a : v ≤ R.rnd (v - x) := hv.symm.le.trans (R.mono (by linarith))
      have b : R.rnd (v - x) ≤ 0 := Aux.rnd_nonpos R (by linarith)
      exact hv.symm.le.trans (R.mono (by nlinarith))
  linarith

theorem Aux.initF_facts (R : Rounding α) (k : QKind) :
    (initF k : α × α).1 ≤ 0 ∧ (0 : α) ≤ (initF k).2 ∧ R.rnd (initF k : α × α).1 = (initF k).1 ∧
      R.rnd (initF k : α × α).2 = (initF k).2 := by
  have h6 : R.rnd (6 : α) = 6 := by exact_mod_cast R.nat 6 (by norm_num)
  unfold initF
  cases k
  · exact ⟨by norm_num, by norm_num, by rw [R.neg, h6], h6⟩
  · exact ⟨by norm_num, by norm_num, by rw [R.neg, h6], h6⟩
  · exact ⟨le_rfl, le_rfl, Aux.rnd_zero R, Aux.rnd_zero R⟩

/-- Rule for invariants of histories. -/
theorem Aux.runF_invariant (R : Rounding α) (d : α) (k : QKind) (cfg : QCfg) (P : α × α → Prop)
    (h0 : P (initF k)) (hist : List (List α)) (hstep : ∀ v b, b ∈ hist → P v → P (updateF R d k cfg v b)) :
    P (runF R d k cfg hist) := by
  unfold runF
  generalize initF (α := α) k = v at h0
  induction hist generalizing v with
  | nil => exact h0
  | cons b rest ih =>
    exact ih (fun v b' hb' => hstep v b' (List.mem_cons_of_mem _ hb')) _
      (hstep v b List.mem_cons_self h0)

theorem Aux.batch_facts {R : Rounding α} {b : List α} (h : Spec.FloatBatch R b) :
    reduceMin b ≤ reduceMax b ∧ R.rnd (reduceMin b) = reduceMin b ∧ R.rnd (reduceMax b) = reduceMax b ∧
    ∀ x ∈ b, reduceMin b ≤ x ∧ x ≤ reduceMax b := by
  have h1 := Aux.reduceMin_isMin h.1
  have h2 := Aux.reduceMax_isMax h.1
  exact ⟨h1.2 _ h2.1, h.2 _ h1.1, h.2 _ h2.1, fun x hx => ⟨h1.2 x hx, h2.2 x hx⟩⟩

/-- The invariant of the range. -/
def Spec.FloatRange (R : Rounding α) (v : α × α) : Prop :=
  v.1 ≤ 0 ∧ 0 ≤ v.2 ∧ R.rnd v.1 = v.1 ∧ R.rnd v.2 = v.2

theorem Aux.updateF_range (R : Rounding α) {d : α} (hd0 : 0 ≤ d) (hd1 : d ≤ 1) (k : QKind) {cfg : QCfg}
    (hb : 2 ≤ cfg.numBits) {v : α × α} {b : List α} (hbt : Spec.FloatBatch R b) (hv : Spec.FloatRange R v) :
    Spec.FloatRange R (updateF R d k cfg v b) := by
  obtain ⟨v1, v2, v3, v4⟩ := hv
  obtain ⟨hle, h1, h2, -⟩ := Aux.batch_facts hbt
  obtain ⟨b1, b2, -, -, b5, b6⟩ := Aux.batchRangeF_spec R hb hle h1 h2
  cases k with
  | lastValue => exact ⟨b1, b2, b5, b6⟩
  | movingAverage =>
    refine ⟨Aux.emaF_nonpos R hd0 hd1 v3 v1 b1, ?_, R.idem _, R.idem _⟩
    have := Aux.emaF_nonpos R (v := -v.2) (x := -(batchRangeF R cfg (reduceMin b) (reduceMax b)).2) hd0 hd1
      (by rw [R.neg, v4]) (by linarith) (by linarith)
    rw [Aux.emaF_neg] at this
    show 0 ≤ emaF R d v.2 _
    linarith
  | allValues =>
    refine ⟨min_le_right _ _, le_max_right _ _, ?_, ?_⟩
    · show R.rnd (min (min v.1 _) 0) = _
      refine Aux.min_rep R (Aux.min_rep R v3 ?_) (Aux.rnd_zero R)
      split_ifs
      · exact Aux.min_rep R h1 (R.idem _)
      · exact h1
    · show R.rnd (max (max v.2 _) 0) = _
      refine Aux.max_rep R (Aux.max_rep R v4 ?_) (Aux.rnd_zero R)
      split_ifs
      · exact Aux.max_rep R h2 (R.idem _)
      · exact h2

/-- **C48 in floating-point arithmetic.**  For every rounding and every decay, after any history of training batches the
range of each of the three quantizers contains zero (and its ends are numbers of the format). -/
theorem C48_float_contains_zero (R : Rounding α) (d : α) (hd0 : 0 ≤ d) (hd1 : d ≤ 1) (k : QKind) (cfg : QCfg)
    (hb : 2 ≤ cfg.numBits) (hist : List (List α)) (hp : ∀ b ∈ hist, Spec.FloatBatch R b) :
    Spec.FloatRange R (runF R d k cfg hist) :=
  Aux.runF_invariant R d k cfg _ (Aux.initF_facts R k) hist
    fun _ b hm hv => Aux.updateF_range R hd0 hd1 k hb (hp b hm) hv

/-- **C48 in floating-point arithmetic.**  Symmetric quantization with narrow range keeps exactly symmetric ranges:
rounding does not break the symmetry. -/
theorem C48_float_symmetric_narrow (R : Rounding α) (d : α) (k : QKind) (cfg : QCfg)
    (hs : cfg.symmetric = true) (hn : cfg.narrow = true) (hist : List (List α))
    (hp : ∀ b ∈ hist, Spec.FloatBatch R b) :
    (runF R d k cfg hist).2 = -(runF R d k cfg hist).1 := by
  have hr : (minMaxRatio cfg : α) = -1 := by simp [minMaxRatio, hn]
  refine Aux.runF_invariant R d k cfg (fun v => v.2 = -v.1) (by unfold initF; cases k <;> simp) hist ?_
  intro v b hm hv
  obtain ⟨hle, h1, h2, -⟩ := Aux.batch_facts (hp b hm)
  have e1 : R.rnd (reduceMax b / minMaxRatio cfg) = -reduceMax b := by
    rw [hr, div_neg, div_one, R.neg, h2]
  have e2 : ∀ x : α, R.rnd x = x → R.rnd (x * minMaxRatio cfg) = -x := by
    intro x hx
    rw [hr, mul_neg, mul_one, R.neg, hx]
  have eb : (batchRangeF R cfg (reduceMin b) (reduceMax b)).2 =
      -(batchRangeF R cfg (reduceMin b) (reduceMax b)).1 := by
    unfold batchRangeF
    rw [if_pos hs]
    dsimp only
    rw [e1, e2 _ h1, ← max_neg_neg, neg_neg, max_comm]
  cases k with
  | lastValue => exact eb
  | movingAverage =>
    show emaF R d v.2 _ = -emaF R d v.1 _
    rw [eb, hv, Aux.emaF_neg]
  | allValues =>
    show max (max v.2 _) 0 = -min (min v.1 _) 0
    rw [if_pos hs, if_pos hs, e1, e2 _ (Aux.min_rep R h1 (by rw [R.neg, h2])), hv]
    have : max (reduceMax b) (-min (reduceMin b) (-reduceMax b)) = -min (reduceMin b) (-reduceMax b) :=
      max_eq_right (by have := min_le_right (reduceMin b) (-reduceMax b); linarith)
    rw [this, max_neg_neg, ← neg_zero, max_neg_neg, neg_zero]

/-- **C49 in floating-point arithmetic.**  The AllValues range contains every entry of every training batch, and never
shrinks. -/
theorem C49_float_covers (R : Rounding α) (d : α) (cfg : QCfg) (hist : List (List α))
    (hp : ∀ b ∈ hist, b ≠ []) :
    (∀ b ∈ hist, ∀ x ∈ b, (runF R d .allValues cfg hist).1 ≤ x ∧ x ≤ (runF R d .allValues cfg hist).2) ∧
    ∀ b, (runF R d .allValues cfg (hist ++ [b])).1 ≤ (runF R d .allValues cfg hist).1 ∧
      (runF R d .allValues cfg hist).2 ≤ (runF R d .allValues cfg (hist ++ [b])).2 := by
  have step : ∀ (v : α × α) b, (updateF R d .allValues cfg v b).1 ≤ v.1 ∧
      v.2 ≤ (updateF R d .allValues cfg v b).2 := fun v b =>
    ⟨(min_le_left _ _).trans (min_le_left _ _), (le_max_left _ _).trans (le_max_left _ _)⟩
  have grow : ∀ (l : List (List α)) (v : α × α), (l.foldl (updateF R d .allValues cfg) v).1 ≤ v.1 ∧
      v.2 ≤ (l.foldl (updateF R d .allValues cfg) v).2 := by
    intro l
    induction l with
    | nil => exact fun v => ⟨le_rfl, le_rfl⟩
    | cons b rest ih =>
      intro v
      have := ih (updateF R d .allValues cfg v b)
      exact ⟨this.1.trans (step v b).1, (step v b).2.trans this.2⟩
  refine ⟨?_, ?_⟩
  · intro b hb x hx
    obtain ⟨l₁, l₂, rfl⟩ := List.append_of_mem hb
    unfold runF
    rw [List.foldl_append, List.foldl_cons]
    have g := grow l₂ (updateF R d .allValues cfg (l₁.foldl (updateF R d .allValues cfg) (initF .allValues)) b)
    have h1 := (Aux.reduceMin_isMin (hp b hb)).2 x hx
    have h2 := (Aux.reduceMax_isMax (hp b hb)).2 x hx
    refine ⟨g.1.trans ?_, le_trans ?_ g.2⟩
    · refine le_trans ((min_le_left _ _).trans (min_le_right _ _)) ?_
      split_ifs
      · exact (min_le_left _ _).trans h1
      · exact h1
    · refine le_trans ?_ ((le_max_right _ _).trans (le_max_left _ _))
      split_ifs
      · exact h2.trans (le_max_left _ _)
      · exact h2
  · intro b
    unfold runF
    rw [List.foldl_append]
    exact step _ _

/-- **C72 in floating-point arithmetic.**  The LastValue range covers the last batch; without `symmetric` it is exactly
the extremes of the batch and zero. -/
theorem C72_float_covers (R : Rounding α) (d : α) (cfg : QCfg) (hist : List (List α)) (b : List α) (hb : b ≠ []) :
    (∀ x ∈ b, (runF R d .lastValue cfg (hist ++ [b])).1 ≤ x ∧ x ≤ (runF R d .lastValue cfg (hist ++ [b])).2) ∧
    (cfg.symmetric = false → Spec.IsMin (runF R d .lastValue cfg (hist ++ [b])).1 (0 :: b) ∧
      Spec.IsMax (runF R d .lastValue cfg (hist ++ [b])).2 (0 :: b)) := by
  have e : runF R d .lastValue cfg (hist ++ [b]) = batchRangeF R cfg (reduceMin b) (reduceMax b) := by
    unfold runF
    rw [List.foldl_append]
    rfl
  have h1 := Aux.reduceMin_isMin hb
  have h2 := Aux.reduceMax_isMax hb
  rw [e]
  refine ⟨?_, ?_⟩
  · intro x hx
    unfold batchRangeF
    split_ifs
    · exact ⟨(min_le_left _ _).trans (h1.2 x hx), (h2.2 x hx).trans (le_max_left _ _)⟩
    · exact ⟨(min_le_left _ _).trans (h1.2 x hx), (h2.2 x hx).trans (le_max_left _ _)⟩
  · intro hs
    unfold batchRangeF
    rw [if_neg (by simp [hs])]
    refine ⟨⟨?_, ?_⟩, ⟨?_, ?_⟩⟩
    · rcases min_choice (reduceMin b) 0 with h | h <;> rw [h]
      · exact List.mem_cons_of_mem _ h1.1
      · exact List.mem_cons_self
    · intro x hx
      rcases List.mem_cons.1 hx with rfl | hx
      · exact min_le_right _ _
      · exact (min_le_left _ _).trans (h1.2 x hx)
    · rcases max_choice (reduceMax b) 0 with h | h <;> rw [h]
      · exact List.mem_cons_of_mem _ h2.1
      · exact List.mem_cons_self
    · intro x hx
      rcases List.mem_cons.1 hx with rfl | hx
      · exact le_max_right _ _
      · exact (h2.2 x hx).trans (le_max_left _ _)

/-- The moving average stays between the old value and the new one. -/
theorem Aux.emaF_above (R : Rounding α) {ε d v x : α} (hR : R.Accurate ε) (hε : ε ≤ 1 / 16) (hd0 : 0 ≤ d)
    (hd1 : d ≤ 1 / 2) (hx : R.rnd x = x) (hv : R.rnd v = v) {B : α} (hB : R.rnd B = B) (h1 : B ≤ v)
    (h2 : B ≤ x) : B ≤ emaF R d v x := by
  unfold emaF
  rcases le_or_gt x v with h | h
  · rw [← hx] at h2
    refine h2.trans (R.mono ?_)
    obtain ⟨e1, he1, q1⟩ := Aux.accurate_mul R hR (v - x)
    obtain ⟨e2, he2, q2⟩ := Aux.accurate_mul R hR (R.rnd (v - x) * d)
    have b1 := abs_le.1 he1
    have b2 := abs_le.1 he2
    have hε0 : 0 ≤ ε := (abs_nonneg _).trans he1
    have : R.rnd (R.rnd (v - x) * d) ≤ v - x := by
      rw [q2, q1]
      have p1 : (1 + e1) * (1 + e2) ≤ 17 / 16 * (17 / 16) :=
        mul_le_mul (by linarith) (by linarith) (by linarith) (by norm_num)
      have p0 : 0 ≤ (1 + e1) * (1 + e2) := mul_nonneg (by linarith) (by linarith)
      have p2 : (1 + e1) * (1 + e2) * d ≤ 1 := by nlinarith
      nlinarith
    linarith
  · rw [← hv] at h1
    refine h1.trans (R.mono ?_)
    have : R.rnd (R.rnd (v - x) * d) ≤ 0 :=
      Aux.rnd_nonpos R (mul_nonpos_of_nonpos_of_nonneg (Aux.rnd_nonpos R (by linarith)) hd0)
    linarith

/-- **C73 in floating-point arithmetic.**  After any history the MovingAverage range (not symmetric) stays within every
interval of the format that contains the initial `[-6, 6]` and all batches. -/
theorem C73_float_hull (R : Rounding α) (ε : α) (hR : R.Accurate ε) (hε : ε ≤ 1 / 16) (d : α) (hd0 : 0 ≤ d)
    (hd1 : d ≤ 1 / 2) (cfg : QCfg) (hs : cfg.symmetric = false) (hb : 2 ≤ cfg.numBits) (hist : List (List α))
    (hp : ∀ b ∈ hist, Spec.FloatBatch R b) (B B' : α) (hBr : R.rnd B = B) (hBr' : R.rnd B' = B')
    (hB : B ≤ -6) (hB' : 6 ≤ B') (hbatch : ∀ b ∈ hist, ∀ x ∈ b, B ≤ x ∧ x ≤ B') :
    B ≤ (runF R d .movingAverage cfg hist).1 ∧ (runF R d .movingAverage cfg hist).2 ≤ B' := by
  have := Aux.runF_invariant R d .movingAverage cfg (fun v => Spec.FloatRange R v ∧ B ≤ v.1 ∧ v.2 ≤ B')
    ⟨Aux.initF_facts R _, hB, hB'⟩ hist ?_
  · exact this.2
  · rintro v b hm ⟨hv, h1, h2⟩
    refine ⟨Aux.updateF_range R hd0 (by linarith) _ hb (hp b hm) hv, ?_⟩
    obtain ⟨v1, v2, v3, v4⟩ := hv
    obtain ⟨hle, r1, r2, hx⟩ := Aux.batch_facts (hp b hm)
    obtain ⟨b1, b2, -, -, b5, b6⟩ := Aux.batchRangeF_spec R hb hle r1 r2
    have hmin := hbatch b hm _ (Aux.reduceMin_isMin (hp b hm).1).1
    have hmax := hbatch b hm _ (Aux.reduceMax_isMax (hp b hm).1).1
    have c1 : B ≤ (batchRangeF R cfg (reduceMin b) (reduceMax b)).1 := by
      unfold batchRangeF
      rw [if_neg (by simp [hs])]
      exact le_min hmin.1 (by linarith)
    have c2 : (batchRangeF R cfg (reduceMin b) (reduceMax b)).2 ≤ B' := by
      unfold batchRangeF
      rw [if_neg (by simp [hs])]
      exact max_le hmax.2 (by linarith)
    refine ⟨Aux.emaF_above R hR hε hd0 hd1 b5 v3 hBr h1 c1, ?_⟩
    have := Aux.emaF_above R hR hε hd0 hd1 (x := -(batchRangeF R cfg (reduceMin b) (reduceMax b)).2) (v := -v.2)
      (B := -B') (by rw [R.neg, b6]) (by rw [R.neg, v4]) (by rw [R.neg, hBr']) (by linarith) (by linarith)
    rw [Aux.emaF_neg] at this
    show emaF R d v.2 _ ≤ B'
    linarith

end Verif.Props
