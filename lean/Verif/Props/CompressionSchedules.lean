import Verif.Compression.Algorithms
import Verif.Props.ClusterAlgorithm
import Mathlib.Data.List.Forall2
import Mathlib.Algebra.Order.Round

/-!
# C62, C63, C65, C79, C80: schedules, rank, clustering, EPR and bias compressors
-/

set_option linter.unusedSectionVars false

namespace Verif.Props
open Verif.Compression

/-! ## C62: the polynomial decay of the compression API -/

/-- A value of the requested dtype. -/
def Spec.OfDtype : DType → ℝ → Prop
  | .float, _ => True
  | .int, x => ∃ n : ℤ, x = n

/-- Parameters of a decay that takes time: a positive number of steps, a non-negative exponent and
values of the dtype asked for. -/
structure Spec.DecayOk (d : Decay) : Prop where
  steps : 0 < d.decaySteps
  exponent : 0 ≤ d.exponent
  start : Spec.OfDtype d.dtype d.startValue
  stop : Spec.OfDtype d.dtype d.endValue

theorem Aux.castTo_ofDtype {t : DType} {x : ℝ} (h : Spec.OfDtype t x) : castTo t x = x := by
  cases t with
  | float => rfl
  | int =>
    obtain ⟨n, rfl⟩ := h
    simp [castTo]

theorem Aux.castTo_mono (t : DType) : Monotone (castTo t) := by
  cases t with
  | float => exact fun _ _ h => h
  | int =>
    intro a b h
    simp only [castTo]
    split_ifs with ha hb hb
    · exact_mod_cast Int.floor_le_floor h
    · exact absurd (ha.trans h) hb
    · have h1 : ⌈a⌉ ≤ 0 := Int.ceil_le.2 (by push_cast; exact (not_le.1 ha).le)
      have h2 : 0 ≤ ⌊b⌋ := Int.floor_nonneg.2 hb
      exact_mod_cast h1.trans h2
    · exact_mod_cast Int.ceil_le_ceil h

theorem Aux.castTo_zero (t : DType) : castTo t 0 = 0 := Aux.castTo_ofDtype (by
  cases t
  · trivial
  · exact ⟨0, by simp⟩)

theorem Aux.fits_sub {t : DType} {x y : ℝ} (hx : Spec.OfDtype t x) (hy : Spec.OfDtype t y) :
    Spec.OfDtype t (x - y) := by
  cases t with
  | float => trivial
  | int =>
    obtain ⟨n, rfl⟩ := hx
    obtain ⟨k, rfl⟩ := hy
    exact ⟨n - k, by push_cast; ring⟩

/-- The fraction of the decay that is still to come. -/
noncomputable def Aux.left (d : Decay) (step : ℤ) : ℝ :=
  1 - ((step - d.beginStep : ℤ) : ℝ) / (d.decaySteps : ℝ)

theorem Aux.left_bounds {d : Decay} (hd : 0 < d.decaySteps) {t : ℤ} (h1 : d.beginStep ≤ t)
    (h2 : t ≤ d.beginStep + d.decaySteps) : 0 ≤ Aux.left d t ∧ Aux.left d t ≤ 1 := by
  have hp : (0 : ℝ) < d.decaySteps := by exact_mod_cast hd
  have e1 : (0 : ℝ) ≤ ((t - d.beginStep : ℤ) : ℝ) := by exact_mod_cast Int.sub_nonneg.2 h1
  have e2 : ((t - d.beginStep : ℤ) : ℝ) ≤ d.decaySteps := by
    exact_mod_cast (by omega : t - d.beginStep ≤ d.decaySteps)
  have := div_le_one_of_le₀ e2 hp.le
  have := div_nonneg e1 hp.le
  unfold Aux.left
  constructor <;> linarith

theorem Aux.left_anti {d : Decay} (hd : 0 < d.decaySteps) {t u : ℤ} (h : t ≤ u) :
    Aux.left d u ≤ Aux.left d t := by
  have hp : (0 : ℝ) < d.decaySteps := by exact_mod_cast hd
  have e : ((t - d.beginStep : ℤ) : ℝ) ≤ ((u - d.beginStep : ℤ) : ℝ) := by
    exact_mod_cast (by omega : t - d.beginStep ≤ u - d.beginStep)
  have := div_le_div_of_nonneg_right e hp.le
  unfold Aux.left
  linarith

theorem Aux.decay_call {d : Decay} (h : Spec.DecayOk d) (t : ℤ) :
    ∃ p : ℝ, 0 ≤ p ∧ p ≤ 1 ∧
      (t < d.beginStep → p = 1) ∧ (d.beginStep + d.decaySteps < t → p = 0) ∧
      (d.beginStep ≤ t → t ≤ d.beginStep + d.decaySteps → p = Aux.left d t ^ d.exponent) ∧
      d.call t = some (d.endValue + castTo d.dtype ((d.startValue - d.endValue) * p)) := by
  have hs := h.steps
  have e1 := Aux.castTo_ofDtype (Aux.fits_sub h.start h.stop)
  by_cases hb : t < d.beginStep
  · refine ⟨1, by norm_num, le_refl _, fun _ => rfl, fun h' => by omega, fun h' => by omega, ?_⟩
    simp [Decay.call, hb, e1, Aux.castTo_ofDtype h.start]
  · by_cases he : d.beginStep + d.decaySteps < t
    · refine ⟨0, le_refl _, by norm_num, fun h' => absurd h' hb, fun _ => rfl,
        fun _ h' => by omega, ?_⟩
      simp [Decay.call, hb, he, Aux.castTo_zero, Aux.castTo_ofDtype h.stop]
    · obtain ⟨l0, l1⟩ := Aux.left_bounds hs (not_lt.1 hb) (not_lt.1 he)
      refine ⟨Aux.left d t ^ d.exponent, Real.rpow_nonneg l0 _, Real.rpow_le_one l0 l1 h.exponent,
        fun h' => absurd h' hb, fun h' => absurd h' he, fun _ _ => rfl, ?_⟩
      simp only [Decay.call, hb, he, if_false, Decay.during, if_neg hs.ne']
      rfl

/-- **C62 (before).**  Until the first step after `begin_step` the schedule is `start_value`. -/
theorem C62_start (d : Decay) (h : Spec.DecayOk d) (t : ℤ) (ht : t ≤ d.beginStep) :
    d.call t = some d.startValue := by
  have hs := h.steps
  obtain ⟨p, -, -, h1, -, h3, h4⟩ := Aux.decay_call h t
  have hp : p = 1 := by
    rcases ht.lt_or_eq with ht | rfl
    · exact h1 ht
    · rw [h3 le_rfl (by omega)]
      simp [Aux.left]
  rw [h4, hp, mul_one, Aux.castTo_ofDtype (Aux.fits_sub h.start h.stop)]
  simp

/-- **C62 (after).**  From `begin_step + decay_steps` on the schedule is `end_value`. -/
theorem C62_end (d : Decay) (h : Spec.DecayOk d) (hexp : 0 < d.exponent) (t : ℤ)
    (ht : d.beginStep + d.decaySteps ≤ t) : d.call t = some d.endValue := by
  have hs := h.steps
  obtain ⟨p, -, -, -, h2, h3, h4⟩ := Aux.decay_call h t
  have hp : p = 0 := by
    rcases ht.lt_or_eq with ht | rfl
    · exact h2 ht
    · rw [h3 (by omega) le_rfl]
      have hne : (d.decaySteps : ℝ) ≠ 0 := by exact_mod_cast hs.ne'
      simp [Aux.left, hne, Real.zero_rpow hexp.ne']
  rw [h4, hp, mul_zero, Aux.castTo_zero, add_zero]

/-- **C62 (after, any exponent).**  After `begin_step + decay_steps` the schedule is `end_value`. -/
theorem C62_after (d : Decay) (h : Spec.DecayOk d) (t : ℤ)
    (ht : d.beginStep + d.decaySteps < t) : d.call t = some d.endValue := by
  obtain ⟨p, -, -, -, h2, -, h4⟩ := Aux.decay_call h t
  rw [h4, h2 ht, mul_zero, Aux.castTo_zero, add_zero]

/-- **C62 (monotone).**  The schedule never moves away from `end_value`: it falls when `start_value`
is above `end_value` and rises when it is below. -/
theorem C62_monotone (d : Decay) (h : Spec.DecayOk d) (t u : ℤ) (htu : t ≤ u) :
    ∃ x y, d.call t = some x ∧ d.call u = some y ∧
      (d.endValue ≤ d.startValue → d.endValue ≤ y ∧ y ≤ x ∧ x ≤ d.startValue) ∧
      (d.startValue ≤ d.endValue → d.startValue ≤ x ∧ x ≤ y ∧ y ≤ d.endValue) := by
  have hs := h.steps
  obtain ⟨p, p0, p1, pb, pe, pd, hp⟩ := Aux.decay_call h t
  obtain ⟨q, q0, q1, qb, qe, qd, hq⟩ := Aux.decay_call h u
  have hqp : q ≤ p := by
    by_cases h1 : t < d.beginStep
    · rw [pb h1]; exact q1
    · by_cases h2 : d.beginStep + d.decaySteps < u
      · rw [qe h2]; exact p0
      · rw [pd (by omega) (by omega), qd (by omega) (by omega)]
        exact Real.rpow_le_rpow (Aux.left_bounds hs (by omega) (by omega)).1
          (Aux.left_anti hs htu) h.exponent
  have hz := Aux.castTo_zero d.dtype
  have hd := Aux.castTo_ofDtype (Aux.fits_sub h.start h.stop)
  refine ⟨_, _, hp, hq, fun hse => ?_, fun hse => ?_⟩
  · have hn : 0 ≤ d.startValue - d.endValue := by linarith
    have a1 := Aux.castTo_mono d.dtype (mul_nonneg hn q0)
    have a2 := Aux.castTo_mono d.dtype (mul_le_mul_of_nonneg_left hqp hn)
    have a3 := Aux.castTo_mono d.dtype (mul_le_of_le_one_right hn p1)
    rw [hz] at a1
    rw [hd] at a3
    refine ⟨by linarith, by linarith, by linarith⟩
  · have hn : d.startValue - d.endValue ≤ 0 := by linarith
    have a1 := Aux.castTo_mono d.dtype (mul_nonpos_of_nonpos_of_nonneg hn q0)
    have a2 := Aux.castTo_mono d.dtype (mul_le_mul_of_nonpos_left hqp hn)
    have a3 := Aux.castTo_mono d.dtype
      (show d.startValue - d.endValue ≤ (d.startValue - d.endValue) * p by nlinarith)
    rw [hz] at a1
    rw [hd] at a3
    refine ⟨by linarith, by linarith, by linarith⟩

/-- **C62 (linear).**  With exponent 1 and a float dtype the schedule is the straight line from
`start_value` to `end_value`. -/
theorem C62_linear (d : Decay) (h : Spec.DecayOk d) (hexp : d.exponent = 1) (ht : d.dtype = .float)
    (t : ℤ) (h1 : d.beginStep ≤ t) (h2 : t ≤ d.beginStep + d.decaySteps) :
    ∃ x, d.call t = some x ∧
      (x - d.startValue) * d.decaySteps = (d.endValue - d.startValue) * (t - d.beginStep) := by
  obtain ⟨p, -, -, -, -, h3, h4⟩ := Aux.decay_call h t
  refine ⟨_, h4, ?_⟩
  have hne : (d.decaySteps : ℝ) ≠ 0 := by exact_mod_cast h.steps.ne'
  rw [h3 h1 h2, hexp, Real.rpow_one, ht]
  simp only [castTo, Aux.left]
  push_cast
  field_simp
  ring

/-- **C62 (quadratic).**  With exponent 2 the distance from `end_value` is the square of the
fraction of steps left. -/
theorem C62_quadratic (d : Decay) (h : Spec.DecayOk d) (hexp : d.exponent = 2)
    (ht : d.dtype = .float) (t : ℤ) (h1 : d.beginStep ≤ t) (h2 : t ≤ d.beginStep + d.decaySteps) :
    ∃ x, d.call t = some x ∧
      (x - d.endValue) * d.decaySteps ^ 2 =
        (d.startValue - d.endValue) * (d.beginStep + d.decaySteps - t) ^ 2 := by
  obtain ⟨p, -, -, -, -, h3, h4⟩ := Aux.decay_call h t
  refine ⟨_, h4, ?_⟩
  have hne : (d.decaySteps : ℝ) ≠ 0 := by exact_mod_cast h.steps.ne'
  rw [h3 h1 h2, hexp, ht]
  simp only [castTo, Aux.left, Real.rpow_two]
  push_cast
  field_simp
  ring

/-- **C62 (integer dtype).**  With an integer dtype the result is an integer. -/
theorem C62_integer (d : Decay) (h : Spec.DecayOk d) (ht : d.dtype = .int) (t : ℤ) :
    ∃ n : ℤ, d.call t = some (n : ℝ) := by
  obtain ⟨p, -, -, -, -, -, h4⟩ := Aux.decay_call h t
  have hstop := h.stop
  rw [ht] at hstop h4
  obtain ⟨e, he⟩ := hstop
  rw [h4, he]
  simp only [castTo]
  split_ifs
  · exact ⟨e + ⌊(d.startValue - e) * p⌋, by push_cast; rfl⟩
  · exact ⟨e + ⌈(d.startValue - e) * p⌉, by push_cast; rfl⟩

/-- **C62 (no steps).**  `decay_steps = 0` is not rejected and the schedule is undefined (`0/0`) at
`begin_step`; before and after it has the documented values. -/
theorem C62_zero_steps (d : Decay) (h : d.decaySteps = 0) (t : ℤ) :
    (t = d.beginStep → d.call t = none) ∧
    (t < d.beginStep → d.call t = some (castTo d.dtype d.startValue)) ∧
    (d.beginStep < t → d.call t = some (castTo d.dtype d.endValue)) := by
  refine ⟨?_, fun ht => by simp [Decay.call, ht], fun ht => ?_⟩
  · rintro rfl
    simp [Decay.call, Decay.during, h]
  · simp [Decay.call, h, ht, not_lt.2 ht.le]

/-- A decay from 10 to 2 over 4 steps, starting at step 100. -/
noncomputable def Example.decay : Decay := ⟨10, 4, 2, 100, 1, .int⟩

theorem Example.decay_ok : Spec.DecayOk Example.decay :=
  ⟨by decide, by norm_num [Example.decay], ⟨10, by norm_num [Example.decay]⟩,
    ⟨2, by norm_num [Example.decay]⟩⟩

/-- The hypotheses of C62 are met by a decay with a value strictly in between. -/
example : Spec.DecayOk Example.decay ∧ Example.decay.call 102 = some 6 := by
  refine ⟨Example.decay_ok, ?_⟩
  norm_num [Decay.call, Decay.during, Example.decay, castTo]

/-! ## C63: the rank schedule of periodic SVD -/

/-- **C63 (bounds).**  At every step the rank is between the target rank (or the full rank, if that
is smaller) and the full rank. -/
theorem C63_bounds (full target warmup step : ℕ) :
    min target full ≤ scheduledRank full target warmup step ∧
      scheduledRank full target warmup step ≤ full := by
  refine ⟨?_, Nat.min_le_right _ _⟩
  unfold scheduledRank
  split_ifs with h
  · refine le_min ?_ (Nat.min_le_right _ _)
    rw [Nat.le_div_iff_mul_le (by omega)]
    obtain ⟨k, rfl⟩ : ∃ k, warmup = step + k := ⟨warmup - step, by omega⟩
    rw [Nat.add_sub_cancel_left]
    have h1 := Nat.mul_le_mul_right k (Nat.min_le_right target full)
    have h2 := Nat.mul_le_mul_right step (Nat.min_le_left target full)
    calc min target full * (step + k) = min target full * k + min target full * step := by ring
      _ ≤ _ := by omega
  · exact le_refl _

/-- **C63 (start).**  The first update keeps the full rank, if there is a warm-up. -/
theorem C63_first (full target warmup : ℕ) (h : 0 < warmup) :
    scheduledRank full target warmup 0 = full := by
  simp [scheduledRank, h]

/-- **C63 (end).**  From the end of the warm-up on it is the target rank. -/
theorem C63_target (full target warmup step : ℕ) (h : warmup ≤ step) :
    scheduledRank full target warmup step = min target full := by
  simp [scheduledRank, not_lt.2 h]

/-- **C63 (monotone).**  The rank never increases. -/
theorem C63_antitone (full target warmup step step' : ℕ) (h : step ≤ step') :
    scheduledRank full target warmup step' ≤ scheduledRank full target warmup step := by
  by_cases hw : step' < warmup
  · have hw' : step < warmup := by omega
    simp only [scheduledRank, if_pos hw, if_pos hw']
    by_cases ht : target ≤ full
    · refine min_le_min_right _ (Nat.div_le_div_right ?_)
      obtain ⟨k, rfl⟩ : ∃ k, warmup = step' + k := ⟨warmup - step', by omega⟩
      obtain ⟨j, rfl⟩ : ∃ j, step' = step + j := ⟨step' - step, by omega⟩
      obtain ⟨f, rfl⟩ : ∃ f, full = target + f := ⟨full - target, by omega⟩
      have e1 : step + j + k - (step + j) = k := by omega
      have e2 : step + j + k - step = j + k := by omega
      rw [e1, e2]
      have e3 : (target + f) * (j + k) + target * step =
          (target + f) * k + target * (step + j) + f * j := by ring
      omega
    · have hb := C63_bounds full target warmup step
      rw [min_eq_right (not_le.1 ht).le] at hb
      simp only [scheduledRank, if_pos hw'] at hb
      exact (Nat.min_le_right _ _).trans hb.1
  · rw [C63_target _ _ _ _ (not_lt.1 hw)]
    exact (C63_bounds full target warmup step).1

/-- **C63 (linear).**  During the warm-up the rank is the integer part of the linear interpolation
between full rank and target rank. -/
theorem C63_linear (full target warmup step : ℕ) (h : step < warmup) (ht : target ≤ full) :
    ((scheduledRank full target warmup step : ℕ) : ℤ) =
      ⌊(full : ℚ) + ((target : ℚ) - full) * step / warmup⌋ := by
  have hw : (0 : ℚ) < warmup := by exact_mod_cast (by omega : 0 < warmup)
  have e : (full : ℚ) + ((target : ℚ) - full) * step / warmup =
      ((full * (warmup - step) + target * step : ℕ) : ℚ) / (warmup : ℕ) := by
    push_cast [Nat.cast_sub h.le]
    field_simp
    ring
  rw [e, Rat.floor_natCast_div_natCast]
  have hle : (full * (warmup - step) + target * step) / warmup ≤ full := by
    refine Nat.div_le_of_le_mul ?_
    obtain ⟨k, rfl⟩ : ∃ k, warmup = step + k := ⟨warmup - step, by omega⟩
    rw [Nat.add_sub_cancel_left]
    nlinarith [Nat.mul_le_mul_right step ht]
  simp [scheduledRank, h, min_eq_left hle]

/-- One training step: the forward pass with its update ops, then the optimizer, which adds
something to the weight. -/
noncomputable def Spec.trainStep {m n : ℕ} (svd : Svd m n) (rank freq warmup : ℕ)
    (st : Periodic m n) (delta : Matrix (Fin m) (Fin n) ℝ) : Periodic m n :=
  let st' := (project svd rank freq warmup st).2
  { st' with w := st'.w + delta }

/-- **C63 (history).**  After any history of training steps the step counter is the number of
training steps, so the rank of the next update is the scheduled one for that number. -/
theorem C63_counter {m n : ℕ} (svd : Svd m n) (rank freq warmup : ℕ)
    (w : Matrix (Fin m) (Fin n) ℝ) (deltas : List (Matrix (Fin m) (Fin n) ℝ)) :
    (deltas.foldl (Spec.trainStep svd rank freq warmup) ⟨w, 0⟩).step = deltas.length := by
  suffices h : ∀ st : Periodic m n,
      (deltas.foldl (Spec.trainStep svd rank freq warmup) st).step = st.step + deltas.length by
    simpa using h ⟨w, 0⟩
  induction deltas with
  | nil => intro st; rfl
  | cons d ds ih =>
    intro st
    rw [List.foldl_cons, ih]
    simp only [Spec.trainStep, project, List.length_cons]
    omega

/-- **C63 (what is computed with).**  The forward pass uses the weight as it was before the update,
and a step that is not a multiple of `update_freq` does not change the weight. -/
theorem C63_forward {m n : ℕ} (svd : Svd m n) (rank freq warmup : ℕ) (st : Periodic m n) :
    (project svd rank freq warmup st).1 = st.w ∧
    (¬ freq ∣ st.step → (project svd rank freq warmup st).2.w = st.w) := by
  refine ⟨rfl, fun h => ?_⟩
  have : st.step % freq ≠ 0 := fun e => h (Nat.dvd_of_mod_eq_zero e)
  simp [project, this]

/-- Ranks of a 64 × 100 kernel, target 16, warm-up 1000. -/
example : scheduledRank 64 16 1000 0 = 64 ∧ scheduledRank 64 16 1000 510 = 39 ∧
    scheduledRank 64 16 1000 1000 = 16 := by decide

/-! ## C65: the weight clustering compressor -/

section
variable {α : Type*} [Field α] [LinearOrder α] [IsStrictOrderedRing α]

/-- **C65 (nearest).**  Right after `init_training_weights` the weight the layer computes with has,
at every position, the value of a centroid nearest to the pretrained weight. -/
theorem C65_nearest (cs ws : List α) (hcs : cs ≠ []) :
    (clusterDecompress (clusterInit cs ws)).length = ws.length ∧
    ∀ (i : ℕ) (hi : i < ws.length), ∃ c ∈ cs,
      (clusterDecompress (clusterInit cs ws))[i]? = some c ∧ ∀ c' ∈ cs, |ws[i] - c| ≤ |ws[i] - c'| := by
  refine ⟨by simp [clusterDecompress, clusterInit, Clustering.pullingIndices], fun i hi => ?_⟩
  obtain ⟨hk, hmin, -⟩ := Aux.pullingIndex_nearest cs hcs ws[i]
  refine ⟨cs[Clustering.pullingIndex cs ws[i]], List.getElem_mem hk, ?_, fun c' hc' => ?_⟩
  · simp [clusterDecompress, clusterInit, Clustering.pullingIndices, hi, hk]
  · obtain ⟨j, hj, rfl⟩ := List.mem_iff_getElem.1 hc'
    exact hmin j hj

/-- **C65 (after training).**  Whatever training did to the centroids, the weight the layer computes
with has only centroids as values, and positions that had the same pretrained weight have the same
value. -/
theorem C65_trained (cs cs' ws : List α) (hcs : cs ≠ []) (hlen : cs'.length = cs.length) :
    Spec.AtMost cs.length (· < ws.length)
      (fun i => (clusterDecompress (cs', (clusterInit cs ws).2)).getD i 0) ∧
    (∀ x ∈ clusterDecompress (cs', (clusterInit cs ws).2), x ∈ cs') ∧
    (clusterDecompress (cs', (clusterInit cs ws).2)).length = ws.length := by
  have hmem : ∀ x ∈ clusterDecompress (cs', (clusterInit cs ws).2), x ∈ cs' := by
    intro x hx
    simp only [clusterDecompress, clusterInit, Clustering.pullingIndices, List.mem_map] at hx
    obtain ⟨k, ⟨w, -, rfl⟩, rfl⟩ := hx
    obtain ⟨hk, -⟩ := Aux.pullingIndex_nearest cs hcs w
    have hk' : Clustering.pullingIndex cs w < cs'.length := hlen ▸ hk
    simp [hk']
  have hl : (clusterDecompress (cs', (clusterInit cs ws).2)).length = ws.length := by
    simp [clusterDecompress, clusterInit, Clustering.pullingIndices]
  refine ⟨⟨cs'.toFinset, ?_, fun i hi => ?_⟩, hmem, hl⟩
  · exact (List.toFinset_card_le cs').trans hlen.le
  · have hi' : i < (clusterDecompress (cs', (clusterInit cs ws).2)).length := hl ▸ hi
    have : (clusterDecompress (cs', (clusterInit cs ws).2)).getD i 0 ∈
        clusterDecompress (cs', (clusterInit cs ws).2) := by
      rw [List.getD_eq_getElem _ _ hi']
      exact List.getElem_mem hi'
    exact List.mem_toFinset.2 (hmem _ this)

/-- **C65 (equal weights stay equal).**  The index of a position depends on its pretrained weight
only. -/
theorem C65_grouping (cs cs' ws : List α) (i j : ℕ) (hi : i < ws.length) (hj : j < ws.length)
    (h : ws[i] = ws[j]) :
    (clusterDecompress (cs', (clusterInit cs ws).2))[i]? =
      (clusterDecompress (cs', (clusterInit cs ws).2))[j]? := by
  simp [clusterDecompress, clusterInit, Clustering.pullingIndices, hi, hj, h]

end

example : clusterDecompress (clusterInit [(-1 : ℚ), 0, 2] [-3, 1/4, 3/2, 1]) = [-1, 0, 2, 0] := by
  decide +kernel

/-! ## C79: EPR for biases and dense kernels -/

/-- `round` rounds to a nearest integer. -/
def Spec.RoundsToNearest (round : ℝ → ℤ) : Prop := ∀ x, |(round x : ℝ) - x| ≤ 1 / 2

/-- **C79 (round trip).**  If `float16` represents the logarithm of the step exactly and every
dimension is below 2^16, then the inference layer computes with exactly the weight of the last
training step, in the right shape. -/
theorem C79_roundtrip_partial (round : ℝ → ℤ) (half : ℝ → ℝ) (w : List ℝ) (shape : List ℕ)
    (logStep : ℝ) (hhalf : half logStep = logStep) (hshape : ∀ d ∈ shape, d < 2 ^ 16)
    (hlen : shape.prod = w.length) :
    eprDecompress (eprCompress round half w shape logStep) =
      some (eprProject round w logStep, shape) := by
  have hs : shape.map (· % 65536) = shape := by
    conv_rhs => rw [← List.map_id shape]
    exact List.map_congr_left fun d hd => Nat.mod_eq_of_lt (hshape d hd)
  simp [eprDecompress, eprCompress, hs, hlen, hhalf, eprProject, Function.comp_def]

/-- **C79 (step in half precision).**  In general every entry of the decompressed weight is that of
the last training step, scaled by the error `exp (half l - l)` of storing the logarithm of the step
in `float16`. -/
theorem C79_float16 (round : ℝ → ℤ) (half : ℝ → ℝ) (w : List ℝ) (shape : List ℕ)
    (logStep : ℝ) (hshape : ∀ d ∈ shape, d < 2 ^ 16) (hlen : shape.prod = w.length) :
    eprDecompress (eprCompress round half w shape logStep) =
      some ((eprProject round w logStep).map (· * Real.exp (half logStep - logStep)), shape) := by
  have hs : shape.map (· % 65536) = shape := by
    conv_rhs => rw [← List.map_id shape]
    exact List.map_congr_left fun d hd => Nat.mod_eq_of_lt (hshape d hd)
  have he : Real.exp logStep ≠ 0 := (Real.exp_pos _).ne'
  simp only [eprDecompress, eprCompress, hs, hlen, eprProject, List.length_map, if_true,
    List.map_map, Function.comp_def, Real.exp_sub]
  congr 2
  refine List.map_congr_left fun x _ => ?_
  field_simp

/-- **C79 (accuracy).**  The weight used in training differs from the stored one by at most half a
step at every position. -/
theorem C79_accuracy (round : ℝ → ℤ) (hround : Spec.RoundsToNearest round) (w : List ℝ)
    (logStep : ℝ) :
    List.Forall₂ (fun x y => |y - x| ≤ Real.exp logStep / 2) w (eprProject round w logStep) := by
  unfold eprProject
  rw [List.forall₂_map_right_iff, List.forall₂_same]
  intro x _
  have he := Real.exp_pos logStep
  have h := hround (x / Real.exp logStep)
  have e : (round (x / Real.exp logStep) : ℝ) * Real.exp logStep - x =
      ((round (x / Real.exp logStep) : ℝ) - x / Real.exp logStep) * Real.exp logStep := by
    field_simp
  rw [e, abs_mul, abs_of_pos he]
  nlinarith

/-- **C79 (idempotent).**  Projecting a projected weight changes nothing. -/
theorem C79_idempotent (round : ℝ → ℤ) (hround : Spec.RoundsToNearest round) (w : List ℝ)
    (logStep : ℝ) :
    eprProject round (eprProject round w logStep) logStep = eprProject round w logStep := by
  have he : Real.exp logStep ≠ 0 := (Real.exp_pos _).ne'
  have hint : ∀ k : ℤ, round (k : ℝ) = k := by
    intro k
    have h := hround k
    have h' : |((round (k : ℝ) - k : ℤ) : ℝ)| < 1 := by push_cast; linarith
    have h2 : |round (k : ℝ) - k| < 1 := by exact_mod_cast h'
    have := Int.abs_lt_one_iff.1 h2
    omega
  unfold eprProject
  rw [List.map_map]
  refine List.map_congr_left fun x _ => ?_
  simp only [Function.comp_apply, mul_div_cancel_right₀ _ he, hint]

/-- **C79 (violated: large dimensions).**  The shape is stored as `uint16`: a bias with a multiple of
65536 entries cannot be decompressed, whatever its values. -/
theorem C79_shape_violated (round : ℝ → ℤ) (half : ℝ → ℝ) (w : List ℝ) (k : ℕ) (hk : 0 < k)
    (hlen : w.length = 65536 * k) (logStep : ℝ) :
    eprDecompress (eprCompress round half w [w.length] logStep) = none := by
  have h0 : w.length ≠ 0 := by omega
  have h1 : w.length % 65536 = 0 := by omega
  simp [eprDecompress, eprCompress, h1, h0.symm]

/-- **C79 (violated: step).**  If `float16` does not represent the logarithm of the step exactly,
every weight that is not zero after quantization changes. -/
theorem C79_step_violated (round : ℝ → ℤ) (half : ℝ → ℝ) (w : List ℝ) (shape : List ℕ)
    (logStep : ℝ) (hhalf : half logStep ≠ logStep) (x : ℝ) (hx : x ∈ eprProject round w logStep)
    (hx0 : x ≠ 0) :
    eprDecompress (eprCompress round half w shape logStep) ≠
      some (eprProject round w logStep, shape) := by
  intro h
  have he : Real.exp logStep ≠ 0 := (Real.exp_pos _).ne'
  have hp : (eprCompress round half w shape logStep).shape.prod =
      (eprCompress round half w shape logStep).symbols.length := by
    by_contra hp
    rw [eprDecompress, if_neg hp] at h
    exact absurd h (by simp)
  rw [eprDecompress, if_pos hp] at h
  simp only [eprCompress] at h
  simp only [Option.some.injEq, Prod.mk.injEq, eprProject, List.map_map] at h
  simp only [eprProject, List.mem_map] at hx
  obtain ⟨y, hy, rfl⟩ := hx
  have := List.map_inj_left.1 h.1 y hy
  simp only [Function.comp_apply] at this
  have hq : (round (y / Real.exp logStep) : ℝ) ≠ 0 := fun e => hx0 (by rw [e, zero_mul])
  exact hhalf (Real.exp_injective (mul_left_cancel₀ hq this))

/-- The initial step `exp (-4)` is stored exactly, so the hypotheses of C79 are met by a 2 × 3 kernel
at the start of training, with rounding to nearest. -/
example : ∃ half : ℝ → ℝ, half (-4) = -4 ∧ Spec.RoundsToNearest (fun x : ℝ => _root_.round x) ∧
    (∀ d ∈ [2, 3], d < 2 ^ 16) ∧ [2, 3].prod = [(1 : ℝ), 2, 3, 4, 5, 6].length :=
  ⟨fun x => (⌊x * 256⌋ : ℝ) / 256, by norm_num,
    fun x => by rw [abs_sub_comm]; exact abs_sub_round x, by decide, rfl⟩

/-! ## C80: the bias compressor -/

/-- **C80.**  The weight a `BiasOnly` layer computes with has the shape of the bias, all its entries
are equal, and its mean is the mean of the pretrained bias. -/
theorem C80_mean (bias : List ℝ) :
    (biasDecompress (biasInit bias)).length = bias.length ∧
    (∀ x ∈ biasDecompress (biasInit bias), ∀ y ∈ biasDecompress (biasInit bias), x = y) ∧
    (biasDecompress (biasInit bias)).sum = bias.sum := by
  refine ⟨by simp [biasDecompress, biasInit], fun x hx y hy => ?_, ?_⟩
  · rw [List.eq_of_mem_replicate hx, List.eq_of_mem_replicate hy]
  · rcases eq_or_ne bias [] with rfl | hne
    · simp [biasDecompress, biasInit]
    · have : (bias.length : ℝ) ≠ 0 := by
        exact_mod_cast (List.length_pos_iff.2 hne).ne'
      simp only [biasDecompress, biasInit, List.sum_replicate, nsmul_eq_mul]
      field_simp

/-- **C80 (when nothing is lost).**  The bias is unchanged exactly when it is constant. -/
theorem C80_lossless (bias : List ℝ) :
    biasDecompress (biasInit bias) = bias ↔ ∀ x ∈ bias, ∀ y ∈ bias, x = y := by
  constructor
  · intro h
    have := (C80_mean bias).2.1
    rwa [h] at this
  · intro h
    rcases bias with _ | ⟨b, bs⟩
    · simp [biasDecompress, biasInit]
    · have hb : b :: bs = List.replicate (b :: bs).length b :=
        List.eq_replicate_iff.2 ⟨rfl, fun x hx => h x hx b (by simp)⟩
      have hm : (b :: bs).sum / ((b :: bs).length : ℝ) = b := by
        have : (((b :: bs).length : ℕ) : ℝ) ≠ 0 := by simp only [List.length_cons]; positivity
        rw [hb, List.sum_replicate, nsmul_eq_mul, List.length_replicate]
        field_simp
      simp only [biasDecompress, biasInit]
      rw [hm]
      exact hb.symm

example : biasDecompress (biasInit [1, 2, 6]) = [3, 3, 3] := by
  norm_num [biasDecompress, biasInit, List.replicate]

end Verif.Props
