import Verif.Clustering.Summaries
import Mathlib.Tactic.Ring
import Mathlib.Data.List.Range

/-!
# C102: when `ClusteringSummaries` writes
-/

set_option linter.unusedSectionVars false

namespace Verif.Props
open Verif.Clustering

/-- A layer with at least one clusterable weight inside. -/
def Spec.clustered (l : SumLayer) : Bool :=
  match l.inner with
  | some (some ws) => !ws.isEmpty
  | _ => false

/-- What one write at step `c` adds: a histogram of every variable of every clustered layer. -/
def Spec.snapshot (layers : List SumLayer) (c : ℕ) : List (String × ℕ) :=
  (layers.filter Spec.clustered).flatMap fun l => l.vars.map fun v => ("clustering/" ++ v, c)

/-- The batch counts at which the epochs end, counting from `c`. -/
def Spec.epochEnds : ℕ → List ℕ → List ℕ
  | _, [] => []
  | c, n :: ns => (c + n) :: Spec.epochEnds (c + n) ns

theorem Aux.write_eq (layers : List SumLayer) (s : CSum) :
    s.write layers = ⟨s.freq, s.continuousBatch, s.written ++ Spec.snapshot layers s.continuousBatch⟩ := by
  have h : layers.flatMap (layerHistograms s.continuousBatch) =
      Spec.snapshot layers s.continuousBatch := by
    unfold Spec.snapshot
    induction layers with
    | nil => rfl
    | cons l ls ih =>
      rw [List.flatMap_cons, ih, List.filter_cons]
      obtain ⟨i, vs⟩ := l
      match i with
      | none => simp [layerHistograms, Spec.clustered]
      | some none => simp [layerHistograms, Spec.clustered]
      | some (some []) => simp [layerHistograms, Spec.clustered]
      | some (some (w :: ws)) => simp [layerHistograms, Spec.clustered]
  unfold CSum.write
  rw [h]

theorem Aux.csum_run_append (layers : List SumLayer) (s s' : CSum) (a b : List SumEvent)
    (h : s.run layers a = (s', none)) : s.run layers (a ++ b) = s'.run layers b := by
  induction a generalizing s with
  | nil => cases h; rfl
  | cons e a ih =>
    simp only [List.cons_append, CSum.run] at h ⊢
    rcases hs : s.step layers e with ⟨s1, o⟩
    rw [hs] at h
    cases o with
    | some err => cases h
    | none => exact ih s1 h

theorem Aux.csum_run_error (layers : List SumLayer) (s s' : CSum) (a b : List SumEvent) (e : SumErr)
    (h : s.run layers a = (s', some e)) : s.run layers (a ++ b) = (s', some e) := by
  induction a generalizing s with
  | nil => cases h
  | cons x a ih =>
    simp only [List.cons_append, CSum.run] at h ⊢
    rcases hs : s.step layers x with ⟨s1, o⟩
    rw [hs] at h
    cases o with
    | some err => exact h
    | none => exact ih s1 h

/-- The batches at which a run with frequency `n` writes. -/
def Spec.multiples (n : ℤ) (c N : ℕ) : List ℕ := (List.range' (c + 1) N).filter fun (b : ℕ) => n ∣ (b : ℤ)

theorem Aux.executions_every (layers : List SumLayer) (n : ℤ) (hn : n ≠ 0) (N fuel : ℕ) :
    ∀ (s c : ℕ) (w : List (String × ℕ)), fuel + s = N → s ≤ c →
      CSum.run layers ⟨.int n, c, w⟩ (executions 1 N fuel s) =
        (⟨.int n, c + fuel, w ++ (Spec.multiples n c fuel).flatMap (Spec.snapshot layers)⟩, none) := by
  induction fuel with
  | zero => intro s c w _ _; simp [executions, CSum.run, Spec.multiples]
  | succ fuel ih =>
    intro s c w hs hc
    have hlt : s < N := by omega
    have hmin : min (s + 1) N - 1 = s := by omega
    have hge : ¬ c + 1 < s := by omega
    have hm : Spec.multiples n c (fuel + 1) =
        (if n ∣ ((c + 1 : ℕ) : ℤ) then [c + 1] else []) ++ Spec.multiples n (c + 1) fuel := by
      unfold Spec.multiples
      rw [List.range'_succ, List.filter_cons]
      split_ifs with h1 h2 h2
      · rfl
      · simp at h1; exact absurd h1 h2
      · simp at h1; exact absurd h2 h1
      · rfl
    unfold executions
    rw [if_pos hlt, hmin]
    simp only [CSum.run, CSum.step, if_neg hge, if_neg hn]
    have hd : Int.fmod ((c + 1 : ℕ) : ℤ) n = 0 ↔ n ∣ ((c + 1 : ℕ) : ℤ) :=
      ⟨Int.dvd_of_fmod_eq_zero, Int.fmod_eq_zero_of_dvd⟩
    by_cases h : n ∣ ((c + 1 : ℕ) : ℤ)
    · rw [if_neg (by simpa using hd.2 h)]
      dsimp only
      rw [Aux.write_eq, ih (s + 1) (c + 1) _ (by omega) (by omega), hm, if_pos h]
      simp only [List.flatMap_append, List.flatMap_cons, List.flatMap_nil, List.append_nil,
        List.append_assoc]
      congr 2
      omega
    · rw [if_pos (by intro h'; exact h (hd.1 h'))]
      dsimp only
      rw [ih (s + 1) (c + 1) _ (by omega) (by omega), hm, if_neg h, List.nil_append]
      congr 2
      omega

theorem Aux.executions_epoch (layers : List SumLayer) (N fuel : ℕ) :
    ∀ (s c : ℕ) (w : List (String × ℕ)), fuel + s = N → s ≤ c →
      CSum.run layers ⟨.text "epoch", c, w⟩ (executions 1 N fuel s) =
        (⟨.text "epoch", c + fuel, w⟩, none) := by
  induction fuel with
  | zero => intro s c w _ _; simp [executions, CSum.run]
  | succ fuel ih =>
    intro s c w hs hc
    have hlt : s < N := by omega
    have hmin : min (s + 1) N - 1 = s := by omega
    have hge : ¬ c + 1 < s := by omega
    unfold executions
    rw [if_pos hlt, hmin]
    simp only [CSum.run, CSum.step, if_neg hge]
    rw [ih (s + 1) (c + 1) _ (by omega) (by omega)]
    congr 2
    omega

theorem Aux.multiples_append (n : ℤ) (c a b : ℕ) :
    Spec.multiples n c (a + b) = Spec.multiples n c a ++ Spec.multiples n (c + a) b := by
  unfold Spec.multiples
  rw [← List.filter_append]
  congr 1
  rw [show c + a + 1 = (c + 1) + 1 * a by ring, List.range'_append]

/-- **C102 (every `n` batches), partial.**  Whatever the earlier use of the callback, with update frequency
`n` (a non-zero integer; `'batch'` is 1) a training run of any number of epochs of any lengths raises
nothing and writes exactly when the number of batches counted over all epochs and runs is a multiple of
`n`, each time a histogram of every variable of every clustered layer.  Missing: several steps per
execution (`C102_steps_per_execution_violated`). -/
theorem C102_every_partial (layers : List SumLayer) (n : ℤ) (hn : n ≠ 0) (epochs : List ℕ) (s : CSum)
    (hs : s.freq = .int n) :
    s.run layers (fitEvents 1 epochs) =
      (⟨.int n, s.continuousBatch + epochs.sum,
        s.written ++ (Spec.multiples n s.continuousBatch epochs.sum).flatMap (Spec.snapshot layers)⟩,
       none) := by
  obtain ⟨f, c, w⟩ := s
  cases hs
  dsimp only
  induction epochs generalizing c w with
  | nil => simp [fitEvents, CSum.run, Spec.multiples]
  | cons k ks ih =>
    have h1 := Aux.executions_every layers n hn k k 0 c w (by omega) (by omega)
    have h2 : CSum.run layers ⟨.int n, c, w⟩ (epochEvents 1 k) =
        (⟨.int n, c + k, w ++ (Spec.multiples n c k).flatMap (Spec.snapshot layers)⟩, none) := by
      unfold epochEvents
      rw [Aux.csum_run_append _ _ _ _ _ h1]
      rfl
    have e : fitEvents 1 (k :: ks) = epochEvents 1 k ++ fitEvents 1 ks := rfl
    rw [e, Aux.csum_run_append _ _ _ _ _ h2, ih, List.sum_cons, Aux.multiples_append,
      List.flatMap_append, List.append_assoc, Nat.add_assoc]

/-- **C102 (every epoch), partial.**  With `'epoch'` there is exactly one write per epoch, at its end. -/
theorem C102_epoch_partial (layers : List SumLayer) (epochs : List ℕ) (s : CSum)
    (hs : s.freq = .text "epoch") :
    s.run layers (fitEvents 1 epochs) =
      (⟨.text "epoch", s.continuousBatch + epochs.sum,
        s.written ++ (Spec.epochEnds s.continuousBatch epochs).flatMap (Spec.snapshot layers)⟩,
       none) := by
  obtain ⟨f, c, w⟩ := s
  cases hs
  dsimp only
  induction epochs generalizing c w with
  | nil => simp [fitEvents, CSum.run, Spec.epochEnds]
  | cons k ks ih =>
    have h1 := Aux.executions_epoch layers k k 0 c w (by omega) (by omega)
    have h2 : CSum.run layers ⟨.text "epoch", c, w⟩ (epochEvents 1 k) =
        (⟨.text "epoch", c + k, w ++ Spec.snapshot layers (c + k)⟩, none) := by
      unfold epochEvents
      rw [Aux.csum_run_append _ _ _ _ _ h1]
      simp only [CSum.run, CSum.step, Aux.write_eq]
    have e : fitEvents 1 (k :: ks) = epochEvents 1 k ++ fitEvents 1 ks := rfl
    rw [e, Aux.csum_run_append _ _ _ _ _ h2, ih, List.sum_cons, Spec.epochEnds, List.flatMap_cons,
      List.append_assoc, Nat.add_assoc]

/-- **C102 (settings).**  `'batch'` is the frequency 1; `'epoch'` and integers are kept.  Other strings and
0 are accepted by the constructor but make training fail at the end of the first batch. -/
theorem C102_settings (layers : List SumLayer) :
    (CSum.new (.text "batch")).freq = .int 1 ∧ (CSum.new (.text "epoch")).freq = .text "epoch" ∧
    (∀ n, (CSum.new (.int n)).freq = .int n) ∧
    (∀ n ns, ((CSum.new (.int 0)).run layers (fitEvents 1 ((n + 1) :: ns))).2 = some .zeroDivision) ∧
    ∀ s n ns, s ≠ "batch" → s ≠ "epoch" →
      ((CSum.new (.text s)).run layers (fitEvents 1 ((n + 1) :: ns))).2 = some .type := by
  refine ⟨rfl, rfl, fun _ => rfl, ?_, ?_⟩
  · intro n ns
    simp [fitEvents, epochEvents, executions, CSum.new, CSum.run, CSum.step]
  · intro s n ns h1 h2
    simp [fitEvents, epochEvents, executions, CSum.new, CSum.run, CSum.step, h1, h2]

/-- **C102, violated.**  With `steps_per_execution = k` for any `k ≥ 2`, the first epoch of at least `2k`
steps fails with an `AssertionError`, whatever the (valid) frequency. -/
theorem C102_steps_per_execution_violated (layers : List SumLayer) (f : Freq)
    (hf : f = .text "batch" ∨ f = .text "epoch" ∨ ∃ n, n ≠ 0 ∧ f = .int n) (k n : ℕ) (hk : 2 ≤ k)
    (hn : 2 * k ≤ n) (more : List ℕ) :
    ((CSum.new f).run layers (fitEvents k (n :: more))).2 = some .assertion := by
  have e : fitEvents k (n :: more) = epochEvents k n ++ fitEvents k more := rfl
  obtain ⟨m, rfl⟩ : ∃ m, n = m + 2 := ⟨n - 2, by omega⟩
  have h1 : (0 : ℕ) < m + 2 := by omega
  have h2 : 0 + k < m + 2 := by omega
  have e1 : min (0 + k) (m + 2) - 1 = k - 1 := by omega
  have e2 : min (0 + k + k) (m + 2) - 1 = 2 * k - 1 := by omega
  have hex : executions k (m + 2) (m + 2) 0 =
      .batchBegin 0 :: .batchEnd (k - 1) :: .batchBegin (0 + k) :: .batchEnd (2 * k - 1) ::
        executions k (m + 2) m (0 + k + k) := by
    rw [executions, if_pos h1, e1, executions, if_pos h2, e2]
  have key : ∀ f' : Freq, (f' = .text "epoch" ∨ ∃ n : ℤ, n ≠ 0 ∧ f' = .int n) →
      (CSum.run layers ⟨f', 0, []⟩ (executions k (m + 2) (m + 2) 0)).2 = some .assertion := by
    intro f' hf'
    rw [hex]
    by_cases h3 : 3 ≤ k
    · have : 0 + 1 < k - 1 := by omega
      simp only [CSum.run, CSum.step, if_pos this]
    · obtain rfl : k = 2 := by omega
      rcases hf' with rfl | ⟨n, h0, rfl⟩
      · rfl
      · simp only [CSum.run, CSum.step, if_neg h0]
        have e0 : ((0 + 1 : ℕ) : ℤ) = 1 := rfl
        by_cases h : Int.fmod 1 n = 0
        · simp [h, CSum.run, CSum.step, CSum.write]
        · simp [h, CSum.run, CSum.step]
  have fin : ((CSum.new f).run layers (executions k (m + 2) (m + 2) 0)).2 = some .assertion := by
    rcases hf with rfl | rfl | ⟨n, h0, rfl⟩
    · exact key (.int 1) (.inr ⟨1, by decide, rfl⟩)
    · exact key _ (.inl rfl)
    · exact key _ (.inr ⟨n, h0, rfl⟩)
  rw [e]
  unfold epochEvents
  rw [List.append_assoc]
  rcases hr : (CSum.new f).run layers (executions k (m + 2) (m + 2) 0) with ⟨s', o⟩
  rw [hr] at fin
  cases fin
  rw [Aux.csum_run_error _ _ _ _ _ _ hr]

namespace Example
def sumLayers : List SumLayer :=
  [⟨none, ["input"]⟩, ⟨some (some ["kernel"]), ["kernel", "centroids"]⟩, ⟨some (some []), ["relu"]⟩]

/-- Two epochs of three batches, a write every two batches: at 2, 4 and 6. -/
example : (((CSum.new (.int 2)).run sumLayers (fitEvents 1 [3, 3])).1.written).map Prod.snd =
    [2, 2, 4, 4, 6, 6] := by decide +kernel

example : (((CSum.new (.text "epoch")).run sumLayers (fitEvents 1 [3, 4])).1.written) =
    [("clustering/kernel", 3), ("clustering/centroids", 3),
     ("clustering/kernel", 7), ("clustering/centroids", 7)] := by decide +kernel
end Example

end Verif.Props
