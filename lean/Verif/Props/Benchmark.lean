import Verif.Sparsity.Benchmark
import Verif.Props.EndToEnd

/-!
# Property C100: one-shot pruning
-/

set_option linter.unusedSectionVars false
namespace Verif.Props
open Verif Verif.Sparsity

variable {α : Type*} [Field α] [LinearOrder α] [IsStrictOrderedRing α] [FloorRing α]

/-! ## Specification -/

/-- `w'` is `w` with all but the `k` largest magnitudes set to 0, where `k` is the number of entries to
keep at sparsity `s`: an entry stays as it is if fewer than `k` entries are larger in magnitude, and
becomes 0 otherwise. -/
def Spec.OneShot (s : α) (w w' : List α) : Prop :=
  w'.length = w.length ∧ ∀ k, Spec.KeepCount s w.length k → ∀ (i : ℕ) (x : α), w[i]? = some x →
    (Spec.countAbs w (fun a => |x| < a) < k → w'[i]? = some x) ∧
    (k ≤ Spec.countAbs w (fun a => |x| < a) → w'[i]? = some 0)

/-! ## Helper lemmas -/

theorem Aux.oneShot {s : α} (hs0 : 0 ≤ s) {w : List α} (hw : w ≠ []) {t : α} {m : List α}
    (h : updateMask s w = .ok (t, m)) : Spec.OneShot s w (List.zipWith (· * ·) w m) := by
  obtain ⟨hm, -⟩ := Aux.updateMask_ok h
  refine ⟨by simp [hm], fun k hk i x hx => ?_⟩
  obtain ⟨q1, q2, -⟩ := C06_excess_only_ties s hs0 w hw h k hk
  have hlt : w ≠ [] := hw
  have hkept : k ≤ Spec.kept m := by
    by_cases hs1 : s < 1
    · obtain ⟨thr', m', h', -, -, hc, -⟩ := C05_magnitude_mask s hs0 hs1 w hw
      rw [h] at h'
      simp only [Except.ok.injEq, Prod.mk.injEq] at h'
      rw [h'.2]
      exact (hc k hk).1
    · -- at sparsity 1 or more a single entry is kept
      have hn : (0 : α) < w.length := by exact_mod_cast List.length_pos_of_ne_nil hw
      have hk1 : k = 1 := by
        obtain ⟨r, hr, hkr⟩ := hk
        have : r ≤ 0 := by
          have h0 : (w.length : α) * (1 - s) ≤ 0 :=
            mul_nonpos_of_nonneg_of_nonpos hn.le (by linarith [not_lt.1 hs1])
          by_contra hc
          have h1 : (1 : α) ≤ r := by
            have : (1 : ℤ) ≤ r := by omega
            exact_mod_cast this
          have := hr.1
          have h2 := abs_le.1 this
          linarith [h2.1, h2.2]
        omega
      obtain ⟨-, q2, y, hy, hyt⟩ := C06_excess_only_ties s hs0 w hw h k hk
      rw [hk1, q2]
      have : 0 < Spec.countAbs w (fun a => a = t) := by
        unfold Spec.countAbs
        rw [List.countP_pos_iff]
        exact ⟨y, hy, by simpa using hyt⟩
      omega
  have hmi : m[i]? = some (if t ≤ |x| then 1 else 0) := by rw [hm, List.getElem?_map, hx]; rfl
  have hz : (List.zipWith (· * ·) w m)[i]? = some (x * if t ≤ |x| then 1 else 0) := by
    rw [List.getElem?_zipWith, hx, hmi]
  rw [hz]
  by_cases hc : t ≤ |x|
  · rw [if_pos hc, mul_one]
    refine ⟨fun _ => rfl, fun hcount => ?_⟩
    exfalso
    have : Spec.countAbs w (fun a => |x| < a) ≤ Spec.countAbs w (fun a => t < a) := by
      unfold Spec.countAbs
      apply List.countP_mono_left
      intro y _ hy
      simp only [decide_eq_true_eq] at hy ⊢
      exact lt_of_le_of_lt hc hy
    omega
  · rw [if_neg hc, mul_zero]
    refine ⟨fun hcount => ?_, fun _ => rfl⟩
    exfalso
    have hle : Spec.kept m ≤ Spec.countAbs w (fun a => |x| < a) := by
      unfold Spec.kept Spec.countAbs
      rw [hm, List.countP_map]
      apply List.countP_mono_left
      intro y _ hy
      simp only [Function.comp, decide_eq_true_eq] at hy ⊢
      by_cases hty : t ≤ |y|
      · exact lt_of_lt_of_le (not_le.1 hc) hty
      · rw [if_neg hty] at hy; exact absurd hy zero_ne_one
    omega

theorem Aux.updateVars_total (cfg : PruneCfg α) (step : ℤ) (vs : List (PVar α))
    (h : ∀ v ∈ vs, ∃ r, computeMask cfg step v.shape v.weight = .ok r) :
    (updateVars cfg step vs).2 = none := by
  induction vs with
  | nil => rfl
  | cons v vs ih =>
    obtain ⟨⟨t, m⟩, hr⟩ := h v (by simp)
    unfold updateVars
    rw [hr]
    exact ih fun v' hv' => h v' (by simp [hv'])

/-- Pruning now, with the schedule of the tool. -/
theorem Aux.pruneNow_spec (s : α) (bh bw : ℕ) (l : PLayer α)
    (hcfg : l.cfg = ⟨stepIndependent s, bh, bw, .AVG, none⟩)
    (h : ∀ v ∈ l.vars, ∃ r, computeMask l.cfg l.step v.shape v.weight = .ok r) :
    (pruneNow l).2 = none ∧ (pruneNow l).1.cfg = l.cfg ∧
      List.Forall₂ (fun v v' => v'.shape = v.shape ∧
        ∃ t m, computeMask l.cfg l.step v.shape v.weight = .ok (t, m) ∧ v'.mask = m ∧ v'.threshold = t ∧
          v'.weight = List.zipWith (· * ·) v.weight m) l.vars (pruneNow l).1.vars := by
  have hsu : shouldUpdate l.cfg l.step = true := by rw [hcfg]; rfl
  have hu := Aux.updateVars_total l.cfg l.step l.vars h
  have hs := Aux.updateVars_spec l.cfg l.step l.vars
  unfold pruneNow
  rw [if_pos hsu]
  cases hr : updateVars l.cfg l.step l.vars with
  | mk vs o =>
    rw [hr] at hu hs
    simp only at hu
    subst hu
    refine ⟨rfl, rfl, ?_⟩
    dsimp only at hs ⊢
    rw [List.forall₂_map_right_iff]
    refine (Aux.forall₂_and hs.1 (hs.2 rfl)).imp ?_
    rintro v v' ⟨⟨a1, a2, -⟩, b⟩
    exact ⟨a1, _, _, b, rfl, rfl, by simp only [applyMask, a2]⟩

theorem Aux.applyPruning_spec {R : PLayer α → PLayer α → Prop} (ls : List (PLayer α))
    (h : ∀ l ∈ ls, (pruneNow l).2 = none ∧ R l (pruneNow l).1) :
    (applyPruning ls).2 = none ∧ List.Forall₂ R ls (applyPruning ls).1 := by
  induction ls with
  | nil => exact ⟨rfl, List.Forall₂.nil⟩
  | cons l ls ih =>
    obtain ⟨h1, h2⟩ := h l (by simp)
    obtain ⟨i1, i2⟩ := ih fun l' hl' => h l' (by simp [hl'])
    unfold applyPruning
    cases hp : pruneNow l with
    | mk l' o =>
      rw [hp] at h1 h2
      simp only at h1 h2
      subst h1
      exact ⟨i1, List.Forall₂.cons h2 i2⟩

/-! ## C100 -/

/-- **C100 (element-wise).**  For every model and every target sparsity `s >= 0`, one-shot pruning
succeeds and sets, in every prunable weight of every layer, all but the largest magnitudes to 0, leaving
those as they are. -/
theorem C100_elementwise (s : α) (hs0 : 0 ≤ s) (layers : List (List (List ℕ × List α)))
    (hne : ∀ ws ∈ layers, ∀ w ∈ ws, w.2 ≠ []) :
    (pruneForBenchmark s 1 1 layers).2 = none ∧
      List.Forall₂ (fun ws l => List.Forall₂ (fun w v => v.shape = w.1 ∧ Spec.OneShot s w.2 v.weight)
        ws l.vars) layers (pruneForBenchmark s 1 1 layers).1 := by
  unfold pruneForBenchmark
  have := Aux.applyPruning_spec (R := fun l l' => List.Forall₂ (fun v v' => v'.shape = v.shape ∧
      Spec.OneShot s v.weight v'.weight) l.vars l'.vars)
    (layers.map (freshLayer ⟨stepIndependent s, 1, 1, .AVG, none⟩)) ?_
  · refine ⟨this.1, ?_⟩
    have h2 := this.2
    rw [List.forall₂_map_left_iff] at h2
    refine h2.imp ?_
    intro ws l h
    simp only [freshLayer, List.forall₂_map_left_iff] at h
    exact h
  · intro l hl
    obtain ⟨ws, hws, rfl⟩ := List.mem_map.1 hl
    have hcm : ∀ v ∈ (freshLayer ⟨stepIndependent s, 1, 1, .AVG, none⟩ ws).vars, v.weight ≠ [] ∧
        computeMask (freshLayer ⟨stepIndependent s, 1, 1, .AVG, none⟩ ws).cfg
          (freshLayer ⟨stepIndependent s, 1, 1, .AVG, none⟩ ws).step v.shape v.weight =
            updateMask s v.weight := by
      intro v hv
      simp only [freshLayer, List.mem_map] at hv
      obtain ⟨w, hw, rfl⟩ := hv
      exact ⟨hne ws hws w hw, rfl⟩
    obtain ⟨p1, -, p2⟩ := Aux.pruneNow_spec s 1 1 (freshLayer ⟨stepIndependent s, 1, 1, .AVG, none⟩ ws) rfl
      (fun v hv => by
        obtain ⟨t, m, h⟩ := Aux.updateMask_total hs0 (hcm v hv).1
        exact ⟨(t, m), by rw [(hcm v hv).2, h]⟩)
    refine ⟨p1, ?_⟩
    rw [List.forall₂_iff_get] at p2 ⊢
    refine ⟨p2.1, fun i h1 h2 => ?_⟩
    obtain ⟨q1, t, m, q2, -, -, q3⟩ := p2.2 i h1 h2
    have hv := hcm _ (List.get_mem _ ⟨i, h1⟩)
    refine ⟨q1, ?_⟩
    rw [q3]
    exact Aux.oneShot hs0 hv.1 (by rw [← hv.2]; exact q2)

/-- **C100 (number of weights left).**  If the magnitudes of the entries of a weight are distinct,
exactly the rounded number of entries to keep keeps its value, at least one. -/
theorem C100_count (s : α) (hs0 : 0 ≤ s) (w w' : List α) (hw : w ≠ []) (h : Spec.OneShot s w w')
    (hd : (w.map abs).Nodup) (hz : (0 : α) ∉ w) (k : ℕ) (hk : Spec.KeepCount s w.length k) :
    w'.countP (fun x => decide (x ≠ 0)) = k := by
  obtain ⟨t, m, hu⟩ := Aux.updateMask_total hs0 hw
  have ho := Aux.oneShot hs0 hw hu
  have heq : w' = List.zipWith (· * ·) w m := by
    apply List.ext_getElem?
    intro i
    by_cases hi : i < w.length
    · have hx : w[i]? = some w[i] := List.getElem?_eq_getElem hi
      obtain ⟨a1, a2⟩ := h.2 k hk i _ hx
      obtain ⟨b1, b2⟩ := ho.2 k hk i _ hx
      by_cases hc : Spec.countAbs w (fun a => |w[i]| < a) < k
      · rw [a1 hc, b1 hc]
      · rw [a2 (by omega), b2 (by omega)]
    · rw [List.getElem?_eq_none (by rw [h.1]; omega), List.getElem?_eq_none (by rw [ho.1]; omega)]
  rw [heq, ← C06_exact_without_ties s hs0 w hw hd hu k hk]
  obtain ⟨hm, -⟩ := Aux.updateMask_ok hu
  rw [hm]
  unfold Spec.kept
  clear * - hz
  induction w with
  | nil => rfl
  | cons x w ih =>
    have hx : x ≠ 0 := fun h => hz (by simp [h])
    have := ih fun h => hz (by simp [h])
    rw [List.map_cons, List.zipWith_cons_cons, List.countP_cons, List.countP_cons, this]
    by_cases hc : t ≤ |x|
    · simp [hc, hx]
    · simp [hc]


theorem Aux.oneShot_idem {s : α} (hs0 : 0 ≤ s) {w w' w'' : List α} (hw : w ≠ [])
    (h : Spec.OneShot s w w') (h' : Spec.OneShot s w' w'') : w'' = w' := by
  have hk := Aux.keepCount_spec s w.length
  generalize keepCount s w.length = k at hk
  have hmono : ∀ c : α, 0 ≤ c →
      Spec.countAbs w' (fun a => c < a) ≤ Spec.countAbs w (fun a => c < a) := by
    intro c hc0
    have hle : List.Forall₂ (fun y x : α => |y| ≤ |x|) w' w := by
      rw [List.forall₂_iff_get]
      refine ⟨h.1, fun i h1 h2 => ?_⟩
      simp only [List.get_eq_getElem]
      obtain ⟨a1, a2⟩ := h.2 k hk i _ (List.getElem?_eq_getElem h2)
      by_cases hc : Spec.countAbs w (fun a => |w[i]| < a) < k
      · have := a1 hc
        rw [List.getElem?_eq_getElem h1, Option.some.injEq] at this
        rw [this]
      · have := a2 (by omega)
        rw [List.getElem?_eq_getElem h1, Option.some.injEq] at this
        rw [this, abs_zero]
        exact abs_nonneg _
    unfold Spec.countAbs
    clear * - hle
    induction hle with
    | nil => rfl
    | @cons y x ys xs hyx _ ih =>
      rw [List.countP_cons, List.countP_cons]
      by_cases hcy : c < |y|
      · have : c < |x| := lt_of_lt_of_le hcy hyx
        simp [hcy, this, ih]
      · simp only [hcy, decide_false, Bool.false_eq_true, if_false, add_zero]
        exact ih.trans (Nat.le_add_right _ _)
  apply List.ext_getElem?
  intro i
  by_cases hi : i < w'.length
  · have hy : w'[i]? = some w'[i] := List.getElem?_eq_getElem hi
    obtain ⟨b1, b2⟩ := h'.2 k (by rw [h.1]; exact hk) i _ hy
    by_cases hc : Spec.countAbs w' (fun a => |w'[i]| < a) < k
    · rw [b1 hc, hy]
    · rw [b2 (by omega), hy, Option.some.injEq]
      have hiw : i < w.length := by have := h.1; omega
      obtain ⟨a1, a2⟩ := h.2 k hk i w[i] (List.getElem?_eq_getElem hiw)
      by_cases hcw : Spec.countAbs w (fun a => |w[i]| < a) < k
      · exfalso
        have e := a1 hcw
        rw [hy, Option.some.injEq] at e
        rw [← e] at hcw
        have := hmono |w'[i]| (abs_nonneg _)
        omega
      · have e := a2 (by omega)
        rw [hy, Option.some.injEq] at e
        exact e.symm
  · rw [List.getElem?_eq_none (by rw [h'.1]; omega), List.getElem?_eq_none (by omega)]

theorem Aux.pruneNow_oneShot (s : α) (hs0 : 0 ≤ s) (l : PLayer α)
    (hcfg : l.cfg = ⟨stepIndependent s, 1, 1, .AVG, none⟩) (hne : ∀ v ∈ l.vars, v.weight ≠ []) :
    (pruneNow l).2 = none ∧ (pruneNow l).1.cfg = l.cfg ∧
      List.Forall₂ (fun v v' => v.weight ≠ [] ∧ Spec.OneShot s v.weight v'.weight) l.vars
        (pruneNow l).1.vars := by
  have hcm : ∀ v : PVar α, computeMask l.cfg l.step v.shape v.weight = updateMask s v.weight := by
    intro v; rw [hcfg]; rfl
  obtain ⟨p1, p0, p2⟩ := Aux.pruneNow_spec s 1 1 l hcfg
    (fun v hv => by
      obtain ⟨t, m, h⟩ := Aux.updateMask_total hs0 (hne v hv)
      exact ⟨(t, m), by rw [hcm, h]⟩)
  refine ⟨p1, p0, ?_⟩
  rw [List.forall₂_iff_get] at p2 ⊢
  refine ⟨p2.1, fun i h1 h2 => ?_⟩
  obtain ⟨q1, t, m, q2, -, -, q3⟩ := p2.2 i h1 h2
  have hv := hne _ (List.get_mem _ ⟨i, h1⟩)
  refine ⟨hv, ?_⟩
  rw [q3]
  exact Aux.oneShot hs0 hv (by rw [← hcm]; exact q2)

/-- **C100 (idempotent).**  Pruning the pruned model again changes no weight. -/
theorem C100_idempotent (s : α) (hs0 : 0 ≤ s) (layers : List (List (List ℕ × List α)))
    (hne : ∀ ws ∈ layers, ∀ w ∈ ws, w.2 ≠ []) :
    (applyPruning (pruneForBenchmark s 1 1 layers).1).2 = none ∧
      List.Forall₂ (fun l l' => l'.vars.map (·.weight) = l.vars.map (·.weight))
        (pruneForBenchmark s 1 1 layers).1 (applyPruning (pruneForBenchmark s 1 1 layers).1).1 := by
  have h1 := (Aux.applyPruning_spec (R := fun l l' => l'.cfg = l.cfg ∧
      l.cfg = ⟨stepIndependent s, 1, 1, .AVG, none⟩ ∧
      List.Forall₂ (fun v v' => v.weight ≠ [] ∧ Spec.OneShot s v.weight v'.weight) l.vars l'.vars)
    (layers.map (freshLayer ⟨stepIndependent s, 1, 1, .AVG, none⟩)) (by
      intro l hl
      obtain ⟨ws, hws, rfl⟩ := List.mem_map.1 hl
      obtain ⟨a, b, c⟩ := Aux.pruneNow_oneShot s hs0 (freshLayer ⟨stepIndependent s, 1, 1, .AVG, none⟩ ws)
        rfl (by
          intro v hv
          simp only [freshLayer, List.mem_map] at hv
          obtain ⟨w, hw, rfl⟩ := hv
          exact hne ws hws w hw)
      exact ⟨a, b, rfl, c⟩)).2
  have hall : ∀ l ∈ (pruneForBenchmark s 1 1 layers).1, ∃ l0 : PLayer α,
      l.cfg = ⟨stepIndependent s, 1, 1, .AVG, none⟩ ∧
      List.Forall₂ (fun v v' => v.weight ≠ [] ∧ Spec.OneShot s v.weight v'.weight) l0.vars l.vars :=
    Aux.forall₂_left (P := fun _ => True) h1 (fun _ _ => trivial) fun a b h _ =>
      ⟨a, by rw [h.1, h.2.1], h.2.2⟩
  refine Aux.applyPruning_spec _ fun l hl => ?_
  obtain ⟨l0, hcfg, hv⟩ := hall l hl
  obtain ⟨a, -, c⟩ := Aux.pruneNow_oneShot s hs0 l hcfg (Aux.forall₂_left (P := fun _ => True) hv
    (fun _ _ => trivial) fun v v' h _ => by
      have := h.2.1
      have h0 := List.length_pos_of_ne_nil h.1
      exact List.ne_nil_of_length_pos (by omega))
  refine ⟨a, ?_⟩
  have hc := Aux.forall₂_trans (T := fun (v v'' : PVar α) => ∃ v' : PVar α, v''.weight = v'.weight) hv c
    (fun x y z h1 h2 => ⟨y, Aux.oneShot_idem hs0 h1.1 h1.2 h2.2⟩)
  have hd : List.Forall₂ (fun v v' : PVar α => v'.weight = v.weight) l.vars (pruneNow l).1.vars := by
    rw [List.forall₂_iff_get] at hv c ⊢
    refine ⟨c.1, fun i h1 h2 => ?_⟩
    have e1 := hv.2 i (by rw [hv.1]; exact h1) h1
    have e2 := c.2 i h1 h2
    exact Aux.oneShot_idem hs0 e1.1 e1.2 e2.2
  generalize (pruneNow l).1.vars = vs at hd
  generalize l.vars = us at hd
  clear * - hd
  induction hd with
  | nil => rfl
  | cons h _ ih => rw [List.map_cons, List.map_cons, h, ih]

/-- **C100 (blocks).**  With a block size other than 1x1 and matrices larger than a block in both
directions, one-shot pruning succeeds; every weight is multiplied with the block mask (C07) of the
original weight. -/
theorem C100_blocks (s : α) (hs0 : 0 ≤ s) (bh bw : ℕ) (hbh : 1 ≤ bh) (hbw : 1 ≤ bw)
    (hb : ¬ (bh = 1 ∧ bw = 1)) (layers : List (List (List ℕ × List α)))
    (hshape : ∀ ws ∈ layers, ∀ w ∈ ws, ∃ r c, w.1 = [r, c] ∧ bh < r ∧ bw < c ∧ w.2.length = r * c) :
    (pruneForBenchmark s bh bw layers).2 = none ∧
      List.Forall₂ (fun ws l => List.Forall₂ (fun w v => ∃ r c thr M, w.1 = [r, c] ∧
          maybeUpdateBlockMask s bh bw .AVG ⟨r, c, fun i j => w.2.getD (i * c + j) 0⟩ = .ok (thr, M) ∧
          ∀ i j, i < r → j < c → ∃ x, w.2[i * c + j]? = some x ∧
            v.weight[i * c + j]? = some (x * M.at_ i j))
        ws l.vars) layers (pruneForBenchmark s bh bw layers).1 := by
  unfold pruneForBenchmark
  have hkey : ∀ ws ∈ layers, ∀ w ∈ ws, ∃ r c thr M, w.1 = [r, c] ∧ w.2.length = r * c ∧
      M.rows = r ∧ M.cols = c ∧
      blockMaskPath s bh bw .AVG (Mat.ofFlat r c w.2) = .ok (thr, M) ∧
      maybeUpdateBlockMask s bh bw .AVG ⟨r, c, fun i j => w.2.getD (i * c + j) 0⟩ = .ok (thr, M) := by
    intro ws hws w hw
    obtain ⟨r, c, h1, h2, h3, h4⟩ := hshape ws hws w hw
    obtain ⟨thr, M, h5, h6, h7, -⟩ := C07_block_aligned s hs0 bh bw hbh hbw hb .AVG
      ⟨r, c, fun i j => w.2.getD (i * c + j) 0⟩ h2 h3
    have h5' := h5
    rw [maybeUpdateBlockMask, if_neg hb] at h5'
    exact ⟨r, c, thr, M, h1, h4, h6, h7, h5', h5⟩
  have := Aux.applyPruning_spec (R := fun l l' => List.Forall₂ (fun v v' => v'.shape = v.shape ∧
        ∃ t m, computeMask l.cfg l.step v.shape v.weight = .ok (t, m) ∧ v'.mask = m ∧ v'.threshold = t ∧
          v'.weight = List.zipWith (· * ·) v.weight m) l.vars l'.vars)
    (layers.map (freshLayer ⟨stepIndependent s, bh, bw, .AVG, none⟩)) ?_
  · refine ⟨this.1, ?_⟩
    have h2 := this.2
    rw [List.forall₂_map_left_iff] at h2
    rw [List.forall₂_iff_get] at h2 ⊢
    refine ⟨h2.1, fun i g1 g2 => ?_⟩
    have h3 := h2.2 i g1 g2
    simp only [freshLayer, List.forall₂_map_left_iff] at h3
    rw [List.forall₂_iff_get] at h3 ⊢
    refine ⟨h3.1, fun j g3 g4 => ?_⟩
    obtain ⟨-, t, m, hcm, -, -, hw'⟩ := h3.2 j g3 g4
    obtain ⟨r, c, thr, M, e1, e2, e3, e4, e5, e6⟩ :=
      hkey _ (List.get_mem _ ⟨i, g1⟩) _ (List.get_mem _ ⟨j, g3⟩)
    refine ⟨r, c, thr, M, e1, e6, fun a b ha hb' => ?_⟩
    rw [e1] at hcm
    simp only [computeMask, stepIndependent, if_neg hb, e5, Except.ok.injEq, Prod.mk.injEq] at hcm
    have hlt : a * c + b < r * c :=
      calc a * c + b < a * c + c := by omega
        _ = (a + 1) * c := by ring
        _ ≤ r * c := Nat.mul_le_mul_right _ ha
    refine ⟨_, List.getElem?_eq_getElem (by rw [e2]; exact hlt), ?_⟩
    rw [hw', ← hcm.2, List.getElem?_zipWith, List.getElem?_eq_getElem (by rw [e2]; exact hlt)]
    have : M.flat[a * c + b]? = some (M.at_ a b) := by
      unfold Mat.flat
      rw [e3, e4, List.getElem?_map, List.getElem?_range hlt]
      have d1 : (a * c + b) / c = a := by
        rw [Nat.mul_comm, Nat.mul_add_div (by omega), Nat.div_eq_of_lt hb', Nat.add_zero]
      have d2 : (a * c + b) % c = b := by
        rw [Nat.mul_comm, Nat.mul_add_mod, Nat.mod_eq_of_lt hb']
      simp only [Option.map_some, d1, d2]
    rw [this]
  · intro l hl
    obtain ⟨ws, hws, rfl⟩ := List.mem_map.1 hl
    obtain ⟨p1, -, p2⟩ := Aux.pruneNow_spec s bh bw (freshLayer ⟨stepIndependent s, bh, bw, .AVG, none⟩ ws) rfl
      (fun v hv => by
        simp only [freshLayer, List.mem_map] at hv
        obtain ⟨w, hw, rfl⟩ := hv
        obtain ⟨r, c, thr, M, e1, -, -, -, e5, -⟩ := hkey ws hws w hw
        refine ⟨(thr, M.flat), ?_⟩
        simp only [freshLayer, e1, computeMask, stepIndependent, if_neg hb, e5])
    exact ⟨p1, p2⟩

/-- **C15 (violated: the benchmark tool's schedule).**  A wrapper made by `prune_for_benchmark` cannot be
rebuilt from its configuration within `prune_scope`: the schedule's class is not known there. -/
theorem C15_benchmark_violated (l : LayerObj) (s : String) (block : Nat × Nat) :
    wrapperFromConfig (wrapperGetConfig l ⟨stepIndependentCfg s, block, "AVG", none⟩) = none := by
  have h : ¬ ("StepIndependentConstantSparsity" = "ConstantSparsity" ∨
      "StepIndependentConstantSparsity" = "PolynomialDecay") := by decide
  simp only [wrapperFromConfig, wrapperGetConfig, List.lookup_cons, String.reduceBEq,
    beq_self_eq_true, stepIndependentCfg, if_neg h]

example : (pruneForBenchmark (1/2 : ℚ) 1 1 [[([2, 2], [1, -4, 3, 2])], [([3], [5, 5, 1])]]).1.map
    (fun l => l.vars.map (·.weight)) = [[[0, -4, 3, 0]], [[5, 5, 0]]] := by decide +kernel

example : (pruneForBenchmark (1/2 : ℚ) 1 2 [[([2, 4], [1, 2, 3, 4, 8, 7, 6, 5])]]).1.map
    (fun l => l.vars.map (·.weight)) = [[[0, 0, 0, 0, 8, 7, 6, 5]]] := by decide +kernel

end Verif.Props
