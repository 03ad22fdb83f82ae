import Verif.Sparsity.Mask
import Mathlib.Tactic.FieldSimp

/-!
# Properties C05, C06: the element-wise magnitude mask
-/

set_option linter.unusedSectionVars false
namespace Verif.Props
open Verif Verif.Sparsity

variable {α : Type*} [Field α] [LinearOrder α] [IsStrictOrderedRing α] [FloorRing α]

/-! ## Specification -/

/-- `r` is `x` rounded to the nearest integer, halves to even. -/
def Spec.RoundsTo (x : α) (r : ℤ) : Prop :=
  |x - r| ≤ 1 / 2 ∧ (|x - r| = 1 / 2 → Even r)

/-- Number of weights that must be kept out of `n` at sparsity `s`: the rounded `n*(1-s)`, but at
least one. -/
def Spec.KeepCount (s : α) (n k : ℕ) : Prop :=
  ∃ r : ℤ, Spec.RoundsTo ((n : α) * (1 - s)) r ∧ (k : ℤ) = max r 1

/-- Number of positions of a mask that are kept. -/
def Spec.kept (m : List α) : ℕ := m.countP (fun x => decide (x = 1))

/-- Number of entries of `w` whose magnitude satisfies `p`. -/
def Spec.countAbs (w : List α) (p : α → Prop) [DecidablePred p] : ℕ :=
  w.countP (fun x => decide (p |x|))

/-! ## Helper lemmas -/

theorem Aux.round_spec (x : α) : Spec.RoundsTo x (roundHalfEven x) := by
  unfold Spec.RoundsTo roundHalfEven
  have h0 : (⌊x⌋ : α) ≤ x := Int.floor_le x
  have h1 : x < ⌊x⌋ + 1 := Int.lt_floor_add_one x
  dsimp only
  split_ifs with c1 c2 c3
  · refine ⟨?_, fun h => ?_⟩
    · rw [abs_of_nonneg (by linarith)]; exact c1.le
    · rw [abs_of_nonneg (by linarith)] at h; linarith
  · push_cast
    refine ⟨?_, fun h => ?_⟩
    · rw [abs_of_nonpos (by linarith)]; linarith
    · rw [abs_of_nonpos (by linarith)] at h; linarith
  · refine ⟨?_, fun h => Int.even_iff.2 c3⟩
    rw [abs_of_nonneg (by linarith)]; linarith
  · push_cast
    refine ⟨?_, fun h => ?_⟩
    · rw [abs_of_nonpos (by linarith)]; linarith
    · rw [Int.even_iff]; omega

theorem Aux.round_unique {x : α} {r r' : ℤ} (h : Spec.RoundsTo x r) (h' : Spec.RoundsTo x r') :
    r = r' := by
  obtain ⟨a, b⟩ := h
  obtain ⟨a', b'⟩ := h'
  obtain ⟨a1, a2⟩ := abs_le.1 a
  obtain ⟨a1', a2'⟩ := abs_le.1 a'
  have e1 : ((r - r' : ℤ) : α) ≤ 1 := by push_cast; linarith
  have e2 : ((r' - r : ℤ) : α) ≤ 1 := by push_cast; linarith
  have e1' : r - r' ≤ 1 := by exact_mod_cast e1
  have e2' : r' - r ≤ 1 := by exact_mod_cast e2
  by_contra hne
  rcases lt_or_gt_of_ne hne with hlt | hlt
  · have : r' = r + 1 := by omega
    subst this
    push_cast at a1' a2'
    have x1 : x = r + 1/2 := by linarith
    have y1 := b (by rw [x1]; ring_nf; norm_num)
    have y2 := b' (by rw [x1]; push_cast; ring_nf; norm_num)
    rw [Int.even_iff] at y1 y2; omega
  · have : r = r' + 1 := by omega
    subst this
    push_cast at a1 a2
    have x1 : x = r' + 1/2 := by linarith
    have y1 := b' (by rw [x1]; ring_nf; norm_num)
    have y2 := b (by rw [x1]; push_cast; ring_nf; norm_num)
    rw [Int.even_iff] at y1 y2; omega

theorem Aux.keepCount_spec (s : α) (n : ℕ) : Spec.KeepCount s n (keepCount s n) :=
  ⟨_, Aux.round_spec _, by unfold keepCount; omega⟩

theorem Aux.keepCount_unique {s : α} {n k k' : ℕ} (h : Spec.KeepCount s n k)
    (h' : Spec.KeepCount s n k') : k = k' := by
  obtain ⟨r, hr, hk⟩ := h
  obtain ⟨r', hr', hk'⟩ := h'
  have := Aux.round_unique hr hr'
  subst this; omega

theorem Aux.keepCount_pos (s : α) (n : ℕ) : 1 ≤ keepCount s n := by
  unfold keepCount; omega

theorem Aux.keepCount_le {s : α} (hs : 0 ≤ s) {n : ℕ} (hn : 0 < n) : keepCount s n ≤ n := by
  obtain ⟨r, ⟨hr, _⟩, hk⟩ := Aux.keepCount_spec s n
  have h1 := (abs_le.1 hr).1
  have h2 : (n:α) * (1 - s) ≤ n := by
    have : (0:α) ≤ n := by positivity
    nlinarith
  have h3 : (r : α) < n + 1 := by linarith
  have h4 : r < (n:ℤ) + 1 := by exact_mod_cast h3
  omega

instance (v : List α) : Std.Total (topKBefore v) := ⟨fun i j => by
  unfold topKBefore
  rcases lt_trichotomy (v.getD i 0) (v.getD j 0) with h | h | h
  · exact Or.inr (Or.inl h)
  · rcases le_total i j with h' | h'
    · exact Or.inl (Or.inr ⟨h, h'⟩)
    · exact Or.inr (Or.inr ⟨h.symm, h'⟩)
  · exact Or.inl (Or.inl h)⟩

instance (v : List α) : IsTrans ℕ (topKBefore v) := ⟨fun a b c => by
  unfold topKBefore
  rintro (h | ⟨h, i⟩) (h' | ⟨h', i'⟩)
  · exact Or.inl (h'.trans h)
  · exact Or.inl (h' ▸ h)
  · exact Or.inl (h ▸ h')
  · exact Or.inr ⟨h.trans h', i.trans i'⟩⟩

theorem Aux.topK_perm (v : List α) : (topKIndices v).Perm (List.range v.length) :=
  List.perm_insertionSort _ _

theorem Aux.topK_length (v : List α) : (topKIndices v).length = v.length := by
  simpa using (Aux.topK_perm v).length_eq

theorem Aux.topK_sorted (v : List α) : (topKIndices v).Pairwise (topKBefore v) :=
  List.pairwise_insertionSort _ _

theorem Aux.topK_anti (v : List α) {a b : ℕ} (hab : a ≤ b) (hb : b < (topKIndices v).length) :
    v.getD ((topKIndices v)[b]) 0 ≤ v.getD ((topKIndices v)[a]) 0 := by
  rcases hab.eq_or_lt with h | h
  · subst h; exact le_rfl
  · rcases List.pairwise_iff_getElem.1 (Aux.topK_sorted v) a b (by omega) hb h with h' | ⟨h', _⟩
    · exact h'.le
    · exact h'.ge

/-- counting values through the sorted positions -/
theorem Aux.countP_range (v : List α) (p : α → Bool) :
    v.countP p = (topKIndices v).countP (fun i => p (v.getD i 0)) := by
  rw [(Aux.topK_perm v).countP_eq]
  have : v = (List.range v.length).map (fun i => v.getD i 0) := by
    apply List.ext_getElem
    · simp
    · intro i h1 h2; simp [List.getD_eq_getElem?_getD, h1]
  conv_lhs => rw [this]
  rw [List.countP_map]
  rfl

theorem Aux.count_ge (v : List α) {k : ℕ} (hk1 : 1 ≤ k) (hk : k ≤ v.length) (pos : ℕ)
    (hpos : (topKIndices v)[k-1]? = some pos) :
    k ≤ v.countP (fun x => decide (v.getD pos 0 ≤ x)) := by
  rw [Aux.countP_range]
  have hl := Aux.topK_length v
  have hlt : k - 1 < (topKIndices v).length := by omega
  rw [List.getElem?_eq_getElem hlt, Option.some_inj] at hpos
  subst hpos
  set idx := topKIndices v with hidx
  have hsub : (idx.take k).countP (fun i => decide (v.getD idx[k-1] 0 ≤ v.getD i 0)) ≤
      idx.countP (fun i => decide (v.getD idx[k-1] 0 ≤ v.getD i 0)) :=
    (List.take_sublist k idx).countP_le
  refine le_trans (le_of_eq ?_) hsub
  have : (idx.take k).countP (fun i => decide (v.getD idx[k-1] 0 ≤ v.getD i 0)) =
      (idx.take k).length := by
    rw [List.countP_eq_length]
    intro i hi
    obtain ⟨j, hj, rfl⟩ := List.getElem_of_mem hi
    rw [List.length_take] at hj
    rw [List.getElem_take]
    exact decide_eq_true (Aux.topK_anti v (by omega) hlt)
  rw [this, List.length_take]; omega

theorem Aux.count_gt (v : List α) {k : ℕ} (hk1 : 1 ≤ k) (hk : k ≤ v.length) (pos : ℕ)
    (hpos : (topKIndices v)[k-1]? = some pos) :
    v.countP (fun x => decide (v.getD pos 0 < x)) < k := by
  rw [Aux.countP_range]
  have hl := Aux.topK_length v
  have hlt : k - 1 < (topKIndices v).length := by omega
  rw [List.getElem?_eq_getElem hlt, Option.some_inj] at hpos
  subst hpos
  generalize hidx : v.getD (topKIndices v)[k-1] 0 = thr
  have h2 : ((topKIndices v).drop (k-1)).countP (fun i => decide (thr < v.getD i 0)) = 0 := by
    rw [List.countP_eq_zero]
    intro i hi
    obtain ⟨j, hj, rfl⟩ := List.getElem_of_mem hi
    rw [List.length_drop] at hj
    rw [List.getElem_drop]
    have := Aux.topK_anti v (a := k - 1) (b := k - 1 + j) (by omega) (by omega)
    rw [hidx] at this
    simpa using this
  have h1 : ((topKIndices v).take (k-1)).countP (fun i => decide (thr < v.getD i 0)) ≤ k - 1 :=
    List.countP_le_length.trans (by rw [List.length_take]; omega)
  have h3 : (topKIndices v).countP (fun i => decide (thr < v.getD i 0)) =
      ((topKIndices v).take (k-1)).countP (fun i => decide (thr < v.getD i 0)) +
      ((topKIndices v).drop (k-1)).countP (fun i => decide (thr < v.getD i 0)) := by
    rw [← List.countP_append, List.take_append_drop]
  omega

/-- The mask is "magnitude at least threshold", the threshold being the magnitude of one of the
weights. -/
theorem Aux.updateMask_ok {s : α} {w : List α} {thr : α} {m : List α}
    (h : updateMask s w = .ok (thr, m)) :
    m = w.map (fun x => if thr ≤ |x| then 1 else 0) ∧
    ∃ pos < w.length, (topKIndices (w.map abs))[keepCount s w.length - 1]? = some pos ∧
      thr = (w.map abs).getD pos 0 := by
  unfold updateMask at h
  dsimp only at h
  split at h
  · exact absurd h (by simp)
  · rename_i pos hpos
    simp only [Except.ok.injEq, Prod.mk.injEq] at h
    obtain ⟨rfl, rfl⟩ := h
    have hmem : pos ∈ topKIndices (w.map abs) := List.mem_of_getElem? hpos
    have hlt : pos < w.length := by
      have := (Aux.topK_perm (w.map abs)).mem_iff.1 hmem
      simpa using this
    refine ⟨?_, pos, hlt, hpos, rfl⟩
    apply List.ext_getElem
    · simp
    · intro i h1 h2
      have hi : i < w.length := by simpa using h2
      simp only [List.getElem_map, List.getElem_range, List.getD_eq_getElem?_getD, List.getElem?_map,
        List.getElem?_eq_getElem hi, List.getElem?_eq_getElem hlt, Option.map_some,
        Option.getD_some, ge_iff_le]
      by_cases hip : i = pos
      · subst hip; simp
      · simp [hip]

theorem Aux.updateMask_total {s : α} (hs : 0 ≤ s) {w : List α} (hw : w ≠ []) :
    ∃ thr m, updateMask s w = .ok (thr, m) := by
  have hn : 0 < w.length := List.length_pos_of_ne_nil hw
  have h1 := Aux.keepCount_le hs hn
  have h2 := Aux.keepCount_pos s w.length
  have hl := Aux.topK_length (w.map abs)
  rw [List.length_map] at hl
  have hlt : keepCount s w.length - 1 < (topKIndices (w.map abs)).length := by omega
  unfold updateMask
  simp only [List.getElem?_eq_getElem hlt]
  exact ⟨_, _, rfl⟩

theorem Aux.kept_map (w : List α) (thr : α) :
    Spec.kept (w.map (fun x => if thr ≤ |x| then (1:α) else 0)) =
      Spec.countAbs w (fun a => thr ≤ a) := by
  unfold Spec.kept Spec.countAbs
  rw [List.countP_map]
  congr 1
  funext x
  by_cases h : thr ≤ |x| <;> simp [h]

theorem Aux.countAbs_map (w : List α) (p : α → Prop) [DecidablePred p] :
    Spec.countAbs w p = (w.map abs).countP (fun a => decide (p a)) := by
  unfold Spec.countAbs
  rw [List.countP_map]; rfl

/-! ## C05 -/

/-- **C05.** For every non-empty weight tensor and every sparsity in `[0,1)` the mask exists, has the
shape of the weights, contains only 0 and 1, keeps at least `k` entries (so prunes at most `n-k`),
and every pruned weight is strictly smaller in magnitude than every kept one. -/
theorem C05_magnitude_mask (s : α) (hs0 : 0 ≤ s) (_hs1 : s < 1) (w : List α) (hw : w ≠ []) :
    ∃ thr m, updateMask s w = .ok (thr, m) ∧
      m.length = w.length ∧
      (∀ x ∈ m, x = 0 ∨ x = 1) ∧
      (∀ k, Spec.KeepCount s w.length k →
        k ≤ Spec.kept m ∧ m.countP (fun x => decide (x = 0)) ≤ w.length - k) ∧
      (∀ (i j : ℕ) (hi : i < w.length) (hj : j < w.length) (hi' : i < m.length) (hj' : j < m.length),
        m[i] = 0 → m[j] = 1 → |w[i]| < |w[j]|) := by
  obtain ⟨thr, m, h⟩ := Aux.updateMask_total hs0 hw
  have hn : 0 < w.length := List.length_pos_of_ne_nil hw
  have h1 := Aux.keepCount_le hs0 hn
  have h2 := Aux.keepCount_pos s w.length
  obtain ⟨hm, pos, hpos, hsel, hthr⟩ := Aux.updateMask_ok h
  refine ⟨thr, m, h, by simp [hm], ?_, ?_, ?_⟩
  · intro x hx
    rw [hm, List.mem_map] at hx
    obtain ⟨y, -, rfl⟩ := hx
    by_cases c : thr ≤ |y| <;> simp [c]
  · intro k hk
    have : k = keepCount s w.length := Aux.keepCount_unique hk (Aux.keepCount_spec _ _)
    subst this
    have hge := Aux.count_ge (w.map abs) h2 (by simpa using h1) pos hsel
    rw [← hthr] at hge
    have hkept : keepCount s w.length ≤ Spec.kept m := by
      rw [hm, Aux.kept_map, Aux.countAbs_map]; exact hge
    refine ⟨hkept, ?_⟩
    have hsum : m.length = Spec.kept m + m.countP (fun x => decide (x = 0)) := by
      unfold Spec.kept
      rw [List.length_eq_countP_add_countP (fun x => decide (x = 1))]
      congr 1
      apply List.countP_congr
      intro x hx
      rw [hm, List.mem_map] at hx
      obtain ⟨y, -, rfl⟩ := hx
      by_cases c : thr ≤ |y| <;> simp [c]
    have : m.length = w.length := by simp [hm]
    omega
  · intro i j hi hj hi' hj' h0 h1'
    subst hm
    simp only [List.getElem_map] at h0 h1'
    have c0 : ¬ thr ≤ |w[i]| := by
      intro c; simp [c] at h0
    have c1 : thr ≤ |w[j]| := by
      by_contra c; simp [c] at h1'
    exact lt_of_lt_of_le (not_le.1 c0) c1

example : updateMask (1/2 : ℚ) [3, -1, 2, -5, 0] = .ok (3, [1, 0, 0, 1, 0]) := by decide +kernel

/-! ## C06 -/

/-- **C06 (ties).** In general at most `k-1` kept entries are strictly above the threshold returned
with the mask, and the kept entries are exactly those with magnitude at least the threshold: all
kept entries in excess of `k` are ties at the threshold. -/
theorem C06_excess_only_ties (s : α) (hs0 : 0 ≤ s) (w : List α) (hw : w ≠ []) {thr : α} {m : List α}
    (h : updateMask s w = .ok (thr, m)) (k : ℕ) (hk : Spec.KeepCount s w.length k) :
    Spec.countAbs w (fun a => thr < a) < k ∧
    Spec.kept m = Spec.countAbs w (fun a => thr < a) + Spec.countAbs w (fun a => a = thr) ∧
    (∃ x ∈ w, |x| = thr) := by
  have hn : 0 < w.length := List.length_pos_of_ne_nil hw
  have h1 := Aux.keepCount_le hs0 hn
  have h2 := Aux.keepCount_pos s w.length
  obtain ⟨hm, pos, hpos, hsel, hthr⟩ := Aux.updateMask_ok h
  have : k = keepCount s w.length := Aux.keepCount_unique hk (Aux.keepCount_spec _ _)
  subst this
  refine ⟨?_, ?_, ?_⟩
  · rw [Aux.countAbs_map]
    have := Aux.count_gt (w.map abs) h2 (by simpa using h1) pos hsel
    rwa [← hthr] at this
  · rw [hm, Aux.kept_map]
    unfold Spec.countAbs
    clear hm hsel hthr h hpos h1 h2 hk hw hn
    induction w with
    | nil => simp
    | cons a l ih =>
      simp only [List.countP_cons]
      rw [ih]
      rcases lt_trichotomy thr |a| with c | c | c
      · simp [c, c.le, c.ne']; omega
      · simp [← c]; omega
      · simp [not_le.2 c, not_lt.2 c.le, c.ne]
  · refine ⟨w[pos], List.getElem_mem hpos, ?_⟩
    rw [hthr]; simp [List.getD_eq_getElem?_getD, hpos]

/-- **C06 (exact).** If the magnitudes are pairwise distinct exactly `k` entries are kept. -/
theorem C06_exact_without_ties (s : α) (hs0 : 0 ≤ s) (w : List α) (hw : w ≠ [])
    (hd : (w.map abs).Nodup) {thr : α} {m : List α} (h : updateMask s w = .ok (thr, m))
    (k : ℕ) (hk : Spec.KeepCount s w.length k) : Spec.kept m = k := by
  obtain ⟨a1, a2, -⟩ := C06_excess_only_ties s hs0 w hw h k hk
  have a3 : Spec.countAbs w (fun a => a = thr) ≤ 1 := by
    rw [Aux.countAbs_map]
    have := List.nodup_iff_count_le_one.1 hd thr
    rw [List.count] at this
    simpa [BEq.beq] using this
  have hn : 0 < w.length := List.length_pos_of_ne_nil hw
  have h1 := Aux.keepCount_le hs0 hn
  have h2 := Aux.keepCount_pos s w.length
  obtain ⟨hm, pos, hpos, hsel, hthr⟩ := Aux.updateMask_ok h
  have : k = keepCount s w.length := Aux.keepCount_unique hk (Aux.keepCount_spec _ _)
  subst this
  have hge := Aux.count_ge (w.map abs) h2 (by simpa using h1) pos hsel
  rw [← hthr] at hge
  have hkept : keepCount s w.length ≤ Spec.kept m := by
    rw [hm, Aux.kept_map, Aux.countAbs_map]; exact hge
  omega

/-- **C06 (accuracy).** Without ties, the achieved sparsity `1 - kept/n` is within `1/(2n)` of the
requested one, unless fewer than half a weight was to be kept (then exactly one is kept). -/
theorem C06_accuracy (s : α) (hs0 : 0 ≤ s) (w : List α) (hw : w ≠ [])
    (hd : (w.map abs).Nodup) {thr : α} {m : List α} (h : updateMask s w = .ok (thr, m)) :
    |(1 - (Spec.kept m : α) / w.length) - s| ≤ 1 / (2 * w.length) ∨
      ((w.length : α) * (1 - s) ≤ 1 / 2 ∧ Spec.kept m = 1) := by
  have hk := C06_exact_without_ties s hs0 w hw hd h _ (Aux.keepCount_spec _ _)
  obtain ⟨r, ⟨hr, hev⟩, hkr⟩ := Aux.keepCount_spec s w.length
  have hn : (0:α) < w.length := by exact_mod_cast List.length_pos_of_ne_nil hw
  by_cases hr1 : 1 ≤ r
  · left
    have hkr' : ((keepCount s w.length : ℕ) : α) = r := by
      have : ((keepCount s w.length : ℕ) : ℤ) = r := by omega
      exact_mod_cast this
    rw [hk, hkr']
    have e : (1 - (r : α) / w.length) - s = ((w.length : α) * (1 - s) - r) / w.length := by
      field_simp
      ring
    rw [e, abs_div, abs_of_pos hn, div_le_div_iff₀ hn (by positivity)]
    nlinarith
  · right
    have hr0 : r ≤ 0 := by omega
    have hr0' : (r : α) ≤ 0 := by exact_mod_cast hr0
    have := (abs_le.1 hr).2
    refine ⟨by linarith, ?_⟩
    omega

/-- Non-vacuity: distinct magnitudes, keeps `round(5*0.6) = 3`. -/
example : updateMask (2/5 : ℚ) [3, -1, 2, -5, 0] = .ok (2, [1, 0, 1, 1, 0]) ∧
    (([3, -1, 2, -5, 0] : List ℚ).map abs).Nodup := by decide +kernel

/-- Ties can keep more than `k`: two weights of magnitude 1 when `k = 1`. -/
example : updateMask (1/2 : ℚ) [1, -1] = .ok (1, [1, 1]) ∧ keepCount (1/2 : ℚ) 2 = 1 := by
  decide +kernel

end Verif.Props
