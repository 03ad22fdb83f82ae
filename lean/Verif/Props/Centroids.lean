import Verif.Clustering.Centroids
import Mathlib.Data.List.GetD
import Mathlib.Tactic.FieldSimp
import Mathlib.Tactic.Positivity

/-!
# C23, C24, C25: initial centroids
-/

set_option linter.unusedSectionVars false

namespace Verif.Props
open Verif.Clustering

variable {α : Type*} [Field α] [LinearOrder α] [IsStrictOrderedRing α] [FloorRing α]

/-! ## Specification -/

/-- `m` is the least weight. -/
def Spec.IsMin (m : α) (ws : List α) : Prop := m ∈ ws ∧ ∀ w ∈ ws, m ≤ w

/-- `m` is the greatest weight. -/
def Spec.IsMax (m : α) (ws : List α) : Prop := m ∈ ws ∧ ∀ w ∈ ws, w ≤ m

/-- An initialiser returns the requested number of centroids for every non-empty set of weights, and
none if none are requested. -/
def Spec.Counts (init : IntervalInit α) : Prop :=
  (∀ ws n, ws ≠ [] → 0 ≤ n → ((init ws n).length : ℤ) = n) ∧ ∀ ws, init ws 0 = []

/-- The centroids of negative weights are negative and those of positive weights positive. -/
def Spec.KeepsSign (init : IntervalInit α) : Prop :=
  ∀ ws n, ws ≠ [] → ((∀ w ∈ ws, w < 0) → ∀ c ∈ init ws n, c < 0) ∧
    ((∀ w ∈ ws, 0 < w) → ∀ c ∈ init ws n, 0 < c)

/-! ## Helper lemmas -/

theorem Aux.foldl_min (xs : List α) (x : α) :
    (xs.foldl min x = x ∨ xs.foldl min x ∈ xs) ∧ xs.foldl min x ≤ x ∧
      ∀ y ∈ xs, xs.foldl min x ≤ y := by
  induction xs generalizing x with
  | nil => simp
  | cons z xs ih =>
    obtain ⟨h1, h2, h3⟩ := ih (min x z)
    simp only [List.foldl_cons]
    refine ⟨?_, h2.trans (min_le_left _ _), ?_⟩
    · rcases h1 with h1 | h1
      · rcases min_choice x z with h | h
        · left; rw [h1, h]
        · right; rw [h1, h]; simp
      · right; simp [h1]
    · intro y hy
      rcases List.mem_cons.1 hy with rfl | hy
      · exact h2.trans (min_le_right _ _)
      · exact h3 y hy

theorem Aux.foldl_max (xs : List α) (x : α) :
    (xs.foldl max x = x ∨ xs.foldl max x ∈ xs) ∧ x ≤ xs.foldl max x ∧
      ∀ y ∈ xs, y ≤ xs.foldl max x := by
  induction xs generalizing x with
  | nil => simp
  | cons z xs ih =>
    obtain ⟨h1, h2, h3⟩ := ih (max x z)
    simp only [List.foldl_cons]
    refine ⟨?_, (le_max_left _ _).trans h2, ?_⟩
    · rcases h1 with h1 | h1
      · rcases max_choice x z with h | h
        · left; rw [h1, h]
        · right; rw [h1, h]; simp
      · right; simp [h1]
    · intro y hy
      rcases List.mem_cons.1 hy with rfl | hy
      · exact (le_max_right _ _).trans h2
      · exact h3 y hy

theorem Aux.reduceMin_isMin {ws : List α} (h : ws ≠ []) : Spec.IsMin (reduceMin ws) ws := by
  cases ws with
  | nil => exact absurd rfl h
  | cons x xs =>
    obtain ⟨h1, h2, h3⟩ := Aux.foldl_min xs x
    refine ⟨?_, ?_⟩
    · simp only [reduceMin, List.mem_cons]; exact h1
    · intro w hw
      rcases List.mem_cons.1 hw with rfl | hw
      · exact h2
      · exact h3 w hw

theorem Aux.reduceMax_isMax {ws : List α} (h : ws ≠ []) : Spec.IsMax (reduceMax ws) ws := by
  cases ws with
  | nil => exact absurd rfl h
  | cons x xs =>
    obtain ⟨h1, h2, h3⟩ := Aux.foldl_max xs x
    refine ⟨?_, ?_⟩
    · simp only [reduceMax, List.mem_cons]; exact h1
    · intro w hw
      rcases List.mem_cons.1 hw with rfl | hw
      · exact h2
      · exact h3 w hw

theorem Aux.isMin_unique {a b : α} {ws : List α} (ha : Spec.IsMin a ws) (hb : Spec.IsMin b ws) :
    a = b := le_antisymm (ha.2 b hb.1) (hb.2 a ha.1)

theorem Aux.isMax_unique {a b : α} {ws : List α} (ha : Spec.IsMax a ws) (hb : Spec.IsMax b ws) :
    a = b := le_antisymm (hb.2 a ha.1) (ha.2 b hb.1)

theorem Aux.linspace_bounds {a b : α} (hab : a ≤ b) (n : ℕ) (c : α) (hc : c ∈ linspace a b n) :
    a ≤ c ∧ c ≤ b := by
  unfold linspace at hc
  obtain ⟨i, hi, rfl⟩ := List.mem_map.1 hc
  rw [List.mem_range] at hi
  split
  · exact ⟨le_refl _, hab⟩
  · rename_i hn
    have hn1 : (0 : α) < (n : α) - 1 := by
      have : (1 : α) < (n : α) := by exact_mod_cast (by omega : 1 < n)
      linarith
    have hi1 : (i : α) ≤ (n : α) - 1 := by
      have : (i : α) + 1 ≤ (n : α) := by exact_mod_cast hi
      linarith
    have hi0 : (0 : α) ≤ (i : α) := Nat.cast_nonneg i
    have hd : 0 ≤ (b - a) / ((n : α) - 1) := div_nonneg (by linarith) hn1.le
    constructor
    · have := mul_nonneg hi0 hd
      linarith
    · have h := mul_le_mul_of_nonneg_right hi1 hd
      have : ((n : α) - 1) * ((b - a) / ((n : α) - 1)) = b - a := by field_simp
      linarith

/-! ## C23 -/

/-- **C23.**  Linear initialisation with `n ≥ 2` clusters of any non-empty weight tensor yields
exactly `n` centroids; the first is the minimum, the last the maximum, all steps are equal, and they
are strictly increasing when the weights are not all equal. -/
theorem C23_linear (ws : List α) (m M : α) (hm : Spec.IsMin m ws) (hM : Spec.IsMax M ws)
    (n : ℕ) (hn : 2 ≤ n) :
    let cs := linearInit ws (n : ℤ)
    cs.length = n ∧ cs[0]? = some m ∧ cs[n - 1]? = some M ∧
    (∀ i, i + 1 < n → cs.getD (i + 1) 0 - cs.getD i 0 = (M - m) / ((n : α) - 1)) ∧
    (m < M → cs.Pairwise (· < ·)) := by
  have hne : ws ≠ [] := List.ne_nil_of_mem hm.1
  have e1 : reduceMin ws = m := Aux.isMin_unique (Aux.reduceMin_isMin hne) hm
  have e2 : reduceMax ws = M := Aux.isMax_unique (Aux.reduceMax_isMax hne) hM
  have hn1 : (0 : α) < (n : α) - 1 := by
    have : (1 : α) < (n : α) := by exact_mod_cast (by omega : 1 < n)
    linarith
  have hcs : linearInit ws (n : ℤ) =
      (List.range n).map fun (i : ℕ) => m + (i : α) * ((M - m) / ((n : α) - 1)) := by
    unfold linearInit
    rw [if_neg (by omega), e1, e2, Int.toNat_natCast]
    unfold linspace
    simp only [show ¬ n ≤ 1 by omega, if_false]
  simp only [hcs]
  have hget : ∀ i, i < n → ((List.range n).map fun (i : ℕ) =>
      m + (i : α) * ((M - m) / ((n : α) - 1)))[i]? =
      some (m + (i : α) * ((M - m) / ((n : α) - 1))) := by
    intro i hi
    rw [List.getElem?_map, List.getElem?_range hi]; rfl
  refine ⟨by simp, ?_, ?_, ?_, ?_⟩
  · rw [hget 0 (by omega)]; simp
  · rw [hget (n - 1) (by omega)]
    congr 1
    rw [Nat.cast_sub (by omega), Nat.cast_one]
    field_simp
    ring
  · intro i hi
    rw [List.getD_eq_getElem?_getD, List.getD_eq_getElem?_getD, hget _ hi, hget i (by omega)]
    simp only [Option.getD_some]
    push_cast
    ring
  · intro hlt
    rw [List.pairwise_map]
    refine List.pairwise_lt_range.imp ?_
    intro i j hij
    have hd : 0 < (M - m) / ((n : α) - 1) := div_pos (by linarith) hn1
    have : (i : α) < (j : α) := by exact_mod_cast hij
    have := mul_lt_mul_of_pos_right this hd
    linarith

namespace Example
example : linearInit [(3 : ℚ), -1, 0, 5] 4 = [-1, 1, 3, 5] := by decide +kernel
example : Spec.IsMin (-1 : ℚ) [3, -1, 0, 5] ∧ Spec.IsMax (5 : ℚ) [3, -1, 0, 5] := by
  unfold Spec.IsMin Spec.IsMax; decide +kernel
end Example

/-! ## C25 -/

theorem Aux.linspace_length (a b : α) (n : ℕ) : (linspace a b n).length = n := by
  simp [linspace]

/-- The interpolation step is the identity: `solve_for_x(y1) = x1`. -/
theorem C25_interpolation_noop (x1 y1 x2 y2 : α) (h : y2 ≠ y1) :
    (LineSolver.new x1 y1 x2 y2).solveForX y1 = x1 := by
  unfold LineSolver.solveForX LineSolver.new
  have hm : (0 : α) < max (x2 - x1) (1 / 1000) := lt_max_of_lt_right (by norm_num)
  have hd : y2 - y1 ≠ 0 := sub_ne_zero.2 h
  have ha : (y2 - y1) / max (x2 - x1) (1 / 1000) ≠ 0 := div_ne_zero hd hm.ne'
  rw [sub_sub_cancel, mul_div_assoc, div_self ha, mul_one]

theorem Aux.singleCentroid_mem (grid cdf : List α) (hl : grid.length = cdf.length) (hc : cdf ≠ [])
    (i : ℕ) : singleCentroid grid cdf i ∈ grid := by
  have hpos : 0 < cdf.length := List.length_pos_of_ne_nil hc
  have hlt : min i (cdf.length - 1) < grid.length := by omega
  have : singleCentroid grid cdf i = grid.getD (min i (cdf.length - 1)) 0 := by
    unfold singleCentroid
    simp only
    split
    · rfl
    · rename_i h
      exact C25_interpolation_noop _ _ _ _ h
  rw [this, List.getD_eq_getElem _ _ hlt]
  exact List.getElem_mem hlt

/-- The width of the margin the initialiser adds on both sides of the weights. -/
def Spec.margin (preserveSparsity : Bool) (m M : α) : α :=
  if preserveSparsity then min (1 / 100) (min |m| |M| / 2) else 1 / 100

theorem Aux.density_mem_grid (ps : Bool) (ws : List α) (n : ℤ) (c : α)
    (hc : c ∈ densityInit ps ws n) : c ∈ densityGrid ps ws := by
  unfold densityInit at hc
  split at hc
  · cases hc
  · obtain ⟨p, -, rfl⟩ := List.mem_map.1 hc
    apply Aux.singleCentroid_mem
    · simp
    · simp [densityGrid, linspace]

theorem Aux.margin_nonneg (ps : Bool) (m M : α) : 0 ≤ Spec.margin ps m M := by
  unfold Spec.margin
  split
  · exact le_min (by norm_num) (div_nonneg (le_min (abs_nonneg _) (abs_nonneg _)) (by norm_num))
  · norm_num

/-- **C25.**  Every density-based centroid is one of the 30 equidistant points between `min - margin`
and `max + margin`, so lies within the margin (at most 0.01) of the range of the weights; exactly the
requested number of centroids is returned. -/
theorem C25_density (ps : Bool) (ws : List α) (m M : α) (hm : Spec.IsMin m ws)
    (hM : Spec.IsMax M ws) (n : ℕ) :
    (densityInit ps ws (n : ℤ)).length = n ∧
    ∀ c ∈ densityInit ps ws (n : ℤ),
      (∃ k : ℕ, k < 30 ∧ c = (m - Spec.margin ps m M) +
        (k : α) * ((M + Spec.margin ps m M - (m - Spec.margin ps m M)) / 29)) ∧
      m - 1 / 100 ≤ m - Spec.margin ps m M ∧ M + Spec.margin ps m M ≤ M + 1 / 100 ∧
      m - Spec.margin ps m M ≤ c ∧ c ≤ M + Spec.margin ps m M := by
  have hne : ws ≠ [] := List.ne_nil_of_mem hm.1
  have e1 : reduceMin ws = m := Aux.isMin_unique (Aux.reduceMin_isMin hne) hm
  have e2 : reduceMax ws = M := Aux.isMax_unique (Aux.reduceMax_isMax hne) hM
  constructor
  · unfold densityInit
    split
    · rename_i h; simp only [List.length_nil]; omega
    · simp [Aux.linspace_length]
  · intro c hc
    have hg := Aux.density_mem_grid ps ws _ c hc
    have hgap : densityGap ps ws = Spec.margin ps m M := by
      unfold densityGap Spec.margin; rw [e1, e2]
    unfold densityGrid at hg
    rw [hgap, e1, e2] at hg
    have hmM : m ≤ M := hm.2 M hM.1
    have h0 := Aux.margin_nonneg ps m M
    have hle : Spec.margin ps m M ≤ 1 / 100 := by
      unfold Spec.margin
      split
      · exact min_le_left _ _
      · exact le_refl _
    obtain ⟨b1, b2⟩ := Aux.linspace_bounds (by linarith) 30 c hg
    refine ⟨?_, by linarith, by linarith, b1, b2⟩
    unfold linspace at hg
    obtain ⟨i, hi, rfl⟩ := List.mem_map.1 hg
    rw [List.mem_range] at hi
    refine ⟨i, hi, ?_⟩
    norm_num

/-- The fraction of the weights that are at most `x`. -/
def Spec.fraction (ws : List α) (x : α) : α := (ws.countP fun w => w ≤ x : ℕ) / (ws.length : α)

/-- The `k`-th of the 30 equidistant points between `min - margin` and `max + margin`. -/
def Spec.gridPoint (ps : Bool) (m M : α) (k : ℕ) : α :=
  (m - Spec.margin ps m M) + (k : α) * ((M + Spec.margin ps m M - (m - Spec.margin ps m M)) / 29)

theorem Aux.singleCentroid_eq (grid cdf : List α) (i : ℕ) :
    singleCentroid grid cdf i = grid.getD (min i (cdf.length - 1)) 0 := by
  unfold singleCentroid
  simp only
  split
  · rfl
  · rename_i h
    exact C25_interpolation_noop _ _ _ _ h

theorem Aux.takeWhile_index {β : Type*} (l : List β) (q : β → Bool) :
    (∀ j x, j < (l.takeWhile q).length → l[j]? = some x → q x = true) ∧
    ∀ x, l[(l.takeWhile q).length]? = some x → q x = false := by
  induction l with
  | nil => simp
  | cons y l ih =>
    cases hq : q y with
    | false =>
      simp only [List.takeWhile_cons, hq]
      constructor
      · intro j x hj
        simp at hj
      · intro x hx
        simp at hx
        rw [← hx]; exact hq
    | true =>
      simp only [List.takeWhile_cons, hq, if_true, List.length_cons]
      constructor
      · intro j x hj hx
        cases j with
        | zero => simp at hx; rw [← hx]; exact hq
        | succ j => exact ih.1 j x (by omega) (by simpa using hx)
      · intro x hx
        exact ih.2 x (by simpa using hx)

/-- **C25 (quantiles).**  The `i`-th of `n` centroids is the first grid point at which the fraction of
weights not above it exceeds the `i`-th of `n` probabilities equally spaced from 0.01 to 1, or the last
grid point if there is none. -/
theorem C25_quantile (ps : Bool) (ws : List α) (m M : α) (hm : Spec.IsMin m ws)
    (hM : Spec.IsMax M ws) (n i : ℕ) (hi : i < n) (p : α)
    (hp : p = if n = 1 then 1 / 100 else 1 / 100 + (i : α) * ((99 / 100) / ((n : α) - 1))) :
    ∃ k, k < 30 ∧ (densityInit ps ws (n : ℤ))[i]? = some (Spec.gridPoint ps m M k) ∧
      (∀ j < k, Spec.fraction ws (Spec.gridPoint ps m M j) ≤ p) ∧
      (p < Spec.fraction ws (Spec.gridPoint ps m M k) ∨ k = 29) := by
  have hne : ws ≠ [] := List.ne_nil_of_mem hm.1
  have e1 : reduceMin ws = m := Aux.isMin_unique (Aux.reduceMin_isMin hne) hm
  have e2 : reduceMax ws = M := Aux.isMax_unique (Aux.reduceMax_isMax hne) hM
  have hgap : densityGap ps ws = Spec.margin ps m M := by
    unfold densityGap Spec.margin; rw [e1, e2]
  have hgrid : densityGrid ps ws = (List.range 30).map (Spec.gridPoint ps m M) := by
    unfold densityGrid linspace
    rw [hgap, e1, e2]
    refine List.map_congr_left fun j _ => ?_
    simp only [Spec.gridPoint]
    norm_num
  have hfr : ∀ x, cdfValue ws x = Spec.fraction ws x := by
    intro x
    simp only [cdfValue, Spec.fraction, List.countP_eq_length_filter]
  have hcdf : (densityGrid ps ws).map (cdfValue ws) =
      (List.range 30).map fun k => Spec.fraction ws (Spec.gridPoint ps m M k) := by
    rw [hgrid, List.map_map]
    exact List.map_congr_left fun j _ => hfr _
  have hget : (densityInit ps ws (n : ℤ))[i]? = some (singleCentroid (densityGrid ps ws)
      ((densityGrid ps ws).map (cdfValue ws))
      (searchsortedRight ((densityGrid ps ws).map (cdfValue ws)) p)) := by
    unfold densityInit
    rw [if_neg (by omega)]
    simp only [Int.toNat_natCast, linspace, List.getElem?_map, List.map_map]
    rw [List.getElem?_range hi]
    simp only [Option.map_some, Function.comp]
    congr 3
    rw [hp]
    by_cases h1 : n = 1
    · subst h1
      simp
    · rw [if_neg h1, if_neg (by omega)]
      norm_num
  set cdf := (densityGrid ps ws).map (cdfValue ws) with hc
  set t := searchsortedRight cdf p with ht
  have hlen : cdf.length = 30 := by rw [hcdf]; simp
  have hcj : ∀ j, j < 30 → cdf[j]? = some (Spec.fraction ws (Spec.gridPoint ps m M j)) := by
    intro j hj
    rw [hcdf, List.getElem?_map, List.getElem?_range hj]
    rfl
  have htle : t ≤ 30 := by
    rw [ht, ← hlen]
    exact (List.takeWhile_prefix _).length_le
  obtain ⟨w1, w2⟩ := Aux.takeWhile_index cdf fun s => decide (s ≤ p)
  change (∀ j x, j < t → _) at w1
  change ∀ x, cdf[t]? = some x → _ at w2
  refine ⟨min t 29, by omega, ?_, ?_, ?_⟩
  · rw [hget, Aux.singleCentroid_eq, hlen, hgrid]
    have hlt : min t 29 < 30 := by omega
    rw [List.getD_eq_getElem?_getD, List.getElem?_map, List.getElem?_range (by omega)]
    rfl
  · intro j hj
    have := w1 j _ (by omega) (hcj j (by omega))
    simpa using this
  · by_cases h29 : t < 30
    · left
      rw [show min t 29 = t by omega]
      have := w2 _ (hcj t h29)
      simpa using this
    · right
      omega

/-- Two quantiles of five weights: the centroids sit where the weights are. -/
example : densityInit false ([0, 0, 0, 0, 1] : List ℚ) 2 =
    [Spec.gridPoint false 0 1 1, Spec.gridPoint false 0 1 29] ∧
    (1 / 100 : ℚ) < Spec.fraction [0, 0, 0, 0, 1] (Spec.gridPoint false 0 1 1) := by
  decide +kernel

/-- **C25 (sparsity).**  With `preserve_sparsity` the centroids of negative weights are negative and
those of positive weights positive: the margin never reaches across zero. -/
theorem C25_keeps_sign : Spec.KeepsSign (densityInit true : IntervalInit α) := by
  intro ws n hne
  have hm := Aux.reduceMin_isMin hne
  have hM := Aux.reduceMax_isMax hne
  generalize reduceMin ws = m at hm
  generalize reduceMax ws = M at hM
  have key : ∀ c ∈ densityInit true ws n, m - Spec.margin true m M ≤ c ∧
      c ≤ M + Spec.margin true m M := by
    intro c hc
    rcases le_or_gt 0 n with hn | hn
    · obtain ⟨k, rfl⟩ := Int.eq_ofNat_of_zero_le hn
      obtain ⟨-, -, -, h⟩ := (C25_density true ws m M hm hM k).2 c hc
      exact h
    · unfold densityInit at hc
      rw [if_pos (by omega)] at hc
      cases hc
  have hmar : Spec.margin true m M ≤ min |m| |M| / 2 := by
    unfold Spec.margin; simp
  constructor
  · intro hneg c hc
    have hMneg := hneg M hM.1
    have h1 : min |m| |M| ≤ |M| := min_le_right _ _
    have h2 := abs_of_neg hMneg
    have := (key c hc).2
    linarith
  · intro hpos c hc
    have hmpos := hpos m hm.1
    have h1 : min |m| |M| ≤ |m| := min_le_left _ _
    have h2 := abs_of_pos hmpos
    have := (key c hc).1
    linarith

namespace Example
example : densityInit false [(0 : ℚ), 0, 1, 2] 2 = [(-1/100 + 202/100 * 1/29), 2 + 1/100] := by
  decide +kernel
end Example

/-! ## C24 -/

theorem Aux.roundHalfEven_bound (x : α) : |(roundHalfEven x : α) - x| ≤ 1 / 2 := by
  unfold roundHalfEven
  simp only
  have h1 := Int.floor_le x
  have h2 := Int.lt_floor_add_one x
  rw [abs_le]
  split
  · constructor <;> linarith
  · split
    · push_cast; constructor <;> linarith
    · split
      · constructor <;> linarith
      · push_cast; constructor <;> linarith

theorem Aux.round_intCast (k : ℤ) : roundHalfEven (k : α) = k := by
  unfold roundHalfEven
  simp

theorem Aux.round_bounds {x : α} {k : ℤ} (h0 : 0 ≤ x) (hk : x ≤ (k : α)) :
    0 ≤ roundHalfEven x ∧ roundHalfEven x ≤ k := by
  have hb := abs_le.1 (Aux.roundHalfEven_bound x)
  constructor
  · have : (-1 : α) < (roundHalfEven x : α) := by linarith
    have : (-1 : ℤ) < roundHalfEven x := by exact_mod_cast this
    omega
  · have : (roundHalfEven x : α) < (k : α) + 1 := by linarith
    have : roundHalfEven x < k + 1 := by exact_mod_cast this
    omega

/-- **C24 (all zero).**  An all-zero weight tensor gets the single centroid 0. -/
theorem C24_all_zero (init : IntervalInit α) (N : ℤ) (ws : List α) (h : ∀ w ∈ ws, w = 0) :
    zeroCentroids init N ws = [0] := by
  unfold zeroCentroids
  have h1 : ws.filter (fun w => decide (w < 0)) = [] := by
    rw [List.filter_eq_nil_iff]
    intro w hw
    simp [h w hw]
  have h2 : ws.filter (fun w => decide (0 < w)) = [] := by
    rw [List.filter_eq_nil_iff]
    intro w hw
    simp [h w hw]
  simp [h1, h2]

/-- **C24 (allocation).**  Otherwise the result is: centroids for the negative weights, the centroid
0, centroids for the positive weights.  The non-zero clusters are split so that the negative share
differs from the proportional one by at most 1/2, and an interval without weights is never asked for
a centroid. -/
theorem C24_allocation (init : IntervalInit α) (N : ℕ) (hN : 1 ≤ N) (ws : List α)
    (h : ∃ w ∈ ws, w ≠ 0) :
    ∃ nNeg nPos : ℕ, nNeg + nPos + 1 = N ∧
      zeroCentroids init N ws =
        init (ws.filter (· < 0)) nNeg ++ [0] ++ init (ws.filter (0 < ·)) nPos ∧
      |(nNeg : α) - ((N : α) - 1) * (((ws.filter (· < 0)).length : α) /
        ((ws.filter (· ≠ 0)).length : α))| ≤ 1 / 2 ∧
      (ws.filter (· < 0) = [] → nNeg = 0) ∧ (ws.filter (0 < ·) = [] → nPos = 0) := by
  have hsplit : ∀ l : List α, (l.filter (· < 0)).length + (l.filter (0 < ·)).length =
      (l.filter (· ≠ 0)).length := by
    intro l
    induction l with
    | nil => rfl
    | cons x l ih =>
      rcases lt_trichotomy x 0 with hx | hx | hx
      · simp [hx, hx.ne, hx.le, not_lt.2 hx.le] at ih ⊢; omega
      · subst hx; simpa using ih
      · simp [hx, hx.ne', not_lt.2 hx.le] at ih ⊢; omega
  have hnz : 0 < (ws.filter (· ≠ 0)).length := by
    obtain ⟨w, hw, hw0⟩ := h
    exact List.length_pos_of_mem (List.mem_filter.2 ⟨hw, by simpa using hw0⟩)
  have hsum := hsplit ws
  set neg := ws.filter (· < 0) with hneg
  set pos := ws.filter (0 < ·) with hpos
  set tot := (ws.filter (· ≠ 0)).length with htot
  have htotα : (0 : α) < (tot : α) := by exact_mod_cast hnz
  have hneglen : (neg.length : α) ≤ (tot : α) := by exact_mod_cast (by omega : neg.length ≤ tot)
  have hr0 : 0 ≤ (neg.length : α) / (tot : α) := by positivity
  have hr1 : (neg.length : α) / (tot : α) ≤ 1 := by
    rw [div_le_one htotα]; exact hneglen
  have hk : (0 : α) ≤ (((N : ℤ) - 1 : ℤ) : α) := by
    have : (0 : ℤ) ≤ (N : ℤ) - 1 := by omega
    exact_mod_cast this
  have hbnd := Aux.round_bounds (x := (((N : ℤ) - 1 : ℤ) : α) * ((neg.length : α) / (tot : α)))
    (k := (N : ℤ) - 1) (mul_nonneg hk hr0) (by
      have := mul_le_mul_of_nonneg_left hr1 hk
      rwa [mul_one] at this)
  obtain ⟨a, ha⟩ := Int.eq_ofNat_of_zero_le hbnd.1
  obtain ⟨b, hb⟩ := Int.eq_ofNat_of_zero_le (sub_nonneg.2 hbnd.2)
  refine ⟨a, b, ?_, ?_, ?_, ?_, ?_⟩
  · rw [ha] at hb; omega
  · unfold zeroCentroids
    simp only
    rw [← hneg, ← hpos, hsum, if_neg (by omega), ha, ← hb, ha]
  · have := Aux.roundHalfEven_bound ((((N : ℤ) - 1 : ℤ) : α) * ((neg.length : α) / (tot : α)))
    rw [ha] at this
    push_cast at this
    exact this
  · intro hn
    rw [hn] at ha
    simp only [List.length_nil, Nat.cast_zero, zero_div, mul_zero] at ha
    have h0 : roundHalfEven (0 : α) = 0 := by
      have := Aux.round_intCast (α := α) 0
      simpa using this
    rw [h0] at ha
    omega
  · intro hp
    have : neg.length = tot := by rw [hp] at hsum; simpa using hsum
    rw [this, div_self htotα.ne', mul_one, Aux.round_intCast] at ha
    rw [this, div_self htotα.ne', mul_one, Aux.round_intCast] at hb
    omega

/-- **C24 (no empty interval).**  Consequence: an initialiser is only asked for a positive number of
centroids of a non-empty set of weights. -/
theorem C24_no_empty_interval (init init' : IntervalInit α) (N : ℕ) (hN : 1 ≤ N) (ws : List α)
    (hagree : ∀ l n, l ≠ [] → init l n = init' l n) (hzero : init [] 0 = init' [] 0) :
    zeroCentroids init N ws = zeroCentroids init' N ws := by
  by_cases h : ∃ w ∈ ws, w ≠ 0
  · have h1 := C24_allocation init N hN ws h
    have h2 := C24_allocation init' N hN ws h
    obtain ⟨a, b, hab, e, -, hn, hp⟩ := h1
    unfold zeroCentroids at e ⊢
    simp only at e ⊢
    obtain ⟨w, hw, hw0⟩ := h
    split
    · rfl
    · rename_i hnz
      set neg := ws.filter fun w => decide (w < 0)
      set pos := ws.filter fun w => decide (0 < w)
      have e1 : ∀ n : ℤ, (neg = [] → n = 0) → init neg n = init' neg n := by
        intro n hn
        by_cases hne : neg = []
        · rw [hne, hn hne, hzero]
        · exact hagree _ _ hne
      have e2 : ∀ n : ℤ, (pos = [] → n = 0) → init pos n = init' pos n := by
        intro n hn
        by_cases hne : pos = []
        · rw [hne, hn hne, hzero]
        · exact hagree _ _ hne
      have h00 : roundHalfEven (0 : α) = 0 := by
        have := Aux.round_intCast (α := α) 0
        simpa using this
      rw [e1, e2]
      · intro hpe
        have hne : neg.length ≠ 0 := by
          intro h0; apply hnz; rw [h0, hpe]; rfl
        have : (neg.length : α) ≠ 0 := by exact_mod_cast hne
        rw [hpe, List.length_nil, add_zero, div_self this, mul_one, Aux.round_intCast]
        omega
      · intro hne
        rw [hne]
        simp [h00]
  · have hz : ∀ w ∈ ws, w = 0 := by
      intro w hw
      by_contra hne
      exact h ⟨w, hw, hne⟩
    rw [C24_all_zero _ _ _ hz, C24_all_zero _ _ _ hz]

/-- **C24.**  With `preserve_sparsity`, for an initialiser that returns what it is asked for and
keeps signs: `number_of_clusters` centroids if some weight is non-zero (one otherwise), exactly one
of them 0. -/
theorem C24_zero_centroid (init : IntervalInit α) (hcount : Spec.Counts init)
    (hsign : Spec.KeepsSign init) (N : ℕ) (hN : 1 ≤ N) (ws : List α) :
    (zeroCentroids init N ws).count 0 = 1 ∧
    (zeroCentroids init N ws).length ≤ N ∧
    ((∃ w ∈ ws, w ≠ 0) → (zeroCentroids init N ws).length = N) := by
  by_cases h : ∃ w ∈ ws, w ≠ 0
  · obtain ⟨a, b, hab, e, -, hn, hp⟩ := C24_allocation init N hN ws h
    have hlen : ∀ (l : List α) (k : ℕ), (l = [] → k = 0) → (init l k).length = k := by
      intro l k hk
      by_cases hl : l = []
      · rw [hk hl, hl]
        have := hcount.2 ([] : List α)
        simp [this]
      · have := hcount.1 l k hl (by omega)
        exact_mod_cast this
    have hn0 : (0 : α) ∉ init (ws.filter (· < 0)) a := by
      intro h0
      by_cases hl : ws.filter (· < 0) = []
      · have := hlen _ _ hn
        rw [hn hl] at this h0
        rw [List.length_eq_zero_iff.1 this] at h0
        cases h0
      · have := (hsign _ a hl).1 (by intro w hw; simpa using (List.mem_filter.1 hw).2) 0 h0
        exact lt_irrefl _ this
    have hp0 : (0 : α) ∉ init (ws.filter (0 < ·)) b := by
      intro h0
      by_cases hl : ws.filter (0 < ·) = []
      · have := hlen _ _ hp
        rw [hp hl] at this h0
        rw [List.length_eq_zero_iff.1 this] at h0
        cases h0
      · have := (hsign _ b hl).2 (by intro w hw; simpa using (List.mem_filter.1 hw).2) 0 h0
        exact lt_irrefl _ this
    have hl : (zeroCentroids init N ws).length = N := by
      rw [e, List.length_append, List.length_append, hlen _ _ hn, hlen _ _ hp]
      simp; omega
    refine ⟨?_, hl.le, fun _ => hl⟩
    rw [e, List.count_append, List.count_append, List.count_eq_zero_of_not_mem hn0,
      List.count_eq_zero_of_not_mem hp0]
    simp
  · have hz : ∀ w ∈ ws, w = 0 := by
      intro w hw
      by_contra hne
      exact h ⟨w, hw, hne⟩
    rw [C24_all_zero _ _ _ hz]
    exact ⟨by simp, by simpa using hN, fun h' => absurd h' h⟩

/-- The linear initialiser meets both requirements of `C24_zero_centroid`. -/
theorem C24_linear : Spec.Counts (linearInit : IntervalInit α) ∧
    Spec.KeepsSign (linearInit : IntervalInit α) := by
  refine ⟨⟨fun ws n _ hn => ?_, fun ws => by simp [linearInit]⟩, fun ws n hne => ?_⟩
  · unfold linearInit
    split
    · simp only [List.length_nil]; omega
    · rw [Aux.linspace_length]; omega
  · have hm := Aux.reduceMin_isMin hne
    have hM := Aux.reduceMax_isMax hne
    have key : ∀ c ∈ linearInit ws n, reduceMin ws ≤ c ∧ c ≤ reduceMax ws := by
      intro c hc
      unfold linearInit at hc
      split at hc
      · cases hc
      · exact Aux.linspace_bounds (hm.2 _ hM.1) _ c hc
    exact ⟨fun h c hc => (key c hc).2.trans_lt (h _ hM.1),
      fun h c hc => (h _ hm.1).trans_le (key c hc).1⟩

/-- The density-based initialiser (in sparsity-preserving mode) meets both requirements. -/
theorem C24_density : Spec.Counts (densityInit true : IntervalInit α) ∧
    Spec.KeepsSign (densityInit true : IntervalInit α) := by
  refine ⟨⟨fun ws n hne hn => ?_, fun ws => by simp [densityInit]⟩, C25_keeps_sign⟩
  obtain ⟨k, rfl⟩ := Int.eq_ofNat_of_zero_le hn
  have := (C25_density true ws _ _ (Aux.reduceMin_isMin hne) (Aux.reduceMax_isMax hne) k).1
  rw [this]

/-- The random initialiser meets both requirements, for all draws from [0, 1). -/
theorem C24_random (u : ℕ → α) (hu : ∀ i, 0 ≤ u i ∧ u i < 1) :
    Spec.Counts (randomInit u) ∧ Spec.KeepsSign (randomInit u) := by
  refine ⟨⟨fun ws n _ hn => ?_, fun ws => by simp [randomInit]⟩, fun ws n hne => ?_⟩
  · simp only [randomInit, List.length_map, List.length_range]; omega
  · have hm := Aux.reduceMin_isMin hne
    have hM := Aux.reduceMax_isMax hne
    have key : ∀ c ∈ randomInit u ws n, reduceMin ws ≤ c ∧ c ≤ reduceMax ws := by
      intro c hc
      unfold randomInit at hc
      obtain ⟨i, -, rfl⟩ := List.mem_map.1 hc
      have hd : 0 ≤ reduceMax ws - reduceMin ws := sub_nonneg.2 (hm.2 _ hM.1)
      have h1 := mul_nonneg (hu i).1 hd
      have h2 := mul_le_mul_of_nonneg_right (hu i).2.le hd
      constructor <;> linarith
    exact ⟨fun h c hc => (key c hc).2.trans_lt (h _ hM.1),
      fun h c hc => (h _ hm.1).trans_le (key c hc).1⟩

/-- Any initialiser that picks its centroids among the weights (k-means++) keeps signs. -/
theorem C24_kmeans (init : IntervalInit α) (hpick : ∀ ws n, ws ≠ [] → ∀ c ∈ init ws n, c ∈ ws) :
    Spec.KeepsSign init :=
  fun ws n hne => ⟨fun h c hc => h c (hpick ws n hne c hc), fun h c hc => h c (hpick ws n hne c hc)⟩

theorem Aux.toTensor_eq (rows : List (List α)) :
    toTensor rows = if ∀ r ∈ rows, ∀ r' ∈ rows, r.length = r'.length then some rows else none := by
  cases rows with
  | nil => simp [toTensor]
  | cons r rs =>
    unfold toTensor
    simp only [List.all_eq_true, decide_eq_true_eq]
    by_cases h : ∀ x ∈ rs, x.length = r.length
    · rw [if_pos h, if_pos]
      intro a ha b hb
      have key : ∀ a ∈ r :: rs, a.length = r.length := by
        intro a ha
        rcases List.mem_cons.1 ha with rfl | ha
        · rfl
        · exact h a ha
      rw [key a ha, key b hb]
    · rw [if_neg h, if_neg]
      intro h'
      exact h fun x hx => h' x (List.mem_cons_of_mem _ hx) r List.mem_cons_self

/-- Per channel and with `preserve_sparsity`, a kernel that has a channel of zeros and a channel with a
non-zero weight, in any order and among any other channels, cannot be initialised at all (the two
channels get a different number of centroids and cannot be stacked). -/
theorem C24_dead_channel_violated (init : IntervalInit α) (hcount : Spec.Counts init)
    (hsign : Spec.KeepsSign init) (N : ℕ) (hN : 2 ≤ N) (channels : List (List α))
    (hdead : ∃ dead ∈ channels, ∀ w ∈ dead, w = 0) (hlive : ∃ live ∈ channels, ∃ w ∈ live, w ≠ 0) :
    clusterCentroids init true N channels = none := by
  obtain ⟨dead, hdm, hd⟩ := hdead
  obtain ⟨live, hlm, hl⟩ := hlive
  have h2 := (C24_zero_centroid init hcount hsign N (by omega) live).2.2 hl
  have h1 := C24_all_zero init N dead hd
  unfold clusterCentroids
  rw [Aux.toTensor_eq, if_neg]
  intro h
  have := h _ (List.mem_map.2 ⟨dead, hdm, rfl⟩) _ (List.mem_map.2 ⟨live, hlm, rfl⟩)
  simp only [if_true, h1, List.length_singleton] at this
  rw [h2] at this
  omega

/-- Per channel and with `preserve_sparsity`, when every channel has a non-zero weight, the
initialisation succeeds and every channel gets exactly the requested number of centroids. -/
theorem C24_per_channel (init : IntervalInit α) (hcount : Spec.Counts init)
    (hsign : Spec.KeepsSign init) (N : ℕ) (hN : 1 ≤ N) (channels : List (List α))
    (hlive : ∀ live ∈ channels, ∃ w ∈ live, w ≠ 0) :
    ∃ rows, clusterCentroids init true N channels = some rows ∧ rows.length = channels.length ∧
      ∀ row ∈ rows, row.length = N ∧ (0 : α) ∈ row := by
  unfold clusterCentroids
  simp only [if_true]
  have key : ∀ row ∈ channels.map (zeroCentroids init N), row.length = N ∧ (0 : α) ∈ row := by
    intro row hr
    obtain ⟨ws, hw, rfl⟩ := List.mem_map.1 hr
    have h := C24_zero_centroid init hcount hsign N hN ws
    refine ⟨by exact_mod_cast h.2.2 (hlive ws hw), ?_⟩
    first
      | exact h.1
      | (refine List.count_pos_iff.1 ?_; have := h.1; omega)
  refine ⟨channels.map (zeroCentroids init N), ?_, by simp, key⟩
  rw [Aux.toTensor_eq, if_pos]
  intro a ha b hb
  rw [(key a ha).1, (key b hb).1]

namespace Example
example : zeroCentroids linearInit 4 [(-2 : ℚ), 0, 0, 3, 4, -1, 5, 0] = [-2, 0, 3, 5] := by
  decide +kernel
example : ∃ w ∈ [(-2 : ℚ), 0, 3], w ≠ 0 := ⟨-2, by simp, by norm_num⟩
end Example
end Verif.Props
