import Verif.Encoding.Hadamard
import Mathlib.Algebra.BigOperators.Intervals
import Mathlib.Algebra.BigOperators.Fin
import Mathlib.Algebra.BigOperators.Field
import Mathlib.Tactic.FieldSimp
import Mathlib.Tactic.Positivity
import Mathlib.Tactic.IntervalCases
import Mathlib.Data.List.GetD

/-!
# Properties C33, C34, C45: Walsh-Hadamard transform, Hadamard and Kashin stages
-/

set_option linter.unusedSectionVars false
namespace Verif.Props
open Verif Verif.Encoding Finset

/-! ## Specification -/

/-- Entry `(i, j)` of the `2^k x 2^k` Hadamard matrix (Sylvester order): `-1` to the number of common
bits of `i` and `j`. -/
def Spec.walsh (k i j : ℕ) : ℝ :=
  ∏ b ∈ range k, if i.testBit b && j.testBit b then -1 else 1

/-- Squared Euclidean norm. -/
def Spec.normSq (x : List ℝ) : ℝ := (x.map fun v => v * v).sum

/-- All entries are `+1` or `-1`. -/
def Spec.IsSigns (s : List ℝ) : Prop := ∀ v ∈ s, v = 1 ∨ v = -1

/-! ## The Hadamard matrix -/

theorem Aux.walsh_symm (k i j : ℕ) : Spec.walsh k i j = Spec.walsh k j i := by
  unfold Spec.walsh
  exact prod_congr rfl fun b _ => by rw [Bool.and_comm]

theorem Aux.walsh_split (r a b s t : ℕ) (hs : s < 2 ^ r) (ht : t < 2 ^ r) :
    Spec.walsh (r + 1) (2 ^ r * a + s) (2 ^ r * b + t) =
      (if a % 2 = 1 ∧ b % 2 = 1 then -1 else 1) * Spec.walsh r s t := by
  unfold Spec.walsh
  rw [prod_range_succ, mul_comm]
  congr 1
  · rw [Nat.testBit_two_pow_mul_add a hs, Nat.testBit_two_pow_mul_add b ht]
    simp only [lt_irrefl, if_false, Nat.sub_self, Nat.testBit_zero, Bool.and_eq_true,
      decide_eq_true_eq]
  · refine prod_congr rfl fun c hc => ?_
    have hc' := mem_range.1 hc
    rw [Nat.testBit_two_pow_mul_add a hs, Nat.testBit_two_pow_mul_add b ht, if_pos hc', if_pos hc']

theorem Aux.sum_range_two_pow_succ (r : ℕ) (f : ℕ → ℝ) :
    ∑ j ∈ range (2 ^ (r + 1)), f j = ∑ j ∈ range (2 ^ r), (f j + f (2 ^ r + j)) := by
  rw [show 2 ^ (r + 1) = 2 ^ r + 2 ^ r by ring, sum_range_add, sum_add_distrib]

theorem Aux.walsh_orth (k i l : ℕ) (hi : i < 2 ^ k) (hl : l < 2 ^ k) :
    ∑ j ∈ range (2 ^ k), Spec.walsh k i j * Spec.walsh k j l = if i = l then 2 ^ k else 0 := by
  induction k generalizing i l with
  | zero => simp [Spec.walsh]; omega
  | succ r ih =>
    obtain ⟨a, s, rfl, ha, hs⟩ : ∃ a s, i = 2 ^ r * a + s ∧ a < 2 ∧ s < 2 ^ r :=
      ⟨i / 2 ^ r, i % 2 ^ r, (Nat.div_add_mod _ _).symm,
        Nat.div_lt_of_lt_mul (by rw [← pow_succ]; exact hi), Nat.mod_lt _ (by positivity)⟩
    obtain ⟨b, t, rfl, hb, ht⟩ : ∃ a s, l = 2 ^ r * a + s ∧ a < 2 ∧ s < 2 ^ r :=
      ⟨l / 2 ^ r, l % 2 ^ r, (Nat.div_add_mod _ _).symm,
        Nat.div_lt_of_lt_mul (by rw [← pow_succ]; exact hl), Nat.mod_lt _ (by positivity)⟩
    rw [Aux.sum_range_two_pow_succ]
    have key : ∀ j ∈ range (2 ^ r),
        Spec.walsh (r + 1) (2 ^ r * a + s) j * Spec.walsh (r + 1) j (2 ^ r * b + t) +
        Spec.walsh (r + 1) (2 ^ r * a + s) (2 ^ r + j) * Spec.walsh (r + 1) (2 ^ r + j) (2 ^ r * b + t) =
        (if a = b then 2 else 0) * (Spec.walsh r s j * Spec.walsh r j t) := by
      intro j hj
      have hj' := mem_range.1 hj
      have e0 : j = 2 ^ r * 0 + j := by simp
      have e1 : 2 ^ r + j = 2 ^ r * 1 + j := by simp
      have w1 := Aux.walsh_split r a 0 s j hs hj'
      have w2 := Aux.walsh_split r 0 b j t hj' ht
      have w3 := Aux.walsh_split r a 1 s j hs hj'
      have w4 := Aux.walsh_split r 1 b j t hj' ht
      rw [← e0] at w1 w2
      rw [← e1] at w3 w4
      rw [w1, w2, w3, w4]
      interval_cases a <;> interval_cases b <;> norm_num <;> ring
    rw [sum_congr rfl key, ← mul_sum, ih s t hs ht]
    have hiff : (2 ^ r * a + s = 2 ^ r * b + t) ↔ (a = b ∧ s = t) := by
      constructor
      · intro h
        have h1 : (2 ^ r * a + s) / 2 ^ r = a := by
          rw [Nat.mul_add_div (by positivity), Nat.div_eq_of_lt hs, add_zero]
        have h2 : (2 ^ r * b + t) / 2 ^ r = b := by
          rw [Nat.mul_add_div (by positivity), Nat.div_eq_of_lt ht, add_zero]
        have hab : a = b := by rw [← h1, ← h2, h]
        subst hab
        exact ⟨rfl, by omega⟩
      · rintro ⟨rfl, rfl⟩; rfl
    by_cases hab : a = b <;> by_cases hst : s = t <;> simp [hiff, hab, hst, pow_succ] <;> ring

/-! ## The algorithm -/

theorem Aux.pairs_length (m : ℕ) (x : List ℝ) (h : x.length = 2 * m) : (pairs x).length = m := by
  induction m generalizing x with
  | zero =>
    have : x = [] := List.length_eq_zero_iff.1 (by omega)
    subst this; rfl
  | succ m ih =>
    match x, h with
    | a :: b :: rest, h =>
      simp only [pairs, List.length_cons] at h ⊢
      rw [ih rest (by omega)]

theorem Aux.pairs_get (m : ℕ) (x : List ℝ) (h : x.length = 2 * m) (j : ℕ) (hj : j < m) :
    (pairs x)[j]'(by rw [Aux.pairs_length m x h]; exact hj) = (x.getD (2 * j) 0, x.getD (2 * j + 1) 0) := by
  induction m generalizing x j with
  | zero => omega
  | succ m ih =>
    match x, h with
    | a :: b :: rest, h =>
      cases j with
      | zero => simp [pairs]
      | succ j =>
        have := ih rest (by simp only [List.length_cons] at h; omega) j (by omega)
        simp only [pairs, List.getElem_cons_succ, this]
        rw [show 2 * (j + 1) = 2 * j + 1 + 1 by ring]
        simp

theorem Aux.step_spec (m : ℕ) (x : List ℝ) (h : x.length = 2 * m) :
    (hadamardStep x).length = 2 * m ∧
    ∀ j < m, (hadamardStep x).getD j 0 = x.getD (2 * j) 0 + x.getD (2 * j + 1) 0 ∧
      (hadamardStep x).getD (m + j) 0 = x.getD (2 * j) 0 - x.getD (2 * j + 1) 0 := by
  have hl := Aux.pairs_length m x h
  refine ⟨by simp [hadamardStep, hl]; ring, ?_⟩
  intro j hj
  have hp := Aux.pairs_get m x h j hj
  constructor
  · unfold hadamardStep
    rw [List.getD_append _ _ _ _ (by simpa [hl] using hj), List.getD_eq_getElem _ _ (by simpa [hl] using hj)]
    simp [hp]
  · unfold hadamardStep
    rw [List.getD_append_right _ _ _ _ (by simp [hl])]
    simp only [List.length_map, hl, Nat.add_sub_cancel_left]
    rw [List.getD_eq_getElem _ _ (by simpa [hl] using hj)]
    simp [hp]

/-- After `r` steps the top `r` bits have been transformed. -/
theorem Aux.iterate_spec (k : ℕ) (x : List ℝ) (h : x.length = 2 ^ k) (r : ℕ) (hr : r ≤ k) :
    ((hadamardStep^[r]) x).length = 2 ^ k ∧
    ∀ s < 2 ^ r, ∀ m < 2 ^ (k - r), ((hadamardStep^[r]) x).getD (2 ^ (k - r) * s + m) 0 =
      ∑ t ∈ range (2 ^ r), Spec.walsh r s t * x.getD (2 ^ r * m + t) 0 := by
  induction r with
  | zero =>
    refine ⟨by simpa using h, ?_⟩
    intro s hs m hm
    have : s = 0 := by simpa using hs
    subst this
    simp [Spec.walsh]
  | succ r ih =>
    obtain ⟨hlen, hv⟩ := ih (by omega)
    rw [Function.iterate_succ', Function.comp]
    have hhalf : ((hadamardStep^[r]) x).length = 2 * 2 ^ (k - 1) := by
      rw [hlen, ← pow_succ']; congr 1; omega
    obtain ⟨hl2, hs2⟩ := Aux.step_spec (2 ^ (k - 1)) _ hhalf
    refine ⟨by rw [hl2, ← pow_succ']; congr 1; omega, ?_⟩
    intro S hS M hM
    obtain ⟨a, s, rfl, ha, hs⟩ : ∃ a s, S = 2 ^ r * a + s ∧ a < 2 ∧ s < 2 ^ r :=
      ⟨S / 2 ^ r, S % 2 ^ r, (Nat.div_add_mod _ _).symm,
        Nat.div_lt_of_lt_mul (by rw [← pow_succ]; exact hS), Nat.mod_lt _ (by positivity)⟩
    have hk1 : 2 ^ (k - (r + 1)) * 2 ^ r = 2 ^ (k - 1) := by
      rw [← pow_add]; congr 1; omega
    have hk2 : 2 ^ (k - r) = 2 * 2 ^ (k - (r + 1)) := by
      rw [← pow_succ']; congr 1; omega
    set q := 2 ^ (k - (r + 1)) with hq
    have hj : q * s + M < 2 ^ (k - 1) := by
      rw [← hk1]
      calc q * s + M < q * s + q := by omega
        _ = q * (s + 1) := by ring
        _ ≤ q * 2 ^ r := Nat.mul_le_mul_left _ hs
    obtain ⟨hA, hB⟩ := hs2 (q * s + M) hj
    have g0 := hv s hs (2 * M) (by rw [hk2]; omega)
    have g1 := hv s hs (2 * M + 1) (by rw [hk2]; omega)
    rw [hk2] at g0 g1
    rw [show 2 * q * s + 2 * M = 2 * (q * s + M) by ring] at g0
    rw [show 2 * q * s + (2 * M + 1) = 2 * (q * s + M) + 1 by ring] at g1
    rw [g0, g1] at hA hB
    rw [Aux.sum_range_two_pow_succ, sum_add_distrib]
    have i0 : ∀ t, 2 ^ (r + 1) * M + t = 2 ^ r * (2 * M) + t := by intro t; rw [pow_succ]; ring
    have i1 : ∀ t, 2 ^ (r + 1) * M + (2 ^ r + t) = 2 ^ r * (2 * M + 1) + t := by
      intro t; rw [pow_succ]; ring
    have w0 : ∀ t ∈ range (2 ^ r), Spec.walsh (r + 1) (2 ^ r * a + s) t = Spec.walsh r s t := by
      intro t ht
      have := Aux.walsh_split r a 0 s t hs (mem_range.1 ht)
      rw [Nat.mul_zero, Nat.zero_add] at this
      rw [this]; simp
    have w1 : ∀ t ∈ range (2 ^ r), Spec.walsh (r + 1) (2 ^ r * a + s) (2 ^ r + t) =
        (if a = 1 then -1 else 1) * Spec.walsh r s t := by
      intro t ht
      have := Aux.walsh_split r a 1 s t hs (mem_range.1 ht)
      rw [Nat.mul_one] at this
      rw [this]
      interval_cases a <;> simp
    have c0 : ∑ t ∈ range (2 ^ r), Spec.walsh (r + 1) (2 ^ r * a + s) t * x.getD (2 ^ (r + 1) * M + t) 0 =
        ∑ t ∈ range (2 ^ r), Spec.walsh r s t * x.getD (2 ^ r * (2 * M) + t) 0 :=
      sum_congr rfl (fun t ht => by rw [w0 t ht, i0 t])
    have c1 : ∑ t ∈ range (2 ^ r), Spec.walsh (r + 1) (2 ^ r * a + s) (2 ^ r + t) *
          x.getD (2 ^ (r + 1) * M + (2 ^ r + t)) 0 =
        (if a = 1 then -1 else 1) *
          ∑ t ∈ range (2 ^ r), Spec.walsh r s t * x.getD (2 ^ r * (2 * M + 1) + t) 0 := by
      rw [mul_sum]
      exact sum_congr rfl (fun t ht => by rw [w1 t ht, i1 t, mul_assoc])
    rw [c0, c1]
    interval_cases a
    · simp only [Nat.mul_zero, Nat.zero_add]
      rw [hA]; simp
    · rw [show q * (2 ^ r * 1 + s) + M = 2 ^ (k - 1) + (q * s + M) by rw [← hk1]; ring, hB]
      simp [sub_eq_add_neg]

theorem Aux.isPow2_iff (n : ℕ) : (n ≠ 0 ∧ n &&& (n - 1) = 0) ↔ ∃ k, n = 2 ^ k :=
  Nat.ne_zero_and_sub_one_eq_zero_iff_isPowerOfTwo

/-- **C33 (domain).** The transform is defined exactly for lengths that are powers of two. -/
theorem C33_defined_iff (x : List ℝ) : (∃ y, fwht x = some y) ↔ ∃ k, x.length = 2 ^ k := by
  rw [← Aux.isPow2_iff]
  unfold fwht
  dsimp only
  constructor
  · rintro ⟨y, h⟩
    by_contra hc
    rw [if_neg hc] at h
    simp at h
  · intro h
    rw [if_pos h]
    split_ifs <;> exact ⟨_, rfl⟩

/-- **C33 (matrix form).** On a vector of length `2^k` the algorithm computes the product with the
Hadamard matrix divided by the square root of its dimension. -/
theorem C33_matrix (k : ℕ) (x : List ℝ) (h : x.length = 2 ^ k) :
    fwht x = some ((List.range (2 ^ k)).map fun j =>
      (∑ i ∈ range (2 ^ k), Spec.walsh k j i * x.getD i 0) / Real.sqrt (2 ^ k)) := by
  have hp : x.length ≠ 0 ∧ x.length &&& (x.length - 1) = 0 := (Aux.isPow2_iff _).2 ⟨k, h⟩
  unfold fwht
  dsimp only
  rw [if_pos hp]
  have hclog : Nat.clog 2 x.length = k := by rw [h]; exact Nat.clog_pow 2 k (by norm_num)
  obtain ⟨hl, hv⟩ := Aux.iterate_spec k x h k (le_refl _)
  have main : ((hadamardStep^[k]) x).map (fun v => v / Real.sqrt (x.length : ℝ)) =
      (List.range (2 ^ k)).map fun j =>
        (∑ i ∈ range (2 ^ k), Spec.walsh k j i * x.getD i 0) / Real.sqrt (2 ^ k) := by
    apply List.ext_getElem (by simp [hl])
    intro j h1 h2
    have hj : j < 2 ^ k := by simpa using h2
    have := hv j hj 0 (by simp)
    simp only [Nat.sub_self, pow_zero, one_mul, Nat.add_zero, Nat.mul_zero, Nat.zero_add] at this
    rw [List.getD_eq_getElem _ _ (by rw [hl]; exact hj)] at this
    simp only [List.getElem_map, List.getElem_range, this, h]
    push_cast
    rfl
  by_cases h1 : x.length = 1
  · rw [if_pos h1]
    have hk : k = 0 := by
      by_contra hk
      have : 2 ^ 1 ≤ 2 ^ k := Nat.pow_le_pow_right (by norm_num) (by omega)
      omega
    subst hk
    match x, h1 with
    | [a], _ => simp [Spec.walsh]
  · rw [if_neg h1, hclog, main]

theorem Aux.fwht_length {x y : List ℝ} (h : fwht x = some y) : y.length = x.length := by
  obtain ⟨k, hk⟩ := (C33_defined_iff x).1 ⟨y, h⟩
  rw [C33_matrix k x hk] at h
  simp only [Option.some.injEq] at h
  rw [← h, hk]; simp

theorem Aux.fwht_getD {x y : List ℝ} (k : ℕ) (hk : x.length = 2 ^ k) (h : fwht x = some y) (j : ℕ)
    (hj : j < 2 ^ k) :
    y.getD j 0 = (∑ i ∈ range (2 ^ k), Spec.walsh k j i * x.getD i 0) / Real.sqrt (2 ^ k) := by
  rw [C33_matrix k x hk] at h
  simp only [Option.some.injEq] at h
  rw [← h, List.getD_eq_getElem _ _ (by simpa using hj)]
  simp

theorem Aux.list_ext_getD {x y : List ℝ} (hl : x.length = y.length)
    (h : ∀ j < x.length, x.getD j 0 = y.getD j 0) : x = y := by
  apply List.ext_getElem hl
  intro j h1 h2
  have := h j h1
  rwa [List.getD_eq_getElem _ _ h1, List.getD_eq_getElem _ _ h2] at this

/-- **C33 (involution).** Transforming twice gives back the input. -/
theorem C33_involution (x y : List ℝ) (h : fwht x = some y) : fwht y = some x := by
  obtain ⟨k, hk⟩ := (C33_defined_iff x).1 ⟨y, h⟩
  have hy : y.length = 2 ^ k := by rw [Aux.fwht_length h, hk]
  obtain ⟨z, hz⟩ := (C33_defined_iff y).2 ⟨k, hy⟩
  rw [hz]
  congr 1
  have hzl : z.length = 2 ^ k := by rw [Aux.fwht_length hz, hy]
  apply Aux.list_ext_getD (by rw [hzl, hk])
  intro l hl
  rw [hzl] at hl
  rw [Aux.fwht_getD k hy hz l hl]
  have hsq : Real.sqrt (2 ^ k) * Real.sqrt (2 ^ k) = 2 ^ k := Real.mul_self_sqrt (by positivity)
  have hpos : (0 : ℝ) < Real.sqrt (2 ^ k) := Real.sqrt_pos.2 (by positivity)
  rw [sum_congr rfl (fun j hj => by
    rw [Aux.fwht_getD k hk h j (mem_range.1 hj), ← mul_div_assoc, mul_sum]), ← sum_div, sum_comm,
    div_div, hsq]
  have : ∀ i ∈ range (2 ^ k), ∑ j ∈ range (2 ^ k), Spec.walsh k l j * (Spec.walsh k j i * x.getD i 0) =
      (if l = i then 2 ^ k else 0) * x.getD i 0 := by
    intro i hi
    rw [← Aux.walsh_orth k l i hl (mem_range.1 hi), sum_mul]
    exact sum_congr rfl fun j _ => by ring
  rw [sum_congr rfl this]
  simp only [ite_mul, zero_mul, sum_ite_eq, mem_range, hl, if_true]
  field_simp

/-- **C33 (linear).** -/
theorem C33_linear (a b : ℝ) (x y x' y' : List ℝ) (hl : x.length = y.length) (hx : fwht x = some x')
    (hy : fwht y = some y') :
    fwht (List.zipWith (fun u v => a * u + b * v) x y) =
      some (List.zipWith (fun u v => a * u + b * v) x' y') := by
  obtain ⟨k, hk⟩ := (C33_defined_iff x).1 ⟨x', hx⟩
  have hk' : y.length = 2 ^ k := by rw [← hl, hk]
  have hz : (List.zipWith (fun u v => a * u + b * v) x y).length = 2 ^ k := by simp [hk, hk']
  obtain ⟨z, hzz⟩ := (C33_defined_iff _).2 ⟨k, hz⟩
  rw [hzz]
  congr 1
  have hx'l := Aux.fwht_length hx
  have hy'l := Aux.fwht_length hy
  have hzl := Aux.fwht_length hzz
  apply Aux.list_ext_getD (by rw [hzl, hz]; simp [hx'l, hy'l, hk, hk'])
  intro j hj
  rw [hzl, hz] at hj
  rw [Aux.fwht_getD k hz hzz j hj]
  have zg : ∀ (u v : List ℝ) (i : ℕ), u.length = 2 ^ k → v.length = 2 ^ k → i < 2 ^ k →
      (List.zipWith (fun u v => a * u + b * v) u v).getD i 0 = a * u.getD i 0 + b * v.getD i 0 := by
    intro u v i hu hv hi
    rw [List.getD_eq_getElem _ _ (by simp [hu, hv, hi]), List.getD_eq_getElem _ _ (by omega),
      List.getD_eq_getElem _ _ (by omega)]
    simp
  rw [zg x' y' j (by omega) (by omega) hj, Aux.fwht_getD k hk hx j hj, Aux.fwht_getD k hk' hy j hj,
    sum_congr rfl (fun i hi => by rw [zg x y i hk hk' (mem_range.1 hi)]), ← mul_div_assoc,
    ← mul_div_assoc, ← add_div, mul_sum, mul_sum, ← sum_add_distrib]
  congr 1
  exact sum_congr rfl fun i _ => by ring

theorem Aux.normSq_eq (x : List ℝ) : Spec.normSq x = ∑ i ∈ range x.length, x.getD i 0 * x.getD i 0 := by
  unfold Spec.normSq
  induction x with
  | nil => simp
  | cons a x ih =>
    rw [List.map_cons, List.sum_cons, ih, List.length_cons, sum_range_succ']
    simp [add_comm]

/-- **C33 (isometry).** The Euclidean norm is preserved. -/
theorem C33_isometry (x y : List ℝ) (h : fwht x = some y) : Spec.normSq y = Spec.normSq x := by
  obtain ⟨k, hk⟩ := (C33_defined_iff x).1 ⟨y, h⟩
  have hy : y.length = 2 ^ k := by rw [Aux.fwht_length h, hk]
  have hinv := C33_involution x y h
  have hpos : (0 : ℝ) < Real.sqrt (2 ^ k) := Real.sqrt_pos.2 (by positivity)
  rw [Aux.normSq_eq, Aux.normSq_eq, hy, hk]
  -- Σ_j y_j y_j = Σ_j Σ_i y_j W_ji x_i / √ = Σ_i x_i x_i
  have e1 : ∀ j ∈ range (2 ^ k), y.getD j 0 * y.getD j 0 =
      ∑ i ∈ range (2 ^ k), y.getD j 0 * Spec.walsh k j i * x.getD i 0 / Real.sqrt (2 ^ k) := by
    intro j hj
    conv_lhs => arg 2; rw [Aux.fwht_getD k hk h j (mem_range.1 hj)]
    rw [← mul_div_assoc, mul_sum, sum_div]
    exact sum_congr rfl fun i _ => by ring
  rw [sum_congr rfl e1, sum_comm]
  refine sum_congr rfl fun i hi => ?_
  conv_rhs => arg 1; rw [Aux.fwht_getD k hy hinv i (mem_range.1 hi)]
  rw [div_mul_eq_mul_div, sum_mul, sum_div]
  exact sum_congr rfl fun j _ => by rw [Aux.walsh_symm k i j]; ring

/-- Non-vacuity: length 4. -/
example : fwht [1, 2, 3, 4] = some [5, -1, -2, 0] := by
  have hs : Real.sqrt 4 = 2 := by
    rw [show (4 : ℝ) = 2 ^ 2 by norm_num]; exact Real.sqrt_sq (by norm_num)
  have hc : Nat.clog 2 4 = 2 := by
    rw [show (4 : ℕ) = 2 ^ 2 by norm_num]; exact Nat.clog_pow 2 2 (by norm_num)
  norm_num [fwht, hadamardStep, pairs, hc, hs, show (4 : ℕ) &&& 3 = 0 from rfl]

/-! ## C34 -/

theorem Aux.clog_le (n : ℕ) : n ≤ 2 ^ Nat.clog 2 n := Nat.le_pow_clog (by norm_num) n

theorem Aux.signs_cancel (s x : List ℝ) (hs : Spec.IsSigns s) (hl : s.length = x.length) :
    applySigns (applySigns x s) s = x := by
  unfold applySigns
  apply List.ext_getElem (by simp [hl])
  intro i h1 h2
  simp only [List.getElem_zipWith]
  have : s[i]'(by omega) = 1 ∨ s[i]'(by omega) = -1 := hs _ (List.getElem_mem _)
  rcases this with h | h <;> rw [h] <;> ring

/-- **C34.** For every non-empty row and every vector of `±1` signs the Hadamard stage encodes it to
a row whose length is the smallest power of two that is at least the input's, with the same norm, and
decoding with the same signs gives back the input. -/
theorem C34_lossless (signs x : List ℝ) (hx : x ≠ []) (hl : signs.length = x.length)
    (hs : Spec.IsSigns signs) :
    ∃ y, hadamardEncode signs x = some y ∧ y.length = 2 ^ Nat.clog 2 x.length ∧
      Spec.normSq y = Spec.normSq x ∧ hadamardDecode signs x.length y = some x := by
  have hlen : (applySigns x signs).length = x.length := by simp [applySigns, hl]
  have hne : x.length ≠ 0 := fun h => hx (List.length_eq_zero_iff.1 h)
  set p := applySigns x signs ++ List.replicate (2 ^ Nat.clog 2 x.length - x.length) 0 with hp
  have hpl : p.length = 2 ^ Nat.clog 2 x.length := by
    have := Aux.clog_le x.length
    simp [hp, hlen]; omega
  have hpad : padPow2 (applySigns x signs) = some p := by
    unfold padPow2
    rw [if_neg (by rw [hlen]; exact hne), hlen]
  obtain ⟨y, hy⟩ := (C33_defined_iff p).2 ⟨_, hpl⟩
  have hinv := C33_involution p y hy
  refine ⟨y, by rw [hadamardEncode, hpad]; exact hy, by rw [Aux.fwht_length hy, hpl], ?_, ?_⟩
  · rw [C33_isometry p y hy, hp]
    unfold Spec.normSq
    rw [List.map_append, List.sum_append]
    simp only [List.map_replicate, mul_zero, List.sum_replicate, smul_zero, add_zero]
    congr 1
    apply List.ext_getElem (by simp [applySigns, hl])
    intro i h1 h2
    simp only [applySigns, List.getElem_map, List.getElem_zipWith]
    have : signs[i]'(by simp at h2; omega) = 1 ∨ signs[i]'(by simp at h2; omega) = -1 :=
      hs _ (List.getElem_mem _)
    rcases this with h | h <;> rw [h] <;> ring
  · unfold hadamardDecode
    rw [hinv, Option.map_some]
    have ht : p.take x.length = applySigns x signs := by
      rw [hp, List.take_append_of_le_length (by omega), List.take_of_length_le (by omega)]
    rw [ht, Aux.signs_cancel signs x hs hl]

/-- **C34 (random signs).** The generated signs are `±1` as long as no draw is exactly one half. -/
theorem C34_random_signs (u : List ℝ) (hu : ∀ v ∈ u, v ≠ 1 / 2) : Spec.IsSigns (randomSigns u) := by
  intro v hv
  obtain ⟨w, hw, rfl⟩ := List.mem_map.1 hv
  have := hu w hw
  unfold realSign
  rcases lt_trichotomy w (1 / 2) with h | h | h
  · right; rw [if_neg (by linarith), if_pos (by linarith)]
  · exact absurd h this
  · left; rw [if_pos (by linarith)]

/-- **C34 (finding).** A draw of exactly one half gives the sign 0, and then decoding loses the entry. -/
theorem C34_zero_sign_lossy :
    randomSigns [1 / 2] = [0] ∧ ∃ y, hadamardEncode (randomSigns [1 / 2]) [7] = some y ∧
      hadamardDecode (randomSigns [1 / 2]) 1 y = some [0] := by
  have h : randomSigns [1 / 2] = [0] := by simp [randomSigns, realSign]
  refine ⟨h, [0], ?_, ?_⟩ <;> rw [h]
  · simp [hadamardEncode, padPow2, applySigns, fwht]
  · simp [hadamardDecode, fwht, applySigns]

/-- Entry-wise sum of `n` rows of length `len`. -/
def Spec.rowSum {n : ℕ} (len : ℕ) (xs : Fin n → List ℝ) : List ℝ :=
  (List.range len).map fun j => ∑ i, (xs i).getD j 0

theorem Aux.fwht_sum {n : ℕ} (k : ℕ) (xs ys : Fin n → List ℝ) (hl : ∀ i, (xs i).length = 2 ^ k)
    (h : ∀ i, fwht (xs i) = some (ys i)) :
    fwht (Spec.rowSum (2 ^ k) xs) = some (Spec.rowSum (2 ^ k) ys) := by
  have hz : (Spec.rowSum (2 ^ k) xs).length = 2 ^ k := by simp [Spec.rowSum]
  rw [C33_matrix k _ hz]
  congr 1
  unfold Spec.rowSum
  apply List.map_congr_left
  intro j hj
  have hj' := List.mem_range.1 hj
  rw [sum_congr rfl (fun i _ => Aux.fwht_getD k (hl i) (h i) j hj'), ← sum_div, sum_comm]
  congr 1
  refine sum_congr rfl fun i hi => ?_
  rw [List.getD_eq_getElem _ _ (by simpa using hi)]
  simp [mul_sum]

/-- **C34 (commutes with sum).** Decoding the sum of any number of encoded rows is the sum of the
decoded rows. -/
theorem C34_commutes_with_sum {n : ℕ} (k dim : ℕ) (hd : dim ≤ 2 ^ k) (signs : List ℝ)
    (hsl : signs.length = dim) (ys xs : Fin n → List ℝ) (hl : ∀ i, (ys i).length = 2 ^ k)
    (h : ∀ i, hadamardDecode signs dim (ys i) = some (xs i)) :
    hadamardDecode signs dim (Spec.rowSum (2 ^ k) ys) = some (Spec.rowSum dim xs) := by
  have hz : ∀ i, ∃ z, fwht (ys i) = some z := fun i => (C33_defined_iff _).2 ⟨k, hl i⟩
  choose z hz using hz
  unfold hadamardDecode
  rw [Aux.fwht_sum k ys z hl hz, Option.map_some]
  congr 1
  have hzl : ∀ i, (z i).length = 2 ^ k := fun i => by rw [Aux.fwht_length (hz i), hl i]
  have hx : ∀ i, xs i = applySigns ((z i).take dim) signs := by
    intro i
    have := h i
    unfold hadamardDecode at this
    rw [hz i] at this
    simpa using this.symm
  unfold Spec.rowSum applySigns
  apply List.ext_getElem (by simp [hsl, hd])
  intro j h1 h2
  have hj : j < dim := by simpa using h2
  simp only [List.getElem_zipWith, List.getElem_take, List.getElem_map, List.getElem_range]
  rw [sum_mul]
  refine sum_congr rfl fun i _ => ?_
  rw [hx i]
  unfold applySigns
  rw [List.getD_eq_getElem (List.zipWith _ _ _) _ (by simp [hsl, hzl i]; omega),
    List.getD_eq_getElem (z i) _ (by rw [hzl i]; omega)]
  simp

/-- Non-vacuity: three entries are padded to four. -/
example : Spec.IsSigns [1, -1, -1] ∧ ([1, -1, -1] : List ℝ).length = ([5, 6, 7] : List ℝ).length := by
  simp [Spec.IsSigns]

/-! ## C45: Kashin representation -/

theorem Aux.padDim_pow (k : Kashin) (n : ℕ) : ∃ K, k.padDim n = 2 ^ K ∧ n ≤ 2 ^ K := by
  unfold Kashin.padDim
  dsimp only
  have := Aux.clog_le n
  split_ifs
  · exact ⟨Nat.clog 2 n + 1, by rw [pow_succ], by rw [pow_succ]; omega⟩
  · exact ⟨Nat.clog 2 n, rfl, this⟩

theorem Aux.backward_add (K n : ℕ) (hn : n ≤ 2 ^ K) (signs a b a' b' : List ℝ)
    (hsl : signs.length = n) (ha : a.length = 2 ^ K) (hb : b.length = 2 ^ K)
    (h1 : kashinBackward a n signs = some a') (h2 : kashinBackward b n signs = some b') :
    kashinBackward (List.zipWith (· + ·) a b) n signs = some (List.zipWith (· + ·) a' b') ∧
      a'.length = n ∧ b'.length = n := by
  obtain ⟨za, hza⟩ := (C33_defined_iff a).2 ⟨K, ha⟩
  obtain ⟨zb, hzb⟩ := (C33_defined_iff b).2 ⟨K, hb⟩
  have hl := C33_linear 1 1 a b za zb (by rw [ha, hb]) hza hzb
  simp only [one_mul] at hl
  have la := Aux.fwht_length hza
  have lb := Aux.fwht_length hzb
  unfold kashinBackward at h1 h2 ⊢
  rw [hza, Option.map_some, Option.some.injEq] at h1
  rw [hzb, Option.map_some, Option.some.injEq] at h2
  rw [show (List.zipWith (· + ·) a b : List ℝ) = List.zipWith (fun u v => u + v) a b from rfl, hl,
    Option.map_some]
  subst h1 h2
  refine ⟨?_, by simp [applySigns, la, ha, hsl, hn], by simp [applySigns, lb, hb, hsl, hn]⟩
  congr 1
  unfold applySigns
  apply List.ext_getElem (by simp [la, lb, ha, hb])
  intro i h1 h2
  simp only [List.getElem_zipWith, List.getElem_take]
  ring

theorem Aux.forward_spec (k : Kashin) (K n : ℕ) (hK : k.padDim n = 2 ^ K) (hn : n ≤ 2 ^ K)
    (signs x : List ℝ) (hs : Spec.IsSigns signs) (hsl : signs.length = n) (hx : x.length = n)
    (level : ℝ) (clip : Bool) :
    ∃ y, k.forward x signs level clip = some y ∧ y.length = 2 ^ K ∧
      (clip = false → kashinBackward y n signs = some x) := by
  have hlen : (applySigns x signs).length = n := by simp [applySigns, hx, hsl]
  have hpl : (k.pad (applySigns x signs)).length = 2 ^ K := by
    unfold Kashin.pad
    rw [hlen, hK]; simp [hlen]; omega
  obtain ⟨y, hy⟩ := (C33_defined_iff _).2 ⟨K, hpl⟩
  unfold Kashin.forward
  rw [hy, Option.map_some]
  refine ⟨_, rfl, ?_, ?_⟩
  · have := Aux.fwht_length hy
    split_ifs <;> simp [clipLevel, this, hpl]
  · intro hc
    simp only [hc, Bool.false_eq_true, if_false]
    unfold kashinBackward
    rw [C33_involution _ _ hy, Option.map_some]
    have ht : (k.pad (applySigns x signs)).take n = applySigns x signs := by
      unfold Kashin.pad
      rw [List.take_append_of_le_length (by omega), List.take_of_length_le (by omega)]
    rw [ht, Aux.signs_cancel signs x hs (by omega)]

theorem Aux.backward_defined (K n : ℕ) (hn : n ≤ 2 ^ K) (signs y : List ℝ) (hsl : signs.length = n)
    (hy : y.length = 2 ^ K) : ∃ z, kashinBackward y n signs = some z ∧ z.length = n := by
  obtain ⟨z, hz⟩ := (C33_defined_iff y).2 ⟨K, hy⟩
  refine ⟨_, by unfold kashinBackward; rw [hz]; rfl, ?_⟩
  have := Aux.fwht_length hz
  simp [applySigns, this, hy, hsl, hn]

/-- The loop invariant: what the coefficients represent plus the residual is constant. -/
theorem Aux.kashin_iterate (k : Kashin) (K n : ℕ) (hK : k.padDim n = 2 ^ K) (hn : n ≤ 2 ^ K)
    (signs : List ℝ) (hs : Spec.IsSigns signs) (hsl : signs.length = n) (m : ℕ)
    (res coeffs back x : List ℝ) (level : ℝ) (hr : res.length = n) (hc : coeffs.length = 2 ^ K)
    (hb : kashinBackward coeffs n signs = some back) (hbl : back.length = n)
    (hx : List.zipWith (· + ·) back res = x) :
    ∃ res' coeffs' back' level', k.iterate signs n m res coeffs level = some (res', coeffs', level') ∧
      res'.length = n ∧ coeffs'.length = 2 ^ K ∧ kashinBackward coeffs' n signs = some back' ∧
      back'.length = n ∧ List.zipWith (· + ·) back' res' = x := by
  induction m generalizing res coeffs back level with
  | zero => exact ⟨res, coeffs, back, level, rfl, hr, hc, hb, hbl, hx⟩
  | succ m ih =>
    obtain ⟨y, hy, hyl, -⟩ := Aux.forward_spec k K n hK hn signs res hs hsl hr level true
    obtain ⟨z, hz, hzl⟩ := Aux.backward_defined K n hn signs y hsl hyl
    obtain ⟨hadd, -, -⟩ := Aux.backward_add K n hn signs coeffs y back z hsl hc hyl hb hz
    have := ih (List.zipWith (· - ·) res z) (List.zipWith (· + ·) coeffs y)
      (List.zipWith (· + ·) back z) (level * k.eta) (by simp [hr, hzl]) (by simp [hc, hyl]) hadd
      (by simp [hbl, hzl]) (by
        rw [← hx]
        apply List.ext_getElem (by simp [hr, hzl, hbl])
        intro i h1 h2
        simp only [List.getElem_zipWith]
        ring)
    obtain ⟨r', c', b', l', h1, h2⟩ := this
    refine ⟨r', c', b', l', ?_, h2⟩
    simp only [Kashin.iterate, hy, Option.bind_some, hz, h1]

theorem Aux.backward_zero (K n : ℕ) (hn : n ≤ 2 ^ K) (signs : List ℝ) (hsl : signs.length = n) :
    kashinBackward (List.replicate (2 ^ K) 0) n signs = some (List.replicate n 0) := by
  unfold kashinBackward
  rw [C33_matrix K _ (by simp), Option.map_some]
  congr 1
  apply List.ext_getElem (by simp [applySigns, hsl, hn])
  intro i h1 h2
  simp only [applySigns, List.getElem_zipWith, List.getElem_take, List.getElem_map, List.getElem_range,
    List.getElem_replicate]
  rw [sum_eq_zero (fun j hj => by
    rw [List.getD_eq_getElem _ _ (by simpa using hj)]; simp)]
  simp

/-- **C45.** Without clipping in the last iteration the Kashin stage is lossless: for every non-empty
row, every number of iterations, every shrinkage, clipping and padding parameter and every vector of
`±1` signs, encoding succeeds and decoding the coefficients returns the input. -/
theorem C45_lossless (k : Kashin) (hlast : k.lastIterClip = false) (signs x : List ℝ) (hx : x ≠ [])
    (hs : Spec.IsSigns signs) (hsl : signs.length = x.length) :
    ∃ y, k.encode signs x = some y ∧ y.length = k.padDim x.length ∧
      k.decode signs x.length y = some x := by
  have hne : x.length ≠ 0 := fun h => hx (List.length_eq_zero_iff.1 h)
  obtain ⟨K, hK, hn⟩ := Aux.padDim_pow k x.length
  have h0 := Aux.backward_zero K x.length hn signs hsl
  obtain ⟨r, c, b, l, hit, hr, hc, hb, hbl, hsum⟩ := Aux.kashin_iterate k K x.length hK hn signs hs hsl
    (k.numIters - 1) x (List.replicate (2 ^ K) 0) (List.replicate x.length 0) x
    (rowNorm x / Real.sqrt (k.delta * (x.length : ℝ))) rfl (by simp) h0 (by simp) (by
      apply List.ext_getElem (by simp)
      intro i h1 h2
      simp)
  obtain ⟨y, hy, hyl, hback⟩ := Aux.forward_spec k K x.length hK hn signs r hs hsl hr l false
  have hadd := (Aux.backward_add K x.length hn signs c y b r hsl hc hyl hb (hback rfl)).1
  refine ⟨List.zipWith (· + ·) c y, ?_, by rw [hK]; simp [hc, hyl], ?_⟩
  · unfold Kashin.encode
    rw [if_neg hne]
    dsimp only
    rw [hK, hit, Option.bind_some, hlast, hy]
    simp
  · unfold Kashin.decode
    rw [hadd, hsum]

/-- The clip level never becomes negative. -/
theorem Aux.clipLevel_bound (level : ℝ) (h : 0 ≤ level) (y : List ℝ) :
    ∀ v ∈ clipLevel level y, |v| ≤ level := by
  intro v hv
  obtain ⟨w, -, rfl⟩ := List.mem_map.1 hv
  rw [abs_le]
  exact ⟨le_max_right _ _, max_le (min_le_right _ _) (by linarith)⟩

/-- **C45 (clipping).** The clipped coefficients of an iteration lie in `[-level, level]`, and each is the
nearest point of that interval to the unclipped coefficient (so coefficients already inside are kept). -/
theorem C45_clip (k : Kashin) (x signs : List ℝ) (level : ℝ) (hl : 0 ≤ level) (y : List ℝ)
    (h : k.forward x signs level true = some y) :
    ∃ z, k.forward x signs level false = some z ∧ y.length = z.length ∧
      ∀ i (h₁ : i < y.length) (h₂ : i < z.length), |y[i]| ≤ level ∧
        ∀ p, |p| ≤ level → |y[i] - z[i]| ≤ |p - z[i]| := by
  unfold Kashin.forward at h ⊢
  rw [Option.map_eq_some_iff] at h
  obtain ⟨z, hz, rfl⟩ := h
  refine ⟨z, by rw [hz]; simp, by simp [clipLevel], ?_⟩
  intro i h₁ h₂
  refine ⟨Aux.clipLevel_bound level hl z _ (by simp), ?_⟩
  intro p hp
  simp only [if_true, clipLevel, List.getElem_map]
  rw [abs_le] at hp
  obtain ⟨p1, p2⟩ := hp
  rcases le_total z[i] level with a | a
  · rw [min_eq_left a]
    rcases le_total (-level) z[i] with b | b
    · rw [max_eq_left b]; simp
    · rw [max_eq_right b, abs_of_nonneg (by linarith), abs_of_nonneg (by linarith)]; linarith
  · rw [min_eq_right a, max_eq_left (by linarith), abs_of_nonpos (by linarith), abs_of_nonpos (by linarith)]
    linarith

/-- **C45 (with clipping).** With clipping in the last iteration the result has the norm of the input
(or all coefficients are zero). -/
theorem C45_clipped_norm (k : Kashin) (hlast : k.lastIterClip = true) (signs x y : List ℝ)
    (h : k.encode signs x = some y) :
    Spec.normSq y = Spec.normSq x ∨ ∀ v ∈ y, v = 0 := by
  unfold Kashin.encode at h
  by_cases hne : x.length = 0
  · rw [if_pos hne] at h; simp at h
  rw [if_neg hne] at h
  dsimp only at h
  rw [Option.bind_eq_some_iff] at h
  obtain ⟨r, -, h⟩ := h
  rw [Option.map_eq_some_iff] at h
  obtain ⟨z, -, h⟩ := h
  rw [hlast] at h
  simp only [if_true] at h
  subst h
  set c := List.zipWith (· + ·) r.2.1 z with hc
  have nn : ∀ l : List ℝ, 0 ≤ (l.map fun v => v * v).sum := by
    intro l
    apply List.sum_nonneg
    intro v hv
    obtain ⟨w, -, rfl⟩ := List.mem_map.1 hv
    exact mul_self_nonneg w
  by_cases h0 : rowNorm c = 0
  · right
    intro v hv
    obtain ⟨w, -, rfl⟩ := List.mem_map.1 hv
    simp [divNoNan, h0]
  · left
    have hscale : ∀ (q : ℝ) (l : List ℝ),
        ((l.map fun v => v * q).map fun v => v * v).sum = q * q * (l.map fun v => v * v).sum := by
      intro q l
      induction l with
      | nil => simp
      | cons a l ih => simp only [List.map_cons, List.sum_cons, ih]; ring
    unfold Spec.normSq
    rw [hscale]
    have hx2 : rowNorm x * rowNorm x = (x.map fun v => v * v).sum := Real.mul_self_sqrt (nn x)
    have hc2 : rowNorm c * rowNorm c = (c.map fun v => v * v).sum := Real.mul_self_sqrt (nn c)
    rw [← hx2, ← hc2]
    simp only [divNoNan, if_neg h0]
    field_simp

/-- **C45 (commutes with sum).** -/
theorem C45_commutes_with_sum {n : ℕ} (kp : Kashin) (k dim : ℕ) (hd : dim ≤ 2 ^ k) (signs : List ℝ)
    (hsl : signs.length = dim) (ys xs : Fin n → List ℝ) (hl : ∀ i, (ys i).length = 2 ^ k)
    (h : ∀ i, kp.decode signs dim (ys i) = some (xs i)) :
    kp.decode signs dim (Spec.rowSum (2 ^ k) ys) = some (Spec.rowSum dim xs) :=
  C34_commutes_with_sum k dim hd signs hsl ys xs hl h

/-- Non-vacuity: the default parameters are valid and meet the hypothesis. -/
example : Kashin.Valid ⟨3, 9 / 10, 1, false, 85 / 100⟩ ∧
    (⟨3, 9 / 10, 1, false, 85 / 100⟩ : Kashin).lastIterClip = false ∧
    Spec.IsSigns [1, -1, -1] ∧ ([5, 6, 7] : List ℝ) ≠ [] := by
  refine ⟨⟨by norm_num, by norm_num, by norm_num, by norm_num⟩, rfl, ?_, by simp⟩
  simp [Spec.IsSigns]

end Verif.Props
