import Verif.Encoding.Misc
import Verif.Props.Uniform
import Mathlib.Data.List.Sort
import Mathlib.Data.List.GetD
import Mathlib.Data.BitVec

/-!
# Properties C43, C44, C46, C47: research stages and the deterministic random generator
-/

set_option linter.unusedSectionVars false
namespace Verif.Props
open Verif Verif.Clustering Verif.Encoding

/-! ## C43 -/

theorem Aux.cumsum_zip {β : Type*} [AddCommGroup β] : ∀ (x : List β) (a : β),
    cumsum a (List.zipWith (· - ·) x (a :: x.dropLast)) = x
  | [], _ => rfl
  | [v], a => by simp [cumsum]
  | v :: w :: xs, a => by
    have ih := Aux.cumsum_zip (w :: xs) v
    simp only [List.dropLast_cons₂, List.zipWith_cons_cons, cumsum, add_sub_cancel] at ih ⊢
    rw [ih]

/-- C43: decoding the differences gives back the list, in any additive group (integers, or machine
integers with wrap-around). -/
theorem C43_diff_lossless {β : Type*} [AddCommGroup β] (x : List β) : diffDecode (diffEncode x) = x :=
  Aux.cumsum_zip x 0

/-- C43: the encoding has the length of the input; its entries are the first entry and the
differences of neighbours. -/
theorem C43_diff_values {β : Type*} [AddCommGroup β] (x : List β) :
    (diffEncode x).length = x.length ∧
      ∀ i (h : i < (diffEncode x).length) (h' : i < x.length),
        (diffEncode x)[i] = if h0 : i = 0 then x[i] else x[i] - x[i - 1] := by
  have hl : (diffEncode x).length = x.length := by
    unfold diffEncode
    rcases x with _ | ⟨v, xs⟩ <;> simp
  refine ⟨hl, ?_⟩
  intro i h h'
  have h'' : i < (List.zipWith (· - ·) x (0 :: x.dropLast)).length := h
  show (List.zipWith (· - ·) x (0 :: x.dropLast))[i]'h'' = _
  rw [List.getElem_zipWith]
  rcases i with _ | i
  · simp
  · simp [List.getElem_dropLast]

example : diffEncode [3, 5, 5, -2] = ([3, 2, 0, -7] : List ℤ) := by decide
example : diffDecode (diffEncode [120#8, 130#8, 3#8]) = [120#8, 130#8, 3#8] := by decide

/-! ## C44 -/

variable {α : Type*} [Field α] [LinearOrder α] [IsStrictOrderedRing α]

theorem Aux.lookup_zip_map {γ : Type*} (f : ℕ → γ) (l : List ℕ) (i : ℕ) :
    (l.zip (l.map f)).lookup i = if i ∈ l then some (f i) else none := by
  induction l with
  | nil => simp
  | cons a l ih =>
    simp only [List.map_cons, List.zip_cons_cons, List.lookup_cons, List.mem_cons]
    by_cases h : i = a
    · subst h; simp
    · have : (i == a) = false := by simpa using h
      simp [this, h, ih]

/-- C44: decoding (with the length of the input, which travels with the encoding as its shape) gives
the input with exactly the entries of magnitude at most the threshold replaced by zero. -/
theorem C44_split_decode (threshold : α) (x : List α) :
    splitDecode x.length (splitEncode threshold x) = x.map fun v => if |v| ≤ threshold then 0 else v := by
  unfold splitDecode splitEncode
  apply List.ext_getElem
  · simp
  · intro i h1 h2
    have hi : i < x.length := by simpa using h1
    simp only [List.getElem_map, List.getElem_range, Aux.lookup_zip_map, List.mem_filter, List.mem_range,
      hi, true_and, decide_eq_true_eq, List.getD_eq_getElem _ _ hi]
    by_cases h : threshold < |x[i]|
    · simp [h, not_le.2 h]
    · simp [h, not_lt.1 h]

/-- C44: the transmitted positions are strictly increasing, are the positions of the large entries,
and every transmitted value is the entry at its position. -/
theorem C44_split_encode (threshold : α) (x : List α) :
    (splitEncode threshold x).1.Pairwise (· < ·) ∧
      (splitEncode threshold x).1.length = (splitEncode threshold x).2.length ∧
      (∀ i, i ∈ (splitEncode threshold x).1 ↔ ∃ h : i < x.length, threshold < |x[i]|) ∧
      ∀ p ∈ (splitEncode threshold x).1.zip (splitEncode threshold x).2, x[p.1]? = some p.2 := by
  refine ⟨?_, by simp [splitEncode], ?_, ?_⟩
  · exact List.pairwise_lt_range.filter _
  · intro i
    simp only [splitEncode, List.mem_filter, List.mem_range, decide_eq_true_eq]
    constructor
    · rintro ⟨h, h'⟩; exact ⟨h, by rwa [List.getD_eq_getElem _ _ h] at h'⟩
    · rintro ⟨h, h'⟩; exact ⟨h, by rwa [List.getD_eq_getElem _ _ h]⟩
  · rintro ⟨i, v⟩ hp
    have hm := (List.of_mem_zip hp).1
    simp only [splitEncode, List.mem_filter, List.mem_range] at hm
    have : v = x.getD i 0 := by
      simp only [splitEncode] at hp
      rw [List.zip_map_right, List.mem_map] at hp
      obtain ⟨⟨a, b⟩, hab, he⟩ := hp
      have : a = b := by
        have := List.mem_iff_getElem.1 hab
        obtain ⟨k, hk, e⟩ := this
        simp only [List.getElem_zip, Prod.mk.injEq] at e
        exact e.1.symm.trans e.2
      simp only [Prod.map_apply, id, Prod.mk.injEq] at he
      rw [← he.2, ← he.1, this]
    rw [this, List.getD_eq_getElem _ _ hm.1, List.getElem?_eq_getElem hm.1]

example : splitEncode (1 : ℚ) [3, 1, -2, 0] = ([0, 2], [3, -2]) := by decide +kernel
example : splitDecode 4 (splitEncode (1 : ℚ) [3, 1, -2, 0]) = [3, 0, -2, 0] := by decide +kernel

/-! ## C46 -/

/-- The Euclidean norm. -/
noncomputable def Spec.norm2 (x : List ℝ) : ℝ := Real.sqrt ((x.map fun v => v ^ 2).sum)

theorem Aux.sum_sq_nonneg (x : List ℝ) : 0 ≤ (x.map fun v => v ^ 2).sum := by
  apply List.sum_nonneg
  intro v hv
  obtain ⟨w, -, rfl⟩ := List.mem_map.1 hv
  positivity

theorem Aux.norm2_smul (k : ℝ) (hk : 0 ≤ k) (x : List ℝ) :
    Spec.norm2 (x.map fun v => k * v) = k * Spec.norm2 x := by
  unfold Spec.norm2
  have : ((x.map fun v => k * v).map fun v => v ^ 2).sum = k ^ 2 * (x.map fun v => v ^ 2).sum := by
    rw [List.map_map, ← List.sum_map_mul_left]
    congr 1
    apply List.map_congr_left
    intro v _
    simp [mul_pow]
  rw [this, Real.sqrt_mul (by positivity), Real.sqrt_sq hk]

/-- C46: for a positive bound, clip-by-norm multiplies the input by one factor between 0 and 1, which
is 1 when the norm of the input is within the bound; the result's norm is within the bound (and equal
to it when clipping happens). -/
theorem C46_clip_by_norm (c : ℝ) (hc : 0 < c) (x : List ℝ) :
    Spec.norm2 (clipByNorm c x) ≤ c ∧
      (Spec.norm2 x ≤ c → clipByNorm c x = x) ∧
      (c ≤ Spec.norm2 x → Spec.norm2 (clipByNorm c x) = c) ∧
      ∃ k : ℝ, 0 < k ∧ k ≤ 1 ∧ clipByNorm c x = x.map fun v => k * v := by
  have hn : Real.sqrt ((x.map fun v => v * v).sum) = Spec.norm2 x := by
    unfold Spec.norm2; congr 3; funext v; ring
  have h0 : 0 ≤ Spec.norm2 x := Real.sqrt_nonneg _
  have hpos : 0 < max (Spec.norm2 x) c := lt_max_of_lt_right hc
  have hk : clipByNorm c x = x.map fun v => (c / max (Spec.norm2 x) c) * v := by
    simp only [clipByNorm, hn]
    apply List.map_congr_left
    intro v _; ring
  have hk0 : 0 < c / max (Spec.norm2 x) c := div_pos hc hpos
  have hnorm := Aux.norm2_smul _ hk0.le x
  refine ⟨?_, ?_, ?_, _, hk0, (div_le_one hpos).2 (le_max_right _ _), hk⟩
  · rw [hk, hnorm, div_mul_eq_mul_div, div_le_iff₀ hpos]
    exact mul_le_mul_of_nonneg_left (le_max_left _ _) hc.le
  · intro h
    rw [hk, max_eq_right h, div_self hc.ne']
    simp
  · intro h
    rw [hk, hnorm, max_eq_left h, div_mul_cancel₀ _ (by linarith : Spec.norm2 x ≠ 0)]

/-- C46: clip-by-value gives, entry by entry, a point of the interval, and no point of the interval
is nearer to the input entry. -/
theorem C46_clip_by_value (lo hi : α) (h : lo ≤ hi) (x : List α) :
    (clipValues lo hi x).length = x.length ∧
      ∀ i (hi₁ : i < (clipValues lo hi x).length) (hi₂ : i < x.length),
        (lo ≤ (clipValues lo hi x)[i] ∧ (clipValues lo hi x)[i] ≤ hi) ∧
          ∀ y, lo ≤ y → y ≤ hi → |(clipValues lo hi x)[i] - x[i]| ≤ |y - x[i]| := by
  refine ⟨by simp [clipValues], ?_⟩
  intro i h1 h2
  simp only [clipValues, List.getElem_map]
  generalize x[i] = v
  refine ⟨⟨le_max_right _ _, max_le (min_le_right _ _) h⟩, ?_⟩
  intro y hy1 hy2
  unfold clipByValue
  rcases le_total v hi with hv | hv
  · rw [min_eq_left hv]
    rcases le_total v lo with hw | hw
    · rw [max_eq_right hw, abs_of_nonneg (by linarith), abs_of_nonneg (by linarith)]; linarith
    · rw [max_eq_left hw]; simp
  · rw [min_eq_right hv, max_eq_left h, abs_of_nonpos (by linarith), abs_of_nonpos (by linarith)]; linarith

/-- C46: entries already in the interval are unchanged. -/
theorem C46_clip_by_value_fixed (lo hi : α) (x : List α) (hx : ∀ v ∈ x, lo ≤ v ∧ v ≤ hi) :
    clipValues lo hi x = x := by
  unfold clipValues
  conv_rhs => rw [← List.map_id x]
  apply List.map_congr_left
  intro v hv
  simp [clipByValue, min_eq_left (hx v hv).2, max_eq_left (hx v hv).1]

example : clipByNorm 5 [6, 8] = [3, 4] := by
  have : Real.sqrt 100 = 10 := by
    rw [show (100 : ℝ) = 10 ^ 2 by norm_num]; exact Real.sqrt_sq (by norm_num)
  have h2 : (6 * 6 + 8 * 8 : ℝ) = 100 := by norm_num
  have h3 : max (10 : ℝ) 5 = 10 := by norm_num
  simp [clipByNorm, h2, this]
  norm_num
example : clipValues (-1 : ℚ) 2 [-3, 1 / 2, 7] = [-1, 1 / 2, 2] := by decide +kernel

/-! ## C47 -/

theorem Aux.cmwcLoop_shape (numIters num : ℕ) (bits : Fin 53) (lanes : List CmwcLane) :
    (cmwcLoop numIters num bits lanes).length = numIters - num ∧
      ∀ row ∈ cmwcLoop numIters num bits lanes, row.length = lanes.length := by
  induction num, bits, lanes using cmwcLoop.induct (numIters := numIters) with
  | case1 num bits lanes h lanes' hb ih =>
    rw [cmwcLoop, if_pos h]
    simp only [dif_pos hb]
    refine ⟨?_, ?_⟩
    · rw [List.length_cons, ih.1]; omega
    · intro row hr
      rcases List.mem_cons.1 hr with rfl | hr
      · simp [cmwcAdvanceAll]
      · rw [ih.2 row hr]; simp [lanes', cmwcAdvanceAll, cmwcConsumeAll]
  | case2 num bits lanes h lanes' hb ih =>
    rw [cmwcLoop, if_pos h]
    simp only [dif_neg hb]
    refine ⟨ih.1, ?_⟩
    intro row hr
    rw [ih.2 row hr]; simp [lanes', cmwcAdvanceAll, cmwcConsumeAll]
  | case3 num bits lanes h =>
    rw [cmwcLoop, if_neg h]
    exact ⟨by simp; omega, by simp⟩

/-- A multiple of `2^-53` in `[0, 1)`. -/
def Spec.IsUnitDyadic (v : ℚ) : Prop := ∃ k : ℕ, k < 2 ^ 53 ∧ v = k / 2 ^ 53

theorem Aux.value_dyadic (l : CmwcLane) : Spec.IsUnitDyadic l.value := by
  refine ⟨(l.f &&& (9007199254740991#64)).toNat, ?_, rfl⟩
  rw [BitVec.toNat_and]
  calc _ ≤ (9007199254740991#64).toNat := Nat.and_le_right
    _ < 2 ^ 53 := by decide

theorem Aux.cmwcLoop_values (numIters num : ℕ) (bits : Fin 53) (lanes : List CmwcLane) :
    ∀ row ∈ cmwcLoop numIters num bits lanes, ∀ v ∈ row, Spec.IsUnitDyadic v := by
  induction num, bits, lanes using cmwcLoop.induct (numIters := numIters) with
  | case1 num bits lanes h lanes' hb ih =>
    rw [cmwcLoop, if_pos h]
    simp only [dif_pos hb]
    intro row hr v hv
    rcases List.mem_cons.1 hr with rfl | hr
    · obtain ⟨l, -, rfl⟩ := List.mem_map.1 hv
      exact Aux.value_dyadic l
    · exact ih row hr v hv
  | case2 num bits lanes h lanes' hb ih =>
    rw [cmwcLoop, if_pos h]
    simp only [dif_neg hb]
    exact ih
  | case3 num bits lanes h =>
    rw [cmwcLoop, if_neg h]; simp

theorem Aux.seeds_length (n : ℕ) (s : BitVec 64) : (cmwcSeeds n s).length = n := by
  induction n generalizing s with
  | zero => rfl
  | succ n ih => simp [cmwcSeeds, ih]

theorem Aux.flatten_length {γ : Type*} (ll : List (List γ)) (k : ℕ) (h : ∀ l ∈ ll, l.length = k) :
    ll.flatten.length = ll.length * k := by
  induction ll with
  | nil => simp
  | cons l ll ih =>
    rw [List.flatten_cons, List.length_append, ih fun l' hl' => h l' (List.mem_cons_of_mem _ hl'),
      h l List.mem_cons_self, List.length_cons]
    ring

/-- The number of parallel sequences is the least `p` with `n ≤ (10 p)²`, i.e. `⌈√n / 10⌉`. -/
theorem C47_parallelism (n p : ℕ) (hn : 0 < n) : cmwcParallelism n ≤ p ↔ n ≤ (10 * p) ^ 2 := by
  unfold cmwcParallelism
  rw [Nat.add_one_le_iff, Nat.div_lt_iff_lt_mul (by norm_num), Nat.sqrt_lt', mul_comm p 10]
  omega

/-- C47: for a positive number of elements exactly that many values are produced, whatever the seed,
each a multiple of `2^-53` in `[0, 1)`; other requests are rejected.  (The loop is accepted as a
terminating function, and the result is a function of number and seed.) -/
theorem C47_cmwc (numElements : ℤ) (seed : BitVec 64) :
    (numElements ≤ 0 → cmwcRandomSequence numElements seed = none) ∧
      (0 < numElements → ∃ values, cmwcRandomSequence numElements seed = some values ∧
        (values.length : ℤ) = numElements ∧ ∀ v ∈ values, Spec.IsUnitDyadic v) := by
  refine ⟨fun h => by simp [cmwcRandomSequence, h], fun h => ?_⟩
  unfold cmwcRandomSequence
  rw [if_neg (not_le.2 h)]
  refine ⟨_, rfl, ?_, ?_⟩
  · set n := numElements.toNat with hn
    have hnn : (n : ℤ) = numElements := Int.toNat_of_nonneg h.le
    rw [List.length_take, ← hnn, Nat.cast_inj, min_eq_left]
    have hs := Aux.cmwcLoop_shape (cmwcNumIters n) 0 ⟨0, by norm_num⟩
      ((cmwcSeeds (cmwcParallelism n) seed).map fun s => ⟨0, s, s⟩)
    rw [Aux.flatten_length _ _ hs.2, hs.1, List.length_map, Aux.seeds_length]
    have hp : 0 < cmwcParallelism n := Nat.succ_pos _
    unfold cmwcNumIters
    have := Nat.lt_div_mul_add (a := n) hp
    rw [Nat.sub_zero, add_mul, one_mul]
    omega
  · intro v hv
    have := List.mem_of_mem_take hv
    obtain ⟨row, hr, hv⟩ := List.mem_flatten.1 this
    exact Aux.cmwcLoop_values _ _ _ _ row hr v hv

/-- C47: values lie in `[0, 1)`. -/
theorem C47_cmwc_range (numElements : ℤ) (seed : BitVec 64) (values : List ℚ)
    (h : cmwcRandomSequence numElements seed = some values) : ∀ v ∈ values, 0 ≤ v ∧ v < 1 := by
  rcases le_or_gt numElements 0 with hn | hn
  · rw [(C47_cmwc numElements seed).1 hn] at h; cases h
  · obtain ⟨vs, e, -, hv⟩ := (C47_cmwc numElements seed).2 hn
    obtain rfl : vs = values := by rw [h] at e; exact (Option.some.inj e).symm
    intro v hm
    obtain ⟨k, hk, rfl⟩ := hv v hm
    refine ⟨by positivity, ?_⟩
    rw [div_lt_one (by positivity)]
    exact_mod_cast hk

/-- C47: the sign generator produces as many values, each `1`, `-1`, or `0` for a draw of exactly
`1/2`. -/
theorem C47_signs (numElements : ℤ) (seed : BitVec 64) (h : 0 < numElements) :
    ∃ values signs, cmwcRandomSequence numElements seed = some values ∧
      randomSignsCmwc numElements seed = some signs ∧ (signs.length : ℤ) = numElements ∧
      ∀ i (h₁ : i < signs.length) (h₂ : i < values.length),
        (values[i] < 1 / 2 → signs[i] = -1) ∧ (1 / 2 < values[i] → signs[i] = 1) ∧
          (values[i] = 1 / 2 → signs[i] = 0) := by
  obtain ⟨vs, e, hl, -⟩ := (C47_cmwc numElements seed).2 h
  refine ⟨vs, _, e, by rw [randomSignsCmwc, e]; rfl, by simpa using hl, ?_⟩
  intro i h1 h2
  simp only [List.getElem_map, sgn]
  refine ⟨fun h => ?_, fun h => ?_, fun h => ?_⟩
  · rw [if_neg (by linarith), if_pos (by linarith)]
  · rw [if_pos (by linarith)]
  · rw [h]; norm_num

end Verif.Props
