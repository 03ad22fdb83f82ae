import Verif.Quant.Ops
import Verif.Props.Uniform
import Mathlib.Data.Int.Interval
import Mathlib.Data.List.GetD

/-!
# Properties C48-C51, C72-C74: quantizers
-/

set_option linter.unusedSectionVars false
namespace Verif.Props
open Verif Verif.Clustering Verif.Encoding Verif.Quant

variable {α : Type*} [Field α] [LinearOrder α] [IsStrictOrderedRing α] [FloorRing α]

/-! ## Specification -/

/-- The range bound that applies to channel `c`. -/
def Spec.rangeAt : RangeVar α → ℕ → α
  | .scalar a, _ => a
  | .vector l, c => l.getD c 0

/-- A tensor with at least one entry whose data fits its shape. -/
def Spec.ProperTensor (t : QTensor α) : Prop := t.data.length = t.shape.prod ∧ t.data ≠ []

/-- The number of steps between the lowest and the highest level. -/
def Spec.numSteps (bits : ℕ) (narrow : Bool) : ℕ := if narrow then 2 ^ bits - 2 else 2 ^ bits - 1

/-- The distance between neighbouring levels of a range. -/
def Spec.fqStep (bits : ℕ) (narrow : Bool) (lo hi : α) : α := (hi - lo) / (Spec.numSteps bits narrow : α)

/-! ## Scalar facts about the kernel -/

theorem Aux.two_pow_ge {bits : ℕ} (hb : 2 ≤ bits) : 4 ≤ 2 ^ bits :=
  calc 4 = 2 ^ 2 := by norm_num
    _ ≤ 2 ^ bits := Nat.pow_le_pow_right (by norm_num) hb

theorem Aux.numSteps_cast {bits : ℕ} (hb : 2 ≤ bits) (narrow : Bool) :
    (quantMax bits : α) - (quantMin narrow : α) = (Spec.numSteps bits narrow : α) := by
  have := Aux.two_pow_ge hb
  cases narrow
  · simp [quantMin, quantMax, Spec.numSteps]
  · simp only [quantMin, quantMax, Spec.numSteps, if_true, Nat.cast_one]
    rw [Nat.cast_sub (by omega), Nat.cast_sub (by omega)]
    push_cast; ring

theorem Aux.numSteps_pos {bits : ℕ} (hb : 2 ≤ bits) (narrow : Bool) : 2 ≤ Spec.numSteps bits narrow := by
  have := Aux.two_pow_ge hb
  unfold Spec.numSteps
  split <;> omega

/-- The kernel in closed form: the zero point is an integer `z` between the integer limits, and the
output is the step times the rounded, clamped quotient. -/
theorem Aux.fakeQuant_form {bits : ℕ} (hb : 2 ≤ bits) (narrow : Bool) {lo hi : α} (h : lo < hi) :
    ∃ a b : ℤ, b - a = Spec.numSteps bits narrow ∧ a ≤ 0 ∧ 0 ≤ b ∧
      (lo ≤ 0 → 0 ≤ hi →
        |(a : α) * Spec.fqStep bits narrow lo hi - lo| ≤ Spec.fqStep bits narrow lo hi / 2 ∧
        |(b : α) * Spec.fqStep bits narrow lo hi - hi| ≤ Spec.fqStep bits narrow lo hi / 2) ∧
      ∀ x, fakeQuant bits narrow lo hi x =
        (⌊max (min (x / Spec.fqStep bits narrow lo hi) b) a + 1 / 2⌋ : α) *
          Spec.fqStep bits narrow lo hi := by
  have hN : (0 : α) < Spec.numSteps bits narrow := by
    have := Aux.numSteps_pos hb narrow
    exact_mod_cast (by omega : 0 < Spec.numSteps bits narrow)
  have hscale : fqScale bits narrow lo hi = Spec.fqStep bits narrow lo hi := by
    unfold fqScale Spec.fqStep; rw [Aux.numSteps_cast hb]
  set s := Spec.fqStep bits narrow lo hi with hs
  have hspos : 0 < s := div_pos (by linarith) hN
  have hdiff : hi - lo = s * Spec.numSteps bits narrow := by
    rw [hs]; unfold Spec.fqStep; rw [div_mul_cancel₀ _ hN.ne']
  have hcast : (quantMax bits : α) = quantMin narrow + Spec.numSteps bits narrow := by
    rw [← Aux.numSteps_cast hb narrow]; ring
  have hcastZ : (quantMax bits : ℤ) = quantMin narrow + Spec.numSteps bits narrow := by
    have := Aux.two_pow_ge hb
    cases narrow
    · simp [quantMin, quantMax, Spec.numSteps]
    · simp only [quantMin, quantMax, Spec.numSteps, if_true]; omega
  -- the zero point
  have hz : ∃ z : ℤ, (z : α) = fqZeroPoint bits narrow lo hi ∧ (quantMin narrow : ℤ) ≤ z ∧
      z ≤ quantMax bits ∧ (lo ≤ 0 → 0 ≤ hi → |(z : α) - (quantMin narrow - lo / s)| ≤ 1 / 2) := by
    unfold fqZeroPoint
    dsimp only
    rw [hscale]
    have hNZ : (0 : ℤ) ≤ Spec.numSteps bits narrow := Int.natCast_nonneg _
    split_ifs with h1 h2
    · refine ⟨quantMin narrow, by simp, le_refl _, by omega, ?_⟩
      intro hlo _
      have : 0 ≤ -lo / s := div_nonneg (by linarith) hspos.le
      rw [neg_div] at this
      linarith
    · refine ⟨quantMax bits, by simp, by omega, le_refl _, ?_⟩
      intro hlo hhi
      exfalso
      have : -lo / s ≤ Spec.numSteps bits narrow := by
        rw [div_le_iff₀ hspos]; nlinarith
      rw [neg_div] at this
      rw [hcast] at h2
      linarith
    · have hf := Int.floor_le ((quantMin narrow : α) - lo / s + 1 / 2)
      have hf' := Int.lt_floor_add_one ((quantMin narrow : α) - lo / s + 1 / 2)
      refine ⟨_, rfl, ?_, ?_, ?_⟩
      · rw [Int.le_floor]
        push_cast
        linarith
      · rw [← Int.lt_add_one_iff, Int.floor_lt]
        push_cast
        linarith
      · intro _ _
        rw [abs_le]
        constructor <;> linarith
  obtain ⟨z, hz, hz1, hz2, hz3⟩ := hz
  refine ⟨quantMin narrow - z, quantMax bits - z, by omega, by omega, by omega, ?_, ?_⟩
  · intro hlo hhi
    have h3 := hz3 hlo hhi
    have e1 : (((quantMin narrow : ℤ) - z : ℤ) : α) * s - lo = -(((z : α) - (quantMin narrow - lo / s)) * s) := by
      push_cast
      field_simp
      ring
    have e2 : (((quantMax bits : ℤ) - z : ℤ) : α) * s - hi = -(((z : α) - (quantMin narrow - lo / s)) * s) := by
      rw [← e1]
      push_cast
      rw [hcast]
      linear_combination -hdiff
    rw [e1, e2, abs_neg, abs_mul, abs_of_pos hspos]
    have : |(z : α) - (quantMin narrow - lo / s)| * s ≤ 1 / 2 * s :=
      mul_le_mul_of_nonneg_right h3 hspos.le
    constructor <;> linarith
  · intro x
    unfold fakeQuant
    rw [if_neg (by rintro ⟨rfl, rfl⟩; exact lt_irrefl _ h)]
    dsimp only
    rw [hscale, ← hz]
    have hqz : (⌊-(((quantMin narrow : α) - z) * s) * (1 / s) + 1 / 2⌋ : ℤ) = z - quantMin narrow := by
      have : -(((quantMin narrow : α) - z) * s) * (1 / s) + 1 / 2 =
          ((z - quantMin narrow : ℤ) : α) + 1 / 2 := by
        push_cast; field_simp; ring
      rw [this, Int.floor_intCast_add]
      have : (⌊(1 / 2 : α)⌋ : ℤ) = 0 := by rw [Int.floor_eq_zero_iff]; constructor <;> norm_num
      rw [this, add_zero]
    rw [hqz]
    congr 3
    push_cast
    have hdiv : max (min x (((quantMax bits : α) - z) * s)) (((quantMin narrow : α) - z) * s) =
        max (min (x / s) ((quantMax bits : α) - z)) ((quantMin narrow : α) - z) * s := by
      rw [max_mul_of_nonneg _ _ hspos.le, min_mul_of_nonneg _ _ hspos.le, div_mul_cancel₀ _ hspos.ne']
    rw [hdiv]
    field_simp
    ring

theorem Aux.floor_half (k : ℤ) : ⌊(k : α) + 1 / 2⌋ = k := by
  rw [Int.floor_intCast_add]
  have : (⌊(1 / 2 : α)⌋ : ℤ) = 0 := by rw [Int.floor_eq_zero_iff]; constructor <;> norm_num
  rw [this, add_zero]

/-- Everything C50 says about one entry. -/
structure Spec.QuantizedWell (bits : ℕ) (narrow : Bool) (lo hi : α) (f : α → α) : Prop where
  /-- at most `2^bits` values (one fewer with narrow range), all multiples of the step -/
  levels : ∃ levels : Finset α, levels.card ≤ Spec.numSteps bits narrow + 1 ∧ (0 : α) ∈ levels ∧
    (∀ y ∈ levels, ∃ k : ℤ, y = k * Spec.fqStep bits narrow lo hi) ∧ ∀ x, f x ∈ levels
  zero : f 0 = 0
  idempotent : ∀ x, f (f x) = f x
  monotone : ∀ x y, x ≤ y → f x ≤ f y
  error : ∀ x, lo ≤ x → x ≤ hi → |f x - x| ≤ Spec.fqStep bits narrow lo hi / 2
  range : ∀ x, lo - Spec.fqStep bits narrow lo hi / 2 ≤ f x ∧ f x ≤ hi + Spec.fqStep bits narrow lo hi / 2

theorem Aux.fakeQuant_well {bits : ℕ} (hb : 2 ≤ bits) (narrow : Bool) {lo hi : α} (hlo : lo ≤ 0)
    (hhi : 0 ≤ hi) : Spec.QuantizedWell bits narrow lo hi (fakeQuant bits narrow lo hi) := by
  have hN : (0 : α) < Spec.numSteps bits narrow := by
    have := Aux.numSteps_pos hb narrow
    exact_mod_cast (by omega : 0 < Spec.numSteps bits narrow)
  rcases eq_or_lt_of_le (le_trans hlo hhi) with heq | hlt
  · obtain rfl : lo = 0 := le_antisymm hlo (heq ▸ hhi)
    obtain rfl : hi = 0 := heq.symm
    have h0 : ∀ x : α, fakeQuant bits narrow 0 0 x = 0 := fun x => by simp [fakeQuant]
    have hs : Spec.fqStep bits narrow (0 : α) 0 = 0 := by simp [Spec.fqStep]
    refine ⟨⟨{0}, by simp, by simp, ?_, by simp [h0]⟩, h0 0, ?_, ?_, ?_, ?_⟩
    · intro y hy; exact ⟨0, by simpa using hy⟩
    · intro x; rw [h0, h0]
    · intro x y _; rw [h0, h0]
    · intro x h1 h2; rw [h0, hs]; have := le_antisymm h2 h1; subst this; simp
    · intro x; rw [h0, hs]; simp
  · obtain ⟨a, b, hab, ha, hb0, hend, hf⟩ := Aux.fakeQuant_form hb narrow hlt
    obtain ⟨e1, e2⟩ := hend hlo hhi
    set s := Spec.fqStep bits narrow lo hi with hs
    have hspos : 0 < s := div_pos (by linarith) hN
    have haα : (a : α) ≤ 0 := by exact_mod_cast ha
    have hbα : (0 : α) ≤ b := by exact_mod_cast hb0
    have hk : ∀ x, a ≤ ⌊max (min (x / s) (b : α)) a + 1 / 2⌋ ∧ ⌊max (min (x / s) (b : α)) a + 1 / 2⌋ ≤ b := by
      intro x
      constructor
      · rw [Int.le_floor]; linarith [le_max_right (min (x / s) (b : α)) a]
      · rw [← Int.lt_add_one_iff, Int.floor_lt]
        push_cast
        have : max (min (x / s) (b : α)) a ≤ b := max_le (min_le_right _ _) (by linarith)
        linarith
    have hfix : ∀ k : ℤ, a ≤ k → k ≤ b → fakeQuant bits narrow lo hi (k * s) = k * s := by
      intro k h1 h2
      rw [hf, mul_div_cancel_right₀ _ hspos.ne', min_eq_left (by exact_mod_cast h2),
        max_eq_left (by exact_mod_cast h1), Aux.floor_half]
    refine ⟨⟨(Finset.Icc a b).image fun k : ℤ => (k : α) * s, ?_, ?_, ?_, ?_⟩, ?_, ?_, ?_, ?_, ?_⟩
    · refine Finset.card_image_le.trans ?_
      rw [Int.card_Icc]
      omega
    · rw [Finset.mem_image]; exact ⟨0, by simp [ha, hb0], by simp⟩
    · intro y hy
      obtain ⟨k, -, rfl⟩ := Finset.mem_image.1 hy
      exact ⟨k, rfl⟩
    · intro x
      rw [hf, Finset.mem_image]
      exact ⟨_, by rw [Finset.mem_Icc]; exact hk x, rfl⟩
    · have := hfix 0 ha hb0
      simpa using this
    · intro x
      conv_lhs => rw [hf x]
      rw [hfix _ (hk x).1 (hk x).2, ← hf]
    · intro x y hxy
      rw [hf, hf]
      apply mul_le_mul_of_nonneg_right _ hspos.le
      have : x / s ≤ y / s := div_le_div_of_nonneg_right hxy hspos.le
      exact_mod_cast Int.floor_mono (by gcongr)
    · intro x h1 h2
      rw [hf]
      set c := max (min (x / s) (b : α)) a with hc
      have hfl := Int.floor_le (c + 1 / 2)
      have hfl' := Int.lt_floor_add_one (c + 1 / 2)
      have hxs : x = x / s * s := (div_mul_cancel₀ _ hspos.ne').symm
      rw [abs_le] at e1 e2
      by_cases hx1 : x / s < a
      · have hca : c = a := by rw [hc]; exact max_eq_right (le_trans (min_le_left _ _) hx1.le)
        rw [hca, Aux.floor_half]
        have : x < a * s := by rw [hxs]; exact mul_lt_mul_of_pos_right hx1 hspos
        rw [abs_le]; constructor <;> linarith
      · by_cases hx2 : (b : α) < x / s
        · have hcb : c = b := by rw [hc, min_eq_right hx2.le]; exact max_eq_left (by linarith)
          rw [hcb, Aux.floor_half]
          have : b * s < x := by rw [hxs]; exact mul_lt_mul_of_pos_right hx2 hspos
          rw [abs_le]; constructor <;> linarith
        · have hcx : c = x / s := by
            rw [hc, min_eq_left (not_lt.1 hx2), max_eq_left (not_lt.1 hx1)]
          rw [hcx] at hfl hfl' ⊢
          rw [hxs]
          rw [mul_div_cancel_right₀ _ hspos.ne', ← sub_mul, abs_mul, abs_of_pos hspos]
          have : |(⌊x / s + 1 / 2⌋ : α) - x / s| ≤ 1 / 2 := by rw [abs_le]; constructor <;> linarith
          have := mul_le_mul_of_nonneg_right this hspos.le
          linarith
    · intro x
      rw [hf]
      have h1 : (a : α) ≤ (⌊max (min (x / s) (b : α)) a + 1 / 2⌋ : α) := by exact_mod_cast (hk x).1
      have h2 : (⌊max (min (x / s) (b : α)) a + 1 / 2⌋ : α) ≤ b := by exact_mod_cast (hk x).2
      have h3 := mul_le_mul_of_nonneg_right h1 hspos.le
      have h4 := mul_le_mul_of_nonneg_right h2 hspos.le
      rw [abs_le] at e1 e2
      constructor <;> linarith

/-! ## Ranges of a batch -/

theorem Aux.ratio_neg {cfg : QCfg} (hb : 2 ≤ cfg.numBits) : (minMaxRatio cfg : α) < 0 := by
  unfold minMaxRatio
  split
  · norm_num
  · have h4 : (4 : α) ≤ 2 ^ cfg.numBits := by exact_mod_cast Aux.two_pow_ge hb
    rw [neg_div, neg_lt_zero]
    exact div_pos (by linarith) (by linarith)

theorem Aux.batchRange_spec {cfg : QCfg} (hb : 2 ≤ cfg.numBits) {m M : α} (h : m ≤ M) :
    (batchRange cfg m M).1 ≤ m ∧ M ≤ (batchRange cfg m M).2 ∧ (batchRange cfg m M).1 ≤ 0 ∧
      0 ≤ (batchRange cfg m M).2 ∧
      (cfg.symmetric = true → (batchRange cfg m M).2 = minMaxRatio cfg * (batchRange cfg m M).1) ∧
      (cfg.symmetric = false → (batchRange cfg m M) = (min m 0, max M 0)) := by
  have hr := Aux.ratio_neg (α := α) hb
  unfold batchRange
  cases hs : cfg.symmetric
  · simp
  · simp only [if_true, min_le_iff, le_max_iff, le_refl, true_or, true_and, Bool.true_eq_false, false_imp_iff,
      and_true, forall_const]
    refine ⟨?_, ?_, ?_⟩
    · rcases le_or_gt m 0 with h0 | h0
      · exact .inl h0
      · exact .inr (div_nonpos_of_nonneg_of_nonpos (by linarith) hr.le)
    · rcases le_or_gt 0 M with h0 | h0
      · exact .inl h0
      · exact .inr (mul_nonneg_of_nonpos_of_nonpos (by linarith) hr.le)
    · rcases le_total m (M / minMaxRatio cfg) with h0 | h0
      · rw [min_eq_left h0, max_eq_right, mul_comm]
        have := (le_div_iff_of_neg hr).1 h0
        linarith
      · rw [min_eq_right h0, max_eq_left, mul_div_cancel₀ _ hr.ne]
        have := (div_le_iff_of_neg hr).1 h0
        linarith

theorem Aux.proper_dim {t : QTensor α} (h : Spec.ProperTensor t) :
    0 < t.dim ∧ ∃ rows, 0 < rows ∧ t.data.length = rows * t.dim := by
  obtain ⟨h1, h2⟩ := h
  have hpos : 0 < t.data.length := List.length_pos_iff.2 h2
  unfold QTensor.dim
  rcases List.eq_nil_or_concat t.shape with hs | ⟨l, d, hs⟩
  · rw [hs] at h1 ⊢
    simp only [List.getLast?_nil, Option.getD_none]
    exact ⟨by norm_num, _, hpos, by simp⟩
  · rw [hs] at h1 ⊢
    simp only [List.concat_eq_append, List.prod_append, List.prod_cons, List.prod_nil, mul_one] at h1
    simp only [List.concat_eq_append, List.getLast?_append, List.getLast?_singleton, Option.some_or,
      Option.getD_some]
    rw [h1] at hpos
    exact ⟨Nat.pos_of_mul_pos_left hpos, l.prod, Nat.pos_of_mul_pos_right hpos, h1⟩

theorem Aux.mem_column {t : QTensor α} (h : Spec.ProperTensor t) {i : ℕ} (hi : i < t.data.length) :
    t.data[i] ∈ column t.dim t.data (i % t.dim) := by
  obtain ⟨hd, rows, hr, hl⟩ := Aux.proper_dim h
  unfold column
  rw [List.mem_map]
  refine ⟨i / t.dim, ?_, ?_⟩
  · rw [List.mem_range, hl, Nat.mul_div_cancel _ hd, Nat.div_lt_iff_lt_mul hd]
    rwa [hl] at hi
  · rw [Nat.div_add_mod' i t.dim, List.getD_eq_getElem _ _ hi]

theorem Aux.column_mem {t : QTensor α} (h : Spec.ProperTensor t) {c : ℕ} (hc : c < t.dim) {v : α}
    (hv : v ∈ column t.dim t.data c) : ∃ i, ∃ hi : i < t.data.length, i % t.dim = c ∧ t.data[i] = v := by
  obtain ⟨hd, rows, hr, hl⟩ := Aux.proper_dim h
  unfold column at hv
  rw [List.mem_map] at hv
  obtain ⟨r, hr', rfl⟩ := hv
  rw [List.mem_range, hl, Nat.mul_div_cancel _ hd] at hr'
  have hi : r * t.dim + c < t.data.length := by
    rw [hl]
    calc r * t.dim + c < r * t.dim + t.dim := by omega
      _ = (r + 1) * t.dim := by ring
      _ ≤ rows * t.dim := Nat.mul_le_mul_right _ hr'
  exact ⟨_, hi, by rw [Nat.add_mod, Nat.mul_mod_left, zero_add, Nat.mod_mod, Nat.mod_eq_of_lt hc], by rw [List.getD_eq_getElem _ _ hi]⟩

theorem Aux.column_ne_nil {t : QTensor α} (h : Spec.ProperTensor t) (c : ℕ) : column t.dim t.data c ≠ [] := by
  obtain ⟨hd, rows, hr, hl⟩ := Aux.proper_dim h
  unfold column
  rw [hl, Nat.mul_div_cancel _ hd]
  intro he
  have := congrArg List.length he
  simp at this
  omega

theorem Aux.min_le_max {l : List α} (h : l ≠ []) : reduceMin l ≤ reduceMax l :=
  (Aux.reduceMin_isMin h).2 _ (Aux.reduceMax_isMax h).1

theorem Aux.getD_map_range {β : Type*} (f : ℕ → β) (n c : ℕ) (d : β) :
    ((List.range n).map f).getD c d = if c < n then f c else d := by
  split
  · rename_i h; rw [List.getD_eq_getElem _ _ (by simpa using h)]; simp
  · rename_i h; rw [List.getD_eq_default _ _ (by simpa using h)]

/-- A training call changes the range of each channel by a scalar rule. -/
theorem Aux.update_spec {k : QKind} {cfg : QCfg} {v v' : RangeVars α} {t : QTensor α}
    (h : k.update cfg v t = some v') (c : ℕ) (hc : c < t.dim) :
    ∃ m M : α, ((Spec.ProperTensor t → m ≤ M ∧ (∀ i (hi : i < t.data.length), i % t.dim = c → m ≤ t.data[i] ∧ t.data[i] ≤ M) ∧
        (∃ i, ∃ hi : i < t.data.length, t.data[i] = m ∧ ((∃ l, v'.lo = .vector l) → i % t.dim = c)) ∧
        (∃ i, ∃ hi : i < t.data.length, t.data[i] = M ∧ ((∃ l, v'.lo = .vector l) → i % t.dim = c))) ∧
      ((∃ a b, v'.lo = .scalar a ∧ v'.hi = .scalar b) → m = reduceMin t.data ∧ M = reduceMax t.data) ∧
      (Spec.rangeAt v'.lo c, Spec.rangeAt v'.hi c) =
        match k with
        | .lastValue => batchRange cfg m M
        | .movingAverage => (ema (Spec.rangeAt v.lo c) (batchRange cfg m M).1,
            ema (Spec.rangeAt v.hi c) (batchRange cfg m M).2)
        | .allValues => allValuesRange cfg (Spec.rangeAt v.lo c) (Spec.rangeAt v.hi c) m M) := by
  have hscalar : Spec.ProperTensor t → reduceMin t.data ≤ reduceMax t.data ∧
      (∀ i (hi : i < t.data.length), i % t.dim = c → reduceMin t.data ≤ t.data[i] ∧ t.data[i] ≤ reduceMax t.data) ∧
      (∃ i, ∃ hi : i < t.data.length, t.data[i] = reduceMin t.data) ∧
      (∃ i, ∃ hi : i < t.data.length, t.data[i] = reduceMax t.data) := by
    intro hp
    refine ⟨Aux.min_le_max hp.2, fun i hi _ => ⟨(Aux.reduceMin_isMin hp.2).2 _ (List.getElem_mem hi),
      (Aux.reduceMax_isMax hp.2).2 _ (List.getElem_mem hi)⟩, ?_, ?_⟩
    · exact List.mem_iff_getElem.1 (Aux.reduceMin_isMin hp.2).1
    · exact List.mem_iff_getElem.1 (Aux.reduceMax_isMax hp.2).1
  have hvector : Spec.ProperTensor t → channelMin t c ≤ channelMax t c ∧
      (∀ i (hi : i < t.data.length), i % t.dim = c → channelMin t c ≤ t.data[i] ∧ t.data[i] ≤ channelMax t c) ∧
      (∃ i, ∃ hi : i < t.data.length, t.data[i] = channelMin t c ∧ i % t.dim = c) ∧
      (∃ i, ∃ hi : i < t.data.length, t.data[i] = channelMax t c ∧ i % t.dim = c) := by
    intro hp
    have hne := Aux.column_ne_nil hp c
    refine ⟨Aux.min_le_max hne, ?_, ?_, ?_⟩
    · rintro i hi rfl
      exact ⟨(Aux.reduceMin_isMin hne).2 _ (Aux.mem_column hp hi), (Aux.reduceMax_isMax hne).2 _ (Aux.mem_column hp hi)⟩
    · obtain ⟨i, hi, h1, h2⟩ := Aux.column_mem hp hc (Aux.reduceMin_isMin hne).1
      exact ⟨i, hi, h2, h1⟩
    · obtain ⟨i, hi, h1, h2⟩ := Aux.column_mem hp hc (Aux.reduceMax_isMax hne).1
      exact ⟨i, hi, h2, h1⟩
  unfold QKind.update at h
  cases k with
  | allValues =>
    simp only at h
    split at h
    · rename_i lo hi hlo hhi
      cases h
      refine ⟨reduceMin t.data, reduceMax t.data, ?_, fun _ => ⟨rfl, rfl⟩, ?_⟩
      · intro hp
        obtain ⟨h1, h2, ⟨i, hi, e⟩, j, hj, e'⟩ := hscalar hp
        exact ⟨h1, h2, ⟨i, hi, e, by simp⟩, ⟨j, hj, e', by simp⟩⟩
      · simp only [hlo, hhi, Spec.rangeAt]
    · cases h
  | lastValue =>
    simp only at h
    split at h
    · split at h
      · split at h
        · rename_i lo hi hlo hhi
          split at h
          · cases h
            refine ⟨channelMin t c, channelMax t c, ?_, ?_, ?_⟩
            · intro hp
              obtain ⟨h1, h2, ⟨i, hi, e, e1⟩, j, hj, e', e1'⟩ := hvector hp
              exact ⟨h1, h2, ⟨i, hi, e, fun _ => e1⟩, ⟨j, hj, e', fun _ => e1'⟩⟩
            · rintro ⟨a, b, h1, -⟩; cases h1
            · simp only [Spec.rangeAt, Aux.getD_map_range, hc, if_true]
          · cases h
        · cases h
      · cases h
    · split at h
      · rename_i lo hi hlo hhi
        cases h
        refine ⟨reduceMin t.data, reduceMax t.data, ?_, fun _ => ⟨rfl, rfl⟩, ?_⟩
        · intro hp
          obtain ⟨h1, h2, ⟨i, hi, e⟩, j, hj, e'⟩ := hscalar hp
          exact ⟨h1, h2, ⟨i, hi, e, by simp⟩, ⟨j, hj, e', by simp⟩⟩
        · simp only [Spec.rangeAt]
      · cases h
  | movingAverage =>
    simp only at h
    split at h
    · split at h
      · split at h
        · rename_i lo hi hlo hhi
          split at h
          · cases h
            refine ⟨channelMin t c, channelMax t c, ?_, ?_, ?_⟩
            · intro hp
              obtain ⟨h1, h2, ⟨i, hi, e, e1⟩, j, hj, e', e1'⟩ := hvector hp
              exact ⟨h1, h2, ⟨i, hi, e, fun _ => e1⟩, ⟨j, hj, e', fun _ => e1'⟩⟩
            · rintro ⟨a, b, h1, -⟩; cases h1
            · simp only [hlo, hhi, Spec.rangeAt, Aux.getD_map_range, hc, if_true]
          · cases h
        · cases h
      · cases h
    · split at h
      · rename_i lo hi hlo hhi
        cases h
        refine ⟨reduceMin t.data, reduceMax t.data, ?_, fun _ => ⟨rfl, rfl⟩, ?_⟩
        · intro hp
          obtain ⟨h1, h2, ⟨i, hi, e⟩, j, hj, e'⟩ := hscalar hp
          exact ⟨h1, h2, ⟨i, hi, e, by simp⟩, ⟨j, hj, e', by simp⟩⟩
        · simp only [hlo, hhi, Spec.rangeAt]
      · cases h

theorem Aux.update_far {k : QKind} {cfg : QCfg} {v v' : RangeVars α} {t : QTensor α}
    (h : k.update cfg v t = some v') :
    (∃ a b, v'.lo = .scalar a ∧ v'.hi = .scalar b) ∨
      ∃ l l', v'.lo = .vector l ∧ v'.hi = .vector l' ∧ l.length = t.dim ∧ l'.length = t.dim := by
  unfold QKind.update at h
  cases k <;> simp only at h
  · split at h
    · split at h
      · split at h
        · split at h
          · cases h; exact .inr ⟨_, _, rfl, rfl, by simp, by simp⟩
          · cases h
        · cases h
      · cases h
    · split at h
      · cases h; exact .inl ⟨_, _, rfl, rfl⟩
      · cases h
  · split at h
    · split at h
      · split at h
        · split at h
          · cases h; exact .inr ⟨_, _, rfl, rfl, by simp, by simp⟩
          · cases h
        · cases h
      · cases h
    · split at h
      · cases h; exact .inl ⟨_, _, rfl, rfl⟩
      · cases h
  · split at h
    · cases h; exact .inl ⟨_, _, rfl, rfl⟩
    · cases h

/-- Reduce a claim about all channels to the channels of the tensor. -/
theorem Aux.update_all {k : QKind} {cfg : QCfg} {v v' : RangeVars α} {t : QTensor α}
    (h : k.update cfg v t = some v') (hp : Spec.ProperTensor t) (Q : α → α → Prop) (h0 : Q 0 0)
    (hQ : ∀ c < t.dim, Q (Spec.rangeAt v'.lo c) (Spec.rangeAt v'.hi c)) (c : ℕ) :
    Q (Spec.rangeAt v'.lo c) (Spec.rangeAt v'.hi c) := by
  rcases Aux.update_far h with ⟨a, b, h1, h2⟩ | ⟨l, l', h1, h2, h3, h4⟩
  · have := hQ 0 (Aux.proper_dim hp).1
    rw [h1, h2] at this ⊢
    exact this
  · by_cases hc : c < t.dim
    · exact hQ c hc
    · rw [h1, h2]
      simp only [Spec.rangeAt]
      rw [List.getD_eq_default _ _ (by omega), List.getD_eq_default _ _ (by omega)]
      exact h0

theorem Aux.call_vars {k : QKind} {cfg : QCfg} {v v' : RangeVars α} {tr : Bool} {t o : QTensor α}
    (h : k.call cfg v tr t = some (o, v')) :
    (tr = false → v' = v) ∧ (tr = true → k.update cfg v t = some v') ∧
      fakeQuantVars cfg (cfg.perAxis && (k != .allValues)) v' t = some o := by
  unfold QKind.call at h
  cases tr
  · simp only [Bool.false_eq_true, if_false, Option.map_eq_some_iff] at h
    obtain ⟨o', h1, h2⟩ := h
    cases h2
    exact ⟨fun _ => rfl, by simp, h1⟩
  · simp only [if_true, Option.bind_eq_some_iff, Option.map_eq_some_iff] at h
    obtain ⟨w, h1, o', h2, h3⟩ := h
    cases h3
    exact ⟨by simp, fun _ => h1, h2⟩

/-- Invariants of a history of calls. -/
theorem Aux.run_invariant {k : QKind} {cfg : QCfg} (P : RangeVars α → Prop)
    (hP : ∀ v v' t, P v → Spec.ProperTensor t → k.update cfg v t = some v' → P v') :
    ∀ (hist : List (Bool × QTensor α)) (v v' : RangeVars α) (outs : List (QTensor α)),
      (∀ e ∈ hist, Spec.ProperTensor e.2) → P v → k.run cfg v hist = some (outs, v') → P v'
  | [], v, v', outs, _, h0, h => by
    simp only [QKind.run, Option.some.injEq, Prod.mk.injEq] at h
    rw [← h.2]; exact h0
  | (tr, t) :: hist, v, v', outs, hp, h0, h => by
    simp only [QKind.run, Option.bind_eq_some_iff, Option.map_eq_some_iff] at h
    obtain ⟨⟨o, w⟩, h1, ⟨outs', w'⟩, h2, h3⟩ := h
    cases h3
    obtain ⟨hf, ht, -⟩ := Aux.call_vars h1
    refine Aux.run_invariant P hP hist w _ _ (fun e he => hp e (List.mem_cons_of_mem _ he)) ?_ h2
    cases tr
    · rw [hf rfl]; exact h0
    · exact hP v w t h0 (hp _ List.mem_cons_self) (ht rfl)

theorem Aux.qrun_append {k : QKind} {cfg : QCfg} : ∀ (h₁ h₂ : List (Bool × QTensor α)) (v v' : RangeVars α)
    (outs : List (QTensor α)), k.run cfg v (h₁ ++ h₂) = some (outs, v') →
      ∃ o₁ w o₂, k.run cfg v h₁ = some (o₁, w) ∧ k.run cfg w h₂ = some (o₂, v') ∧ outs = o₁ ++ o₂
  | [], h₂, v, v', outs, h => ⟨[], v, outs, rfl, h, rfl⟩
  | (tr, t) :: h₁, h₂, v, v', outs, h => by
    simp only [List.cons_append, QKind.run, Option.bind_eq_some_iff, Option.map_eq_some_iff] at h
    obtain ⟨⟨o, w⟩, h1, ⟨outs', w'⟩, h2, h3⟩ := h
    cases h3
    obtain ⟨o₁, x, o₂, e1, e2, e3⟩ := Aux.qrun_append h₁ h₂ w _ _ h2
    exact ⟨o :: o₁, x, o₂, by simp [QKind.run, h1, e1], e2, by simp [e3]⟩

theorem Aux.ema_eq (v w : α) : ema v w = 999 / 1000 * v + 1 / 1000 * w := by
  unfold ema emaDecay; ring

theorem Aux.build_zero (k : QKind) (cfg : QCfg) (shape : Option (List ℕ)) (c : ℕ) :
    (Spec.rangeAt (k.build (α := α) cfg shape).lo c, Spec.rangeAt (k.build (α := α) cfg shape).hi c) ∈
      ({(-6, 6), (0, 0)} : Set (α × α)) := by
  have key : ∀ b, (Spec.rangeAt (addRangeWeights (α := α) b shape).lo c,
      Spec.rangeAt (addRangeWeights (α := α) b shape).hi c) ∈ ({(-6, 6), (0, 0)} : Set (α × α)) := by
    intro b
    unfold addRangeWeights
    split
    · simp only [Spec.rangeAt, List.getD_eq_getElem?_getD, List.getElem?_replicate]
      split_ifs <;> simp
    · simp [Spec.rangeAt]
  cases k
  · exact key _
  · simp [QKind.build, addRangeWeights, Spec.rangeAt]
  · simp [QKind.build, Spec.rangeAt]

/-! ## C48 -/

theorem Aux.allValues_spec {cfg : QCfg} (hb : 2 ≤ cfg.numBits) {lo hi m M : α} (h : m ≤ M) :
    (allValuesRange cfg lo hi m M).1 ≤ m ∧ M ≤ (allValuesRange cfg lo hi m M).2 ∧
      (allValuesRange cfg lo hi m M).1 ≤ lo ∧ hi ≤ (allValuesRange cfg lo hi m M).2 ∧
      (allValuesRange cfg lo hi m M).1 ≤ 0 ∧ 0 ≤ (allValuesRange cfg lo hi m M).2 ∧
      (cfg.symmetric = true → hi = minMaxRatio cfg * lo →
        (allValuesRange cfg lo hi m M).2 = minMaxRatio cfg * (allValuesRange cfg lo hi m M).1) ∧
      (cfg.symmetric = false → allValuesRange cfg lo hi m M = (min (min lo m) 0, max (max hi M) 0)) := by
  have hr := Aux.ratio_neg (α := α) hb
  unfold allValuesRange
  cases hs : cfg.symmetric
  · simp only [Bool.false_eq_true, if_false, false_imp_iff, true_and, forall_const, and_true]
    refine ⟨?_, ?_, ?_, ?_, min_le_right _ _, le_max_right _ _⟩
    · exact (min_le_left _ _).trans (min_le_right _ _)
    · exact (le_max_right _ _).trans (le_max_left _ _)
    · exact (min_le_left _ _).trans (min_le_left _ _)
    · exact (le_max_left _ _).trans (le_max_left _ _)
  · simp only [if_true, Bool.true_eq_false, false_imp_iff, and_true, forall_const]
    refine ⟨?_, ?_, ?_, ?_, min_le_right _ _, le_max_right _ _, ?_⟩
    · exact (min_le_left _ _).trans ((min_le_right _ _).trans (min_le_left _ _))
    · exact (le_max_left _ _).trans ((le_max_right _ _).trans (le_max_left _ _))
    · exact (min_le_left _ _).trans (min_le_left _ _)
    · exact (le_max_left _ _).trans (le_max_left _ _)
    · intro hhi
      set r : α := minMaxRatio cfg
      have hmul : ∀ a b : α, r * min a b = max (r * a) (r * b) := by
        intro a b
        rcases le_total a b with h | h
        · rw [min_eq_left h, max_eq_left (mul_le_mul_of_nonpos_left h hr.le)]
        · rw [min_eq_right h, max_eq_right (mul_le_mul_of_nonpos_left h hr.le)]
      rw [hmul, hmul, mul_zero, hhi]
      congr 2
      rw [mul_comm]
      rw [max_eq_right]
      rw [hmul, mul_div_cancel₀ _ hr.ne]
      exact le_max_right _ _

/-- C48: after any history of training and inference calls, for every channel the range contains
zero. -/
theorem C48_contains_zero (k : QKind) (cfg : QCfg) (hb : 2 ≤ cfg.numBits) (shape : Option (List ℕ))
    (hist : List (Bool × QTensor α)) (hp : ∀ e ∈ hist, Spec.ProperTensor e.2) (outs : List (QTensor α))
    (v : RangeVars α) (h : k.run cfg (k.build cfg shape) hist = some (outs, v)) (c : ℕ) :
    Spec.rangeAt v.lo c ≤ 0 ∧ 0 ≤ Spec.rangeAt v.hi c := by
  refine Aux.run_invariant (fun v => ∀ c, Spec.rangeAt v.lo c ≤ 0 ∧ 0 ≤ Spec.rangeAt v.hi c) ?_ hist _ v outs hp ?_ h c
  · intro v v' t hv hpt hu
    refine Aux.update_all hu hpt (fun a b => a ≤ 0 ∧ 0 ≤ b) (by simp) ?_
    intro c hc
    obtain ⟨m, M, h1, -, h2⟩ := Aux.update_spec hu c hc
    obtain ⟨hm, -⟩ := h1 hpt
    cases k with
    | lastValue =>
      obtain ⟨-, -, g1, g2, -⟩ := Aux.batchRange_spec hb hm
      simp only [Prod.ext_iff] at h2
      rw [h2.1, h2.2]; exact ⟨g1, g2⟩
    | movingAverage =>
      obtain ⟨-, -, g1, g2, -⟩ := Aux.batchRange_spec hb hm
      obtain ⟨a1, a2⟩ := hv c
      simp only [Prod.ext_iff, Aux.ema_eq] at h2
      rw [h2.1, h2.2]; constructor <;> linarith
    | allValues =>
      have := Aux.allValues_spec hb (lo := Spec.rangeAt v.lo c) (hi := Spec.rangeAt v.hi c) hm
      simp only [Prod.ext_iff] at h2
      rw [h2.1, h2.2]; exact ⟨this.2.2.2.2.1, this.2.2.2.2.2.1⟩
  · intro c
    rcases Aux.build_zero (α := α) k cfg shape c with h | h <;> simp only [Prod.mk.injEq, Set.mem_singleton_iff] at h
    · rw [h.1, h.2]; norm_num
    · rw [h.1, h.2]; simp

/-- C48: symmetric quantization with narrow range keeps, after any history, exactly symmetric
ranges. -/
theorem C48_symmetric_narrow (k : QKind) (cfg : QCfg) (hb : 2 ≤ cfg.numBits) (hs : cfg.symmetric = true)
    (hn : cfg.narrow = true) (shape : Option (List ℕ)) (hist : List (Bool × QTensor α))
    (hp : ∀ e ∈ hist, Spec.ProperTensor e.2) (outs : List (QTensor α)) (v : RangeVars α)
    (h : k.run cfg (k.build cfg shape) hist = some (outs, v)) (c : ℕ) :
    Spec.rangeAt v.hi c = -Spec.rangeAt v.lo c := by
  have hr : (minMaxRatio cfg : α) = -1 := by simp [minMaxRatio, hn]
  refine Aux.run_invariant (fun v => ∀ c, Spec.rangeAt v.hi c = -Spec.rangeAt v.lo c) ?_ hist _ v outs hp ?_ h c
  · intro v v' t hv hpt hu
    refine Aux.update_all hu hpt (fun a b => b = -a) (by simp) ?_
    intro c hc
    obtain ⟨m, M, h1, -, h2⟩ := Aux.update_spec hu c hc
    obtain ⟨hm, -⟩ := h1 hpt
    cases k with
    | lastValue =>
      obtain ⟨-, -, -, -, g, -⟩ := Aux.batchRange_spec hb hm
      simp only [Prod.ext_iff] at h2
      rw [h2.1, h2.2, g hs, hr]; ring
    | movingAverage =>
      obtain ⟨-, -, -, -, g, -⟩ := Aux.batchRange_spec hb hm
      simp only [Prod.ext_iff, Aux.ema_eq] at h2
      rw [h2.1, h2.2, g hs, hr, hv c]; ring
    | allValues =>
      have := Aux.allValues_spec hb (lo := Spec.rangeAt v.lo c) (hi := Spec.rangeAt v.hi c) hm
      simp only [Prod.ext_iff] at h2
      rw [h2.1, h2.2, this.2.2.2.2.2.2.1 hs (by rw [hr, hv c]; ring), hr]; ring
  · intro c
    rcases Aux.build_zero (α := α) k cfg shape c with h | h <;> simp only [Prod.mk.injEq, Set.mem_singleton_iff] at h
    · rw [h.1, h.2]; norm_num
    · rw [h.1, h.2]; simp

/-- C48: symmetric quantization without narrow range uses the proportions of two's complement,
`max : -min = (2^b - 2) : 2^b`, for AllValues after any history and for LastValue after any history
with a training call. -/
theorem C48_symmetric_wide (k : QKind) (hk : k ≠ .movingAverage) (cfg : QCfg) (hb : 2 ≤ cfg.numBits)
    (hs : cfg.symmetric = true) (hn : cfg.narrow = false) (shape : Option (List ℕ))
    (hist : List (Bool × QTensor α)) (hp : ∀ e ∈ hist, Spec.ProperTensor e.2)
    (htr : k = .lastValue → ∃ e ∈ hist, e.1 = true) (outs : List (QTensor α)) (v : RangeVars α)
    (h : k.run cfg (k.build cfg shape) hist = some (outs, v)) (c : ℕ) :
    Spec.rangeAt v.hi c * 2 ^ cfg.numBits = -(Spec.rangeAt v.lo c * (2 ^ cfg.numBits - 2)) := by
  have hr : (minMaxRatio cfg : α) * 2 ^ cfg.numBits = -((2 : α) ^ cfg.numBits - 2) := by
    have : (2 : α) ^ cfg.numBits ≠ 0 := by positivity
    simp only [minMaxRatio, hn, Bool.false_eq_true, if_false]
    rw [div_mul_cancel₀ _ this]
  suffices hsuf : ∀ c, Spec.rangeAt v.hi c = minMaxRatio cfg * Spec.rangeAt v.lo c by
    rw [hsuf c]; linear_combination (Spec.rangeAt v.lo c) * hr
  have hstep : ∀ (v v' : RangeVars α) (t : QTensor α), (k = .allValues → ∀ c, Spec.rangeAt v.hi c = minMaxRatio cfg * Spec.rangeAt v.lo c) →
      Spec.ProperTensor t → k.update cfg v t = some v' →
      ∀ c, Spec.rangeAt v'.hi c = minMaxRatio cfg * Spec.rangeAt v'.lo c := by
    intro v v' t hv hpt hu
    refine Aux.update_all hu hpt (fun a b => b = minMaxRatio cfg * a) (by simp) ?_
    intro c hc
    obtain ⟨m, M, h1, -, h2⟩ := Aux.update_spec hu c hc
    obtain ⟨hm, -⟩ := h1 hpt
    cases k with
    | lastValue =>
      obtain ⟨-, -, -, -, g, -⟩ := Aux.batchRange_spec hb hm
      simp only [Prod.ext_iff] at h2
      rw [h2.1, h2.2, g hs]
    | movingAverage => exact absurd rfl hk
    | allValues =>
      have := Aux.allValues_spec hb (lo := Spec.rangeAt v.lo c) (hi := Spec.rangeAt v.hi c) hm
      simp only [Prod.ext_iff] at h2
      rw [h2.1, h2.2, this.2.2.2.2.2.2.1 hs (hv rfl c)]
  cases k with
  | movingAverage => exact absurd rfl hk
  | allValues =>
    refine Aux.run_invariant (fun v => ∀ c, Spec.rangeAt v.hi c = minMaxRatio cfg * Spec.rangeAt v.lo c) ?_ hist _ v outs hp ?_ h
    · intro v v' t hv; exact hstep v v' t fun _ => hv
    · intro c; simp [QKind.build, Spec.rangeAt]
  | lastValue =>
    obtain ⟨e, he, het⟩ := htr rfl
    obtain ⟨h₁, h₂, rfl⟩ := List.append_of_mem he
    obtain ⟨o₁, w, o₂, -, hrun, -⟩ := Aux.qrun_append h₁ (e :: h₂) _ _ _ h
    obtain ⟨tr, t⟩ := e
    cases het
    simp only [QKind.run, Option.bind_eq_some_iff, Option.map_eq_some_iff] at hrun
    obtain ⟨⟨o, w'⟩, g1, ⟨outs', w''⟩, g2, g3⟩ := hrun
    cases g3
    refine Aux.run_invariant (fun v => ∀ c, Spec.rangeAt v.hi c = minMaxRatio cfg * Spec.rangeAt v.lo c) ?_ h₂ _ _ _
      (fun e he => hp e (by simp [he])) ?_ g2
    · intro v v' t _; exact hstep v v' t (by simp)
    · exact hstep w w' t (by simp) (hp (true, t) (by simp)) ((Aux.call_vars g1).2.1 rfl)

/-! ## C49 -/

/-- C49: inference never changes the variables, for all three quantizers. -/
theorem C49_inference_pure (k : QKind) (cfg : QCfg) (v v' : RangeVars α) (t o : QTensor α)
    (h : k.call cfg v false t = some (o, v')) : v' = v := (Aux.call_vars h).1 rfl

/-- C49: the AllValues range never shrinks, from any point of a history to any later one. -/
theorem C49_all_values_grows (cfg : QCfg) (hb : 2 ≤ cfg.numBits) (v : RangeVars α)
    (later : List (Bool × QTensor α)) (hp : ∀ e ∈ later, Spec.ProperTensor e.2) (outs : List (QTensor α))
    (v' : RangeVars α) (h : QKind.allValues.run cfg v later = some (outs, v')) (c : ℕ) :
    Spec.rangeAt v'.lo c ≤ Spec.rangeAt v.lo c ∧ Spec.rangeAt v.hi c ≤ Spec.rangeAt v'.hi c := by
  rcases later with _ | ⟨e, later⟩
  · simp only [QKind.run, Option.some.injEq, Prod.mk.injEq] at h
    rw [h.2]; exact ⟨le_refl _, le_refl _⟩
  · refine Aux.run_invariant (fun w => ∀ c, Spec.rangeAt w.lo c ≤ Spec.rangeAt v.lo c ∧
      Spec.rangeAt v.hi c ≤ Spec.rangeAt w.hi c) ?_ (e :: later) v v' outs hp (fun c => ⟨le_refl _, le_refl _⟩) h c
    intro w w' t hw hpt hu c
    simp only [QKind.update] at hu
    split at hu
    · rename_i lo hi hlo hhi
      cases hu
      have := Aux.allValues_spec hb (lo := lo) (hi := hi) (Aux.min_le_max hpt.2)
      have hw := hw c
      rw [hlo, hhi] at hw
      simp only [Spec.rangeAt] at hw ⊢
      exact ⟨this.2.2.1.trans hw.1, hw.2.trans this.2.2.2.1⟩
    · cases hu

/-- C49: after any history the AllValues range contains every value of every training batch, and
(when not symmetric) it is no larger than needed: each end is zero or one of these values. -/
theorem C49_all_values_covers (cfg : QCfg) (hb : 2 ≤ cfg.numBits) (shape : Option (List ℕ))
    (hist : List (Bool × QTensor α)) (hp : ∀ e ∈ hist, Spec.ProperTensor e.2) (outs : List (QTensor α))
    (v : RangeVars α) (h : QKind.allValues.run cfg (QKind.allValues.build cfg shape) hist = some (outs, v)) :
    ∃ lo hi, v = ⟨.scalar lo, .scalar hi⟩ ∧
      (∀ t, (true, t) ∈ hist → ∀ x ∈ t.data, lo ≤ x ∧ x ≤ hi) ∧
      (cfg.symmetric = false →
        (lo = 0 ∨ ∃ t, (true, t) ∈ hist ∧ lo ∈ t.data) ∧ (hi = 0 ∨ ∃ t, (true, t) ∈ hist ∧ hi ∈ t.data)) := by
  -- generalised over the starting range
  suffices key : ∀ (hist : List (Bool × QTensor α)) (a b : α) (outs : List (QTensor α)) (v : RangeVars α),
      (∀ e ∈ hist, Spec.ProperTensor e.2) →
      QKind.allValues.run cfg ⟨.scalar a, .scalar b⟩ hist = some (outs, v) →
      ∃ lo hi, v = ⟨.scalar lo, .scalar hi⟩ ∧ lo ≤ a ∧ b ≤ hi ∧
      (∀ t, (true, t) ∈ hist → ∀ x ∈ t.data, lo ≤ x ∧ x ≤ hi) ∧
      (cfg.symmetric = false →
        (lo = a ∨ lo = 0 ∨ ∃ t, (true, t) ∈ hist ∧ lo ∈ t.data) ∧
        (hi = b ∨ hi = 0 ∨ ∃ t, (true, t) ∈ hist ∧ hi ∈ t.data)) by
    obtain ⟨lo, hi, h1, -, -, h2, h3⟩ := key hist 0 0 outs v hp h
    refine ⟨lo, hi, h1, h2, fun hs => ⟨?_, ?_⟩⟩
    · rcases (h3 hs).1 with h | h | h
      exacts [.inl h, .inl h, .inr h]
    · rcases (h3 hs).2 with h | h | h
      exacts [.inl h, .inl h, .inr h]
  intro hist
  induction hist with
  | nil =>
    intro a b outs v _ h
    simp only [QKind.run, Option.some.injEq, Prod.mk.injEq] at h
    exact ⟨a, b, h.2.symm, le_refl _, le_refl _, by simp, fun _ => ⟨.inl rfl, .inl rfl⟩⟩
  | cons e hist ih =>
    obtain ⟨tr, t⟩ := e
    intro a b outs v hp h
    simp only [QKind.run, Option.bind_eq_some_iff, Option.map_eq_some_iff] at h
    obtain ⟨⟨o, w⟩, h1, ⟨outs', w'⟩, h2, h3⟩ := h
    cases h3
    have hp' : ∀ e ∈ hist, Spec.ProperTensor e.2 := fun e he => hp e (List.mem_cons_of_mem _ he)
    have hpt : Spec.ProperTensor t := hp (tr, t) List.mem_cons_self
    obtain ⟨hf, ht, -⟩ := Aux.call_vars h1
    cases tr
    · rw [hf rfl] at h2
      obtain ⟨lo, hi, e1, e2, e3, e4, e5⟩ := ih a b _ _ hp' h2
      refine ⟨lo, hi, e1, e2, e3, fun t' ht' => e4 t' (by simpa using ht'), fun hs => ?_⟩
      obtain ⟨g1, g2⟩ := e5 hs
      exact ⟨g1.imp_right (Or.imp_right fun ⟨t', a, b⟩ => ⟨t', List.mem_cons_of_mem _ a, b⟩),
        g2.imp_right (Or.imp_right fun ⟨t', a, b⟩ => ⟨t', List.mem_cons_of_mem _ a, b⟩)⟩
    · have hu := ht rfl
      simp only [QKind.update, Option.some.injEq] at hu
      subst hu
      have hspec := Aux.allValues_spec hb (lo := a) (hi := b) (Aux.min_le_max hpt.2)
      obtain ⟨s1, s2, s3, s4, -, -, -, s7⟩ := hspec
      obtain ⟨lo, hi, e1, e2, e3, e4, e5⟩ := ih _ _ _ _ hp' h2
      refine ⟨lo, hi, e1, e2.trans s3, s4.trans e3, ?_, ?_⟩
      · intro t' ht' x hx
        rcases List.mem_cons.1 ht' with h | h
        · obtain rfl : t' = t := by cases h; rfl
          exact ⟨(e2.trans s1).trans ((Aux.reduceMin_isMin hpt.2).2 x hx),
            ((Aux.reduceMax_isMax hpt.2).2 x hx).trans (s2.trans e3)⟩
        · exact e4 t' h x hx
      · intro hs
        rw [s7 hs] at e5
        obtain ⟨g1, g2⟩ := e5 hs
        constructor
        · rcases g1 with h | h | ⟨t', ha, hb'⟩
          · rcases le_total (min a (reduceMin t.data)) 0 with h0 | h0
            · rw [min_eq_left h0] at h
              rcases le_total a (reduceMin t.data) with h' | h'
              · rw [min_eq_left h'] at h; exact .inl h
              · rw [min_eq_right h'] at h
                exact .inr (.inr ⟨t, List.mem_cons_self, h ▸ (Aux.reduceMin_isMin hpt.2).1⟩)
            · rw [min_eq_right h0] at h; exact .inr (.inl h)
          · exact .inr (.inl h)
          · exact .inr (.inr ⟨t', List.mem_cons_of_mem _ ha, hb'⟩)
        · rcases g2 with h | h | ⟨t', ha, hb'⟩
          · rcases le_total (max b (reduceMax t.data)) 0 with h0 | h0
            · rw [max_eq_right h0] at h; exact .inr (.inl h)
            · rw [max_eq_left h0] at h
              rcases le_total b (reduceMax t.data) with h' | h'
              · rw [max_eq_right h'] at h
                exact .inr (.inr ⟨t, List.mem_cons_self, h ▸ (Aux.reduceMax_isMax hpt.2).1⟩)
              · rw [max_eq_left h'] at h; exact .inl h
          · exact .inr (.inl h)
          · exact .inr (.inr ⟨t', List.mem_cons_of_mem _ ha, hb'⟩)

/-! ## C50 -/

theorem Aux.fakeQuantVars_spec {cfg : QCfg} {pc : Bool} {v : RangeVars α} {t o : QTensor α}
    (h : fakeQuantVars cfg pc v t = some o) :
    o.shape = t.shape ∧ o.data.length = t.data.length ∧ ∀ i (h₁ : i < o.data.length) (h₂ : i < t.data.length),
      o.data[i] = fakeQuant cfg.numBits cfg.narrow (Spec.rangeAt v.lo (i % t.dim))
        (Spec.rangeAt v.hi (i % t.dim)) t.data[i] := by
  unfold fakeQuantVars at h
  split at h
  · rename_i hlo hhi; cases h; simp [hlo, hhi, Spec.rangeAt]
  · rename_i hlo hhi
    split at h
    · cases h; simp [hlo, hhi, Spec.rangeAt]
    · cases h
  · cases h

/-- C50: what a quantizer does to a tensor.  After any history of calls, a further call (training or
not) keeps the shape and maps the entries of each channel by one function `f` that takes at most
`2^bits` values (`2^bits - 1` with narrow range), all multiples of the step, maps zero to zero, is
idempotent and monotone, and moves no entry of the range by more than half a step; `lo`, `hi` is the
range stored after the call. -/
theorem C50_quantizer_call (k : QKind) (cfg : QCfg) (hb : 2 ≤ cfg.numBits) (shape : Option (List ℕ))
    (hist : List (Bool × QTensor α)) (hp : ∀ e ∈ hist, Spec.ProperTensor e.2) (outs : List (QTensor α))
    (v : RangeVars α) (h : k.run cfg (k.build cfg shape) hist = some (outs, v))
    (training : Bool) (t : QTensor α) (hpt : Spec.ProperTensor t) (o : QTensor α) (v' : RangeVars α)
    (hc : k.call cfg v training t = some (o, v')) :
    o.shape = t.shape ∧ o.data.length = t.data.length ∧
      ∀ c, ∃ f : α → α,
        Spec.QuantizedWell cfg.numBits cfg.narrow (Spec.rangeAt v'.lo c) (Spec.rangeAt v'.hi c) f ∧
        ∀ i (h₁ : i < o.data.length) (h₂ : i < t.data.length), i % t.dim = c → o.data[i] = f t.data[i] := by
  obtain ⟨-, -, hq⟩ := Aux.call_vars hc
  obtain ⟨h1, h2, h3⟩ := Aux.fakeQuantVars_spec hq
  have hrun : k.run cfg (k.build cfg shape) (hist ++ [(training, t)]) = some (outs ++ [o], v') := by
    clear hq h1 h2 h3
    revert h
    generalize k.build (α := α) cfg shape = v₀
    intro h
    induction hist generalizing v₀ outs with
    | nil =>
      simp only [QKind.run, Option.some.injEq, Prod.mk.injEq] at h
      obtain ⟨rfl, rfl⟩ := h
      simp [QKind.run, hc]
    | cons e hist ih =>
      obtain ⟨tr, t'⟩ := e
      simp only [QKind.run, Option.bind_eq_some_iff, Option.map_eq_some_iff] at h
      obtain ⟨⟨o', w⟩, g1, ⟨outs', w'⟩, g2, g3⟩ := h
      cases g3
      have := ih (fun e he => hp e (List.mem_cons_of_mem _ he)) _ _ g2
      simp [QKind.run, g1, this]
  refine ⟨h1, h2, fun c => ⟨fakeQuant cfg.numBits cfg.narrow (Spec.rangeAt v'.lo c) (Spec.rangeAt v'.hi c), ?_, ?_⟩⟩
  · obtain ⟨z1, z2⟩ := C48_contains_zero k cfg hb shape _
      (by
        intro e he
        rcases List.mem_append.1 he with he | he
        · exact hp e he
        · rw [List.mem_singleton.1 he]; exact hpt) _ v' hrun c
    exact Aux.fakeQuant_well hb cfg.narrow z1 z2
  · rintro i hi₁ hi₂ rfl
    exact h3 i hi₁ hi₂

/-- C50: in training, LastValue and AllValues move no entry of the batch by more than half a step. -/
theorem C50_training_error (k : QKind) (hk : k ≠ .movingAverage) (cfg : QCfg) (hb : 2 ≤ cfg.numBits)
    (shape : Option (List ℕ)) (hist : List (Bool × QTensor α)) (hp : ∀ e ∈ hist, Spec.ProperTensor e.2)
    (outs : List (QTensor α)) (v : RangeVars α) (h : k.run cfg (k.build cfg shape) hist = some (outs, v))
    (t : QTensor α) (hpt : Spec.ProperTensor t) (o : QTensor α) (v' : RangeVars α)
    (hc : k.call cfg v true t = some (o, v')) (i : ℕ) (h₁ : i < o.data.length) (h₂ : i < t.data.length) :
    |o.data[i] - t.data[i]| ≤ Spec.fqStep cfg.numBits cfg.narrow (Spec.rangeAt v'.lo (i % t.dim))
      (Spec.rangeAt v'.hi (i % t.dim)) / 2 := by
  obtain ⟨-, -, hf⟩ := C50_quantizer_call k cfg hb shape hist hp outs v h true t hpt o v' hc
  obtain ⟨f, hw, he⟩ := hf (i % t.dim)
  rw [he i h₁ h₂ rfl]
  have hu := (Aux.call_vars hc).2.1 rfl
  obtain ⟨m, M, g1, -, g2⟩ := Aux.update_spec hu (i % t.dim) (Nat.mod_lt _ (Aux.proper_dim hpt).1)
  obtain ⟨hm, hmem, -⟩ := g1 hpt
  obtain ⟨m1, m2⟩ := hmem i h₂ rfl
  cases k with
  | movingAverage => exact absurd rfl hk
  | lastValue =>
    obtain ⟨b1, b2, -⟩ := Aux.batchRange_spec hb hm
    simp only [Prod.ext_iff] at g2
    exact hw.error _ (by rw [g2.1]; exact b1.trans m1) (by rw [g2.2]; exact m2.trans b2)
  | allValues =>
    have hs := Aux.allValues_spec hb (lo := Spec.rangeAt v.lo (i % t.dim)) (hi := Spec.rangeAt v.hi (i % t.dim)) hm
    simp only [Prod.ext_iff] at g2
    exact hw.error _ (by rw [g2.1]; exact hs.1.trans m1) (by rw [g2.2]; exact m2.trans hs.2.1)

/-- C50: quantizing a quantized tensor again (inference) returns it. -/
theorem C50_idempotent (k : QKind) (cfg : QCfg) (hb : 2 ≤ cfg.numBits) (shape : Option (List ℕ))
    (hist : List (Bool × QTensor α)) (hp : ∀ e ∈ hist, Spec.ProperTensor e.2) (outs : List (QTensor α))
    (v : RangeVars α) (h : k.run cfg (k.build cfg shape) hist = some (outs, v))
    (t o : QTensor α) (hc : k.call cfg v false t = some (o, v)) : k.call cfg v false o = some (o, v) := by
  obtain ⟨-, -, hq⟩ := Aux.call_vars hc
  obtain ⟨h1, h2, h3⟩ := Aux.fakeQuantVars_spec hq
  have hd : o.dim = t.dim := by unfold QTensor.dim; rw [h1]
  have hex : ∃ o', fakeQuantVars cfg (cfg.perAxis && (k != .allValues)) v o = some o' := by
    unfold fakeQuantVars at hq ⊢
    split at hq
    · exact ⟨_, rfl⟩
    · rename_i hlo hhi
      split at hq
      · rename_i hcond
        rw [if_pos (by rw [h1, hd]; exact hcond)]
        exact ⟨_, rfl⟩
      · cases hq
    · cases hq
  obtain ⟨o', ho'⟩ := hex
  have : o' = o := by
    obtain ⟨g1, g2, g3⟩ := Aux.fakeQuantVars_spec ho'
    have hdata : o'.data = o.data := by
      apply List.ext_getElem g2
      intro i hi₁ hi₂
      have hw := Aux.fakeQuant_well hb cfg.narrow (C48_contains_zero k cfg hb shape hist hp outs v h (i % t.dim)).1
        (C48_contains_zero k cfg hb shape hist hp outs v h (i % t.dim)).2
      rw [g3 i hi₁ hi₂, hd, h3 i hi₂ (by omega)]
      exact hw.idempotent _
    cases o; cases o'; simp_all
  subst this
  simp only [QKind.call, Bool.false_eq_true, if_false, ho', Option.map_some]

/-! ## C51 -/

/-- C51 fails: a FixedQuantizer asked for 2 bits (at most 4 levels) emits more. -/
theorem C51_violated :
    ∃ (q : FixedQ ℚ) (t o : QTensor ℚ), q.numBits = 2 ∧ q.call t = some o ∧
      ∀ levels : Finset ℚ, (∀ y ∈ o.data, y ∈ levels) → 2 ^ q.numBits < levels.card := by
  refine ⟨⟨2, 0, 255, false⟩, ⟨[5], [0, 1, 2, 3, 4]⟩, ⟨[5], [0, 1, 2, 3, 4]⟩, rfl, by decide +kernel, ?_⟩
  intro levels h
  have : ({0, 1, 2, 3, 4} : Finset ℚ) ⊆ levels := by
    intro y hy
    simp only [Finset.mem_insert, Finset.mem_singleton] at hy
    exact h y (by simpa using hy)
  have hcard : ({0, 1, 2, 3, 4} : Finset ℚ).card = 5 := by decide +kernel
  have := Finset.card_le_card this
  show 4 < _
  omega

/-- C51, the part that holds: whatever `num_bits`, a FixedQuantizer with a range containing zero
behaves as an 8-bit quantizer (so it honours `num_bits` when it is at least 8). -/
theorem C51_eight_bits_partial (q : FixedQ α) (hr : q.initMin < q.initMax) (h0 : q.initMin ≤ 0) (h1 : 0 ≤ q.initMax)
    (t : QTensor α) : ∃ f : α → α, Spec.QuantizedWell 8 q.narrow q.initMin q.initMax f ∧
      q.call t = some ⟨t.shape, t.data.map f⟩ :=
  ⟨_, Aux.fakeQuant_well (by norm_num) q.narrow h0 h1, by simp [FixedQ.call, hr]⟩

/-- C51: an empty or reversed range is rejected. -/
theorem C51_rejects_range (q : FixedQ α) (t : QTensor α) : q.call t = none ↔ q.initMax ≤ q.initMin := by
  unfold FixedQ.call
  split
  · rename_i h; simp [h]
  · rename_i h; simp [not_lt.1 h]

/-! ## C72: LastValue -/

/-- C72: after a training call followed by any number of inference calls, the LastValue range covers
every entry of that batch (per channel); without `symmetric` it is exactly the extremes of the
channel (or of the tensor) and zero. -/
theorem C72_last_value (cfg : QCfg) (hb : 2 ≤ cfg.numBits) (v v' : RangeVars α) (t : QTensor α)
    (hpt : Spec.ProperTensor t) (rest : List (Bool × QTensor α)) (hrest : ∀ e ∈ rest, e.1 = false)
    (outs : List (QTensor α)) (h : QKind.lastValue.run cfg v ((true, t) :: rest) = some (outs, v')) :
    (∀ i (hi : i < t.data.length),
      Spec.rangeAt v'.lo (i % t.dim) ≤ t.data[i] ∧ t.data[i] ≤ Spec.rangeAt v'.hi (i % t.dim)) ∧
    (cfg.symmetric = false → ∀ c < t.dim,
      (Spec.rangeAt v'.lo c = 0 ∨ ∃ i, ∃ hi : i < t.data.length,
        Spec.rangeAt v'.lo c = t.data[i] ∧ ((∃ l, v'.lo = .vector l) → i % t.dim = c)) ∧
      (Spec.rangeAt v'.hi c = 0 ∨ ∃ i, ∃ hi : i < t.data.length,
        Spec.rangeAt v'.hi c = t.data[i] ∧ ((∃ l, v'.lo = .vector l) → i % t.dim = c))) := by
  have hinf : ∀ (rest : List (Bool × QTensor α)) (w v' : RangeVars α) (outs : List (QTensor α)),
      (∀ e ∈ rest, e.1 = false) → QKind.lastValue.run cfg w rest = some (outs, v') → v' = w := by
    intro rest
    induction rest with
    | nil =>
      intro w v' outs _ h
      simp only [QKind.run, Option.some.injEq, Prod.mk.injEq] at h
      exact h.2.symm
    | cons e rest ih =>
      obtain ⟨tr, t⟩ := e
      intro w v' outs hr h
      simp only [QKind.run, Option.bind_eq_some_iff, Option.map_eq_some_iff] at h
      obtain ⟨⟨o', w'⟩, g1, ⟨outs', w''⟩, g2, g3⟩ := h
      cases g3
      rw [ih _ _ _ (fun e he => hr e (List.mem_cons_of_mem _ he)) g2,
        (Aux.call_vars g1).1 (hr (tr, t) List.mem_cons_self)]
  simp only [QKind.run, Option.bind_eq_some_iff, Option.map_eq_some_iff] at h
  obtain ⟨⟨o', w⟩, g1, ⟨outs', w''⟩, g2, g3⟩ := h
  cases g3
  obtain rfl := hinf rest _ _ _ hrest g2
  have hu := (Aux.call_vars g1).2.1 rfl
  refine ⟨fun i hi => ?_, fun hs c hc => ?_⟩
  · obtain ⟨m, M, h1, -, h2⟩ := Aux.update_spec hu (i % t.dim) (Nat.mod_lt _ (Aux.proper_dim hpt).1)
    obtain ⟨hm, hmem, -⟩ := h1 hpt
    obtain ⟨b1, b2, -⟩ := Aux.batchRange_spec hb hm
    simp only [Prod.ext_iff] at h2
    rw [h2.1, h2.2]
    exact ⟨b1.trans (hmem i hi rfl).1, (hmem i hi rfl).2.trans b2⟩
  · obtain ⟨m, M, h1, -, h2⟩ := Aux.update_spec hu c hc
    obtain ⟨hm, -, ⟨i, hi, e, e'⟩, j, hj, f, f'⟩ := h1 hpt
    obtain ⟨-, -, -, -, -, b⟩ := Aux.batchRange_spec hb hm
    simp only [b hs, Prod.ext_iff] at h2
    constructor
    · rcases le_total m 0 with h0 | h0
      · exact .inr ⟨i, hi, by rw [h2.1, min_eq_left h0, e], e'⟩
      · exact .inl (by rw [h2.1, min_eq_right h0])
    · rcases le_total M 0 with h0 | h0
      · exact .inl (by rw [h2.2, max_eq_right h0])
      · exact .inr ⟨j, hj, by rw [h2.2, max_eq_left h0, f], f'⟩

/-! ## C73: MovingAverage -/

/-- C73: the MovingAverage range never extends beyond the initial `[-6, 6]` and the extremes of the
training batches: any interval `[-B, B']` with `B, B' ≥ 6` that contains all training batches contains
the range, after any history (not symmetric; scalar ranges). -/
theorem C73_hull (cfg : QCfg) (hs : cfg.symmetric = false) (hb : 2 ≤ cfg.numBits) (shape : Option (List ℕ))
    (hist : List (Bool × QTensor α)) (hp : ∀ e ∈ hist, Spec.ProperTensor e.2) (outs : List (QTensor α))
    (v : RangeVars α) (h : QKind.movingAverage.run cfg (QKind.movingAverage.build cfg shape) hist = some (outs, v))
    (B B' : α) (hB : B ≤ -6) (hB' : 6 ≤ B') (hbatch : ∀ t, (true, t) ∈ hist → ∀ x ∈ t.data, B ≤ x ∧ x ≤ B') :
    ∃ lo hi, v = ⟨.scalar lo, .scalar hi⟩ ∧ B ≤ lo ∧ hi ≤ B' := by
  suffices key : ∀ (hist : List (Bool × QTensor α)) (a b : α) (outs : List (QTensor α)) (v : RangeVars α),
      (∀ e ∈ hist, Spec.ProperTensor e.2) → (∀ t, (true, t) ∈ hist → ∀ x ∈ t.data, B ≤ x ∧ x ≤ B') → B ≤ a → b ≤ B' →
      QKind.movingAverage.run cfg ⟨.scalar a, .scalar b⟩ hist = some (outs, v) →
      ∃ lo hi, v = ⟨.scalar lo, .scalar hi⟩ ∧ B ≤ lo ∧ hi ≤ B' by
    exact key hist (-6) 6 outs v hp hbatch hB hB' h
  intro hist
  induction hist with
  | nil =>
    intro a b outs v _ _ h1 h2 h
    simp only [QKind.run, Option.some.injEq, Prod.mk.injEq] at h
    exact ⟨a, b, h.2.symm, h1, h2⟩
  | cons e hist ih =>
    obtain ⟨tr, t⟩ := e
    intro a b outs v hp hbt h1 h2 h
    simp only [QKind.run, Option.bind_eq_some_iff, Option.map_eq_some_iff] at h
    obtain ⟨⟨o, w⟩, g1, ⟨outs', w'⟩, g2, g3⟩ := h
    cases g3
    have hp' : ∀ e ∈ hist, Spec.ProperTensor e.2 := fun e he => hp e (List.mem_cons_of_mem _ he)
    have hbt' : ∀ t, (true, t) ∈ hist → ∀ x ∈ t.data, B ≤ x ∧ x ≤ B' :=
      fun t ht => hbt t (List.mem_cons_of_mem _ ht)
    have hpt : Spec.ProperTensor t := hp (tr, t) List.mem_cons_self
    obtain ⟨hf, ht, -⟩ := Aux.call_vars g1
    cases tr
    · rw [hf rfl] at g2; exact ih a b _ _ hp' hbt' h1 h2 g2
    · have hu := ht rfl
      have hmin := hbt t List.mem_cons_self _ (Aux.reduceMin_isMin hpt.2).1
      have hmax := hbt t List.mem_cons_self _ (Aux.reduceMax_isMax hpt.2).1
      obtain ⟨-, -, -, -, -, hbr⟩ := Aux.batchRange_spec hb (Aux.min_le_max hpt.2)
      simp only [QKind.update] at hu
      split at hu
      · split at hu <;> cases hu
      · simp only [Option.some.injEq, hbr hs] at hu
        subst hu
        refine ih _ _ _ _ hp' hbt' ?_ ?_ g2
        · rw [Aux.ema_eq]
          have : B ≤ min (reduceMin t.data) 0 := le_min hmin.1 (by linarith)
          linarith
        · rw [Aux.ema_eq]
          have : max (reduceMax t.data) 0 ≤ B' := max_le hmax.2 (by linarith)
          linarith

/-- C73: one training call moves each end of the range one thousandth of the way to the corresponding
end of the batch's range. -/
theorem C73_step (cfg : QCfg) (hs : cfg.symmetric = false) (lo hi : α) (v' : RangeVars α) (t o : QTensor α)
    (h : QKind.movingAverage.call cfg ⟨.scalar lo, .scalar hi⟩ true t = some (o, v')) :
    ∀ m M : α, Spec.IsMin m (0 :: t.data) → Spec.IsMax M (0 :: t.data) → t.data ≠ [] →
      v' = ⟨.scalar (lo + (m - lo) / 1000), .scalar (hi + (M - hi) / 1000)⟩ := by
  intro m M hm hM hne
  have hu := (Aux.call_vars h).2.1 rfl
  simp only [QKind.update] at hu
  have e1 : min (reduceMin t.data) 0 = m := by
    obtain ⟨a, b⟩ := Aux.reduceMin_isMin hne
    apply le_antisymm
    · rcases List.mem_cons.1 hm.1 with h | h
      · rw [h]; exact min_le_right _ _
      · exact (min_le_left _ _).trans (b _ h)
    · exact le_min (hm.2 _ (List.mem_cons_of_mem _ a)) (hm.2 _ List.mem_cons_self)
  have e2 : max (reduceMax t.data) 0 = M := by
    obtain ⟨a, b⟩ := Aux.reduceMax_isMax hne
    apply le_antisymm
    · exact max_le (hM.2 _ (List.mem_cons_of_mem _ a)) (hM.2 _ List.mem_cons_self)
    · rcases List.mem_cons.1 hM.1 with h | h
      · rw [h]; exact le_max_right _ _
      · exact (b _ h).trans (le_max_left _ _)
  split at hu
  · split at hu <;> cases hu
  · simp only [Option.some.injEq, batchRange, hs, Bool.false_eq_true, if_false, e1, e2, Aux.ema_eq] at hu
    rw [← hu]
    congr 2 <;> ring

/-- The proportion between the two ends of a symmetric range: `max = -(ratio · min)`, 1 for a narrow
range, `(2^bits - 2) / 2^bits` for a wide one (two's complement has one more negative level). -/
def Spec.proportion (cfg : QCfg) : α :=
  if cfg.narrow then 1 else (2 ^ cfg.numBits - 2) / 2 ^ cfg.numBits

theorem Aux.ratio_proportion (cfg : QCfg) : (minMaxRatio cfg : α) = -Spec.proportion cfg := by
  unfold minMaxRatio Spec.proportion
  split
  · rfl
  · rw [neg_div]

/-- C73, symmetric ranges: the same hull bound for intervals `[-B, proportion · B]` that contain the
initial `[-6, 6]`. -/
theorem C73_hull_symmetric (cfg : QCfg) (hs : cfg.symmetric = true) (hb : 2 ≤ cfg.numBits)
    (shape : Option (List ℕ)) (hist : List (Bool × QTensor α)) (hp : ∀ e ∈ hist, Spec.ProperTensor e.2)
    (outs : List (QTensor α)) (v : RangeVars α)
    (h : QKind.movingAverage.run cfg (QKind.movingAverage.build cfg shape) hist = some (outs, v))
    (B : α) (hB : 6 ≤ B) (hB' : 6 ≤ Spec.proportion cfg * B)
    (hbatch : ∀ t, (true, t) ∈ hist → ∀ x ∈ t.data, -B ≤ x ∧ x ≤ Spec.proportion cfg * B) :
    ∃ lo hi, v = ⟨.scalar lo, .scalar hi⟩ ∧ -B ≤ lo ∧ hi ≤ Spec.proportion cfg * B := by
  have hr0 : (0 : α) < Spec.proportion cfg := by
    have := Aux.ratio_neg (α := α) hb
    rw [Aux.ratio_proportion] at this; linarith
  suffices key : ∀ (hist : List (Bool × QTensor α)) (a b : α) (outs : List (QTensor α)) (v : RangeVars α),
      (∀ e ∈ hist, Spec.ProperTensor e.2) →
      (∀ t, (true, t) ∈ hist → ∀ x ∈ t.data, -B ≤ x ∧ x ≤ Spec.proportion cfg * B) → -B ≤ a →
      b ≤ Spec.proportion cfg * B →
      QKind.movingAverage.run cfg ⟨.scalar a, .scalar b⟩ hist = some (outs, v) →
      ∃ lo hi, v = ⟨.scalar lo, .scalar hi⟩ ∧ -B ≤ lo ∧ hi ≤ Spec.proportion cfg * B by
    exact key hist (-6) 6 outs v hp hbatch (by linarith) hB' h
  intro hist
  induction hist with
  | nil =>
    intro a b outs v _ _ h1 h2 h
    simp only [QKind.run, Option.some.injEq, Prod.mk.injEq] at h
    exact ⟨a, b, h.2.symm, h1, h2⟩
  | cons e hist ih =>
    obtain ⟨tr, t⟩ := e
    intro a b outs v hp hbt h1 h2 h
    simp only [QKind.run, Option.bind_eq_some_iff, Option.map_eq_some_iff] at h
    obtain ⟨⟨o, w⟩, g1, ⟨outs', w'⟩, g2, g3⟩ := h
    cases g3
    have hp' : ∀ e ∈ hist, Spec.ProperTensor e.2 := fun e he => hp e (List.mem_cons_of_mem _ he)
    have hbt' : ∀ t, (true, t) ∈ hist → ∀ x ∈ t.data, -B ≤ x ∧ x ≤ Spec.proportion cfg * B :=
      fun t ht => hbt t (List.mem_cons_of_mem _ ht)
    have hpt : Spec.ProperTensor t := hp (tr, t) List.mem_cons_self
    obtain ⟨hf, ht, -⟩ := Aux.call_vars g1
    cases tr
    · rw [hf rfl] at g2; exact ih a b _ _ hp' hbt' h1 h2 g2
    · have hu := ht rfl
      have hmin := hbt t List.mem_cons_self _ (Aux.reduceMin_isMin hpt.2).1
      have hmax := hbt t List.mem_cons_self _ (Aux.reduceMax_isMax hpt.2).1
      simp only [QKind.update] at hu
      split at hu
      · split at hu <;> cases hu
      · simp only [Option.some.injEq, batchRange, hs, if_true, Aux.ratio_proportion] at hu
        subst hu
        refine ih _ _ _ _ hp' hbt' ?_ ?_ g2
        · rw [Aux.ema_eq]
          have : -B ≤ min (reduceMin t.data) (reduceMax t.data / -Spec.proportion cfg) := by
            refine le_min hmin.1 ?_
            rw [div_neg, neg_le_neg_iff, div_le_iff₀ hr0]
            linarith [hmax.2, mul_comm (Spec.proportion cfg : α) B]
          linarith
        · rw [Aux.ema_eq]
          have : max (reduceMax t.data) (reduceMin t.data * -Spec.proportion cfg) ≤
              Spec.proportion cfg * B := by
            refine max_le hmax.2 ?_
            have := mul_le_mul_of_nonneg_left hmin.1 hr0.le
            linarith
          linarith

/-- C73, symmetric ranges: one training call moves each end one thousandth of the way to the end of
the smallest range in the fixed proportion that covers the batch. -/
theorem C73_step_symmetric (cfg : QCfg) (hs : cfg.symmetric = true) (lo hi : α) (v' : RangeVars α)
    (t o : QTensor α)
    (h : QKind.movingAverage.call cfg ⟨.scalar lo, .scalar hi⟩ true t = some (o, v')) :
    ∀ m M : α, Spec.IsMin m t.data → Spec.IsMax M t.data →
      v' = ⟨.scalar (lo + (min m (-(M / Spec.proportion cfg)) - lo) / 1000),
        .scalar (hi + (max M (-(m * Spec.proportion cfg)) - hi) / 1000)⟩ := by
  intro m M hm hM
  have hne : t.data ≠ [] := List.ne_nil_of_mem hm.1
  have hu := (Aux.call_vars h).2.1 rfl
  simp only [QKind.update] at hu
  have e1 : reduceMin t.data = m := by
    obtain ⟨a, b⟩ := Aux.reduceMin_isMin hne
    exact le_antisymm (b _ hm.1) (hm.2 _ a)
  have e2 : reduceMax t.data = M := by
    obtain ⟨a, b⟩ := Aux.reduceMax_isMax hne
    exact le_antisymm (hM.2 _ a) (b _ hM.1)
  split at hu
  · split at hu <;> cases hu
  · simp only [Option.some.injEq, batchRange, hs, if_true, e1, e2, Aux.ema_eq, Aux.ratio_proportion] at hu
    rw [← hu]
    rw [div_neg, mul_neg]
    congr 2 <;> ring

/-- The symmetric statements apply to a run that goes through. -/
example : ∃ outs v, QKind.movingAverage.run (α := ℚ) ⟨8, false, true, false⟩
      (QKind.movingAverage.build ⟨8, false, true, false⟩ none)
      [(true, ⟨[2], [100, -7]⟩), (false, ⟨[1], [300]⟩)] = some (outs, v) ∧
    (6 : ℚ) ≤ Spec.proportion ⟨8, false, true, false⟩ * (800 / 7) := by
  refine ⟨_, _, rfl, ?_⟩
  norm_num [Spec.proportion]

/-! ## C74: MovingAverage with per_axis -/

/-- C74 fails: a MovingAverageQuantizer with `per_axis` cannot be called at all, because its variables
are built as scalars. -/
theorem C74_violated (cfg : QCfg) (h : cfg.perAxis = true) (shape : Option (List ℕ)) (training : Bool)
    (t : QTensor α) : QKind.movingAverage.call cfg (QKind.movingAverage.build cfg shape) training t = none := by
  cases training <;> cases hr : perChannelRank t <;>
    simp [QKind.call, QKind.build, addRangeWeights, fakeQuantVars, h, QKind.update, hr]

/-- C74, the part that holds: scalar MovingAverage calls always succeed, and so do per-axis LastValue
calls on tensors of rank 1, 2 or 4 whose last dimension is the one the quantizer was built for. -/
theorem C74_calls_succeed_partial (cfg : QCfg) (hist : List (Bool × QTensor α)) :
    (cfg.perAxis = false → ∀ k : QKind, ∀ shape, ∃ r, k.run cfg (k.build cfg shape) hist = some r) ∧
    (cfg.perAxis = true → ∀ shape : List ℕ,
      (∀ e ∈ hist, (e.2.shape.length = 1 ∨ e.2.shape.length = 2 ∨ e.2.shape.length = 4) ∧
        e.2.dim = shape.getLast?.getD 1) →
      ∃ r, QKind.lastValue.run cfg (QKind.lastValue.build cfg (some shape)) hist = some r) := by
  constructor
  · intro hpa k shape
    suffices key : ∀ (hist : List (Bool × QTensor α)) (a b : α),
        ∃ r, k.run cfg ⟨.scalar a, .scalar b⟩ hist = some r by
      have : ∃ a b : α, k.build cfg shape = ⟨.scalar a, .scalar b⟩ := by
        cases k <;> simp [QKind.build, addRangeWeights, hpa]
      obtain ⟨a, b, e⟩ := this
      rw [e]; exact key hist a b
    intro hist
    induction hist with
    | nil => intro a b; exact ⟨_, rfl⟩
    | cons e hist ih =>
      obtain ⟨tr, t⟩ := e
      intro a b
      have : ∃ o a' b', k.call cfg ⟨.scalar a, .scalar b⟩ tr t = some (o, ⟨.scalar a', .scalar b'⟩) := by
        cases tr
        · simp [QKind.call, fakeQuantVars, hpa]
        · cases k <;> simp [QKind.call, fakeQuantVars, QKind.update, hpa]
      obtain ⟨o, a', b', h1⟩ := this
      obtain ⟨r, hr⟩ := ih a' b'
      exact ⟨_, by rw [QKind.run, h1, Option.bind_some, hr, Option.map_some]⟩
  · intro hpa shape hh
    set d := shape.getLast?.getD 1 with hd
    suffices key : ∀ (hist : List (Bool × QTensor α)) (l l' : List α), l.length = d → l'.length = d →
        (∀ e ∈ hist, perChannelRank e.2 = true ∧ e.2.dim = d) →
        ∃ r, QKind.lastValue.run cfg ⟨.vector l, .vector l'⟩ hist = some r by
      have : QKind.lastValue.build (α := α) cfg (some shape) =
          ⟨.vector (List.replicate d (-6)), .vector (List.replicate d 6)⟩ := by
        simp [QKind.build, addRangeWeights, hpa, hd]
      rw [this]
      refine key hist _ _ (by simp) (by simp) fun e he => ⟨?_, (hh e he).2⟩
      rcases (hh e he).1 with h | h | h <;> simp [perChannelRank, h]
    intro hist
    induction hist with
    | nil => intro l l' _ _ _; exact ⟨_, rfl⟩
    | cons e hist ih =>
      obtain ⟨tr, t⟩ := e
      intro l l' hl hl' hh
      obtain ⟨hr, hdim⟩ := hh (tr, t) List.mem_cons_self
      have hne : t.shape ≠ [] := by
        intro h; simp [perChannelRank, h] at hr
      have : ∃ o m m', QKind.lastValue.call cfg ⟨.vector l, .vector l'⟩ tr t = some (o, ⟨.vector m, .vector m'⟩) ∧
          m.length = d ∧ m'.length = d := by
        have hka : (QKind.lastValue != QKind.allValues) = true := rfl
        have hl2 : l.length = t.dim := by rw [hl, ← hdim]
        have hl2' : l'.length = t.dim := by rw [hl', ← hdim]
        cases tr
        · simp [QKind.call, fakeQuantVars, hpa, hne, hl, hl', hdim, hka]
        · simp [QKind.call, fakeQuantVars, QKind.update, hpa, hr, hne, hl2, hl2', ← hdim, hka]
      obtain ⟨o, m, m', h1, h2, h3⟩ := this
      obtain ⟨r, hr⟩ := ih m m' h2 h3 fun e he => hh e (List.mem_cons_of_mem _ he)
      exact ⟨_, by rw [QKind.run, h1, Option.bind_some, hr, Option.map_some]⟩

/-- C74 fails as well for a LastValueQuantizer with `per_axis`, whatever its variables are: a training call on a
tensor whose rank is not 1, 2 or 4 (for example the rank 3 kernel of a `Conv1D` layer) raises an error. -/
theorem C74_rank_violated (cfg : QCfg) (h : cfg.perAxis = true) (v : RangeVars α) (t : QTensor α)
    (hr : t.shape.length ≠ 1 ∧ t.shape.length ≠ 2 ∧ t.shape.length ≠ 4) :
    QKind.lastValue.call cfg v true t = none := by
  simp [QKind.call, QKind.update, h, perChannelRank, hr.1, hr.2.1, hr.2.2]

example : QKind.lastValue.call (α := ℚ) ⟨8, true, true, true⟩
    (QKind.lastValue.build ⟨8, true, true, true⟩ (some [1, 2, 2])) true ⟨[1, 2, 2], [1, 2, 3, 4]⟩ = none ∧
    (QKind.lastValue.call (α := ℚ) ⟨8, true, true, true⟩
      (QKind.lastValue.build ⟨8, true, true, true⟩ (some [2, 2])) true ⟨[2, 2], [1, 2, 3, 4]⟩).isSome = true := by
  decide +kernel

/-! ## Non-vacuity -/

/-- A history that satisfies the hypotheses of the theorems above, per axis, with both modes. -/
def Example.quantHist : List (Bool × QTensor ℚ) :=
  [(true, ⟨[2, 2], [1, -2, 3, 5]⟩), (false, ⟨[1, 2], [7, 7]⟩), (true, ⟨[2, 2], [1, 2, 4, 3]⟩)]

example : (∀ e ∈ Example.quantHist, Spec.ProperTensor e.2) ∧
    (QKind.lastValue.run ⟨8, true, false, false⟩ (QKind.lastValue.build ⟨8, true, false, false⟩ (some [2, 2]))
      Example.quantHist).map (·.2) = some (⟨.vector [0, 0], .vector [4, 3]⟩ : RangeVars ℚ) := by
  refine ⟨?_, by decide +kernel⟩
  intro e he
  fin_cases he <;> simp [Spec.ProperTensor]

example : (QKind.allValues.run ⟨8, false, true, true⟩ (QKind.allValues.build ⟨8, false, true, true⟩ none)
      Example.quantHist).map (·.2) = some (⟨.scalar (-5), .scalar 5⟩ : RangeVars ℚ) := by decide +kernel

example : (QKind.movingAverage.run ⟨8, false, false, false⟩ (QKind.movingAverage.build ⟨8, false, false, false⟩ none)
      [(true, ⟨[2], [-1, 2]⟩)]).map (·.2) = some (⟨.scalar (-5995 / 1000), .scalar (5996 / 1000)⟩ : RangeVars ℚ) := by
  decide +kernel

example : fakeQuant 2 false (-1 : ℚ) 2 (3 / 4) = 1 ∧ fakeQuant 2 false (-1 : ℚ) 2 5 = 2 ∧
    fakeQuant 2 true (-1 : ℚ) 1 (3 / 4) = 1 := by decide +kernel

end Verif.Props
