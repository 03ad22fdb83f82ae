import Verif.Floats.Rounding
import Verif.Props.Mask
import Verif.Props.Centroids

/-!
# The assumptions on rounding hold for IEEE 754 arithmetic

`binary p` (round to nearest, ties to even, `p` significant digits) is monotone, symmetric, exact on integers
up to `2^p`, and has relative error at most `2^-p`.  So every theorem about a `Rounding` applies to `binary32`
and `binary64`.
-/

set_option linter.unusedSectionVars false

namespace Verif.Props
open Verif Verif.Floats

variable {α : Type*} [Field α] [LinearOrder α] [IsStrictOrderedRing α] [FloorRing α]

theorem Aux.rhe_mono {x y : α} (h : x ≤ y) : roundHalfEven x ≤ roundHalfEven y := by
  by_contra hc
  have hc' : roundHalfEven y + 1 ≤ roundHalfEven x := by omega
  have h1 := abs_le.1 (Aux.roundHalfEven_bound x)
  have h2 := abs_le.1 (Aux.roundHalfEven_bound y)
  have h3 : ((roundHalfEven y + 1 : ℤ) : α) ≤ (roundHalfEven x : α) := by exact_mod_cast hc'
  push_cast at h3
  have : x = y := by linarith
  subst this
  omega

theorem Aux.rhe_neg (x : α) : roundHalfEven (-x) = -roundHalfEven x := by
  refine Aux.round_unique (Aux.round_spec _) ?_
  obtain ⟨a, b⟩ := Aux.round_spec x
  have e : |(-x) - ((-roundHalfEven x : ℤ) : α)| = |x - (roundHalfEven x : α)| := by
    push_cast
    rw [← abs_neg]
    congr 1
    ring
  refine ⟨by rw [e]; exact a, fun h => ?_⟩
  rw [e] at h
  exact (b h).neg

theorem Aux.ulp_pos (p : ℕ) (x : α) : 0 < ulp p x := by
  unfold ulp; exact zpow_pos (by norm_num) _

theorem Aux.ulp_neg (p : ℕ) (x : α) : ulp p (-x) = ulp p x := by
  unfold ulp; rw [abs_neg]

theorem Aux.binary_neg (p : ℕ) (x : α) : binary p (-x) = -binary p x := by
  unfold binary
  rw [Aux.ulp_neg, neg_div, Aux.rhe_neg]
  push_cast
  ring

theorem Aux.binary_zero (p : ℕ) : binary p (0 : α) = 0 := by
  unfold binary
  have : roundHalfEven ((0 : α) / ulp p 0) = 0 := by
    rw [zero_div]
    exact_mod_cast Aux.round_intCast (α := α) 0
  rw [this]
  simp

theorem Aux.two_zpow_nat (a : ℤ) (n : ℕ) (h : a = n) : (2 : α) ^ a = ((2 ^ n : ℤ) : α) := by
  subst h
  rw [zpow_natCast]
  push_cast
  rfl

/-- A positive number and its rounding are in the same binade (up to its upper end). -/
theorem Aux.binary_binade (p : ℕ) (hp : 1 ≤ p) {x : α} (hx : 0 < x) :
    (2 : α) ^ Int.log 2 x ≤ binary p x ∧ binary p x ≤ (2 : α) ^ (Int.log 2 x + 1) := by
  have hu := Aux.ulp_pos p x
  have h1 : (2 : α) ^ Int.log 2 x ≤ x := by
    have := Int.zpow_log_le_self (b := 2) (r := x) (by norm_num) hx
    exact_mod_cast this
  have h2 : x < (2 : α) ^ (Int.log 2 x + 1) := by
    have := Int.lt_zpow_succ_log_self (b := 2) (by norm_num) x
    exact_mod_cast this
  have eu : ulp p x = (2 : α) ^ (Int.log 2 x + 1 - p) := by
    unfold ulp; rw [abs_of_pos hx]
  have l1 : (2 : α) ^ Int.log 2 x = ((2 ^ (p - 1) : ℤ) : α) * ulp p x := by
    rw [eu, ← Aux.two_zpow_nat ((p : ℤ) - 1) (p - 1) (by omega), ← zpow_add₀ (by norm_num)]
    congr 1
    ring
  have l2 : (2 : α) ^ (Int.log 2 x + 1) = ((2 ^ p : ℤ) : α) * ulp p x := by
    rw [eu, ← Aux.two_zpow_nat (p : ℤ) p rfl, ← zpow_add₀ (by norm_num)]
    congr 1
    ring
  unfold binary
  constructor
  · rw [l1]
    refine mul_le_mul_of_nonneg_right ?_ hu.le
    have : ((2 ^ (p - 1) : ℤ) : α) ≤ x / ulp p x := by
      rw [le_div_iff₀ hu, ← l1]; exact h1
    have := Aux.rhe_mono this
    rw [Aux.round_intCast] at this
    exact_mod_cast this
  · rw [l2]
    refine mul_le_mul_of_nonneg_right ?_ hu.le
    have : x / ulp p x ≤ ((2 ^ p : ℤ) : α) := by
      rw [div_le_iff₀ hu, ← l2]; exact h2.le
    have := Aux.rhe_mono this
    rw [Aux.round_intCast] at this
    exact_mod_cast this

theorem Aux.binary_nonneg (p : ℕ) {x : α} (hx : 0 ≤ x) : 0 ≤ binary p x := by
  unfold binary
  refine mul_nonneg ?_ (Aux.ulp_pos p x).le
  have := Aux.rhe_mono (div_nonneg hx (Aux.ulp_pos p x).le)
  have h0 : roundHalfEven (0 : α) = 0 := by exact_mod_cast Aux.round_intCast (α := α) 0
  rw [h0] at this
  exact_mod_cast this

theorem Aux.binary_mono_pos (p : ℕ) (hp : 1 ≤ p) {x y : α} (hx : 0 < x) (h : x ≤ y) :
    binary p x ≤ binary p y := by
  have hy : 0 < y := lt_of_lt_of_le hx h
  rcases (Int.log_mono_right (b := 2) hx h).lt_or_eq with hl | hl
  · calc binary p x ≤ (2 : α) ^ (Int.log 2 x + 1) := (Aux.binary_binade p hp hx).2
      _ ≤ (2 : α) ^ Int.log 2 y := zpow_le_zpow_right₀ (by norm_num) (by omega)
      _ ≤ binary p y := (Aux.binary_binade p hp hy).1
  · have eu : ulp p x = ulp p y := by
      unfold ulp; rw [abs_of_pos hx, abs_of_pos hy, hl]
    unfold binary
    rw [eu]
    refine mul_le_mul_of_nonneg_right ?_ (Aux.ulp_pos p y).le
    exact_mod_cast Aux.rhe_mono (div_le_div_of_nonneg_right h (Aux.ulp_pos p y).le)

theorem Aux.binary_mono (p : ℕ) (hp : 1 ≤ p) : Monotone (binary p : α → α) := by
  intro x y h
  rcases lt_trichotomy 0 x with hx | hx | hx
  · exact Aux.binary_mono_pos p hp hx h
  · subst hx
    rw [Aux.binary_zero]
    exact Aux.binary_nonneg p h
  · rcases lt_or_ge y 0 with hy | hy
    · have := Aux.binary_mono_pos p hp (x := -y) (y := -x) (by linarith) (by linarith)
      rw [Aux.binary_neg, Aux.binary_neg] at this
      linarith
    · have h1 := Aux.binary_nonneg p (x := -x) (by linarith)
      rw [Aux.binary_neg] at h1
      have h2 := Aux.binary_nonneg p hy
      linarith

/-- A multiple of the spacing is not changed. -/
theorem Aux.binary_exact (p : ℕ) {x : α} (k : ℤ) (h : x = k * ulp p x) : binary p x = x := by
  unfold binary
  have : x / ulp p x = k := by
    rw [div_eq_iff (Aux.ulp_pos p x).ne']
    exact h
  rw [this, Aux.round_intCast]
  exact h.symm

theorem Aux.binary_nat (p n : ℕ) (hp : 1 ≤ p) (h : n ≤ 2 ^ p) : binary p (n : α) = n := by
  rcases Nat.eq_zero_or_pos n with h0 | hpos
  · subst h0
    exact_mod_cast Aux.binary_zero (α := α) p
  have hlog : Int.log 2 |(n : α)| = (Nat.log 2 n : ℤ) := by
    rw [abs_of_nonneg (Nat.cast_nonneg n)]
    exact Int.log_natCast 2 n
  have hle : Nat.log 2 n ≤ p := by
    calc Nat.log 2 n ≤ Nat.log 2 (2 ^ p) := Nat.log_mono_right h
      _ = p := Nat.log_pow (by norm_num) p
  rcases hle.lt_or_eq with hlt | heq
  · refine Aux.binary_exact p ((n : ℤ) * 2 ^ (p - 1 - Nat.log 2 n)) ?_
    unfold ulp
    rw [hlog]
    push_cast
    rw [mul_assoc, ← zpow_natCast, ← zpow_add₀ (by norm_num)]
    have : ((p - 1 - Nat.log 2 n : ℕ) : ℤ) + ((Nat.log 2 n : ℤ) + 1 - p) = 0 := by omega
    rw [this]
    simp
  · have hn : n = 2 ^ p := by
      refine le_antisymm h ?_
      rw [← heq]
      exact Nat.pow_log_le_self 2 (by omega)
    refine Aux.binary_exact p ((2 : ℤ) ^ (p - 1)) ?_
    unfold ulp
    rw [hlog, heq, hn]
    push_cast
    rw [← zpow_natCast, ← zpow_natCast, ← zpow_add₀ (by norm_num)]
    congr 1
    omega

theorem Aux.binary_close (p : ℕ) (x : α) : |binary p x - x| ≤ ulp p x / 2 := by
  have hu := Aux.ulp_pos p x
  have h := Aux.roundHalfEven_bound (x / ulp p x)
  have e : binary p x - x = ((roundHalfEven (x / ulp p x) : α) - x / ulp p x) * ulp p x := by
    unfold binary
    rw [sub_mul, div_mul_cancel₀ _ hu.ne']
  rw [e, abs_mul, abs_of_pos hu]
  calc _ ≤ 1 / 2 * ulp p x := mul_le_mul_of_nonneg_right h hu.le
    _ = ulp p x / 2 := by ring

theorem Aux.binary_error (p : ℕ) (x : α) : |binary p x - x| ≤ 1 / 2 ^ p * |x| := by
  rcases eq_or_ne x 0 with h0 | h0
  · subst h0
    rw [Aux.binary_zero]
    simp
  refine (Aux.binary_close p x).trans ?_
  have h1 : (2 : α) ^ Int.log 2 |x| ≤ |x| := by
    have := Int.zpow_log_le_self (b := 2) (r := |x|) (by norm_num) (abs_pos.2 h0)
    exact_mod_cast this
  unfold ulp
  have e : (2 : α) ^ (Int.log 2 |x| + 1 - (p : ℤ)) / 2 = 1 / 2 ^ p * (2 : α) ^ Int.log 2 |x| := by
    rw [zpow_sub₀ (by norm_num), zpow_add₀ (by norm_num), zpow_natCast, zpow_one]
    field_simp
  rw [e]
  exact mul_le_mul_of_nonneg_left h1 (by positivity)

theorem Aux.binary_idem_pos (p : ℕ) (hp : 1 ≤ p) {x : α} (hx : 0 < x) :
    binary p (binary p x) = binary p x := by
  obtain ⟨h1, h2⟩ := Aux.binary_binade p hp hx
  have hpos : 0 < binary p x := lt_of_lt_of_le (zpow_pos (by norm_num) _) h1
  have eu : ulp p x = (2 : α) ^ (Int.log 2 x + 1 - p) := by
    unfold ulp; rw [abs_of_pos hx]
  rcases h2.lt_or_eq with hlt | heq
  · have hl : Int.log 2 (binary p x) = Int.log 2 x := by
      refine le_antisymm ?_ ?_
      · have := (Int.lt_zpow_iff_log_lt (b := 2) (by norm_num) (x := Int.log 2 x + 1) hpos).1
          (by exact_mod_cast hlt)
        omega
      · exact (Int.zpow_le_iff_le_log (b := 2) (by norm_num) (x := Int.log 2 x) hpos).1
          (by exact_mod_cast h1)
    refine Aux.binary_exact p (roundHalfEven (x / ulp p x)) ?_
    have : ulp p (binary p x) = ulp p x := by
      unfold ulp; rw [abs_of_pos hx, abs_of_pos hpos, hl]
    rw [this]
    rfl
  · have hl : Int.log 2 (binary p x) = Int.log 2 x + 1 := by
      rw [heq]
      have := Int.log_zpow (R := α) (b := 2) (by norm_num) (Int.log 2 x + 1)
      exact_mod_cast this
    refine Aux.binary_exact p ((2 : ℤ) ^ (p - 1)) ?_
    unfold ulp
    rw [abs_of_pos hpos, hl, heq, ← Aux.two_zpow_nat ((p : ℤ) - 1) (p - 1) (by omega),
      ← zpow_add₀ (by norm_num)]
    congr 1
    ring

theorem Aux.binary_idem (p : ℕ) (hp : 1 ≤ p) (x : α) : binary p (binary p x) = binary p x := by
  rcases lt_trichotomy 0 x with hx | hx | hx
  · exact Aux.binary_idem_pos p hp hx
  · rw [← hx, Aux.binary_zero, Aux.binary_zero]
  · have := Aux.binary_idem_pos p hp (x := -x) (by linarith)
    rw [Aux.binary_neg, Aux.binary_neg] at this
    linarith

/-- **IEEE 754 arithmetic satisfies the assumptions.**  Rounding to `p ≥ 24` significant digits, to nearest,
ties to even, is a `Rounding`. -/
def Example.ieee (p : ℕ) (hp : 24 ≤ p) : Rounding α where
  rnd := binary p
  mono := Aux.binary_mono p (by omega)
  neg := Aux.binary_neg p
  idem := Aux.binary_idem p (by omega)
  nat n h := Aux.binary_nat p n (by omega) (h.trans (Nat.pow_le_pow_right (by norm_num) hp))

/-- Its relative error is at most `2^-p`. -/
theorem Example.ieee_accurate (p : ℕ) (hp : 24 ≤ p) :
    (Example.ieee (α := α) p hp).Accurate (1 / 2 ^ p) := Aux.binary_error p

/-- It really rounds: 2^24 + 1 is not a `binary32` number, and 2^24 + 3 is rounded up. -/
example : binary 24 (16777217 : ℚ) = 16777216 ∧ binary 24 (16777219 : ℚ) = 16777220 := by
  decide +kernel

/-- A number with at most `p` significant binary digits. -/
def Spec.Digits (p : ℕ) (y : α) : Prop := ∃ m e : ℤ, |m| < 2 ^ p ∧ y = m * (2 : α) ^ e

/-- A number with at most `p` digits which is not smaller than `2^k` is a multiple of `2^(k+1-p)`. -/
theorem Aux.digits_multiple (p : ℕ) {y : α} (hy : Spec.Digits p y) (k : ℤ) (h : (2 : α) ^ k ≤ |y|) :
    ∃ j : ℤ, y = j * (2 : α) ^ (k + 1 - p) := by
  obtain ⟨m, e, hm, rfl⟩ := hy
  have h2 : (0 : α) < 2 := two_pos
  have he : k + 1 - p ≤ e := by
    by_contra hlt
    push Not at hlt
    have h1 : |(m : α) * (2 : α) ^ e| < (2 : α) ^ k := by
      rw [abs_mul, abs_of_pos (zpow_pos h2 e)]
      have hm' : |(m : α)| ≤ 2 ^ p - 1 := by
        have : |m| ≤ 2 ^ p - 1 := by omega
        exact_mod_cast this
      have hpos := zpow_pos h2 e
      calc |(m : α)| * 2 ^ e ≤ (2 ^ p - 1) * 2 ^ e := mul_le_mul_of_nonneg_right hm' hpos.le
        _ < 2 ^ p * 2 ^ e := by linarith
        _ = (2 : α) ^ ((p : ℤ) + e) := by rw [zpow_add₀ h2.ne', zpow_natCast]
        _ ≤ (2 : α) ^ k := zpow_le_zpow_right₀ one_le_two (by omega)
    exact absurd h (not_le.2 h1)
  obtain ⟨n, hn⟩ := Int.eq_ofNat_of_zero_le (sub_nonneg.2 he)
  refine ⟨m * 2 ^ n, ?_⟩
  have : e = (n : ℤ) + (k + 1 - p) := by omega
  rw [this, zpow_add₀ h2.ne', zpow_natCast]
  push_cast
  ring

/-- **C104 (IEEE 754 arithmetic).**  The rounding to `p` significant binary digits gives such a number, and there
is no nearer one. -/
theorem C104_nearest (p : ℕ) (hp : 1 ≤ p) (x : α) :
    Spec.Digits p (binary p x) ∧ ∀ y : α, Spec.Digits p y → |binary p x - x| ≤ |y - x| := by
  have h2 : (0 : α) < 2 := two_pos
  rcases eq_or_ne x 0 with h0 | h0
  · subst h0
    rw [Aux.binary_zero]
    exact ⟨⟨0, 0, by simp, by simp⟩, fun y _ => by simp⟩
  have hx : 0 < |x| := abs_pos.2 h0
  have hl : (2 : α) ^ Int.log 2 |x| ≤ |x| := by
    have := Int.zpow_log_le_self (b := 2) (r := |x|) (by norm_num) hx
    exact_mod_cast this
  have hu : |x| < (2 : α) ^ (Int.log 2 |x| + 1) := by
    have := Int.lt_zpow_succ_log_self (b := 2) (by norm_num) |x|
    exact_mod_cast this
  have hup := Aux.ulp_pos p x
  have hpow : (2 : α) ^ p * ulp p x = (2 : α) ^ (Int.log 2 |x| + 1) := by
    unfold ulp
    rw [← zpow_natCast, ← zpow_add₀ h2.ne']
    congr 1
    omega
  -- `x / ulp` is at most `2^p` in absolute value
  have hq : |x / ulp p x| ≤ 2 ^ p := by
    rw [abs_div, abs_of_pos hup, div_le_iff₀ hup, hpow]
    exact hu.le
  have hr : |roundHalfEven (x / ulp p x)| ≤ 2 ^ p := by
    rw [abs_le] at hq ⊢
    constructor
    · have := Aux.rhe_mono hq.1
      rw [Aux.rhe_neg] at this
      have e : roundHalfEven ((2 : α) ^ p) = 2 ^ p := by
        have := Aux.round_intCast (α := α) (2 ^ p)
        push_cast at this
        exact this
      rwa [e] at this
    · have := Aux.rhe_mono hq.2
      have e : roundHalfEven ((2 : α) ^ p) = 2 ^ p := by
        have := Aux.round_intCast (α := α) (2 ^ p)
        push_cast at this
        exact this
      rwa [e] at this
  constructor
  · rcases hr.lt_or_eq with hlt | heq
    · exact ⟨roundHalfEven (x / ulp p x), Int.log 2 |x| + 1 - p, hlt, rfl⟩
    · have h1p : (1 : ℤ) < 2 ^ p := one_lt_pow₀ (by norm_num) (by omega)
      rcases (abs_eq (by positivity)).1 heq with h | h
      · refine ⟨1, Int.log 2 |x| + 1, by simpa using h1p, ?_⟩
        unfold binary
        rw [h, ← hpow]
        push_cast
        ring
      · refine ⟨-1, Int.log 2 |x| + 1, by simpa using h1p, ?_⟩
        unfold binary
        rw [h, ← hpow]
        push_cast
        ring
  · intro y hy
    -- nearest among the multiples of `ulp`
    have hmul : ∀ j : ℤ, |binary p x - x| ≤ |(j : α) * ulp p x - x| := by
      intro j
      have e : ∀ m : ℤ, (m : α) * ulp p x - x = ((m : α) - x / ulp p x) * ulp p x := by
        intro m
        rw [sub_mul, div_mul_cancel₀ _ hup.ne']
      unfold binary
      rw [e, e, abs_mul, abs_mul]
      refine mul_le_mul_of_nonneg_right ?_ (abs_nonneg _)
      by_cases hj : j = roundHalfEven (x / ulp p x)
      · rw [hj]
      have hb := Aux.roundHalfEven_bound (x / ulp p x)
      have hd : (1 : α) ≤ |(j : α) - (roundHalfEven (x / ulp p x) : α)| := by
        have : 1 ≤ |j - roundHalfEven (x / ulp p x)| := Int.one_le_abs (sub_ne_zero.2 hj)
        exact_mod_cast this
      have ht := abs_sub_le (j : α) (x / ulp p x) (roundHalfEven (x / ulp p x) : α)
      rw [abs_sub_comm (x / ulp p x)] at ht
      linarith
    by_cases hy1 : (2 : α) ^ Int.log 2 |x| ≤ |y|
    · obtain ⟨j, rfl⟩ := Aux.digits_multiple p hy _ hy1
      exact hmul j
    · -- smaller numbers are farther away than the power of two below `x`
      push Not at hy1
      have hk : (2 : α) ^ Int.log 2 |x| = ((2 ^ (p - 1) : ℤ) : α) * ulp p x := by
        unfold ulp
        push_cast
        rw [← zpow_natCast, ← zpow_add₀ h2.ne']
        congr 1
        omega
      rcases lt_or_gt_of_ne h0 with hneg | hpos
      · have h3 := hmul (-2 ^ (p - 1))
        have e : ((-2 ^ (p - 1) : ℤ) : α) * ulp p x = -(2 : α) ^ Int.log 2 |x| := by
          rw [hk]; push_cast; ring
        rw [e] at h3
        refine h3.trans ?_
        rw [abs_of_neg hneg] at hl hy1 ⊢
        rw [abs_of_nonneg (by linarith), abs_of_nonneg]
        · linarith [neg_abs_le y]
        · linarith [neg_abs_le y]
      · have h3 := hmul (2 ^ (p - 1))
        rw [← hk] at h3
        refine h3.trans ?_
        rw [abs_of_pos hpos] at hl hy1 ⊢
        rw [abs_of_nonpos (by linarith), abs_of_nonpos]
        · linarith [le_abs_self y]
        · linarith [le_abs_self y]

/-- **C104 (IEEE 754 arithmetic).**  Everything assumed of the arithmetic (`Rounding`, and relative error `2^-p`)
is true of the rounding to `p ≥ 24` digits, so the theorems about rounded computations apply to `binary32`
and `binary64`. -/
theorem C104_ieee (p : ℕ) (hp : 24 ≤ p) :
    ∃ R : Rounding α, R.rnd = binary p ∧ R.Accurate (1 / 2 ^ p) :=
  ⟨Example.ieee p hp, rfl, Example.ieee_accurate p hp⟩

theorem Aux.rnd_zero (R : Rounding α) : R.rnd 0 = 0 := by
  exact_mod_cast R.nat 0 (by norm_num)

theorem Aux.rnd_one (R : Rounding α) : R.rnd 1 = 1 := by
  exact_mod_cast R.nat 1 (by norm_num)

theorem Aux.rnd_nonneg (R : Rounding α) {x : α} (h : 0 ≤ x) : 0 ≤ R.rnd x := by
  have := R.mono h
  rwa [Aux.rnd_zero] at this

theorem Aux.rnd_le_one (R : Rounding α) {x : α} (h : x ≤ 1) : R.rnd x ≤ 1 := by
  have := R.mono h
  rwa [Aux.rnd_one] at this

end Verif.Props
