import Verif.Props.FloatQuant
import Verif.Props.FloatPruning

/-!
# C50 in rounded arithmetic: the fake quantization kernel
-/

set_option linter.unusedSectionVars false

namespace Verif.Props
open Verif Verif.Floats Verif.Clustering Verif.Quant

variable {α : Type*} [Field α] [LinearOrder α] [IsStrictOrderedRing α] [FloorRing α]

theorem Aux.one_add_step {a b ε m : α} (hm : 0 ≤ m) (hmε : m * ε ≤ 1 / 4) (ha : |a - 1| ≤ m * ε) (hb : |b| ≤ ε) :
    |a * (1 + b) - 1| ≤ (m + 5 / 4) * ε := by
  have h := Aux.one_add_mul ha hb
  rw [show (1 + (a - 1)) * (1 + b) - 1 = a * (1 + b) - 1 by ring] at h
  have hε0 : 0 ≤ ε := (abs_nonneg b).trans hb
  have : m * ε * ε ≤ 1 / 4 * ε := mul_le_mul_of_nonneg_right hmε hε0
  linarith

/-- Adding one half and taking the floor recovers an integer from an approximation. -/
theorem Aux.floor_near (R : Rounding α) {ε Y : α} (hR : R.Accurate ε) {k : ℤ} (hk : (|k| : ℤ) ≤ 2 ^ 24)
    (hε : ε * (|(k : α)| + 1) ≤ 1 / 8) (h : |Y - k| ≤ 1 / 8) : ⌊R.rnd (Y + 1 / 2)⌋ = k := by
  have hε0 : 0 ≤ ε := by
    have := hR 1
    rw [Aux.rnd_one, sub_self, abs_zero, abs_one, mul_one] at this
    exact this
  have hY := abs_le.1 h
  have hrk : R.rnd (k : α) = k := by
    rcases le_or_gt 0 k with h0 | h0
    · exact Aux.rnd_int R h0 (by rwa [abs_of_nonneg h0] at hk)
    · have := Aux.rnd_int R (z := -k) (by omega) (by rwa [abs_of_neg h0] at hk)
      push_cast at this
      rw [R.neg] at this
      linarith
  rw [Int.floor_eq_iff]
  constructor
  · rw [← hrk]
    exact R.mono (by linarith)
  · have h1 := (abs_le.1 (hR (Y + 1 / 2))).2
    have h2 : |Y + 1 / 2| ≤ |(k : α)| + 1 := by
      have : Y + 1 / 2 = (k : α) + (Y - k + 1 / 2) := by ring
      rw [this]
      refine (abs_add_le _ _).trans (add_le_add_right ?_ _)
      rw [abs_le]
      constructor <;> linarith
    have h3 : ε * |Y + 1 / 2| ≤ 1 / 8 := (mul_le_mul_of_nonneg_left h2 hε0).trans hε
    linarith

/-- What `Nudge` computes: the scale and its approximate inverse, and the position `z` of zero among the levels. -/
theorem Aux.nudge (R : Rounding α) {ε : α} (hR : R.Accurate ε) (hε : ε ≤ 1 / 128) {bits : ℕ} (narrow : Bool)
    (hb : 2 ≤ bits) (hb' : bits ≤ 16) {lo hi : α} (hlt : lo < hi) :
    0 < fqScaleF R bits narrow lo hi ∧
    |fqScaleF R bits narrow lo hi * fqInvF R bits narrow lo hi - 1| ≤ 9 / 4 * ε ∧ 0 < fqInvF R bits narrow lo hi ∧
    ∃ z : ℕ, z ≤ fqSteps bits narrow ∧ fqZeroPointF R bits narrow lo hi = quantMin narrow + z := by
  have hq : (quantMin narrow : ℕ) ≤ 1 := by unfold quantMin; split_ifs <;> norm_num
  have h4 : 4 ≤ 2 ^ bits := by
    calc 4 = 2 ^ 2 := by norm_num
      _ ≤ 2 ^ bits := Nat.pow_le_pow_right (by norm_num) hb
  have hqq : quantMin narrow + fqSteps bits narrow = quantMax bits := by unfold fqSteps quantMax; omega
  have hNpos : 0 < fqSteps bits narrow := by unfold fqSteps quantMax; omega
  have hN : (0 : α) < fqSteps bits narrow := by exact_mod_cast hNpos
  obtain ⟨e1, he1, q1⟩ := Aux.accurate_mul R hR (hi - lo)
  have b1 := abs_le.1 he1
  have hD : 0 < R.rnd (hi - lo) := by rw [q1]; exact mul_pos (by linarith) (by linarith)
  obtain ⟨e2, he2, q2⟩ := Aux.accurate_mul R hR (R.rnd (hi - lo) / (fqSteps bits narrow : α))
  obtain ⟨e3, he3, q3⟩ := Aux.accurate_mul R hR ((fqSteps bits narrow : α) / R.rnd (hi - lo))
  have b2 := abs_le.1 he2
  have b3 := abs_le.1 he3
  refine ⟨?_, ?_, ?_, ?_⟩
  · unfold fqScaleF; rw [q2]; exact mul_pos (div_pos hD hN) (by linarith)
  · have : fqScaleF R bits narrow lo hi * fqInvF R bits narrow lo hi = (1 + e2) * (1 + e3) := by
      unfold fqScaleF fqInvF
      rw [q2, q3]
      field_simp
    rw [this]
    have hε0 : 0 ≤ ε := (abs_nonneg e1).trans he1
    have := Aux.one_add_step (a := 1 + e2) (b := e3) (m := 1) (by norm_num) (by linarith) (by simpa using he2) he3
    linarith
  · unfold fqInvF; rw [q3]; exact mul_pos (div_pos hN hD) (by linarith)
  · unfold fqZeroPointF
    dsimp only
    generalize R.rnd ((quantMin narrow : α) - R.rnd (lo / fqScaleF R bits narrow lo hi)) = zp
    split_ifs with c1 c2
    · exact ⟨0, Nat.zero_le _, by simp⟩
    · exact ⟨fqSteps bits narrow, le_rfl, by exact_mod_cast hqq.symm⟩
    · have f1 : (quantMin narrow : ℤ) ≤ ⌊zp + 1 / 2⌋ := by
        rw [Int.le_floor]; push_cast; linarith
      have f2 : ⌊zp + 1 / 2⌋ ≤ quantMax bits := by
        have : ⌊zp + 1 / 2⌋ < (quantMax bits : ℤ) + 1 := by
          rw [Int.floor_lt]; push_cast; linarith
        omega
      refine ⟨(⌊zp + 1 / 2⌋ - quantMin narrow).toNat, by omega, ?_⟩
      have : ⌊zp + 1 / 2⌋ = ((quantMin narrow + (⌊zp + 1 / 2⌋ - quantMin narrow).toNat : ℕ) : ℤ) := by
        push_cast
        omega
      exact_mod_cast congrArg (fun i : ℤ => (i : α)) this

/-- The kernel, with the position `z` of zero, in a form without the nudging. -/
theorem Aux.fakeQuantF_eq (R : Rounding α) {ε : α} (hR : R.Accurate ε) {bits : ℕ} (narrow : Bool)
    (hb : 2 ≤ bits) (hb' : bits ≤ 16) (hε : (2 : α) ^ bits * ε ≤ 1 / 128) {lo hi : α} (hlt : lo < hi) :
    ∃ (s inv : α) (z : ℕ), 0 < s ∧ s = fqScaleF R bits narrow lo hi ∧ |s * inv - 1| ≤ 9 / 4 * ε ∧ 0 < inv ∧
      z ≤ fqSteps bits narrow ∧ fqZeroPointF R bits narrow lo hi = quantMin narrow + z ∧
      ∀ x, fakeQuantF R bits narrow lo hi x =
        R.rnd ((⌊R.rnd (R.rnd (R.rnd (R.rnd (max (min x (R.rnd (((fqSteps bits narrow : ℕ) - z : α) * s)))
          (-R.rnd (z * s)) - -R.rnd (z * s)) * inv) - z) + 1 / 2)⌋ : α) * s) := by
  have hε0 : 0 ≤ ε := by
    have := hR 1
    rw [Aux.rnd_one, sub_self, abs_zero, abs_one, mul_one] at this
    exact this
  have h4 : (4 : α) ≤ 2 ^ bits := by
    calc (4 : α) = 2 ^ 2 := by norm_num
      _ ≤ 2 ^ bits := pow_le_pow_right₀ (by norm_num) hb
  have hε1 : ε ≤ 1 / 128 := by nlinarith
  obtain ⟨hs, hsi, hinv, z, hz, hzp⟩ := Aux.nudge R hR hε1 narrow hb hb' hlt
  refine ⟨_, _, z, hs, rfl, hsi, hinv, hz, hzp, fun x => ?_⟩
  have hq : (quantMin narrow : ℕ) ≤ 1 := by unfold quantMin; split_ifs <;> norm_num
  have h4' : 4 ≤ 2 ^ bits := by
    calc 4 = 2 ^ 2 := by norm_num
      _ ≤ 2 ^ bits := Nat.pow_le_pow_right (by norm_num) hb
  have h16 : 2 ^ bits ≤ 2 ^ 16 := Nat.pow_le_pow_right (by norm_num) hb'
  have hqq : quantMin narrow + fqSteps bits narrow = quantMax bits := by unfold fqSteps quantMax; omega
  have hNle : fqSteps bits narrow + 1 ≤ 2 ^ bits := by unfold fqSteps quantMax; omega
  have e1 : (quantMin narrow : α) - (quantMin narrow + z) = -(z : α) := by ring
  have e2 : (quantMax bits : α) - (quantMin narrow + z) = ((fqSteps bits narrow - z : ℕ) : α) := by
    rw [Nat.cast_sub hz, ← hqq]; push_cast; ring
  have r1 : R.rnd ((z : ℕ) : α) = z := R.nat z (by omega)
  have r2 : R.rnd ((fqSteps bits narrow - z : ℕ) : α) = ((fqSteps bits narrow - z : ℕ) : α) :=
    R.nat _ (by omega)
  unfold fakeQuantF
  rw [if_neg (by rintro ⟨a, b⟩; linarith)]
  dsimp only
  rw [hzp, e1, e2, R.neg, r1, r2, neg_mul, R.neg, neg_neg, Nat.cast_sub hz]
  set s := fqScaleF R bits narrow lo hi
  set inv := fqInvF R bits narrow lo hi
  have hzb : (z : α) * ε ≤ 1 / 128 := by
    have : (z : α) ≤ 2 ^ bits := by exact_mod_cast (by omega : z ≤ 2 ^ bits)
    nlinarith
  have hzn : (0 : α) ≤ z := Nat.cast_nonneg z
  obtain ⟨f1, hf1, g1⟩ := Aux.accurate_mul R hR ((z : α) * s)
  obtain ⟨f2, hf2, g2⟩ := Aux.accurate_mul R hR (R.rnd ((z : α) * s) * inv)
  have p1 := Aux.one_add_step (m := 9 / 4) (by norm_num) (by linarith) hsi hf1
  have p2 := Aux.one_add_step (m := 9 / 4 + 5 / 4) (by norm_num) (by linarith) p1 hf2
  have hY : |R.rnd (R.rnd ((z : α) * s) * inv) - ((z : ℤ) : α)| ≤ 1 / 8 := by
    have e : R.rnd (R.rnd ((z : α) * s) * inv) - ((z : ℤ) : α) = z * (s * inv * (1 + f1) * (1 + f2) - 1) := by
      rw [g2, g1]; push_cast; ring
    rw [e, abs_mul, abs_of_nonneg hzn]
    have := mul_le_mul_of_nonneg_left p2 hzn
    linarith
  have hfl : ⌊R.rnd (R.rnd (R.rnd ((z : α) * s) * inv) + 1 / 2)⌋ = (z : ℤ) := by
    refine Aux.floor_near R hR ?_ ?_ hY
    · rw [abs_of_nonneg (by omega)]
      exact_mod_cast (by omega : z ≤ 2 ^ 24)
    · rw [Int.cast_natCast, abs_of_nonneg hzn]
      linarith
  rw [hfl, Int.cast_natCast]

/-- The upper end of the nudged range is close to level `N` (counted from the lower end). -/
theorem Aux.top_level (R : Rounding α) {ε s inv : α} (hR : R.Accurate ε) {N z : ℕ} (hz : z ≤ N)
    (hNε : (N : α) * ε ≤ 1 / 128) (hε1 : ε ≤ 1 / 128) (hs : 0 < s) (hsi : |s * inv - 1| ≤ 9 / 4 * ε) :
    |R.rnd (R.rnd (R.rnd (((N : α) - z) * s) - -R.rnd (z * s)) * inv) - N| ≤ 1 / 16 := by
  have hzn : (0 : α) ≤ z := Nat.cast_nonneg z
  have hzN : (z : α) ≤ N := by exact_mod_cast hz
  have hNz : (0 : α) ≤ N - z := by linarith
  have hNn : (0 : α) ≤ N := Nat.cast_nonneg N
  obtain ⟨f1, hf1, g1⟩ := Aux.accurate_mul R hR ((z : α) * s)
  obtain ⟨f2, hf2, g2⟩ := Aux.accurate_mul R hR (((N : α) - z) * s)
  have hwe : |R.rnd (((N : α) - z) * s) - -R.rnd (z * s) - N * s| ≤ N * ε * s := by
    have e : R.rnd (((N : α) - z) * s) - -R.rnd (z * s) - N * s = (((N : α) - z) * f2 + z * f1) * s := by
      rw [g1, g2]; ring
    rw [e, abs_mul, abs_of_pos hs]
    refine mul_le_mul_of_nonneg_right ((abs_add_le _ _).trans ?_) hs.le
    rw [abs_mul, abs_mul, abs_of_nonneg hNz, abs_of_nonneg hzn]
    have a1 := mul_le_mul_of_nonneg_left hf2 hNz
    have a2 := mul_le_mul_of_nonneg_left hf1 hzn
    linarith
  generalize R.rnd (((N : α) - z) * s) - -R.rnd (z * s) = w at hwe ⊢
  obtain ⟨f3, hf3, g3⟩ := Aux.accurate_mul R hR w
  obtain ⟨f4, hf4, g4⟩ := Aux.accurate_mul R hR (R.rnd w * inv)
  have p1 := Aux.one_add_step (m := 9 / 4) (by norm_num) (by linarith) hsi hf3
  have p2 := Aux.one_add_step (m := 9 / 4 + 5 / 4) (by norm_num) (by linarith) p1 hf4
  rw [g4, g3]
  have e : w * (1 + f3) * inv * (1 + f4) - N =
      (w - N * s) / s * (s * inv * (1 + f3) * (1 + f4)) + N * (s * inv * (1 + f3) * (1 + f4) - 1) := by
    field_simp
    ring
  rw [e]
  generalize s * inv * (1 + f3) * (1 + f4) = P at p2 ⊢
  have hPb := abs_le.1 p2
  have a1 : |(w - N * s) / s * P| ≤ 1 / 128 * 2 := by
    rw [abs_mul]
    refine mul_le_mul ?_ ?_ (abs_nonneg _) (by norm_num)
    · rw [abs_div, abs_of_pos hs, div_le_iff₀ hs]
      exact hwe.trans (mul_le_mul_of_nonneg_right hNε hs.le)
    · rw [abs_le]
      constructor <;> linarith
  have a2 : |(N : α) * (P - 1)| ≤ 19 / 4 * (1 / 128) := by
    rw [abs_mul, abs_of_nonneg hNn]
    have := mul_le_mul_of_nonneg_left p2 hNn
    linarith
  refine (abs_add_le _ _).trans ?_
  linarith

/-- The integer level of a clamped entry: monotone, between `-z` and `N - z`, and zero for zero. -/
theorem Aux.level_spec (R : Rounding α) {ε s inv : α} (hR : R.Accurate ε) {N z : ℕ} (hz : z ≤ N)
    (hN : N + 1 ≤ 2 ^ 16) (hε : ((N : α) + 1) * ε ≤ 1 / 128) (hs : 0 < s) (hsi : |s * inv - 1| ≤ 9 / 4 * ε)
    (hinv : 0 < inv) (lev : α → ℤ)
    (hlev : ∀ c, lev c = ⌊R.rnd (R.rnd (R.rnd (R.rnd (c - -R.rnd (z * s)) * inv) - z) + 1 / 2)⌋) :
    Monotone lev ∧ lev 0 = 0 ∧ lev (-R.rnd (z * s)) = -(z : ℤ) ∧ lev (R.rnd (((N : α) - z) * s)) = N - z := by
  have hε0 : 0 ≤ ε := by
    have := hR 1
    rw [Aux.rnd_one, sub_self, abs_zero, abs_one, mul_one] at this
    exact this
  have hzn : (0 : α) ≤ z := Nat.cast_nonneg z
  have hzN : (z : α) ≤ N := by exact_mod_cast hz
  have hNε : (N : α) * ε ≤ 1 / 128 := by nlinarith
  have hzε : (z : α) * ε ≤ 1 / 128 := by nlinarith
  have hε1 : ε ≤ 1 / 128 := by nlinarith [Nat.cast_nonneg (α := α) N]
  have h24 : N ≤ 2 ^ 24 := by omega
  refine ⟨?_, ?_, ?_, ?_⟩
  · intro a b hab
    rw [hlev, hlev]
    refine Int.floor_mono (R.mono ?_)
    have h1 : R.rnd (a - -R.rnd (z * s)) * inv ≤ R.rnd (b - -R.rnd (z * s)) * inv :=
      mul_le_mul_of_nonneg_right (R.mono (by linarith)) hinv.le
    have h2 := R.mono h1
    have h3 := R.mono (sub_le_sub_right h2 (z : α))
    linarith
  · rw [hlev]
    refine Aux.floor_near R hR (by norm_num) (by push_cast; rw [abs_zero]; linarith) ?_
    obtain ⟨f1, hf1, g1⟩ := Aux.accurate_mul R hR ((z : α) * s)
    obtain ⟨f2, hf2, g2⟩ := Aux.accurate_mul R hR (R.rnd ((z : α) * s) * inv)
    have p1 := Aux.one_add_step (m := 9 / 4) (by norm_num) (by linarith) hsi hf1
    have p2 := Aux.one_add_step (m := 9 / 4 + 5 / 4) (by norm_num) (by linarith) p1 hf2
    rw [zero_sub, neg_neg, R.idem]
    have hY : |R.rnd (R.rnd ((z : α) * s) * inv) - z| ≤ 1 / 16 := by
      have e : R.rnd (R.rnd ((z : α) * s) * inv) - z = z * (s * inv * (1 + f1) * (1 + f2) - 1) := by
        rw [g2, g1]; ring
      rw [e, abs_mul, abs_of_nonneg hzn]
      have := mul_le_mul_of_nonneg_left p2 hzn
      linarith
    obtain ⟨f3, hf3, g3⟩ := Aux.accurate_mul R hR (R.rnd (R.rnd ((z : α) * s) * inv) - z)
    have b3 := abs_le.1 hf3
    rw [g3, Int.cast_zero, sub_zero, abs_mul, abs_of_pos (by linarith : 0 < 1 + f3)]
    nlinarith [abs_nonneg (R.rnd (R.rnd ((z : α) * s) * inv) - z)]
  · rw [hlev]
    rw [sub_self, Aux.rnd_zero, zero_mul, Aux.rnd_zero, zero_sub, R.neg, R.nat z (by omega)]
    have := Aux.floor_near R hR (Y := -(z : α)) (k := -(z : ℤ)) ?_ ?_ ?_
    · exact this
    · rw [abs_neg, abs_of_nonneg (by omega)]
      exact_mod_cast (by omega : z ≤ 2 ^ 24)
    · push_cast
      rw [abs_neg, abs_of_nonneg hzn]
      linarith
    · push_cast
      rw [sub_self, abs_zero]
      norm_num
  · rw [hlev]
    have hNz : (0 : α) ≤ N - z := by linarith
    have hNn : (0 : α) ≤ N := Nat.cast_nonneg N
    have hY := Aux.top_level R hR hz hNε hε1 hs hsi
    generalize R.rnd (R.rnd (R.rnd (((N : α) - z) * s) - -R.rnd (z * s)) * inv) = Y at hY ⊢
    have hYb := abs_le.1 hY
    have hE : |R.rnd (Y - z) - (((N : ℤ) - z : ℤ) : α)| ≤ 1 / 8 := by
      have h1 := hR (Y - z)
      have h2 : |Y - z| ≤ N + 1 := by
        rw [abs_le]
        constructor <;> linarith
      have h3 : ε * |Y - z| ≤ 1 / 128 :=
        (mul_le_mul_of_nonneg_left h2 hε0).trans (by linarith)
      have e : R.rnd (Y - z) - (((N : ℤ) - z : ℤ) : α) = (R.rnd (Y - z) - (Y - z)) + (Y - N) := by
        push_cast; ring
      rw [e]
      refine (abs_add_le _ _).trans ?_
      linarith
    refine Aux.floor_near R hR ?_ ?_ hE
    · rw [abs_of_nonneg (by omega)]
      have : (N : ℤ) ≤ 2 ^ 24 := by exact_mod_cast h24
      omega
    · push_cast
      rw [abs_of_nonneg hNz]
      nlinarith

/-- **C50 in floating-point arithmetic.**  With relative rounding error ε and 2^bits ε ≤ 1/128 (for `float32`: up to 16
bits), the fake quantization of a range that contains zero maps zero exactly to zero, is monotone, and takes only the
values of rounded multiples `k` of the step, for `2^bits` consecutive integers `k` around zero (one fewer with
narrow range). -/
theorem C50_float (R : Rounding α) (ε : α) (hR : R.Accurate ε) (bits : ℕ) (narrow : Bool)
    (hb : 2 ≤ bits) (hb' : bits ≤ 16) (hε : (2 : α) ^ bits * ε ≤ 1 / 128) (lo hi : α) (hlo : lo ≤ 0) (hhi : 0 ≤ hi)
    (hlt : lo < hi) :
    fakeQuantF R bits narrow lo hi 0 = 0 ∧
    Monotone (fakeQuantF R bits narrow lo hi) ∧
    ∃ z : ℤ, 0 ≤ z ∧ z ≤ 2 ^ bits - (if narrow then 2 else 1) ∧
      ∀ x, ∃ k : ℤ, -z ≤ k ∧ k ≤ 2 ^ bits - (if narrow then 2 else 1) - z ∧
        fakeQuantF R bits narrow lo hi x = R.rnd (k * fqScaleF R bits narrow lo hi) := by
  obtain ⟨s, inv, z, hs, hse, hsi, hinv, hz, -, heq⟩ := Aux.fakeQuantF_eq R hR narrow hb hb' hε hlt
  have h4' : 4 ≤ 2 ^ bits := by
    calc 4 = 2 ^ 2 := by norm_num
      _ ≤ 2 ^ bits := Nat.pow_le_pow_right (by norm_num) hb
  have h16 : 2 ^ bits ≤ 2 ^ 16 := Nat.pow_le_pow_right (by norm_num) hb'
  have hNle : fqSteps bits narrow + 1 ≤ 2 ^ bits := by unfold fqSteps quantMax; omega
  have hNz : (fqSteps bits narrow : ℤ) = 2 ^ bits - (if narrow then 2 else 1) := by
    have : (((2 ^ bits : ℕ)) : ℤ) = 2 ^ bits := by push_cast; rfl
    rw [← this]
    unfold fqSteps quantMax quantMin
    cases narrow <;> simp <;> omega
  have hε0 : 0 ≤ ε := by
    have := hR 1
    rw [Aux.rnd_one, sub_self, abs_zero, abs_one, mul_one] at this
    exact this
  set N := fqSteps bits narrow
  have hNε : ((N : α) + 1) * ε ≤ 1 / 128 := by
    have : (N : α) + 1 ≤ 2 ^ bits := by exact_mod_cast hNle
    nlinarith
  obtain ⟨lev, hlev⟩ : ∃ lev : α → ℤ, ∀ c, lev c =
      ⌊R.rnd (R.rnd (R.rnd (R.rnd (c - -R.rnd (z * s)) * inv) - z) + 1 / 2)⌋ := ⟨_, fun _ => rfl⟩
  obtain ⟨l1, l2, l3, l4⟩ := Aux.level_spec R hR hz (by omega) hNε hs hsi hinv lev hlev
  have hzn : (0 : α) ≤ z := Nat.cast_nonneg z
  have hA : 0 ≤ R.rnd ((z : α) * s) := Aux.rnd_nonneg R (mul_nonneg hzn hs.le)
  have hB : 0 ≤ R.rnd (((N : α) - z) * s) := by
    have : (z : α) ≤ N := by exact_mod_cast hz
    exact Aux.rnd_nonneg R (mul_nonneg (by linarith) hs.le)
  have heq' : ∀ x, fakeQuantF R bits narrow lo hi x =
      R.rnd ((lev (max (min x (R.rnd (((N : α) - z) * s))) (-R.rnd (z * s))) : α) * s) := by
    intro x
    rw [hlev]
    exact heq x
  refine ⟨?_, ?_, z, by omega, by rw [← hNz]; exact_mod_cast hz, ?_⟩
  · rw [heq' 0, min_eq_left hB, max_eq_left (by linarith), l2]
    simp [Aux.rnd_zero]
  · intro x y hxy
    rw [heq' x, heq' y]
    refine R.mono (mul_le_mul_of_nonneg_right ?_ hs.le)
    exact_mod_cast l1 (max_le_max (min_le_min hxy le_rfl) le_rfl)
  · intro x
    refine ⟨lev (max (min x (R.rnd (((N : α) - z) * s))) (-R.rnd (z * s))), ?_, ?_, by rw [heq' x, hse]⟩
    · rw [← l3]
      exact l1 (le_max_right _ _)
    · rw [← hNz, ← l4]
      exact l1 (max_le (min_le_right _ _) (by linarith))

/-- The level of an entry of the nudged range is within about half a unit of its position. -/
theorem Aux.level_err (R : Rounding α) {ε s inv : α} (hR : R.Accurate ε) {N z : ℕ} (hz : z ≤ N)
    (hε : ((N : α) + 1) * ε ≤ 1 / 128) (hs : 0 < s) (hsi : |s * inv - 1| ≤ 9 / 4 * ε) (c : α)
    (h1 : -R.rnd (z * s) ≤ c) (h2 : c ≤ R.rnd (((N : α) - z) * s)) :
    |(⌊R.rnd (R.rnd (R.rnd (R.rnd (c - -R.rnd (z * s)) * inv) - z) + 1 / 2)⌋ : α) - c / s| ≤
      1 / 2 + 11 * ((N + 1) * ε) := by
  have hε0 : 0 ≤ ε := by
    have := hR 1
    rw [Aux.rnd_one, sub_self, abs_zero, abs_one, mul_one] at this
    exact this
  have hzn : (0 : α) ≤ z := Nat.cast_nonneg z
  have hzN : (z : α) ≤ N := by exact_mod_cast hz
  have hNz : (0 : α) ≤ N - z := by linarith
  have hNn : (0 : α) ≤ N := Nat.cast_nonneg N
  have hε1 : ε ≤ 1 / 128 := by linarith [mul_nonneg hNn hε0]
  have hNε0 : 0 ≤ (N : α) * ε := mul_nonneg hNn hε0
  have hNε : (N : α) * ε ≤ 1 / 128 := by linarith
  obtain ⟨f1, hf1, g1⟩ := Aux.accurate_mul R hR ((z : α) * s)
  obtain ⟨f2, hf2, g2⟩ := Aux.accurate_mul R hR (((N : α) - z) * s)
  have b1 := abs_le.1 hf1
  have b2 := abs_le.1 hf2
  rw [g1] at h1 ⊢
  rw [g2] at h2
  -- positions in units of the step
  obtain ⟨q, rfl⟩ : ∃ q, c = q * s := ⟨c / s, by field_simp⟩
  rw [mul_div_cancel_right₀ _ hs.ne']
  have hq1 : -(z * (1 + f1)) ≤ q := by
    have : -(z * (1 + f1)) * s ≤ q * s := by linarith
    exact le_of_mul_le_mul_right this hs
  have hq2 : q ≤ ((N : α) - z) * (1 + f2) := by
    have : q * s ≤ ((N : α) - z) * (1 + f2) * s := by linarith
    exact le_of_mul_le_mul_right this hs
  have ezf : z * f1 ≤ N * ε := by nlinarith
  have ezf' : -(N * ε) ≤ z * f1 := by nlinarith
  have enf : ((N : α) - z) * f2 ≤ N * ε := by nlinarith
  have hqa : |q| ≤ N + 1 := by rw [abs_le]; constructor <;> linarith
  have hw0 : 0 ≤ q + z * (1 + f1) := by linarith
  have hw1 : q + z * (1 + f1) ≤ N + 1 := by linarith
  obtain ⟨f3, hf3, g3⟩ := Aux.accurate_mul R hR (q * s - -(z * s * (1 + f1)))
  obtain ⟨f4, hf4, g4⟩ := Aux.accurate_mul R hR (R.rnd (q * s - -(z * s * (1 + f1))) * inv)
  have p1 := Aux.one_add_step (m := 9 / 4) (by norm_num) (by linarith) hsi hf3
  have p2 := Aux.one_add_step (m := 9 / 4 + 5 / 4) (by norm_num) (by linarith) p1 hf4
  have hY : |R.rnd (R.rnd (q * s - -(z * s * (1 + f1))) * inv) - z - q| ≤ 6 * ((N + 1) * ε) := by
    have e : R.rnd (R.rnd (q * s - -(z * s * (1 + f1))) * inv) - z - q =
        (q + z * (1 + f1)) * (s * inv * (1 + f3) * (1 + f4) - 1) + z * f1 := by
      rw [g4, g3]; ring
    rw [e]
    refine (abs_add_le _ _).trans ?_
    rw [abs_mul, abs_of_nonneg hw0]
    have a1 : (q + z * (1 + f1)) * |s * inv * (1 + f3) * (1 + f4) - 1| ≤ (N + 1) * ((9 / 4 + 5 / 4 + 5 / 4) * ε) :=
      mul_le_mul hw1 p2 (abs_nonneg _) (by linarith)
    have a2 : |(z : α) * f1| ≤ N * ε := abs_le.2 ⟨by linarith, ezf⟩
    linarith
  generalize R.rnd (R.rnd (q * s - -(z * s * (1 + f1))) * inv) = Y at hY ⊢
  have hYb := abs_le.1 hY
  have hqb := abs_le.1 hqa
  have hE := hR (Y - z)
  have hYz : |Y - z| ≤ N + 2 := by rw [abs_le]; constructor <;> linarith
  have hE' : |R.rnd (Y - z) - (Y - z)| ≤ 2 * ((N + 1) * ε) :=
    hE.trans ((mul_le_mul_of_nonneg_left hYz hε0).trans (by linarith))
  generalize R.rnd (Y - z) = E at hE' ⊢
  have hEb := abs_le.1 hE'
  have hF := hR (E + 1 / 2)
  have hEz : |E + 1 / 2| ≤ N + 3 := by
    have := abs_le.1 hYz
    rw [abs_le]; constructor <;> linarith
  have hF' : |R.rnd (E + 1 / 2) - (E + 1 / 2)| ≤ 3 * ((N + 1) * ε) :=
    hF.trans ((mul_le_mul_of_nonneg_left hEz hε0).trans (by linarith))
  generalize R.rnd (E + 1 / 2) = V at hF' ⊢
  have hFb := abs_le.1 hF'
  have v1 := Int.floor_le V
  have v2 := Int.lt_floor_add_one V
  rw [abs_le]
  constructor <;> linarith

/-- The nudged range is close to the range. -/
theorem Aux.nudge_close (R : Rounding α) {ε : α} (hR : R.Accurate ε) (bits : ℕ) (narrow : Bool)
    (hb : 2 ≤ bits) {lo hi : α} (hlo : lo ≤ 0) (hhi : 0 ≤ hi) (hlt : lo < hi)
    (hε : ((fqSteps bits narrow : α) + 1) * ε ≤ 1 / 128) {z : ℕ}
    (hzp : fqZeroPointF R bits narrow lo hi = quantMin narrow + z) :
    |(z : α) + lo / fqScaleF R bits narrow lo hi| ≤ 1 / 2 + 6 * ((fqSteps bits narrow + 1) * ε) ∧
    |(hi - lo) / fqScaleF R bits narrow lo hi - fqSteps bits narrow| ≤ 3 * ((fqSteps bits narrow + 1) * ε) := by
  have hε0 : 0 ≤ ε := by
    have := hR 1
    rw [Aux.rnd_one, sub_self, abs_zero, abs_one, mul_one] at this
    exact this
  have hq : (quantMin narrow : ℕ) ≤ 1 := by unfold quantMin; split_ifs <;> norm_num
  have hq' : (quantMin narrow : α) ≤ 1 := by exact_mod_cast hq
  have hq0 : (0 : α) ≤ quantMin narrow := Nat.cast_nonneg _
  have h4 : 4 ≤ 2 ^ bits := by
    calc 4 = 2 ^ 2 := by norm_num
      _ ≤ 2 ^ bits := Nat.pow_le_pow_right (by norm_num) hb
  have hqq : quantMin narrow + fqSteps bits narrow = quantMax bits := by unfold fqSteps quantMax; omega
  have hqq' : (quantMax bits : α) = quantMin narrow + fqSteps bits narrow := by exact_mod_cast hqq.symm
  have hNpos : 0 < fqSteps bits narrow := by unfold fqSteps quantMax; omega
  have hN : (1 : α) ≤ fqSteps bits narrow := by exact_mod_cast hNpos
  have hNε0 : 0 ≤ (fqSteps bits narrow : α) * ε := mul_nonneg (by linarith) hε0
  have hε1 : ε ≤ 1 / 128 := by linarith
  have hW : 0 < hi - lo := by linarith
  obtain ⟨e1, he1, q1⟩ := Aux.accurate_mul R hR (hi - lo)
  have b1 := abs_le.1 he1
  obtain ⟨e2, he2, q2⟩ := Aux.accurate_mul R hR (R.rnd (hi - lo) / (fqSteps bits narrow : α))
  have b2 := abs_le.1 he2
  unfold fqZeroPointF at hzp
  dsimp only at hzp
  have hsc : fqScaleF R bits narrow lo hi = (hi - lo) / fqSteps bits narrow * ((1 + e1) * (1 + e2)) := by
    unfold fqScaleF
    rw [q2, q1]
    ring
  have hs : 0 < fqScaleF R bits narrow lo hi := by
    rw [hsc]
    exact mul_pos (div_pos hW (by linarith)) (mul_pos (by linarith) (by linarith))
  have hP := Aux.one_add_step (a := 1 + e1) (b := e2) (m := 1) (by norm_num) (by linarith) (by simpa using he1) he2
  have hPb := abs_le.1 hP
  set N : α := (fqSteps bits narrow : α) with hNdef
  have hlen : (hi - lo) / fqScaleF R bits narrow lo hi = N / ((1 + e1) * (1 + e2)) := by
    rw [hsc]
    have : (1 + e1) ≠ 0 := by linarith
    have : (1 + e2) ≠ 0 := by linarith
    field_simp
  have hPpos : 0 < (1 + e1) * (1 + e2) := mul_pos (by linarith) (by linarith)
  have hlen' : |(hi - lo) / fqScaleF R bits narrow lo hi - N| ≤ 3 * ((N + 1) * ε) := by
    rw [hlen]
    generalize (1 + e1) * (1 + e2) = P at hP hPb hPpos
    have e : N / P - N = N * (1 - P) / P := by field_simp
    rw [e, abs_div, abs_of_pos hPpos, div_le_iff₀ hPpos, abs_mul, abs_of_nonneg (by linarith : (0 : α) ≤ N), abs_sub_comm]
    have a := mul_le_mul_of_nonneg_left hP (by linarith : (0 : α) ≤ N)
    have hPl : 49 / 50 ≤ P := by linarith
    have : 3 * ((N + 1) * ε) * (49 / 50) ≤ 3 * ((N + 1) * ε) * P :=
      mul_le_mul_of_nonneg_left hPl (by positivity)
    linarith
  refine ⟨?_, hlen'⟩
  set s := fqScaleF R bits narrow lo hi
  -- the position of zero
  obtain ⟨g1, hg1, r1⟩ := Aux.accurate_mul R hR (lo / s)
  obtain ⟨g2, hg2, r2⟩ := Aux.accurate_mul R hR ((quantMin narrow : α) - R.rnd (lo / s))
  have d1 := abs_le.1 hg1
  have d2 := abs_le.1 hg2
  have hl0 : 0 ≤ -(lo / s) := by
    have := div_nonpos_of_nonpos_of_nonneg hlo hs.le
    linarith
  have hlN : -(lo / s) ≤ N + 3 * ((N + 1) * ε) := by
    have : -(lo / s) ≤ (hi - lo) / s := by
      rw [← neg_div]
      exact div_le_div_of_nonneg_right (by linarith) hs.le
    have := (abs_le.1 hlen').2
    linarith
  generalize lo / s = l at *
  have hz1 : |R.rnd ((quantMin narrow : α) - R.rnd l) - (quantMin narrow - l)| ≤ 3 * ((N + 1) * ε) := by
    have e : R.rnd ((quantMin narrow : α) - R.rnd l) - (quantMin narrow - l) =
        (quantMin narrow - l * (1 + g1)) * g2 + (-l) * g1 := by
      rw [r2, r1]; ring
    rw [e]
    refine (abs_add_le _ _).trans ?_
    rw [abs_mul, abs_mul, abs_of_nonneg hl0]
    have m1 : 0 ≤ -l * (1 + g1) := mul_nonneg hl0 (by linarith)
    have m2 : -l * g1 ≤ -l * ε := mul_le_mul_of_nonneg_left d1.2 hl0
    have m3 : -l * ε ≤ (N + 1) * ε := mul_le_mul_of_nonneg_right (by linarith) hε0
    have c0 : 0 ≤ (quantMin narrow : α) - l * (1 + g1) := by linarith
    have c1 : (quantMin narrow : α) - l * (1 + g1) ≤ N + 3 / 2 := by linarith
    rw [abs_of_nonneg c0]
    have a1 : ((quantMin narrow : α) - l * (1 + g1)) * |g2| ≤ (N + 3 / 2) * ε :=
      mul_le_mul c1 hg2 (abs_nonneg _) (by linarith)
    have a2 : -l * |g1| ≤ (N + 1 / 16) * ε := mul_le_mul (by linarith) hg1 (abs_nonneg _) (by linarith)
    linarith
  generalize R.rnd ((quantMin narrow : α) - R.rnd l) = zp at hz1 hzp
  have hzb := abs_le.1 hz1
  split_ifs at hzp with c1 c2
  · have : (z : α) = 0 := by linarith
    rw [this, abs_le]
    constructor <;> linarith
  · have : (z : α) = N := by linarith
    rw [this, abs_le]
    constructor <;> linarith
  · have f1 := Int.floor_le (zp + 1 / 2)
    have f2 := Int.lt_floor_add_one (zp + 1 / 2)
    rw [abs_le]
    constructor <;> linarith

/-- **C50 in floating-point arithmetic (error).**  An entry of the range is moved by at most half a step, up to a relative
rounding error of 12 · 2^bits ε of a step. -/
theorem C50_float_error (R : Rounding α) (ε : α) (hR : R.Accurate ε) (bits : ℕ) (narrow : Bool)
    (hb : 2 ≤ bits) (hb' : bits ≤ 16) (hε : (2 : α) ^ bits * ε ≤ 1 / 128) (lo hi : α) (hlo : lo ≤ 0) (hhi : 0 ≤ hi)
    (hlt : lo < hi) (x : α) (hx1 : lo ≤ x) (hx2 : x ≤ hi) :
    |fakeQuantF R bits narrow lo hi x - x| ≤
      fqScaleF R bits narrow lo hi * (1 / 2 + 12 * (2 ^ bits * ε)) := by
  obtain ⟨s, inv, z, hs, hse, hsi, hinv, hz, hzp, heq⟩ := Aux.fakeQuantF_eq R hR narrow hb hb' hε hlt
  have h4' : 4 ≤ 2 ^ bits := by
    calc 4 = 2 ^ 2 := by norm_num
      _ ≤ 2 ^ bits := Nat.pow_le_pow_right (by norm_num) hb
  have h16 : 2 ^ bits ≤ 2 ^ 16 := Nat.pow_le_pow_right (by norm_num) hb'
  have hNle : fqSteps bits narrow + 1 ≤ 2 ^ bits := by unfold fqSteps quantMax; omega
  have hε0 : 0 ≤ ε := by
    have := hR 1
    rw [Aux.rnd_one, sub_self, abs_zero, abs_one, mul_one] at this
    exact this
  have hN2 : (fqSteps bits narrow : α) + 1 ≤ 2 ^ bits := by exact_mod_cast hNle
  have hNε2 : ((fqSteps bits narrow : α) + 1) * ε ≤ 2 ^ bits * ε := mul_le_mul_of_nonneg_right hN2 hε0
  have hNε : ((fqSteps bits narrow : α) + 1) * ε ≤ 1 / 128 := hNε2.trans hε
  obtain ⟨k1, k2⟩ := Aux.nudge_close R hR bits narrow hb hlo hhi hlt hNε hzp
  rw [← hse] at k1 k2 ⊢
  obtain ⟨lev, hlev⟩ : ∃ lev : α → ℤ, ∀ c, lev c =
      ⌊R.rnd (R.rnd (R.rnd (R.rnd (c - -R.rnd (z * s)) * inv) - z) + 1 / 2)⌋ := ⟨_, fun _ => rfl⟩
  obtain ⟨l1, l2, l3, l4⟩ := Aux.level_spec R hR hz (by omega) hNε hs hsi hinv lev hlev
  have heq' : ∀ x, fakeQuantF R bits narrow lo hi x =
      R.rnd ((lev (max (min x (R.rnd (((fqSteps bits narrow : α) - z) * s))) (-R.rnd (z * s))) : α) * s) := by
    intro x
    rw [hlev]
    exact heq x
  set N := fqSteps bits narrow
  have hzn : (0 : α) ≤ z := Nat.cast_nonneg z
  have hzN : (z : α) ≤ N := by exact_mod_cast hz
  have hA : 0 ≤ R.rnd ((z : α) * s) := Aux.rnd_nonneg R (mul_nonneg hzn hs.le)
  have hB : 0 ≤ R.rnd (((N : α) - z) * s) := Aux.rnd_nonneg R (mul_nonneg (by linarith) hs.le)
  have hNn : (0 : α) ≤ N := Nat.cast_nonneg N
  have hNε3 : (N : α) * ε ≤ (N + 1) * ε := by linarith
  obtain ⟨f1, hf1, g1⟩ := Aux.accurate_mul R hR ((z : α) * s)
  obtain ⟨f2, hf2, g2⟩ := Aux.accurate_mul R hR (((N : α) - z) * s)
  have b1 := abs_le.1 hf1
  have b2 := abs_le.1 hf2
  have k1b := abs_le.1 k1
  have k2b := abs_le.1 k2
  -- the ends of the nudged range
  have hloA : |-R.rnd ((z : α) * s) - lo| ≤ s * (1 / 2 + 12 * (2 ^ bits * ε)) := by
    have e : -R.rnd ((z : α) * s) - lo = s * (-(z + lo / s) - z * f1) := by
      rw [g1]; field_simp; ring
    rw [e, abs_mul, abs_of_pos hs]
    refine mul_le_mul_of_nonneg_left ?_ hs.le
    have : |(z : α) * f1| ≤ N * ε := by
      rw [abs_mul, abs_of_nonneg hzn]
      exact mul_le_mul hzN hf1 (abs_nonneg _) hNn
    have := abs_le.1 this
    rw [abs_le]
    constructor <;> linarith
  have hhiB : |R.rnd (((N : α) - z) * s) - hi| ≤ s * (1 / 2 + 12 * (2 ^ bits * ε)) := by
    have e : R.rnd (((N : α) - z) * s) - hi = s * (-((hi - lo) / s - N) - (z + lo / s) + (N - z) * f2) := by
      rw [g2]; field_simp; ring
    rw [e, abs_mul, abs_of_pos hs]
    refine mul_le_mul_of_nonneg_left ?_ hs.le
    have : |((N : α) - z) * f2| ≤ N * ε := by
      rw [abs_mul, abs_of_nonneg (by linarith : (0 : α) ≤ (N : α) - z)]
      exact mul_le_mul (by linarith) hf2 (abs_nonneg _) hNn
    have := abs_le.1 this
    rw [abs_le]
    constructor <;> linarith
  rw [heq' x]
  rcases lt_or_ge x (-R.rnd ((z : α) * s)) with c1 | c1
  · -- clamped at the lower end
    rw [max_eq_right ((min_le_left _ _).trans c1.le), l3]
    push_cast
    rw [neg_mul, R.neg]
    have := abs_le.1 hloA
    rw [abs_le]
    constructor <;> linarith
  · rcases lt_or_ge (R.rnd (((N : α) - z) * s)) x with c2 | c2
    · rw [min_eq_right c2.le, max_eq_left (by linarith), l4]
      push_cast
      have := abs_le.1 hhiB
      rw [abs_le]
      constructor <;> linarith
    · rw [min_eq_left c2, max_eq_left c1]
      have hk1 : -(z : ℤ) ≤ lev x := by rw [← l3]; exact l1 c1
      have hk2 : lev x ≤ N - z := by rw [← l4]; exact l1 c2
      have he := Aux.level_err R hR hz hNε hs hsi x c1 c2
      rw [← hlev] at he
      have hka : |(lev x : α)| ≤ N := by
        have a1 : (-(z : ℤ) : α) ≤ (lev x : α) := by exact_mod_cast hk1
        have a2 : (lev x : α) ≤ (N : α) - z := by exact_mod_cast hk2
        push_cast at a1
        rw [abs_le]
        constructor <;> linarith
      have hout := hR ((lev x : α) * s)
      rw [abs_mul, abs_of_pos hs] at hout
      have ho : |R.rnd ((lev x : α) * s) - (lev x : α) * s| ≤ s * ((N + 1) * ε) := by
        refine hout.trans ?_
        have := mul_le_mul_of_nonneg_right hka (mul_nonneg hε0 hs.le)
        have h0 : 0 ≤ ε * s := mul_nonneg hε0 hs.le
        linarith
      have e : R.rnd ((lev x : α) * s) - x =
          (R.rnd ((lev x : α) * s) - (lev x : α) * s) + s * ((lev x : α) - x / s) := by
        field_simp
        ring
      rw [e]
      refine (abs_add_le _ _).trans ?_
      rw [abs_mul, abs_of_pos hs]
      have := mul_le_mul_of_nonneg_left he hs.le
      have := mul_le_mul_of_nonneg_left hNε2 hs.le
      linarith

/-- The range `[0, 0]` gives zeros. -/
theorem Aux.fakeQuantF_zero_range (R : Rounding α) (bits : ℕ) (narrow : Bool) (x : α) :
    fakeQuantF R bits narrow 0 0 x = 0 := by
  unfold fakeQuantF
  rw [if_pos ⟨rfl, rfl⟩]

/-- **C50 in floating-point arithmetic (zero).**  After any history of training batches every quantizer maps zero exactly to
zero. -/
theorem C50_float_zero (R : Rounding α) (ε : α) (hR : R.Accurate ε) (d : α) (hd0 : 0 ≤ d) (hd1 : d ≤ 1) (k : QKind)
    (cfg : QCfg) (hb : 2 ≤ cfg.numBits) (hb' : cfg.numBits ≤ 16) (hε : (2 : α) ^ cfg.numBits * ε ≤ 1 / 128)
    (hist : List (List α)) (hp : ∀ b ∈ hist, Spec.FloatBatch R b) :
    fakeQuantF R cfg.numBits cfg.narrow (runF R d k cfg hist).1 (runF R d k cfg hist).2 0 = 0 := by
  obtain ⟨h1, h2, -, -⟩ := C48_float_contains_zero R d hd0 hd1 k cfg hb hist hp
  rcases (h1.trans h2).lt_or_eq with h | h
  · exact (C50_float R ε hR cfg.numBits cfg.narrow hb hb' hε _ _ h1 h2 h).1
  · have e1 : (runF R d k cfg hist).1 = 0 := le_antisymm h1 (h ▸ h2)
    have e2 : (runF R d k cfg hist).2 = 0 := by rw [← h, e1]
    rw [e1, e2]
    exact Aux.fakeQuantF_zero_range R _ _ _

/-- **C52 in floating-point arithmetic.**  A weight that is masked (multiplied by 0, as the prune-preserving quantizer does)
is quantized to exactly zero, after any history. -/
theorem C52_float (R : Rounding α) (ε : α) (hR : R.Accurate ε) (d : α) (hd0 : 0 ≤ d) (hd1 : d ≤ 1) (k : QKind)
    (cfg : QCfg) (hb : 2 ≤ cfg.numBits) (hb' : cfg.numBits ≤ 16) (hε : (2 : α) ^ cfg.numBits * ε ≤ 1 / 128)
    (hist : List (List α)) (hp : ∀ b ∈ hist, Spec.FloatBatch R b) (w : α) :
    fakeQuantF R cfg.numBits cfg.narrow (runF R d k cfg hist).1 (runF R d k cfg hist).2 (R.rnd (w * 0)) = 0 := by
  rw [mul_zero, Aux.rnd_zero]
  exact C50_float_zero R ε hR d hd0 hd1 k cfg hb hb' hε hist hp

/-- **C73 in floating-point arithmetic (stalling).**  The step can be rounded away: in `binary32`, with every
batch ending at 6 - 2^-13, the upper end of the range stays at the initial 6 for ever. -/
theorem C73_float_stall (n : ℕ) :
    (runF (Example.ieee 24 le_rfl) (binary 24 (1 / 1000)) .movingAverage ⟨8, false, false, false⟩
      (List.replicate n [0, (6 - 1 / 2 ^ 13 : ℚ)])).2 = 6 := by
  refine Aux.runF_invariant _ _ _ _ (fun v => v.2 = 6) rfl _ ?_
  intro v b hb hv
  rw [List.eq_of_mem_replicate hb]
  unfold updateF
  dsimp only
  rw [hv]
  decide +kernel

/-- Non-vacuity: an 8-bit symmetric quantizer in `binary32`. -/
example : (Example.ieee (α := ℚ) 24 le_rfl).Accurate (1 / 2 ^ 24) ∧ (2 : ℚ) ^ 8 * (1 / 2 ^ 24) ≤ 1 / 128 ∧
    Spec.FloatBatch (Example.ieee (α := ℚ) 24 le_rfl) [1 / 2, -3 / 4, 1] ∧
    runF (Example.ieee (α := ℚ) 24 le_rfl) (binary 24 (1 / 1000)) .lastValue ⟨8, false, true, false⟩
      [[1 / 2, -3 / 4, 1]] = (-2113665 / 2097152, 1) ∧
    fakeQuantF (Example.ieee (α := ℚ) 24 le_rfl) 8 false (-2113665 / 2097152) 1 1 ≠ 0 := by
  refine ⟨Example.ieee_accurate 24 le_rfl, by norm_num, ⟨by simp, ?_⟩, ?_, ?_⟩
  · show ∀ v ∈ ([1 / 2, -3 / 4, 1] : List ℚ), binary 24 v = v
    decide +kernel
  · decide +kernel
  · decide +kernel

/-! ## Without rounding the formulas are those of the exact model -/

/-- Exact arithmetic. -/
def Example.exactArithmetic : Rounding α := ⟨id, monotone_id, fun _ => rfl, fun _ => rfl, fun _ _ => rfl⟩

theorem Aux.quant_cast {bits : ℕ} (narrow : Bool) (hb : 1 ≤ bits) :
    ((fqSteps bits narrow : ℕ) : α) = (quantMax bits : α) - (quantMin narrow : α) := by
  have h2 : 2 ≤ 2 ^ bits := by
    calc 2 = 2 ^ 1 := by norm_num
      _ ≤ 2 ^ bits := Nat.pow_le_pow_right (by norm_num) hb
  have : (quantMin narrow : ℕ) ≤ quantMax bits := by
    unfold quantMin quantMax; split_ifs <;> omega
  unfold fqSteps
  rw [Nat.cast_sub this]

/-- Without rounding, the kernel is the one of the exact model. -/
theorem C50_float_exact_model (bits : ℕ) (hb : 1 ≤ bits) (narrow : Bool) (lo hi x : α) :
    fakeQuantF Example.exactArithmetic bits narrow lo hi x = fakeQuant bits narrow lo hi x := by
  have e1 : fqScaleF Example.exactArithmetic bits narrow lo hi = fqScale bits narrow lo hi := by
    unfold fqScaleF fqScale
    rw [← Aux.quant_cast narrow hb]
    rfl
  have e2 : fqInvF Example.exactArithmetic bits narrow lo hi = 1 / fqScale bits narrow lo hi := by
    unfold fqInvF fqScale
    rw [← Aux.quant_cast narrow hb, one_div_div]
    rfl
  have e3 : fqZeroPointF Example.exactArithmetic bits narrow lo hi = fqZeroPoint bits narrow lo hi := by
    unfold fqZeroPointF fqZeroPoint
    rw [e1]
    rfl
  unfold fakeQuantF fakeQuant
  rw [e1, e2, e3]
  rfl

/-- Without rounding, one training call updates the range as in the exact model (scalar ranges). -/
theorem C48_float_exact_model (k : QKind) (cfg : QCfg) (hk : cfg.perAxis = false) (lo hi : α) (t : QTensor α) :
    k.update cfg ⟨.scalar lo, .scalar hi⟩ t =
      some ⟨.scalar (updateF Example.exactArithmetic (1 - emaDecay) k cfg (lo, hi) t.data).1,
        .scalar (updateF Example.exactArithmetic (1 - emaDecay) k cfg (lo, hi) t.data).2⟩ := by
  cases k <;> simp only [QKind.update, hk, Bool.false_eq_true, if_false] <;> rfl

/-- Without rounding, the mask is that of the exact model. -/
theorem C05_float_exact_model (s : α) (w : List α) :
    updateMaskF Example.exactArithmetic s w = Sparsity.updateMask s w := by
  unfold updateMaskF Sparsity.updateMask
  have : keepCountF Example.exactArithmetic s w.length = Sparsity.keepCount s w.length := rfl
  rw [this]
  dsimp only
  cases (topKIndices (w.map abs))[Sparsity.keepCount s w.length - 1]? <;> rfl

/-- Without rounding, encoding is that of the exact model. -/
theorem C35_float_exact_model (s : Encoding.UQ α) (p : Encoding.UQParams α) (u : ℕ → α) (x : List α) :
    uqEncodeF Example.exactArithmetic s p u x = s.encode p u x ∧
    ∀ enc, uqDecodeF Example.exactArithmetic s enc p none = s.decode enc p none := by
  constructor
  · unfold uqEncodeF Encoding.UQ.encode
    cases h : p.minMax <;> rfl
  · intro enc
    unfold uqDecodeF Encoding.UQ.decode
    cases h : p.minMax with
    | none =>
      cases h2 : enc.2 with
      | none => rfl
      | some mm =>
        simp only [Option.map_none, Option.none_or, Option.map_some, Option.getD_none, Nat.cast_one, mul_one, ite_self]
        rfl
    | some mm =>
      simp only [Option.map_some, Option.some_or, Option.getD_none, Nat.cast_one, mul_one, ite_self]
      rfl

end Verif.Props
