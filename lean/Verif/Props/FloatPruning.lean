import Verif.Floats.Pruning
import Verif.Props.FloatRounding
import Verif.Props.Mask

/-!
# C03, C05, C06 in rounded arithmetic, and C104
-/

set_option linter.unusedSectionVars false

namespace Verif.Props
open Verif Verif.Floats Verif.Sparsity

section Mask
variable {α : Type*} [Field α] [LinearOrder α] [IsStrictOrderedRing α] [FloorRing α]

/-- The platform's `tf.math.pow(·, power)` on `[0, 1]`: monotone and exact at the ends. -/
def Spec.PowLike (pow : ℝ → ℝ) : Prop :=
  MonotoneOn pow (Set.Icc 0 1) ∧ pow 0 = 0 ∧ pow 1 = 1

theorem Aux.keepCountF_pos (R : Rounding α) (s : α) (n : ℕ) : 1 ≤ keepCountF R s n := by
  unfold keepCountF; omega

theorem Aux.keepCountF_le (R : Rounding α) {s : α} (hs : 0 ≤ s) {n : ℕ} (hn : 0 < n) (hn' : n ≤ 2 ^ 24) :
    keepCountF R s n ≤ n := by
  have h1 : R.rnd (1 - s) ≤ 1 := Aux.rnd_le_one R (by linarith)
  have h2 : R.rnd n * R.rnd (1 - s) ≤ (n : α) := by
    rw [R.nat n hn']
    have : (0 : α) ≤ n := Nat.cast_nonneg n
    nlinarith
  have h3 : R.rnd (R.rnd n * R.rnd (1 - s)) ≤ (n : α) := (R.mono h2).trans_eq (R.nat n hn')
  have h4 := Aux.rhe_mono h3
  have h5 : roundHalfEven (n : α) = n := by exact_mod_cast Aux.round_intCast (α := α) (n : ℤ)
  rw [h5] at h4
  unfold keepCountF
  omega

theorem Aux.keepCountF_anti (R : Rounding α) {s t : α} (h : s ≤ t) (n : ℕ) :
    keepCountF R t n ≤ keepCountF R s n := by
  have h1 : R.rnd (1 - t) ≤ R.rnd (1 - s) := R.mono (by linarith)
  have h0 : 0 ≤ R.rnd (n : α) := Aux.rnd_nonneg R (Nat.cast_nonneg n)
  have h2 := Aux.rhe_mono (R.mono (mul_le_mul_of_nonneg_left h1 h0))
  unfold keepCountF
  omega

/-- Any number of weights to keep is the one of some sparsity in exact arithmetic. -/
theorem Aux.keepCount_of (n k : ℕ) (hk : 1 ≤ k) (hkn : k ≤ n) :
    keepCount (1 - (k : α) / n) n = k ∧ (0 : α) ≤ 1 - (k : α) / n ∧ 1 - (k : α) / n < 1 := by
  have hn : (0 : α) < n := by exact_mod_cast (by omega : 0 < n)
  have hk0 : (0 : α) < k := by exact_mod_cast hk
  refine ⟨?_, ?_, ?_⟩
  · unfold keepCount
    have : (n : α) * (1 - (1 - (k : α) / n)) = ((k : ℤ) : α) := by
      push_cast; field_simp; ring
    rw [this, Aux.round_intCast]
    omega
  · rw [sub_nonneg, div_le_one hn]
    exact_mod_cast hkn
  · have : 0 < (k : α) / n := by positivity
    linarith

theorem Aux.updateMaskF_eq (R : Rounding α) (s : α) (w : List α) (h : keepCountF R s w.length ≤ w.length) :
    updateMaskF R s w = updateMask (1 - (keepCountF R s w.length : α) / w.length) w := by
  unfold updateMaskF updateMask
  rw [(Aux.keepCount_of w.length (keepCountF R s w.length) (Aux.keepCountF_pos R s _) h).1]
  dsimp only
  cases (topKIndices (w.map abs))[keepCountF R s w.length - 1]? <;> rfl

/-- The number of weights to keep out of `n` at sparsity `s` in rounded arithmetic: the rounded product of the
rounded `n` and the rounded `1 - s`, to the nearest integer, but at least one. -/
def Spec.KeepCountF (R : Rounding α) (s : α) (n k : ℕ) : Prop :=
  ∃ r : ℤ, Spec.RoundsTo (R.rnd (R.rnd n * R.rnd (1 - s))) r ∧ (k : ℤ) = max r 1

theorem Aux.keepCountF_spec (R : Rounding α) (s : α) (n k : ℕ) :
    Spec.KeepCountF R s n k ↔ k = keepCountF R s n := by
  constructor
  · rintro ⟨r, hr, hk⟩
    have := Aux.round_unique hr (Aux.round_spec _)
    subst this
    unfold keepCountF
    omega
  · rintro rfl
    exact ⟨_, Aux.round_spec _, by unfold keepCountF; omega⟩

/-- **C05 and C06 in floating-point arithmetic.**  For every monotone rounding, every sparsity at least 0 and
every weight tensor with at most 2^24 entries the mask exists, consists of 0 and 1, keeps at least `k` weights,
at most `k - 1` of them above the threshold, and every pruned weight is smaller in magnitude than every kept
one.  Without two weights of equal magnitude exactly `k` are kept. -/
theorem C05_float (R : Rounding α) (s : α) (hs : 0 ≤ s) (w : List α) (hw : w ≠ [])
    (hn : w.length ≤ 2 ^ 24) :
    ∃ thr m k, updateMaskF R s w = .ok (thr, m) ∧ Spec.KeepCountF R s w.length k ∧ 1 ≤ k ∧ k ≤ w.length ∧
      m.length = w.length ∧ (∀ x ∈ m, x = 0 ∨ x = 1) ∧
      k ≤ Spec.kept m ∧ m.countP (fun x => decide (x = 0)) ≤ w.length - k ∧
      Spec.countAbs w (fun a => thr < a) < k ∧
      (∀ (i j : ℕ) (hi : i < w.length) (hj : j < w.length) (hi' : i < m.length) (hj' : j < m.length),
        m[i] = 0 → m[j] = 1 → |w[i]| < |w[j]|) ∧
      ((w.map abs).Nodup → Spec.kept m = k) := by
  have hpos : 0 < w.length := List.length_pos_of_ne_nil hw
  have hk1 := Aux.keepCountF_pos R s w.length
  have hk2 := Aux.keepCountF_le R hs hpos hn
  obtain ⟨e, s0, s1⟩ := Aux.keepCount_of (α := α) w.length _ hk1 hk2
  obtain ⟨thr, m, h, h1, h2, h3, h4⟩ := C05_magnitude_mask _ s0 s1 w hw
  have hK := Aux.keepCount_spec (1 - (keepCountF R s w.length : α) / w.length) w.length
  rw [e] at hK
  obtain ⟨t1, t2⟩ := h3 _ hK
  obtain ⟨g1, g2, -⟩ := C06_excess_only_ties _ s0 w hw h _ hK
  refine ⟨thr, m, keepCountF R s w.length, ?_, (Aux.keepCountF_spec R s _ _).2 rfl, hk1, hk2, h1, h2, t1, t2, g1,
    h4, fun hd => ?_⟩
  · rw [Aux.updateMaskF_eq R s w hk2, h]
  · refine le_antisymm ?_ t1
    have : Spec.countAbs w (fun a => a = thr) ≤ 1 := by
      rw [Aux.countAbs_map]
      have := List.nodup_iff_count_le_one.1 hd thr
      unfold List.count at this
      refine le_trans (le_of_eq ?_) this
      apply List.countP_congr
      intro x _
      simp
    omega

/-- **C06 in floating-point arithmetic: how many weights are kept.**  With relative rounding error `u`, the
number of weights to keep differs from `max (n (1-s), 1)` by at most `1/2 + 2 u n`; in `float32`, where
`u = 2^-24`, by at most 2. -/
theorem C06_float (R : Rounding α) (u : α) (hR : R.Accurate u) (hu : 0 ≤ u) (s : α) (hs0 : 0 ≤ s) (hs1 : s ≤ 1)
    (n k : ℕ) (hn : n ≤ 2 ^ 24) (hk : Spec.KeepCountF R s n k) :
    |(k : α) - max ((n : α) * (1 - s)) 1| ≤ 1 / 2 + 2 * u * n := by
  obtain ⟨r, ⟨hr, -⟩, hk⟩ := hk
  rw [R.nat n hn] at hr
  have hn0 : (0 : α) ≤ n := Nat.cast_nonneg n
  have a1 := hR (1 - s)
  rw [abs_of_nonneg (by linarith : (0 : α) ≤ 1 - s)] at a1
  have a2 := hR ((n : α) * R.rnd (1 - s))
  have p0 : 0 ≤ R.rnd (1 - s) := Aux.rnd_nonneg R (by linarith)
  have p1 : R.rnd (1 - s) ≤ 1 := Aux.rnd_le_one R (by linarith)
  rw [abs_of_nonneg (mul_nonneg hn0 p0)] at a2
  have b1 : |(n : α) * R.rnd (1 - s) - n * (1 - s)| ≤ u * n := by
    rw [← mul_sub, abs_mul, abs_of_nonneg hn0]
    calc (n : α) * |R.rnd (1 - s) - (1 - s)| ≤ n * (u * (1 - s)) := mul_le_mul_of_nonneg_left a1 hn0
      _ ≤ n * (u * 1) := by
        refine mul_le_mul_of_nonneg_left (mul_le_mul_of_nonneg_left (by linarith) hu) hn0
      _ = u * n := by ring
  have b2 : |R.rnd ((n : α) * R.rnd (1 - s)) - n * R.rnd (1 - s)| ≤ u * n := by
    refine a2.trans (mul_le_mul_of_nonneg_left ?_ hu)
    nlinarith
  have hkr : (k : α) = max (r : α) 1 := by
    have : ((k : ℤ) : α) = ((max r 1 : ℤ) : α) := by rw [hk]
    push_cast at this
    exact this
  rw [hkr]
  refine (abs_max_sub_max_le_abs _ _ _).trans ?_
  have c1 := abs_le.1 hr
  have c2 := abs_le.1 b1
  have c3 := abs_le.1 b2
  rw [abs_le]
  constructor <;> linarith

/-- **C06 in `float32`.** -/
theorem C06_float32 (s : α) (hs0 : 0 ≤ s) (hs1 : s ≤ 1) (n k : ℕ) (hn : n ≤ 2 ^ 24)
    (hk : Spec.KeepCountF (Example.ieee 24 le_rfl) s n k) :
    |(k : α) - max ((n : α) * (1 - s)) 1| ≤ 5 / 2 := by
  refine (C06_float _ _ (Example.ieee_accurate 24 le_rfl) (by positivity) s hs0 hs1 n k hn hk).trans ?_
  have : (n : α) ≤ 2 ^ 24 := by exact_mod_cast hn
  have h2 : (0 : α) < 2 ^ 24 := by positivity
  have h3 : 1 / (2 : α) ^ 24 * n ≤ 1 := by
    rw [one_div, inv_mul_le_iff₀ h2]; linarith
  linarith

/-! ## C104 -/

/-- **C104 (partial).**  In `float32` (and every wider format) the mask of a non-empty weight tensor with at most
2^24 entries can be computed, whatever the sparsity.  Missing: larger tensors, see `C104_violated`. -/
theorem C104_mask_partial (R : Rounding α) (s : α) (hs : 0 ≤ s) (w : List α) (hw : w ≠ [])
    (hn : w.length ≤ 2 ^ 24) : ∃ thr m, updateMaskF R s w = .ok (thr, m) := by
  obtain ⟨thr, m, _, h, -⟩ := C05_float R s hs w hw hn
  exact ⟨thr, m, h⟩

/-- **C104 (when it fails).**  For every rounding, the mask cannot be computed exactly if the number of weights to
keep comes out larger than the number of weights. -/
theorem C104_exact (R : Rounding α) (s : α) (w : List α) :
    updateMaskF R s w = .error .gatherOutOfRange ↔
      ∃ k, Spec.KeepCountF R s w.length k ∧ w.length < k := by
  have hk1 := Aux.keepCountF_pos R s w.length
  have hl : (topKIndices (w.map abs)).length = w.length := by
    rw [Aux.topK_length, List.length_map]
  have key : updateMaskF R s w = .error .gatherOutOfRange ↔ w.length < keepCountF R s w.length := by
    unfold updateMaskF
    dsimp only
    cases h : (topKIndices (w.map abs))[keepCountF R s w.length - 1]? with
    | none =>
      rw [List.getElem?_eq_none_iff, hl] at h
      exact ⟨fun _ => by omega, fun _ => rfl⟩
    | some pos =>
      have : keepCountF R s w.length - 1 < w.length := by
        by_contra hc
        rw [List.getElem?_eq_none (by omega)] at h
        cases h
      refine ⟨fun hh => ?_, fun hh => by omega⟩
      cases hh
  rw [key]
  constructor
  · intro h
    exact ⟨_, (Aux.keepCountF_spec R s _ _).2 rfl, h⟩
  · rintro ⟨k, hk, h⟩
    rw [(Aux.keepCountF_spec R s _ _).1 hk] at h
    exact h

theorem Aux.binary24_up (n : ℕ) (h1 : 2 ^ 24 < n) (h2 : n < 2 ^ 25) (h3 : n % 4 = 3) :
    binary 24 (n : α) = ((n + 1 : ℕ) : α) := by
  have hlog : Int.log 2 |(n : α)| = 24 := by
    rw [abs_of_nonneg (Nat.cast_nonneg n)]
    have : Nat.log 2 n = 24 := by
      rw [Nat.log_eq_iff (by norm_num)]
      exact ⟨h1.le, h2⟩
    have h := Int.log_natCast (R := α) 2 n
    rw [this] at h
    exact_mod_cast h
  have hu : ulp 24 (n : α) = 2 := by
    unfold ulp
    rw [hlog]
    norm_num
  unfold binary
  rw [hu]
  obtain ⟨j, rfl⟩ : ∃ j, n = 4 * j + 3 := ⟨n / 4, by omega⟩
  have : roundHalfEven (((4 * j + 3 : ℕ) : α) / 2) = 2 * (j : ℤ) + 2 := by
    refine Aux.round_unique (Aux.round_spec _) ⟨?_, fun _ => ⟨(j : ℤ) + 1, by ring⟩⟩
    push_cast
    rw [abs_le]
    constructor <;> linarith
  rw [this]
  push_cast
  ring

/-- **C104 (violated).**  In `float32`, the mask of a weight tensor with n entries, 2^24 < n < 2^25, n ≡ 3 mod 4,
cannot be computed at sparsity 0 (the start of a ramp with `initial_sparsity=0`): n is
rounded up, and the index of the threshold is out of range. -/
theorem C104_violated (w : List α) (h1 : 2 ^ 24 < w.length) (h2 : w.length < 2 ^ 25)
    (h3 : w.length % 4 = 3) :
    updateMaskF (Example.ieee 24 le_rfl) 0 w = .error .gatherOutOfRange := by
  rw [C104_exact]
  have hr : (Example.ieee (α := α) 24 le_rfl).rnd (w.length : α) = ((w.length + 1 : ℕ) : α) :=
    Aux.binary24_up _ h1 h2 h3
  refine ⟨w.length + 1, ⟨((w.length + 1 : ℕ) : ℤ), ?_, by omega⟩, by omega⟩
  rw [sub_zero, Aux.rnd_one, mul_one, Rounding.idem, hr]
  have : roundHalfEven ((w.length + 1 : ℕ) : α) = ((w.length + 1 : ℕ) : ℤ) := by
    exact_mod_cast Aux.round_intCast (α := α) ((w.length + 1 : ℕ) : ℤ)
  rw [← this]
  exact Aux.round_spec _

/-- Such tensors exist, and smaller ones for which the mask is computed. -/
example : 2 ^ 24 < (List.replicate 16777219 (1 : ℚ)).length ∧
    (List.replicate 16777219 (1 : ℚ)).length < 2 ^ 25 ∧ (List.replicate 16777219 (1 : ℚ)).length % 4 = 3 := by
  rw [List.length_replicate]
  norm_num

example : updateMaskF (Example.ieee 24 le_rfl) (1/2 : ℚ) [3, -1, 2, -5, 0] = .ok (3, [1, 0, 0, 1, 0]) := by
  decide +kernel

end Mask

/-! ## C03 in floating-point arithmetic -/

theorem Aux.progressF_mem (S : Rounding ℝ) (b e step : ℤ) :
    0 ≤ progressF S b e step ∧ progressF S b e step ≤ 1 :=
  ⟨le_min zero_le_one (le_max_left _ _), min_le_left _ _⟩

theorem Aux.progressF_mono (S : Rounding ℝ) {b e s t : ℤ} (hbe : b < e) (h : s ≤ t) :
    progressF S b e s ≤ progressF S b e t := by
  unfold progressF
  refine min_le_min le_rfl (max_le_max le_rfl (S.mono ?_))
  refine div_le_div_of_nonneg_right (S.mono ?_) (Aux.rnd_nonneg S ?_)
  · exact_mod_cast (by omega : s - b ≤ t - b)
  · exact_mod_cast (by omega : 0 ≤ e - b)

theorem Aux.rem_mem (S : Rounding ℝ) (b e step : ℤ) :
    S.rnd (1 - progressF S b e step) ∈ Set.Icc (0 : ℝ) 1 := by
  obtain ⟨h0, h1⟩ := Aux.progressF_mem S b e step
  exact ⟨Aux.rnd_nonneg S (by linarith), Aux.rnd_le_one S (by linarith)⟩

theorem Aux.pow_mem {pow : ℝ → ℝ} (hp : Spec.PowLike pow) {x : ℝ} (hx : x ∈ Set.Icc (0 : ℝ) 1) :
    0 ≤ pow x ∧ pow x ≤ 1 := by
  obtain ⟨hm, h0, h1⟩ := hp
  constructor
  · rw [← h0]; exact hm ⟨le_rfl, zero_le_one⟩ hx hx.1
  · rw [← h1]; exact hm hx ⟨zero_le_one, le_rfl⟩ hx.2

/-- **C03 in floating-point arithmetic: range.**  Let `S` be the rounding of `float32`, `D` the one of
`float64`, and `pow` any monotone power function.  A ramp from `i ≥ 0` up to `f` never leaves `[0, f]` (`f`
converted to `float32`); a ramp down never falls below `f`. -/
theorem C03_float_range (S D : Rounding ℝ) (pow : ℝ → ℝ) (hp : Spec.PowLike pow) (i f : ℝ) (hi : 0 ≤ i)
    (hf : D.rnd f = f) (b e step : ℤ) :
    (i ≤ f → 0 ≤ sparsityF S D pow i f b e step ∧ sparsityF S D pow i f b e step ≤ S.rnd f) ∧
    (f ≤ i → S.rnd f ≤ sparsityF S D pow i f b e step) := by
  obtain ⟨w0, w1⟩ := Aux.pow_mem hp (Aux.rem_mem S b e step)
  unfold sparsityF
  generalize pow (S.rnd (1 - progressF S b e step)) = w at w0 w1 ⊢
  have hD : -f ≤ D.rnd (i - f) := by
    have := D.mono (by linarith : -f ≤ i - f)
    rwa [D.neg, hf] at this
  have hS : -S.rnd f ≤ S.rnd (D.rnd (i - f)) := by
    rw [← S.neg]; exact S.mono hD
  constructor
  · intro h
    have hD' : D.rnd (i - f) ≤ 0 := by
      have := D.mono (by linarith : i - f ≤ 0)
      rwa [Aux.rnd_zero] at this
    have hS' : S.rnd (D.rnd (i - f)) ≤ 0 := by
      have := S.mono hD'
      rwa [Aux.rnd_zero] at this
    generalize S.rnd (D.rnd (i - f)) = A at hS hS' ⊢
    have h1 : A * w ≤ 0 := mul_nonpos_of_nonpos_of_nonneg hS' w0
    have h2 : -S.rnd f ≤ A * w := by nlinarith
    have h3 : S.rnd (A * w) ≤ 0 := by
      have := S.mono h1
      rwa [Aux.rnd_zero] at this
    have h4 : -S.rnd f ≤ S.rnd (A * w) := by
      have := S.mono h2
      rwa [S.neg, S.idem] at this
    constructor
    · exact Aux.rnd_nonneg S (by linarith)
    · have := S.mono (by linarith : S.rnd (A * w) + S.rnd f ≤ S.rnd f)
      rwa [S.idem] at this
  · intro h
    have hS' : 0 ≤ S.rnd (D.rnd (i - f)) := Aux.rnd_nonneg S (Aux.rnd_nonneg D (by linarith))
    have h3 : 0 ≤ S.rnd (S.rnd (D.rnd (i - f)) * w) := Aux.rnd_nonneg S (mul_nonneg hS' w0)
    have := S.mono (by linarith : S.rnd f ≤ S.rnd (S.rnd (D.rnd (i - f)) * w) + S.rnd f)
    rwa [S.idem] at this

/-- **C03 in floating-point arithmetic: monotone.**  Upward ramps never go down and downward ramps never up. -/
theorem C03_float_monotone (S D : Rounding ℝ) (pow : ℝ → ℝ) (hp : Spec.PowLike pow) (i f : ℝ) (b e : ℤ)
    (hbe : b < e) {s t : ℤ} (hst : s ≤ t) :
    (i ≤ f → sparsityF S D pow i f b e s ≤ sparsityF S D pow i f b e t) ∧
    (f ≤ i → sparsityF S D pow i f b e t ≤ sparsityF S D pow i f b e s) := by
  have hw : pow (S.rnd (1 - progressF S b e t)) ≤ pow (S.rnd (1 - progressF S b e s)) := by
    refine hp.1 (Aux.rem_mem S b e t) (Aux.rem_mem S b e s) (S.mono ?_)
    linarith [Aux.progressF_mono S hbe hst]
  unfold sparsityF
  constructor
  · intro h
    have hS' : S.rnd (D.rnd (i - f)) ≤ 0 := by
      have := S.mono (D.mono (by linarith : i - f ≤ 0))
      rwa [Aux.rnd_zero, Aux.rnd_zero] at this
    refine S.mono (add_le_add_left (S.mono ?_) _)
    exact mul_le_mul_of_nonpos_left hw hS'
  · intro h
    have hS' : 0 ≤ S.rnd (D.rnd (i - f)) := Aux.rnd_nonneg S (Aux.rnd_nonneg D (by linarith))
    refine S.mono (add_le_add_left (S.mono ?_) _)
    exact mul_le_mul_of_nonneg_left hw hS'

/-- **C03 in floating-point arithmetic: the ends.**  From `end_step` on the sparsity is exactly `f` (converted to
`float32`), and a ramp from 0 is exactly 0 until `begin_step`. -/
theorem C03_float_ends (S D : Rounding ℝ) (pow : ℝ → ℝ) (hp : Spec.PowLike pow) (i f : ℝ) (hf : D.rnd f = f)
    (b e step : ℤ) (hbe : b < e) :
    (e ≤ step → sparsityF S D pow i f b e step = S.rnd f) ∧
    (step ≤ b → i = 0 → sparsityF S D pow i f b e step = 0) := by
  have hL : 1 ≤ S.rnd ((e - b : ℤ) : ℝ) := by
    have : (1 : ℝ) ≤ ((e - b : ℤ) : ℝ) := by exact_mod_cast (by omega : 1 ≤ e - b)
    have := S.mono this
    rwa [Aux.rnd_one] at this
  constructor
  · intro h
    have h1 : S.rnd ((e - b : ℤ) : ℝ) ≤ S.rnd ((step - b : ℤ) : ℝ) :=
      S.mono (by exact_mod_cast (by omega : e - b ≤ step - b))
    have h2 : (1 : ℝ) ≤ S.rnd (S.rnd ((step - b : ℤ) : ℝ) / S.rnd ((e - b : ℤ) : ℝ)) := by
      have : (1 : ℝ) ≤ S.rnd ((step - b : ℤ) : ℝ) / S.rnd ((e - b : ℤ) : ℝ) := by
        rw [le_div_iff₀ (by linarith)]; linarith
      have := S.mono this
      rwa [Aux.rnd_one] at this
    have hpr : progressF S b e step = 1 := by
      unfold progressF
      rw [max_eq_right (by linarith), min_eq_left h2]
    unfold sparsityF
    rw [hpr, sub_self, Aux.rnd_zero, hp.2.1, mul_zero, Aux.rnd_zero, zero_add, S.idem]
  · intro h hi
    have h2 : S.rnd (S.rnd ((step - b : ℤ) : ℝ) / S.rnd ((e - b : ℤ) : ℝ)) ≤ 0 := by
      have h3 : S.rnd ((step - b : ℤ) : ℝ) ≤ 0 := by
        have : ((step - b : ℤ) : ℝ) ≤ 0 := by exact_mod_cast (by omega : step - b ≤ 0)
        have := S.mono this
        rwa [Aux.rnd_zero] at this
      have := S.mono (div_nonpos_of_nonpos_of_nonneg h3 (by linarith : (0 : ℝ) ≤ S.rnd ((e - b : ℤ) : ℝ)))
      rwa [Aux.rnd_zero] at this
    have hpr : progressF S b e step = 0 := by
      unfold progressF
      rw [max_eq_left h2, min_eq_right zero_le_one]
    unfold sparsityF
    rw [hpr, sub_zero, Aux.rnd_one, hp.2.2, mul_one, hi, zero_sub, D.neg, hf, S.neg, S.neg, S.idem]
    rw [neg_add_cancel, Aux.rnd_zero]

/-- **C03 and C06 in floating-point arithmetic.**  Along an upward ramp the number of weights kept never
increases. -/
theorem C03_float_kept (S D : Rounding ℝ) (pow : ℝ → ℝ) (hp : Spec.PowLike pow) (i f : ℝ) (hif : i ≤ f)
    (b e : ℤ) (hbe : b < e) {s t : ℤ} (hst : s ≤ t) (n k l : ℕ)
    (hk : Spec.KeepCountF S (sparsityF S D pow i f b e s) n k)
    (hl : Spec.KeepCountF S (sparsityF S D pow i f b e t) n l) : l ≤ k := by
  rw [(Aux.keepCountF_spec _ _ _ _).1 hk, (Aux.keepCountF_spec _ _ _ _).1 hl]
  exact Aux.keepCountF_anti S ((C03_float_monotone S D pow hp i f b e hbe hst).1 hif) n

/-- The default power 3, correctly rounded, in IEEE 754 arithmetic meets the hypotheses. -/
example : Spec.PowLike (fun x => (Example.ieee (α := ℝ) 24 le_rfl).rnd (x ^ 3)) := by
  refine ⟨fun x hx y _ h => Rounding.mono _ (pow_le_pow_left₀ hx.1 h 3), ?_, ?_⟩
  · dsimp only
    rw [zero_pow (by norm_num), Aux.rnd_zero]
  · dsimp only
    rw [one_pow, Aux.rnd_one]

end Verif.Props
