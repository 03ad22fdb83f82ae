import Verif.Floats.Uniform
import Verif.Props.FloatRounding
import Verif.Props.Uniform

/-!
# C35 in rounded arithmetic
-/

set_option linter.unusedSectionVars false

namespace Verif.Props
open Verif Verif.Floats Verif.Clustering Verif.Encoding

variable {α : Type*} [Field α] [LinearOrder α] [IsStrictOrderedRing α] [FloorRing α]

/-- `lo`, `hi` is the quantized interval: the configured one in the format of the input, or the extreme values
of the input. -/
def Spec.IsRangeF (R : Rounding α) (minMax : Option (List α)) (x : List α) (lo hi : α) : Prop :=
  match minMax with
  | some mm => mm.map R.rnd = [lo, hi]
  | none => Spec.IsMin lo x ∧ Spec.IsMax hi x

theorem Aux.maxValue_le {b : ℕ} (h : b ≤ 16) : 2 ^ b - 1 ≤ 2 ^ 24 := by
  have : 2 ^ b ≤ 2 ^ 24 := Nat.pow_le_pow_right (by norm_num) (by omega)
  omega

theorem Aux.rnd_int (R : Rounding α) {z : ℤ} (h0 : 0 ≤ z) (h : z ≤ 2 ^ 24) : R.rnd (z : α) = z := by
  obtain ⟨n, rfl⟩ := Int.eq_ofNat_of_zero_le h0
  exact_mod_cast R.nat n (by exact_mod_cast h)

theorem Aux.scaleF_mem (R : Rounding α) {lo hi v : α} {M : ℕ} (hM : M ≤ 2 ^ 24) (h1 : lo ≤ v) (h2 : v ≤ hi) :
    0 ≤ uqScaleF R lo hi M v ∧ uqScaleF R lo hi M v ≤ M := by
  unfold uqScaleF
  rw [R.nat M hM]
  have hM0 : (0 : α) ≤ M := Nat.cast_nonneg M
  have hd : 0 ≤ R.rnd (v - lo) := Aux.rnd_nonneg R (by linarith)
  have hdw : R.rnd (v - lo) ≤ R.rnd (hi - lo) := R.mono (by linarith)
  have hq : 0 ≤ divideNoNan (R.rnd (v - lo)) (R.rnd (hi - lo)) ∧
      divideNoNan (R.rnd (v - lo)) (R.rnd (hi - lo)) ≤ 1 := by
    unfold divideNoNan
    split_ifs with h
    · exact ⟨le_rfl, zero_le_one⟩
    · have hw : 0 < R.rnd (hi - lo) := lt_of_le_of_ne (hd.trans hdw) (Ne.symm h)
      exact ⟨div_nonneg hd hw.le, (div_le_one hw).2 hdw⟩
  have a := Aux.rnd_nonneg R hq.1
  have b := Aux.rnd_le_one R hq.2
  refine ⟨Aux.rnd_nonneg R (mul_nonneg a hM0), ?_⟩
  have : R.rnd (divideNoNan (R.rnd (v - lo)) (R.rnd (hi - lo))) * M ≤ (M : α) := by nlinarith
  exact (R.mono this).trans_eq (R.nat M hM)

/-- The rounding of one entry: `⌊y⌋` or `⌊y⌋ + 1`, and the latter only if `y` is not an integer. -/
theorem Aux.roundF_cases (R : Rounding α) {u y : α} {M : ℕ} (hM : M ≤ 2 ^ 24) (b : Bool) (hu : 0 ≤ u)
    (h0 : 0 ≤ y) (h1 : y ≤ M) :
    ∃ k : ℕ, uqRoundF R b u y = k ∧ k ≤ M ∧ |(k : α) - y| ≤ 1 ∧ (b = false → |(k : α) - y| ≤ 1 / 2) := by
  cases b with
  | false =>
    obtain ⟨k, hk, hkM⟩ := Aux.round_range (M := M) false hu h0 h1
    have e := Aux.round_err false y hu
    rw [hk] at e
    refine ⟨k, ?_, hkM, e.1.le, fun _ => e.2 rfl⟩
    rw [← hk]
    rfl
  | true =>
    have hf := Int.floor_le y
    have hf' := Int.lt_floor_add_one y
    have hf0 : 0 ≤ ⌊y⌋ := Int.floor_nonneg.2 h0
    have hfM : ⌊y⌋ ≤ M := by exact_mod_cast hf.trans h1
    have h24 : (M : ℤ) ≤ 2 ^ 24 := by exact_mod_cast hM
    unfold uqRoundF
    simp only [if_true]
    split_ifs with h
    · have hne : y ≠ ⌊y⌋ := by
        intro he
        rw [show y - (⌊y⌋ : α) = 0 by linarith, Aux.rnd_zero] at h
        linarith
      have hlt : ⌊y⌋ + 1 ≤ M := by
        have : (⌊y⌋ : α) < M := lt_of_lt_of_le (lt_of_le_of_ne hf (Ne.symm hne)) h1
        have : ⌊y⌋ < M := by exact_mod_cast this
        omega
      have hc : (((⌊y⌋ + 1).toNat : ℕ) : α) = (⌊y⌋ : α) + 1 := by
        have : (((⌊y⌋ + 1).toNat : ℕ) : ℤ) = ⌊y⌋ + 1 := Int.toNat_of_nonneg (by omega)
        exact_mod_cast congrArg (fun z : ℤ => (z : α)) this
      refine ⟨(⌊y⌋ + 1).toNat, ?_, by omega, ?_, by simp⟩
      · rw [hc]
        have := Aux.rnd_int R (z := ⌊y⌋ + 1) (by omega) (by omega)
        push_cast at this
        exact this
      · rw [hc, abs_le]; constructor <;> linarith
    · have hc : ((⌊y⌋.toNat : ℕ) : α) = (⌊y⌋ : α) := by
        have : ((⌊y⌋.toNat : ℕ) : ℤ) = ⌊y⌋ := Int.toNat_of_nonneg hf0
        exact_mod_cast congrArg (fun z : ℤ => (z : α)) this
      refine ⟨⌊y⌋.toNat, ?_, by omega, ?_, by simp⟩
      · rw [hc, add_zero]
        exact Aux.rnd_int R hf0 (by omega)
      · rw [hc, abs_le]; constructor <;> linarith

theorem Aux.encodeF_spec (R : Rounding α) {bits : ℤ} {minMax : Option (List α)} {st : Bool} {s : UQ α}
    (h : UQ.new bits minMax st = .ok s) (u : ℕ → α) (x : List α) {lo hi : α} (hx : x ≠ [])
    (hr : Spec.IsRangeF R minMax x lo hi) :
    lo ≤ hi ∧ (uqEncodeF R s s.getParams u x).1 = x.mapIdx (fun i v =>
      uqRoundF R st (u i) (uqScaleF R lo hi (2 ^ bits.toNat - 1) (Spec.clip lo hi v))) ∧
    uqDecodeF R s (uqEncodeF R s s.getParams u x) s.getParams none =
      some ((uqEncodeF R s s.getParams u x).1.map (uqDecodeEntryF R lo hi (2 ^ bits.toNat - 1) lo)) := by
  obtain ⟨h1, h2, hb, hs, h3⟩ := Aux.new_spec h
  rcases h3 with ⟨rfl, hm⟩ | ⟨a, b, hab, rfl, hm⟩
  · obtain ⟨r1, r2⟩ := hr
    have e1 : reduceMin x = lo := Aux.isMin_unique (Aux.reduceMin_isMin hx) r1
    have e2 : reduceMax x = hi := le_antisymm (r2.2 _ (Aux.reduceMax_isMax hx).1)
      ((Aux.reduceMax_isMax hx).2 _ r2.1)
    refine ⟨r1.2 _ r2.1, ?_, ?_⟩
    · simp only [uqEncodeF, UQ.getParams, hm, hb, hs, e1, e2]
      apply List.ext_getElem (by simp)
      intro i h1 h2
      simp only [List.getElem_mapIdx]
      have hmem := List.getElem_mem (l := x) (by simpa using h1)
      rw [Aux.clip_of_mem (r1.2 _ hmem) (r2.2 _ hmem)]
    · simp [uqDecodeF, uqEncodeF, UQ.getParams, hm, hb, e1, e2]
  · simp only [Spec.IsRangeF, List.map_cons, List.map_nil, List.cons.injEq, and_true] at hr
    obtain ⟨rfl, rfl⟩ := hr
    have hab' : R.rnd a ≤ R.rnd b := R.mono hab.le
    refine ⟨hab', ?_, ?_⟩
    · simp only [uqEncodeF, UQ.getParams, hm, hb, hs, Aux.clip_eq _ _ _ hab']
    · simp [uqDecodeF, uqEncodeF, UQ.getParams, hm, hb]

theorem Aux.rangeF_exists (R : Rounding α) {bits : ℤ} {minMax : Option (List α)} {st : Bool} {s : UQ α}
    (h : UQ.new bits minMax st = .ok s) (x : List α) (hx : x ≠ []) :
    ∃ lo hi, Spec.IsRangeF R minMax x lo hi := by
  obtain ⟨-, -, -, -, h3⟩ := Aux.new_spec h
  rcases h3 with ⟨rfl, hm⟩ | ⟨a, b, hab, rfl, hm⟩
  · exact ⟨_, _, Aux.reduceMin_isMin hx, Aux.reduceMax_isMax hx⟩
  · exact ⟨R.rnd a, R.rnd b, rfl⟩

/-- **C35 in floating-point arithmetic (levels).**  For every rounding, every encoded value is exactly an integer
in `[0, 2^bits - 1]`. -/
theorem C35_float_levels (R : Rounding α) (bits : ℤ) (minMax : Option (List α)) (st : Bool) (s : UQ α)
    (h : UQ.new bits minMax st = .ok s) (u : ℕ → α) (hu : ∀ i, 0 ≤ u i) (x : List α) (hx : x ≠ []) :
    (uqEncodeF R s s.getParams u x).1.length = x.length ∧
    ∀ q ∈ (uqEncodeF R s s.getParams u x).1, ∃ k : ℕ, q = k ∧ k ≤ 2 ^ bits.toNat - 1 := by
  obtain ⟨lo, hi, hr⟩ := Aux.rangeF_exists R h x hx
  obtain ⟨hlo, he, -⟩ := Aux.encodeF_spec R h u x hx hr
  have h16 := (Aux.new_spec h).2.1
  have hM := Aux.maxValue_le (b := bits.toNat) (by omega)
  rw [he]
  refine ⟨by simp, ?_⟩
  intro q hq
  obtain ⟨i, hi', rfl⟩ := List.getElem_of_mem hq
  simp only [List.getElem_mapIdx]
  obtain ⟨c1, c2⟩ := Aux.clip_mem lo hi (x[i]'(by simpa using hi')) hlo
  obtain ⟨m1, m2⟩ := Aux.scaleF_mem R hM c1 c2
  obtain ⟨k, hk, hkM, -⟩ := Aux.roundF_cases R hM st (hu i) m1 m2
  exact ⟨k, hk, hkM⟩

/-- One rounding as a relative perturbation. -/
theorem Aux.accurate_mul (R : Rounding α) {ε : α} (hR : R.Accurate ε) (x : α) :
    ∃ e, |e| ≤ ε ∧ R.rnd x = x * (1 + e) := by
  rcases eq_or_ne x 0 with h | h
  · subst h
    exact ⟨0, by have := hR 1; rw [Aux.rnd_one, sub_self, abs_zero, abs_one, mul_one] at this; simpa using this,
      by rw [Aux.rnd_zero]; ring⟩
  · refine ⟨(R.rnd x - x) / x, ?_, by field_simp; ring⟩
    rw [abs_div, div_le_iff₀ (abs_pos.2 h)]
    exact hR x

theorem Aux.one_add_mul {a b A B : α} (ha : |a| ≤ A) (hb : |b| ≤ B) :
    |(1 + a) * (1 + b) - 1| ≤ A + B + A * B := by
  have hA : 0 ≤ A := (abs_nonneg a).trans ha
  have e : (1 + a) * (1 + b) - 1 = a + b + a * b := by ring
  rw [e]
  calc |a + b + a * b| ≤ |a| + |b| + |a * b| := (abs_add_le _ _).trans (add_le_add_left (abs_add_le _ _) _)
    _ ≤ A + B + A * B := by
      rw [abs_mul]
      have := mul_le_mul ha hb (abs_nonneg b) hA
      linarith

theorem Aux.one_add_mul3 {a b c ε : α} (hε : ε ≤ 1 / 16) (ha : |a| ≤ ε) (hb : |b| ≤ ε) (hc : |c| ≤ ε) :
    |(1 + a) * (1 + b) * (1 + c) - 1| ≤ 7 / 2 * ε := by
  have hε0 : 0 ≤ ε := (abs_nonneg a).trans ha
  have h1 := Aux.one_add_mul ha hb
  have h2 := Aux.one_add_mul h1 hc
  rw [show (1 + ((1 + a) * (1 + b) - 1)) * (1 + c) - 1 = (1 + a) * (1 + b) * (1 + c) - 1 by ring] at h2
  refine h2.trans ?_
  have : ε * ε ≤ 1 / 16 * ε := mul_le_mul_of_nonneg_right hε hε0
  nlinarith

/-- The error of scaling one entry. -/
theorem Aux.scaleF_err (R : Rounding α) {ε : α} (hR : R.Accurate ε) (hε : ε ≤ 1 / 16) {lo hi v : α} {M : ℕ}
    (hM : M ≤ 2 ^ 24) (h1 : lo ≤ v) (h2 : v ≤ hi) (hlt : lo < hi) :
    |uqScaleF R lo hi M v - M * ((v - lo) / (hi - lo))| ≤ M * (5 * ε) := by
  obtain ⟨e1, he1, q1⟩ := Aux.accurate_mul R hR (v - lo)
  obtain ⟨e2, he2, q2⟩ := Aux.accurate_mul R hR (hi - lo)
  have hε0 : 0 ≤ ε := (abs_nonneg e1).trans he1
  have hW : 0 < hi - lo := by linarith
  have b2 := abs_le.1 he2
  have hpos : 0 < 1 + e2 := by linarith
  have hw : R.rnd (hi - lo) ≠ 0 := by rw [q2]; exact (mul_pos hW hpos).ne'
  unfold uqScaleF
  rw [R.nat M hM]
  unfold divideNoNan
  rw [if_neg hw]
  obtain ⟨e3, he3, q3⟩ := Aux.accurate_mul R hR (R.rnd (v - lo) / R.rnd (hi - lo))
  obtain ⟨e4, he4, q4⟩ := Aux.accurate_mul R hR (R.rnd (R.rnd (v - lo) / R.rnd (hi - lo)) * M)
  rw [q4, q3, q1, q2]
  set t := (v - lo) / (hi - lo) with ht
  have t0 : 0 ≤ t := div_nonneg (by linarith) hW.le
  have t1 : t ≤ 1 := (div_le_one hW).2 (by linarith)
  have hM0 : (0 : α) ≤ M := Nat.cast_nonneg M
  have e : (v - lo) * (1 + e1) / ((hi - lo) * (1 + e2)) * (1 + e3) * M * (1 + e4) - M * t =
      M * (t * (((1 + e1) * (1 + e3) * (1 + e4) - 1 - e2) / (1 + e2))) := by
    rw [ht]
    field_simp
    ring
  rw [e, abs_mul, abs_of_nonneg hM0]
  refine mul_le_mul_of_nonneg_left ?_ hM0
  rw [abs_mul, abs_of_nonneg t0, abs_div, abs_of_pos hpos]
  have h3 := Aux.one_add_mul3 hε he1 he3 he4
  have h4 : |(1 + e1) * (1 + e3) * (1 + e4) - 1 - e2| ≤ 9 / 2 * ε := by
    refine (abs_sub _ _).trans ?_
    linarith
  have h5 : |(1 + e1) * (1 + e3) * (1 + e4) - 1 - e2| / (1 + e2) ≤ 5 * ε := by
    rw [div_le_iff₀ hpos]
    have : ε * ε ≤ 1 / 16 * ε := mul_le_mul_of_nonneg_right hε hε0
    nlinarith
  have h6 : 0 ≤ |(1 + e1) * (1 + e3) * (1 + e4) - 1 - e2| / (1 + e2) := div_nonneg (abs_nonneg _) hpos.le
  nlinarith

/-- The error of decoding one level. -/
theorem Aux.decodeF_err (R : Rounding α) {ε : α} (hR : R.Accurate ε) (hε : ε ≤ 1 / 16) {lo hi : α} {M k : ℕ}
    (hM : M ≤ 2 ^ 24) (hM0 : 0 < M) (hk : k ≤ M) (h : lo ≤ hi) :
    |uqDecodeEntryF R lo hi M lo (k : α) - ((k : α) / M * (hi - lo) + lo)| ≤ ε * (6 * (hi - lo) + |lo|) := by
  unfold uqDecodeEntryF
  rw [R.nat M hM]
  obtain ⟨e1, he1, q1⟩ := Aux.accurate_mul R hR ((k : α) / M)
  obtain ⟨e2, he2, q2⟩ := Aux.accurate_mul R hR (hi - lo)
  obtain ⟨e3, he3, q3⟩ := Aux.accurate_mul R hR (R.rnd ((k : α) / M) * R.rnd (hi - lo))
  have hε0 : 0 ≤ ε := (abs_nonneg e1).trans he1
  have hMp : (0 : α) < M := by exact_mod_cast hM0
  have hkM : (k : α) ≤ M := by exact_mod_cast hk
  have p0 : 0 ≤ (k : α) / M := div_nonneg (Nat.cast_nonneg k) hMp.le
  have p1 : (k : α) / M ≤ 1 := (div_le_one hMp).2 hkM
  have hW : 0 ≤ hi - lo := by linarith
  set p := (k : α) / M
  set z := R.rnd (R.rnd p * R.rnd (hi - lo))
  have h3 := Aux.one_add_mul3 hε he1 he2 he3
  have hz : |z - p * (hi - lo)| ≤ 7 / 2 * ε * (hi - lo) := by
    have e : z - p * (hi - lo) = p * (hi - lo) * ((1 + e1) * (1 + e2) * (1 + e3) - 1) := by
      rw [q3, q1, q2]; ring
    rw [e, abs_mul, abs_of_nonneg (mul_nonneg p0 hW)]
    have : p * (hi - lo) ≤ hi - lo := by nlinarith
    calc _ ≤ (hi - lo) * |(1 + e1) * (1 + e2) * (1 + e3) - 1| :=
          mul_le_mul_of_nonneg_right this (abs_nonneg _)
      _ ≤ (hi - lo) * (7 / 2 * ε) := mul_le_mul_of_nonneg_left h3 hW
      _ = _ := by ring
  have hf := hR (z + lo)
  have hzz : |z + lo| ≤ 3 / 2 * (hi - lo) + |lo| := by
    refine (abs_add_le _ _).trans (add_le_add_left ?_ _)
    have : |z| ≤ |z - p * (hi - lo)| + |p * (hi - lo)| := by
      have := abs_add_le (z - p * (hi - lo)) (p * (hi - lo))
      rwa [sub_add_cancel] at this
    rw [abs_of_nonneg (mul_nonneg p0 hW)] at this
    have h5 : p * (hi - lo) ≤ hi - lo := by nlinarith
    nlinarith
  have e : R.rnd (z + lo) - (p * (hi - lo) + lo) = (R.rnd (z + lo) - (z + lo)) + (z - p * (hi - lo)) := by ring
  rw [e]
  refine (abs_add_le _ _).trans ?_
  have : ε * |z + lo| ≤ ε * (3 / 2 * (hi - lo) + |lo|) := mul_le_mul_of_nonneg_left hzz hε0
  nlinarith

/-- **C35 in floating-point arithmetic (error).**  If one operation has relative error at most ε ≤ 1/16, then decoding
the encoding differs from the clipped input by at most one quantization step (half a step with deterministic
rounding), up to a rounding error of 11 ε (hi - lo) + ε |lo|. -/
theorem C35_float_error (R : Rounding α) (ε : α) (hR : R.Accurate ε) (hε : ε ≤ 1 / 16) (bits : ℤ)
    (minMax : Option (List α)) (st : Bool) (s : UQ α)
    (h : UQ.new bits minMax st = .ok s) (u : ℕ → α) (hu : ∀ i, 0 ≤ u i) (x : List α) (hx : x ≠ [])
    (lo hi : α) (hr : Spec.IsRangeF R minMax x lo hi) (hlt : lo < hi) :
    ∃ y, uqDecodeF R s (uqEncodeF R s s.getParams u x) s.getParams none = some y ∧ y.length = x.length ∧
      ∀ i (hi₁ : i < x.length) (hi₂ : i < y.length),
        |y[i] - Spec.clip lo hi x[i]| ≤
          Spec.uqStep bits lo hi + (11 * ε * (hi - lo) + ε * |lo|) ∧
        (st = false → |y[i] - Spec.clip lo hi x[i]| ≤
          Spec.uqStep bits lo hi / 2 + (11 * ε * (hi - lo) + ε * |lo|)) := by
  obtain ⟨hlo, he, hd⟩ := Aux.encodeF_spec R h u x hx hr
  obtain ⟨hb, h16, -⟩ := Aux.new_spec h
  have hM0 : 0 < 2 ^ bits.toNat - 1 := Aux.maxValue_pos (by omega)
  have hM := Aux.maxValue_le (b := bits.toNat) (by omega)
  have hMp : (0 : α) < ((2 ^ bits.toNat - 1 : ℕ) : α) := by exact_mod_cast hM0
  have hstep : Spec.uqStep bits lo hi = (hi - lo) / ((2 ^ bits.toNat - 1 : ℕ) : α) := by
    unfold Spec.uqStep
    rw [Aux.cast_maxValue]
  have hW : 0 < hi - lo := by linarith
  refine ⟨_, hd, by rw [he]; simp, ?_⟩
  intro i hi₁ hi₂
  simp only [he, List.getElem_map, List.getElem_mapIdx]
  obtain ⟨c1, c2⟩ := Aux.clip_mem lo hi x[i] hlo
  set v := Spec.clip lo hi x[i]
  set M := 2 ^ bits.toNat - 1
  obtain ⟨m1, m2⟩ := Aux.scaleF_mem R hM c1 c2
  obtain ⟨k, hk, hkM, ek, ek'⟩ := Aux.roundF_cases R hM st (hu i) m1 m2
  rw [hk]
  have d1 := Aux.decodeF_err R hR hε hM hM0 hkM hlo
  have d2 := Aux.scaleF_err R hR hε hM c1 c2 hlt
  rw [hstep]
  have key : ∀ c : α, |(k : α) - uqScaleF R lo hi M v| ≤ c →
      |uqDecodeEntryF R lo hi M lo (k : α) - v| ≤ c * ((hi - lo) / M) + (11 * ε * (hi - lo) + ε * |lo|) := by
    intro c hc
    have e : uqDecodeEntryF R lo hi M lo (k : α) - v =
        (uqDecodeEntryF R lo hi M lo (k : α) - ((k : α) / M * (hi - lo) + lo)) +
        ((k : α) - uqScaleF R lo hi M v) * ((hi - lo) / M) +
        (uqScaleF R lo hi M v - M * ((v - lo) / (hi - lo))) * ((hi - lo) / M) := by
      field_simp
      ring
    rw [e]
    refine (abs_add_le _ _).trans ?_
    have hs : 0 < (hi - lo) / M := div_pos hW hMp
    have a1 : |((k : α) - uqScaleF R lo hi M v) * ((hi - lo) / M)| ≤ c * ((hi - lo) / M) := by
      rw [abs_mul, abs_of_pos hs]
      exact mul_le_mul_of_nonneg_right hc hs.le
    have a2 : |(uqScaleF R lo hi M v - M * ((v - lo) / (hi - lo))) * ((hi - lo) / M)| ≤ 5 * ε * (hi - lo) := by
      rw [abs_mul, abs_of_pos hs]
      calc _ ≤ M * (5 * ε) * ((hi - lo) / M) := mul_le_mul_of_nonneg_right d2 hs.le
        _ = _ := by field_simp
    have a3 := abs_add_le (uqDecodeEntryF R lo hi M lo (k : α) - ((k : α) / M * (hi - lo) + lo))
      (((k : α) - uqScaleF R lo hi M v) * ((hi - lo) / M))
    linarith
  refine ⟨?_, fun hst => ?_⟩
  · have := key 1 ek
    linarith
  · have := key (1 / 2) (ek' hst)
    linarith

/-- **C35 in floating-point arithmetic (ends).**  The whole range of levels is used: entries at or above the upper end
are encoded as exactly `2^bits - 1`, entries at or below the lower end as 0. -/
theorem C35_float_ends (R : Rounding α) (ε : α) (hR : R.Accurate ε) (hε : ε ≤ 1 / 16) (bits : ℤ)
    (minMax : Option (List α)) (st : Bool) (s : UQ α)
    (h : UQ.new bits minMax st = .ok s) (u : ℕ → α) (hu : ∀ i, 0 ≤ u i) (x : List α) (hx : x ≠ [])
    (lo hi : α) (hr : Spec.IsRangeF R minMax x lo hi) (hlt : lo < hi) :
    ∀ i (hi₁ : i < x.length) (hi₂ : i < (uqEncodeF R s s.getParams u x).1.length),
      (hi ≤ x[i] → (uqEncodeF R s s.getParams u x).1[i] = 2 ^ bits.toNat - 1) ∧
      (x[i] ≤ lo → (uqEncodeF R s s.getParams u x).1[i] = 0) := by
  obtain ⟨hlo, he, -⟩ := Aux.encodeF_spec R h u x hx hr
  obtain ⟨hb, h16, -⟩ := Aux.new_spec h
  have hM := Aux.maxValue_le (b := bits.toNat) (by omega)
  have hW : 0 < hi - lo := by linarith
  have hw : R.rnd (hi - lo) ≠ 0 := by
    obtain ⟨e, he, q⟩ := Aux.accurate_mul R hR (hi - lo)
    have := abs_le.1 he
    rw [q]
    exact (mul_pos hW (by linarith)).ne'
  intro i hi₁ hi₂
  simp only [he, List.getElem_mapIdx]
  have hint : ∀ n : ℕ, n ≤ 2 ^ bits.toNat - 1 → uqRoundF R st (u i) (n : α) = n := by
    intro n hn
    unfold uqRoundF
    cases st with
    | true =>
      simp only [if_true, Int.floor_natCast, Int.cast_natCast, sub_self, Aux.rnd_zero,
        if_neg (not_lt.2 (hu i)), add_zero]
      exact R.nat n (by omega)
    | false =>
      simp only [Bool.false_eq_true, if_false]
      have := Aux.round_intCast (α := α) (n : ℤ)
      rw [Int.cast_natCast] at this
      rw [this]
      simp
  constructor
  · intro hv
    have hc : Spec.clip lo hi x[i] = hi := by
      rcases hv.lt_or_eq with h | h
      · unfold Spec.clip
        rw [if_neg (by linarith), if_pos h]
      · rw [← h]; exact Aux.clip_of_mem hlo le_rfl
    have hs : uqScaleF R lo hi (2 ^ bits.toNat - 1) (Spec.clip lo hi x[i]) = ((2 ^ bits.toNat - 1 : ℕ) : α) := by
      rw [hc]
      unfold uqScaleF divideNoNan
      rw [if_neg hw, div_self hw, Aux.rnd_one, one_mul, R.idem, R.nat _ hM]
    rw [hs, hint _ le_rfl, Aux.cast_maxValue]
  · intro hv
    have hc : Spec.clip lo hi x[i] = lo := by
      rcases hv.lt_or_eq with h | h
      · unfold Spec.clip; rw [if_pos h]
      · rw [h]; exact Aux.clip_of_mem le_rfl hlo
    have hs : uqScaleF R lo hi (2 ^ bits.toNat - 1) (Spec.clip lo hi x[i]) = ((0 : ℕ) : α) := by
      rw [hc]
      unfold uqScaleF divideNoNan
      rw [sub_self, Aux.rnd_zero, if_neg hw, zero_div, Aux.rnd_zero, zero_mul, Aux.rnd_zero]
      simp
    rw [hs, hint 0 (by omega)]
    simp

/-- **C35 in floating-point arithmetic (constants).**  If the quantized interval is a single number, every entry is
decoded to exactly that number; and the lower end of the interval is always reproduced exactly. -/
theorem C35_float_exact (R : Rounding α) (bits : ℤ) (minMax : Option (List α)) (st : Bool) (s : UQ α)
    (h : UQ.new bits minMax st = .ok s) (u : ℕ → α) (hu : ∀ i, 0 ≤ u i) (x : List α) (hx : x ≠ [])
    (hrep : ∀ v ∈ x, R.rnd v = v) (lo hi : α) (hr : Spec.IsRangeF R minMax x lo hi) :
    ∃ y, uqDecodeF R s (uqEncodeF R s s.getParams u x) s.getParams none = some y ∧ y.length = x.length ∧
      ∀ i (hi₁ : i < x.length) (hi₂ : i < y.length), (lo = hi ∨ x[i] ≤ lo) → y[i] = lo := by
  obtain ⟨hlo, he, hd⟩ := Aux.encodeF_spec R h u x hx hr
  obtain ⟨hb, h16, -, -, h3⟩ := Aux.new_spec h
  have hM := Aux.maxValue_le (b := bits.toNat) (by omega)
  have hlorep : R.rnd lo = lo := by
    rcases h3 with ⟨rfl, -⟩ | ⟨a, b, -, rfl, -⟩
    · exact hrep _ hr.1.1
    · simp only [Spec.IsRangeF, List.map_cons, List.map_nil, List.cons.injEq, and_true] at hr
      rw [← hr.1, R.idem]
  refine ⟨_, hd, by rw [he]; simp, ?_⟩
  intro i hi₁ hi₂ hv
  simp only [he, List.getElem_map, List.getElem_mapIdx]
  have hclip : Spec.clip lo hi x[i] = lo := by
    obtain ⟨c1, c2⟩ := Aux.clip_mem lo hi x[i] hlo
    rcases hv with hv | hv
    · subst hv
      exact le_antisymm c2 c1
    · rcases hv.lt_or_eq with h | h
      · unfold Spec.clip; rw [if_pos h]
      · rw [h]; exact Aux.clip_of_mem le_rfl hlo
  have hs : uqScaleF R lo hi (2 ^ bits.toNat - 1) (Spec.clip lo hi x[i]) = 0 := by
    rw [hclip]
    unfold uqScaleF divideNoNan
    rw [sub_self, Aux.rnd_zero]
    split_ifs <;> simp [Aux.rnd_zero]
  obtain ⟨k, hk, -, ek, -⟩ := Aux.roundF_cases R (M := 0) (by norm_num) st (hu i) (y := 0) le_rfl (by simp)
  rw [hs]
  have hk0 : uqRoundF R st (u i) 0 = 0 := by
    have : k = 0 := by
      have := Aux.roundF_cases R (M := 0) (by norm_num) st (hu i) (y := 0) le_rfl (by simp)
      obtain ⟨k', hk', hk0, -⟩ := this
      rw [hk] at hk'
      have : (k : α) = k' := hk'
      have : k = k' := by exact_mod_cast this
      omega
    rw [hk, this]
    simp
  rw [hk0]
  unfold uqDecodeEntryF
  rw [zero_div, Aux.rnd_zero, zero_mul, Aux.rnd_zero, zero_add, hlorep]

/-- Non-vacuity: an 8-bit stage on `binary32` numbers. -/
example : ∃ s, UQ.new (α := ℚ) 8 none true = .ok s ∧
    Spec.IsRangeF (Example.ieee 24 le_rfl) none [1 / 2, 5, -7] (-7) (5 : ℚ) ∧
    (∀ v ∈ ([1 / 2, 5, -7] : List ℚ), (Example.ieee 24 le_rfl).rnd v = v) ∧
    (1 / 2 ^ 24 : ℚ) ≤ 1 / 16 ∧
    (uqEncodeF (Example.ieee 24 le_rfl) s s.getParams (fun _ => 1 / 2) [1 / 2, 5, -7]).1 = [159, 255, 0] := by
  refine ⟨⟨8, none, true⟩, by norm_num [UQ.new]; rfl, ⟨⟨by simp, by norm_num⟩, ⟨by simp, by norm_num⟩⟩, ?_, by norm_num, ?_⟩
  · show ∀ v ∈ ([1 / 2, 5, -7] : List ℚ), binary 24 v = v
    decide +kernel
  · show (uqEncodeF (Example.ieee 24 le_rfl) (⟨8, none, true⟩ : UQ ℚ) _ (fun _ => 1 / 2) [1 / 2, 5, -7]).1 = _
    decide +kernel

end Verif.Props
