import Verif.Encoding.Uniform
import Verif.Props.Centroids
import Mathlib.Algebra.BigOperators.Fin
import Mathlib.Analysis.SpecialFunctions.Integrals.Basic

/-!
# Properties C35, C36, C70, C71: uniform quantization
-/

set_option linter.unusedSectionVars false
namespace Verif.Props
open Verif Verif.Clustering Verif.Encoding

variable {α : Type*} [Field α] [LinearOrder α] [IsStrictOrderedRing α] [FloorRing α]

/-! ## Specification -/

/-- `lo`, `hi` is the quantized interval: the configured one, or the extreme values of the input. -/
def Spec.IsRange (minMax : Option (List α)) (x : List α) (lo hi : α) : Prop :=
  match minMax with
  | some mm => mm = [lo, hi]
  | none => Spec.IsMin lo x ∧ Spec.IsMax hi x

/-- The nearest point of `[lo, hi]`. -/
def Spec.clip (lo hi v : α) : α := if v < lo then lo else if hi < v then hi else v

/-- The distance between neighbouring quantization levels. -/
def Spec.uqStep (bits : ℤ) (lo hi : α) : α := (hi - lo) / ((2 : α) ^ bits.toNat - 1)

/-! ## Scalar facts -/

theorem Aux.clip_eq (lo hi v : α) (h : lo ≤ hi) : clipByValue lo hi v = Spec.clip lo hi v := by
  unfold clipByValue Spec.clip
  split_ifs with h1 h2
  · rw [min_eq_left (by linarith), max_eq_right h1.le]
  · rw [min_eq_right h2.le, max_eq_left h]
  · rw [min_eq_left (not_lt.1 h2), max_eq_left (not_lt.1 h1)]

theorem Aux.clip_mem (lo hi v : α) (h : lo ≤ hi) : lo ≤ Spec.clip lo hi v ∧ Spec.clip lo hi v ≤ hi := by
  unfold Spec.clip
  split_ifs with h1 h2
  · exact ⟨le_refl _, h⟩
  · exact ⟨h, le_refl _⟩
  · exact ⟨not_lt.1 h1, not_lt.1 h2⟩

theorem Aux.clip_of_mem {lo hi v : α} (h1 : lo ≤ v) (h2 : v ≤ hi) : Spec.clip lo hi v = v := by
  unfold Spec.clip
  rw [if_neg (not_lt.2 h1), if_neg (not_lt.2 h2)]

theorem Aux.scale_mem {lo hi v : α} (M : ℕ) (h1 : lo ≤ v) (h2 : v ≤ hi) :
    0 ≤ uqScale lo hi M v ∧ uqScale lo hi M v ≤ M := by
  unfold uqScale divideNoNan
  split_ifs with h
  · simp
  · have hpos : 0 < hi - lo := lt_of_le_of_ne (by linarith) (Ne.symm h)
    have hM : (0 : α) ≤ M := Nat.cast_nonneg M
    have e : (v - lo) / (hi - lo) ≤ 1 := (div_le_one hpos).2 (by linarith)
    have e0 : 0 ≤ (v - lo) / (hi - lo) := div_nonneg (by linarith) hpos.le
    exact ⟨mul_nonneg e0 hM, by nlinarith⟩

theorem Aux.unscale {lo hi v : α} {M : ℕ} (hM : 0 < M) (h1 : lo ≤ v) (h2 : v ≤ hi) :
    uqScale lo hi M v / M * (hi - lo) + lo = v := by
  have hM' : (M : α) ≠ 0 := by exact_mod_cast hM.ne'
  unfold uqScale divideNoNan
  split_ifs with h
  · have : v = lo := by linarith [sub_eq_zero.1 h]
    simp [this]
  · field_simp
    ring

theorem Aux.round_range {y u : α} {M : ℕ} (b : Bool) (hu : 0 ≤ u) (h0 : 0 ≤ y) (h1 : y ≤ M) :
    ∃ k : ℕ, uqRound b u y = k ∧ k ≤ M := by
  have hf0 : 0 ≤ ⌊y⌋ := Int.floor_nonneg.2 h0
  have hfM : ⌊y⌋ ≤ M := by exact_mod_cast (Int.floor_le y).trans h1
  have hup : y ≠ ⌊y⌋ → ⌊y⌋ + 1 ≤ M := by
    intro hne
    have : (⌊y⌋ : α) < M := lt_of_lt_of_le (lt_of_le_of_ne (Int.floor_le y) (Ne.symm hne)) h1
    have : ⌊y⌋ < M := by exact_mod_cast this
    omega
  have key : ∃ z : ℤ, uqRound b u y = z ∧ 0 ≤ z ∧ z ≤ M := by
    unfold uqRound
    cases b with
    | true =>
      simp only [if_true]
      split_ifs with h
      · refine ⟨⌊y⌋ + 1, by push_cast; ring, by omega, hup ?_⟩
        intro he; rw [← he] at h; linarith
      · exact ⟨⌊y⌋, by simp, hf0, hfM⟩
    | false =>
      simp only [Bool.false_eq_true, if_false]
      refine ⟨roundHalfEven y, rfl, ?_, ?_⟩ <;> unfold roundHalfEven <;> dsimp only
      · split_ifs <;> omega
      · split_ifs with a1 a2 a3
        · exact hfM
        · exact hup (by intro he; rw [← he] at a2; norm_num at a2)
        · exact hfM
        · exact hup (by intro he; rw [← he] at a1; norm_num at a1)
  obtain ⟨z, hz, z0, zM⟩ := key
  refine ⟨z.toNat, ?_, by omega⟩
  rw [hz]
  exact_mod_cast (Int.toNat_of_nonneg z0).symm

theorem Aux.round_err (b : Bool) {u : α} (y : α) (hu : 0 ≤ u) :
    |uqRound b u y - y| < 1 ∧ (b = false → |uqRound b u y - y| ≤ 1 / 2) := by
  have h1 := Int.floor_le y
  have h2 := Int.lt_floor_add_one y
  cases b with
  | true =>
    refine ⟨?_, by simp⟩
    simp only [uqRound, if_true]
    split_ifs with h <;> rw [abs_lt] <;> constructor <;> linarith
  | false =>
    have h := Aux.roundHalfEven_bound y
    simp only [uqRound, Bool.false_eq_true, if_false]
    exact ⟨by linarith, fun _ => h⟩

theorem Aux.maxValue_pos {bits : ℕ} (h : 1 ≤ bits) : 0 < 2 ^ bits - 1 := by
  have : 2 ^ 1 ≤ 2 ^ bits := Nat.pow_le_pow_right (by norm_num) h
  omega

theorem Aux.cast_maxValue (bits : ℕ) : ((2 ^ bits - 1 : ℕ) : α) = (2 : α) ^ bits - 1 := by
  rw [Nat.cast_sub (Nat.one_le_two_pow)]
  simp

/-- The error of one entry. -/
theorem Aux.entry_err (b : Bool) {lo hi v u : α} {M : ℕ} (hM : 0 < M) (hu : 0 ≤ u) (h1 : lo ≤ v)
    (h2 : v ≤ hi) :
    |uqDecodeEntry lo hi M lo (uqRound b u (uqScale lo hi M v)) - v| ≤ (hi - lo) / M ∧
    (b = false → |uqDecodeEntry lo hi M lo (uqRound b u (uqScale lo hi M v)) - v| ≤ (hi - lo) / M / 2) ∧
    (lo < hi → |uqDecodeEntry lo hi M lo (uqRound b u (uqScale lo hi M v)) - v| < (hi - lo) / M) := by
  have hM' : (0 : α) < M := by exact_mod_cast hM
  have e := Aux.unscale (v := v) hM h1 h2
  have e2 : uqDecodeEntry lo hi M lo (uqRound b u (uqScale lo hi M v)) - v =
      (uqRound b u (uqScale lo hi M v) - uqScale lo hi M v) * ((hi - lo) / M) := by
    rw [show uqDecodeEntry lo hi M lo (uqRound b u (uqScale lo hi M v)) - v =
      uqDecodeEntry lo hi M lo (uqRound b u (uqScale lo hi M v)) -
        (uqScale lo hi M v / M * (hi - lo) + lo) by rw [e]]
    unfold uqDecodeEntry
    field_simp
    ring
  have hd : 0 ≤ (hi - lo) / M := div_nonneg (by linarith) hM'.le
  obtain ⟨r1, r2⟩ := Aux.round_err b (uqScale lo hi M v) hu
  rw [e2, abs_mul, abs_of_nonneg hd]
  refine ⟨by nlinarith, fun hb => ?_, fun hlt => ?_⟩
  · have := r2 hb; nlinarith
  · have hd' : 0 < (hi - lo) / M := div_pos (by linarith) hM'
    nlinarith

/-! ## The whole stage -/

theorem Aux.new_spec {bits : ℤ} {minMax : Option (List α)} {st : Bool} {s : UQ α}
    (h : UQ.new bits minMax st = .ok s) :
    1 ≤ bits ∧ bits ≤ 16 ∧ s.bits = bits.toNat ∧ s.stochastic = st ∧
      ((minMax = none ∧ s.minMax = none) ∨
        ∃ a b, a < b ∧ minMax = some [a, b] ∧ s.minMax = some (a, b)) := by
  unfold UQ.new at h
  by_cases hb : 1 ≤ bits ∧ bits ≤ 16
  · rw [if_neg (not_not.2 hb)] at h
    split at h
    · simp only [Except.ok.injEq] at h; subst h; exact ⟨hb.1, hb.2, rfl, rfl, .inl ⟨rfl, rfl⟩⟩
    · rename_i a b
      split_ifs at h with hab
      simp only [Except.ok.injEq] at h; subst h
      exact ⟨hb.1, hb.2, rfl, rfl, .inr ⟨a, b, not_le.1 hab, rfl, rfl⟩⟩
    · simp at h
  · rw [if_pos hb] at h; simp at h

/-- **C35 (constructor).** Accepted are exactly 1 to 16 bits with no interval or a proper one. -/
theorem C35_constructor (bits : ℤ) (minMax : Option (List α)) (st : Bool) :
    (∃ s, UQ.new bits minMax st = .ok s) ↔
      (1 ≤ bits ∧ bits ≤ 16 ∧ (minMax = none ∨ ∃ a b, a < b ∧ minMax = some [a, b])) := by
  constructor
  · rintro ⟨s, h⟩
    obtain ⟨h1, h2, -, -, h3⟩ := Aux.new_spec h
    refine ⟨h1, h2, ?_⟩
    rcases h3 with ⟨h, -⟩ | ⟨a, b, hab, h, -⟩
    · exact .inl h
    · exact .inr ⟨a, b, hab, h⟩
  · rintro ⟨h1, h2, h3⟩
    unfold UQ.new
    rw [if_neg (not_not.2 ⟨h1, h2⟩)]
    rcases h3 with h | ⟨a, b, hab, h⟩ <;> subst h
    · exact ⟨_, rfl⟩
    · simp only [if_neg (not_le.2 hab)]; exact ⟨_, rfl⟩

/-- Encoding in terms of the interval. -/
theorem Aux.encode_spec {bits : ℤ} {minMax : Option (List α)} {st : Bool} {s : UQ α}
    (h : UQ.new bits minMax st = .ok s) (u : ℕ → α) (x : List α) {lo hi : α} (hx : x ≠ [])
    (hr : Spec.IsRange minMax x lo hi) :
    lo ≤ hi ∧ (s.encode s.getParams u x).1 = x.mapIdx (fun i v =>
      uqRound st (u i) (uqScale lo hi (2 ^ bits.toNat - 1) (Spec.clip lo hi v))) ∧
    (∀ n, s.decode (s.encode s.getParams u x) s.getParams n =
      some ((s.encode s.getParams u x).1.map (uqDecodeEntry lo hi (2 ^ bits.toNat - 1)
        (if minMax.isSome then lo * ((n.getD 1 : ℕ) : α) else lo)))) := by
  obtain ⟨h1, h2, hb, hs, h3⟩ := Aux.new_spec h
  rcases h3 with ⟨rfl, hm⟩ | ⟨a, b, hab, rfl, hm⟩
  · obtain ⟨r1, r2⟩ := hr
    have e1 : reduceMin x = lo := Aux.isMin_unique (Aux.reduceMin_isMin hx) r1
    have e2 : reduceMax x = hi := le_antisymm (r2.2 _ (Aux.reduceMax_isMax hx).1)
      ((Aux.reduceMax_isMax hx).2 _ r2.1)
    refine ⟨r1.2 _ r2.1, ?_, ?_⟩
    · simp only [UQ.encode, UQ.getParams, hm, hb, hs, e1, e2]
      apply List.ext_getElem (by simp)
      intro i h1 h2
      simp only [List.getElem_mapIdx]
      have hmem := List.getElem_mem (l := x) (by simpa using h1)
      rw [Aux.clip_of_mem (r1.2 _ hmem) (r2.2 _ hmem)]
    · intro n
      simp [UQ.decode, UQ.encode, UQ.getParams, hm, hb, UQ.commutes, e1, e2]
  · simp only [Spec.IsRange, List.cons.injEq, and_true] at hr
    obtain ⟨rfl, rfl⟩ := hr
    refine ⟨hab.le, ?_, ?_⟩
    · simp only [UQ.encode, UQ.getParams, hm, hb, hs, Aux.clip_eq _ _ _ hab.le]
    · intro n
      simp [UQ.decode, UQ.encode, UQ.getParams, hm, hb, UQ.commutes]

/-- **C35 (levels).** Every encoded value is an integer in `[0, 2^bits - 1]`, one per input entry,
for every draw `u ≥ 0`. -/
theorem C35_levels (bits : ℤ) (minMax : Option (List α)) (st : Bool) (s : UQ α)
    (h : UQ.new bits minMax st = .ok s) (u : ℕ → α) (hu : ∀ i, 0 ≤ u i) (x : List α) (hx : x ≠ []) :
    (s.encode s.getParams u x).1.length = x.length ∧
    ∀ q ∈ (s.encode s.getParams u x).1, ∃ k : ℕ, q = k ∧ k ≤ 2 ^ bits.toNat - 1 := by
  have hr : ∃ lo hi, Spec.IsRange minMax x lo hi := by
    obtain ⟨-, -, -, -, h3⟩ := Aux.new_spec h
    rcases h3 with ⟨rfl, hm⟩ | ⟨a, b, hab, rfl, hm⟩
    · exact ⟨_, _, Aux.reduceMin_isMin hx, Aux.reduceMax_isMax hx⟩
    · exact ⟨a, b, rfl⟩
  obtain ⟨lo, hi, hr⟩ := hr
  obtain ⟨hlo, he, -⟩ := Aux.encode_spec h u x hx hr
  rw [he]
  refine ⟨by simp, ?_⟩
  intro q hq
  obtain ⟨i, hi', rfl⟩ := List.getElem_of_mem hq
  simp only [List.getElem_mapIdx]
  obtain ⟨c1, c2⟩ := Aux.clip_mem lo hi (x[i]'(by simpa using hi')) hlo
  obtain ⟨s1, s2⟩ := Aux.scale_mem (2 ^ bits.toNat - 1) c1 c2
  exact Aux.round_range st (hu i) s1 s2

/-- **C35 (error).** Decoding succeeds and each decoded entry differs from the input clipped to the
interval by at most one quantization step (strictly less if the interval is not a point), and by at
most half a step with deterministic rounding. -/
theorem C35_error (bits : ℤ) (minMax : Option (List α)) (st : Bool) (s : UQ α)
    (h : UQ.new bits minMax st = .ok s) (u : ℕ → α) (hu : ∀ i, 0 ≤ u i) (x : List α) (hx : x ≠ [])
    (lo hi : α) (hr : Spec.IsRange minMax x lo hi) :
    ∃ y, s.decode (s.encode s.getParams u x) s.getParams none = some y ∧ y.length = x.length ∧
      ∀ i (hi₁ : i < x.length) (hi₂ : i < y.length),
        |y[i] - Spec.clip lo hi x[i]| ≤ Spec.uqStep bits lo hi ∧
        (lo < hi → |y[i] - Spec.clip lo hi x[i]| < Spec.uqStep bits lo hi) ∧
        (st = false → |y[i] - Spec.clip lo hi x[i]| ≤ Spec.uqStep bits lo hi / 2) := by
  obtain ⟨hlo, he, hd⟩ := Aux.encode_spec h u x hx hr
  obtain ⟨hb, -⟩ := Aux.new_spec h
  have hM : 0 < 2 ^ bits.toNat - 1 := Aux.maxValue_pos (by omega)
  refine ⟨_, hd none, by rw [he]; simp, ?_⟩
  intro i hi₁ hi₂
  have hsh : (if minMax.isSome = true then lo * (((none : Option ℕ).getD 1 : ℕ) : α) else lo) = lo := by
    split_ifs <;> simp
  simp only [hsh, he, List.getElem_map, List.getElem_mapIdx, Spec.uqStep]
  obtain ⟨c1, c2⟩ := Aux.clip_mem lo hi x[i] hlo
  have := Aux.entry_err st (M := 2 ^ bits.toNat - 1) hM (hu i) c1 c2
  rw [Aux.cast_maxValue] at this
  exact ⟨this.1, this.2.2, this.2.1⟩

/-- **C35 (exact values).** The two ends of the interval are reproduced exactly, for every draw; in
particular a constant tensor is. -/
theorem C35_extremes_exact (bits : ℤ) (minMax : Option (List α)) (st : Bool) (s : UQ α)
    (h : UQ.new bits minMax st = .ok s) (u : ℕ → α) (hu : ∀ i, 0 ≤ u i) (x : List α) (hx : x ≠ [])
    (lo hi : α) (hr : Spec.IsRange minMax x lo hi) :
    ∃ y, s.decode (s.encode s.getParams u x) s.getParams none = some y ∧ y.length = x.length ∧
      ∀ i (hi₁ : i < x.length) (hi₂ : i < y.length), (x[i] = lo ∨ x[i] = hi) → y[i] = x[i] := by
  obtain ⟨hlo, he, hd⟩ := Aux.encode_spec h u x hx hr
  obtain ⟨hb, -⟩ := Aux.new_spec h
  have hM : 0 < 2 ^ bits.toNat - 1 := Aux.maxValue_pos (by omega)
  refine ⟨_, hd none, by rw [he]; simp, ?_⟩
  intro i hi₁ hi₂ hv
  have hsh : (if minMax.isSome = true then lo * (((none : Option ℕ).getD 1 : ℕ) : α) else lo) = lo := by
    split_ifs <;> simp
  simp only [hsh, he, List.getElem_map, List.getElem_mapIdx]
  have hmem : lo ≤ x[i] ∧ x[i] ≤ hi := by rcases hv with hv | hv <;> rw [hv] <;> simp [hlo]
  rw [Aux.clip_of_mem hmem.1 hmem.2]
  -- the scaled value is an integer
  have hint : ∃ k : ℤ, uqScale lo hi (2 ^ bits.toNat - 1) x[i] = k := by
    unfold uqScale divideNoNan
    split_ifs with h0
    · exact ⟨0, by simp⟩
    · rcases hv with hv | hv <;> rw [hv]
      · exact ⟨0, by simp⟩
      · exact ⟨((2 ^ bits.toNat - 1 : ℕ) : ℤ), by rw [div_self h0, one_mul]; simp⟩
  have hround : ∀ k : ℤ, uqRound st (u i) (k : α) = k := by
    intro k
    unfold uqRound
    cases st with
    | true => simp [not_lt.2 (hu i)]
    | false => simp [Aux.round_intCast]
  have hun := Aux.unscale (v := x[i]) hM hmem.1 hmem.2
  obtain ⟨k, hk⟩ := hint
  rw [hk] at hun ⊢
  rw [hround, uqDecodeEntry, hun]

/-- **C35 (constant tensor).** -/
theorem C35_constant_exact (bits : ℤ) (st : Bool) (s : UQ α) (h : UQ.new bits none st = .ok s)
    (u : ℕ → α) (hu : ∀ i, 0 ≤ u i) (n : ℕ) (c : α) :
    s.decode (s.encode s.getParams u (List.replicate (n + 1) c)) s.getParams none =
      some (List.replicate (n + 1) c) := by
  have hr : Spec.IsRange (none : Option (List α)) (List.replicate (n + 1) c) c c := by
    refine ⟨⟨by simp, ?_⟩, ⟨by simp, ?_⟩⟩ <;> intro w hw <;>
      rw [List.eq_of_mem_replicate hw]
  obtain ⟨y, hy, hl, hv⟩ := C35_extremes_exact bits none st s h u hu (List.replicate (n + 1) c)
    (by simp) c c hr
  rw [hy]
  congr 1
  refine List.ext_getElem hl ?_
  intro i h1 h2
  rw [hv i h2 h1 (by simp)]

/-- **C35 (no clipping without an interval).** -/
theorem C35_adaptive_no_clip (x : List α) (lo hi : α) (hr : Spec.IsRange none x lo hi) (v : α)
    (hv : v ∈ x) : Spec.clip lo hi v = v := Aux.clip_of_mem (hr.1.2 v hv) (hr.2.2 v hv)

example : (∃ s, UQ.new (α := ℚ) 2 (some [-1, 2]) true = .ok s) ∧
    Spec.IsRange (α := ℚ) (some [-1, 2]) [1 / 2, 5, -7] (-1) 2 ∧
    Spec.IsRange (α := ℚ) none [1 / 2, 5, -7] (-7) 5 := by
  refine ⟨(C35_constructor _ _ _).2 ⟨by norm_num, by norm_num, .inr ⟨-1, 2, by norm_num, rfl⟩⟩,
    rfl, ?_⟩
  constructor <;> constructor <;> norm_num

/-! ## C36 -/

/-- Entry-wise sum of `n` tensors of the same length. -/
def Spec.tensorSum {n : ℕ} (len : ℕ) (xs : Fin n → List α) : List α :=
  (List.range len).map fun j => ∑ i, (xs i).getD j 0

/-- **C36.** If an interval is configured, the stage reports that it commutes with sum, and decoding
the sum of any number of encodings (of tensors of one shape) with that number of summands is the sum
of the individual decodings. -/
theorem C36_commutes_with_sum (bits : ℤ) (minMax : List α) (st : Bool) (s : UQ α)
    (h : UQ.new bits (some minMax) st = .ok s) (n len : ℕ) (enc dec : Fin n → List α)
    (hl : ∀ i, (enc i).length = len)
    (hd : ∀ i, s.decode (enc i, none) s.getParams none = some (dec i)) :
    s.commutes = true ∧
    s.decode (Spec.tensorSum len enc, none) s.getParams (some n) = some (Spec.tensorSum len dec) := by
  obtain ⟨-, -, -, -, h3⟩ := Aux.new_spec h
  rcases h3 with ⟨h3, -⟩ | ⟨a, b, hab, h3, hm⟩
  · simp at h3
  simp only [UQ.decode, UQ.getParams, hm, UQ.commutes, Option.some_or, Option.map_some,
    Option.some.injEq, Option.isSome_some, if_true, Option.getD_some, Option.getD_none,
    true_and] at hd ⊢
  have hl' : ∀ i, (dec i).length = len := fun i => by rw [← hd i]; simp [hl]
  apply List.ext_getElem (by simp [Spec.tensorSum])
  intro j h1 h2
  have hj : j < len := by simpa [Spec.tensorSum] using h2
  simp only [Spec.tensorSum, List.map_map, List.getElem_map, List.getElem_range, Function.comp]
  have : ∀ i, (dec i).getD j 0 =
      (enc i).getD j 0 / ((2 ^ s.bits - 1 : ℕ) : α) * (b - a) + a := by
    intro i
    rw [List.getD_eq_getElem _ _ (by rw [hl' i]; exact hj), List.getD_eq_getElem _ _ (by rw [hl i]; exact hj)]
    have := hd i
    simp only [← this, List.getElem_map, uqDecodeEntry, Nat.cast_one, mul_one]
  simp only [this, uqDecodeEntry, Finset.sum_add_distrib, Finset.sum_const, Finset.card_univ,
    Fintype.card_fin, nsmul_eq_mul, ← Finset.sum_mul, ← Finset.sum_div]
  ring

/-- **C36 (adaptive interval).** Without a configured interval the stage reports that it does not
commute with sum (each encoding carries its own interval), so no aggregation before decoding is ever
attempted. -/
theorem C36_adaptive_not_commuting (bits : ℤ) (st : Bool) (s : UQ α)
    (h : UQ.new bits none st = .ok s) : s.commutes = false := by
  obtain ⟨-, -, -, -, h3⟩ := Aux.new_spec h
  rcases h3 with ⟨-, hm⟩ | ⟨a, b, -, h3, -⟩
  · simp [UQ.commutes, hm]
  · simp at h3

/-- Non-vacuity: three encodings with a 2-bit stage on [-1, 2]. -/
example : ∃ s, UQ.new (α := ℚ) 2 (some [-1, 2]) true = .ok s ∧
    s.decode ([3, 0], none) s.getParams none = some [2, -1] ∧
    s.decode ([6, 1], none) s.getParams (some 3) = some [3, -2] := by
  refine ⟨⟨2, some (-1, 2), true⟩, by norm_num [UQ.new]; rfl, by decide +kernel, by decide +kernel⟩

/-! ## C70: unbiasedness -/

open MeasureTheory intervalIntegral in
/-- The expectation of an indicator of `u < r`. -/
theorem Aux.integral_indicator (r : ℝ) (h0 : 0 ≤ r) (h1 : r ≤ 1) :
    ∫ u in (0 : ℝ)..1, (if u < r then (1 : ℝ) else 0) = r := by
  have e : (∫ u in (0 : ℝ)..1, (if u < r then (1 : ℝ) else 0)) =
      ∫ u in (0 : ℝ)..1, (Set.Iio r).indicator (fun _ => (1 : ℝ)) u := by
    congr 1
  rw [e, intervalIntegral.integral_of_le zero_le_one, MeasureTheory.integral_indicator measurableSet_Iio]
  rw [MeasureTheory.setIntegral_const, smul_eq_mul, mul_one]
  rw [MeasureTheory.measureReal_restrict_apply measurableSet_Iio]
  have : Set.Iio r ∩ Set.Ioc (0 : ℝ) 1 = Set.Ioo 0 r := by
    ext u
    simp only [Set.mem_inter_iff, Set.mem_Iio, Set.mem_Ioc, Set.mem_Ioo]
    constructor
    · rintro ⟨a, b, c⟩; exact ⟨b, a⟩
    · rintro ⟨a, b⟩; exact ⟨b, a, by linarith⟩
  rw [this]
  simp [h0]

open MeasureTheory intervalIntegral in
theorem Aux.intervalIntegrable_indicator (r : ℝ) :
    IntervalIntegrable (fun u : ℝ => if u < r then (1 : ℝ) else 0) volume 0 1 := by
  have : (fun u : ℝ => if u < r then (1 : ℝ) else 0) = (Set.Iio r).indicator (fun _ => (1 : ℝ)) := by
    funext u; simp [Set.indicator]
  rw [this, intervalIntegrable_iff]
  exact (integrableOn_const (by simp)).indicator measurableSet_Iio

/-- **C70.** Stochastic uniform quantization is unbiased: averaged over a uniform draw `u` from
`[0, 1]`, the decoded value of an entry equals the entry clipped to the interval. -/
theorem C70_unbiased (bits : ℕ) (hb : 1 ≤ bits) (lo hi v : ℝ) (h : lo ≤ hi) :
    ∫ u in (0 : ℝ)..1, uqDecodeEntry lo hi (2 ^ bits - 1) lo
      (uqRound true u (uqScale lo hi (2 ^ bits - 1) (Spec.clip lo hi v))) = Spec.clip lo hi v := by
  obtain ⟨c1, c2⟩ := Aux.clip_mem lo hi v h
  have hM := Aux.maxValue_pos hb
  have hun := Aux.unscale (v := Spec.clip lo hi v) hM c1 c2
  set y := uqScale lo hi (2 ^ bits - 1) (Spec.clip lo hi v) with hy
  set M : ℕ := 2 ^ bits - 1
  have e : ∀ u : ℝ, uqDecodeEntry lo hi M lo (uqRound true u y) =
      ((⌊y⌋ : ℝ) / M * (hi - lo) + lo) + (1 / M * (hi - lo)) * (if u < y - ⌊y⌋ then 1 else 0) := by
    intro u
    simp only [uqDecodeEntry, uqRound, if_true]
    ring
  simp only [e]
  rw [intervalIntegral.integral_add (by simp) ((Aux.intervalIntegrable_indicator _).const_mul _),
    intervalIntegral.integral_const, intervalIntegral.integral_const_mul, Aux.integral_indicator]
  · rw [← hun]
    simp only [sub_zero, smul_eq_mul, one_mul]
    ring
  · linarith [Int.floor_le y]
  · linarith [Int.lt_floor_add_one y]

/-! ## C71: quantization with shared randomness, per-channel quantization -/

theorem Aux.prng_entry {u : α} (y : α) (hu0 : 0 ≤ u) (hu1 : u < 1) :
    |uqRound true u y + u - 1 / 2 - y| ≤ 1 / 2 := by
  have h1 := Int.floor_le y
  have h2 := Int.lt_floor_add_one y
  simp only [uqRound, if_true]
  split_ifs with h <;> rw [abs_le] <;> constructor <;> linarith

theorem Aux.prng_err {lo hi v u : α} {M : ℕ} (hM : 0 < M) (hu0 : 0 ≤ u) (hu1 : u < 1) (h1 : lo ≤ v)
    (h2 : v ≤ hi) :
    |(uqRound true u (uqScale lo hi M v) + u - 1 / 2) / M * (hi - lo) + lo - v| ≤ (hi - lo) / M / 2 := by
  have hM' : (0 : α) < M := by exact_mod_cast hM
  have e := Aux.unscale (v := v) hM h1 h2
  have e2 : (uqRound true u (uqScale lo hi M v) + u - 1 / 2) / M * (hi - lo) + lo - v =
      (uqRound true u (uqScale lo hi M v) + u - 1 / 2 - uqScale lo hi M v) * ((hi - lo) / M) := by
    rw [show (uqRound true u (uqScale lo hi M v) + u - 1 / 2) / M * (hi - lo) + lo - v =
      (uqRound true u (uqScale lo hi M v) + u - 1 / 2) / M * (hi - lo) + lo -
        (uqScale lo hi M v / M * (hi - lo) + lo) by rw [e]]
    field_simp
    ring
  have hd : 0 ≤ (hi - lo) / M := div_nonneg (by linarith) hM'.le
  rw [e2, abs_mul, abs_of_nonneg hd]
  have := Aux.prng_entry (uqScale lo hi M v) hu0 hu1
  nlinarith

/-- **C71 (shared randomness).** Decoding with the random numbers used by the encoder recovers every
entry up to *half* a step, for every draw from `[0, 1)`; a constant tensor is recovered exactly. -/
theorem C71_prng_error (bits : ℕ) (hb : 1 ≤ bits) (u : ℕ → α) (hu : ∀ i, 0 ≤ u i ∧ u i < 1)
    (x : List α) (lo hi : α) (hlo : Spec.IsMin lo x) (hhi : Spec.IsMax hi x) :
    (∀ q ∈ (prngEncode bits u x).1, ∃ k : ℕ, q = k ∧ k ≤ 2 ^ bits - 1) ∧
    (prngDecode bits u (prngEncode bits u x)).length = x.length ∧
    ∀ i (h₁ : i < x.length) (h₂ : i < (prngDecode bits u (prngEncode bits u x)).length),
      |(prngDecode bits u (prngEncode bits u x))[i] - x[i]| ≤ Spec.uqStep bits lo hi / 2 := by
  have hx : x ≠ [] := by rintro rfl; simp [Spec.IsMin] at hlo
  have e1 : reduceMin x = lo := Aux.isMin_unique (Aux.reduceMin_isMin hx) hlo
  have e2 : reduceMax x = hi := le_antisymm (hhi.2 _ (Aux.reduceMax_isMax hx).1)
    ((Aux.reduceMax_isMax hx).2 _ hhi.1)
  have hM := Aux.maxValue_pos hb
  refine ⟨?_, by simp [prngDecode, prngEncode], ?_⟩
  · intro q hq
    obtain ⟨i, hi', rfl⟩ := List.getElem_of_mem hq
    simp only [prngEncode, List.getElem_mapIdx, e1, e2]
    have hmem := List.getElem_mem (l := x) (by simpa [prngEncode] using hi')
    obtain ⟨s1, s2⟩ := Aux.scale_mem (2 ^ bits - 1) (hlo.2 _ hmem) (hhi.2 _ hmem)
    exact Aux.round_range true (hu i).1 s1 s2
  · intro i h₁ h₂
    simp only [prngDecode, prngEncode, List.getElem_mapIdx, e1, e2, Spec.uqStep, Int.toNat_natCast]
    have hmem := List.getElem_mem (l := x) h₁
    have := Aux.prng_err hM (hu i).1 (hu i).2 (hlo.2 _ hmem) (hhi.2 _ hmem)
    rw [Aux.cast_maxValue] at this
    simpa only [Aux.cast_maxValue] using this

open MeasureTheory in
/-- **C71 (unbiased).** Averaged over the draw, the decoded value is the input. -/
theorem C71_prng_unbiased (bits : ℕ) (hb : 1 ≤ bits) (lo hi v : ℝ) (h1 : lo ≤ v) (h2 : v ≤ hi) :
    ∫ u in (0 : ℝ)..1, ((uqRound true u (uqScale lo hi (2 ^ bits - 1) v) + u - 1 / 2) /
      ((2 ^ bits - 1 : ℕ) : ℝ) * (hi - lo) + lo) = v := by
  have hM := Aux.maxValue_pos hb
  have hun := Aux.unscale (v := v) hM h1 h2
  set y := uqScale lo hi (2 ^ bits - 1) v with hy
  set M : ℕ := 2 ^ bits - 1
  have e : ∀ u : ℝ, (uqRound true u y + u - 1 / 2) / M * (hi - lo) + lo =
      (((⌊y⌋ : ℝ) - 1 / 2) / M * (hi - lo) + lo + 1 / M * (hi - lo) * u) +
        (1 / M * (hi - lo)) * (if u < y - ⌊y⌋ then 1 else 0) := by
    intro u
    simp only [uqRound, if_true]
    ring
  simp only [e]
  rw [intervalIntegral.integral_add
      ((Continuous.intervalIntegrable (by fun_prop) _ _)) ((Aux.intervalIntegrable_indicator _).const_mul _),
    intervalIntegral.integral_const_mul, Aux.integral_indicator]
  · rw [intervalIntegral.integral_add (by simp) (Continuous.intervalIntegrable (by fun_prop) _ _),
      intervalIntegral.integral_const, intervalIntegral.integral_const_mul]
    have hid : ∫ u in (0 : ℝ)..1, u = 1 / 2 := by
      rw [integral_id]; norm_num
    rw [hid]
    conv_rhs => rw [← hun]
    simp only [sub_zero, smul_eq_mul, one_mul]
    ring
  · linarith [Int.floor_le y]
  · linarith [Int.lt_floor_add_one y]

/-- **C71 (per channel).** Per-channel quantization of a tensor with `rows * dim` entries: every
entry of channel `c` (position `r * dim + c`) is recovered up to one step of the interval spanned by
channel `c` alone (half a step with deterministic rounding). -/
theorem C71_per_channel_error (st : Bool) (bits dim rows : ℕ) (hb : 1 ≤ bits) (hdim : 0 < dim)
    (u : ℕ → α) (hu : ∀ i, 0 ≤ u i) (x : List α) (hlen : x.length = rows * dim) (c : ℕ) (hc : c < dim)
    (lo hi : α) (hr : 0 < rows)
    (hlo : Spec.IsMin lo ((List.range rows).map fun r => x.getD (r * dim + c) 0))
    (hhi : Spec.IsMax hi ((List.range rows).map fun r => x.getD (r * dim + c) 0))
    (r : ℕ) (hrr : r < rows) :
    (∃ k : ℕ, ((perChannelEncode st bits dim u x).1).getD (r * dim + c) 0 = k ∧ k ≤ 2 ^ bits - 1) ∧
    |(perChannelDecode bits dim (perChannelEncode st bits dim u x)).getD (r * dim + c) 0 -
      x.getD (r * dim + c) 0| ≤ Spec.uqStep bits lo hi ∧
    (st = false → |(perChannelDecode bits dim (perChannelEncode st bits dim u x)).getD (r * dim + c) 0 -
      x.getD (r * dim + c) 0| ≤ Spec.uqStep bits lo hi / 2) := by
  have hcol : column dim x c = (List.range rows).map fun r => x.getD (r * dim + c) 0 := by
    unfold column; rw [hlen, Nat.mul_div_cancel _ hdim]
  have hne : column dim x c ≠ [] := by rw [hcol]; simp; omega
  have e1 : reduceMin (column dim x c) = lo :=
    Aux.isMin_unique (Aux.reduceMin_isMin hne) (by rw [hcol]; exact hlo)
  have e2 : reduceMax (column dim x c) = hi := by
    have h1 := Aux.reduceMax_isMax hne
    rw [hcol] at h1 ⊢
    exact le_antisymm (hhi.2 _ h1.1) (h1.2 _ hhi.1)
  have hidx : r * dim + c < x.length := by
    rw [hlen]
    calc r * dim + c < r * dim + dim := by omega
      _ = (r + 1) * dim := by ring
      _ ≤ rows * dim := Nat.mul_le_mul_right _ hrr
  have hmod : (r * dim + c) % dim = c := by
    rw [Nat.mul_add_mod_self_right, Nat.mod_eq_of_lt hc]
  have hM := Aux.maxValue_pos hb
  have hmem : x.getD (r * dim + c) 0 ∈ (List.range rows).map fun r => x.getD (r * dim + c) 0 :=
    List.mem_map.2 ⟨r, List.mem_range.2 hrr, rfl⟩
  have b1 := hlo.2 _ hmem
  have b2 := hhi.2 _ hmem
  have hE : ((perChannelEncode st bits dim u x).1).getD (r * dim + c) 0 =
      uqRound st (u (r * dim + c)) (uqScale lo hi (2 ^ bits - 1) (x.getD (r * dim + c) 0)) := by
    simp only [perChannelEncode]
    rw [List.getD_eq_getElem _ _ (by simpa using hidx), List.getElem_mapIdx, hmod, e1, e2,
      List.getD_eq_getElem _ _ hidx]
  have hD : (perChannelDecode bits dim (perChannelEncode st bits dim u x)).getD (r * dim + c) 0 =
      uqDecodeEntry lo hi (2 ^ bits - 1) lo
        (uqRound st (u (r * dim + c)) (uqScale lo hi (2 ^ bits - 1) (x.getD (r * dim + c) 0))) := by
    unfold perChannelDecode
    rw [List.getD_eq_getElem _ _ (by simpa [perChannelEncode] using hidx), List.getElem_mapIdx, hmod,
      ← hE]
    simp only [perChannelEncode, e1, e2]
    rw [List.getD_eq_getElem _ _ (by simpa using hidx)]
  rw [hE, hD]
  obtain ⟨s1, s2⟩ := Aux.scale_mem (2 ^ bits - 1) b1 b2
  refine ⟨Aux.round_range st (hu _) s1 s2, ?_⟩
  have := Aux.entry_err st hM (hu (r * dim + c)) b1 b2
  rw [Aux.cast_maxValue] at this
  simp only [Spec.uqStep, Int.toNat_natCast]
  exact ⟨this.1, this.2.1⟩

/-- **C71 (per channel, shared randomness).** Half a step of the channel's own interval. -/
theorem C71_per_channel_prng_error (bits dim rows : ℕ) (hb : 1 ≤ bits) (hdim : 0 < dim)
    (u : ℕ → α) (hu : ∀ i, 0 ≤ u i ∧ u i < 1) (x : List α) (hlen : x.length = rows * dim) (c : ℕ)
    (hc : c < dim) (lo hi : α) (hr : 0 < rows)
    (hlo : Spec.IsMin lo ((List.range rows).map fun r => x.getD (r * dim + c) 0))
    (hhi : Spec.IsMax hi ((List.range rows).map fun r => x.getD (r * dim + c) 0))
    (r : ℕ) (hrr : r < rows) :
    |(perChannelPrngDecode bits dim u (perChannelEncode true bits dim u x)).getD (r * dim + c) 0 -
      x.getD (r * dim + c) 0| ≤ Spec.uqStep bits lo hi / 2 := by
  have hcol : column dim x c = (List.range rows).map fun r => x.getD (r * dim + c) 0 := by
    unfold column; rw [hlen, Nat.mul_div_cancel _ hdim]
  have hne : column dim x c ≠ [] := by rw [hcol]; simp; omega
  have e1 : reduceMin (column dim x c) = lo :=
    Aux.isMin_unique (Aux.reduceMin_isMin hne) (by rw [hcol]; exact hlo)
  have e2 : reduceMax (column dim x c) = hi := by
    have h1 := Aux.reduceMax_isMax hne
    rw [hcol] at h1 ⊢
    exact le_antisymm (hhi.2 _ h1.1) (h1.2 _ hhi.1)
  have hidx : r * dim + c < x.length := by
    rw [hlen]
    calc r * dim + c < r * dim + dim := by omega
      _ = (r + 1) * dim := by ring
      _ ≤ rows * dim := Nat.mul_le_mul_right _ hrr
  have hmod : (r * dim + c) % dim = c := by
    rw [Nat.mul_add_mod_self_right, Nat.mod_eq_of_lt hc]
  have hM := Aux.maxValue_pos hb
  have hmem : x.getD (r * dim + c) 0 ∈ (List.range rows).map fun r => x.getD (r * dim + c) 0 :=
    List.mem_map.2 ⟨r, List.mem_range.2 hrr, rfl⟩
  have hD : (perChannelPrngDecode bits dim u (perChannelEncode true bits dim u x)).getD (r * dim + c) 0 =
      (uqRound true (u (r * dim + c)) (uqScale lo hi (2 ^ bits - 1) (x.getD (r * dim + c) 0)) +
        u (r * dim + c) - 1 / 2) / ((2 ^ bits - 1 : ℕ) : α) * (hi - lo) + lo := by
    unfold perChannelPrngDecode
    rw [List.getD_eq_getElem _ _ (by simpa [perChannelEncode] using hidx), List.getElem_mapIdx, hmod]
    simp only [perChannelEncode, e1, e2, List.getElem_mapIdx, hmod]
    rw [List.getD_eq_getElem _ _ hidx]
  rw [hD]
  have := Aux.prng_err hM (hu (r * dim + c)).1 (hu (r * dim + c)).2 (hlo.2 _ hmem) (hhi.2 _ hmem)
  simp only [Spec.uqStep, Int.toNat_natCast]
  rw [Aux.cast_maxValue] at this ⊢
  exact this

/-- Non-vacuity: a 2 x 2 tensor, channel 1. -/
example : Spec.IsMin (α := ℚ) 2 ((List.range 2).map fun r => [1, 2, 3, 5].getD (r * 2 + 1) 0) ∧
    Spec.IsMax (α := ℚ) 5 ((List.range 2).map fun r => [1, 2, 3, 5].getD (r * 2 + 1) 0) := by
  constructor <;> constructor <;> norm_num [List.range_succ]

end Verif.Props
