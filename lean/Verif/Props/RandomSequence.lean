import Verif.Props.Misc
import Verif.Floats.Random
import Verif.Props.FloatRounding
import Mathlib.Data.ZMod.Basic
import Mathlib.Data.Nat.Factorization.Basic
import Mathlib.Algebra.Order.Floor.Ring

/-!
# C110: the deterministic pseudo-random sequence
-/

set_option linter.unusedSectionVars false
namespace Verif.Props
open Verif Verif.Clustering Verif.Encoding Verif.Floats

namespace Aux

/-- The recurrence of the starting seeds, on the integers. -/
def prbs (x : ℤ) : ℤ := x ^ 7 + x ^ 6 + 1

/-- On odd numbers the map preserves even distances up to a factor that is 1 modulo 4. -/
theorem prbs_step {x h : ℤ} (hx : Odd x) (hh : Even h) : ∃ a, prbs (x + h) = prbs x + h * (1 + 4 * a) := by
  obtain ⟨m, rfl⟩ := hx
  obtain ⟨t, rfl⟩ := hh
  set x : ℤ := 2 * m + 1 with hxd
  set h : ℤ := t + t with hhd
  set y : ℤ := x + h with hy
  let Q : ℤ := y ^ 6 + y ^ 5 * x + y ^ 4 * x ^ 2 + y ^ 3 * x ^ 3 + y ^ 2 * x ^ 4 + y * x ^ 5 + x ^ 6 +
    (y ^ 5 + y ^ 4 * x + y ^ 3 * x ^ 2 + y ^ 2 * x ^ 3 + y * x ^ 4 + x ^ 5)
  have hQ : prbs y = prbs x + h * Q := by
    have : h = y - x := by rw [hy]; ring
    rw [this]
    simp only [prbs, Q]
    ring
  have key : ∀ a b : ZMod 4, (fun (x y : ZMod 4) =>
      y ^ 6 + y ^ 5 * x + y ^ 4 * x ^ 2 + y ^ 3 * x ^ 3 + y ^ 2 * x ^ 4 + y * x ^ 5 + x ^ 6 +
    (y ^ 5 + y ^ 4 * x + y ^ 3 * x ^ 2 + y ^ 2 * x ^ 3 + y * x ^ 4 + x ^ 5)) (2 * a + 1) (2 * a + 1 + (b + b)) = 1 := by
    decide
  have h4 : ((Q - 1 : ℤ) : ZMod 4) = 0 := by
    have := key (m : ZMod 4) (t : ZMod 4)
    simp only [Q, hy, hxd, hhd]
    push_cast
    rw [sub_eq_zero]
    exact this
  obtain ⟨a, ha⟩ := (ZMod.intCast_zmod_eq_zero_iff_dvd _ 4).1 h4
  refine ⟨a, ?_⟩
  rw [hQ, show Q = 1 + 4 * a by push_cast at ha; linarith]

theorem prbs_odd {x : ℤ} (hx : Odd x) : Odd (prbs x) := by
  unfold prbs
  exact ((hx.pow.add_odd hx.pow).add_one)

theorem prbs_first {x : ℤ} (hx : Odd x) : ∃ u, Odd u ∧ prbs x = x + 2 * u := by
  obtain ⟨m, rfl⟩ := hx
  have key : ∀ a : ZMod 4, (2 * a + 1) ^ 7 + (2 * a + 1) ^ 6 + 1 - (2 * a + 1) - 2 = 0 := by decide
  have h4 : ((prbs (2 * m + 1) - (2 * m + 1) - 2 : ℤ) : ZMod 4) = 0 := by
    have := key (m : ZMod 4)
    unfold prbs
    push_cast
    exact this
  obtain ⟨a, ha⟩ := (ZMod.intCast_zmod_eq_zero_iff_dvd _ 4).1 h4
  push_cast at ha
  refine ⟨2 * a + 1, ⟨a, rfl⟩, ?_⟩
  linarith

theorem iter_odd (n : ℕ) {x : ℤ} (hx : Odd x) : Odd (prbs^[n] x) := by
  induction n generalizing x with
  | zero => exact hx
  | succ n ih => exact ih (prbs_odd hx)

theorem iter_step (n : ℕ) {x h : ℤ} (hx : Odd x) (hh : Even h) :
    ∃ a, prbs^[n] (x + h) = prbs^[n] x + h * (1 + 4 * a) := by
  induction n generalizing x h with
  | zero => exact ⟨0, by simp⟩
  | succ n ih =>
    obtain ⟨a, ha⟩ := prbs_step hx hh
    obtain ⟨b, hb⟩ := ih (prbs_odd hx) (hh.mul_right (1 + 4 * a))
    refine ⟨a + b + 4 * a * b, ?_⟩
    rw [Function.iterate_succ_apply, Function.iterate_succ_apply, ha, hb]
    ring

/-- `2^k` rounds move an odd number by an odd multiple of `2^(k+1)`. -/
theorem iter_two_pow (k : ℕ) {x : ℤ} (hx : Odd x) : ∃ u, Odd u ∧ prbs^[2 ^ k] x = x + 2 ^ (k + 1) * u := by
  induction k generalizing x with
  | zero => simpa using prbs_first hx
  | succ k ih =>
    obtain ⟨u, hu, hxu⟩ := ih hx
    have he : Even ((2 : ℤ) ^ (k + 1) * u) := ((even_two).pow_of_ne_zero (by omega)).mul_right u
    obtain ⟨b, hb⟩ := iter_step (2 ^ k) hx he
    refine ⟨u * (1 + 2 * b), hu.mul (by simp), ?_⟩
    rw [pow_succ, mul_two, Function.iterate_add_apply, hxu, hb, hxu]
    ring

theorem iter_odd_mul (k m : ℕ) {x : ℤ} (hx : Odd x) :
    ∃ u, prbs^[2 ^ k * m] x = x + 2 ^ (k + 1) * u ∧ (Odd m → Odd u) ∧ (Even m → Even u) := by
  induction m with
  | zero => exact ⟨0, by simp⟩
  | succ m ih =>
    obtain ⟨u, hu, ho, he⟩ := ih
    obtain ⟨v, hv, hxv⟩ := iter_two_pow k (iter_odd (2 ^ k * m) hx)
    refine ⟨u + v, ?_, fun h => ?_, fun h => ?_⟩
    · rw [mul_add, mul_one, add_comm, Function.iterate_add_apply, hxv, hu]
      ring
    · have : Even m := by
        rw [Nat.odd_add_one] at h; exact Nat.not_odd_iff_even.1 h
      exact (he this).add_odd hv
    · have : Odd m := by
        rw [Nat.even_add_one] at h; exact Nat.not_even_iff_odd.1 h
      exact (ho this).add_odd hv

/-- An odd number returns to itself modulo `2^64` only after a multiple of `2^63` rounds. -/
theorem iter_return (n : ℕ) {x : ℤ} (hx : Odd x) (h : (2 : ℤ) ^ 64 ∣ prbs^[n] x - x) : 2 ^ 63 ∣ n := by
  rcases Nat.eq_zero_or_pos n with rfl | hn
  · exact dvd_zero _
  obtain ⟨k, m, hm, rfl⟩ := Nat.exists_eq_two_pow_mul_odd hn.ne'
  obtain ⟨u, hu, ho, -⟩ := iter_odd_mul k m hx
  rw [hu, add_sub_cancel_left] at h
  have hk : 63 ≤ k := by
    by_contra hk
    have h2 : (2 : ℤ) ^ (k + 1) * 2 ∣ 2 ^ (k + 1) * u := by
      refine Dvd.dvd.trans ?_ h
      rw [← pow_succ]
      exact pow_dvd_pow 2 (by omega)
    have := (mul_dvd_mul_iff_left (by positivity : (2 : ℤ) ^ (k + 1) ≠ 0)).1 h2
    exact (Int.not_even_iff_odd.2 (ho hm)) (even_iff_two_dvd.2 this)
  exact (pow_dvd_pow 2 hk).mul_right m

theorem iter_inj (n : ℕ) {x y : ℤ} (hx : Odd x) (hy : Odd y)
    (h : (2 : ℤ) ^ 64 ∣ prbs^[n] y - prbs^[n] x) : (2 : ℤ) ^ 64 ∣ y - x := by
  obtain ⟨a, ha⟩ := iter_step n hx (hy.sub_odd hx)
  rw [add_sub_cancel] at ha
  rw [ha, add_sub_cancel_left] at h
  have hc : IsCoprime ((2 : ℤ) ^ 64) (1 + 4 * a) :=
    IsCoprime.pow_left ⟨-2 * a, 1, by ring⟩
  exact hc.dvd_of_dvd_mul_right h

theorem ofInt_prbs (x : ℤ) : BitVec.ofInt 64 (prbs x) =
    (BitVec.ofInt 64 x) ^ 7 + (BitVec.ofInt 64 x) ^ 6 + 1 := by
  have hp : ∀ n : ℕ, BitVec.ofInt 64 (x ^ n) = (BitVec.ofInt 64 x) ^ n := by
    intro n
    induction n with
    | zero => rw [pow_zero, BitVec.pow_zero]; rfl
    | succ n ih => rw [pow_succ, BitVec.ofInt_mul, ih, BitVec.pow_succ]
  unfold prbs
  rw [BitVec.ofInt_add, BitVec.ofInt_add, hp, hp]
  rfl

theorem ofInt_eq_iff (x y : ℤ) : BitVec.ofInt 64 x = BitVec.ofInt 64 y ↔ (2 : ℤ) ^ 64 ∣ y - x := by
  rw [← BitVec.toInt_inj, BitVec.toInt_ofInt, BitVec.toInt_ofInt]
  constructor
  · intro h
    have h1 := congrArg (fun z : ℤ => z % ((2 ^ 64 : ℕ) : ℤ)) h
    simp only [Int.bmod_emod] at h1
    exact_mod_cast Int.ModEq.dvd (show x ≡ y [ZMOD ((2 ^ 64 : ℕ) : ℤ)] from h1)
  · intro h
    have : x ≡ y [ZMOD ((2 ^ 64 : ℕ) : ℤ)] := Int.modEq_iff_dvd.2 (by exact_mod_cast h)
    rw [← Int.emod_bmod x, ← Int.emod_bmod y, this.eq]

theorem seeds_get (n : ℕ) (s : BitVec 64) (x : ℤ) (hx : s = BitVec.ofInt 64 x) (i : ℕ) (hi : i < n) :
    (cmwcSeeds n s)[i]? = some (BitVec.ofInt 64 (prbs^[i + 1] x)) := by
  induction n generalizing s x i with
  | zero => omega
  | succ n ih =>
    have h1 : s ^ 7 + s ^ 6 + 1 = BitVec.ofInt 64 (prbs x) := by rw [hx, ofInt_prbs]
    cases i with
    | zero => simpa [cmwcSeeds] using h1
    | succ i =>
      rw [Function.iterate_succ_apply]
      simp only [cmwcSeeds, List.getElem?_cons_succ]
      exact ih _ _ h1 i (by omega)

theorem prbs_any (x : ℤ) : Odd (prbs x) := by
  rcases Int.even_or_odd x with h | h
  · unfold prbs
    exact ((h.pow_of_ne_zero (by norm_num)).add (h.pow_of_ne_zero (by norm_num))).add_one
  · exact prbs_odd h

end Aux

/-- **C110 (streams).**  However many of the up to `2^63` parallel sequences are used, and for every seed, no two of them
start in the same state: the starting seeds are pairwise different, and odd. -/
theorem C110_streams (n : ℕ) (hn : n ≤ 2 ^ 63) (seed : BitVec 64) :
    (cmwcSeeds n seed).Nodup ∧ ∀ s ∈ cmwcSeeds n seed, s.toNat % 2 = 1 := by
  have hx : seed = BitVec.ofInt 64 seed.toInt := BitVec.ofInt_toInt.symm
  have hlen : (cmwcSeeds n seed).length = n := Aux.seeds_length n seed
  constructor
  · rw [List.nodup_iff_getElem?_ne_getElem?]
    intro i j hij hj
    rw [hlen] at hj
    rw [Aux.seeds_get n seed _ hx i (by omega), Aux.seeds_get n seed _ hx j hj]
    intro h
    have h := (Aux.ofInt_eq_iff _ _).1 (Option.some.inj h)
    have hodd : Odd (Aux.prbs^[i + 1] seed.toInt) := Aux.iter_odd i (Aux.prbs_any _)
    have hr : Aux.prbs^[j + 1] seed.toInt = Aux.prbs^[j - i] (Aux.prbs^[i + 1] seed.toInt) := by
      rw [← Function.iterate_add_apply]
      congr 1
      omega
    rw [hr] at h
    have := Nat.le_of_dvd (by omega) (Aux.iter_return _ hodd h)
    omega
  · intro s hs
    obtain ⟨i, hi, rfl⟩ := List.mem_iff_getElem.1 hs
    rw [hlen] at hi
    have h := Aux.seeds_get n seed _ hx i hi
    rw [List.getElem?_eq_getElem (by omega)] at h
    rw [Option.some.inj h]
    have hodd : Odd (Aux.prbs^[i + 1] seed.toInt) := Aux.iter_odd i (Aux.prbs_any _)
    obtain ⟨m, hm⟩ := hodd
    rw [hm, BitVec.toNat_ofInt]
    omega

/-- **C110 (odd seeds).**  Two different odd seeds never share a starting state in the same position. -/
theorem C110_odd_seeds (n i : ℕ) (hi : i < n) (s t : BitVec 64) (hs : s.toNat % 2 = 1) (ht : t.toNat % 2 = 1)
    (h : (cmwcSeeds n s)[i]? = (cmwcSeeds n t)[i]?) : s = t := by
  have odd : ∀ v : BitVec 64, v.toNat % 2 = 1 → Odd (v.toNat : ℤ) := fun v hv => by
    rw [Int.odd_coe_nat]; exact Nat.odd_iff.2 hv
  have hx : ∀ v : BitVec 64, v = BitVec.ofInt 64 (v.toNat : ℤ) := fun v => by simp
  rw [Aux.seeds_get n s _ (hx s) i hi, Aux.seeds_get n t _ (hx t) i hi] at h
  have h := (Aux.ofInt_eq_iff _ _).1 (Option.some.inj h)
  have := Aux.iter_inj _ (odd s hs) (odd t ht) h
  rw [hx s, hx t]
  exact (Aux.ofInt_eq_iff _ _).2 this

/-- **C110 (colliding seeds).**  Different seeds need not give different sequences: every seed that is a multiple of 2048
gives the sequence of the seed 0. -/
theorem C110_seeds_violated (numElements : ℤ) (k : ℕ) :
    cmwcRandomSequence numElements (BitVec.ofNat 64 (2048 * k)) = cmwcRandomSequence numElements 0 := by
  have hs : ∀ n, cmwcSeeds n (BitVec.ofNat 64 (2048 * k)) = cmwcSeeds n 0 := by
    intro n
    have hx : BitVec.ofNat 64 (2048 * k) = BitVec.ofInt 64 ((2048 * k : ℕ) : ℤ) := (BitVec.ofInt_natCast _ _).symm
    have h0 : (0 : BitVec 64) = BitVec.ofInt 64 0 := rfl
    cases n with
    | zero => rfl
    | succ n =>
      have : (BitVec.ofNat 64 (2048 * k)) ^ 7 + (BitVec.ofNat 64 (2048 * k)) ^ 6 + 1 = (0 : BitVec 64) ^ 7 + 0 ^ 6 + 1 := by
        rw [hx, h0, ← Aux.ofInt_prbs, ← Aux.ofInt_prbs, Aux.ofInt_eq_iff]
        unfold Aux.prbs
        refine ⟨-(k ^ 6 * 4 * (2048 * k + 1)), ?_⟩
        push_cast
        ring
      simp only [cmwcSeeds, this]
  unfold cmwcRandomSequence
  simp only [hs]

namespace Aux

/-- Value that is written one step after another one. -/
theorem next_value (l : CmwcLane) : ∃ e : ℚ, -1 / 2 ^ 11 ≤ e ∧ e < 1 / 2 ^ 11 ∧
    (l.consume.advance).value = Int.fract (2 ^ 32 * l.value + e) := by
  set d : ℤ := (l.f.sshiftRight 53).toInt with hd
  set x : ℕ := ((3636507990#64 * l.q + l.c) &&& (4294967295#64)).toNat with hx
  have hx32 : x < 2 ^ 32 := by
    rw [hx, BitVec.toNat_and]
    exact lt_of_le_of_lt Nat.and_le_right (by decide)
  have hd1 : -1024 ≤ d ∧ d ≤ 1023 := by
    rw [hd, BitVec.toInt_sshiftRight, Int.shiftRight_eq_div_pow]
    have h1 := BitVec.le_toInt l.f
    have h2 := BitVec.toInt_lt (x := l.f)
    norm_num at h1 h2 ⊢
    omega
  have hxq : (x : ℚ) < 2 ^ 32 := by exact_mod_cast hx32
  have hx0 : (0 : ℚ) ≤ x := by positivity
  have hq1 : (-1024 : ℚ) ≤ d := by exact_mod_cast hd1.1
  have hq2 : (d : ℚ) ≤ 1023 := by exact_mod_cast hd1.2
  have hmask : ∀ v : BitVec 64, (v &&& (9007199254740991#64)).toNat = v.toNat % 2 ^ 53 := by
    intro v
    rw [BitVec.toNat_and]
    exact Nat.and_two_pow_sub_one_eq_mod v.toNat 53
  set F : ℕ := l.f.toNat with hF
  set g : ℕ := (l.f + l.f.sshiftRight 53).toNat with hg
  have hval : l.value = ((F % 2 ^ 53 : ℕ) : ℚ) / 2 ^ 53 := by
    unfold CmwcLane.value; rw [hmask]
  have hnext : (l.consume.advance).value = (((g % 2 ^ 21) * 2 ^ 32 + x : ℕ) : ℚ) / 2 ^ 53 := by
    unfold CmwcLane.value
    rw [hmask]
    congr 2
    have : (l.consume.advance).f.toNat = (g <<< 32) % 2 ^ 64 ||| x := by
      simp only [CmwcLane.advance, CmwcLane.consume, BitVec.toNat_or, BitVec.toNat_shiftLeft, hg, hx]
    have h2 : (g <<< 32) % 2 ^ 64 = (g % 2 ^ 32) <<< 32 := by
      rw [Nat.shiftLeft_eq, Nat.shiftLeft_eq]; omega
    rw [this, h2, ← Nat.shiftLeft_add_eq_or_of_lt hx32, Nat.shiftLeft_eq]
    omega
  have hgd : ∃ z : ℤ, (g : ℤ) = F + d + 2 ^ 64 * z := by
    have h1 : (g : ℤ) = ((F : ℤ) + ((l.f.sshiftRight 53).toNat : ℤ)) % 2 ^ 64 := by
      rw [hg, BitVec.toNat_add]; push_cast; rfl
    have h2 := BitVec.toInt_eq_toNat_cond (l.f.sshiftRight 53)
    rw [← hd] at h2
    split at h2
    · exact ⟨((g : ℤ) - F - d) / 2 ^ 64, by norm_num at h1 h2 ⊢; omega⟩
    · exact ⟨((g : ℤ) - F - d) / 2 ^ 64, by norm_num at h1 h2 ⊢; omega⟩
  refine ⟨(d + x / 2 ^ 32) / 2 ^ 21, ?_, ?_, ?_⟩
  · rw [le_div_iff₀ (by positivity)]
    have : (0 : ℚ) ≤ x / 2 ^ 32 := by positivity
    norm_num at this ⊢
    linarith
  · rw [div_lt_iff₀ (by positivity)]
    have : (x : ℚ) / 2 ^ 32 < 1 := by rw [div_lt_one (by positivity)]; exact hxq
    norm_num at this ⊢
    linarith
  · rw [hnext, hval]
    symm
    rw [Int.fract_eq_iff]
    refine ⟨by positivity, ?_, ?_⟩
    · rw [div_lt_one (by positivity)]
      have : (g % 2 ^ 21) * 2 ^ 32 + x < 2 ^ 53 := by omega
      exact_mod_cast this
    · obtain ⟨z, hz⟩ := hgd
      have hint : ∃ w : ℤ, ((F % 2 ^ 53 : ℕ) : ℤ) + d - ((g % 2 ^ 21 : ℕ) : ℤ) = 2 ^ 21 * w := by
        refine ⟨(((F % 2 ^ 53 : ℕ) : ℤ) + d - ((g % 2 ^ 21 : ℕ) : ℤ)) / 2 ^ 21, ?_⟩
        norm_num at hz ⊢
        omega
      obtain ⟨w, hw⟩ := hint
      refine ⟨w, ?_⟩
      have hwq : ((F % 2 ^ 53 : ℕ) : ℚ) + d - ((g % 2 ^ 21 : ℕ) : ℚ) = 2 ^ 21 * w := by
        have := congrArg (fun z : ℤ => (z : ℚ)) hw
        simpa only [Int.cast_sub, Int.cast_add, Int.cast_natCast, Int.cast_mul, Int.cast_pow, Int.cast_ofNat] using this
      generalize ((F % 2 ^ 53 : ℕ) : ℚ) = P at hwq ⊢
      rw [Nat.cast_add, Nat.cast_mul]
      generalize ((g % 2 ^ 21 : ℕ) : ℚ) = G at hwq ⊢
      push_cast
      field_simp
      linarith

theorem loop_write (numIters num : ℕ) (b : ℕ) (hb : b < 53) (lanes : List CmwcLane) (h : num < numIters)
    (h53 : 53 ≤ b + 32) : cmwcLoop numIters num ⟨b, hb⟩ lanes =
      ((cmwcAdvanceAll lanes).map CmwcLane.value) ::
        cmwcLoop numIters (num + 1) ⟨b + 32 - 53, by omega⟩ (cmwcConsumeAll (cmwcAdvanceAll lanes)) := by
  rw [cmwcLoop, if_pos h]
  simp only [dif_pos h53]

theorem loop_skip (numIters num : ℕ) (b : ℕ) (hb : b < 53) (lanes : List CmwcLane) (h : num < numIters)
    (h53 : ¬ 53 ≤ b + 32) : cmwcLoop numIters num ⟨b, hb⟩ lanes =
      cmwcLoop numIters num ⟨b + 32, by omega⟩ (cmwcAdvanceAll lanes) := by
  rw [cmwcLoop, if_pos h]
  simp only [dif_neg h53]

end Aux

/-- **C110 (independence).**  The values of a sequence are not independent: the third value of each of the `p` parallel
sequences is determined by the second one, up to an error below `2^-11` (modulo 1). -/
theorem C110_predictable_violated (n : ℕ) (seed : BitVec 64) (values : List ℚ)
    (h : cmwcRandomSequence n seed = some values) (p : ℕ) (hp : p = cmwcParallelism n) (i : ℕ) (hi : i < p)
    (hn : 3 * p ≤ n) :
    ∃ v w e : ℚ, values[p + i]? = some v ∧ values[2 * p + i]? = some w ∧
      -1 / 2 ^ 11 ≤ e ∧ e < 1 / 2 ^ 11 ∧ w = Int.fract (2 ^ 32 * v + e) := by
  have hpos : 0 < n := by omega
  unfold cmwcRandomSequence at h
  rw [if_neg (by omega)] at h
  have h := Option.some.inj h
  rw [Int.toNat_natCast, ← hp] at h
  have hit : 3 < cmwcNumIters n := by
    unfold cmwcNumIters
    rw [← hp]
    have : 3 ≤ n / p := (Nat.le_div_iff_mul_le (by omega)).2 hn
    omega
  generalize hl0 : (cmwcSeeds p seed).map (fun s => (⟨0, s, s⟩ : CmwcLane)) = lanes at h
  have hlen : lanes.length = p := by rw [← hl0, List.length_map, Aux.seeds_length]
  rw [Aux.loop_skip _ _ _ _ _ (by omega) (by norm_num), Aux.loop_write _ _ _ _ _ (by omega) (by norm_num),
    Aux.loop_skip _ _ _ _ _ (by omega) (by norm_num), Aux.loop_write _ _ _ _ _ (by omega) (by norm_num),
    Aux.loop_write _ _ _ _ _ (by omega) (by norm_num)] at h
  generalize hl1 : cmwcAdvanceAll (cmwcAdvanceAll (cmwcConsumeAll (cmwcAdvanceAll (cmwcAdvanceAll lanes)))) = m at h
  have hm : m.length = p := by rw [← hl1]; simp [cmwcAdvanceAll, cmwcConsumeAll, hlen]
  generalize hr : cmwcLoop (cmwcNumIters n) _ _ _ = rest at h
  simp only [List.flatten_cons] at h
  set r0 := (cmwcAdvanceAll (cmwcAdvanceAll lanes)).map CmwcLane.value with hr0
  have hr0l : r0.length = p := by rw [hr0]; simp [cmwcAdvanceAll, hlen]
  have him : i < m.length := by omega
  obtain ⟨e, he1, he2, he3⟩ := Aux.next_value m[i]
  refine ⟨(m[i]).value, ((m[i]).consume.advance).value, e, ?_, ?_, he1, he2, he3⟩
  · rw [← h, List.getElem?_take_of_lt (by omega), List.getElem?_append_right (by omega), hr0l,
      Nat.add_sub_cancel_left, List.getElem?_append_left (by simp; omega), List.getElem?_map,
      List.getElem?_eq_getElem him]
    rfl
  · rw [← h, List.getElem?_take_of_lt (by omega), List.getElem?_append_right (by omega), hr0l,
      show 2 * p + i - p = p + i by omega, List.getElem?_append_right (by simp; omega), List.length_map, hm,
      Nat.add_sub_cancel_left, List.getElem?_append_left (by simp [cmwcAdvanceAll, cmwcConsumeAll]; omega),
      List.getElem?_map]
    simp only [cmwcAdvanceAll, cmwcConsumeAll, List.getElem?_map, List.getElem?_eq_getElem him, Option.map_some]

/-- Non-vacuity: four values from one sequence, and two parallel sequences. -/
example : cmwcParallelism 4 = 1 ∧ cmwcParallelism 101 = 2 ∧ (cmwcSeeds 2 42).length = 2 ∧
    (cmwcRandomSequence 4 42).isSome ∧ (BitVec.ofNat 64 (2048 * 5)) ≠ (0 : BitVec 64) := by
  refine ⟨by decide +kernel, by decide +kernel, rfl, ?_, by decide⟩
  obtain ⟨v, hv, -⟩ := (C47_cmwc 4 42).2 (by norm_num)
  rw [hv]; rfl

/-! ## C47: the values as `float32` and `float64` -/

/-- **C47 (values as floating-point numbers).**  For every rounding, the requested number of values is returned, all
in `[0, 1]`; in a type with at least 53 digits (`float64`) all are below 1.  Missing for the full claim: `float32`, see
`C47_float32_violated`. -/
theorem C47_float_partial (R : Rounding ℚ) (n : ℤ) (seed : BitVec 64) (values : List ℚ)
    (h : randomFloatsCmwc R n seed = some values) :
    (values.length : ℤ) = n ∧ (∀ v ∈ values, 0 ≤ v ∧ v ≤ 1) ∧
      ((∀ k : ℕ, k < 2 ^ 53 → R.rnd (k / 2 ^ 53) = k / 2 ^ 53) → ∀ v ∈ values, v < 1) := by
  unfold randomFloatsCmwc at h
  cases hs : cmwcRandomSequence n seed with
  | none => rw [hs] at h; cases h
  | some vs =>
    rw [hs] at h
    obtain rfl : vs.map R.rnd = values := Option.some.inj h
    have hr := C47_cmwc_range n seed vs hs
    have hn : 0 < n := by
      by_contra hc
      rw [(C47_cmwc n seed).1 (by omega)] at hs
      cases hs
    obtain ⟨ws, hw, hl, hd⟩ := (C47_cmwc n seed).2 hn
    obtain rfl : vs = ws := by rw [hs] at hw; exact Option.some.inj hw
    refine ⟨by simpa using hl, ?_, ?_⟩
    · intro v hv
      obtain ⟨x, hx, rfl⟩ := List.mem_map.1 hv
      exact ⟨Aux.rnd_nonneg R (hr x hx).1, Aux.rnd_le_one R (hr x hx).2.le⟩
    · intro hk v hv
      obtain ⟨x, hx, rfl⟩ := List.mem_map.1 hv
      obtain ⟨k, hk1, rfl⟩ := hd x hx
      rw [hk k hk1]
      exact (hr _ hx).2

/-- Scaling by a power of two commutes with rounding to a number of digits. -/
theorem Aux.binary_scale (p : ℕ) {x : ℚ} (hx : 0 < x) (k : ℤ) : binary p (x * 2 ^ k) = binary p x * 2 ^ k := by
  have h2 : (0 : ℚ) < 2 ^ k := zpow_pos (by norm_num) k
  have hlog : Int.log 2 (x * 2 ^ k) = Int.log 2 x + k := by
    have a1 := Int.zpow_log_le_self (b := 2) (by norm_num) hx
    have a2 := Int.lt_zpow_succ_log_self (b := 2) (by norm_num) x
    apply le_antisymm
    · rw [← Int.lt_add_one_iff, ← Int.lt_zpow_iff_log_lt (by norm_num) (mul_pos hx h2),
        show Int.log 2 x + k + 1 = (Int.log 2 x + 1) + k by ring, zpow_add₀ (by norm_num)]
      exact mul_lt_mul_of_pos_right a2 h2
    · rw [← Int.zpow_le_iff_le_log (by norm_num) (mul_pos hx h2), zpow_add₀ (by norm_num)]
      exact mul_le_mul_of_nonneg_right a1 h2.le
  have hulp : ulp p (x * 2 ^ k) = ulp p x * 2 ^ k := by
    unfold ulp
    rw [abs_of_pos (mul_pos hx h2), abs_of_pos hx, hlog, ← zpow_add₀ (by norm_num)]
    congr 1
    ring
  unfold binary
  rw [hulp, mul_div_mul_right _ _ h2.ne', mul_assoc]

/-- **C47 (`float64`).**  With IEEE double precision every value is in `[0, 1)`. -/
theorem C47_float64 (n : ℤ) (seed : BitVec 64) (values : List ℚ)
    (h : randomFloatsCmwc (Example.ieee 53 (by norm_num)) n seed = some values) :
    (values.length : ℤ) = n ∧ ∀ v ∈ values, 0 ≤ v ∧ v < 1 := by
  obtain ⟨h1, h2, h3⟩ := C47_float_partial _ n seed values h
  refine ⟨h1, fun v hv => ⟨(h2 v hv).1, h3 ?_ v hv⟩⟩
  intro k hk
  show binary 53 ((k : ℚ) / 2 ^ 53) = (k : ℚ) / 2 ^ 53
  rcases Nat.eq_zero_or_pos k with rfl | hpos
  · simp [Aux.binary_zero]
  have hkq : (0 : ℚ) < k := by exact_mod_cast hpos
  have e : (k : ℚ) / 2 ^ 53 = k * 2 ^ (-53 : ℤ) := by rw [zpow_neg]; norm_num; ring
  rw [e, Aux.binary_scale 53 hkq, Aux.binary_nat 53 k (by norm_num) hk.le]

/-- **C47 (violated for `float32`).**  The documented range is `[0, 1)`, but with the default type and the seed
2267207965580000535 the first value is 1. -/
theorem C47_float32_violated :
    randomFloatsCmwc (Example.ieee 24 le_rfl) 1 2267207965580000535 = some [1] := by
  unfold randomFloatsCmwc cmwcRandomSequence
  rw [if_neg (by norm_num)]
  dsimp only
  rw [show cmwcNumIters (1 : ℤ).toNat = 2 by decide +kernel]
  rw [Aux.loop_skip _ _ _ _ _ (by omega) (by norm_num), Aux.loop_write _ _ _ _ _ (by omega) (by norm_num)]
  generalize hr : cmwcLoop _ _ _ _ = rest
  have : (cmwcAdvanceAll (cmwcAdvanceAll ((cmwcSeeds (cmwcParallelism (1 : ℤ).toNat) 2267207965580000535).map
      fun s => (⟨0, s, s⟩ : CmwcLane)))).map CmwcLane.value = [9007199254740991 / 9007199254740992] := by
    decide +kernel
  rw [this]
  have h2 : binary 24 (9007199254740991 / 9007199254740992 : ℚ) = 1 := by decide +kernel
  simp only [List.flatten_cons, List.cons_append, List.nil_append, Option.map_some]
  change some ([binary 24 (9007199254740991 / 9007199254740992 : ℚ)]) = some [1]
  rw [h2]

end Verif.Props
