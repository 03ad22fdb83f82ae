import Verif.Encoding.BitPack
import Mathlib.Tactic.Ring
import Mathlib.Tactic.Linarith
import Mathlib.Algebra.Order.Ring.Nat
import Mathlib.Data.List.Basic

/-!
# C31, C32: bit packing is lossless
-/

namespace Verif.Props

open Verif.Encoding

/-! ## Specification -/

/-- The number whose base-`B` digits are `l`, least significant first.  For `B = 2^b` this is the
concatenation of the `b`-bit values of `l`. -/
def Spec.number (B : Nat) : List Nat → Nat
  | [] => 0
  | x :: l => x + B * Spec.number B l

/-- `ws` is the list of `t`-bit words holding the concatenated bits of the `b`-bit values `xs`:
the same bit string, in as few words as possible. -/
structure Spec.Packed (b t : Nat) (xs ws : List Nat) : Prop where
  fits : ∀ w ∈ ws, w < 2 ^ t
  bits : Spec.number (2 ^ t) ws = Spec.number (2 ^ b) xs
  count : ws.length = (xs.length * b + t - 1) / t

/-! ## Numbers and digits -/

theorem Aux.number_append (B : Nat) (l m : List Nat) :
    Spec.number B (l ++ m) = Spec.number B l + B ^ l.length * Spec.number B m := by
  induction l with
  | nil => simp [Spec.number]
  | cons x l ih => simp only [List.cons_append, Spec.number, ih, List.length_cons]; ring

theorem Aux.number_zeros (B n : Nat) : Spec.number B (List.replicate n 0) = 0 := by
  induction n with
  | zero => rfl
  | succ n ih => simp [List.replicate_succ, Spec.number, ih]

theorem Aux.number_lt {B : Nat} {l : List Nat} (h : ∀ x ∈ l, x < B) :
    Spec.number B l < B ^ l.length := by
  induction l with
  | nil => simp [Spec.number]
  | cons x l ih =>
    have hx := h x (by simp)
    have ih := ih fun y hy => h y (by simp [hy])
    simp only [Spec.number, List.length_cons]
    calc x + B * Spec.number B l < B + B * Spec.number B l := by omega
      _ = B * (Spec.number B l + 1) := by ring
      _ ≤ B * B ^ l.length := Nat.mul_le_mul_left _ ih
      _ = B ^ (l.length + 1) := by ring

theorem Aux.number_unique {B : Nat} (l m : List Nat) (hl : ∀ x ∈ l, x < B) (hm : ∀ x ∈ m, x < B)
    (hlen : l.length = m.length) (h : Spec.number B l = Spec.number B m) : l = m := by
  induction l generalizing m with
  | nil => exact (List.length_eq_zero_iff.1 hlen.symm).symm
  | cons x l ih =>
    cases m with
    | nil => simp at hlen
    | cons y m =>
      have hx := hl x (by simp)
      have hy := hm y (by simp)
      simp only [Spec.number] at h
      have hpos : 0 < B := by omega
      have h1 : x = y := by
        have := congrArg (· % B) h
        simpa [Nat.add_mul_mod_self_left, Nat.mod_eq_of_lt hx, Nat.mod_eq_of_lt hy] using this
      subst h1
      have h2 : Spec.number B l = Spec.number B m :=
        Nat.eq_of_mul_eq_mul_left hpos (Nat.add_left_cancel h)
      rw [ih m (fun z hz => hl z (by simp [hz])) (fun z hz => hm z (by simp [hz]))
        (by simpa using hlen) h2]

/-- A longer digit string of the same number is the shorter one followed by zeros. -/
theorem Aux.number_take {B : Nat} (us xs : List Nat) (hu : ∀ x ∈ us, x < B)
    (hx : ∀ x ∈ xs, x < B) (hlen : xs.length ≤ us.length)
    (h : Spec.number B us = Spec.number B xs) : us.take xs.length = xs := by
  rcases Nat.eq_zero_or_pos us.length with h0 | h0
  · have : xs.length = 0 := by omega
    rw [List.length_eq_zero_iff.1 this]; simp
  have hB : 0 < B := by
    obtain ⟨x, hx⟩ := List.exists_mem_of_length_pos h0
    have := hu x hx; omega
  have : us = xs ++ List.replicate (us.length - xs.length) 0 := by
    apply Aux.number_unique _ _ hu
    · intro x hx'
      rcases List.mem_append.1 hx' with h | h
      · exact hx x h
      · rw [(List.mem_replicate.1 h).2]; exact hB
    · simp; omega
    · rw [Aux.number_append, Aux.number_zeros, h]; simp
  rw [this, List.take_append_of_le_length (le_refl _), List.take_length]

/-- Dropping leading zero words does not change the number. -/
theorem Aux.number_trim {B : Nat} (ws : List Nat) (hw : ∀ x ∈ ws, x < B) (L : Nat)
    (hlt : Spec.number B ws < B ^ L) :
    Spec.number B (ws.take L) = Spec.number B ws := by
  by_cases hL : ws.length ≤ L
  · rw [List.take_of_length_le hL]
  have hsplit := Aux.number_append B (ws.take L) (ws.drop L)
  rw [List.take_append_drop] at hsplit
  rw [List.length_take, Nat.min_eq_left (by omega)] at hsplit
  have : Spec.number B (ws.drop L) = 0 := by
    by_contra hne
    have h1 : 1 ≤ Spec.number B (ws.drop L) := Nat.one_le_iff_ne_zero.2 hne
    have h2 : B ^ L * 1 ≤ B ^ L * Spec.number B (ws.drop L) := Nat.mul_le_mul_left _ h1
    omega
  rw [hsplit, this]; omega

/-! ## Padding and rows -/

theorem Aux.padLen_eq (n k : Nat) (hk : 0 < k) : padLen n k = (k - n % k) % k := by
  unfold padLen
  have h : ((-(n : Int)) % (k : Int)) = (((k - n % k) % k : Nat) : Int) := by
    have h1 : n % k < k := Nat.mod_lt _ hk
    push_cast [Nat.le_of_lt h1]
    conv_lhs => rw [← Int.emod_add_mul_ediv (n : Int) k]
    rw [Int.neg_emod_eq_sub_emod]
    rw [← Int.emod_add_mul_ediv (↑k - (↑n % ↑k + ↑k * (↑n / ↑k))) k]
    have : (↑k : Int) - (↑n % ↑k + ↑k * (↑n / ↑k)) = (↑k - ↑n % ↑k) + ↑k * (-(↑n / ↑k)) := by ring
    rw [this, Int.add_mul_emod_self_left]
    simp
  rw [h, Int.toNat_natCast]

theorem Aux.padLen_lt (n k : Nat) (hk : 0 < k) : padLen n k < k := by
  rw [Aux.padLen_eq n k hk]; exact Nat.mod_lt _ hk

theorem Aux.padLen_add (n k : Nat) (hk : 0 < k) : ∃ m, n + padLen n k = m * k := by
  rw [Aux.padLen_eq n k hk]
  have hlt : n % k < k := Nat.mod_lt _ hk
  have hdm := Nat.mod_add_div n k
  by_cases h0 : n % k = 0
  · refine ⟨n / k, ?_⟩
    rw [h0]; simp
    rw [h0, Nat.zero_add] at hdm
    rw [Nat.mul_comm]; omega
  · refine ⟨n / k + 1, ?_⟩
    rw [Nat.mod_eq_of_lt (by omega), Nat.add_mul, Nat.mul_comm (n / k)]; omega

theorem Aux.padZeros_spec (k : Nat) (hk : 0 < k) (v : List Nat) (B : Nat) (hB : 0 < B)
    (hv : ∀ x ∈ v, x < B) :
    ∃ m, (padZeros k v).length = m * k ∧ v.length + padLen v.length k = m * k ∧
      (∀ x ∈ padZeros k v, x < B) ∧ Spec.number B (padZeros k v) = Spec.number B v := by
  obtain ⟨m, hm⟩ := Aux.padLen_add v.length k hk
  refine ⟨m, ?_, hm, ?_, ?_⟩
  · simpa [padZeros] using hm
  · intro x hx
    rcases List.mem_append.1 hx with h | h
    · exact hv x h
    · rw [(List.mem_replicate.1 h).2]; exact hB
  · rw [padZeros, Aux.number_append, Aux.number_zeros]; simp

theorem Aux.rows_zero (k : Nat) (hk : 0 < k) : rows k [] = [] := by simp [rows]

theorem Aux.rows_cons (k : Nat) (hk : 0 < k) (v : List Nat) (hv : k ≤ v.length) :
    rows k v = v.take k :: rows k (v.drop k) := by
  unfold rows
  have h : v.length / k = (v.length - k) / k + 1 := by
    rw [Nat.div_eq_sub_div hk hv]
  rw [h, List.range_succ_eq_map, List.map_cons, List.map_map, List.length_drop]
  congr 1
  · simp
  · apply List.map_congr_left
    intro r _
    simp only [Function.comp, List.drop_drop, Nat.succ_eq_add_one]
    congr 2
    ring

/-- Row-wise repacking preserves the concatenated bits. -/
theorem Aux.rows_repack {p q k w : Nat} (hk : 0 < k) (hpq : p * k = q * w)
    (f : List Nat → List Nat)
    (hf : ∀ row : List Nat, row.length = k → (∀ x ∈ row, x < 2 ^ p) →
      (f row).length = w ∧ (∀ x ∈ f row, x < 2 ^ q) ∧
        Spec.number (2 ^ q) (f row) = Spec.number (2 ^ p) row)
    (m : Nat) (v : List Nat) (hlen : v.length = m * k) (hv : ∀ x ∈ v, x < 2 ^ p) :
    ((rows k v).flatMap f).length = m * w ∧ (∀ x ∈ (rows k v).flatMap f, x < 2 ^ q) ∧
      Spec.number (2 ^ q) ((rows k v).flatMap f) = Spec.number (2 ^ p) v := by
  induction m generalizing v with
  | zero =>
    have : v = [] := List.length_eq_zero_iff.1 (by simpa using hlen)
    subst this
    simp [Aux.rows_zero k hk, Spec.number]
  | succ m ih =>
    have hkl : k ≤ v.length := by rw [hlen, Nat.add_mul]; omega
    rw [Aux.rows_cons k hk v hkl, List.flatMap_cons]
    obtain ⟨h1, h2, h3⟩ := hf (v.take k) (by simp [hkl]) fun x hx => hv x (List.mem_of_mem_take hx)
    obtain ⟨i1, i2, i3⟩ := ih (v.drop k) (by rw [List.length_drop, hlen, Nat.add_mul]; omega)
      fun x hx => hv x (List.mem_of_mem_drop hx)
    refine ⟨?_, ?_, ?_⟩
    · rw [List.length_append, h1, i1]; ring
    · intro x hx
      rcases List.mem_append.1 hx with h | h
      · exact h2 x h
      · exact i2 x h
    · rw [Aux.number_append, h1, h3, i3]
      conv_rhs => rw [← List.take_append_drop k v, Aux.number_append]
      rw [List.length_take, Nat.min_eq_left hkl, ← Nat.pow_mul, ← Nat.pow_mul, hpq]

/-! ## The general path -/

theorem Aux.dotPow2_from (row : List Nat) (s : Nat) :
    ((row.zipIdx s).map fun p => p.1 * 2 ^ p.2).sum = 2 ^ s * Spec.number 2 row := by
  induction row generalizing s with
  | nil => simp [Spec.number]
  | cons x row ih =>
    simp only [List.zipIdx_cons, List.map_cons, List.sum_cons, ih, Spec.number]
    ring

theorem Aux.dotPow2_eq (row : List Nat) : dotPow2 row = Spec.number 2 row := by
  rw [dotPow2, Aux.dotPow2_from]; simp

theorem Aux.packBinary_spec (t : Nat) (ht : 0 < t) (v : List Nat) (hv : ∀ x ∈ v, x < 2) :
    (packBinaryForm v t).length = (v.length + t - 1) / t ∧ (∀ w ∈ packBinaryForm v t, w < 2 ^ t) ∧
      Spec.number (2 ^ t) (packBinaryForm v t) = Spec.number 2 v := by
  obtain ⟨m, h1, h2, h3, h4⟩ := Aux.padZeros_spec t ht v 2 (by omega) hv
  have hmap : packBinaryForm v t = (rows t (padZeros t v)).flatMap fun row => [dotPow2 row] := by
    rw [packBinaryForm]
    generalize rows t (padZeros t v) = R
    induction R with
    | nil => rfl
    | cons a R ih => simp [ih]
  obtain ⟨i1, i2, i3⟩ := Aux.rows_repack (p := 1) (q := t) (k := t) (w := 1) ht (by ring)
    (fun row => [dotPow2 row]) (by
      intro row hr hb
      refine ⟨rfl, ?_, ?_⟩
      · intro x hx
        rw [List.mem_singleton.1 hx, Aux.dotPow2_eq]
        have := Aux.number_lt (B := 2) (l := row) (by simpa using hb)
        rwa [hr] at this
      · simp [Spec.number, Aux.dotPow2_eq]) m (padZeros t v) h1 (by simpa using h3)
  rw [hmap]
  refine ⟨?_, i2, ?_⟩
  · rw [i1, Nat.mul_one]
    have hlt := Aux.padLen_lt v.length t ht
    symm
    rw [Nat.div_eq_iff ht]
    constructor <;> omega
  · rw [i3, ← h4]; simp

theorem Aux.bits_number (x b : Nat) :
    Spec.number 2 ((List.range b).map fun i => x / 2 ^ i % 2) = x % 2 ^ b := by
  induction b generalizing x with
  | zero => simp [Spec.number, Nat.mod_one]
  | succ b ih =>
    rw [List.range_succ_eq_map, List.map_cons, List.map_map, Spec.number]
    have : ((fun i => x / 2 ^ i % 2) ∘ Nat.succ) = fun i => (x / 2) / 2 ^ i % 2 := by
      funext i
      simp only [Function.comp, Nat.succ_eq_add_one, Nat.div_div_eq_div_mul]
      rw [Nat.pow_succ, Nat.mul_comm]
    rw [this, ih, Nat.pow_zero, Nat.div_one, Nat.pow_succ, Nat.mul_comm (2 ^ b) 2, Nat.mod_mul]

theorem Aux.expand_spec (b : Nat) (v : List Nat) (hv : ∀ x ∈ v, x < 2 ^ b) :
    (expandToBinaryForm v b).length = v.length * b ∧ (∀ x ∈ expandToBinaryForm v b, x < 2) ∧
      Spec.number 2 (expandToBinaryForm v b) = Spec.number (2 ^ b) v := by
  unfold expandToBinaryForm
  induction v with
  | nil => simp [Spec.number]
  | cons x v ih =>
    obtain ⟨h1, h2, h3⟩ := ih fun y hy => hv y (by simp [hy])
    rw [List.flatMap_cons]
    refine ⟨?_, ?_, ?_⟩
    · rw [List.length_append, h1]; simp; ring
    · intro y hy
      rcases List.mem_append.1 hy with h | h
      · obtain ⟨i, _, rfl⟩ := List.mem_map.1 h
        omega
      · exact h2 y h
    · rw [Aux.number_append, h3, Aux.bits_number, Nat.mod_eq_of_lt (hv x (by simp))]
      simp [Spec.number]

theorem Aux.packGeneral_packed (b t : Nat) (hb : 0 < b) (ht : 0 < t) (xs : List Nat)
    (hx : ∀ x ∈ xs, x < 2 ^ b) : Spec.Packed b t xs (packGeneral xs b t) := by
  unfold packGeneral
  split
  · obtain ⟨e1, e2, e3⟩ := Aux.expand_spec b xs hx
    obtain ⟨p1, p2, p3⟩ := Aux.packBinary_spec t ht _ e2
    exact ⟨p2, p3.trans e3, by rw [p1, e1]⟩
  · have hb1 : b = 1 := by omega
    subst hb1
    obtain ⟨p1, p2, p3⟩ := Aux.packBinary_spec t ht xs (by simpa using hx)
    exact ⟨p2, by rw [p3]; simp, by rw [p1]; simp⟩

theorem Aux.packed_ge {b t : Nat} (ht : 0 < t) {xs ws : List Nat} (h : Spec.Packed b t xs ws) :
    xs.length * b ≤ ws.length * t := by
  rw [h.count]
  have h1 := Nat.div_add_mod (xs.length * b + t - 1) t
  have h2 := Nat.mod_lt (xs.length * b + t - 1) ht
  rw [Nat.mul_comm] at h1
  omega

theorem Aux.unpackGeneral_spec (b t : Nat) (hb : 0 < b) (xs ws : List Nat)
    (hx : ∀ x ∈ xs, x < 2 ^ b) (hw : ∀ w ∈ ws, w < 2 ^ t)
    (hnum : Spec.number (2 ^ t) ws = Spec.number (2 ^ b) xs)
    (hlen : xs.length * b ≤ ws.length * t) :
    unpackGeneral ws b t xs.length = some xs := by
  obtain ⟨e1, e2, e3⟩ := Aux.expand_spec t ws hw
  obtain ⟨f1, f2, f3⟩ := Aux.expand_spec b xs hx
  have htake : (expandToBinaryForm ws t).take (xs.length * b) = expandToBinaryForm xs b := by
    rw [← f1]
    apply Aux.number_take _ _ e2 f2 (by rw [f1, e1]; exact hlen)
    rw [e3, f3, hnum]
  unfold unpackGeneral sliceTo
  rw [if_pos (by rw [e1]; exact hlen), htake, Option.map_some, Option.some_inj]
  split
  · obtain ⟨p1, p2, p3⟩ := Aux.packBinary_spec b hb _ f2
    apply Aux.number_unique _ _ p2 hx
    · rw [p1, f1]
      rw [Nat.div_eq_iff hb]
      constructor <;> omega
    · rw [p3, f3]
  · have hb1 : b = 1 := by omega
    subst hb1
    apply Aux.number_unique _ _ f2 (by simpa using hx) (by rw [f1]; simp)
    rw [f3]; simp

/-! ## The special packers -/

/-- What a special packer's constants must satisfy. -/
structure Aux.Special (b cols w : Nat) (packRow : List Nat → List Nat) (drop : Nat → Nat) : Prop where
  cols_pos : 0 < cols
  bits : b * cols = 28 * w
  row : ∀ row : List Nat, row.length = cols → (∀ x ∈ row, x < 2 ^ b) →
    (packRow row).length = w ∧ (∀ x ∈ packRow row, x < 2 ^ 28) ∧
      Spec.number (2 ^ 28) (packRow row) = Spec.number (2 ^ b) row
  drop_ok : ∀ e < cols, 28 * drop e ≤ b * e ∧ b * e < 28 * drop e + 28

theorem Aux.packSpecial_spec {b cols w packRow drop} (S : Aux.Special b cols w packRow drop)
    (static : Bool) (xs : List Nat) (hx : ∀ x ∈ xs, x < 2 ^ b) :
    (∀ u ∈ packSpecial cols packRow drop static xs, u < 2 ^ 28) ∧
    Spec.number (2 ^ 28) (packSpecial cols packRow drop static xs) = Spec.number (2 ^ b) xs ∧
    xs.length * b ≤ (packSpecial cols packRow drop static xs).length * 28 ∧
    (static = true →
      (packSpecial cols packRow drop static xs).length = (xs.length * b + 28 - 1) / 28) := by
  obtain ⟨m, h1, h2, h3, h4⟩ := Aux.padZeros_spec cols S.cols_pos xs (2 ^ b) (by positivity) hx
  obtain ⟨i1, i2, i3⟩ := Aux.rows_repack S.cols_pos S.bits packRow S.row m _ h1 h3
  have he := Aux.padLen_lt xs.length cols S.cols_pos
  have hd := S.drop_ok _ he
  have hbits := S.bits
  -- arithmetic: b * n + b * e = 28 * (m * w)
  have harith : xs.length * b + b * padLen xs.length cols = 28 * (m * w) := by
    calc xs.length * b + b * padLen xs.length cols = (xs.length + padLen xs.length cols) * b := by ring
      _ = m * (b * cols) := by rw [h2]; ring
      _ = 28 * (m * w) := by rw [hbits]; ring
  have hnum := i3.trans h4
  unfold packSpecial
  cases static with
  | false =>
    simp only [Bool.false_eq_true, if_false]
    exact ⟨i2, hnum, by rw [i1]; omega, by simp⟩
  | true =>
    simp only [if_true]
    have hL : xs.length * b ≤ 28 * (m * w - drop (padLen xs.length cols)) := by omega
    refine ⟨fun u hu => i2 u (List.mem_of_mem_take hu), ?_, ?_, ?_⟩
    · rw [Aux.number_trim _ i2, hnum]
      rw [hnum, i1, ← Nat.pow_mul]
      calc Spec.number (2 ^ b) xs < (2 ^ b) ^ xs.length := Aux.number_lt hx
        _ = 2 ^ (xs.length * b) := by rw [← Nat.pow_mul, Nat.mul_comm]
        _ ≤ _ := Nat.pow_le_pow_right (by omega) hL
    · rw [List.length_take, i1, Nat.min_eq_left (by omega)]; omega
    · intro _
      rw [List.length_take, i1, Nat.min_eq_left (by omega)]
      symm
      rw [Nat.div_eq_iff (by omega)]
      constructor <;> omega

theorem Aux.unpackSpecial_spec {b cols c : Nat} {unpackRow : List Nat → List Nat}
    (hc : 0 < cols) (hb : 0 < b) (hbits : 28 * cols = b * c)
    (hrow : ∀ row : List Nat, row.length = cols → (∀ x ∈ row, x < 2 ^ 28) →
      (unpackRow row).length = c ∧ (∀ x ∈ unpackRow row, x < 2 ^ b) ∧
        Spec.number (2 ^ b) (unpackRow row) = Spec.number (2 ^ 28) row)
    (xs ws : List Nat) (hx : ∀ x ∈ xs, x < 2 ^ b) (hw : ∀ w ∈ ws, w < 2 ^ 28)
    (hnum : Spec.number (2 ^ 28) ws = Spec.number (2 ^ b) xs)
    (hlen : xs.length * b ≤ ws.length * 28) :
    unpackSpecial cols unpackRow ws xs.length = some xs := by
  obtain ⟨m, h1, h2, h3, h4⟩ := Aux.padZeros_spec cols hc ws (2 ^ 28) (by positivity) hw
  obtain ⟨i1, i2, i3⟩ := Aux.rows_repack hc hbits unpackRow hrow m _ h1 h3
  have hle : xs.length ≤ m * c := by
    apply Nat.le_of_mul_le_mul_right _ hb
    calc xs.length * b ≤ ws.length * 28 := hlen
      _ ≤ (m * cols) * 28 := Nat.mul_le_mul_right _ (by omega)
      _ = m * (28 * cols) := by ring
      _ = m * c * b := by rw [hbits]; ring
  unfold unpackSpecial sliceTo
  rw [if_pos (by rw [i1]; exact hle), Option.some_inj]
  apply Aux.number_take _ _ i2 hx (by rw [i1]; exact hle)
  rw [i3, h4, hnum]

theorem Aux.list_of_length {n : Nat} (l : List Nat) (h : l.length = n) :
    l = (List.range n).map fun i => l.getD i 0 := by
  apply List.ext_getElem (by simp [h])
  intro i h1 h2
  simp [h1]

theorem Aux.special6 : Aux.Special 6 14 3 packRow6 drop6 where
  cols_pos := by omega
  bits := rfl
  drop_ok := by decide
  row := by
    intro row hr hx
    match row, hr with
    | [x0, x1, x2, x3, x4, x5, x6, x7, x8, x9, x10, x11, x12, x13], _ =>
      simp only [List.mem_cons, List.not_mem_nil, or_false, forall_eq_or_imp, forall_eq] at hx
      simp only [packRow6, List.getD_cons_zero, List.getD_cons_succ, List.length_cons, List.length_nil,
        List.mem_cons, List.not_mem_nil, or_false, forall_eq_or_imp, forall_eq, Spec.number]
      refine ⟨trivial, ⟨?_, ?_, ?_⟩, ?_⟩ <;> omega

theorem Aux.special7 : Aux.Special 7 4 1 packRow7 (fun _ => 0) where
  cols_pos := by omega
  bits := rfl
  drop_ok := by decide
  row := by
    intro row hr hx
    match row, hr with
    | [x0, x1, x2, x3], _ =>
      simp only [List.mem_cons, List.not_mem_nil, or_false, forall_eq_or_imp, forall_eq] at hx
      simp only [packRow7, List.getD_cons_zero, List.getD_cons_succ, List.length_cons, List.length_nil,
        List.mem_cons, List.not_mem_nil, or_false, forall_eq_or_imp, forall_eq, Spec.number]
      refine ⟨trivial, ?_, ?_⟩ <;> omega

theorem Aux.special8 : Aux.Special 8 7 2 packRow8 drop8 where
  cols_pos := by omega
  bits := rfl
  drop_ok := by decide
  row := by
    intro row hr hx
    match row, hr with
    | [x0, x1, x2, x3, x4, x5, x6], _ =>
      simp only [List.mem_cons, List.not_mem_nil, or_false, forall_eq_or_imp, forall_eq] at hx
      simp only [packRow8, List.getD_cons_zero, List.getD_cons_succ, List.length_cons, List.length_nil,
        List.mem_cons, List.not_mem_nil, or_false, forall_eq_or_imp, forall_eq, Spec.number]
      refine ⟨trivial, ⟨?_, ?_⟩, ?_⟩ <;> omega

theorem Aux.special12 : Aux.Special 12 7 3 packRow12 drop12 where
  cols_pos := by omega
  bits := rfl
  drop_ok := by decide
  row := by
    intro row hr hx
    match row, hr with
    | [x0, x1, x2, x3, x4, x5, x6], _ =>
      simp only [List.mem_cons, List.not_mem_nil, or_false, forall_eq_or_imp, forall_eq] at hx
      simp only [packRow12, List.getD_cons_zero, List.getD_cons_succ, List.length_cons, List.length_nil,
        List.mem_cons, List.not_mem_nil, or_false, forall_eq_or_imp, forall_eq, Spec.number]
      refine ⟨trivial, ⟨?_, ?_, ?_⟩, ?_⟩ <;> omega

theorem Aux.unpackRow6_spec (row : List Nat) (hr : row.length = 3) (hx : ∀ x ∈ row, x < 2 ^ 28) :
    (unpackRow6 row).length = 14 ∧ (∀ x ∈ unpackRow6 row, x < 2 ^ 6) ∧
      Spec.number (2 ^ 6) (unpackRow6 row) = Spec.number (2 ^ 28) row := by
  match row, hr with
  | [x0, x1, x2], _ =>
    simp only [List.mem_cons, List.not_mem_nil, or_false, forall_eq_or_imp, forall_eq] at hx
    simp only [unpackRow6, List.getD_cons_zero, List.getD_cons_succ, List.length_cons,
      List.length_nil, List.mem_cons, List.not_mem_nil, or_false, forall_eq_or_imp, forall_eq,
      Spec.number]
    obtain ⟨h0, h1, h2⟩ := hx
    have e0 : x0 = x0 % 2 ^ 6 + 2 ^ 6 * (x0 / 2 ^ 6 % 2 ^ 6) + 2 ^ 12 * (x0 / 2 ^ 12 % 2 ^ 6)
        + 2 ^ 18 * (x0 / 2 ^ 18 % 2 ^ 6) + 2 ^ 24 * (x0 / 2 ^ 24) := by clear h1 h2; omega
    have e1 : x1 = x1 % 2 ^ 2 + 2 ^ 2 * (x1 / 2 ^ 2 % 2 ^ 6) + 2 ^ 8 * (x1 / 2 ^ 8 % 2 ^ 6)
        + 2 ^ 14 * (x1 / 2 ^ 14 % 2 ^ 6) + 2 ^ 20 * (x1 / 2 ^ 20 % 2 ^ 6)
        + 2 ^ 26 * (x1 / 2 ^ 26) := by clear h0 h2 e0; omega
    have e2 : x2 = x2 % 2 ^ 4 + 2 ^ 4 * (x2 / 2 ^ 4 % 2 ^ 6) + 2 ^ 10 * (x2 / 2 ^ 10 % 2 ^ 6)
        + 2 ^ 16 * (x2 / 2 ^ 16 % 2 ^ 6) + 2 ^ 22 * (x2 / 2 ^ 22 % 2 ^ 6) := by
      clear h0 h1 e0 e1; omega
    refine ⟨trivial, ⟨?_, ?_, ?_, ?_, ?_, ?_, ?_, ?_, ?_, ?_, ?_, ?_, ?_, ?_⟩, ?_⟩
    iterate 14 (clear e0 e1 e2; omega)
    linarith

theorem Aux.unpackRow7_spec (row : List Nat) (hr : row.length = 1) (hx : ∀ x ∈ row, x < 2 ^ 28) :
    (unpackRow7 row).length = 4 ∧ (∀ x ∈ unpackRow7 row, x < 2 ^ 7) ∧
      Spec.number (2 ^ 7) (unpackRow7 row) = Spec.number (2 ^ 28) row := by
  match row, hr with
  | [x0], _ =>
    simp only [List.mem_cons, List.not_mem_nil, or_false, forall_eq] at hx
    simp only [unpackRow7, List.getD_cons_zero, List.length_cons,
      List.length_nil, List.mem_cons, List.not_mem_nil, or_false, forall_eq_or_imp, forall_eq,
      Spec.number]
    refine ⟨trivial, ⟨?_, ?_, ?_, ?_⟩, ?_⟩ <;> omega

theorem Aux.unpackRow8_spec (row : List Nat) (hr : row.length = 2) (hx : ∀ x ∈ row, x < 2 ^ 28) :
    (unpackRow8 row).length = 7 ∧ (∀ x ∈ unpackRow8 row, x < 2 ^ 8) ∧
      Spec.number (2 ^ 8) (unpackRow8 row) = Spec.number (2 ^ 28) row := by
  match row, hr with
  | [x0, x1], _ =>
    simp only [List.mem_cons, List.not_mem_nil, or_false, forall_eq_or_imp, forall_eq] at hx
    simp only [unpackRow8, List.getD_cons_zero, List.getD_cons_succ, List.length_cons,
      List.length_nil, List.mem_cons, List.not_mem_nil, or_false, forall_eq_or_imp, forall_eq,
      Spec.number]
    refine ⟨trivial, ⟨?_, ?_, ?_, ?_, ?_, ?_, ?_⟩, ?_⟩ <;> omega

theorem Aux.unpackRow12_spec (row : List Nat) (hr : row.length = 3) (hx : ∀ x ∈ row, x < 2 ^ 28) :
    (unpackRow12 row).length = 7 ∧ (∀ x ∈ unpackRow12 row, x < 2 ^ 12) ∧
      Spec.number (2 ^ 12) (unpackRow12 row) = Spec.number (2 ^ 28) row := by
  match row, hr with
  | [x0, x1, x2], _ =>
    simp only [List.mem_cons, List.not_mem_nil, or_false, forall_eq_or_imp, forall_eq] at hx
    simp only [unpackRow12, List.getD_cons_zero, List.getD_cons_succ, List.length_cons,
      List.length_nil, List.mem_cons, List.not_mem_nil, or_false, forall_eq_or_imp, forall_eq,
      Spec.number]
    refine ⟨trivial, ⟨?_, ?_, ?_, ?_, ?_, ?_, ?_⟩, ?_⟩ <;> omega

theorem Aux.pack_spec (static : Bool) (b t : Nat) (hb : 0 < b) (ht : 0 < t) (xs : List Nat)
    (hx : ∀ x ∈ xs, x < 2 ^ b) :
    (∀ u ∈ packIntoInt static xs b t, u < 2 ^ t) ∧
    Spec.number (2 ^ t) (packIntoInt static xs b t) = Spec.number (2 ^ b) xs ∧
    xs.length * b ≤ (packIntoInt static xs b t).length * t ∧
    (static = true → (packIntoInt static xs b t).length = (xs.length * b + t - 1) / t) := by
  unfold packIntoInt
  split
  · rename_i h; obtain ⟨rfl, rfl⟩ := h; exact Aux.packSpecial_spec Aux.special6 static xs hx
  split
  · rename_i h; obtain ⟨rfl, rfl⟩ := h; exact Aux.packSpecial_spec Aux.special7 static xs hx
  split
  · rename_i h; obtain ⟨rfl, rfl⟩ := h; exact Aux.packSpecial_spec Aux.special8 static xs hx
  split
  · rename_i h; obtain ⟨rfl, rfl⟩ := h; exact Aux.packSpecial_spec Aux.special12 static xs hx
  have := Aux.packGeneral_packed b t hb ht xs hx
  exact ⟨this.fits, this.bits, Aux.packed_ge ht this, fun _ => this.count⟩

/-! ## C31 -/

/-- **C31 (layout).**  With statically known size, packing `b`-bit values into `t`-bit words gives
the concatenated bits in exactly `ceil(n*b/t)` words, each below `2^t`. -/
theorem C31_pack_layout (b t : Nat) (hb : 0 < b) (ht : 0 < t) (xs : List Nat)
    (hx : ∀ x ∈ xs, x < 2 ^ b) : Spec.Packed b t xs (packIntoInt true xs b t) := by
  obtain ⟨h1, h2, _, h4⟩ := Aux.pack_spec true b t hb ht xs hx
  exact ⟨h1, h2, h4 rfl⟩

/-- **C31 (lossless).**  Unpacking a packed list returns it, for every list, all bit widths, with
or without a statically known size. -/
theorem C31_lossless (static : Bool) (b t : Nat) (hb : 0 < b) (ht : 0 < t) (xs : List Nat)
    (hx : ∀ x ∈ xs, x < 2 ^ b) :
    unpackFromInt (packIntoInt static xs b t) b t xs.length = some xs := by
  obtain ⟨h1, h2, h3, _⟩ := Aux.pack_spec static b t hb ht xs hx
  generalize packIntoInt static xs b t = ws at h1 h2 h3
  unfold unpackFromInt
  split
  · rename_i h; obtain ⟨rfl, rfl⟩ := h
    exact Aux.unpackSpecial_spec (by omega) hb rfl Aux.unpackRow6_spec xs ws hx h1 h2 h3
  split
  · rename_i h; obtain ⟨rfl, rfl⟩ := h
    exact Aux.unpackSpecial_spec (by omega) hb rfl Aux.unpackRow7_spec xs ws hx h1 h2 h3
  split
  · rename_i h; obtain ⟨rfl, rfl⟩ := h
    exact Aux.unpackSpecial_spec (by omega) hb rfl Aux.unpackRow8_spec xs ws hx h1 h2 h3
  split
  · rename_i h; obtain ⟨rfl, rfl⟩ := h
    exact Aux.unpackSpecial_spec (by omega) hb rfl Aux.unpackRow12_spec xs ws hx h1 h2 h3
  exact Aux.unpackGeneral_spec b t hb xs ws hx h1 h2 h3

theorem Aux.packSpecial_size {b cols w packRow drop} (S : Aux.Special b cols w packRow drop) (hb : 0 < b)
    (xs : List Nat) (hx : ∀ x ∈ xs, x < 2 ^ b) :
    (packSpecial cols packRow drop false xs).length * 28 < xs.length * b + w * 28 := by
  obtain ⟨m, h1, h2, h3, h4⟩ := Aux.padZeros_spec cols S.cols_pos xs (2 ^ b) (by positivity) hx
  obtain ⟨i1, -, -⟩ := Aux.rows_repack S.cols_pos S.bits packRow S.row m _ h1 h3
  have he := Aux.padLen_lt xs.length cols S.cols_pos
  have hbits := S.bits
  have harith : xs.length * b + b * padLen xs.length cols = 28 * (m * w) := by
    calc xs.length * b + b * padLen xs.length cols = (xs.length + padLen xs.length cols) * b := by ring
      _ = m * (b * cols) := by rw [h2]; ring
      _ = 28 * (m * w) := by rw [hbits]; ring
  have hlt : b * padLen xs.length cols < b * cols := Nat.mul_lt_mul_of_pos_left he hb
  unfold packSpecial
  simp only [Bool.false_eq_true, if_false]
  rw [i1]
  omega

/-- **C31 (size, also without a statically known size).**  The packed words never take more than two words more than
the bits of the values need, and never less. -/
theorem C31_size (static : Bool) (b t : Nat) (hb : 0 < b) (ht : 0 < t) (xs : List Nat) (hx : ∀ x ∈ xs, x < 2 ^ b) :
    xs.length * b ≤ (packIntoInt static xs b t).length * t ∧
    (packIntoInt static xs b t).length * t < xs.length * b + 3 * t := by
  obtain ⟨-, -, h3, h4⟩ := Aux.pack_spec static b t hb ht xs hx
  refine ⟨h3, ?_⟩
  have hstatic : ∀ ws : List Nat, ws.length = (xs.length * b + t - 1) / t → ws.length * t < xs.length * b + 3 * t := by
    intro ws h
    have := Nat.div_mul_le_self (xs.length * b + t - 1) t
    rw [h]; omega
  cases static with
  | true => exact hstatic _ (h4 rfl)
  | false =>
    unfold packIntoInt
    split
    · rename_i h; obtain ⟨rfl, rfl⟩ := h; have := Aux.packSpecial_size Aux.special6 hb xs hx; omega
    split
    · rename_i h; obtain ⟨rfl, rfl⟩ := h; have := Aux.packSpecial_size Aux.special7 hb xs hx; omega
    split
    · rename_i h; obtain ⟨rfl, rfl⟩ := h; have := Aux.packSpecial_size Aux.special8 hb xs hx; omega
    split
    · rename_i h; obtain ⟨rfl, rfl⟩ := h; have := Aux.packSpecial_size Aux.special12 hb xs hx; omega
    exact hstatic _ (Aux.packGeneral_packed b t hb ht xs hx).count

/-- **C31 (words fit).**  Also without a statically known size every word is below `2^t`, so for
the 28-bit target a non-negative `int32`. -/
theorem C31_words_fit (static : Bool) (b t : Nat) (hb : 0 < b) (ht : 0 < t) (xs : List Nat)
    (hx : ∀ x ∈ xs, x < 2 ^ b) : ∀ w ∈ packIntoInt static xs b t, w < 2 ^ t :=
  (Aux.pack_spec static b t hb ht xs hx).1

/-- **C31 (stage).**  The bit packing stage returns values and element type, for every accepted
bit width and every supported type; other types are rejected. -/
theorem C31_stage (static : Bool) (b : Nat) (hb : bitpackingAccepts b = true) (d : DType)
    (xs : List Nat) (hx : ∀ x ∈ xs, x < 2 ^ b) :
    ((∃ n, d = .other n) ∧ bitpackEncode static b d xs = none) ∨
    ((∀ n, d ≠ .other n) ∧ ∃ e, bitpackEncode static b d xs = some e ∧
      bitpackDecode b e xs.length = some (d, xs)) := by
  have hb' : 0 < b := by
    simp only [bitpackingAccepts, Bool.and_eq_true, decide_eq_true_eq] at hb; omega
  have hl := C31_lossless static b 28 hb' (by omega) xs hx
  cases d <;> simp [bitpackEncode, bitpackDecode, hl]

/-- **C31 (accepted widths).** -/
theorem C31_accepts (b : Int) : bitpackingAccepts b = true ↔ 1 ≤ b ∧ b ≤ 16 := by
  simp [bitpackingAccepts]

example : packIntoInt true [255, 1, 0, 16] 8 28 = [255 + 256, 0 + 1] ∧
    unpackFromInt (packIntoInt true [255, 1, 0, 16] 8 28) 8 28 4 = some [255, 1, 0, 16] := by decide

/-- With an unknown static size the special packers do not trim, so that the number of words is not
minimal: three 8-bit values take two words. -/
theorem C31_unknown_size_not_minimal :
    packIntoInt false [1, 2, 3] 8 28 = [1 + 2 * 256 + 3 * 65536, 0] ∧
      packIntoInt true [1, 2, 3] 8 28 = [1 + 2 * 256 + 3 * 65536] := by decide

/-! ## C32 -/

theorem Aux.packed_unique {b t : Nat} {xs us ws : List Nat} (h1 : Spec.Packed b t xs us)
    (h2 : Spec.Packed b t xs ws) : us = ws :=
  Aux.number_unique _ _ h1.fits h2.fits (h1.count.trans h2.count.symm) (h1.bits.trans h2.bits.symm)

/-- **C32.**  The hand-unrolled packers produce the same words as the general algorithm. -/
theorem C32_agree (b t : Nat) (hb : 0 < b) (ht : 0 < t) (xs : List Nat)
    (hx : ∀ x ∈ xs, x < 2 ^ b) : packIntoInt true xs b t = packGeneral xs b t :=
  Aux.packed_unique (C31_pack_layout b t hb ht xs hx) (Aux.packGeneral_packed b t hb ht xs hx)

/-- **C32 (unknown size).**  Without trimming the words are those of the general algorithm followed
by zero words. -/
theorem C32_agree_unknown_size (b t : Nat) (hb : 0 < b) (ht : 0 < t) (xs : List Nat)
    (hx : ∀ x ∈ xs, x < 2 ^ b) :
    ∃ k, packIntoInt false xs b t = packGeneral xs b t ++ List.replicate k 0 := by
  obtain ⟨h1, h2, h3, _⟩ := Aux.pack_spec false b t hb ht xs hx
  have hg := Aux.packGeneral_packed b t hb ht xs hx
  generalize packIntoInt false xs b t = us at h1 h2 h3
  have hlen : (packGeneral xs b t).length ≤ us.length := by
    rw [hg.count]
    rw [Nat.div_le_iff_le_mul_add_pred ht]
    rw [Nat.mul_comm t]; omega
  refine ⟨us.length - (packGeneral xs b t).length, ?_⟩
  apply Aux.number_unique _ _ h1
  · intro x hx'
    rcases List.mem_append.1 hx' with h | h
    · exact hg.fits x h
    · rw [(List.mem_replicate.1 h).2]; positivity
  · simp; omega
  · rw [Aux.number_append, Aux.number_zeros, h2, hg.bits]; simp

/-- **C32 (unpackers).**  The hand-unrolled unpackers return what the general one returns, on every
word list that the general packer produces. -/
theorem C32_unpack_agree (b t : Nat) (hb : 0 < b) (ht : 0 < t) (xs : List Nat)
    (hx : ∀ x ∈ xs, x < 2 ^ b) :
    unpackFromInt (packGeneral xs b t) b t xs.length = some xs ∧
      unpackGeneral (packIntoInt true xs b t) b t xs.length = some xs := by
  rw [← C32_agree b t hb ht xs hx]
  refine ⟨C31_lossless true b t hb ht xs hx, ?_⟩
  obtain ⟨h1, h2, h3, _⟩ := Aux.pack_spec true b t hb ht xs hx
  exact Aux.unpackGeneral_spec b t hb xs _ hx h1 h2 h3

example : packIntoInt true [1, 63, 0, 17, 62] 6 28 = packGeneral [1, 63, 0, 17, 62] 6 28 := by decide

end Verif.Props
