import Verif.Props.Gather
import Verif.Props.Stages

/-!
# C89 for the stages that are shipped
-/

set_option linter.unusedSectionVars false

namespace Verif.Props

open Verif.Encoding

variable {Ω : Type}

/-! ## Specification -/

/-- Element type and shape of a tensor (with its number of entries, which the shape determines). -/
def Spec.typeAndShape (t : Ten) : DType × List ℕ × ℕ := (t.dtype, t.shape, t.data.length)

/-- The sum of tensors of one element type and shape. -/
def Spec.TensorsSum (n : Nat) (t : Fin (n + 1) → Ten) (r : Ten) : Prop :=
  (∀ i, Spec.typeAndShape (t i) = Spec.typeAndShape r) ∧ ∀ j, r.data.getD j 0 = ∑ i, (t i).data.getD j 0

/-- The shipped stages, with their random draws. -/
inductive Spec.ShippedStage : (Ω → Stage Ten Prm Unit Unit (List ℕ)) → Prop where
  | identity : Spec.ShippedStage fun _ => lift identityStage
  | flatten : Spec.ShippedStage fun _ => lift flattenStage
  | hadamard (uniform : ℕ → ℕ → List ℝ) (seed : Ω → ℕ) (h : ∀ s n, (uniform s n).length = n) :
      Spec.ShippedStage fun ω => lift (hadamardStage uniform (seed ω))
  | quantization (bits : ℤ) (minMax : Option (List ℝ)) (stochastic : Bool) (s : UQ ℝ)
      (h : UQ.new bits minMax stochastic = .ok s) (u : Ω → ℕ → ℝ) : Spec.ShippedStage fun ω => lift (uqStage s (u ω))
  | bitpacking (static : Bool) (bits : ℕ) : Spec.ShippedStage fun _ => lift (bitpackStage static bits)

/-! ## Auxiliary facts -/

theorem Aux.map_cases {A B : Type} {f : A → B} {o o' : Option A} (h : o.map f = o'.map f) :
    (o = none ∧ o' = none) ∨ ∃ a b, o = some a ∧ o' = some b ∧ f a = f b := by
  cases o <;> cases o'
  · exact .inl ⟨rfl, rfl⟩
  · cases h
  · cases h
  · exact .inr ⟨_, _, rfl, rfl, by simpa using h⟩

/-- Entry-wise sum of lists of one length. -/
def Aux.ListSum {n : Nat} (l : Fin (n + 1) → List ℝ) (r : List ℝ) : Prop :=
  (∀ i, (l i).length = r.length) ∧ ∀ j, r.getD j 0 = ∑ i, (l i).getD j 0

theorem Aux.sumOfAlike : Spec.SumOfAlike Spec.typeAndShape Spec.TensorsSum where
  exists_sum := by
    intro n t c h
    refine ⟨⟨c.1, c.2.1, (List.range c.2.2).map fun j => ∑ i, (t i).data.getD j 0⟩, ?_, ?_⟩
    · intro i
      rw [h i]
      simp [Spec.typeAndShape]
    · intro j
      by_cases hj : j < c.2.2
      · simp [List.getD, hj]
      · have h2 : ∀ i, (t i).data.getD j 0 = 0 := by
          intro i
          have : (t i).data.length = c.2.2 := by rw [← h i]; rfl
          rw [List.getD_eq_default _ _ (by omega)]
        rw [List.getD_eq_default _ _ (by simpa using hj)]
        simp only [h2, Finset.sum_const_zero]
  same := fun n t r h => h.1

theorem Aux.lookup_keys (ks : List String) (f : String → Ten) (k : String) :
    (ks.map fun k => (k, f k)).lookup k = if k ∈ ks then some (f k) else none := by
  induction ks with
  | nil => rfl
  | cons a ks ih =>
    rw [List.map_cons, List.lookup]
    by_cases h : k = a
    · subst h; simp
    · simp [beq_eq_false_iff_ne.2 h, ih, h]

theorem Aux.identity_contract :
    Spec.Contract Spec.typeAndShape Spec.TensorsSum (fun _ : Ω => lift identityStage) where
  commutes := fun _ _ => rfl
  needsShape := fun _ _ => rfl
  decode := fun _ _ => rfl
  encode_signature := by
    intro x y h _ _ _ _ _ _
    simp [lift, BasicStage.asAdaptive, identityStage, Spec.signature, h]
  decode_signature := by
    intro d d' h _ _ _ _ _ _
    exact Aux.signature_lookup h _
  one_summand := fun _ _ _ _ => rfl
  sum_law := by
    intro _ _ _ _ n sh ks f g t hg h
    simp only [lift, BasicStage.asAdaptive, identityStage, Aux.lookup_keys] at h ⊢
    have hm : "identity_values" ∈ ks := by
      by_contra hm
      have := h 0
      simp [hm] at this
    simp only [hm, if_true, Option.some.injEq] at h ⊢
    refine ⟨_, rfl, ?_⟩
    have := hg _ hm
    simpa only [h] using this

theorem Aux.flatten_contract :
    Spec.Contract Spec.typeAndShape Spec.TensorsSum (fun _ : Ω => lift flattenStage) where
  commutes := fun _ _ => rfl
  needsShape := fun _ _ => rfl
  decode := fun _ _ => rfl
  encode_signature := by
    intro x y h _ _ _ _ _ _
    simp only [Spec.typeAndShape, Prod.mk.injEq] at h
    simp [lift, BasicStage.asAdaptive, flattenStage, Spec.signature, Spec.typeAndShape, h]
  decode_signature := by
    intro d d' h _ _ _ _ _ sh
    have := Aux.signature_lookup h "flattened_values"
    simp only [lift, BasicStage.asAdaptive, flattenStage]
    rcases Aux.map_cases this with ⟨h1, h2⟩ | ⟨t, t', h1, h2, this⟩ <;> rw [h1, h2]
    · cases sh with
      | none => rfl
      | some sh =>
        simp only [Spec.typeAndShape, Prod.mk.injEq] at this
        simp only [Ten.reshape, this.2.2]
        split_ifs
        · simp [Spec.typeAndShape, this.1, this.2.2]
        · rfl
  one_summand := fun _ _ _ _ => rfl
  sum_law := by
    intro _ _ _ _ n sh ks f g t hg h
    simp only [lift, BasicStage.asAdaptive, flattenStage, Aux.lookup_keys] at h ⊢
    have hm : "flattened_values" ∈ ks := by
      by_contra hm
      have := h 0
      simp [hm] at this
    simp only [hm, if_true] at h ⊢
    obtain ⟨hsig, hsum⟩ := hg _ hm
    simp only [Spec.typeAndShape, Prod.mk.injEq] at hsig
    cases sh with
    | none => cases h 0
    | some sh =>
      simp only [Ten.reshape, hsig] at h ⊢
      by_cases hl : (g "flattened_values").data.length = sh.prod
      · simp only [hl, if_true, Option.some.injEq] at h ⊢
        refine ⟨_, rfl, ?_, ?_⟩
        · intro i
          rw [← h i]
          simp [Spec.typeAndShape, hsig i]
        · intro j
          simp only [← h]
          exact hsum j
      · have := h 0
        simp only [hl, if_false] at this
        cases this

/-! ### Quantization -/

theorem Aux.two_signature {t t' : Ten} (h : t.data.length = t'.data.length) :
    t.two.isSome = t'.two.isSome := by
  unfold Ten.two
  rcases hd : t.data with _ | ⟨a, _ | ⟨b, l⟩⟩ <;> rcases hd' : t'.data with _ | ⟨a', _ | ⟨b', l'⟩⟩ <;>
    simp_all

theorem Aux.uq_contract (bits : ℤ) (minMax : Option (List ℝ)) (st : Bool) (s : UQ ℝ)
    (hs : UQ.new bits minMax st = .ok s) (u : Ω → ℕ → ℝ) :
    Spec.Contract Spec.typeAndShape Spec.TensorsSum (fun ω => lift (uqStage s (u ω))) where
  commutes := fun _ _ => rfl
  needsShape := fun _ _ => rfl
  decode := fun _ _ => rfl
  encode_signature := by
    intro x y h ω₁ _ ω₃ _ _ _
    simp only [Spec.typeAndShape, Prod.mk.injEq] at h
    simp only [lift, BasicStage.asAdaptive, uqStage, UQ.encode, UQ.getParams]
    cases s.minMax <;> simp [uqTensors, Spec.signature, Spec.typeAndShape, h]
  decode_signature := by
    intro d d' h ω _ _ _ _ sh
    have h1 := Aux.signature_lookup h "quantized_values"
    have h2 := Aux.signature_lookup h "min_max"
    simp only [lift, BasicStage.asAdaptive, uqStage]
    rcases Aux.map_cases h1 with ⟨hd, hd'⟩ | ⟨t, t', hd, hd', h1⟩ <;> rw [hd, hd']
    simp only [Spec.typeAndShape, Prod.mk.injEq] at h1
    simp only [UQ.decode]
    have h3 : (s.getParams.minMax.or ((d.lookup "min_max").bind Ten.two)).isSome =
        (s.getParams.minMax.or ((d'.lookup "min_max").bind Ten.two)).isSome := by
      rw [Option.isSome_or, Option.isSome_or]
      congr 1
      rcases Aux.map_cases h2 with ⟨hm, hm'⟩ | ⟨t, t', hm, hm', h2⟩ <;> rw [hm, hm']
      simp only [Spec.typeAndShape, Prod.mk.injEq] at h2
      exact Aux.two_signature h2.2.2
    generalize s.getParams.minMax.or ((d.lookup "min_max").bind Ten.two) = a at h3
    generalize s.getParams.minMax.or ((d'.lookup "min_max").bind Ten.two) = a' at h3
    cases a <;> cases a'
    · rfl
    · cases h3
    · cases h3
    · simp [Spec.typeAndShape, h1]
  one_summand := by
    intro ω d p sh
    simp only [lift, BasicStage.asAdaptive, uqStage]
    cases d.lookup "quantized_values" with
    | none => rfl
    | some t => cases p <;> simp [UQ.decode]
  sum_law := by
    intro ω _ _ hcom n sh ks f g t hg h
    simp only [lift, BasicStage.asAdaptive, uqStage, Aux.lookup_keys] at hcom h ⊢
    obtain ⟨mm, hmm⟩ := Option.isSome_iff_exists.1 hcom
    have hm : "quantized_values" ∈ ks := by
      by_contra hm
      have := h 0
      simp [hm] at this
    obtain ⟨hsig, hsum⟩ := hg _ hm
    simp only [hm, if_true, UQ.decode, UQ.getParams, hmm, UQ.commutes, Option.some_or, Option.map_some,
      Option.isSome_some, if_true, Option.getD_none, Option.getD_some, Option.some.injEq] at h ⊢
    refine ⟨_, rfl, ?_, ?_⟩
    · intro i
      have := hsig i
      simp only [Spec.typeAndShape, Prod.mk.injEq] at this
      rw [← h i]
      simp [Spec.typeAndShape, this]
    · intro j
      simp only [← h]
      have hl : ∀ i, (f i "quantized_values").data.length = (g "quantized_values").data.length := by
        intro i
        have := hsig i
        simp only [Spec.typeAndShape, Prod.mk.injEq] at this
        exact this.2.2
      by_cases hj : j < (g "quantized_values").data.length
      · have hj' : ∀ i, j < (f i "quantized_values").data.length := fun i => by rw [hl i]; exact hj
        have hs' := hsum j
        rw [List.getD_eq_getElem _ _ hj] at hs'
        rw [List.getD_eq_getElem _ _ (by simpa using hj), List.getElem_map]
        have : ∀ i, ((f i "quantized_values").data.map (uqDecodeEntry mm.1 mm.2 (2 ^ s.bits - 1) (mm.1 * ((1 : ℕ) : ℝ)))).getD j 0
            = (f i "quantized_values").data.getD j 0 / ((2 ^ s.bits - 1 : ℕ) : ℝ) * (mm.2 - mm.1) + mm.1 := by
          intro i
          rw [List.getD_eq_getElem _ _ (by simpa using hj' i), List.getElem_map, List.getD_eq_getElem _ _ (hj' i)]
          simp [uqDecodeEntry]
        simp only [this, uqDecodeEntry, Finset.sum_add_distrib, Finset.sum_const, Finset.card_univ,
          Fintype.card_fin, nsmul_eq_mul, ← Finset.sum_mul, ← Finset.sum_div, ← hs']
        ring
      · have : ∀ i, ((f i "quantized_values").data.map (uqDecodeEntry mm.1 mm.2 (2 ^ s.bits - 1) (mm.1 * ((1 : ℕ) : ℝ)))).getD j 0
            = 0 := fun i => by
          rw [List.getD_eq_default _ _ (by rw [List.length_map, hl i]; omega)]
        rw [List.getD_eq_default _ _ (by simpa using hj)]
        simp only [this, Finset.sum_const_zero]

/-! ### Bit packing -/

theorem Aux.rows_length (k : ℕ) (v : List ℕ) : (rows k v).length = v.length / k := by simp [rows]

theorem Aux.padZeros_length (k : ℕ) {v w : List ℕ} (h : v.length = w.length) :
    (padZeros k v).length = (padZeros k w).length := by simp [padZeros, h]

theorem Aux.expand_length (v : List ℕ) (b : ℕ) : (expandToBinaryForm v b).length = v.length * b := by
  simp [expandToBinaryForm, List.length_flatMap]

theorem Aux.packBinary_length (b : ℕ) {v w : List ℕ} (h : v.length = w.length) :
    (packBinaryForm v b).length = (packBinaryForm w b).length := by
  simp [packBinaryForm, rows, Aux.padZeros_length b h]

theorem Aux.flatMap_length {A B : Type} (f : List A → List B) (c : ℕ) (hf : ∀ r, (f r).length = c) (l : List (List A)) :
    (l.flatMap f).length = l.length * c := by
  simp [List.length_flatMap, hf]

theorem Aux.pack_length (static : Bool) (b : ℕ) {v w : List ℕ} (h : v.length = w.length) :
    (packIntoInt static v b 28).length = (packIntoInt static w b 28).length := by
  have special : ∀ cols (f : List ℕ → List ℕ) (c : ℕ) (drop : ℕ → ℕ), (∀ r, (f r).length = c) →
      (packSpecial cols f drop static v).length = (packSpecial cols f drop static w).length := by
    intro cols f c drop hf
    unfold packSpecial
    have h1 : ((rows cols (padZeros cols v)).flatMap f).length = ((rows cols (padZeros cols w)).flatMap f).length := by
      rw [Aux.flatMap_length f c hf, Aux.flatMap_length f c hf, Aux.rows_length, Aux.rows_length,
        Aux.padZeros_length cols h]
    cases static
    · simpa using h1
    · simp only [if_true, List.length_take, h1, h]
  unfold packIntoInt
  split_ifs
  · exact special _ _ 3 _ fun _ => rfl
  · exact special _ _ 1 _ fun _ => rfl
  · exact special _ _ 2 _ fun _ => rfl
  · exact special _ _ 3 _ fun _ => rfl
  · unfold packGeneral
    apply Aux.packBinary_length
    split_ifs
    · rw [Aux.expand_length, Aux.expand_length, h]
    · exact h

theorem Aux.slice_length (n : ℕ) {v w : List ℕ} (h : v.length = w.length) :
    (sliceTo v n).map List.length = (sliceTo w n).map List.length := by
  unfold sliceTo
  rw [h]
  split_ifs
  · simp [h]
  · rfl

theorem Aux.unpack_length (b n : ℕ) {v w : List ℕ} (h : v.length = w.length) :
    (unpackFromInt v b 28 n).map List.length = (unpackFromInt w b 28 n).map List.length := by
  have special : ∀ cols (f : List ℕ → List ℕ) (c : ℕ), (∀ r, (f r).length = c) →
      (unpackSpecial cols f v n).map List.length = (unpackSpecial cols f w n).map List.length := by
    intro cols f c hf
    apply Aux.slice_length
    rw [Aux.flatMap_length f c hf, Aux.flatMap_length f c hf, Aux.rows_length, Aux.rows_length,
        Aux.padZeros_length cols h]
  unfold unpackFromInt
  split_ifs
  · exact special _ _ 14 fun _ => rfl
  · exact special _ _ 4 fun _ => rfl
  · exact special _ _ 7 fun _ => rfl
  · exact special _ _ 7 fun _ => rfl
  · unfold unpackGeneral
    have h1 := Aux.slice_length (n * b) (v := expandToBinaryForm v 28) (w := expandToBinaryForm w 28)
      (by rw [Aux.expand_length, Aux.expand_length, h])
    generalize sliceTo (expandToBinaryForm v 28) (n * b) = a at h1
    generalize sliceTo (expandToBinaryForm w 28) (n * b) = a' at h1
    cases a <;> cases a'
    · rfl
    · cases h1
    · cases h1
    · simp only [Option.map_some, Option.some.injEq] at h1 ⊢
      split_ifs
      · exact Aux.packBinary_length b h1
      · exact h1

theorem Aux.bitpack_contract (static : Bool) (bits : ℕ) :
    Spec.Contract Spec.typeAndShape Spec.TensorsSum (fun _ : Ω => lift (bitpackStage static bits)) where
  commutes := fun _ _ => rfl
  needsShape := fun _ _ => rfl
  decode := fun _ _ => rfl
  encode_signature := by
    intro x y h _ _ _ _ _ _
    simp only [Spec.typeAndShape, Prod.mk.injEq] at h
    have hl := Aux.pack_length static bits (v := x.data.map fun v => ⌊v⌋₊) (w := y.data.map fun v => ⌊v⌋₊)
      (by simpa using h.2.2)
    simp only [lift, BasicStage.asAdaptive, bitpackStage, bitpackEncode, h.1]
    cases y.dtype <;> simp [bitpackTensors, Spec.signature, Spec.typeAndShape, hl]
  decode_signature := by
    intro d d' h _ _ _ _ _ sh
    have h1 := Aux.signature_lookup h "bitpacked_values"
    have h2 := Aux.signature_lookup h "dummy_type_value"
    simp only [lift, BasicStage.asAdaptive, bitpackStage]
    rcases Aux.map_cases h1 with ⟨hd, hd'⟩ | ⟨t, t', hd, hd', h1⟩ <;> rw [hd, hd']
    simp only [Spec.typeAndShape, Prod.mk.injEq] at h1
    cases sh with
    | none => rfl
    | some sh =>
    have h3 : (d.lookup "dummy_type_value").map Ten.dtype = (d'.lookup "dummy_type_value").map Ten.dtype := by
      rcases Aux.map_cases h2 with ⟨hm, hm'⟩ | ⟨t, t', hm, hm', h2⟩ <;> rw [hm, hm']
      simp only [Spec.typeAndShape, Prod.mk.injEq] at h2
      simp [h2.1]
    dsimp only
    rw [h3]
    have h4 := Aux.unpack_length bits sh.prod (v := t.data.map fun v => ⌊v⌋₊) (w := t'.data.map fun v => ⌊v⌋₊)
      (by simpa using h1.2.2)
    simp only [bitpackDecode]
    generalize unpackFromInt (t.data.map fun v => ⌊v⌋₊) bits 28 sh.prod = a at h4
    generalize unpackFromInt (t'.data.map fun v => ⌊v⌋₊) bits 28 sh.prod = a' at h4
    cases a <;> cases a'
    · rfl
    · cases h4
    · cases h4
    · simp only [Option.map_some, Option.some.injEq] at h4
      simp only [Option.map_some, Option.bind_some, Ten.reshape, List.length_map, h4]
      split_ifs
      · simp [Spec.typeAndShape, h4]
      · rfl
  one_summand := fun _ _ _ _ => rfl
  sum_law := by
    intro _ _ _ h
    cases h

/-! ### The Hadamard transform -/

theorem Aux.fwht_signature {x y : List ℝ} (h : x.length = y.length) :
    (fwht x).map List.length = (fwht y).map List.length := by
  cases hx : fwht x with
  | none =>
    cases hy : fwht y with
    | none => rfl
    | some b =>
      obtain ⟨k, hk⟩ := (C33_defined_iff y).1 ⟨b, hy⟩
      obtain ⟨a, ha⟩ := (C33_defined_iff x).2 ⟨k, h.trans hk⟩
      rw [hx] at ha; cases ha
  | some a =>
    obtain ⟨k, hk⟩ := (C33_defined_iff x).1 ⟨a, hx⟩
    obtain ⟨b, hb⟩ := (C33_defined_iff y).2 ⟨k, h.symm.trans hk⟩
    rw [hb]
    simp [Aux.fwht_length hx, Aux.fwht_length hb, h]

theorem Aux.hadamardEncode_signature {s s' x y : List ℝ} (hs : s.length = s'.length) (h : x.length = y.length) :
    (hadamardEncode s x).map List.length = (hadamardEncode s' y).map List.length := by
  unfold hadamardEncode padPow2
  have h1 : (applySigns x s).length = (applySigns y s').length := by simp [applySigns, hs, h]
  rw [h1]
  split_ifs
  · rfl
  · simp only [Option.bind_some]
    apply Aux.fwht_signature
    simp [h1]

theorem Aux.hadamardDecode_signature {s s' x y : List ℝ} (dim : ℕ) (hs : s.length = s'.length) (h : x.length = y.length) :
    (hadamardDecode s dim x).map List.length = (hadamardDecode s' dim y).map List.length := by
  unfold hadamardDecode
  have h1 := Aux.fwht_signature h
  generalize fwht x = a at h1
  generalize fwht y = b at h1
  cases a <;> cases b
  · rfl
  · cases h1
  · cases h1
  · simp only [Option.map_some, Option.some.injEq] at h1
    simp [applySigns, h1, hs]

theorem Aux.onRows_signature (f g : List ℝ → Option (List ℝ))
    (hfg : ∀ r r', r.length = r'.length → (f r).map List.length = (g r').map List.length) (R R' : ℕ → List ℝ)
    (L : List ℕ) (h : ∀ r, (R r).length = (R' r).length) :
    (onRows f (L.map R)).map (fun rs => rs.flatten.length) = (onRows g (L.map R')).map (fun rs => rs.flatten.length) := by
  induction L with
  | nil => rfl
  | cons a L ih =>
    simp only [List.map_cons, onRows]
    have h1 := hfg _ _ (h a)
    generalize f (R a) = x at h1
    generalize g (R' a) = y at h1
    cases x <;> cases y
    · rfl
    · cases h1
    · cases h1
    · simp only [Option.map_some, Option.some.injEq] at h1
      simp only [Option.bind_some]
      generalize onRows f (L.map R) = X at ih
      generalize onRows g (L.map R') = Y at ih
      cases X <;> cases Y
      · rfl
      · cases ih
      · cases ih
      · simp only [Option.map_some, Option.some.injEq] at ih
        simp only [Option.map_some, List.flatten_cons, List.length_append, h1, ih]

theorem Aux.rowLength (d r : ℕ) {v w : List ℝ} (h : v.length = w.length) :
    ((v.drop (r * d)).take d).length = ((w.drop (r * d)).take d).length := by simp [h]

theorem Aux.listSum_append {n : ℕ} {a b : Fin (n + 1) → List ℝ} {x y : List ℝ} (h : Aux.ListSum a x)
    (h' : Aux.ListSum b y) : Aux.ListSum (fun i => a i ++ b i) (x ++ y) := by
  refine ⟨fun i => by simp [h.1 i, h'.1 i], fun j => ?_⟩
  by_cases hj : j < x.length
  · rw [List.getD_append _ _ _ _ hj, h.2 j]
    exact Finset.sum_congr rfl fun i _ => by rw [List.getD_append _ _ _ _ (by rw [h.1 i]; exact hj)]
  · rw [List.getD_append_right _ _ _ _ (by omega), h'.2]
    exact Finset.sum_congr rfl fun i _ => by
      rw [List.getD_append_right _ _ _ _ (by rw [h.1 i]; omega), h.1 i]

theorem Aux.getD_take (l : List ℝ) (m j : ℕ) : (l.take m).getD j 0 = if j < m then l.getD j 0 else 0 := by
  simp only [List.getD_eq_getElem?_getD, List.getElem?_take]
  split_ifs <;> rfl

theorem Aux.getD_drop (l : List ℝ) (m j : ℕ) : (l.drop m).getD j 0 = l.getD (m + j) 0 := by
  simp [List.getD_eq_getElem?_getD, List.getElem?_drop]

theorem Aux.getD_zip (a b : List ℝ) (j : ℕ) : (List.zipWith (· * ·) a b).getD j 0 = a.getD j 0 * b.getD j 0 := by
  simp only [List.getD_eq_getElem?_getD, List.getElem?_zipWith]
  cases a[j]? <;> cases b[j]? <;> simp

theorem Aux.listSum_take {n : ℕ} {a : Fin (n + 1) → List ℝ} {x : List ℝ} (h : Aux.ListSum a x) (m : ℕ) :
    Aux.ListSum (fun i => (a i).take m) (x.take m) := by
  refine ⟨fun i => by simp [h.1 i], fun j => ?_⟩
  simp only [Aux.getD_take]
  split_ifs
  · exact h.2 j
  · simp

theorem Aux.listSum_drop {n : ℕ} {a : Fin (n + 1) → List ℝ} {x : List ℝ} (h : Aux.ListSum a x) (m : ℕ) :
    Aux.ListSum (fun i => (a i).drop m) (x.drop m) := by
  refine ⟨fun i => by simp [h.1 i], fun j => ?_⟩
  simp only [Aux.getD_drop]
  exact h.2 _

theorem Aux.listSum_signs {n : ℕ} {a : Fin (n + 1) → List ℝ} {x : List ℝ} (h : Aux.ListSum a x) (s : List ℝ) :
    Aux.ListSum (fun i => applySigns (a i) s) (applySigns x s) := by
  refine ⟨fun i => by simp [applySigns, h.1 i], fun j => ?_⟩
  simp only [applySigns, Aux.getD_zip, h.2 j, Finset.sum_mul]

theorem Aux.listSum_eq {n : ℕ} {a : Fin (n + 1) → List ℝ} {x : List ℝ} (h : Aux.ListSum a x) :
    x = Spec.rowSum x.length a := by
  apply Aux.list_ext_getD
  · simp [Spec.rowSum]
  · intro j hj
    rw [h.2 j]
    simp [Spec.rowSum, List.getD_eq_getElem?_getD, hj]

theorem Aux.listSum_rowSum {n : ℕ} (a : Fin (n + 1) → List ℝ) (len : ℕ) (h : ∀ i, (a i).length = len) :
    Aux.ListSum a (Spec.rowSum len a) := by
  refine ⟨fun i => by simp [Spec.rowSum, h i], fun j => ?_⟩
  by_cases hj : j < len
  · simp [Spec.rowSum, List.getD_eq_getElem?_getD, hj]
  · rw [List.getD_eq_default _ _ (by simpa [Spec.rowSum] using hj)]
    symm
    exact Finset.sum_eq_zero fun i _ => List.getD_eq_default _ _ (by rw [h i]; omega)

theorem Aux.hadamardDecode_sum {n : ℕ} (signs : List ℝ) (dim : ℕ) {ys xs : Fin (n + 1) → List ℝ} {y : List ℝ}
    (hy : Aux.ListSum ys y) (h : ∀ i, hadamardDecode signs dim (ys i) = some (xs i)) :
    ∃ x, hadamardDecode signs dim y = some x ∧ Aux.ListSum xs x := by
  unfold hadamardDecode at h ⊢
  have h1 : ∀ i, ∃ z, fwht (ys i) = some z ∧ xs i = applySigns (z.take dim) signs := by
    intro i
    obtain ⟨z, hz, hx⟩ := Option.map_eq_some_iff.1 (h i)
    exact ⟨z, hz, hx.symm⟩
  choose z hz hx using h1
  obtain ⟨k, hk⟩ := (C33_defined_iff (ys 0)).1 ⟨_, hz 0⟩
  have hk' : ∀ i, (ys i).length = 2 ^ k := fun i => by rw [hy.1 i, ← hy.1 0, hk]
  have hsum := Aux.fwht_sum k ys z hk' hz
  have hy' := Aux.listSum_eq hy
  rw [← hy.1 0, hk] at hy'
  rw [← hy'] at hsum
  rw [hsum]
  refine ⟨_, rfl, ?_⟩
  have : xs = fun i => applySigns ((z i).take dim) signs := funext hx
  rw [this]
  exact Aux.listSum_signs (Aux.listSum_take (Aux.listSum_rowSum z _ fun i => by
    rw [Aux.fwht_length (hz i), hk' i]) dim) signs

theorem Aux.onRows_sum {n : ℕ} (f : List ℝ → Option (List ℝ))
    (hf : ∀ (ys xs : Fin (n + 1) → List ℝ) (y : List ℝ), Aux.ListSum ys y → (∀ i, f (ys i) = some (xs i)) →
      ∃ x, f y = some x ∧ Aux.ListSum xs x)
    (R : Fin (n + 1) → ℕ → List ℝ) (R' : ℕ → List ℝ) (L : List ℕ) (h : ∀ r, Aux.ListSum (fun i => R i r) (R' r))
    (outs : Fin (n + 1) → List (List ℝ)) (ho : ∀ i, onRows f (L.map (R i)) = some (outs i)) :
    ∃ out, onRows f (L.map R') = some out ∧ Aux.ListSum (fun i => (outs i).flatten) out.flatten := by
  induction L generalizing outs with
  | nil =>
    refine ⟨[], rfl, ?_⟩
    have : outs = fun _ => [] := by
      funext i
      have := ho i
      simpa [onRows] using this.symm
    subst this
    exact ⟨fun _ => rfl, fun j => by simp⟩
  | cons a L ih =>
    have h1 : ∀ i, ∃ y ys, f (R i a) = some y ∧ onRows f (L.map (R i)) = some ys ∧ outs i = y :: ys := by
      intro i
      have := ho i
      simp only [List.map_cons, onRows] at this
      obtain ⟨y, hy, h2⟩ := Option.bind_eq_some_iff.1 this
      obtain ⟨ys, hys, h3⟩ := Option.map_eq_some_iff.1 h2
      exact ⟨y, ys, hy, hys, h3.symm⟩
    choose y ys hy hys hout using h1
    obtain ⟨x, hx, hxs⟩ := hf _ y _ (h a) hy
    obtain ⟨out, h2, h3⟩ := ih ys hys
    refine ⟨x :: out, by simp [onRows, hx, h2], ?_⟩
    have : outs = fun i => y i :: ys i := funext hout
    subst this
    simp only [List.flatten_cons]
    exact Aux.listSum_append hxs h3

theorem Aux.hadamard_contract (uniform : ℕ → ℕ → List ℝ) (seed : Ω → ℕ) (hu : ∀ s n, (uniform s n).length = n) :
    Spec.Contract Spec.typeAndShape Spec.TensorsSum (fun ω => lift (hadamardStage uniform (seed ω))) where
  commutes := fun _ _ => rfl
  needsShape := fun _ _ => rfl
  decode := fun _ _ => rfl
  encode_signature := by
    intro x y h _ ω₂ _ ω₄ _ _
    simp only [Spec.typeAndShape, Prod.mk.injEq] at h
    simp only [lift, BasicStage.asAdaptive, hadamardStage, hadamardEncodeTen, h.2.1, matrixRows]
    cases hd : matrixDims y.shape with
    | none => rfl
    | some bd =>
      simp only [Option.bind_some]
      by_cases h0 : bd.2 = 0
      · simp [h0]
      · simp only [h0, if_false]
        have h1 := Aux.onRows_signature (hadamardEncode (randomSigns (uniform (seed ω₂) bd.2)))
          (hadamardEncode (randomSigns (uniform (seed ω₄) bd.2)))
          (fun r r' hr => Aux.hadamardEncode_signature (by simp [randomSigns, hu]) hr)
          (fun r => (x.data.drop (r * bd.2)).take bd.2) (fun r => (y.data.drop (r * bd.2)).take bd.2)
          (List.range bd.1) (fun r => Aux.rowLength _ _ h.2.2)
        generalize onRows (hadamardEncode (randomSigns (uniform (seed ω₂) bd.2)))
          ((List.range bd.1).map fun r => (x.data.drop (r * bd.2)).take bd.2) = a at h1
        generalize onRows (hadamardEncode (randomSigns (uniform (seed ω₄) bd.2)))
          ((List.range bd.1).map fun r => (y.data.drop (r * bd.2)).take bd.2) = b at h1
        cases a <;> cases b
        · rfl
        · cases h1
        · cases h1
        · simp only [Option.map_some, Option.some.injEq] at h1
          simp [Spec.signature, Spec.typeAndShape, h.1, h1]
  decode_signature := by
    intro d d' h _ ω₁ ω₂ _ _ sh
    have h1 := Aux.signature_lookup h "hadamard_values"
    simp only [lift, BasicStage.asAdaptive, hadamardStage]
    rcases Aux.map_cases h1 with ⟨hd, hd'⟩ | ⟨t, t', hd, hd', h1⟩ <;> rw [hd, hd']
    simp only [Spec.typeAndShape, Prod.mk.injEq] at h1
    cases sh with
    | none => rfl
    | some sh =>
      dsimp only
      unfold hadamardDecodeTen
      rw [h1.2.1]
      split
      · rename_i b p dim _ _
        split_ifs
        · rfl
        · rfl
        all_goals
          have h2 := Aux.onRows_signature (hadamardDecode (randomSigns (uniform (seed ω₁) dim)) dim)
            (hadamardDecode (randomSigns (uniform (seed ω₂) dim)) dim)
            (fun r r' hr => Aux.hadamardDecode_signature dim (by simp [randomSigns, hu]) hr)
            (fun r => (t.data.drop (r * p)).take p) (fun r => (t'.data.drop (r * p)).take p)
            (List.range b) (fun r => Aux.rowLength _ _ h1.2.2)
          unfold matrixRows
          generalize onRows (hadamardDecode (randomSigns (uniform (seed ω₁) dim)) dim)
            ((List.range b).map fun r => (t.data.drop (r * p)).take p) = a at h2
          generalize onRows (hadamardDecode (randomSigns (uniform (seed ω₂) dim)) dim)
            ((List.range b).map fun r => (t'.data.drop (r * p)).take p) = b' at h2
          cases a <;> cases b'
          · rfl
          · cases h2
          · cases h2
          · simp only [Option.map_some, Option.some.injEq] at h2
            simp [Spec.typeAndShape, h1.1, h2]
      · rfl
  one_summand := fun _ _ _ _ => rfl
  sum_law := by
    intro ω ω₁ _ _ n sh ks f g t hg h
    simp only [lift, BasicStage.asAdaptive, hadamardStage, Aux.lookup_keys] at h ⊢
    have hm : "hadamard_values" ∈ ks := by
      by_contra hm
      have := h 0
      simp [hm] at this
    obtain ⟨hsig, hsum⟩ := hg _ hm
    simp only [Spec.typeAndShape, Prod.mk.injEq] at hsig
    simp only [hm, if_true] at h ⊢
    cases sh with
    | none => cases h 0
    | some sh =>
      dsimp only at h ⊢
      unfold hadamardDecodeTen at h ⊢
      simp only [hsig] at h
      split at h
      · rename_i b p dim hsh hdim
        dsimp only
        have hrows : ∀ r, Aux.ListSum (fun i => ((f i "hadamard_values").data.drop (r * p)).take p)
            (((g "hadamard_values").data.drop (r * p)).take p) := fun r =>
          Aux.listSum_take (Aux.listSum_drop ⟨fun i => (hsig i).2.2, hsum⟩ _) _
        by_cases h1 : p < dim
        · have := h 0; rw [if_pos h1] at this; cases this
        by_cases h2 : sh.length = 1 ∧ b ≠ 1
        · have := h 0; rw [if_neg h1, if_pos h2] at this; cases this
        rw [if_neg h1, if_neg h2]
        have h3 : ∀ i, ∃ out, onRows (hadamardDecode (randomSigns (uniform (seed ω₁) dim)) dim)
            ((List.range b).map fun r => ((f i "hadamard_values").data.drop (r * p)).take p) = some out ∧
            t i = ⟨(g "hadamard_values").dtype, if sh.length = 1 then [dim] else [b, dim], out.flatten⟩ := by
          intro i
          have := h i
          rw [if_neg h1, if_neg h2] at this
          obtain ⟨out, ho, ht⟩ := Option.map_eq_some_iff.1 this
          exact ⟨out, ho, ht.symm⟩
        choose outs ho ht using h3
        obtain ⟨out, h4, h5⟩ := Aux.onRows_sum _ (fun ys xs y => Aux.hadamardDecode_sum _ dim)
          (fun i r => ((f i "hadamard_values").data.drop (r * p)).take p) _ (List.range b) hrows outs ho
        unfold matrixRows
        rw [h4]
        refine ⟨_, rfl, ?_, ?_⟩
        · intro i
          rw [ht i]
          simp only [Spec.typeAndShape, Prod.mk.injEq, true_and]
          exact h5.1 i
        · intro j
          simp only [ht]
          exact h5.2 j
      · cases h 0

theorem Aux.family_mono {T P S U Sh : Type} {Q Q' : (Ω → Stage T P S U Sh) → List String → Prop}
    {e : Ω → Encoder T P S U Sh} (he : Spec.Family Q e) (h : ∀ F ks, Q F ks → Q' F ks) : Spec.Family Q' e := by
  induction he with
  | node hq _ ih => exact .node (h _ _ hq) ih

theorem Aux.range_exists {bits : ℤ} {minMax : Option (List ℝ)} {st : Bool} {s : UQ ℝ}
    (hs : UQ.new bits minMax st = .ok s) {x : List ℝ} (hne : x ≠ []) : ∃ lo hi, Spec.IsRange minMax x lo hi := by
  obtain ⟨-, -, -, -, h3⟩ := Aux.new_spec hs
  rcases h3 with ⟨rfl, -⟩ | ⟨a, b, hab, rfl, -⟩
  · exact ⟨_, _, Aux.reduceMin_isMin hne, Aux.reduceMax_isMax hne⟩
  · exact ⟨a, b, rfl⟩

theorem Aux.shipped_contract {F : Ω → Stage Ten Prm Unit Unit (List ℕ)} (h : Spec.ShippedStage F) :
    Spec.Contract Spec.typeAndShape Spec.TensorsSum F := by
  cases h with
  | identity => exact Aux.identity_contract
  | flatten => exact Aux.flatten_contract
  | hadamard uniform seed hu => exact Aux.hadamard_contract uniform seed hu
  | quantization bits minMax st s hs u => exact Aux.uq_contract bits minMax st s hs u
  | bitpacking static bits => exact Aux.bitpack_contract static bits

/-! ## C89 -/

/-- **C89 (stage contract).** Every shipped stage keeps the contract the gather protocol relies on; in particular, every
stage that says it commutes with sum really does, whatever it is combined with. -/
theorem C89_shipped_stages {F : Ω → Stage Ten Prm Unit Unit (List ℕ)} (h : Spec.ShippedStage F) :
    Spec.Contract Spec.typeAndShape Spec.TensorsSum F := Aux.shipped_contract h

/-- **C89 (shipped stages).** The protocol for any tree of shipped stages. -/
theorem C89_shipped (e : Ω → TenEncoder) (he : Spec.Family (fun F _ => Spec.ShippedStage F) e)
    (ω₀ : Ω) (zeros : Ten) (spec : GatherSpec Ten Unit)
    (hspec : gatherFromEncoder Ten.shape Spec.typeAndShape (e ω₀) zeros = some spec)
    (ωs : Ω) (flat : List Unit) (hflat : flat.length = (e ω₀).initialState.flatten.length) :
    ∃ (st : PTree Unit) (gp : GatherParams Prm (List ℕ)) (dp : PTree Prm), (e ωs).initialState.pack flat = some st ∧
      (e ωs).getParams st = some (gp.encode, dp) ∧ gatherGetParams Ten.shape (e ωs) zeros flat = some gp ∧
      ∀ (n : Nat) (x : Fin (n + 1) → Ten) (_ : ∀ i, Spec.typeAndShape (x i) = Spec.typeAndShape zeros)
        (ω ω' : Fin (n + 1) → Ω) (ωd : Ω),
      ∃ (m : Fin (n + 1) → GatherEncoded Ten (List ℕ)) (u : Fin (n + 1) → List Unit) (b : Fin (n + 1) → Enc Ten)
        (y : Fin (n + 1) → Ten),
        (∀ i, gatherEncode Ten.shape Spec.typeAndShape (e (ω i)) zeros (x i) gp.encode = some (m i, u i)) ∧
        (∀ i, gatherDecodeBefore Spec.typeAndShape (e (ω' i)) spec.encoded (m i) gp.before = some (b i)) ∧
        (∀ i, Spec.OwnDecoding Ten.shape (e (ω i)) (e ωd) gp.encode dp (x i) (y i) ∧
          Spec.typeAndShape (y i) = Spec.typeAndShape zeros) ∧
        (∃ s, Spec.IsSum Spec.TensorsSum b s) ∧
        ∀ s, Spec.IsSum Spec.TensorsSum b s →
          ∃ r, gatherDecodeAfter Spec.typeAndShape (e ωd) spec.part s gp.after gp.shapes (n + 1) = some r ∧
            Spec.TensorsSum n y r ∧ Spec.typeAndShape r = Spec.typeAndShape zeros :=
  C89_protocol Ten.shape Spec.typeAndShape (fun a b h => by simp only [Spec.typeAndShape, Prod.mk.injEq] at h; exact h.2.1)
    Spec.TensorsSum Aux.sumOfAlike e (Aux.family_mono he fun _ _ h => Aux.shipped_contract h) ω₀ zeros spec hspec ωs flat
    hflat

/-! ### Aggregation with the common encoders -/

theorem Aux.family_chain {Q : (Ω → Stage Ten Prm Unit Unit (List ℕ)) → List String → Prop}
    (ps : List ((Ω → Stage Ten Prm Unit Unit (List ℕ)) × String)) (a : Ω → Stage Ten Prm Unit Unit (List ℕ))
    (h : ∀ p ∈ ps, Q p.1 [p.2]) (ha : Q a []) :
    Spec.Family Q fun ω => Aux.chain (ps.map fun p => (p.1 ω, p.2)) (a ω) := by
  induction ps with
  | nil => exact .node ha fun k hk => by simp at hk
  | cons p ps ih =>
    refine .node (h p (by simp)) fun k hk => ?_
    have h1 : (fun ω => if k ∈ [p.2] then Aux.chain (ps.map fun p => (p.1 ω, p.2)) (a ω) else .missing) =
        fun ω => Aux.chain (ps.map fun p => (p.1 ω, p.2)) (a ω) := funext fun ω => if_pos hk
    have h2 := ih fun q hq => h q (by simp [hq])
    rw [← h1] at h2
    exact h2

/-- The parameters of a chain depend only on the states and parameters of its stages. -/
theorem Aux.chain_params {ps qs : List (Stage Ten Prm Unit Unit (List ℕ) × String)} (a : Stage Ten Prm Unit Unit (List ℕ))
    (h : List.Forall₂ (fun p q => p.1.getParams = q.1.getParams ∧ p.1.initialState = q.1.initialState ∧ p.2 = q.2) ps qs) :
    (Aux.chain ps a).initialState = (Aux.chain qs a).initialState ∧
      ∀ s, (Aux.chain ps a).getParams s = (Aux.chain qs a).getParams s := by
  induction h with
  | nil => exact ⟨rfl, fun _ => rfl⟩
  | @cons p q ps qs hpq _ ih =>
    obtain ⟨h1, h2, h3⟩ := hpq
    constructor
    · simp only [Aux.chain, Encoder.initialState, h2, h3]
      congr 1
      funext k
      by_cases hk : k ∈ [q.2]
      · simp only [if_pos hk]; exact ih.1
      · simp only [if_neg hk]
    · intro s
      cases s with
      | missing => rfl
      | node s ks c =>
        simp only [Aux.chain, Encoder.getParams, h1, h3]
        congr 1
        apply Aux.forKeys_congr
        intro k hk
        simp only [if_pos hk, ih.2]

theorem Aux.unit_pack (e : TenEncoder) (he : Spec.EveryNode (fun _ _ => True) e) (flat : List Unit) (st : PTree Unit)
    (hl : flat.length = e.initialState.flatten.length) (h : e.initialState.pack flat = some st) : st = e.initialState := by
  have h1 : flat = e.initialState.flatten := List.ext_getElem hl fun i _ _ => rfl
  have := Aux.pack_aux _ _ (Aux.aligned_initial e he) []
  rw [List.append_nil] at this
  rw [h1] at h
  simp only [PTree.pack, this, Option.some.injEq] at h
  exact h.symm

/-- What the encoder makes of a tensor on its own is what a `SimpleEncoder` returns. -/
theorem Aux.own_roundTrip (e : TenEncoder) (he : Spec.EveryNode (fun _ _ => True) e) (ep dp : PTree Prm) (x y y' : Ten)
    (h1 : e.getParams e.initialState = some (ep, dp)) (h2 : Spec.OwnDecoding Ten.shape e e ep dp x y)
    (h3 : Spec.RoundTrip e x y') : y = y' := by
  obtain ⟨v, u, sh, h4, h5⟩ := h2
  obtain ⟨enc, h6, h7⟩ := h3
  have hp : e.initialState.pack e.initialState.flatten = some e.initialState := by
    have := Aux.pack_aux _ _ (Aux.aligned_initial e he) []
    rw [List.append_nil] at this
    simp only [PTree.pack, this]
  unfold simpleEncode at h6
  rw [hp] at h6; dsimp only at h6
  rw [h1] at h6; dsimp only at h6
  rw [h4] at h6; dsimp only at h6
  obtain ⟨st', -, h8⟩ := Option.map_eq_some_iff.1 h6
  obtain ⟨rfl, -⟩ : _ = enc ∧ _ := by simpa using h8
  unfold simpleDecode at h7
  rw [h5] at h7
  exact Option.some.inj h7

/-- **C89 (uniform quantization).** Aggregating with `uniform_quantization`: `from_encoder` accepts every floating point
type and non-empty shape, and the decoded sum differs in every entry from the sum of the workers' (clipped) values by at
most the sum of their quantization steps. -/
theorem C89_uniform_quantization (static : Bool) (bits : ℤ) (minMax : Option (List ℝ)) (st : Bool)
    (e : (ℕ → ℝ) → TenEncoder) (he : ∀ u, uniformQuantization static bits minMax st u = .ok (e u))
    (zeros : Ten) (hf : Spec.Floating zeros.dtype) (hw : Spec.WellShaped zeros) (hne : zeros.data ≠ [])
    (u₀ us : ℕ → ℝ) (hu₀ : ∀ i, 0 ≤ u₀ i) :
    ∃ spec gp, gatherFromEncoder Ten.shape Spec.typeAndShape (e u₀) zeros = some spec ∧
      gatherGetParams Ten.shape (e us) zeros (e us).initialState.flatten = some gp ∧
      ∀ (n : Nat) (x : Fin (n + 1) → Ten) (_ : ∀ i, Spec.typeAndShape (x i) = Spec.typeAndShape zeros)
        (u u' : Fin (n + 1) → ℕ → ℝ) (_ : ∀ i j, 0 ≤ u i j) (ud : ℕ → ℝ) (lo hi : Fin (n + 1) → ℝ)
        (_ : ∀ i, Spec.IsRange minMax (x i).data (lo i) (hi i)),
      ∃ (m : Fin (n + 1) → GatherEncoded Ten (List ℕ)) (ups : Fin (n + 1) → List Unit) (b : Fin (n + 1) → Enc Ten),
        (∀ i, gatherEncode Ten.shape Spec.typeAndShape (e (u i)) zeros (x i) gp.encode = some (m i, ups i)) ∧
        (∀ i, gatherDecodeBefore Spec.typeAndShape (e (u' i)) spec.encoded (m i) gp.before = some (b i)) ∧
        (∃ s, Spec.IsSum Spec.TensorsSum b s) ∧
        ∀ s, Spec.IsSum Spec.TensorsSum b s →
          ∃ r, gatherDecodeAfter Spec.typeAndShape (e ud) spec.part s gp.after gp.shapes (n + 1) = some r ∧
            Spec.typeAndShape r = Spec.typeAndShape zeros ∧
            ∀ j, j < r.data.length →
              |r.data.getD j 0 - ∑ i, Spec.clip (lo i) (hi i) ((x i).data.getD j 0)| ≤
                ∑ i, Spec.uqStep bits (lo i) (hi i) := by
  obtain ⟨s, hs, hb, -⟩ := Aux.uniform_ok (he u₀)
  have hchain : ∀ u, e u = Aux.chain [(lift flattenStage, "flattened_values"), (lift (uqStage s u), "quantized_values")]
      (lift (bitpackStage static bits.toNat)) := by
    intro u
    obtain ⟨s', hs', -, h⟩ := Aux.uniform_ok (he u)
    obtain rfl : s = s' := Except.ok.inj (hs.symm.trans hs')
    exact h
  have hship : Spec.Family (fun F _ => Spec.ShippedStage F) e := by
    have := Aux.family_chain (Ω := ℕ → ℝ) (Q := fun F _ => Spec.ShippedStage F)
      [(fun _ => lift flattenStage, "flattened_values"), (fun u => lift (uqStage s u), "quantized_values")]
      (fun _ => lift (bitpackStage static bits.toNat)) (by
        intro p hp
        simp only [List.mem_cons, List.not_mem_nil, or_false] at hp
        rcases hp with rfl | rfl
        · exact .flatten
        · exact .quantization bits minMax st s hs id)
      (.bitpacking static bits.toNat)
    have h2 : e = fun u => Aux.chain [(lift flattenStage, "flattened_values"), (lift (uqStage s u), "quantized_values")]
      (lift (bitpackStage static bits.toNat)) := funext hchain
    rw [h2]
    exact this
  have hcontract := Aux.family_mono hship (Q' := fun F _ => Spec.Contract Spec.typeAndShape Spec.TensorsSum F)
    fun _ _ h => Aux.shipped_contract h
  have hnodes : ∀ u, Spec.EveryNode (fun _ _ => True) (e u) := fun u =>
    Aux.family_node u (fun _ _ _ => trivial) e hship
  -- a range for zeros
  obtain ⟨lo₀, hi₀, hr₀⟩ : ∃ lo hi, Spec.IsRange minMax zeros.data lo hi := Aux.range_exists hs hne
  obtain ⟨y₀, hthrough, hyd, hys, hyw, -⟩ := Aux.uniform_goes_through static bits minMax st u₀ hu₀ (e u₀) (he u₀) zeros hf hw
    hne lo₀ hi₀ hr₀
  obtain ⟨spec, hspec⟩ := C89_accepts Ten.shape Spec.typeAndShape
    (fun a b h => by simp only [Spec.typeAndShape, Prod.mk.injEq] at h; exact h.2.1)
    Spec.TensorsSum e hcontract u₀ zeros y₀ hthrough (by
      have : y₀.data.length = zeros.data.length := by rw [hyw, hys, ← hw]
      simp [Spec.typeAndShape, hyd, hys, this])
  have hinit : ∀ u u', (e u).initialState.flatten = (e u').initialState.flatten := by
    intro u u'
    rw [hchain u, hchain u']
    rfl
  obtain ⟨pst, gp, dp, hpack, hpar, hgp, hmain⟩ := C89_shipped e hship u₀ zeros spec hspec us (e us).initialState.flatten
    (by rw [hinit us u₀])
  have hpst := Aux.unit_pack (e us) (hnodes us) _ pst rfl hpack
  refine ⟨spec, gp, hspec, hgp, ?_⟩
  intro n x hx u u' hu ud lo hi hr
  obtain ⟨m, ups, b, y, h1, h2, h3, h4, h5⟩ := hmain n x hx u u' ud
  refine ⟨m, ups, b, h1, h2, h4, ?_⟩
  intro sum hsum
  obtain ⟨r, hr1, hr2, hr3⟩ := h5 sum hsum
  refine ⟨r, hr1, hr3, ?_⟩
  intro j hj
  -- every worker on its own
  have hxs : ∀ i, (x i).dtype = zeros.dtype ∧ (x i).shape = zeros.shape ∧ (x i).data.length = zeros.data.length := by
    intro i
    have := hx i
    simpa [Spec.typeAndShape] using this
  have hown : ∀ i, |(y i).data.getD j 0 - Spec.clip (lo i) (hi i) ((x i).data.getD j 0)| ≤
      Spec.uqStep bits (lo i) (hi i) := by
    intro i
    obtain ⟨y', g1, -, g3, g4, g5⟩ := C88_uniform_quantization static bits minMax st (u i) (hu i) (e (u i)) (he (u i)) (x i)
      (by rw [(hxs i).1]; exact hf) (by rw [Spec.WellShaped, (hxs i).2.2, (hxs i).2.1]; exact hw)
      (by intro h; have := (hxs i).2.2; rw [h] at this; exact hne (List.length_eq_zero_iff.1 this.symm))
      (lo i) (hi i) (hr i)
    have hp' : (e (u i)).getParams (e (u i)).initialState = some (gp.encode, dp) := by
      have hcp := Aux.chain_params (ps := [(lift flattenStage, "flattened_values"), (lift (uqStage s (u i)), "quantized_values")])
        (qs := [(lift flattenStage, "flattened_values"), (lift (uqStage s us), "quantized_values")])
        (lift (bitpackStage static bits.toNat)) (.cons ⟨rfl, rfl, rfl⟩ (.cons ⟨rfl, rfl, rfl⟩ .nil))
      rw [← hpar, hpst, hchain (u i), hchain us, hcp.1]
      exact hcp.2 _
    obtain ⟨v, uu, sh, k1, k2⟩ := (h3 i).1
    have : y i = y' := by
      apply Aux.own_roundTrip (e (u i)) (hnodes _) gp.encode dp (x i) (y i) y' hp' ⟨v, uu, sh, k1, ?_⟩ g1
      unfold Encoder.decode at k2 ⊢
      rw [← k2]
      exact Aux.decode_draws e hcontract (u i) ud true _ _ _
    subst this
    have hlen : (y i).data.length = (x i).data.length := by
      rw [g4, g3, (hxs i).2.1, ← hw, (hxs i).2.2]
    have hjx : j < (x i).data.length := by
      have : r.data.length = zeros.data.length := by
        simp only [Spec.typeAndShape, Prod.mk.injEq] at hr3; exact hr3.2.2
      rw [(hxs i).2.2, ← this]; exact hj
    have := (g5 j hjx (by rw [hlen]; exact hjx)).1
    rwa [List.getD_eq_getElem _ _ hjx, List.getD_eq_getElem _ _ (by rw [hlen]; exact hjx)]
  rw [hr2.2 j, ← Finset.sum_sub_distrib]
  exact (Finset.abs_sum_le_sum_abs _ _).trans (Finset.sum_le_sum fun i _ => hown i)

theorem Aux.chain_initial {ps qs : List (Stage Ten Prm Unit Unit (List ℕ) × String)} (a : Stage Ten Prm Unit Unit (List ℕ))
    (h : List.Forall₂ (fun p q => p.1.initialState = q.1.initialState ∧ p.2 = q.2) ps qs) :
    (Aux.chain ps a).initialState = (Aux.chain qs a).initialState := by
  induction h with
  | nil => rfl
  | @cons p q ps qs hpq _ ih =>
    obtain ⟨h2, h3⟩ := hpq
    simp only [Aux.chain, Encoder.initialState, h2, h3]
    congr 1
    funext k
    by_cases hk : k ∈ [q.2]
    · simp only [if_pos hk]; exact ih
    · simp only [if_neg hk]

/-- What a chain makes of a tensor depends only on the `encode` of its stages, not on their own parameters. -/
theorem Aux.chain_encode {ps qs : List (Stage Ten Prm Unit Unit (List ℕ) × String)} (a : Stage Ten Prm Unit Unit (List ℕ))
    (h : List.Forall₂ (fun p q => p.1.encode = q.1.encode ∧ p.1.needsShape = q.1.needsShape ∧ p.2 = q.2) ps qs) :
    ∀ x p, (Aux.chain ps a).encode Ten.shape x p = (Aux.chain qs a).encode Ten.shape x p := by
  induction h with
  | nil => exact fun _ _ => rfl
  | @cons p q ps qs hpq _ ih =>
    obtain ⟨h1, h2, h3⟩ := hpq
    intro x s
    cases s with
    | missing => rfl
    | node s ks c =>
      simp only [Aux.chain, Encoder.encode, h1, h2, h3]
      congr 1
      apply Aux.forKeys_congr
      intro k hk
      simp only [if_pos hk, ih]

/-- **C89 (Hadamard quantization).** Aggregating with `hadamard_quantization`, where `get_params` draws one seed that all
workers use, and every worker has its own rounding draws: the decoded sum is the exact sum of tensors, one for each worker,
that are as close to the worker's tensor as the encoder promises. -/
theorem C89_hadamard_quantization (static : Bool) (bits : ℤ) (uniform : ℕ → ℕ → List ℝ)
    (e : ℕ × (ℕ → ℝ) → TenEncoder) (he : ∀ ω, hadamardQuantization static bits uniform ω.1 ω.2 = .ok (e ω))
    (huni : ∀ s n, (uniform s n).length = n) (hhalf : ∀ s n, ∀ v ∈ uniform s n, v ≠ 1 / 2)
    (zeros : Ten) (hf : Spec.Floating zeros.dtype) (hw : Spec.WellShaped zeros) (hne : zeros.data ≠ [])
    (ω₀ ωs : ℕ × (ℕ → ℝ)) (hu₀ : ∀ i, 0 ≤ ω₀.2 i) :
    ∃ spec gp, gatherFromEncoder Ten.shape Spec.typeAndShape (e ω₀) zeros = some spec ∧
      gatherGetParams Ten.shape (e ωs) zeros (e ωs).initialState.flatten = some gp ∧
      ∀ (n : Nat) (x : Fin (n + 1) → Ten) (_ : ∀ i, Spec.typeAndShape (x i) = Spec.typeAndShape zeros)
        (ω ω' : Fin (n + 1) → ℕ × (ℕ → ℝ)) (_ : ∀ i j, 0 ≤ (ω i).2 j) (ωd : ℕ × (ℕ → ℝ)),
      ∃ (m : Fin (n + 1) → GatherEncoded Ten (List ℕ)) (ups : Fin (n + 1) → List Unit) (b : Fin (n + 1) → Enc Ten),
        (∀ i, gatherEncode Ten.shape Spec.typeAndShape (e (ω i)) zeros (x i) gp.encode = some (m i, ups i)) ∧
        (∀ i, gatherDecodeBefore Spec.typeAndShape (e (ω' i)) spec.encoded (m i) gp.before = some (b i)) ∧
        (∃ s, Spec.IsSum Spec.TensorsSum b s) ∧
        ∀ s, Spec.IsSum Spec.TensorsSum b s →
          ∃ r y, gatherDecodeAfter Spec.typeAndShape (e ωd) spec.part s gp.after gp.shapes (n + 1) = some r ∧
            Spec.typeAndShape r = Spec.typeAndShape zeros ∧ Spec.TensorsSum n y r ∧
            ∀ i, Spec.normSq (Spec.difference (y i).data (x i).data) ≤
              2 ^ Nat.clog 2 zeros.data.length * (2 * Spec.normSq (x i).data / (2 ^ bits.toNat - 1) ^ 2) := by
  obtain ⟨s, hs, hb, -⟩ := Aux.hadamard_ok (he ω₀)
  have hchain : ∀ ω, e ω = Aux.chain [(lift flattenStage, "flattened_values"),
      (lift (hadamardStage uniform ω.1), "hadamard_values"), (lift (uqStage s ω.2), "quantized_values")]
      (lift (bitpackStage static bits.toNat)) := by
    intro ω
    obtain ⟨s', hs', -, h⟩ := Aux.hadamard_ok (he ω)
    obtain rfl : s = s' := Except.ok.inj (hs.symm.trans hs')
    exact h
  have hship : Spec.Family (fun F _ => Spec.ShippedStage F) e := by
    have := Aux.family_chain (Ω := ℕ × (ℕ → ℝ)) (Q := fun F _ => Spec.ShippedStage F)
      [(fun _ => lift flattenStage, "flattened_values"), (fun (ω : ℕ × (ℕ → ℝ)) => lift (hadamardStage uniform ω.1), "hadamard_values"),
        (fun (ω : ℕ × (ℕ → ℝ)) => lift (uqStage s ω.2), "quantized_values")]
      (fun _ => lift (bitpackStage static bits.toNat)) (by
        intro p hp
        simp only [List.mem_cons, List.not_mem_nil, or_false] at hp
        rcases hp with rfl | rfl | rfl
        · exact .flatten
        · exact .hadamard uniform Prod.fst huni
        · exact .quantization bits none true s hs Prod.snd)
      (.bitpacking static bits.toNat)
    have h2 : e = fun ω : ℕ × (ℕ → ℝ) => Aux.chain [(lift flattenStage, "flattened_values"),
      (lift (hadamardStage uniform ω.1), "hadamard_values"), (lift (uqStage s ω.2), "quantized_values")]
      (lift (bitpackStage static bits.toNat)) := funext hchain
    rw [h2]
    exact this
  have hcontract := Aux.family_mono hship (Q' := fun F _ => Spec.Contract Spec.typeAndShape Spec.TensorsSum F)
    fun _ _ h => Aux.shipped_contract h
  have hnodes : ∀ u, Spec.EveryNode (fun _ _ => True) (e u) := fun u =>
    Aux.family_node u (fun _ _ _ => trivial) e hship
  obtain ⟨y₀, hthrough, hyd, hys, hyw, -⟩ := Aux.hadamard_goes_through static bits uniform ω₀.1 ω₀.2 hu₀ (e ω₀) (he ω₀) zeros
    hf hw hne (huni _ _) (hhalf _ _)
  obtain ⟨spec, hspec⟩ := C89_accepts Ten.shape Spec.typeAndShape
    (fun a b h => by simp only [Spec.typeAndShape, Prod.mk.injEq] at h; exact h.2.1)
    Spec.TensorsSum e hcontract ω₀ zeros y₀ hthrough (by
      have : y₀.data.length = zeros.data.length := by rw [hyw, hys, ← hw]
      simp [Spec.typeAndShape, hyd, hys, this])
  have hinit : ∀ ω ω', (e ω).initialState = (e ω').initialState := by
    intro ω ω'
    rw [hchain ω, hchain ω']
    exact Aux.chain_initial _ (.cons ⟨rfl, rfl⟩ (.cons ⟨rfl, rfl⟩ (.cons ⟨rfl, rfl⟩ .nil)))
  obtain ⟨pst, gp, dp, hpack, hpar, hgp, hmain⟩ := C89_shipped e hship ω₀ zeros spec hspec ωs (e ωs).initialState.flatten
    (by rw [hinit ωs ω₀])
  have hpst := Aux.unit_pack (e ωs) (hnodes ωs) _ pst rfl hpack
  refine ⟨spec, gp, hspec, hgp, ?_⟩
  intro n x hx ω ω' hu ωd
  obtain ⟨m, ups, b, y, h1, h2, h3, h4, h5⟩ := hmain n x hx ω ω' ωd
  refine ⟨m, ups, b, h1, h2, h4, ?_⟩
  intro sum hsum
  obtain ⟨r, hr1, hr2, hr3⟩ := h5 sum hsum
  refine ⟨r, y, hr1, hr3, hr2, ?_⟩
  intro i
  have hxs : (x i).dtype = zeros.dtype ∧ (x i).shape = zeros.shape ∧ (x i).data.length = zeros.data.length := by
    have := hx i
    simpa [Spec.typeAndShape] using this
  -- the shared seed with the worker's rounding draws
  set ωi : ℕ × (ℕ → ℝ) := (ωs.1, (ω i).2) with hωi
  obtain ⟨y', g1, -, -, -, g5⟩ := C88_hadamard_quantization static bits uniform ωi.1 ωi.2 (hu i) (e ωi) (he ωi) (x i)
    (by rw [hxs.1]; exact hf) (by rw [Spec.WellShaped, hxs.2.2, hxs.2.1]; exact hw)
    (by intro h; have := hxs.2.2; rw [h] at this; exact hne (List.length_eq_zero_iff.1 this.symm))
    (huni _ _) (hhalf _ _)
  have hp' : (e ωi).getParams (e ωi).initialState = some (gp.encode, dp) := by
    have hcp := Aux.chain_params (ps := [(lift flattenStage, "flattened_values"),
        (lift (hadamardStage uniform ωi.1), "hadamard_values"), (lift (uqStage s ωi.2), "quantized_values")])
      (qs := [(lift flattenStage, "flattened_values"),
        (lift (hadamardStage uniform ωs.1), "hadamard_values"), (lift (uqStage s ωs.2), "quantized_values")])
      (lift (bitpackStage static bits.toNat))
      (.cons ⟨rfl, rfl, rfl⟩ (.cons ⟨rfl, rfl, rfl⟩ (.cons ⟨rfl, rfl, rfl⟩ .nil)))
    rw [← hpar, hpst, hchain ωi, hchain ωs, hcp.1]
    exact hcp.2 _
  obtain ⟨v, uu, sh, k1, k2⟩ := (h3 i).1
  have k1' : (e ωi).encode Ten.shape (x i) gp.encode = some (v, uu, sh) := by
    rw [← k1, hchain ωi, hchain (ω i)]
    apply Aux.chain_encode
    exact .cons ⟨rfl, rfl, rfl⟩ (.cons ⟨rfl, rfl, rfl⟩ (.cons ⟨rfl, rfl, rfl⟩ .nil))
  have : y i = y' := by
    apply Aux.own_roundTrip (e ωi) (hnodes _) gp.encode dp (x i) (y i) y' hp' ⟨v, uu, sh, k1', ?_⟩ g1
    unfold Encoder.decode at k2 ⊢
    rw [← k2]
    exact Aux.decode_draws e hcontract ωi ωd true _ _ _
  rw [this, ← hxs.2.2]
  exact g5

/-! ### Instances -/

/-- Two by two zeros. -/
def Example.zeros22 : Ten := ⟨.float32, [2, 2], [0, 0, 0, 0]⟩

/-- Two workers with the matrix `[[1, -2], [3, 0]]`: their tensors are aggregated and the sum is off by at most `10 / 255`. -/
example : ∃ (e : (ℕ → ℝ) → TenEncoder) (spec : GatherSpec Ten Unit) (gp : GatherParams Prm (List ℕ)),
    gatherFromEncoder Ten.shape Spec.typeAndShape (e fun _ => 0) Example.zeros22 = some spec ∧
    ∃ (m : Fin 2 → GatherEncoded Ten (List ℕ)) (ups : Fin 2 → List Unit) (b : Fin 2 → Enc Ten) (s : Enc Ten) (r : Ten),
      (∀ i, gatherEncode Ten.shape Spec.typeAndShape (e fun _ => 0) Example.zeros22 Example.matrix gp.encode =
        some (m i, ups i)) ∧
      (∀ i, gatherDecodeBefore Spec.typeAndShape (e fun _ => 0) spec.encoded (m i) gp.before = some (b i)) ∧
      Spec.IsSum Spec.TensorsSum b s ∧
      gatherDecodeAfter Spec.typeAndShape (e fun _ => 0) spec.part s gp.after gp.shapes 2 = some r ∧
      r.shape = [2, 2] ∧ |r.data.getD 2 0 - 6| ≤ 10 / 255 := by
  have hex : ∀ u, ∃ e, uniformQuantization true 8 none true u = .ok e := fun u =>
    (C88_arguments true 8 none true u).2 ⟨by norm_num, by norm_num, .inl rfl⟩
  choose e he using hex
  have hr : Spec.IsRange none Example.matrix.data (-2) 3 := by
    refine ⟨⟨by simp [Example.matrix], ?_⟩, by simp [Example.matrix], ?_⟩ <;>
      intro v hv <;> simp only [Example.matrix, List.mem_cons, List.not_mem_nil, or_false] at hv <;>
      rcases hv with rfl | rfl | rfl | rfl <;> norm_num
  obtain ⟨spec, gp, h1, h2, h3⟩ := C89_uniform_quantization true 8 none true e he Example.zeros22 (by simp [Spec.Floating, Example.zeros22])
    (by simp [Spec.WellShaped, Example.zeros22]) (by simp [Example.zeros22]) (fun _ => 0) (fun _ => 0) (fun _ => le_refl _)
  obtain ⟨m, ups, b, h4, h5, ⟨s, hs⟩, h6⟩ := h3 1 (fun _ => Example.matrix) (fun _ => rfl) (fun _ _ => 0) (fun _ _ => 0)
    (fun _ _ => le_refl _) (fun _ => 0) (fun _ => -2) (fun _ => 3) (fun _ => hr)
  obtain ⟨r, h7, h8, h9⟩ := h6 s hs
  refine ⟨e, spec, gp, h1, m, ups, b, s, r, h4, h5, hs, h7, ?_, ?_⟩
  · simp only [Spec.typeAndShape, Prod.mk.injEq] at h8; exact h8.2.1
  · have hl : r.data.length = 4 := by
      simp only [Spec.typeAndShape, Prod.mk.injEq] at h8; exact h8.2.2
    have := h9 2 (by omega)
    simp only [Example.matrix, Fin.sum_univ_two, Spec.clip, Spec.uqStep] at this
    have h8 : (8 : ℤ).toNat = 8 := rfl
    rw [h8] at this
    norm_num at this ⊢
    exact this

end Verif.Props
