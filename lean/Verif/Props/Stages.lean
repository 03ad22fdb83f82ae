import Verif.Encoding.Stages
import Verif.Props.Encoder
import Verif.Props.Hadamard
import Verif.Props.Uniform
import Verif.Props.BitPack

/-!
# C88: the common encoders end to end
-/

set_option linter.unusedSectionVars false

namespace Verif.Props

open Verif Verif.Encoding

variable {T P S U Sh : Type}

/-! ## Specification -/

/-- Encoding `x` with a `SimpleEncoder` and decoding the result gives `y`; the (empty) state is unchanged, so that every
later call starts from the same state. -/
def Spec.RoundTrip (e : TenEncoder) (x y : Ten) : Prop :=
  ∃ enc, simpleEncode Ten.shape e x e.initialState.flatten = some (enc, e.initialState.flatten) ∧
    simpleDecode e enc = some y

/-- The number of entries is what the shape says. -/
def Spec.WellShaped (x : Ten) : Prop := x.data.length = x.shape.prod

/-- The floating point types. -/
def Spec.Floating (d : DType) : Prop := d = .float16 ∨ d = .bfloat16 ∨ d = .float32 ∨ d = .float64

/-! ## Chains of stages -/

theorem Aux.aligned_initial (e : Encoder T P S U Sh) (he : Spec.EveryNode (fun _ _ => True) e) :
    Aux.Aligned e.initialState e.initialState := by
  have := Aux.aligned_after e he []
  rwa [Aux.stateAfter_nil] at this

/-- What goes through the stages is what a `SimpleEncoder` returns. -/
theorem Aux.simple_through (shapeOf : T → Sh) (e : Encoder T P S U Sh) (he : Spec.EveryNode (fun _ _ => True) e)
    (x y : T) (h : Spec.Through shapeOf e e.initialState x y) :
    ∃ enc st', simpleEncode shapeOf e x e.initialState.flatten = some (enc, PTree.flatten st') ∧
      Spec.Fits e st' ∧ simpleDecode e enc = some y := by
  obtain ⟨ep, dp, enc, u, sh, h1, h2, h3, h4⟩ := Aux.through shapeOf e _ x y h
  obtain ⟨hf, hup⟩ := C37_reachable_states_fit e he
  obtain ⟨st', h5, h6⟩ := hup _ u hf h4
  have hp : e.initialState.pack e.initialState.flatten = some e.initialState := by
    have := Aux.pack_aux _ _ (Aux.aligned_initial e he) []
    rw [List.append_nil] at this
    simp only [PTree.pack, this]
  refine ⟨⟨enc, dp, sh⟩, st', ?_, h6, ?_⟩
  · simp only [simpleEncode, hp, h1, h2, h5]
    rfl
  · simp only [simpleDecode, h3]

theorem Aux.fits_flatten_length {A B : Type} (e : Encoder T P S U Sh) (s : PTree A) (t : PTree B)
    (hs : Spec.Fits e s) (ht : Spec.Fits e t) : s.flatten.length = t.flatten.length := by
  induction e generalizing s t with
  | missing => cases hs
  | node st keys child ih =>
    cases hs with
    | @node _ _ _ a c hc =>
    cases ht with
    | @node _ _ _ b d hd =>
    simp only [PTree.flatten, List.length_cons, List.length_flatMap]
    congr 2
    exact List.map_congr_left fun k hk => ih k (c k) (d k) (hc k hk) (hd k hk)

theorem Aux.roundTrip (e : TenEncoder) (he : Spec.EveryNode (fun _ _ => True) e) (x y : Ten)
    (h : Spec.Through Ten.shape e e.initialState x y) : Spec.RoundTrip e x y := by
  obtain ⟨enc, st', h1, h2, h3⟩ := Aux.simple_through Ten.shape e he x y h
  refine ⟨enc, ?_, h3⟩
  have : PTree.flatten st' = e.initialState.flatten := by
    have hl := Aux.fits_flatten_length e st' e.initialState h2 (C37_reachable_states_fit e he).1
    generalize PTree.flatten st' = a at hl
    generalize e.initialState.flatten = b at hl
    exact List.ext_getElem hl fun i _ _ => rfl
  rw [← this]
  rw [this] at h1 ⊢
  exact h1

theorem Aux.through_chain (shapeOf : T → Sh) (st : Stage T P S U Sh) (key : String)
    (child : String → Encoder T P S U Sh) (s : S) (sc : String → PTree S) (x y t z : T)
    (rest : List (String × T)) (hd : (st.encode x (st.getParams s).1).1 = (key, t) :: rest)
    (hnd : (key :: rest.map (·.1)).Nodup)
    (hc : Spec.Through shapeOf (child key) (sc key) t z)
    (hdec : st.decode ((key, z) :: rest) (st.getParams s).2 none (Spec.shapeFor shapeOf st x) = some y) :
    Spec.Through shapeOf (.node st [key] child) (.node s [key] sc) x y := by
  have hk : key ∉ rest.map (·.1) := (List.nodup_cons.1 hnd).1
  have hrest : ∀ k, k ∈ rest.map (·.1) → k ≠ key := fun k h e => hk (e ▸ h)
  refine .node (fun k => if k = key then z else (rest.lookup k).getD z) ?_ ?_ ?_ ?_ ?_
  · rw [hd]; exact hnd
  · intro k hk'; rw [hd]; simp at hk'; simp [hk']
  · intro k hk' t' ht'
    simp only [List.mem_singleton] at hk'
    subst hk'
    rw [hd] at ht'
    simp [List.lookup] at ht'
    subst ht'
    simpa using hc
  · intro k hk' t' ht'
    simp only [List.mem_singleton] at hk'
    rw [hd, List.lookup, beq_eq_false_iff_ne.2 hk'] at ht'
    simp only at ht'
    simp [hk', ht']
  · rw [hd]
    simp only [List.map_cons, if_true]
    have : (rest.map (·.1)).map (fun k => (k, if k = key then z else (rest.lookup k).getD z)) = rest := by
      apply Aux.map_lookup (List.nodup_cons.1 hnd).2
      intro k hk'
      obtain ⟨t', ht'⟩ := Aux.lookup_of_mem hk'
      simp [hrest k hk', ht']
    rw [this]
    exact hdec

theorem Aux.through_leaf (shapeOf : T → Sh) (st : Stage T P S U Sh)
    (child : String → Encoder T P S U Sh) (s : S) (sc : String → PTree S) (x y : T)
    (hnd : ((st.encode x (st.getParams s).1).1.map (·.1)).Nodup)
    (hdec : st.decode (st.encode x (st.getParams s).1).1 (st.getParams s).2 none (Spec.shapeFor shapeOf st x) = some y) :
    Spec.Through shapeOf (.node st [] child) (.node s [] sc) x y := by
  generalize hd : (st.encode x (st.getParams s).1).1 = d at *
  refine .node (fun k => (d.lookup k).getD x) (by rw [hd]; exact hnd) (by simp) (by simp) ?_ ?_
  · intro k _ t ht
    rw [hd] at ht
    simp [ht]
  · rw [hd, Aux.map_lookup hnd]
    · exact hdec
    · intro k hk
      obtain ⟨t, ht⟩ := Aux.lookup_of_mem hk
      simp [ht]

/-! ## The stages one by one -/

theorem Aux.bitpack_through (static : Bool) (b : ℕ) (hb : bitpackingAccepts b = true) (q : Ten)
    (hf : Spec.Floating q.dtype) (hw : Spec.WellShaped q)
    (hq : ∀ v ∈ q.data, ∃ k : ℕ, v = k ∧ k ≤ 2 ^ b - 1) (child : String → TenEncoder) (sc : String → PTree Unit) :
    Spec.Through Ten.shape (.node (lift (bitpackStage static b)) [] child) (.node () [] sc) q q := by
  have hback : (q.data.map fun v => ⌊v⌋₊).map (fun (w : ℕ) => (w : ℝ)) = q.data := by
    rw [List.map_map]
    conv_rhs => rw [← List.map_id q.data]
    apply List.map_congr_left
    intro v hv
    obtain ⟨k, rfl, -⟩ := hq v hv
    simp
  have hlt : ∀ n ∈ q.data.map (fun v => ⌊v⌋₊), n < 2 ^ b := by
    intro n hn
    obtain ⟨v, hv, rfl⟩ := List.mem_map.1 hn
    obtain ⟨k, rfl, hk⟩ := hq v hv
    have : 0 < 2 ^ b := by positivity
    simp only [Nat.floor_natCast]
    omega
  rcases C31_stage static b hb q.dtype _ hlt with ⟨⟨n, hn⟩, -⟩ | ⟨-, e, he, hde⟩
  · rcases hf with h | h | h | h <;> rw [h] at hn <;> cases hn
  have hvals : (e.values.map fun (w : ℕ) => (w : ℝ)).map (fun v => ⌊v⌋₊) = e.values := by
    rw [List.map_map]
    conv_rhs => rw [← List.map_id e.values]
    apply List.map_congr_left
    intro w _
    simp
  have hlook : ((bitpackTensors e).lookup "bitpacked_values") =
      some ⟨.int32, [e.values.length], e.values.map fun (w : ℕ) => (w : ℝ)⟩ ∧
      ((bitpackTensors e).lookup "dummy_type_value").map Ten.dtype = e.dummyType ∧
      ((bitpackTensors e).map (·.1)).Nodup := by
    unfold bitpackTensors
    cases e.dummyType with
    | none => exact ⟨rfl, rfl, by simp⟩
    | some t => exact ⟨rfl, rfl, by simp⟩
  apply Aux.through_leaf
  · simp only [lift, BasicStage.asAdaptive, bitpackStage, he]
    exact hlook.2.2
  · simp only [lift, BasicStage.asAdaptive, bitpackStage, he, Spec.shapeFor, if_true, hlook.1, hlook.2.1, hvals]
    rw [← hw]
    rw [List.length_map] at hde
    rw [show (⟨e.values, e.dummyType⟩ : BitPacked) = e from rfl, hde]
    simp only [Option.bind_some, Ten.reshape, hback]
    exact if_pos hw

theorem Aux.flatten_through (child : String → TenEncoder) (sc : String → PTree Unit) (x : Ten) (z : Ten)
    (hw : Spec.WellShaped x) (hd : z.dtype = x.dtype) (hz : z.data.length = x.data.length)
    (hc : Spec.Through Ten.shape (child "flattened_values") (sc "flattened_values")
      ⟨x.dtype, [x.data.length], x.data⟩ z) :
    Spec.Through Ten.shape (.node (lift flattenStage) ["flattened_values"] child)
      (.node () ["flattened_values"] sc) x ⟨x.dtype, x.shape, z.data⟩ := by
  refine Aux.through_chain _ _ _ _ _ _ _ _ _ z [] rfl (by simp) hc ?_
  simp only [lift, BasicStage.asAdaptive, flattenStage, Spec.shapeFor, if_true, List.lookup, beq_self_eq_true,
    Ten.reshape]
  rw [if_pos (by rw [hz]; exact hw), hd]

/-- The range of the stage and what decoding gives, for one tensor. -/
theorem Aux.uq_through (bits : ℤ) (minMax : Option (List ℝ)) (st : Bool) (s : UQ ℝ)
    (h : UQ.new bits minMax st = .ok s) (u : ℕ → ℝ) (x : Ten) (y : List ℝ)
    (hdec : s.decode (s.encode s.getParams u x.data) s.getParams none = some y)
    (child : String → TenEncoder) (sc : String → PTree Unit)
    (hc : Spec.Through Ten.shape (child "quantized_values") (sc "quantized_values")
      ⟨x.dtype, x.shape, (s.encode s.getParams u x.data).1⟩ ⟨x.dtype, x.shape, (s.encode s.getParams u x.data).1⟩) :
    Spec.Through Ten.shape (.node (lift (uqStage s u)) ["quantized_values"] child)
      (.node () ["quantized_values"] sc) x ⟨x.dtype, x.shape, y⟩ := by
  obtain ⟨rest, h1, h2, h3⟩ : ∃ rest, uqTensors x (s.encode s.getParams u x.data) =
      ("quantized_values", ⟨x.dtype, x.shape, (s.encode s.getParams u x.data).1⟩) :: rest ∧
      ("quantized_values" :: rest.map (·.1)).Nodup ∧
      (rest.lookup "min_max").bind Ten.two = (s.encode s.getParams u x.data).2 := by
    unfold uqTensors
    cases h2 : (s.encode s.getParams u x.data).2 with
    | none => exact ⟨[], rfl, by simp, rfl⟩
    | some mm => exact ⟨_, rfl, by simp, rfl⟩
  refine Aux.through_chain _ _ _ _ _ _ _ _ _ _ rest h1 h2 hc ?_
  simp only [lift, BasicStage.asAdaptive, uqStage, List.lookup, beq_self_eq_true]
  have : ("min_max" == "quantized_values") = false := by decide
  simp only [this, h3]
  rw [hdec]
  rfl

/-! ## The common encoders -/

/-- A chain of stages, outermost first. -/
def Aux.chain : List (Stage Ten Prm Unit Unit (List ℕ) × String) → Stage Ten Prm Unit Unit (List ℕ) → TenEncoder
  | [], last => .node last [] fun _ => .missing
  | p :: ps, last => .node p.1 [p.2] fun k => if k ∈ [p.2] then Aux.chain ps last else .missing

theorem Aux.make_leaf (h : Heap T P S U Sh) (fuel i : ℕ) (st : Stage T P S U Sh) (hi : h[i]? = some ⟨st, []⟩) :
    h.make (fuel + 1) i = some (.node st [] fun _ => .missing) := by
  simp only [Heap.make, hi, List.map_nil]
  rfl

theorem Aux.make_one (h : Heap T P S U Sh) (fuel i j : ℕ) (st : Stage T P S U Sh) (key : String)
    (e : Encoder T P S U Sh) (hi : h[i]? = some ⟨st, [(key, j)]⟩) (hj : h.make fuel j = some e) :
    h.make (fuel + 1) i = some (.node st [key] fun k => if k ∈ [key] then e else .missing) := by
  simp only [Heap.make, hi, List.map_cons, List.map_nil]
  rw [Aux.forKeys_some (g := fun _ => e)]
  · rfl
  · intro k hk
    simp only [List.mem_singleton] at hk
    subst hk
    simp [List.lookup, hj]

theorem Aux.compose_one (a : Stage Ten Prm Unit Unit (List ℕ)) : composeChain a [] = .ok (Aux.chain [] a) := by
  have : Heap.make [(⟨a, []⟩ : CNode Ten Prm Unit Unit (List ℕ))] 1 0 = some (Aux.chain [] a) :=
    Aux.make_leaf _ 0 0 a rfl
  simp only [composeChain, composeChain.go, Heap.new, List.nil_append, List.length_nil, List.length_singleton, this]

theorem Aux.compose_two (a b c : Stage Ten Prm Unit Unit (List ℕ)) (kb kc : String) (hb : kb ∈ b.compressible)
    (hc : kc ∈ c.compressible) : composeChain a [(b, kb), (c, kc)] = .ok (Aux.chain [(c, kc), (b, kb)] a) := by
  have : Heap.make [⟨a, []⟩, ⟨b, [(kb, 0)]⟩, ⟨c, [(kc, 1)]⟩] 3 2 = some (Aux.chain [(c, kc), (b, kb)] a) :=
    Aux.make_one _ 2 2 1 c kc _ rfl (Aux.make_one _ 1 1 0 b kb _ rfl (Aux.make_leaf _ 0 0 a rfl))
  simp [composeChain, composeChain.go, Heap.new, Heap.addParent, hb, hc, this]

theorem Aux.compose_three (a b c d : Stage Ten Prm Unit Unit (List ℕ)) (kb kc kd : String)
    (hb : kb ∈ b.compressible) (hc : kc ∈ c.compressible) (hd : kd ∈ d.compressible) :
    composeChain a [(b, kb), (c, kc), (d, kd)] = .ok (Aux.chain [(d, kd), (c, kc), (b, kb)] a) := by
  have : Heap.make [⟨a, []⟩, ⟨b, [(kb, 0)]⟩, ⟨c, [(kc, 1)]⟩, ⟨d, [(kd, 2)]⟩] 4 3 =
      some (Aux.chain [(d, kd), (c, kc), (b, kb)] a) :=
    Aux.make_one _ 3 3 2 d kd _ rfl
      (Aux.make_one _ 2 2 1 c kc _ rfl (Aux.make_one _ 1 1 0 b kb _ rfl (Aux.make_leaf _ 0 0 a rfl)))
  simp [composeChain, composeChain.go, Heap.new, Heap.addParent, hb, hc, hd, this]

theorem Aux.chain_nodes (ps : List (Stage Ten Prm Unit Unit (List ℕ) × String)) (a : Stage Ten Prm Unit Unit (List ℕ)) :
    Spec.EveryNode (fun _ _ => True) (Aux.chain ps a) := by
  induction ps with
  | nil => exact .node trivial fun k hk => by simp at hk
  | cons p ps ih =>
    refine .node trivial fun k hk => ?_
    simp only [hk, if_true]
    exact ih

/-- The encoders that are accepted, and what they are. -/
theorem Aux.uniform_ok {static : Bool} {bits : ℤ} {minMax : Option (List ℝ)} {st : Bool} {u : ℕ → ℝ} {e : TenEncoder}
    (h : uniformQuantization static bits minMax st u = .ok e) :
    ∃ s, UQ.new bits minMax st = .ok s ∧ bitpackingAccepts bits = true ∧
      e = Aux.chain [(lift flattenStage, "flattened_values"), (lift (uqStage s u), "quantized_values")]
        (lift (bitpackStage static bits.toNat)) := by
  unfold uniformQuantization at h
  by_cases hb : bitpackingAccepts bits = true
  · rw [if_pos hb] at h
    cases hs : UQ.new bits minMax st with
    | error e => rw [hs] at h; cases h
    | ok s =>
      rw [hs] at h
      dsimp only at h
      rw [Aux.compose_two _ _ _ _ _ (by simp [lift, BasicStage.asAdaptive, uqStage])
        (by simp [lift, BasicStage.asAdaptive, flattenStage])] at h
      exact ⟨s, rfl, hb, (Except.ok.inj h).symm⟩
  · rw [if_neg hb] at h; cases h

theorem Aux.hadamard_ok {static : Bool} {bits : ℤ} {uniform : ℕ → ℕ → List ℝ} {seed : ℕ} {u : ℕ → ℝ}
    {e : TenEncoder} (h : hadamardQuantization static bits uniform seed u = .ok e) :
    ∃ s, UQ.new (α := ℝ) bits none true = .ok s ∧ bitpackingAccepts bits = true ∧
      e = Aux.chain [(lift flattenStage, "flattened_values"), (lift (hadamardStage uniform seed), "hadamard_values"),
        (lift (uqStage s u), "quantized_values")] (lift (bitpackStage static bits.toNat)) := by
  unfold hadamardQuantization at h
  by_cases hb : bitpackingAccepts bits = true
  · rw [if_pos hb] at h
    cases hs : UQ.new (α := ℝ) bits none true with
    | error e => rw [hs] at h; cases h
    | ok s =>
      rw [hs] at h
      dsimp only at h
      rw [Aux.compose_three _ _ _ _ _ _ _ (by simp [lift, BasicStage.asAdaptive, uqStage])
        (by simp [lift, BasicStage.asAdaptive, hadamardStage])
        (by simp [lift, BasicStage.asAdaptive, flattenStage])] at h
      exact ⟨s, rfl, hb, (Except.ok.inj h).symm⟩
  · rw [if_neg hb] at h; cases h

/-- **C88 (arguments).** `uniform_quantization` accepts exactly 1 to 16 bits with no interval or a proper one. -/
theorem C88_arguments (static : Bool) (bits : ℤ) (minMax : Option (List ℝ)) (st : Bool) (u : ℕ → ℝ) :
    (∃ e, uniformQuantization static bits minMax st u = .ok e) ↔
      (1 ≤ bits ∧ bits ≤ 16 ∧ (minMax = none ∨ ∃ a b, a < b ∧ minMax = some [a, b])) := by
  rw [← C35_constructor bits minMax st]
  constructor
  · rintro ⟨e, h⟩
    obtain ⟨s, hs, -⟩ := Aux.uniform_ok h
    exact ⟨s, hs⟩
  · rintro ⟨s, hs⟩
    have hb := Aux.new_spec hs
    have : bitpackingAccepts bits = true := (C31_accepts bits).2 ⟨hb.1, hb.2.1⟩
    refine ⟨Aux.chain [(lift flattenStage, "flattened_values"), (lift (uqStage s u), "quantized_values")]
        (lift (bitpackStage static bits.toNat)), ?_⟩
    · unfold uniformQuantization
      rw [if_pos this, hs]
      dsimp only
      rw [Aux.compose_two _ _ _ _ _ (by simp [lift, BasicStage.asAdaptive, uqStage])
        (by simp [lift, BasicStage.asAdaptive, flattenStage])]

/-- **C88 (identity).** The identity encoder returns every tensor as it is. -/
theorem C88_identity (x : Ten) : ∃ e, identityEncoder = .ok e ∧ Spec.RoundTrip e x x := by
  refine ⟨_, Aux.compose_one _, Aux.roundTrip _ (Aux.chain_nodes [] _) x x ?_⟩
  apply Aux.through_leaf
  · simp [lift, BasicStage.asAdaptive, identityStage]
  · simp [lift, BasicStage.asAdaptive, identityStage, List.lookup]

theorem Aux.uniform_through (static : Bool) (bits : ℤ) (minMax : Option (List ℝ)) (st : Bool) (u : ℕ → ℝ)
    (s : UQ ℝ) (hs : UQ.new bits minMax st = .ok s) (hb : bitpackingAccepts bits = true) (x : Ten)
    (hf : Spec.Floating x.dtype) (hw : Spec.WellShaped x)
    (hlen : (s.encode s.getParams u x.data).1.length = x.data.length)
    (hq : ∀ q ∈ (s.encode s.getParams u x.data).1, ∃ k : ℕ, q = k ∧ k ≤ 2 ^ bits.toNat - 1) (y : List ℝ)
    (hdec : s.decode (s.encode s.getParams u x.data) s.getParams none = some y)
    (sc : String → PTree Unit) (hsc : sc "quantized_values" = .node () [] fun _ => .missing) :
    Spec.Through Ten.shape
      (Aux.chain [(lift (uqStage s u), "quantized_values")] (lift (bitpackStage static bits.toNat)))
      (.node () ["quantized_values"] sc) x ⟨x.dtype, x.shape, y⟩ := by
  have hb' : bitpackingAccepts (bits.toNat : ℤ) = true := by
    rw [C31_accepts] at hb ⊢
    omega
  apply Aux.uq_through bits minMax st s hs u x y hdec
  simp only [List.mem_singleton, if_true]
  rw [hsc]
  exact Aux.bitpack_through static bits.toNat hb' ⟨x.dtype, x.shape, (s.encode s.getParams u x.data).1⟩ hf
    (hlen.trans hw) hq _ _

theorem Aux.uniform_goes_through (static : Bool) (bits : ℤ) (minMax : Option (List ℝ)) (st : Bool) (u : ℕ → ℝ)
    (hu : ∀ i, 0 ≤ u i) (e : TenEncoder) (he : uniformQuantization static bits minMax st u = .ok e) (x : Ten)
    (hf : Spec.Floating x.dtype) (hw : Spec.WellShaped x) (hne : x.data ≠ []) (lo hi : ℝ)
    (hr : Spec.IsRange minMax x.data lo hi) :
    ∃ y, Spec.Through Ten.shape e e.initialState x y ∧ y.dtype = x.dtype ∧ y.shape = x.shape ∧ Spec.WellShaped y ∧
      ∀ i (h₁ : i < x.data.length) (h₂ : i < y.data.length),
        |y.data[i] - Spec.clip lo hi x.data[i]| ≤ Spec.uqStep bits lo hi ∧
        (st = false → |y.data[i] - Spec.clip lo hi x.data[i]| ≤ Spec.uqStep bits lo hi / 2) := by
  obtain ⟨s, hs, hb, rfl⟩ := Aux.uniform_ok he
  obtain ⟨hlen, hq⟩ := C35_levels bits minMax st s hs u hu x.data hne
  obtain ⟨y, hdec, hyl, herr⟩ := C35_error bits minMax st s hs u hu x.data hne lo hi hr
  refine ⟨⟨x.dtype, x.shape, y⟩, ?_, rfl, rfl, hyl.trans hw, ?_⟩
  · apply Aux.flatten_through _ _ x ⟨x.dtype, [x.data.length], y⟩ hw rfl hyl
    simp only [List.mem_singleton, if_true]
    exact Aux.uniform_through static bits minMax st u s hs hb ⟨x.dtype, [x.data.length], x.data⟩ hf
      (by simp [Spec.WellShaped]) hlen hq y hdec _ (by simp [Encoder.initialState, Aux.chain])
  · intro i h₁ h₂
    obtain ⟨g1, -, g3⟩ := herr i h₁ h₂
    exact ⟨g1, g3⟩

/-- **C88 (uniform quantization).** Encoding and decoding a tensor of a floating point type with `uniform_quantization`
keeps element type and shape, and moves every entry by at most one quantization step (half a step with deterministic
rounding) from its value clipped to the range: the configured one, or the minimum and maximum of the tensor. -/
theorem C88_uniform_quantization (static : Bool) (bits : ℤ) (minMax : Option (List ℝ)) (st : Bool) (u : ℕ → ℝ)
    (hu : ∀ i, 0 ≤ u i) (e : TenEncoder) (he : uniformQuantization static bits minMax st u = .ok e) (x : Ten)
    (hf : Spec.Floating x.dtype) (hw : Spec.WellShaped x) (hne : x.data ≠ []) (lo hi : ℝ)
    (hr : Spec.IsRange minMax x.data lo hi) :
    ∃ y, Spec.RoundTrip e x y ∧ y.dtype = x.dtype ∧ y.shape = x.shape ∧ Spec.WellShaped y ∧
      ∀ i (h₁ : i < x.data.length) (h₂ : i < y.data.length),
        |y.data[i] - Spec.clip lo hi x.data[i]| ≤ Spec.uqStep bits lo hi ∧
        (st = false → |y.data[i] - Spec.clip lo hi x.data[i]| ≤ Spec.uqStep bits lo hi / 2) := by
  obtain ⟨y, h1, h2⟩ := Aux.uniform_goes_through static bits minMax st u hu e he x hf hw hne lo hi hr
  obtain ⟨s, -, -, rfl⟩ := Aux.uniform_ok he
  exact ⟨y, Aux.roundTrip _ (Aux.chain_nodes _ _) _ _ h1, h2⟩

/-! ### Hadamard quantization -/

theorem Aux.onRows_one (f : List ℝ → Option (List ℝ)) (r y : List ℝ) (h : f r = some y) : onRows f [r] = some [y] := by
  simp [onRows, h]

theorem Aux.matrixRows_one (v : List ℝ) : matrixRows 1 v.length v = [v] := by
  simp [matrixRows]

theorem Aux.hadamard_through (uniform : ℕ → ℕ → List ℝ) (seed : ℕ) (x : Ten) (n : ℕ) (hsh : x.shape = [n])
    (hn : n ≠ 0) (hl : x.data.length = n) (z z' w : List ℝ)
    (henc : hadamardEncode (randomSigns (uniform seed n)) x.data = some z) (hz : z'.length = 2 ^ Nat.clog 2 n)
    (hdec : hadamardDecode (randomSigns (uniform seed n)) n z' = some w)
    (child : String → TenEncoder) (sc : String → PTree Unit)
    (hc : Spec.Through Ten.shape (child "hadamard_values") (sc "hadamard_values")
      ⟨x.dtype, [1, 2 ^ Nat.clog 2 n], z⟩ ⟨x.dtype, [1, 2 ^ Nat.clog 2 n], z'⟩) :
    Spec.Through Ten.shape (.node (lift (hadamardStage uniform seed)) ["hadamard_values"] child)
      (.node () ["hadamard_values"] sc) x ⟨x.dtype, [n], w⟩ := by
  refine Aux.through_chain _ _ _ _ _ _ _ _ _ _ [] ?_ (by simp) hc ?_
  · simp only [lift, BasicStage.asAdaptive, hadamardStage, hadamardEncodeTen, hsh, matrixDims, Option.bind_some,
      hn, if_false]
    rw [← hl, Aux.matrixRows_one, Aux.onRows_one _ _ z (by rw [hl]; exact henc)]
    simp
  · simp only [lift, BasicStage.asAdaptive, hadamardStage, Spec.shapeFor, if_true, List.lookup, beq_self_eq_true,
      hadamardDecodeTen, hsh, List.getLast?_singleton, List.length_singleton]
    rw [if_neg (by have := Aux.clog_le n; omega), if_neg (by simp)]
    rw [← hz, Aux.matrixRows_one, Aux.onRows_one _ _ w hdec]
    simp

/-- Entry-wise difference. -/
def Spec.difference (y x : List ℝ) : List ℝ := List.zipWith (fun a b => a - b) y x

theorem Aux.normSq_take_le (x : List ℝ) (n : ℕ) : Spec.normSq (x.take n) ≤ Spec.normSq x := by
  unfold Spec.normSq
  induction x generalizing n with
  | nil => simp
  | cons a x ih =>
    cases n with
    | zero =>
      simp only [List.take_zero, List.map_nil, List.sum_nil]
      exact List.sum_nonneg fun v hv => by
        obtain ⟨w, _, rfl⟩ := List.mem_map.1 hv
        exact mul_self_nonneg w
    | succ n =>
      simp only [List.take_succ_cons, List.map_cons, List.sum_cons]
      have := ih n
      linarith

theorem Aux.normSq_signs (s x : List ℝ) (hs : Spec.IsSigns s) (hl : s.length = x.length) :
    Spec.normSq (applySigns x s) = Spec.normSq x := by
  unfold applySigns Spec.normSq
  induction x generalizing s with
  | nil => simp
  | cons a x ih =>
    cases s with
    | nil => simp at hl
    | cons b s =>
      simp only [List.zipWith_cons_cons, List.map_cons, List.sum_cons]
      rw [ih s (fun v hv => hs v (List.mem_cons_of_mem _ hv)) (by simpa using hl)]
      rcases hs b (by simp) with h | h <;> rw [h] <;> ring

/-- Decoding the Hadamard stage does not increase errors. -/
theorem Aux.hadamard_contracts (signs : List ℝ) (n k : ℕ) (hn : n ≤ 2 ^ k) (hsl : signs.length = n)
    (hs : Spec.IsSigns signs) (z z' w w' : List ℝ) (hz : z.length = 2 ^ k) (hz' : z'.length = 2 ^ k)
    (hd : hadamardDecode signs n z = some w) (hd' : hadamardDecode signs n z' = some w') :
    Spec.normSq (Spec.difference w' w) ≤ Spec.normSq (Spec.difference z' z) ∧ w.length = n ∧ w'.length = n := by
  unfold hadamardDecode at hd hd'
  obtain ⟨v, hv, rfl⟩ := Option.map_eq_some_iff.1 hd
  obtain ⟨v', hv', rfl⟩ := Option.map_eq_some_iff.1 hd'
  have hvl : v.length = 2 ^ k := by rw [Aux.fwht_length hv, hz]
  have hvl' : v'.length = 2 ^ k := by rw [Aux.fwht_length hv', hz']
  have hlin := C33_linear 1 (-1) z' z v' v (by rw [hz, hz']) hv' hv
  have e1 : List.zipWith (fun u v => 1 * u + -1 * v) z' z = Spec.difference z' z := by
    unfold Spec.difference; congr 1; funext a b; ring
  have e2 : List.zipWith (fun u v => 1 * u + -1 * v) v' v = Spec.difference v' v := by
    unfold Spec.difference; congr 1; funext a b; ring
  rw [e1, e2] at hlin
  have e3 : Spec.difference (applySigns (v'.take n) signs) (applySigns (v.take n) signs) =
      applySigns ((Spec.difference v' v).take n) signs := by
    unfold Spec.difference applySigns
    apply List.ext_getElem
    · simp only [List.length_zipWith, List.length_take]
      omega
    · intro i h1 h2
      simp only [List.getElem_zipWith, List.getElem_take]
      ring
  refine ⟨?_, by simp [applySigns, hvl, hsl, hn], by simp [applySigns, hvl', hsl, hn]⟩
  rw [e3, Aux.normSq_signs _ _ hs (by simp [Spec.difference, hvl, hvl', hsl, hn]), ← C33_isometry _ _ hlin]
  exact Aux.normSq_take_le _ _

theorem Aux.normSq_bound (x : List ℝ) (c : ℝ) (h : ∀ v ∈ x, |v| ≤ c) : Spec.normSq x ≤ x.length * c ^ 2 := by
  unfold Spec.normSq
  induction x with
  | nil => simp
  | cons a x ih =>
    simp only [List.map_cons, List.sum_cons, List.length_cons]
    have h1 := ih fun v hv => h v (List.mem_cons_of_mem _ hv)
    have h2 : a * a ≤ c ^ 2 := by
      have := h a (by simp)
      nlinarith [abs_nonneg a, abs_mul_abs_self a]
    push_cast
    linarith

/-- The spread of a vector is at most `√2` times its norm. -/
theorem Aux.spread_sq (x : List ℝ) (lo hi : ℝ) (hlo : lo ∈ x) (hhi : hi ∈ x) :
    (hi - lo) ^ 2 ≤ 2 * Spec.normSq x := by
  have hnn : ∀ l : List ℝ, 0 ≤ Spec.normSq l := fun l => List.sum_nonneg fun v hv => by
    obtain ⟨w, _, rfl⟩ := List.mem_map.1 hv
    exact mul_self_nonneg w
  have hone : ∀ (l : List ℝ) (v : ℝ), v ∈ l → v * v ≤ Spec.normSq l := by
    intro l v hv
    exact List.single_le_sum (fun w hw => by
      obtain ⟨w, _, rfl⟩ := List.mem_map.1 hw
      exact mul_self_nonneg w) _ (List.mem_map_of_mem hv)
  by_cases h : lo = hi
  · subst h
    simp [hnn x]
  · have key : lo * lo + hi * hi ≤ Spec.normSq x := by
      induction x with
      | nil => simp at hlo
      | cons a x ih =>
        have e : Spec.normSq (a :: x) = a * a + Spec.normSq x := by simp [Spec.normSq]
        rw [e]
        rcases List.mem_cons.1 hlo with h1 | h1 <;> rcases List.mem_cons.1 hhi with h2 | h2
        · exact absurd (h1.trans h2.symm) h
        · rw [h1]; have := hone x hi h2; linarith
        · rw [h2]; have := hone x lo h1; linarith
        · have := ih h1 h2; nlinarith [mul_self_nonneg a]
    nlinarith [sq_nonneg (hi + lo)]

theorem Aux.hadamard_goes_through (static : Bool) (bits : ℤ) (uniform : ℕ → ℕ → List ℝ) (seed : ℕ) (u : ℕ → ℝ)
    (hu : ∀ i, 0 ≤ u i) (e : TenEncoder) (he : hadamardQuantization static bits uniform seed u = .ok e) (x : Ten)
    (hf : Spec.Floating x.dtype) (hw : Spec.WellShaped x) (hne : x.data ≠ [])
    (hlen : (uniform seed x.data.length).length = x.data.length)
    (hhalf : ∀ v ∈ uniform seed x.data.length, v ≠ 1 / 2) :
    ∃ y, Spec.Through Ten.shape e e.initialState x y ∧ y.dtype = x.dtype ∧ y.shape = x.shape ∧ Spec.WellShaped y ∧
      Spec.normSq (Spec.difference y.data x.data) ≤
        2 ^ Nat.clog 2 x.data.length * (2 * Spec.normSq x.data / (2 ^ bits.toNat - 1) ^ 2) := by
  obtain ⟨s, hs, hb, rfl⟩ := Aux.hadamard_ok he
  set n := x.data.length with hn
  have hn0 : n ≠ 0 := fun h => hne (List.length_eq_zero_iff.1 h)
  have hsl : (randomSigns (uniform seed n)).length = n := by simp [randomSigns, hlen]
  have hsg := C34_random_signs _ hhalf
  obtain ⟨z, henc, hzl, hznorm, hzdec⟩ := C34_lossless _ x.data hne (hsl.trans hn) hsg
  rw [← hn] at hzl hzdec
  have hzne : z ≠ [] := by
    intro h
    rw [h] at hzl
    have : 0 < 2 ^ Nat.clog 2 n := by positivity
    simp at hzl
    omega
  obtain ⟨hqlen, hq⟩ := C35_levels bits none true s hs u hu z hzne
  have hr : Spec.IsRange none z (Clustering.reduceMin z) (Clustering.reduceMax z) :=
    ⟨Aux.reduceMin_isMin hzne, Aux.reduceMax_isMax hzne⟩
  obtain ⟨z', hdec, hzl', herr⟩ := C35_error bits none true s hs u hu z hzne _ _ hr
  have hz2 : z'.length = 2 ^ Nat.clog 2 n := hzl'.trans hzl
  obtain ⟨v, hv⟩ := (C33_defined_iff z').2 ⟨_, hz2⟩
  have hwdec : hadamardDecode (randomSigns (uniform seed n)) n z' =
      some (applySigns (v.take n) (randomSigns (uniform seed n))) := by simp [hadamardDecode, hv]
  obtain ⟨hcon, -, hwl⟩ := Aux.hadamard_contracts _ n _ (Aux.clog_le n) hsl hsg z z' _ _ hzl hz2 hzdec hwdec
  refine ⟨⟨x.dtype, x.shape, applySigns (v.take n) (randomSigns (uniform seed n))⟩,
    ?_, rfl, rfl, hwl.trans hw, hcon.trans ?_⟩
  · apply Aux.flatten_through _ _ x ⟨x.dtype, [n], applySigns (v.take n) (randomSigns (uniform seed n))⟩ hw rfl hwl
    simp only [List.mem_singleton, if_true]
    apply Aux.hadamard_through uniform seed ⟨x.dtype, [n], x.data⟩ n rfl hn0 rfl z z' _ henc hz2 hwdec
    simp only [List.mem_singleton, if_true]
    exact Aux.uniform_through static bits none true u s hs hb ⟨x.dtype, [1, 2 ^ Nat.clog 2 n], z⟩ hf
      (by simp [Spec.WellShaped, hzl]) hqlen hq z' hdec _ (by simp [Encoder.initialState, Aux.chain])
  · have hbits := Aux.new_spec hs
    have hM : (0 : ℝ) < 2 ^ bits.toNat - 1 := by
      have : (1 : ℝ) < 2 ^ bits.toNat := one_lt_pow₀ (by norm_num) (by omega)
      linarith
    have hstep : Spec.uqStep bits (Clustering.reduceMin z) (Clustering.reduceMax z) ^ 2 ≤
        2 * Spec.normSq x.data / (2 ^ bits.toNat - 1) ^ 2 := by
      unfold Spec.uqStep
      rw [div_pow, ← hznorm]
      gcongr
      exact Aux.spread_sq z _ _ hr.1.1 hr.2.1
    have hb1 : ∀ d ∈ Spec.difference z' z,
        |d| ≤ Spec.uqStep bits (Clustering.reduceMin z) (Clustering.reduceMax z) := by
      intro d hd
      obtain ⟨i, hi, rfl⟩ := List.getElem_of_mem hd
      simp only [Spec.difference, List.length_zipWith] at hi
      have h1 : i < z.length := by omega
      have h2 : i < z'.length := by omega
      have h3 := (herr i h1 h2).1
      rw [C35_adaptive_no_clip z _ _ hr _ (List.getElem_mem h1)] at h3
      simpa [Spec.difference] using h3
    have hlast := Aux.normSq_bound _ _ hb1
    have hdl : (Spec.difference z' z).length = 2 ^ Nat.clog 2 n := by simp [Spec.difference, hz2, hzl]
    rw [hdl] at hlast
    push_cast at hlast
    refine hlast.trans ?_
    gcongr

/-- **C88 (Hadamard quantization).** Encoding and decoding a tensor of a floating point type with
`hadamard_quantization` keeps element type and shape, and the squared Euclidean distance to the input is at most
`2^k · 2‖x‖² / (2^bits - 1)²`, where `2^k` is the number of entries rounded up to a power of two — whatever the draws of
the rounding and for every seed whose draws give proper signs. -/
theorem C88_hadamard_quantization (static : Bool) (bits : ℤ) (uniform : ℕ → ℕ → List ℝ) (seed : ℕ) (u : ℕ → ℝ)
    (hu : ∀ i, 0 ≤ u i) (e : TenEncoder) (he : hadamardQuantization static bits uniform seed u = .ok e) (x : Ten)
    (hf : Spec.Floating x.dtype) (hw : Spec.WellShaped x) (hne : x.data ≠ [])
    (hlen : (uniform seed x.data.length).length = x.data.length)
    (hhalf : ∀ v ∈ uniform seed x.data.length, v ≠ 1 / 2) :
    ∃ y, Spec.RoundTrip e x y ∧ y.dtype = x.dtype ∧ y.shape = x.shape ∧ Spec.WellShaped y ∧
      Spec.normSq (Spec.difference y.data x.data) ≤
        2 ^ Nat.clog 2 x.data.length * (2 * Spec.normSq x.data / (2 ^ bits.toNat - 1) ^ 2) := by
  obtain ⟨y, h1, h2⟩ := Aux.hadamard_goes_through static bits uniform seed u hu e he x hf hw hne hlen hhalf
  obtain ⟨s, -, -, rfl⟩ := Aux.hadamard_ok he
  exact ⟨y, Aux.roundTrip _ (Aux.chain_nodes _ _) _ _ h1, h2⟩

/-- **C88 (arguments of Hadamard quantization).** `hadamard_quantization` accepts exactly 1 to 16 bits. -/
theorem C88_hadamard_arguments (static : Bool) (bits : ℤ) (uniform : ℕ → ℕ → List ℝ) (seed : ℕ) (u : ℕ → ℝ) :
    (∃ e, hadamardQuantization static bits uniform seed u = .ok e) ↔ (1 ≤ bits ∧ bits ≤ 16) := by
  have hc := C35_constructor (α := ℝ) bits none true
  simp only [true_or, and_true] at hc
  rw [← hc]
  constructor
  · rintro ⟨e, h⟩
    obtain ⟨s, hs, -⟩ := Aux.hadamard_ok h
    exact ⟨s, hs⟩
  · rintro ⟨s, hs⟩
    have hb := Aux.new_spec hs
    have : bitpackingAccepts bits = true := (C31_accepts bits).2 ⟨hb.1, hb.2.1⟩
    refine ⟨Aux.chain [(lift flattenStage, "flattened_values"), (lift (hadamardStage uniform seed), "hadamard_values"),
      (lift (uqStage s u), "quantized_values")] (lift (bitpackStage static bits.toNat)), ?_⟩
    unfold hadamardQuantization
    rw [if_pos this, hs]
    dsimp only
    rw [Aux.compose_three _ _ _ _ _ _ _ (by simp [lift, BasicStage.asAdaptive, uqStage])
        (by simp [lift, BasicStage.asAdaptive, hadamardStage])
        (by simp [lift, BasicStage.asAdaptive, flattenStage])]

/-! ### Instances -/

/-- A two by two matrix. -/
def Example.matrix : Ten := ⟨.float32, [2, 2], [1, -2, 3, 0]⟩

/-- The hypotheses of the two quantization theorems are met: 8 bits, no interval, the matrix `[[1, -2], [3, 0]]`. -/
example : ∃ e y, uniformQuantization true 8 none true (fun _ => 0) = .ok e ∧ Spec.RoundTrip e Example.matrix y ∧
    y.shape = [2, 2] ∧ ∀ i (h₁ : i < Example.matrix.data.length) (h₂ : i < y.data.length),
      |y.data[i] - Example.matrix.data[i]| ≤ 5 / 255 := by
  obtain ⟨e, he⟩ := (C88_arguments true 8 none true (fun _ => 0)).2 ⟨by norm_num, by norm_num, .inl rfl⟩
  have hr : Spec.IsRange none Example.matrix.data (-2) 3 := by
    refine ⟨⟨by simp [Example.matrix], ?_⟩, by simp [Example.matrix], ?_⟩ <;>
      · intro v hv
        simp only [Example.matrix, List.mem_cons, List.not_mem_nil, or_false] at hv
        rcases hv with rfl | rfl | rfl | rfl <;> norm_num
  obtain ⟨y, h1, -, h3, -, h5⟩ := C88_uniform_quantization true 8 none true (fun _ => 0) (fun _ => le_refl _) e he
    Example.matrix (.inr (.inr (.inl rfl))) rfl (by simp [Example.matrix]) _ _ hr
  refine ⟨e, y, he, h1, h3, fun i h₁ h₂ => ?_⟩
  have := (h5 i h₁ h₂).1
  rw [C35_adaptive_no_clip _ _ _ hr _ (List.getElem_mem h₁)] at this
  refine this.trans_eq ?_
  simp [Spec.uqStep]
  norm_num

example : ∃ e y, hadamardQuantization true 8 (fun _ n => List.replicate n 0) 7 (fun _ => 0) = .ok e ∧
    Spec.RoundTrip e Example.matrix y ∧
    Spec.normSq (Spec.difference y.data Example.matrix.data) ≤ 112 / 255 ^ 2 := by
  obtain ⟨e, he⟩ := (C88_hadamard_arguments true 8 (fun _ n => List.replicate n 0) 7 (fun _ => 0)).2
    ⟨by norm_num, by norm_num⟩
  obtain ⟨y, h1, -, -, -, h5⟩ := C88_hadamard_quantization true 8 _ 7 (fun _ => 0) (fun _ => le_refl _) e he
    Example.matrix (.inr (.inr (.inl rfl))) rfl (by simp [Example.matrix]) (by simp [Example.matrix])
    (by intro v hv; rw [List.eq_of_mem_replicate hv]; norm_num)
  refine ⟨e, y, he, h1, h5.trans_eq ?_⟩
  have : Nat.clog 2 Example.matrix.data.length = 2 := by
    have : Example.matrix.data.length = 2 ^ 2 := rfl
    rw [this, Nat.clog_pow _ _ (by norm_num)]
  rw [this]
  simp [Spec.normSq, Example.matrix]
  norm_num

end Verif.Props
