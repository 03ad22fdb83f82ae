import Verif.Props.GatherStages
import Verif.Props.Paths

/-!
# C93: encoders reject what does not fit, and sum in compressed form
-/

set_option linter.unusedSectionVars false

namespace Verif.Props

open Verif.Encoding

variable {T P S U Sh Γ Ω : Type} [DecidableEq Γ]

/-! ## Specification -/

/-- The same nested dictionaries with, at every place, tensors that agree in `sigOf`. -/
inductive Spec.SameForm {Δ : Type} (sigOf : T → Δ) : Enc T → Enc T → Prop where
  | tensor (a b : T) (h : sigOf a = sigOf b) : Spec.SameForm sigOf (.tensor a) (.tensor b)
  | dict (keys : List String) (v w : String → Enc T) (h : ∀ k ∈ keys, Spec.SameForm sigOf (v k) (w k)) :
      Spec.SameForm sigOf (.dict keys v) (.dict keys w)

/-- The number of stages of an encoder, which is the number of entries of its flat state. -/
inductive Spec.Stages : Encoder T P S U Sh → ℕ → Prop where
  | node (stage : Stage T P S U Sh) (keys : List String) (child : String → Encoder T P S U Sh)
      (count : String → ℕ) (h : ∀ k ∈ keys, Spec.Stages (child k) (count k)) :
      Spec.Stages (.node stage keys child) (1 + (keys.map count).sum)

/-- The stages that commute with sum: identity, flattening, the Hadamard transform, and quantization to a
given interval. -/
inductive Spec.SummableStage : (Ω → Stage Ten Prm Unit Unit (List ℕ)) → Prop where
  | identity : Spec.SummableStage fun _ => lift identityStage
  | flatten : Spec.SummableStage fun _ => lift flattenStage
  | hadamard (uniform : ℕ → ℕ → List ℝ) (seed : Ω → ℕ) (h : ∀ s n, (uniform s n).length = n) :
      Spec.SummableStage fun ω => lift (hadamardStage uniform (seed ω))
  | quantization (bits : ℤ) (interval : List ℝ) (stochastic : Bool) (s : UQ ℝ)
      (h : UQ.new bits (some interval) stochastic = .ok s) (u : Ω → ℕ → ℝ) :
      Spec.SummableStage fun ω => lift (uqStage s (u ω))

/-! ## Auxiliary facts -/

theorem Aux.compatible_iff (sigOf : T → Γ) (a b : Enc T) :
    a.compatible sigOf b = true ↔ Spec.SameForm sigOf a b := by
  constructor
  · induction a generalizing b with
    | missing => intro h; simp [Enc.compatible] at h
    | tensor a =>
      intro h
      cases b with
      | tensor b => exact .tensor _ _ (by simpa [Enc.compatible] using h)
      | _ => simp [Enc.compatible] at h
    | dict ks v ih =>
      intro h
      cases b with
      | dict ks' w =>
        simp only [Enc.compatible, Bool.and_eq_true, decide_eq_true_eq, List.all_eq_true] at h
        obtain ⟨rfl, h⟩ := h
        exact .dict _ _ _ fun k hk => ih k (w k) (h k hk)
      | _ => simp [Enc.compatible] at h
  · intro h
    induction h with
    | tensor a b h => simpa [Enc.compatible] using h
    | dict keys v w h ih =>
      simp only [Enc.compatible, decide_true, Bool.true_and, List.all_eq_true]
      exact ih

theorem Aux.packAux_length {A B : Type} (s : PTree B) : ∀ (l r : List A) (t : PTree A),
    s.packAux l = some (t, r) → l.length = s.flatten.length + r.length := by
  induction s with
  | missing =>
    intro l r t h
    simp only [PTree.packAux, Option.some.injEq, Prod.mk.injEq] at h
    simp [PTree.flatten, h.2]
  | node b keys child ih =>
    intro l r t h
    cases l with
    | nil => simp [PTree.packAux] at h
    | cons a l =>
      have hk : ∀ (ks : List String) (l r : List A) (d : String → PTree A),
          PTree.packAux.packKeys ks (fun k => (child k).packAux) l = some (d, r) →
          l.length = (ks.flatMap fun k => (child k).flatten).length + r.length := by
        intro ks
        induction ks with
        | nil =>
          intro l r d h
          simp only [PTree.packAux.packKeys, Option.some.injEq, Prod.mk.injEq] at h
          simp [h.2]
        | cons k ks ihk =>
          intro l r d h
          rw [PTree.packAux.packKeys] at h
          cases hc : (child k).packAux l with
          | none => rw [hc] at h; simp at h
          | some p =>
            obtain ⟨t, l'⟩ := p
            rw [hc] at h
            dsimp only at h
            obtain ⟨q, hq, he⟩ := Option.map_eq_some_iff.1 h
            simp only [Prod.mk.injEq] at he
            have h1 := ih k l l' t hc
            have h2 := ihk l' q.2 q.1 hq
            rw [List.flatMap_cons, List.length_append, h1, h2, ← he.2]
            omega
      rw [PTree.packAux] at h
      obtain ⟨q, hq, he⟩ := Option.map_eq_some_iff.1 h
      simp only [Prod.mk.injEq] at he
      have := hk keys l q.2 q.1 hq
      rw [PTree.flatten, List.length_cons, List.length_cons, this, ← he.2]
      omega

theorem Aux.pack_some {A B : Type} {s : PTree B} {l : List A} {t : PTree A} (h : s.pack l = some t) :
    l.length = s.flatten.length := by
  rw [PTree.pack] at h
  cases hp : s.packAux l with
  | none => rw [hp] at h; simp at h
  | some p =>
    obtain ⟨t', r⟩ := p
    rw [hp] at h
    cases r with
    | nil => simpa using Aux.packAux_length s l [] t' hp
    | cons a r => simp at h

theorem Aux.stages_flatten (e : Encoder T P S U Sh) (n : ℕ) (h : Spec.Stages e n) :
    e.initialState.flatten.length = n := by
  induction h with
  | node stage keys child count h ih =>
    rw [Encoder.initialState, PTree.flatten, List.length_cons, Nat.add_comm, List.length_flatMap]
    congr 2
    apply List.map_congr_left
    intro k hk
    rw [if_pos hk, ih k hk]

theorem Aux.stages_nodes (e : Encoder T P S U Sh) (n : ℕ) (h : Spec.Stages e n) :
    Spec.EveryNode (fun _ _ => True) e := by
  induction h with
  | node stage keys child count h ih => exact .node trivial ih

theorem Aux.sameForm_self {Δ : Type} {sigOf : T → Δ} {a b : Enc T} (h : Spec.SameForm sigOf a b) :
    Spec.SameForm id a a := by
  induction h with
  | tensor a b h => exact .tensor _ _ rfl
  | dict keys v w h ih => exact .dict _ _ _ ih

/-- If every stage commutes, nothing is decoded before the sum. -/
theorem Aux.before_same (e : Encoder T P S U Sh) (he : Spec.EveryNode (fun st _ => st.commutes = true) e) :
    ∀ (x y : Enc T) p sh, Spec.SameForm id x x → e.decodeBeforeSum false x p sh = some y →
      Spec.SameForm id x y := by
  induction he with
  | @node stage keys child h hc ih =>
    intro x y p sh hx hy
    cases x with
    | missing => simp [Encoder.decodeBeforeSum] at hy
    | tensor t => simp [Encoder.decodeBeforeSum] at hy
    | dict eKeys val =>
      cases p with
      | missing => simp [Encoder.decodeBeforeSum] at hy
      | node p pk pc =>
        cases sh with
        | missing => simp [Encoder.decodeBeforeSum] at hy
        | node s sk sc =>
          rw [Encoder.decodeBeforeSum] at hy
          simp only [h, Bool.not_true, Bool.or_false, Bool.false_eq_true, if_false] at hy
          split at hy
          · simp at hy
          rename_i temp ht
          simp only [Option.some.injEq] at hy
          subst hy
          refine .dict _ _ _ fun k hk => ?_
          have hk' := (Aux.forKeys_eq_some ht).1 k hk
          cases hx with
          | dict _ v _ hx =>
          split_ifs at hk' with h1 h2
          · exact ih k h1 _ _ _ _ (hx k hk) hk'
          · simp only [Option.some.injEq] at hk'
            rw [← hk']
            exact hx k hk

theorem Aux.packFrom_length {V : Type} (d : PyVal V) : ∀ (xs rest : List (PyVal V)) (r : PyVal V),
    d.packFrom xs = some (r, rest) → xs.length = d.leaves.length + rest.length := by
  have leaf : ∀ (d : PyVal V), (∀ xs, d.packFrom xs = match xs with | [] => none | x :: xs => some (x, xs)) →
      d.leaves.length = 1 → ∀ (xs rest : List (PyVal V)) (r : PyVal V),
      d.packFrom xs = some (r, rest) → xs.length = d.leaves.length + rest.length := by
    intro d h h1 xs rest r hp
    rw [h] at hp
    cases xs with
    | nil => simp at hp
    | cons x xs =>
      simp only [Option.some.injEq, Prod.mk.injEq] at hp
      rw [h1, List.length_cons, hp.2]; omega
  induction d with
  | missing => exact leaf _ (fun xs => by cases xs <;> rfl) rfl
  | py v => exact leaf _ (fun xs => by cases xs <;> rfl) rfl
  | tf v => exact leaf _ (fun xs => by cases xs <;> rfl) rfl
  | dict keys val ih =>
    intro xs rest r h
    have hl : (PyVal.dict keys val).leaves = (PyVal.sortKeys keys).flatMap fun k => (val k).leaves := by
      unfold PyVal.leaves
      rw [PyVal.flattenWithPath, List.map_flatMap]
      congr 1
      funext k
      rw [List.map_map]
      rfl
    have hk : ∀ (ks : List String) (xs rest : List (PyVal V)) (r : List (String × PyVal V)),
        PyVal.packKeys ks (fun k => (val k).packFrom) xs = some (r, rest) →
        xs.length = (ks.flatMap fun k => (val k).leaves).length + rest.length := by
      intro ks
      induction ks with
      | nil =>
        intro xs rest r h
        simp only [PyVal.packKeys, Option.some.injEq, Prod.mk.injEq] at h
        simp [h.2]
      | cons k ks ihk =>
        intro xs rest r h
        rw [PyVal.packKeys] at h
        cases hc : (val k).packFrom xs with
        | none => rw [hc] at h; simp at h
        | some p =>
          obtain ⟨t, l'⟩ := p
          rw [hc] at h
          dsimp only at h
          obtain ⟨q, hq, he⟩ := Option.map_eq_some_iff.1 h
          simp only [Prod.mk.injEq] at he
          have h1 := ih k xs l' t hc
          have h2 := ihk l' q.2 q.1 hq
          rw [List.flatMap_cons, List.length_append, h1, h2, ← he.2]
          omega
    rw [PyVal.packFrom] at h
    obtain ⟨q, hq, he⟩ := Option.map_eq_some_iff.1 h
    simp only [Prod.mk.injEq] at he
    rw [hl, hk _ xs q.2 q.1 hq, he.2]

theorem Aux.packSequence_length {V : Type} {d r : PyVal V} {xs : List (PyVal V)}
    (h : d.packSequenceAs xs = some r) : xs.length = d.leaves.length := by
  unfold PyVal.packSequenceAs at h
  cases hp : d.packFrom xs with
  | none => rw [hp] at h; simp at h
  | some p =>
    obtain ⟨r', rest⟩ := p
    rw [hp] at h
    cases rest with
    | nil => simpa using Aux.packFrom_length d xs [] r' hp
    | cons a l => simp at h

theorem Aux.summable_shipped {F : Ω → Stage Ten Prm Unit Unit (List ℕ)} (h : Spec.SummableStage F) :
    Spec.ShippedStage F ∧ ∀ ω, (F ω).commutes = true := by
  cases h with
  | identity => exact ⟨.identity, fun _ => rfl⟩
  | flatten => exact ⟨.flatten, fun _ => rfl⟩
  | hadamard uniform seed h => exact ⟨.hadamard uniform seed h, fun _ => rfl⟩
  | quantization bits interval stochastic s h u =>
    refine ⟨.quantization bits _ stochastic s h u, fun ω => ?_⟩
    unfold UQ.new at h
    split_ifs at h
    split at h
    · rename_i h0; cases h0
    · rename_i a b h0
      split_ifs at h
      simp only [Except.ok.injEq] at h
      subst h
      rfl
    · simp at h

/-! ## C93 -/

/-- **C93 (inputs).** `GatherEncoder.encode` accepts only tensors of the element type and shape given to
`from_encoder`. -/
theorem C93_input (shapeOf : T → Sh) (sigOf : T → Γ) (e : Encoder T P S U Sh) (zeros x : T) (ep : PTree P)
    (h : sigOf x ≠ sigOf zeros) : gatherEncode shapeOf sigOf e zeros x ep = none := by
  rw [gatherEncode, if_neg h]

/-- **C93 (messages).** `decode_before_sum` and `decode_after_sum` reject messages of any other structure,
element types or shapes than those of the trial run of `from_encoder`. -/
theorem C93_messages (sigOf : T → Γ) (e : Encoder T P S U Sh) (spec : Enc T) :
    (∀ (x : GatherEncoded T Sh) before, ¬ Spec.SameForm sigOf x.tensors spec →
      gatherDecodeBefore sigOf e spec x before = none) ∧
    ∀ (x : Enc T) after shapes n, ¬ Spec.SameForm sigOf x spec →
      gatherDecodeAfter sigOf e spec x after shapes n = none := by
  refine ⟨?_, ?_⟩
  · intro x before h
    rw [← Aux.compatible_iff] at h
    rw [gatherDecodeBefore, if_neg h]
  · intro x after shapes n h
    rw [← Aux.compatible_iff] at h
    rw [gatherDecodeAfter, if_neg h]

/-- **C93 (states).** A flat state with another number of entries than the encoder has stages is rejected by
`SimpleEncoder.encode`, `GatherEncoder.get_params` and `GatherEncoder.update_state`. -/
theorem C93_states (shapeOf : T → Sh) (e : Encoder T P S U Sh) (n : ℕ) (he : Spec.Stages e n) (flat : List S)
    (h : flat.length ≠ n) (x zeros : T) (updates : PTree U) (us : List U) :
    simpleEncode shapeOf e x flat = none ∧ gatherGetParams shapeOf e zeros flat = none ∧
    gatherUpdateState e updates flat us = none := by
  have hp : e.initialState.pack flat = none := by
    cases hp : e.initialState.pack flat with
    | none => rfl
    | some t => exact absurd ((Aux.pack_some hp).trans (Aux.stages_flatten e n he)) h
  refine ⟨?_, ?_, ?_⟩
  · rw [simpleEncode, hp]
  · rw [gatherGetParams, hp]
  · rw [gatherUpdateState, hp]

/-- **C93 (state updates).** Likewise for the flat list of state update tensors. -/
theorem C93_updates (e : Encoder T P S U Sh) (updates : PTree U) (flat : List S) (us : List U)
    (h : us.length ≠ updates.flatten.length) : gatherUpdateState e updates flat us = none := by
  have hp : updates.pack us = none := by
    cases hp : updates.pack us with
    | none => rfl
    | some t => exact absurd (Aux.pack_some hp) h
  rw [gatherUpdateState, hp]
  cases e.initialState.pack flat <;> rfl

/-- **C93 (flat dictionaries).** A flat dictionary with another number of tensors than were sent is rejected. -/
theorem C93_flat {V : Type} (str py sent : PyVal V) (h : sent.leaves.length ≠ str.leaves.length) :
    PyVal.gatherReceive str py sent = none ∧ PyVal.partReceive str sent = none := by
  have hp : str.packSequenceAs sent.leaves = none := by
    cases hp : str.packSequenceAs sent.leaves with
    | none => rfl
    | some r => exact absurd (Aux.packSequence_length hp) h
  exact ⟨by rw [PyVal.gatherReceive, hp]; rfl, by rw [PyVal.partReceive, hp]⟩

/-- **C93 (compressed sums).** If every stage of an encoder commutes with sum, `decode_before_sum` decodes
nothing: the sum is over the encoded tensors themselves.  This covers every combination of identity,
flattening, Hadamard transforms and quantization to given intervals. -/
theorem C93_compressed_sum (e : Ω → TenEncoder) (he : Spec.Family (fun F _ => Spec.SummableStage F) e) (ω : Ω)
    (spec : Enc Ten) (m : GatherEncoded Ten (List ℕ)) (before : PTree (Option Prm)) (b : Enc Ten)
    (h : gatherDecodeBefore Spec.typeAndShape (e ω) spec m before = some b) : Spec.SameForm id m.tensors b := by
  rw [gatherDecodeBefore] at h
  split_ifs at h with hc
  rw [Aux.compatible_iff] at hc
  refine Aux.before_same (e ω) ?_ _ _ _ _ (Aux.sameForm_self hc) h
  exact Aux.family_node ω (fun F _ hF => (Aux.summable_shipped hF).2 ω) e he

/-! ### Instances -/

/-- `flatten`, then quantization to `[-1, 1]` with 4 bits. -/
noncomputable def Example.flatQuantized (u : ℕ → ℝ) : TenEncoder :=
  .node (lift flattenStage) ["flattened_values"] fun _ =>
    .node (lift (uqStage ⟨4, some (-1, 1), false⟩ u)) [] fun _ => .missing

/-- The hypotheses of C93 are met: two stages that commute with sum, and a message of the recorded form is
passed on as it is. -/
example : Spec.Family (fun F _ => Spec.SummableStage F) Example.flatQuantized ∧
    (∀ u, Spec.Stages (Example.flatQuantized u) 2) ∧
    ∃ (m : GatherEncoded Ten (List ℕ)) (before : PTree (Option Prm)) (b : Enc Ten),
      gatherDecodeBefore Spec.typeAndShape (Example.flatQuantized fun _ => 0) m.tensors m before = some b ∧
      m.tensors = .dict ["flattened_values"] fun _ => .dict ["quantized_values"] fun _ =>
        .tensor ⟨.float32, [2], [3, 15]⟩ := by
  refine ⟨.node .flatten fun k hk => ?_, fun u => ?_, ?_⟩
  · refine .node (F := fun u => lift (uqStage ⟨4, some (-1, 1), false⟩ u)) (child := fun _ _ => .missing)
      (.quantization 4 [-1, 1] false _ ?_ id) (by simp)
    simp [UQ.new]
  · exact Spec.Stages.node _ ["flattened_values"] _ (fun _ => 1) fun k hk => Spec.Stages.node _ [] _ (fun _ => 0) (by simp)
  · have h : (gatherDecodeBefore Spec.typeAndShape (Example.flatQuantized fun _ => 0)
        (.dict ["flattened_values"] fun _ => .dict ["quantized_values"] fun _ => .tensor ⟨.float32, [2], [3, 15]⟩)
        ⟨.dict ["flattened_values"] fun _ => .dict ["quantized_values"] fun _ => .tensor ⟨.float32, [2], [3, 15]⟩,
          .node none ["flattened_values"] fun _ => .node none [] fun _ => .missing⟩
        (.node none ["flattened_values"] fun _ => .node none [] fun _ => .missing)).isSome = true := by
      rw [gatherDecodeBefore, if_pos ((Aux.compatible_iff _ _ _).2
        (.dict _ _ _ fun _ _ => .dict _ _ _ fun _ _ => .tensor _ _ rfl))]
      simp [Example.flatQuantized, Encoder.decodeBeforeSum, lift, BasicStage.asAdaptive, flattenStage, uqStage,
        UQ.commutes, forKeys]
    obtain ⟨b, hb⟩ := Option.isSome_iff_exists.1 h
    exact ⟨_, _, b, hb, rfl⟩

end Verif.Props
