import Verif.Encoding.Gather
import Verif.Props.Encoder

/-!
# C89: the gather protocol

`get_params` on the server, `encode` on every worker, `decode_before_sum` of every encoding, a sum, and
`decode_after_sum`, for an encoder that `GatherEncoder.from_encoder` has accepted.
-/

set_option linter.unusedSectionVars false

namespace Verif.Props

open Verif.Encoding

variable {T P S U Sh Γ Ω : Type} [DecidableEq Γ]

/-! ## Specification

`Ω` are the random draws of one call; an encoder is a family over `Ω`, since its `get_params` and `encode` may draw
random numbers. -/

/-- Every stage of a family of encoders of one structure satisfies `Q`. -/
inductive Spec.Family (Q : (Ω → Stage T P S U Sh) → List String → Prop) : (Ω → Encoder T P S U Sh) → Prop where
  | node {F : Ω → Stage T P S U Sh} {keys : List String} {child : Ω → String → Encoder T P S U Sh} (h : Q F keys)
      (hc : ∀ k ∈ keys, Spec.Family Q (fun ω => child ω k)) :
      Spec.Family Q (fun ω => .node (F ω) keys (child ω))

/-- The keys of a dictionary of tensors with element type and shape of each. -/
def Spec.signature (sigOf : T → Γ) (d : List (String × T)) : List (String × Γ) := d.map fun p => (p.1, sigOf p.2)

/-- The contract of a stage: random draws are made only in `get_params` and `encode`; element types and shapes of
everything it returns depend only on element types and shapes of what it is given, whatever the state, the draws, the
values and the number of summands; one summand is the default; and it commutes with sum if it says so. -/
structure Spec.Contract (sigOf : T → Γ) (Sum : (n : Nat) → (Fin (n + 1) → T) → T → Prop)
    (F : Ω → Stage T P S U Sh) : Prop where
  commutes : ∀ ω ω', (F ω).commutes = (F ω').commutes
  needsShape : ∀ ω ω', (F ω).needsShape = (F ω').needsShape
  decode : ∀ ω ω', (F ω).decode = (F ω').decode
  encode_signature : ∀ x y, sigOf x = sigOf y → ∀ ω₁ ω₂ ω₃ ω₄ s s',
    Spec.signature sigOf ((F ω₁).encode x ((F ω₂).getParams s).1).1 =
      Spec.signature sigOf ((F ω₃).encode y ((F ω₄).getParams s').1).1
  decode_signature : ∀ d d', Spec.signature sigOf d = Spec.signature sigOf d' → ∀ ω ω₁ ω₂ s s' sh,
    ((F ω).decode d ((F ω₁).getParams s).2 none sh).map sigOf = ((F ω).decode d' ((F ω₂).getParams s').2 none sh).map sigOf
  one_summand : ∀ ω, Spec.OneSummand (F ω)
  sum_law : ∀ ω ω₁ s, (F ω).commutes = true → Spec.SumLaw Sum (F ω) ((F ω₁).getParams s).2

/-- `Sum` is a sum of tensors of one element type and shape: it exists, and is again of that type and shape. -/
structure Spec.SumOfAlike (sigOf : T → Γ) (Sum : (n : Nat) → (Fin (n + 1) → T) → T → Prop) : Prop where
  exists_sum : ∀ n (t : Fin (n + 1) → T) c, (∀ i, sigOf (t i) = c) → ∃ r, Sum n t r
  same : ∀ n (t : Fin (n + 1) → T) r, Sum n t r → ∀ i, sigOf (t i) = sigOf r

/-- What the encoder makes of `x` on its own: encode with the draws of `enc` and the parameters `ep`, decode with `dp`. -/
def Spec.OwnDecoding (shapeOf : T → Sh) (enc dec : Encoder T P S U Sh) (ep dp : PTree P) (x y : T) : Prop :=
  ∃ v u sh, enc.encode shapeOf x ep = some (v, u, sh) ∧ dec.decode v dp.full sh = some (.tensor y)

/-! ## Auxiliary facts -/

/-- Encoded values that agree in structure, element types and shapes. -/
inductive Aux.Like (sigOf : T → Γ) : Enc T → Enc T → Prop where
  | tensor {a b} (h : sigOf a = sigOf b) : Aux.Like sigOf (.tensor a) (.tensor b)
  | dict {ks v w} (h : ∀ k ∈ ks, Aux.Like sigOf (v k) (w k)) : Aux.Like sigOf (.dict ks v) (.dict ks w)

theorem Aux.like_compatible {sigOf : T → Γ} {a b : Enc T} (h : Aux.Like sigOf a b) : a.compatible sigOf b = true := by
  induction h with
  | tensor h => simpa [Enc.compatible] using h
  | dict h ih =>
    simp only [Enc.compatible, decide_true, Bool.true_and, List.all_eq_true]
    exact ih

theorem Aux.like_symm {sigOf : T → Γ} {a b : Enc T} (h : Aux.Like sigOf a b) : Aux.Like sigOf b a := by
  induction h with
  | tensor h => exact .tensor h.symm
  | dict h ih => exact .dict ih

theorem Aux.like_trans {sigOf : T → Γ} {a b c : Enc T} (h : Aux.Like sigOf a b) (h' : Aux.Like sigOf b c) :
    Aux.Like sigOf a c := by
  induction h generalizing c with
  | tensor h => cases h' with | tensor h' => exact .tensor (h.trans h')
  | dict h ih => cases h' with | dict h' => exact .dict fun k hk => ih k hk (h' k hk)

/-- The parameter dictionaries `get_params` may return (`sel` picks encode or decode parameters). -/
inductive Aux.ParamsOf (sel : P × P → P) : (Ω → Encoder T P S U Sh) → PTree P → Prop where
  | node {F : Ω → Stage T P S U Sh} {keys : List String} {child : Ω → String → Encoder T P S U Sh}
      {c : String → PTree P} (ω : Ω) (s : S)
      (hc : ∀ k ∈ keys, Aux.ParamsOf sel (fun ω => child ω k) (c k)) :
      Aux.ParamsOf sel (fun ω => .node (F ω) keys (child ω)) (.node (sel ((F ω).getParams s)) keys c)

theorem Aux.paramsOf_inv {sel : P × P → P} {F : Ω → Stage T P S U Sh} {keys : List String}
    {child : Ω → String → Encoder T P S U Sh} [Nonempty Ω] {p : PTree P}
    (h : Aux.ParamsOf sel (fun ω => .node (F ω) keys (child ω)) p) :
    ∃ ω s c, p = .node (sel ((F ω).getParams s)) keys c ∧ ∀ k ∈ keys, Aux.ParamsOf sel (fun ω => child ω k) (c k) := by
  generalize he : (fun ω => Encoder.node (F ω) keys (child ω)) = e at h
  cases h with
  | @node F' keys' child' c ω s hc =>
    have h1 : F = F' := by funext ω; have := congrFun he ω; simp at this; exact this.1
    have h2 : keys = keys' := by have := congrFun he (Classical.arbitrary Ω); simp at this; exact this.2.1
    have h3 : child = child' := by funext ω; have := congrFun he ω; simp at this; exact this.2.2
    subst h1 h2 h3
    exact ⟨ω, s, c, rfl, hc⟩

theorem Aux.getParams_of {Q : (Ω → Stage T P S U Sh) → List String → Prop} (e : Ω → Encoder T P S U Sh)
    (he : Spec.Family Q e) (ω : Ω) (st : PTree S) (h : Spec.Fits (e ω) st) :
    ∃ ep dp, (e ω).getParams st = some (ep, dp) ∧ Aux.ParamsOf Prod.fst e ep ∧ Aux.ParamsOf Prod.snd e dp := by
  induction he generalizing st with
  | @node F keys child hQ hc ih =>
    cases h with
    | @node _ _ _ s sc hf =>
    have hex : ∀ k, k ∈ keys → ∃ r : PTree P × PTree P, (child ω k).getParams (sc k) = some r ∧
        Aux.ParamsOf Prod.fst (fun ω => child ω k) r.1 ∧ Aux.ParamsOf Prod.snd (fun ω => child ω k) r.2 := by
      intro k hk
      obtain ⟨ep, dp, h1, h2, h3⟩ := ih k hk (sc k) (hf k hk)
      exact ⟨(ep, dp), h1, h2, h3⟩
    choose! r hr using hex
    refine ⟨.node ((F ω).getParams s).1 keys fun k => if k ∈ keys then (r k).1 else .missing,
      .node ((F ω).getParams s).2 keys fun k => if k ∈ keys then (r k).2 else .missing, ?_, .node ω s ?_, .node ω s ?_⟩
    · simp only [Encoder.getParams]
      rw [Aux.forKeys_some (g := r) (fun k hk => by rw [if_pos hk]; exact (hr k hk).1)]
      simp only [Option.map_some, Option.some.injEq, Prod.mk.injEq, PTree.node.injEq, true_and]
      constructor <;> funext k <;> by_cases hk : k ∈ keys <;> simp [hk]
    · intro k hk; simp only [hk, if_true]; exact (hr k hk).2.1
    · intro k hk; simp only [hk, if_true]; exact (hr k hk).2.2

theorem Aux.signature_lookup {sigOf : T → Γ} {d d' : List (String × T)}
    (h : Spec.signature sigOf d = Spec.signature sigOf d') (k : String) :
    (d.lookup k).map sigOf = (d'.lookup k).map sigOf := by
  have key : ∀ d : List (String × T), (Spec.signature sigOf d).lookup k = (d.lookup k).map sigOf := by
    intro d
    induction d with
    | nil => rfl
    | cons a d ih =>
      simp only [Spec.signature, List.map_cons, List.lookup] at ih ⊢
      cases k == a.1 <;> simp [ih]
  rw [← key d, ← key d', h]

theorem Aux.signature_keys {sigOf : T → Γ} {d d' : List (String × T)}
    (h : Spec.signature sigOf d = Spec.signature sigOf d') : d.map (·.1) = d'.map (·.1) := by
  have := congrArg (List.map (·.1)) h
  simpa [Spec.signature, Function.comp_def] using this

/-- Encoding tensors of one type and shape: alike encodings and the same recorded shapes. -/
theorem Aux.encode_like (shapeOf : T → Sh) (sigOf : T → Γ) (hshape : ∀ a b, sigOf a = sigOf b → shapeOf a = shapeOf b)
    (Sum : (n : Nat) → (Fin (n + 1) → T) → T → Prop) [Nonempty Ω] (e : Ω → Encoder T P S U Sh)
    (he : Spec.Family (fun F _ => Spec.Contract sigOf Sum F) e) (ω ω' : Ω) (x y : T) (hxy : sigOf x = sigOf y)
    (ep ep' : PTree P) (hp : Aux.ParamsOf Prod.fst e ep) (hp' : Aux.ParamsOf Prod.fst e ep')
    (v : Enc T) (u : PTree U) (sh : PTree (Option Sh)) (h : (e ω).encode shapeOf x ep = some (v, u, sh)) :
    ∃ v' u', (e ω').encode shapeOf y ep' = some (v', u', sh) ∧ Aux.Like sigOf v v' := by
  induction he generalizing x y ep ep' v u sh with
  | @node F keys child hQ hc ih =>
    obtain ⟨ω₁, s₁, c₁, rfl, hc₁⟩ := Aux.paramsOf_inv hp
    obtain ⟨ω₂, s₂, c₂, rfl, hc₂⟩ := Aux.paramsOf_inv hp'
    have hsig := hQ.encode_signature x y hxy ω ω₁ ω' ω₂ s₁ s₂
    simp only [Encoder.encode] at h ⊢
    generalize hd : (F ω).encode x ((F ω₁).getParams s₁).1 = d at h hsig
    generalize hd' : (F ω').encode y ((F ω₂).getParams s₂).1 = d' at hsig ⊢
    have hl := Aux.signature_lookup hsig
    have hk := Aux.signature_keys hsig
    obtain ⟨c, hfc, hvc⟩ := Option.map_eq_some_iff.1 h
    obtain ⟨hcs, hcm⟩ := Aux.forKeys_eq_some hfc
    have hex : ∀ k, k ∈ keys → ∃ r : Enc T × PTree U × PTree (Option Sh),
        (∃ t', d'.1.lookup k = some t' ∧ (child ω' k).encode shapeOf t' (c₂ k) = some r) ∧ r.2.2 = (c k).2.2 ∧
          Aux.Like sigOf (c k).1 r.1 := by
      intro k hk
      have h1 := hcs k hk
      have h2 := hl k
      cases ht : d.1.lookup k with
      | none => rw [ht] at h1; cases h1
      | some t =>
        rw [ht] at h1 h2
        simp only [hk, if_true] at h1
        cases ht' : d'.1.lookup k with
        | none => rw [ht'] at h2; cases h2
        | some t' =>
          rw [ht'] at h2
          have h2 : sigOf t = sigOf t' := by simpa using h2
          obtain ⟨v', u', g1, g2⟩ := ih k hk t t' h2 (c₁ k) (c₂ k) (hc₁ k hk) (hc₂ k hk) (c k).1 (c k).2.1 (c k).2.2 h1
          exact ⟨(v', u', (c k).2.2), ⟨t', rfl, g1⟩, rfl, g2⟩
    choose! r hr using hex
    rw [Aux.forKeys_some (g := r) (fun k hk => by
      obtain ⟨⟨t', h1, h2⟩, -⟩ := hr k hk
      simp only [h1, hk, if_true]
      exact h2)]
    obtain ⟨rfl, -, rfl⟩ : _ = v ∧ _ = u ∧ _ = sh := by simpa using hvc
    refine ⟨_, _, congrArg some (Prod.ext rfl (Prod.ext rfl ?_)), ?_⟩
    · simp only [PTree.node.injEq, true_and]
      refine ⟨?_, ?_⟩
      · rw [hQ.needsShape ω ω', hshape x y hxy]
      · funext k
        by_cases hkk : k ∈ keys
        · simp only [hkk, if_true]; exact (hr k hkk).2.1
        · simp only [hkk, if_false, hcm k hkk]
    · rw [← hk]
      refine .dict fun k hk' => ?_
      by_cases hkk : k ∈ keys
      · simp only [hkk, if_true]; exact (hr k hkk).2.2
      · simp only [hkk, if_false]
        have h2 := hl k
        obtain ⟨t, ht⟩ := Aux.lookup_of_mem hk'
        rw [ht] at h2 ⊢
        cases ht' : d'.1.lookup k with
        | none => rw [ht'] at h2; cases h2
        | some t' =>
          rw [ht'] at h2
          exact .tensor (by simpa using h2)

/-- Related (possibly split) decode parameters. -/
inductive Aux.DecOf : (Ω → Encoder T P S U Sh) → PTree (Option P) → PTree (Option P) → Prop where
  | node {F : Ω → Stage T P S U Sh} {keys : List String} {child : Ω → String → Encoder T P S U Sh} {a a' : Option P}
      {c c' : String → PTree (Option P)}
      (ha : (a = none ∧ a' = none) ∨ ∃ ω s ω' s', a = some ((F ω).getParams s).2 ∧ a' = some ((F ω').getParams s').2)
      (hc : ∀ k ∈ keys, Aux.DecOf (fun ω => child ω k) (c k) (c' k)) :
      Aux.DecOf (fun ω => .node (F ω) keys (child ω)) (.node a keys c) (.node a' keys c')

theorem Aux.decOf_inv {F : Ω → Stage T P S U Sh} {keys : List String}
    {child : Ω → String → Encoder T P S U Sh} [Nonempty Ω] {p p' : PTree (Option P)}
    (h : Aux.DecOf (fun ω => .node (F ω) keys (child ω)) p p') :
    ∃ a a' c c', p = .node a keys c ∧ p' = .node a' keys c' ∧
      ((a = none ∧ a' = none) ∨ ∃ ω s ω' s', a = some ((F ω).getParams s).2 ∧ a' = some ((F ω').getParams s').2) ∧
      ∀ k ∈ keys, Aux.DecOf (fun ω => child ω k) (c k) (c' k) := by
  generalize he : (fun ω => Encoder.node (F ω) keys (child ω)) = e at h
  cases h with
  | @node F' keys' child' a a' c c' ha hc =>
    have h1 : F = F' := by funext ω; have := congrFun he ω; simp at this; exact this.1
    have h2 : keys = keys' := by have := congrFun he (Classical.arbitrary Ω); simp at this; exact this.2.1
    have h3 : child = child' := by funext ω; have := congrFun he ω; simp at this; exact this.2.2
    subst h1 h2 h3
    exact ⟨a, a', c, c', rfl, rfl, ha, hc⟩

theorem Aux.decOf_split {Q : (Ω → Stage T P S U Sh) → List String → Prop} [Nonempty Ω] (e : Ω → Encoder T P S U Sh)
    (he : Spec.Family Q e) (ω : Ω) (b : Bool) (p p' : PTree P) (hp : Aux.ParamsOf Prod.snd e p)
    (hp' : Aux.ParamsOf Prod.snd e p') :
    Aux.DecOf e (splitBefore p.full ((e ω).commutingStructure b)) (splitBefore p'.full ((e ω).commutingStructure b)) := by
  induction he generalizing p p' b with
  | @node F keys child hQ hc ih =>
    obtain ⟨ω₁, s₁, c₁, rfl, hc₁⟩ := Aux.paramsOf_inv hp
    obtain ⟨ω₂, s₂, c₂, rfl, hc₂⟩ := Aux.paramsOf_inv hp'
    simp only [PTree.full, Encoder.commutingStructure, splitBefore]
    refine .node ?_ fun k hk => ih k hk _ _ _ (hc₁ k hk) (hc₂ k hk)
    cases b && (F ω).commutes
    · exact .inr ⟨ω₁, s₁, ω₂, s₂, rfl, rfl⟩
    · exact .inl ⟨rfl, rfl⟩

theorem Aux.decOf_full {Q : (Ω → Stage T P S U Sh) → List String → Prop} [Nonempty Ω] (e : Ω → Encoder T P S U Sh)
    (he : Spec.Family Q e) (p p' : PTree P) (hp : Aux.ParamsOf Prod.snd e p)
    (hp' : Aux.ParamsOf Prod.snd e p') : Aux.DecOf e p.full p'.full := by
  induction he generalizing p p' with
  | @node F keys child hQ hc ih =>
    obtain ⟨ω₁, s₁, c₁, rfl, hc₁⟩ := Aux.paramsOf_inv hp
    obtain ⟨ω₂, s₂, c₂, rfl, hc₂⟩ := Aux.paramsOf_inv hp'
    exact .node (.inr ⟨ω₁, s₁, ω₂, s₂, rfl, rfl⟩) fun k hk => ih k hk _ _ (hc₁ k hk) (hc₂ k hk)

theorem Aux.asTensors_signature {sigOf : T → Γ} {ks : List String} {v w : String → Enc T} {d : List (String × T)}
    (h : ∀ k ∈ ks, Aux.Like sigOf (v k) (w k)) (hd : asTensors ks v = some d) :
    ∃ d', asTensors ks w = some d' ∧ Spec.signature sigOf d = Spec.signature sigOf d' := by
  induction ks generalizing d with
  | nil => cases hd; exact ⟨[], rfl, rfl⟩
  | cons k ks ih =>
    unfold asTensors at hd
    split at hd
    · rename_i t rest ht hr
      cases hd
      obtain ⟨d', h1, h2⟩ := ih (fun j hj => h j (by simp [hj])) hr
      have h3 := h k (by simp)
      rw [ht] at h3
      generalize hw : w k = wk at h3
      cases h3 with
      | @tensor _ t' h3 =>
        refine ⟨(k, t') :: d', by rw [asTensors, hw, h1], ?_⟩
        simp only [Spec.signature, List.map_cons, h3] at h2 ⊢
        rw [h2]
    · cases hd

/-- Partial and full decoding of alike values: alike results. -/
theorem Aux.decode_like (sigOf : T → Γ) (Sum : (n : Nat) → (Fin (n + 1) → T) → T → Prop) [Nonempty Ω]
    (e : Ω → Encoder T P S U Sh) (he : Spec.Family (fun F _ => Spec.Contract sigOf Sum F) e) (ω ω' : Ω) (force : Bool)
    (x x' : Enc T) (hx : Aux.Like sigOf x x') (p p' : PTree (Option P)) (hp : Aux.DecOf e p p')
    (sh : PTree (Option Sh)) (b : Enc T) (h : (e ω).decodeBeforeSum force x p sh = some b) :
    ∃ b', (e ω').decodeBeforeSum force x' p' sh = some b' ∧ Aux.Like sigOf b b' := by
  induction he generalizing x x' p p' sh b force with
  | @node F keys child hQ hc ih =>
    obtain ⟨a, a', c, c', rfl, rfl, ha, hcc⟩ := Aux.decOf_inv hp
    cases hx with
    | tensor _ => cases sh <;> cases h
    | @dict ks v w hvw =>
    cases sh with
    | missing => cases h
    | node sv sk sc =>
    simp only [Encoder.decodeBeforeSum] at h ⊢
    rw [hQ.commutes ω ω'] at h
    generalize hf : (force || !(F ω').commutes) = f at h ⊢
    cases ht : forKeys Enc.missing ks fun k => if k ∈ keys then
        if k ∈ keys ∧ k ∈ sk then (child ω k).decodeBeforeSum f (v k) (c k) (sc k) else none
        else some (v k) with
    | none => rw [ht] at h; cases h
    | some temp =>
    rw [ht] at h
    dsimp only at h
    obtain ⟨hts, -⟩ := Aux.forKeys_eq_some ht
    have hex : ∀ k, k ∈ ks → ∃ r, (if k ∈ keys then
        if k ∈ keys ∧ k ∈ sk then (child ω' k).decodeBeforeSum f (w k) (c' k) (sc k) else none
        else some (w k)) = some r ∧ Aux.Like sigOf (temp k) r := by
      intro k hk
      have h1 := hts k hk
      by_cases hkk : k ∈ keys
      · by_cases hsk : k ∈ keys ∧ k ∈ sk
        · rw [if_pos hkk, if_pos hsk] at h1 ⊢
          exact ih k hkk f (v k) (w k) (hvw k hk) (c k) (c' k) (hcc k hkk) (sc k) (temp k) h1
        · rw [if_pos hkk, if_neg hsk] at h1; cases h1
      · rw [if_neg hkk] at h1 ⊢
        exact ⟨w k, rfl, Option.some.inj h1 ▸ hvw k hk⟩
    choose! r hr1 hr2 using hex
    rw [Aux.forKeys_some (g := r) hr1]
    dsimp only
    have hlike : ∀ k ∈ ks, Aux.Like sigOf (temp k) (if k ∈ ks then r k else .missing) := fun k hk => by
      rw [if_pos hk]; exact hr2 k hk
    cases f with
    | false =>
      simp only [Bool.false_eq_true, if_false, Option.some.injEq] at h ⊢
      subst h
      exact ⟨_, rfl, .dict hlike⟩
    | true =>
      simp only [if_true] at h ⊢
      cases hd : asTensors ks temp with
      | none => rw [hd] at h; cases h
      | some d =>
        rw [hd] at h
        obtain ⟨d', hd', hsig⟩ := Aux.asTensors_signature hlike hd
        rw [hd']
        rcases ha with ⟨rfl, rfl⟩ | ⟨ω₁, s₁, ω₂, s₂, rfl, rfl⟩
        · cases h
        · dsimp only at h ⊢
          obtain ⟨t, ht1, rfl⟩ := Option.map_eq_some_iff.1 h
          have h3 := hQ.decode_signature d d' hsig ω ω₁ ω₂ s₁ s₂ sv
          rw [ht1, hQ.decode ω ω'] at h3
          cases ht2 : (F ω').decode d' ((F ω₂).getParams s₂).2 none sv with
          | none => rw [ht2] at h3; cases h3
          | some t' =>
            rw [ht2] at h3
            exact ⟨_, rfl, .tensor (by simpa using h3)⟩

/-- The decoded sum exists. -/
theorem Aux.sum_exists {sigOf : T → Γ} {Sum : (n : Nat) → (Fin (n + 1) → T) → T → Prop}
    (hS : Spec.SumOfAlike sigOf Sum) {n : Nat} (a : Enc T) (b : Fin (n + 1) → Enc T)
    (h : ∀ i, Aux.Like sigOf a (b i)) : ∃ s, Spec.IsSum Sum b s := by
  induction a generalizing b with
  | missing => cases h 0
  | tensor t =>
    have hex : ∀ i, ∃ t', b i = .tensor t' ∧ sigOf t' = sigOf t := by
      intro i
      have := h i
      generalize b i = bi at this
      cases this with
      | tensor h' => exact ⟨_, rfl, h'.symm⟩
    choose t' ht' hs using hex
    obtain ⟨r, hr⟩ := hS.exists_sum n t' _ hs
    have : b = fun i => .tensor (t' i) := funext ht'
    rw [this]
    exact ⟨.tensor r, .tensor t' r hr⟩
  | dict ks v ih =>
    have hex : ∀ i, ∃ w, b i = .dict ks w ∧ ∀ k ∈ ks, Aux.Like sigOf (v k) (w k) := by
      intro i
      have := h i
      generalize b i = bi at this
      cases this with
      | dict h' => exact ⟨_, rfl, h'⟩
    choose w hw hlike using hex
    have : b = fun i => .dict ks (w i) := funext hw
    rw [this]
    have hex2 : ∀ k, k ∈ ks → ∃ s, Spec.IsSum Sum (fun i => w i k) s := fun k hk =>
      ih k (fun i => w i k) fun i => hlike i k hk
    choose! s hs using hex2
    exact ⟨.dict ks s, .dict ks w s hs⟩

theorem Aux.sum_like {sigOf : T → Γ} {Sum : (n : Nat) → (Fin (n + 1) → T) → T → Prop}
    (hS : Spec.SumOfAlike sigOf Sum) {n : Nat} {b : Fin (n + 1) → Enc T} {s : Enc T} (h : Spec.IsSum Sum b s)
    (i : Fin (n + 1)) : Aux.Like sigOf s (b i) := by
  induction h with
  | tensor t r h => exact .tensor (hS.same n t r h i).symm
  | dict ks v w h ih => exact .dict ih

theorem Aux.everyParam_of {Sum : (n : Nat) → (Fin (n + 1) → T) → T → Prop} {sigOf : T → Γ} [Nonempty Ω]
    (e : Ω → Encoder T P S U Sh) (he : Spec.Family (fun F _ => Spec.Contract sigOf Sum F) e) (ω : Ω) (dp : PTree P)
    (h : Aux.ParamsOf Prod.snd e dp) :
    Spec.EveryParam (fun st q => st.commutes = true → Spec.SumLaw Sum st q) (e ω) dp.full := by
  induction he generalizing dp with
  | @node F keys child hQ hc ih =>
    obtain ⟨ω₁, s₁, c₁, rfl, hc₁⟩ := Aux.paramsOf_inv h
    refine .node (fun q hq hcom => ?_) fun k hk => ih k hk _ (hc₁ k hk)
    cases hq
    exact hQ.sum_law ω ω₁ s₁ hcom

theorem Aux.family_node {Q : (Ω → Stage T P S U Sh) → List String → Prop} {R : Stage T P S U Sh → List String → Prop}
    (ω : Ω) (hQR : ∀ F ks, Q F ks → R (F ω) ks) (e : Ω → Encoder T P S U Sh) (he : Spec.Family Q e) :
    Spec.EveryNode R (e ω) := by
  induction he with
  | node h _ ih => exact .node (hQR _ _ h) ih

/-- A dictionary of the structure of the encoder, with nothing outside it. -/
inductive Aux.Tight {A : Type} : Encoder T P S U Sh → PTree A → Prop where
  | node {stage keys child a c} (hc : ∀ k ∈ keys, Aux.Tight (child k) (c k)) (hm : ∀ k, k ∉ keys → c k = .missing) :
      Aux.Tight (.node stage keys child) (.node a keys c)

theorem Aux.family_split {sigOf : T → Γ} {Sum : (n : Nat) → (Fin (n + 1) → T) → T → Prop} {A : Type}
    (e : Ω → Encoder T P S U Sh) (he : Spec.Family (fun F _ => Spec.Contract sigOf Sum F) e) (ω ω' : Ω) (b : Bool)
    (p : PTree (Option A)) (h : Aux.Tight (e ω) p) :
    splitBefore p ((e ω).commutingStructure b) = splitBefore p ((e ω').commutingStructure b) ∧
      splitAfter p ((e ω).commutingStructure b) = splitAfter p ((e ω').commutingStructure b) := by
  induction he generalizing p b with
  | @node F keys child hQ hc ih =>
    cases h with
    | @node _ _ _ a c hcc hm =>
    simp only [Encoder.commutingStructure, splitBefore, splitAfter, PTree.node.injEq, true_and, hQ.commutes ω ω']
    constructor <;> funext k <;> by_cases hk : k ∈ keys
    · exact (ih k hk _ _ (hcc k hk)).1
    · rw [hm k hk]; rfl
    · exact (ih k hk _ _ (hcc k hk)).2
    · rw [hm k hk]; rfl

theorem Aux.shapes_tight (shapeOf : T → Sh) (e : Encoder T P S U Sh) (x : T) (ep : PTree P)
    (v : Enc T) (u : PTree U) (sh : PTree (Option Sh)) (h : e.encode shapeOf x ep = some (v, u, sh)) :
    Aux.Tight e sh := by
  induction e generalizing x ep v u sh with
  | missing => cases h
  | node stage keys child ih =>
    cases ep with
    | missing => cases h
    | node p pk pc =>
    simp only [Encoder.encode] at h
    obtain ⟨c, hfc, hvc⟩ := Option.map_eq_some_iff.1 h
    obtain ⟨hcs, hcm⟩ := Aux.forKeys_eq_some hfc
    obtain ⟨-, -, rfl⟩ : _ = v ∧ _ = u ∧ _ = sh := by simpa using hvc
    refine .node (fun k hk => ?_) fun k hk => by rw [hcm k hk]
    have h1 := hcs k hk
    cases ht : (stage.encode x p).1.lookup k with
    | none => rw [ht] at h1; cases h1
    | some t =>
      rw [ht] at h1
      dsimp only at h1
      split_ifs at h1
      exact ih k t (pc k) _ _ _ h1

theorem Aux.params_tight (e : Encoder T P S U Sh) (st : PTree S) (ep dp : PTree P)
    (h : e.getParams st = some (ep, dp)) : Aux.Tight e dp.full := by
  induction e generalizing st ep dp with
  | missing => cases h
  | node stage keys child ih =>
    cases st with
    | missing => cases h
    | node s sk sc =>
    simp only [Encoder.getParams] at h
    obtain ⟨c, hfc, hvc⟩ := Option.map_eq_some_iff.1 h
    obtain ⟨hcs, hcm⟩ := Aux.forKeys_eq_some hfc
    obtain ⟨-, rfl⟩ : _ = ep ∧ _ = dp := by simpa using hvc
    refine .node (fun k hk => ?_) fun k hk => by dsimp only; rw [hcm k hk]; rfl
    have h1 := hcs k hk
    split_ifs at h1
    exact ih k (sc k) _ _ h1

theorem Aux.pack_fits {A B : Type} (e : Encoder T P S U Sh) (s : PTree A) (hs : Spec.Fits e s) (flat : List B)
    (h : flat.length = s.flatten.length) : ∃ t, s.pack flat = some t ∧ Spec.Fits e t := by
  have key : ∀ (e : Encoder T P S U Sh) (s : PTree A), Spec.Fits e s → ∀ l rest : List B,
      l.length = s.flatten.length → ∃ t, s.packAux (l ++ rest) = some (t, rest) ∧ Spec.Fits e t := by
    intro e
    induction e with
    | missing => intro s h; cases h
    | node stage keys child ih =>
      intro s hs l rest hl
      cases hs with
      | @node _ _ _ a c hc =>
      have hkeys : ∀ ks : List String, (∀ k ∈ ks, k ∈ keys) → ∀ l rest : List B,
          l.length = (ks.flatMap fun k => (c k).flatten).length →
          ∃ d : String → PTree B, PTree.packAux.packKeys ks (fun k => (c k).packAux) (l ++ rest) = some (d, rest) ∧
            ∀ k ∈ ks, Spec.Fits (child k) (d k) := by
        intro ks
        induction ks with
        | nil =>
          intro _ l rest hl
          have : l = [] := List.length_eq_zero_iff.1 hl
          subst this
          exact ⟨_, rfl, by simp⟩
        | cons k ks ihk =>
          intro hsub l rest hl
          have hk := hsub k (by simp)
          rw [List.flatMap_cons, List.length_append] at hl
          generalize hm : ((c k).flatten).length = m at hl
          obtain ⟨t, ht, hft⟩ := ih k (c k) (hc k hk) (l.take m) (l.drop m ++ rest)
            (by rw [List.length_take, hm]; omega)
          obtain ⟨d, hd, hfd⟩ := ihk (fun j hj => hsub j (by simp [hj])) (l.drop m) rest
            (by rw [List.length_drop]; omega)
          rw [← List.append_assoc, List.take_append_drop] at ht
          refine ⟨fun j => if j = k then t else d j, ?_, ?_⟩
          · rw [PTree.packAux.packKeys, ht]
            dsimp only
            rw [hd]
            rfl
          · intro j hj
            by_cases hjk : j = k
            · subst hjk; simpa using hft
            · simp only [hjk, if_false]
              exact hfd j (by simpa [hjk] using hj)
      cases l with
      | nil => simp [PTree.flatten] at hl
      | cons b l =>
        obtain ⟨d, hd, hfd⟩ := hkeys keys (fun k hk => hk) l rest (by simpa [PTree.flatten] using hl)
        refine ⟨.node b keys d, ?_, .node hfd⟩
        simp only [List.cons_append, PTree.packAux, hd, Option.map_some]
  obtain ⟨st, h1, h2⟩ := key e s hs flat [] h
  rw [List.append_nil] at h1
  exact ⟨st, by simp [PTree.pack, h1], h2⟩

theorem Aux.pack_ok (e : Encoder T P S U Sh) (he : Spec.EveryNode (fun _ _ => True) e) (flat : List S)
    (h : flat.length = e.initialState.flatten.length) :
    ∃ st, e.initialState.pack flat = some st ∧ Spec.Fits e st :=
  Aux.pack_fits e _ (C37_reachable_states_fit e he).1 flat h

theorem Aux.updates_fit (shapeOf : T → Sh) (e : Encoder T P S U Sh) (x : T) (ep : PTree P)
    (v : Enc T) (u : PTree U) (sh : PTree (Option Sh)) (h : e.encode shapeOf x ep = some (v, u, sh)) :
    Spec.Fits e u := by
  induction e generalizing x ep v u sh with
  | missing => cases h
  | node stage keys child ih =>
    cases ep with
    | missing => cases h
    | node p pk pc =>
    simp only [Encoder.encode] at h
    obtain ⟨c, hfc, hvc⟩ := Option.map_eq_some_iff.1 h
    obtain ⟨hcs, hcm⟩ := Aux.forKeys_eq_some hfc
    obtain ⟨-, rfl, -⟩ : _ = v ∧ _ = u ∧ _ = sh := by simpa using hvc
    refine .node fun k hk => ?_
    have h1 := hcs k hk
    cases ht : (stage.encode x p).1.lookup k with
    | none => rw [ht] at h1; cases h1
    | some t =>
      rw [ht] at h1
      dsimp only at h1
      split_ifs at h1
      exact ih k t (pc k) _ _ _ h1

theorem Aux.fits_length {A B : Type} (e : Encoder T P S U Sh) (s : PTree A) (t : PTree B)
    (hs : Spec.Fits e s) (ht : Spec.Fits e t) : s.flatten.length = t.flatten.length := by
  induction e generalizing s t with
  | missing => cases hs
  | node st keys child ih =>
    cases hs with
    | @node _ _ _ a c hc =>
    cases ht with
    | @node _ _ _ b d hd =>
    simp only [PTree.flatten, List.length_cons, List.length_flatMap]
    congr 2
    exact List.map_congr_left fun k hk => ih k (c k) (d k) (hc k hk) (hd k hk)

theorem Aux.fits_draws {Q : (Ω → Stage T P S U Sh) → List String → Prop} {A : Type} (e : Ω → Encoder T P S U Sh)
    (he : Spec.Family Q e) (ω ω' : Ω) (t : PTree A) (h : Spec.Fits (e ω) t) : Spec.Fits (e ω') t := by
  induction he generalizing t with
  | node _ _ ih =>
    cases h with
    | node hc => exact .node fun k hk => ih k hk _ (hc k hk)

/-- Decoding makes no random draws. -/
theorem Aux.decode_draws {sigOf : T → Γ} {Sum : (n : Nat) → (Fin (n + 1) → T) → T → Prop}
    (e : Ω → Encoder T P S U Sh) (he : Spec.Family (fun F _ => Spec.Contract sigOf Sum F) e) (ω ω' : Ω) (force : Bool)
    (x : Enc T) (p : PTree (Option P)) (sh : PTree (Option Sh)) :
    (e ω).decodeBeforeSum force x p sh = (e ω').decodeBeforeSum force x p sh := by
  induction he generalizing force x p sh with
  | @node F keys child hQ hc ih =>
    cases x with
    | missing => rfl
    | tensor t => rfl
    | dict ks v =>
      cases p with
      | missing => rfl
      | node pv pk pc =>
        cases sh with
        | missing => rfl
        | node sv sk sc =>
          simp only [Encoder.decodeBeforeSum, hQ.commutes ω ω', hQ.decode ω ω']
          have : ∀ f, (forKeys Enc.missing ks fun k => if k ∈ keys then
              if k ∈ pk ∧ k ∈ sk then (child ω k).decodeBeforeSum f (v k) (pc k) (sc k) else none
              else some (v k)) =
              forKeys Enc.missing ks fun k => if k ∈ keys then
                if k ∈ pk ∧ k ∈ sk then (child ω' k).decodeBeforeSum f (v k) (pc k) (sc k) else none
                else some (v k) := by
            intro f
            apply Aux.forKeys_congr
            intro k _
            by_cases hk : k ∈ keys
            · rw [if_pos hk, if_pos hk]
              by_cases h2 : k ∈ pk ∧ k ∈ sk
              · rw [if_pos h2, if_pos h2]; exact ih k hk f _ _ _
              · rw [if_neg h2, if_neg h2]
            · rw [if_neg hk, if_neg hk]
          rw [this]

/-- The steps of the trial run. -/
theorem Aux.trial {shapeOf : T → Sh} {sigOf : T → Γ} {e : Encoder T P S U Sh} {zeros : T} {spec : GatherSpec T U}
    (hspec : gatherFromEncoder shapeOf sigOf e zeros = some spec) :
    ∃ gp r x u b y, gatherGetParams shapeOf e zeros e.initialState.flatten = some gp ∧
      e.encode shapeOf zeros gp.encode = some r ∧
      gatherEncode shapeOf sigOf e zeros zeros gp.encode = some (x, u) ∧
      gatherDecodeBefore sigOf e x.tensors x gp.before = some b ∧
      gatherDecodeAfter sigOf e b b gp.after gp.shapes 1 = some y ∧
      sigOf y = sigOf zeros ∧ spec = ⟨x.tensors, b, r.2.1⟩ := by
  unfold gatherFromEncoder at hspec
  cases h1 : gatherGetParams shapeOf e zeros e.initialState.flatten with
  | none => rw [h1] at hspec; cases hspec
  | some gp =>
    rw [h1] at hspec; dsimp only at hspec
    cases h2 : e.encode shapeOf zeros gp.encode with
    | none => rw [h2] at hspec; cases hspec
    | some r =>
      rw [h2] at hspec
      cases h3 : gatherEncode shapeOf sigOf e zeros zeros gp.encode with
      | none => rw [h3] at hspec; cases hspec
      | some x =>
        rw [h3] at hspec; dsimp only at hspec
        cases h4 : gatherDecodeBefore sigOf e x.1.tensors x.1 gp.before with
        | none => rw [h4] at hspec; cases hspec
        | some b =>
          rw [h4] at hspec; dsimp only at hspec
          cases h5 : gatherDecodeAfter sigOf e b b gp.after gp.shapes 1 with
          | none => rw [h5] at hspec; cases hspec
          | some y =>
            rw [h5] at hspec; dsimp only at hspec
            split_ifs at hspec with h6
            exact ⟨gp, r, x.1, x.2, b, y, rfl, h2, h3, h4, h5, h6.1, (Option.some.inj hspec).symm⟩

/-! ## C89 -/

/-- **C89.** Suppose `from_encoder` accepted an encoder (a tree of stages that keep their contract) for a type and shape.
Then for every state of the right length, every number of workers, every tensor of that type and shape on each of them,
and all random draws: `get_params` succeeds, every worker can encode, every encoding can be decoded before the sum, the
partially decoded values can be summed, and decoding their sum gives the sum of what the encoder makes of each worker's
tensor on its own, with the type and shape of the tensors. -/
theorem C89_protocol (shapeOf : T → Sh) (sigOf : T → Γ) (hshape : ∀ a b, sigOf a = sigOf b → shapeOf a = shapeOf b)
    (Sum : (n : Nat) → (Fin (n + 1) → T) → T → Prop) (hS : Spec.SumOfAlike sigOf Sum)
    (e : Ω → Encoder T P S U Sh) (he : Spec.Family (fun F _ => Spec.Contract sigOf Sum F) e)
    (ω₀ : Ω) (zeros : T) (spec : GatherSpec T U) (hspec : gatherFromEncoder shapeOf sigOf (e ω₀) zeros = some spec)
    (ωs : Ω) (flat : List S) (hflat : flat.length = (e ω₀).initialState.flatten.length) :
    ∃ (st : PTree S) (gp : GatherParams P Sh) (dp : PTree P), (e ωs).initialState.pack flat = some st ∧
      (e ωs).getParams st = some (gp.encode, dp) ∧ gatherGetParams shapeOf (e ωs) zeros flat = some gp ∧
      ∀ (n : Nat) (x : Fin (n + 1) → T) (_ : ∀ i, sigOf (x i) = sigOf zeros) (ω ω' : Fin (n + 1) → Ω) (ωd : Ω),
      ∃ (m : Fin (n + 1) → GatherEncoded T Sh) (u : Fin (n + 1) → List U) (b : Fin (n + 1) → Enc T) (y : Fin (n + 1) → T),
        (∀ i, gatherEncode shapeOf sigOf (e (ω i)) zeros (x i) gp.encode = some (m i, u i)) ∧
        (∀ i, gatherDecodeBefore sigOf (e (ω' i)) spec.encoded (m i) gp.before = some (b i)) ∧
        (∀ i, Spec.OwnDecoding shapeOf (e (ω i)) (e ωd) gp.encode dp (x i) (y i) ∧ sigOf (y i) = sigOf zeros) ∧
        (∃ s, Spec.IsSum Sum b s) ∧
        ∀ s, Spec.IsSum Sum b s →
          ∃ r, gatherDecodeAfter sigOf (e ωd) spec.part s gp.after gp.shapes (n + 1) = some r ∧ Sum n y r ∧
            sigOf r = sigOf zeros := by
  haveI : Nonempty Ω := ⟨ω₀⟩
  have heT : ∀ ω, Spec.EveryNode (fun _ _ => True) (e ω) := fun ω => Aux.family_node ω (fun _ _ _ => trivial) e he
  have heO : ∀ ω, Spec.EveryNode (fun st _ => st.commutes = true → Spec.OneSummand st) (e ω) := fun ω =>
    Aux.family_node ω (fun F _ h _ => h.one_summand ω) e he
  -- the trial run
  obtain ⟨gp₀, r₀, x₀, u₀, b₀, y₀, hgp₀, hr₀, hx₀, hb₀, hy₀, hsig₀, rfl⟩ := Aux.trial hspec
  have hsplitlen : ∀ ω, (e ω).initialState.flatten.length = (e ω₀).initialState.flatten.length := by
    intro ω
    clear hspec hflat hgp₀ hr₀ hx₀ hb₀ hy₀ heT heO
    induction he with
    | node _ _ ih =>
      simp only [Encoder.initialState, PTree.flatten, List.length_cons, List.length_flatMap]
      congr 2
      exact List.map_congr_left fun k hk => by simp only [hk, if_true]; exact ih k hk
  have hget : ∀ ω (flat : List S), flat.length = (e ω₀).initialState.flatten.length →
      ∃ st ep dp, (e ω).initialState.pack flat = some st ∧ (e ω).getParams st = some (ep, dp) ∧
        Aux.ParamsOf Prod.fst e ep ∧ Aux.ParamsOf Prod.snd e dp ∧ Aux.Tight (e ω) dp.full := by
    intro ω flat hl
    obtain ⟨st, h1, h2⟩ := Aux.pack_ok (e ω) (heT ω) flat (hl.trans (hsplitlen ω).symm)
    obtain ⟨ep, dp, h3, h4, h5⟩ := Aux.getParams_of e he ω st h2
    exact ⟨st, ep, dp, h1, h3, h4, h5, Aux.params_tight _ _ _ _ h3⟩
  obtain ⟨st₀, ep₀, dp₀, hst₀, hpar₀, hep₀, hdp₀, htp₀⟩ := hget ω₀ _ rfl
  obtain ⟨st, ep, dp, hst, hpar, hep, hdp, htp⟩ := hget ωs flat hflat
  -- the trial encoding
  unfold gatherGetParams at hgp₀
  rw [hst₀] at hgp₀; dsimp only at hgp₀
  rw [hpar₀] at hgp₀; dsimp only at hgp₀
  obtain ⟨r₁, hr₁, rfl⟩ := Option.map_eq_some_iff.1 hgp₀
  obtain rfl : r₁ = r₀ := Option.some.inj (hr₁.symm.trans hr₀)
  unfold gatherEncode at hx₀
  rw [if_pos rfl, hr₀] at hx₀
  obtain ⟨rfl, -⟩ : _ = x₀ ∧ _ = u₀ := by simpa using hx₀
  obtain ⟨v₀, u0, sh₀⟩ := r₁
  have hshT := Aux.shapes_tight _ _ _ _ _ _ _ hr₀
  -- encoding anything
  have henc : ∀ ω (x : T), sigOf x = sigOf zeros →
      ∃ v u, (e ω).encode shapeOf x ep = some (v, u, sh₀) ∧ Aux.Like sigOf v₀ v := fun ω x hx =>
    Aux.encode_like shapeOf sigOf hshape Sum e he ω₀ ω zeros x hx.symm ep₀ ep hep₀ hep v₀ u0 sh₀ hr₀
  obtain ⟨vz, uz, hz, -⟩ := henc ωs zeros rfl
  -- all commuting structures do the same
  have hcs : ∀ ω, splitBefore sh₀ ((e ω).commutingStructure true) = splitBefore sh₀ ((e ω₀).commutingStructure true) ∧
      splitAfter sh₀ ((e ω).commutingStructure true) = splitAfter sh₀ ((e ω₀).commutingStructure true) := fun ω => by
    obtain ⟨h1, h2⟩ := Aux.family_split e he ω₀ ω true sh₀ hshT
    exact ⟨h1.symm, h2.symm⟩
  have hcd : ∀ ω, splitBefore dp.full ((e ω).commutingStructure true) =
      splitBefore dp.full ((e ωs).commutingStructure true) ∧
      splitAfter dp.full ((e ω).commutingStructure true) = splitAfter dp.full ((e ωs).commutingStructure true) := fun ω => by
    obtain ⟨h1, h2⟩ := Aux.family_split e he ωs ω true dp.full htp
    exact ⟨h1.symm, h2.symm⟩
  refine ⟨st, ⟨ep, splitBefore dp.full ((e ωs).commutingStructure true), splitAfter dp.full ((e ωs).commutingStructure true),
    splitAfter sh₀ ((e ωs).commutingStructure true)⟩, dp, hst, hpar, ?_, ?_⟩
  · unfold gatherGetParams
    rw [hst]; dsimp only
    rw [hpar]; dsimp only
    rw [hz]; rfl
  intro n x hx ω ω' ωd
  have h1 : ∀ i, ∃ v u, (e (ω i)).encode shapeOf (x i) ep = some (v, u, sh₀) ∧ Aux.Like sigOf v₀ v :=
    fun i => henc (ω i) (x i) (hx i)
  choose v u hv hvlike using h1
  -- the trial decoding
  unfold gatherDecodeBefore at hb₀
  dsimp only at hb₀
  have hcomp₀ : v₀.compatible sigOf v₀ = true :=
    Aux.like_compatible (Aux.like_trans (hvlike 0) (Aux.like_symm (hvlike 0)))
  rw [if_pos hcomp₀] at hb₀
  unfold gatherDecodeAfter at hy₀
  dsimp only at hy₀
  have hafter₀ : (e ω₀).decodeAfterSum b₀ (splitAfter dp₀.full ((e ω₀).commutingStructure true)) 1
      (splitAfter sh₀ ((e ω₀).commutingStructure true)) = some y₀ := by
    split_ifs at hy₀
    exact hy₀
  have hfull₀ : (e ω₀).decode v₀ dp₀.full sh₀ = some (.tensor y₀) := by
    rw [← C38_before_after (e ω₀) (heO ω₀) v₀ dp₀.full sh₀, hb₀, Option.bind_some, hafter₀]
    rfl
  -- before the sum
  have hbefore : ∀ ω i, ∃ b, (e ω).decodeBeforeSum false (v i) (splitBefore dp.full ((e ωs).commutingStructure true))
      (splitBefore sh₀ ((e ω₀).commutingStructure true)) = some b ∧ Aux.Like sigOf b₀ b := by
    intro ω i
    apply Aux.decode_like sigOf Sum e he ω₀ ω false v₀ (v i) (hvlike i) _ _ ?_ _ _ hb₀
    rw [← (hcd ω₀).1]
    exact Aux.decOf_split e he ω₀ true dp₀ dp hdp₀ hdp
  -- the full decoding
  have hown : ∀ i, ∃ y, (e ωd).decode (v i) dp.full sh₀ = some (.tensor y) ∧ sigOf y = sigOf zeros := by
    intro i
    obtain ⟨b, h2, h3⟩ := Aux.decode_like sigOf Sum e he ω₀ ωd true v₀ (v i) (hvlike i) dp₀.full dp.full
      (Aux.decOf_full e he dp₀ dp hdp₀ hdp) sh₀ _ hfull₀
    cases h3 with
    | tensor h4 => exact ⟨_, h2, h4.symm.trans hsig₀⟩
  choose b hb hblike using fun i => hbefore (ω' i) i
  choose y hy hysig using hown
  refine ⟨fun i => ⟨v i, splitBefore sh₀ ((e (ω i)).commutingStructure true)⟩, fun i => (u i).flatten, b, y, ?_, ?_, ?_,
    ?_, ?_⟩
  · intro i
    unfold gatherEncode
    rw [if_pos (hx i), hv i]
    rfl
  · intro i
    unfold gatherDecodeBefore
    dsimp only
    rw [if_pos (Aux.like_compatible (Aux.like_symm (hvlike i))), (hcs (ω i)).1]
    exact hb i
  · exact fun i => ⟨⟨v i, u i, sh₀, hv i, hy i⟩, hysig i⟩
  · exact Aux.sum_exists hS b₀ b hblike
  · intro s hs
    have hcompat : s.compatible sigOf b₀ = true :=
      Aux.like_compatible (Aux.like_trans (Aux.sum_like hS hs 0) (Aux.like_symm (hblike 0)))
    -- the same partial decodings with the draws of the last step
    have hbd : ∀ i, (e ωd).decodeBeforeSum false (v i) (splitBefore dp.full ((e ωd).commutingStructure true))
        (splitBefore sh₀ ((e ωd).commutingStructure true)) = some (b i) := by
      intro i
      rw [(hcd ωd).1, (hcs ωd).1, ← hb i]
      exact Aux.decode_draws e he ωd (ω' i) _ _ _ _
    obtain ⟨r, hr, hR⟩ := C38_aggregate Sum (e ωd) v b y dp.full (Aux.everyParam_of e he ωd dp hdp) (fun _ => sh₀) _ s
      (fun _ => rfl) hbd hy hs
    refine ⟨r, ?_, hR, ((hS.same n y r hR 0).symm.trans (hysig 0))⟩
    unfold gatherDecodeAfter
    dsimp only
    rw [if_pos hcompat, (hcs ωs).2, ← (hcs ωd).2, ← (hcd ωd).2]
    exact hr

/-- **C89 (acceptance).** `from_encoder` accepts every encoder whose stages keep their contract and that, alone, returns
zeros as a tensor of the same type and shape. -/
theorem C89_accepts (shapeOf : T → Sh) (sigOf : T → Γ) (hshape : ∀ a b, sigOf a = sigOf b → shapeOf a = shapeOf b)
    (Sum : (n : Nat) → (Fin (n + 1) → T) → T → Prop)
    (e : Ω → Encoder T P S U Sh) (he : Spec.Family (fun F _ => Spec.Contract sigOf Sum F) e) (ω : Ω) (zeros y : T)
    (h : Spec.Through shapeOf (e ω) (e ω).initialState zeros y) (hy : sigOf y = sigOf zeros) :
    ∃ spec, gatherFromEncoder shapeOf sigOf (e ω) zeros = some spec := by
  haveI : Nonempty Ω := ⟨ω⟩
  have heT : Spec.EveryNode (fun _ _ => True) (e ω) := Aux.family_node ω (fun _ _ _ => trivial) e he
  have heO : Spec.EveryNode (fun st _ => st.commutes = true → Spec.OneSummand st) (e ω) :=
    Aux.family_node ω (fun F _ h _ => h.one_summand ω) e he
  obtain ⟨hf, hup⟩ := C37_reachable_states_fit (e ω) heT
  obtain ⟨ep', dp', enc, u, sh, h1, h2, h3, h4⟩ := Aux.through shapeOf (e ω) _ zeros y h
  obtain ⟨ep, dp, h1', hep, hdp⟩ := Aux.getParams_of e he ω _ hf
  obtain ⟨rfl, rfl⟩ : ep' = ep ∧ dp' = dp := by
    have := h1.symm.trans h1'
    simpa using this
  have hp : (e ω).initialState.pack (e ω).initialState.flatten = some (e ω).initialState := by
    have h5 := Aux.aligned_after (e ω) heT []
    rw [Aux.stateAfter_nil] at h5
    have := Aux.pack_aux _ _ h5 []
    rw [List.append_nil] at this
    simp only [PTree.pack, this]
  obtain ⟨enc', u', h5, hlike⟩ := Aux.encode_like shapeOf sigOf hshape Sum e he ω ω zeros zeros rfl ep' ep' hep hep _ _ _ h2
  obtain ⟨rfl, -⟩ : enc' = enc ∧ u' = u := by
    have := h5.symm.trans h2
    simpa using this
  have hba := C38_before_after (e ω) heO enc' dp'.full sh
  rw [h3] at hba
  obtain ⟨b, hb, hafter⟩ := Option.bind_eq_some_iff.1 hba
  obtain ⟨y', hy', hyy⟩ := Option.map_eq_some_iff.1 hafter
  obtain rfl : y' = y := by simpa using hyy
  obtain ⟨b', hb', hblike⟩ := Aux.decode_like sigOf Sum e he ω ω false enc' enc' hlike _ _
    (Aux.decOf_split e he ω true dp' dp' hdp hdp) _ _ hb
  obtain rfl : b' = b := Option.some.inj (hb'.symm.trans hb)
  obtain ⟨w, hw1, hw2⟩ := Aux.pack_fits (e ω) u h4 u.flatten rfl
  obtain ⟨st', hs1, -⟩ := hup _ w hf hw2
  have e1 : gatherGetParams shapeOf (e ω) zeros (e ω).initialState.flatten =
      some ⟨ep', splitBefore dp'.full ((e ω).commutingStructure true), splitAfter dp'.full ((e ω).commutingStructure true),
        splitAfter sh ((e ω).commutingStructure true)⟩ := by
    unfold gatherGetParams
    rw [hp]; dsimp only
    rw [h1]; dsimp only
    rw [h2]; rfl
  have e2 : gatherEncode shapeOf sigOf (e ω) zeros zeros ep' =
      some (⟨enc', splitBefore sh ((e ω).commutingStructure true)⟩, u.flatten) := by
    unfold gatherEncode
    rw [if_pos rfl, h2]; rfl
  have e3 : gatherDecodeBefore sigOf (e ω) enc' ⟨enc', splitBefore sh ((e ω).commutingStructure true)⟩
      (splitBefore dp'.full ((e ω).commutingStructure true)) = some b' := by
    unfold gatherDecodeBefore
    rw [if_pos (Aux.like_compatible hlike)]
    exact hb
  have e4 : gatherDecodeAfter sigOf (e ω) b' b' (splitAfter dp'.full ((e ω).commutingStructure true))
      (splitAfter sh ((e ω).commutingStructure true)) 1 = some y' := by
    unfold gatherDecodeAfter
    rw [if_pos (Aux.like_compatible hblike)]
    exact hy'
  have e5 : (gatherUpdateState (e ω) u (e ω).initialState.flatten u.flatten).isSome = true := by
    unfold gatherUpdateState
    rw [hp, hw1]; dsimp only
    rw [hs1]; rfl
  refine ⟨⟨enc', b', u⟩, ?_⟩
  unfold gatherFromEncoder
  rw [e1]; dsimp only
  rw [h2, e2]; dsimp only
  rw [e3]; dsimp only
  rw [e4]; dsimp only
  rw [if_pos ⟨hy, e5⟩]

/-- **C89 (rounds).** The state update tensors of any worker have the number of entries the server expects, and updating
the state with tensors in that number — of a worker, or aggregated over workers — succeeds and gives a state that the next
round accepts. -/
theorem C89_rounds (shapeOf : T → Sh) (sigOf : T → Γ) {Q : (Ω → Stage T P S U Sh) → List String → Prop}
    (e : Ω → Encoder T P S U Sh) (he : Spec.Family Q e)
    (ω₀ : Ω) (zeros : T) (spec : GatherSpec T U) (hspec : gatherFromEncoder shapeOf sigOf (e ω₀) zeros = some spec) :
    (∀ ω x ep m u, gatherEncode shapeOf sigOf (e ω) zeros x ep = some (m, u) →
      u.length = spec.updates.flatten.length) ∧
    ∀ ω (flat : List S) (us : List U), flat.length = (e ω₀).initialState.flatten.length →
      us.length = spec.updates.flatten.length →
      ∃ flat', gatherUpdateState (e ω) spec.updates flat us = some flat' ∧
        flat'.length = (e ω₀).initialState.flatten.length := by
  obtain ⟨gp, r, x₀, u₀, b, y, -, hr, -, -, -, -, rfl⟩ := Aux.trial hspec
  have heT : ∀ ω, Spec.EveryNode (fun _ _ => True) (e ω) := fun ω => Aux.family_node ω (fun _ _ _ => trivial) e he
  have hfu : Spec.Fits (e ω₀) r.2.1 := Aux.updates_fit _ _ _ _ _ _ _ hr
  refine ⟨?_, ?_⟩
  · intro ω x ep m u h
    unfold gatherEncode at h
    split_ifs at h
    obtain ⟨r', hr', hmu⟩ := Option.map_eq_some_iff.1 h
    obtain ⟨-, rfl⟩ : _ = m ∧ _ = u := by simpa using hmu
    exact Aux.fits_length (e ω₀) _ _ (Aux.fits_draws e he ω ω₀ _ (Aux.updates_fit _ _ _ _ _ _ _ hr')) hfu
  · intro ω flat us hf hu
    have hinit := (C37_reachable_states_fit (e ω) (heT ω)).1
    have hinit₀ := Aux.fits_draws e he ω ω₀ _ hinit
    have hlen := Aux.fits_length (e ω₀) _ _ hinit₀ (C37_reachable_states_fit (e ω₀) (heT ω₀)).1
    obtain ⟨st, h1, h2⟩ := Aux.pack_ok (e ω) (heT ω) flat (hf.trans hlen.symm)
    obtain ⟨u, h3, h4⟩ := Aux.pack_fits (e ω) _ (Aux.fits_draws e he ω₀ ω _ hfu) us hu
    obtain ⟨st', h5, h6⟩ := (C37_reachable_states_fit (e ω) (heT ω)).2 st u h2 h4
    refine ⟨st'.flatten, ?_, (Aux.fits_length (e ω) _ _ h6 hinit).trans hlen⟩
    unfold gatherUpdateState
    rw [h1, h3]
    dsimp only
    rw [h5]
    rfl

end Verif.Props
