import Verif.Encoding.Encoder
import Mathlib.Algebra.BigOperators.Group.Finset.Basic
import Mathlib.Algebra.BigOperators.Fin
import Mathlib.Data.Rat.Defs
import Mathlib.Algebra.Order.Ring.Rat
import Mathlib.Tactic.Ring

/-!
# C37, C38, C39, C42: trees of encoding stages
-/

set_option linter.unusedSectionVars false

namespace Verif.Props

open Verif.Encoding

variable {T P S U Sh : Type}

/-! ## Specification -/

/-- Every node of the encoder (its stage together with the keys of its children) satisfies `Q`. -/
inductive Spec.EveryNode (Q : Stage T P S U Sh → List String → Prop) :
    Encoder T P S U Sh → Prop where
  | node {stage keys child} (h : Q stage keys)
      (hc : ∀ k ∈ keys, Spec.EveryNode Q (child k)) :
      Spec.EveryNode Q (.node stage keys child)

/-- The shape that is handed back to a stage when decoding the encoding of `x`. -/
def Spec.shapeFor (shapeOf : T → Sh) (stage : Stage T P S U Sh) (x : T) : Option Sh :=
  if stage.needsShape then some (shapeOf x) else none

/-- A stage is lossless: with the parameters of any state, decoding undoes encoding. -/
def Spec.Lossless (shapeOf : T → Sh) (stage : Stage T P S U Sh) : Prop :=
  ∀ x s, stage.decode (stage.encode x (stage.getParams s).1).1 (stage.getParams s).2 none
    (Spec.shapeFor shapeOf stage x) = some x

/-- A stage returns a dictionary (each key once) that has all keys in `keys`. -/
def Spec.Returns (stage : Stage T P S U Sh) (keys : List String) : Prop :=
  ∀ x p, ((stage.encode x p).1.map (·.1)).Nodup ∧
    ∀ k ∈ keys, k ∈ (stage.encode x p).1.map (·.1)

/-- A dictionary `t` has the tree structure of the encoder. -/
inductive Spec.Fits {A : Type} : Encoder T P S U Sh → PTree A → Prop where
  | node {stage keys child a child'} (hc : ∀ k ∈ keys, Spec.Fits (child k) (child' k)) :
      Spec.Fits (.node stage keys child) (.node a keys child')

/-- What becomes of `x` on its way through the stages of an encoder with states `st`: the stage encodes `x`, the children
send their tensors through, and the stage decodes what comes back. -/
inductive Spec.Through (shapeOf : T → Sh) : Encoder T P S U Sh → PTree S → T → T → Prop where
  | node {stage : Stage T P S U Sh} {keys child s sc x y} (v : String → T)
      (hnd : ((stage.encode x (stage.getParams s).1).1.map (·.1)).Nodup)
      (hkeys : ∀ k ∈ keys, k ∈ (stage.encode x (stage.getParams s).1).1.map (·.1))
      (hc : ∀ k ∈ keys, ∀ t, (stage.encode x (stage.getParams s).1).1.lookup k = some t →
        Spec.Through shapeOf (child k) (sc k) t (v k))
      (hn : ∀ k, k ∉ keys → ∀ t, (stage.encode x (stage.getParams s).1).1.lookup k = some t → v k = t)
      (hd : stage.decode (((stage.encode x (stage.getParams s).1).1.map (·.1)).map fun k => (k, v k))
        (stage.getParams s).2 none (Spec.shapeFor shapeOf stage x) = some y) :
      Spec.Through shapeOf (.node stage keys child) (.node s keys sc) x y

/-! ## Auxiliary facts about dictionaries -/

instance {A : Type} : Nonempty (PTree A) := ⟨.missing⟩

instance : Nonempty (Enc T) := ⟨.missing⟩

theorem Aux.forKeys_some {A : Type} {m : A} {keys : List String} {f : String → Option A}
    {g : String → A} (h : ∀ k ∈ keys, f k = some (g k)) :
    forKeys m keys f = some fun k => if k ∈ keys then g k else m := by
  unfold forKeys
  rw [if_pos]
  · congr 1
    funext k
    by_cases hk : k ∈ keys
    · simp [hk, h k hk]
    · simp [hk]
  · rw [List.all_eq_true]
    intro k hk
    simp [h k hk]

theorem Aux.forKeys_eq_some {A : Type} {m : A} {keys : List String} {f : String → Option A}
    {c : String → A} (h : forKeys m keys f = some c) :
    (∀ k ∈ keys, f k = some (c k)) ∧ ∀ k, k ∉ keys → c k = m := by
  unfold forKeys at h
  split at h
  · rename_i hall
    rw [List.all_eq_true] at hall
    cases h
    refine ⟨fun k hk => ?_, fun k hk => by simp [hk]⟩
    obtain ⟨v, hv⟩ := Option.isSome_iff_exists.1 (hall k hk)
    simp [hk, hv]
  · cases h

theorem Aux.forKeys_congr {A : Type} {m : A} {keys : List String} {f g : String → Option A}
    (h : ∀ k ∈ keys, f k = g k) : forKeys m keys f = forKeys m keys g := by
  unfold forKeys
  have h1 : (keys.all fun k => (f k).isSome) = keys.all fun k => (g k).isSome := by
    rw [Bool.eq_iff_iff, List.all_eq_true, List.all_eq_true]
    constructor <;> intro h' k hk
    · rw [← h k hk]; exact h' k hk
    · rw [h k hk]; exact h' k hk
  rw [h1]
  split
  · congr 1
    funext k
    by_cases hk : k ∈ keys
    · simp [hk, h k hk]
    · simp [hk]
  · rfl

theorem Aux.asTensors_some {keys : List String} {val : String → Enc T} {t : String → T}
    (h : ∀ k ∈ keys, val k = .tensor (t k)) :
    asTensors keys val = some (keys.map fun k => (k, t k)) := by
  induction keys with
  | nil => rfl
  | cons k ks ih =>
    rw [asTensors, h k (by simp), ih fun j hj => h j (by simp [hj])]
    simp

theorem Aux.asTensors_eq_some {keys : List String} {val : String → Enc T} {d : List (String × T)}
    (h : asTensors keys val = some d) :
    d.map (·.1) = keys ∧ ∀ k ∈ keys, ∃ t, val k = .tensor t := by
  induction keys generalizing d with
  | nil => cases h; simp
  | cons k ks ih =>
    unfold asTensors at h
    split at h
    · rename_i t rest ht hr
      cases h
      obtain ⟨h1, h2⟩ := ih hr
      refine ⟨by simp [h1], ?_⟩
      intro j hj
      rcases List.mem_cons.1 hj with rfl | hj
      · exact ⟨t, ht⟩
      · exact h2 j hj
    · cases h

theorem Aux.asTensors_congr {keys : List String} {v w : String → Enc T}
    (h : ∀ k ∈ keys, v k = w k) : asTensors keys v = asTensors keys w := by
  induction keys with
  | nil => rfl
  | cons k ks ih =>
    rw [asTensors, asTensors, h k (by simp), ih fun j hj => h j (by simp [hj])]

theorem Aux.lookup_of_mem {d : List (String × T)} {k : String} (h : k ∈ d.map (·.1)) :
    ∃ t, d.lookup k = some t := by
  induction d with
  | nil => simp at h
  | cons a d ih =>
    by_cases hk : k = a.1
    · exact ⟨a.2, by simp [List.lookup, hk]⟩
    · have : k ∈ d.map (·.1) := by simpa [hk] using h
      obtain ⟨t, ht⟩ := ih this
      refine ⟨t, ?_⟩
      rw [List.lookup, beq_eq_false_iff_ne.2 hk]
      exact ht

theorem Aux.map_lookup {d : List (String × T)} (hd : (d.map (·.1)).Nodup) (g : String → T)
    (hg : ∀ k ∈ d.map (·.1), d.lookup k = some (g k)) :
    (d.map (·.1)).map (fun k => (k, g k)) = d := by
  induction d with
  | nil => rfl
  | cons a d ih =>
    obtain ⟨k, v⟩ := a
    have hk : k ∉ d.map (·.1) := by simpa using (List.nodup_cons.1 hd).1
    simp only [List.map_cons] at hd hg ⊢
    have h1 : g k = v := by
      have := hg k (by simp)
      simp [List.lookup] at this
      exact this.symm
    rw [h1]
    congr 1
    apply ih (List.nodup_cons.1 hd).2
    intro j hj
    have := hg j (List.mem_cons_of_mem _ hj)
    rw [List.lookup] at this
    have hne : j ≠ k := fun h => hk (h ▸ hj)
    rw [beq_eq_false_iff_ne.2 hne] at this
    exact this

/-! ## C37 -/

theorem Aux.getParams_ok (e : Encoder T P S U Sh) (st : PTree S) (h : Spec.Fits e st) :
    ∃ ep dp, e.getParams st = some (ep, dp) ∧ Spec.Fits e ep ∧ Spec.Fits e dp := by
  induction e generalizing st with
  | missing => cases h
  | node stage keys child ih =>
    cases h with
    | @node _ _ _ s sc hc =>
    have hex : ∀ k, k ∈ keys → ∃ r : PTree P × PTree P,
        (child k).getParams (sc k) = some r ∧ Spec.Fits (child k) r.1 ∧ Spec.Fits (child k) r.2 := by
      intro k hk
      obtain ⟨ep, dp, h1, h2, h3⟩ := ih k (sc k) (hc k hk)
      exact ⟨(ep, dp), h1, h2, h3⟩
    choose! r hr using hex
    refine ⟨?a1, ?a2, ?g1, ?g2, ?g3⟩
    case g1 =>
      simp only [Encoder.getParams]
      rw [Aux.forKeys_some (g := r) (fun k hk => by rw [if_pos hk]; exact (hr k hk).1)]
      rfl
    case g2 => exact .node fun k hk => by simp only [hk, if_true]; exact (hr k hk).2.1
    case g3 => exact .node fun k hk => by simp only [hk, if_true]; exact (hr k hk).2.2

theorem Aux.through (shapeOf : T → Sh) (e : Encoder T P S U Sh) (st : PTree S) (x y : T)
    (h : Spec.Through shapeOf e st x y) :
    ∃ ep dp enc u sh, e.getParams st = some (ep, dp) ∧
      e.encode shapeOf x ep = some (enc, u, sh) ∧
      e.decode enc dp.full sh = some (.tensor y) ∧ Spec.Fits e u := by
  induction h with
  | @node stage keys child s sc x y v hnd hkeys hc hn hdec ih =>
    generalize hd : stage.encode x (stage.getParams s).1 = d at *
    have hlook : ∀ k, k ∈ d.1.map (·.1) → ∃ t, d.1.lookup k = some t :=
      fun k hk => Aux.lookup_of_mem hk
    haveI : Nonempty T := ⟨x⟩
    choose! t ht using hlook
    have hex : ∀ k, k ∈ keys → ∃ r : (PTree P × PTree P) × (Enc T × PTree U × PTree (Option Sh)),
        (child k).getParams (sc k) = some r.1 ∧
        (child k).encode shapeOf (t k) r.1.1 = some r.2 ∧
        (child k).decode r.2.1 r.1.2.full r.2.2.2 = some (.tensor (v k)) ∧
        Spec.Fits (child k) r.2.2.1 := by
      intro k hk
      obtain ⟨ep, dp, enc, u, sh, h1, h2, h3, h4⟩ := ih k hk (t k) (ht k (hkeys k hk))
      exact ⟨((ep, dp), (enc, u, sh)), h1, h2, h3, h4⟩
    choose! r hr using hex
    refine ⟨?a1, ?a2, ?a3, ?a4, ?a5, ?g1, ?g2, ?g3, ?g4⟩
    case g1 =>
      simp only [Encoder.getParams]
      rw [Aux.forKeys_some (g := fun k => (r k).1)
        (fun k hk => by rw [if_pos hk]; exact (hr k hk).1)]
      rfl
    case g2 =>
      simp only [Encoder.encode, hd]
      rw [Aux.forKeys_some (g := fun k => (r k).2) (fun k hk => by
        simp only [ht k (hkeys k hk), hk, if_true]; exact (hr k hk).2.1)]
      rfl
    case g3 =>
      simp only [Encoder.decode, PTree.full, Encoder.decodeBeforeSum, Bool.true_or, if_true]
      rw [Aux.forKeys_some (g := fun k => Enc.tensor (v k))]
      · simp only
        rw [Aux.asTensors_some (t := v) (fun k hk => by rw [if_pos hk])]
        simp only
        unfold Spec.shapeFor at hdec
        rw [hdec]
        rfl
      · intro k hk
        by_cases hkk : k ∈ keys
        · simp only [hkk, and_self, if_true]
          exact (hr k hkk).2.2.1
        · simp only [hkk, if_false, ht k hk, hn k hkk (t k) (ht k hk)]
    case g4 =>
      exact .node fun k hk => by
        simp only [hk, if_true]
        exact (hr k hk).2.2.2

/-- If every stage is lossless, everything gets through unchanged. -/
theorem Aux.through_lossless (shapeOf : T → Sh) (e : Encoder T P S U Sh)
    (he : Spec.EveryNode (fun st keys => Spec.Lossless shapeOf st ∧ Spec.Returns st keys) e)
    (st : PTree S) (hst : Spec.Fits e st) (x : T) : Spec.Through shapeOf e st x x := by
  induction e generalizing st x with
  | missing => cases hst
  | node stage keys child ih =>
    cases hst with
    | @node _ _ _ s sc hc =>
    cases he with
    | node hQ hch =>
    obtain ⟨hl, hr⟩ := hQ
    have hnd := (hr x (stage.getParams s).1).1
    have hkeys := (hr x (stage.getParams s).1).2
    have hlook : ∀ k, k ∈ (stage.encode x (stage.getParams s).1).1.map (·.1) →
        ∃ t, (stage.encode x (stage.getParams s).1).1.lookup k = some t :=
      fun k hk => Aux.lookup_of_mem hk
    haveI : Nonempty T := ⟨x⟩
    choose! t ht using hlook
    have hmem : ∀ k y, (stage.encode x (stage.getParams s).1).1.lookup k = some y → t k = y := by
      intro k y h
      have : k ∈ (stage.encode x (stage.getParams s).1).1.map (·.1) := by
        by_contra hne
        have : (stage.encode x (stage.getParams s).1).1.lookup k = none := by
          rw [List.lookup_eq_none_iff]
          intro p hp
          simp only [List.mem_map, not_exists, not_and] at hne
          simpa using fun h => hne p hp h.symm
        rw [this] at h
        cases h
      rw [ht k this] at h
      exact Option.some.inj h
    refine .node t hnd hkeys (fun k hk y hy => ?_) (fun k _ y hy => hmem k y hy) ?_
    · rw [hmem k y hy]
      exact ih k (hch k hk) (sc k) (hc k hk) y
    · rw [Aux.map_lookup hnd t ht]
      exact hl x s

/-- **C37 (composition).**  For every tree of stages and every state, encoding and decoding with the tree gives what
sending the tensor through its stages one by one gives. -/
theorem C37_composition (shapeOf : T → Sh) (e : Encoder T P S U Sh) (st : PTree S) (x y : T)
    (h : Spec.Through shapeOf e st x y) :
    ∃ ep dp enc u sh, e.getParams st = some (ep, dp) ∧
      e.encode shapeOf x ep = some (enc, u, sh) ∧ e.decode enc dp.full sh = some (.tensor y) := by
  obtain ⟨ep, dp, enc, u, sh, h1, h2, h3, _⟩ := Aux.through shapeOf e st x y h
  exact ⟨ep, dp, enc, u, sh, h1, h2, h3⟩

/-- **C37.**  If every stage of the tree is lossless, decoding the encoding of `x` returns `x`, for
every tree of stages and every state (in particular every reachable one). -/
theorem C37_roundtrip (shapeOf : T → Sh) (e : Encoder T P S U Sh)
    (he : Spec.EveryNode (fun st keys => Spec.Lossless shapeOf st ∧ Spec.Returns st keys) e)
    (st : PTree S) (hst : Spec.Fits e st) (x : T) :
    ∃ ep dp enc u sh, e.getParams st = some (ep, dp) ∧
      e.encode shapeOf x ep = some (enc, u, sh) ∧
      e.decode enc dp.full sh = some (.tensor x) := by
  obtain ⟨ep, dp, enc, u, sh, h1, h2, h3, _⟩ :=
    Aux.through shapeOf e st x x (Aux.through_lossless shapeOf e he st hst x)
  exact ⟨ep, dp, enc, u, sh, h1, h2, h3⟩

/-- **C37 (reachable states).**  The initial state fits, and so does every updated one. -/
theorem C37_reachable_states_fit (e : Encoder T P S U Sh)
    (he : Spec.EveryNode (fun _ _ => True) e) :
    Spec.Fits e e.initialState ∧
      ∀ st u, Spec.Fits e st → Spec.Fits (A := U) e u →
        ∃ st', e.updateState st u = some st' ∧ Spec.Fits e st' := by
  induction e with
  | missing => cases he
  | node stage keys child ih =>
    cases he with
    | node _ hc =>
    refine ⟨.node fun k hk => by rw [if_pos hk]; exact (ih k (hc k hk)).1, ?_⟩
    intro st u hst hu
    cases hst with
    | @node _ _ _ s sc hs =>
    cases hu with
    | @node _ _ _ u uc hu =>
    have hex : ∀ k, k ∈ keys → ∃ st', (child k).updateState (sc k) (uc k) = some st' ∧
        Spec.Fits (child k) st' := fun k hk => (ih k (hc k hk)).2 _ _ (hs k hk) (hu k hk)
    choose! r hr using hex
    refine ⟨?a1, ?g1, ?g2⟩
    case g1 =>
      simp only [Encoder.updateState]
      rw [Aux.forKeys_some (g := r)
        (fun k hk => by rw [if_pos ⟨hk, hk⟩]; exact (hr k hk).1)]
      rfl
    case g2 => exact .node fun k hk => by rw [if_pos hk]; exact (hr k hk).2

/-! ## C38 -/

/-- With one summand a stage decodes as without a number of summands. -/
def Spec.OneSummand (stage : Stage T P S U Sh) : Prop :=
  ∀ d p sh, stage.decode d p (some 1) sh = stage.decode d p none sh

/-- What it means for a stage to commute with sum when it decodes with the parameters `p`, for any notion `Sum` of sums of
tensors (`tf.add` is defined only for tensors of one type and shape): if a dictionary is the key-wise sum of any positive
number of dictionaries, then decoding it, told how many there were, succeeds and gives the sum of the individual
decodings. -/
def Spec.SumLaw (Sum : (n : Nat) → (Fin (n + 1) → T) → T → Prop) (stage : Stage T P S U Sh) (p : P) : Prop :=
  ∀ (n : Nat) (sh : Option Sh) (ks : List String) (f : Fin (n + 1) → String → T) (g : String → T)
    (t : Fin (n + 1) → T),
    (∀ k ∈ ks, Sum n (fun i => f i k) (g k)) →
    (∀ i, stage.decode (ks.map fun k => (k, f i k)) p none sh = some (t i)) →
    ∃ r, stage.decode (ks.map fun k => (k, g k)) p (some (n + 1)) sh = some r ∧ Sum n t r

/-- Every stage of the encoder satisfies `Q` together with its entry in the parameter dictionary. -/
inductive Spec.EveryParam (Q : Stage T P S U Sh → P → Prop) : Encoder T P S U Sh → PTree (Option P) → Prop where
  | node {stage keys child a keys' c} (h : ∀ q, a = some q → Q stage q)
      (hc : ∀ k ∈ keys, Spec.EveryParam Q (child k) (c k)) :
      Spec.EveryParam Q (.node stage keys child) (.node a keys' c)

/-- `s` is the sum (`tf.nest.map_structure(add, ...)`) of the partially decoded values `e i`. -/
inductive Spec.IsSum (Sum : (n : Nat) → (Fin (n + 1) → T) → T → Prop) {n : Nat} :
    (Fin (n + 1) → Enc T) → Enc T → Prop where
  | tensor (t : Fin (n + 1) → T) (r : T) (h : Sum n t r) : Spec.IsSum Sum (fun i => .tensor (t i)) (.tensor r)
  | dict (ks : List String) (v : Fin (n + 1) → String → Enc T) (w : String → Enc T)
      (h : ∀ k ∈ ks, Spec.IsSum Sum (fun i => v i k) (w k)) :
      Spec.IsSum Sum (fun i => .dict ks (v i)) (.dict ks w)

/-- Once a stage that does not commute has been passed, everything needed is in the before-sum part
of a split. -/
theorem Aux.decode_split_false (e : Encoder T P S U Sh) (x : Enc T) (p : PTree (Option P))
    (sh : PTree (Option Sh)) :
    e.decodeBeforeSum true x (splitBefore p (e.commutingStructure false))
      (splitBefore sh (e.commutingStructure false)) = e.decodeBeforeSum true x p sh := by
  induction e generalizing x p sh with
  | missing => cases x <;> cases p <;> cases sh <;> rfl
  | node stage keys child ih =>
    cases p with
    | missing => cases x <;> cases sh <;> rfl
    | node pv pk pc =>
      cases sh with
      | missing => cases x <;> rfl
      | node sv sk sc =>
        cases x with
        | missing => rfl
        | tensor t => rfl
        | dict ks val =>
          simp only [Encoder.commutingStructure, splitBefore, Encoder.decodeBeforeSum,
            Bool.false_and, Bool.false_eq_true, if_false, Bool.true_or, if_true, ih]

theorem Aux.before_noncommuting (stage : Stage T P S U Sh) (keys : List String)
    (child : String → Encoder T P S U Sh) (hcom : stage.commutes = false) (x : Enc T)
    (p : PTree (Option P)) (sh : PTree (Option Sh)) :
    (Encoder.node stage keys child).decodeBeforeSum false x
      (splitBefore p ((Encoder.node stage keys child).commutingStructure true))
      (splitBefore sh ((Encoder.node stage keys child).commutingStructure true)) =
    (Encoder.node stage keys child).decodeBeforeSum true x p sh := by
  cases p with
  | missing => cases x <;> cases sh <;> rfl
  | node pv pk pc =>
    cases sh with
    | missing => cases x <;> rfl
    | node sv sk sc =>
      cases x with
      | missing => rfl
      | tensor t => rfl
      | dict ks val =>
        simp only [Encoder.commutingStructure, splitBefore, Encoder.decodeBeforeSum, hcom,
          Bool.and_false, Bool.false_eq_true, if_false, Bool.not_false, Bool.or_true, if_true,
          Aux.decode_split_false]

/-- Full decoding returns a tensor. -/
theorem Aux.decode_tensor {e : Encoder T P S U Sh} {x : Enc T} {p : PTree (Option P)}
    {sh : PTree (Option Sh)} {y : Enc T} (h : e.decodeBeforeSum true x p sh = some y) :
    ∃ t, y = .tensor t := by
  cases e with
  | missing => cases x <;> cases p <;> cases sh <;> cases h
  | node stage keys child =>
    cases p with
    | missing => cases x <;> cases sh <;> cases h
    | node pv pk pc =>
      cases sh with
      | missing => cases x <;> cases h
      | node sv sk sc =>
        cases x with
        | missing => cases h
        | tensor t => cases h
        | dict ks val =>
          simp only [Encoder.decodeBeforeSum, Bool.true_or, if_true] at h
          split at h
          · cases h
          · split at h
            · obtain ⟨t, _, rfl⟩ := Option.map_eq_some_iff.1 h
              exact ⟨t, rfl⟩
            · cases h

/-- **C38 (one encoding).**  Decoding after the sum what was decoded before the sum — with the
parameters and shapes split between the two halves — equals the full decoding, for every encoder,
every encoded value and all parameters. -/
theorem C38_before_after (e : Encoder T P S U Sh)
    (he : Spec.EveryNode (fun st _ => st.commutes = true → Spec.OneSummand st) e)
    (x : Enc T) (p : PTree (Option P)) (sh : PTree (Option Sh)) :
    ((e.decodeBeforeSum false x (splitBefore p (e.commutingStructure true))
        (splitBefore sh (e.commutingStructure true))).bind fun b =>
      (e.decodeAfterSum b (splitAfter p (e.commutingStructure true)) 1
        (splitAfter sh (e.commutingStructure true))).map Enc.tensor) = e.decode x p sh := by
  unfold Encoder.decode
  induction e generalizing x p sh with
  | missing => cases x <;> cases p <;> cases sh <;> rfl
  | node stage keys child ih =>
    cases he with
    | node hQ hch =>
    cases hcom : stage.commutes with
    | false =>
      rw [Aux.before_noncommuting stage keys child hcom]
      cases h : (Encoder.node stage keys child).decodeBeforeSum true x p sh with
      | none => rfl
      | some y =>
        obtain ⟨t, rfl⟩ := Aux.decode_tensor h
        simp [Encoder.decodeAfterSum, hcom]
    | true =>
      cases p with
      | missing => cases x <;> cases sh <;> rfl
      | node pv pk pc =>
        cases sh with
        | missing => cases x <;> rfl
        | node sv sk sc =>
          cases x with
          | missing => rfl
          | tensor t => rfl
          | dict ks val =>
            have h1 := hQ hcom
            simp only [Encoder.commutingStructure, splitBefore, splitAfter,
              Encoder.decodeBeforeSum, hcom, Bool.and_self, Bool.not_true, Bool.or_false, if_true,
              Bool.false_eq_true, if_false, Bool.true_or]
            -- compare the two loops
            generalize hB : (fun k => if k ∈ keys then
                if k ∈ pk ∧ k ∈ sk then
                  (child k).decodeBeforeSum false (val k)
                    (splitBefore (pc k) ((child k).commutingStructure true))
                    (splitBefore (sc k) ((child k).commutingStructure true))
                else none
              else some (val k)) = fB
            generalize hF : (fun k => if k ∈ keys then
                if k ∈ pk ∧ k ∈ sk then (child k).decodeBeforeSum true (val k) (pc k) (sc k)
                else none
              else some (val k)) = fF
            have key : ∀ k ∈ ks, ((fB k).bind fun b => if k ∈ keys then
                if k ∈ pk ∧ k ∈ sk then
                  ((child k).decodeAfterSum b
                    (splitAfter (pc k) ((child k).commutingStructure true)) 1
                    (splitAfter (sc k) ((child k).commutingStructure true))).map Enc.tensor
                else none
              else some b) = fF k := by
              intro k _
              rw [← hB, ← hF]
              by_cases hk : k ∈ keys
              · by_cases hk2 : k ∈ pk ∧ k ∈ sk
                · simp only [hk, hk2, and_self, if_true]
                  exact ih k (hch k hk) (val k) (pc k) (sc k)
                · simp only [hk, hk2, if_true, if_false]; rfl
              · simp [hk]
            cases hb : forKeys Enc.missing ks fB with
            | none =>
              -- some key fails before the sum, so it fails in the full decoding
              have : forKeys Enc.missing ks fF = none := by
                cases hf : forKeys Enc.missing ks fF with
                | none => rfl
                | some c =>
                  exfalso
                  have hc := (Aux.forKeys_eq_some hf).1
                  unfold forKeys at hb
                  rw [if_pos] at hb
                  · cases hb
                  · rw [List.all_eq_true]
                    intro k hk
                    have h := key k hk
                    rw [hc k hk] at h
                    cases hfb : fB k with
                    | none => rw [hfb] at h; cases h
                    | some b => rfl
              rw [this]
              rfl
            | some b =>
              have hb' := (Aux.forKeys_eq_some hb).1
              simp only [Option.bind_some, Encoder.decodeAfterSum, hcom, Bool.true_eq_false,
                if_false]
              have hcongr : (forKeys Enc.missing ks fun k => if k ∈ keys then
                  if k ∈ pk ∧ k ∈ sk then
                    ((child k).decodeAfterSum (b k)
                      (splitAfter (pc k) ((child k).commutingStructure true)) 1
                      (splitAfter (sc k) ((child k).commutingStructure true))).map Enc.tensor
                  else none
                else some (b k)) = forKeys Enc.missing ks fF := by
                apply Aux.forKeys_congr
                intro k hk
                rw [← key k hk, hb' k hk]
                rfl
              rw [hcongr]
              cases forKeys Enc.missing ks fF with
              | none => rfl
              | some c =>
                simp only
                cases asTensors ks c with
                | none => rfl
                | some d =>
                  cases pv with
                  | none => rfl
                  | some pv => simp only [h1 d pv sv]

/-- **C38 (aggregation).**  `n+1` clients with encodings `x i`, the same decode parameters, and
shapes that agree on the part used after the sum: if all commuting stages of the tree really commute
with sum, then summing what the clients decode before the sum and decoding the sum gives the sum of
the clients' full decodings. -/
theorem C38_aggregate (Sum : (n : Nat) → (Fin (n + 1) → T) → T → Prop) (e : Encoder T P S U Sh)
    {n : Nat} (x b : Fin (n + 1) → Enc T) (t : Fin (n + 1) → T) (p : PTree (Option P))
    (he : Spec.EveryParam (fun st q => st.commutes = true → Spec.SumLaw Sum st q) e p)
    (sh : Fin (n + 1) → PTree (Option Sh)) (shAfter : PTree (Option Sh)) (s : Enc T)
    (hsh : ∀ i, splitAfter (sh i) (e.commutingStructure true) = shAfter)
    (hb : ∀ i, e.decodeBeforeSum false (x i) (splitBefore p (e.commutingStructure true))
      (splitBefore (sh i) (e.commutingStructure true)) = some (b i))
    (ht : ∀ i, e.decode (x i) p (sh i) = some (.tensor (t i)))
    (hs : Spec.IsSum Sum b s) :
    ∃ r, e.decodeAfterSum s (splitAfter p (e.commutingStructure true)) (n + 1) shAfter = some r ∧ Sum n t r := by
  unfold Encoder.decode at ht
  induction e generalizing x b t p sh shAfter s with
  | missing =>
    exfalso
    have := ht 0
    revert this
    cases x 0 <;> cases p <;> cases sh 0 <;> simp [Encoder.decodeBeforeSum]
  | node stage keys child ih =>
    cases he with
    | @node _ _ _ pv pk pc hQ hch =>
    cases hcom : stage.commutes with
    | false =>
      have hbt : b = fun i => Enc.tensor (t i) := by
        funext i
        have h := hb i
        rw [Aux.before_noncommuting stage keys child hcom, ht i] at h
        exact (Option.some.inj h).symm
      rw [hbt] at hs
      unfold Encoder.decodeAfterSum
      rw [if_pos hcom]
      generalize hg : (fun i => Enc.tensor (t i)) = g at hs
      cases hs with
      | tensor t' r hr =>
        have : t = t' := by
          funext i
          have := congrFun hg i
          simpa using this
        rw [this]
        exact ⟨r, rfl, hr⟩
      | dict ks v w h => exact absurd (congrFun hg 0) (by simp)
    | true =>
      have hshn : ∀ i, ∃ sv sk sc, sh i = .node sv sk sc := by
        intro i
        cases hi : sh i with
        | missing =>
          have := ht i
          rw [hi] at this
          revert this
          cases x i <;> simp [Encoder.decodeBeforeSum]
        | node sv sk sc => exact ⟨sv, sk, sc, rfl⟩
      choose sv sk sc hshn using hshn
      have hxd : ∀ i, ∃ ks val, x i = .dict ks val := by
        intro i
        cases hi : x i with
        | missing =>
          have := ht i
          rw [hi] at this
          simp [Encoder.decodeBeforeSum] at this
        | tensor _ =>
          have := ht i
          rw [hi] at this
          simp [Encoder.decodeBeforeSum] at this
        | dict ks val => exact ⟨ks, val, rfl⟩
      choose ks val hxd using hxd
      obtain ⟨sA, skA, scA, rfl⟩ : ∃ sA skA scA, shAfter = .node sA skA scA := by
        have := hsh 0
        rw [hshn 0] at this
        simp only [Encoder.commutingStructure, splitAfter] at this
        exact ⟨_, _, _, this.symm⟩
      have hsh' : ∀ i, sv i = sA ∧ sk i = skA ∧
          ∀ k, splitAfter (sc i k) ((child k).commutingStructure true) = scA k := by
        intro i
        have := hsh i
        rw [hshn i] at this
        simp only [Encoder.commutingStructure, splitAfter, hcom, Bool.and_self, if_true,
          PTree.node.injEq] at this
        exact ⟨this.1, this.2.1, fun k => congrFun this.2.2 k⟩
      -- what each client does
      have hcl : ∀ i, ∃ tmp : String → Enc T, b i = .dict (ks i) tmp ∧
          (∀ k ∈ ks i, (if k ∈ keys then
              if k ∈ pk ∧ k ∈ sk i then
                (child k).decodeBeforeSum false (val i k)
                  (splitBefore (pc k) ((child k).commutingStructure true))
                  (splitBefore (sc i k) ((child k).commutingStructure true))
              else none
            else some (val i k)) = some (tmp k)) := by
        intro i
        have h := hb i
        rw [hxd i, hshn i] at h
        simp only [Encoder.commutingStructure, splitBefore, Encoder.decodeBeforeSum, hcom,
          Bool.and_self, Bool.not_true, Bool.or_false, Bool.false_eq_true, if_false, if_true] at h
        split at h
        · cases h
        · rename_i tmp htmp
          exact ⟨tmp, (Option.some.inj h).symm, (Aux.forKeys_eq_some htmp).1⟩
      choose tmp hbt htmp using hcl
      have hfull : ∀ i, ∃ (f : String → T) (pv' : P), pv = some pv' ∧
          (∀ k ∈ ks i, (if k ∈ keys then
              if k ∈ pk ∧ k ∈ sk i then
                (child k).decodeBeforeSum true (val i k) (pc k) (sc i k)
              else none
            else some (val i k)) = some (.tensor (f k))) ∧
          stage.decode ((ks i).map fun k => (k, f k)) pv' none (sv i) = some (t i) := by
        intro i
        have h := ht i
        rw [hxd i, hshn i] at h
        simp only [Encoder.decodeBeforeSum, Bool.true_or, if_true] at h
        split at h
        · cases h
        · rename_i tm htm
          have htm := (Aux.forKeys_eq_some htm).1
          split at h
          · rename_i d pv' hd
            obtain ⟨_, hd2⟩ := Aux.asTensors_eq_some hd
            haveI : Nonempty T := ⟨t i⟩
            choose! f hf using hd2
            have hd' := Aux.asTensors_some hf
            rw [hd] at hd'
            refine ⟨f, pv', rfl, fun k hk => by rw [← hf k hk]; exact htm k hk, ?_⟩
            rw [← Option.some.inj hd']
            obtain ⟨t', ht', he'⟩ := Option.map_eq_some_iff.1 h
            cases he'
            exact ht'
          · cases h
      choose f pv' hpv hf hdec using hfull
      -- the sum
      have hb' : b = fun i => Enc.dict (ks i) (tmp i) := by funext i; exact hbt i
      rw [hb'] at hs
      generalize hg : (fun i => Enc.dict (ks i) (tmp i)) = g at hs
      cases hs with
      | tensor t' _ _ => exact absurd (congrFun hg 0) (by simp)
      | dict K v w hw =>
        have hkv : ∀ i, ks i = K ∧ tmp i = v i := by
          intro i
          have := congrFun hg i
          simpa using this
        have hK : ∀ i, ks i = K := fun i => (hkv i).1
        have hv : ∀ i, tmp i = v i := fun i => (hkv i).2
        have hstep : ∀ k ∈ K, ∃ r, (if k ∈ keys then
              if k ∈ pk ∧ k ∈ skA then
                ((child k).decodeAfterSum (w k)
                  (splitAfter (pc k) ((child k).commutingStructure true)) (n + 1) (scA k)).map
                  Enc.tensor
              else none
            else some (w k)) = some (Enc.tensor r) ∧ Sum n (fun i => f i k) r := by
          intro k hk
          have hB := fun i => htmp i k (by rw [hK i]; exact hk)
          have hF := fun i => hf i k (by rw [hK i]; exact hk)
          by_cases hkk : k ∈ keys
          · simp only [hkk, if_true] at hB hF ⊢
            have hmem : ∀ i, k ∈ pk ∧ k ∈ sk i := by
              intro i
              by_contra hne
              have := hF i
              rw [if_neg hne] at this
              cases this
            have hmemA : k ∈ pk ∧ k ∈ skA := by
              have := hmem 0
              rwa [(hsh' 0).2.1] at this
            have hB := fun i => (if_pos (hmem i)).symm.trans (hB i)
            have hF := fun i => (if_pos (hmem i)).symm.trans (hF i)
            rw [if_pos hmemA]
            obtain ⟨r, hr, hR⟩ := ih k (fun i => val i k) (fun i => tmp i k) (fun i => f i k) (pc k)
              (hch k hkk) (fun i => sc i k) (scA k) (w k) (fun i => (hsh' i).2.2 k) hB hF
              (by simpa only [hv] using hw k hk)
            exact ⟨r, by rw [hr]; rfl, hR⟩
          · simp only [hkk, if_false, Option.some.injEq] at hB hF ⊢
            have h1 : (fun i => v i k) = fun i => Enc.tensor (f i k) := by
              funext i
              rw [← hv i, ← hB i, hF i]
            have h2 := hw k hk
            rw [h1] at h2
            generalize hg2 : (fun i => Enc.tensor (f i k)) = g2 at h2
            generalize w k = wk at h2
            cases h2 with
            | tensor t' r hr =>
              have : (fun i => f i k) = t' := by
                funext i
                have := congrFun hg2 i
                simpa using this
              exact ⟨r, rfl, this ▸ hr⟩
            | dict _ _ _ _ => exact absurd (congrFun hg2 0) (by simp)
        simp only [Encoder.commutingStructure, splitAfter, hcom, Bool.and_self, if_true,
          Encoder.decodeAfterSum, Bool.true_eq_false, if_false]
        haveI : Nonempty T := ⟨t 0⟩
        choose! g hg1 hg2 using hstep
        rw [Aux.forKeys_some (g := fun k => Enc.tensor (g k)) hg1]
        simp only
        rw [Aux.asTensors_some (t := g) (fun k hk => by rw [if_pos hk])]
        have hpv0 := hpv 0
        subst hpv0
        simp only
        apply hQ (pv' 0) rfl hcom n sA K f g t hg2
        intro i
        have h := hdec i
        rw [hK i, (hsh' i).1] at h
        have : pv' i = pv' 0 := by
          have := hpv i
          simpa using this.symm
        rwa [this] at h

/-! ## C39 -/

/-- **C39 (Encoder).**  An `Encoder` reports that it fully commutes with sum exactly when every
stage of its tree commutes. -/
theorem C39_encoder_partial (e : Encoder T P S U Sh) :
    e.fullyCommutes = true ↔ Spec.EveryNode (fun st _ => st.commutes = true) e := by
  induction e with
  | missing =>
    constructor
    · intro h; cases h
    · intro h; cases h
  | node stage keys child ih =>
    simp only [Encoder.fullyCommutes, Bool.and_eq_true, List.all_eq_true]
    constructor
    · rintro ⟨h1, h2⟩
      exact .node h2 fun k hk => (ih k).1 (h1 k hk)
    · intro h
      cases h with
      | node h1 h2 => exact ⟨fun k hk => (ih k).2 (h2 k hk), h1⟩

theorem Aux.structure_false (e : Encoder T P S U Sh) :
    ∀ b ∈ (e.commutingStructure false).flatten, b = false := by
  induction e with
  | missing => intro b hb; simp [Encoder.commutingStructure, PTree.flatten] at hb
  | node stage keys child ih =>
    intro b hb
    simp only [Encoder.commutingStructure, PTree.flatten, List.mem_cons, List.mem_flatMap,
      Bool.false_and] at hb
    rcases hb with rfl | ⟨k, _, hk⟩
    · rfl
    · exact ih k b hk

/-- **C39 (GatherEncoder, what the code computes).**  The `GatherEncoder` property is truthy exactly
when the *root* stage commutes. -/
theorem C39_gather_is_root (stage : Stage T P S U Sh) (keys : List String)
    (child : String → Encoder T P S U Sh) :
    gatherFullyCommutes (.node stage keys child) ≠ 0 ↔ stage.commutes = true := by
  unfold gatherFullyCommutes
  simp only [Encoder.commutingStructure, Bool.true_and, PTree.flatten, List.map_cons, List.sum_cons]
  cases h : stage.commutes with
  | true => simp
  | false =>
    simp only [Bool.toNat_false, Nat.zero_add, Bool.false_eq_true, iff_false, not_not]
    apply List.sum_eq_zero
    intro n hn
    obtain ⟨b, hb, rfl⟩ := List.mem_map.1 hn
    obtain ⟨k, _, hk⟩ := List.mem_flatMap.1 hb
    rw [Aux.structure_false (child k) b hk]
    rfl

/-- A stage that passes its input through under one key. -/
def Example.passStage (commutes : Bool) : Stage ℚ Unit Nat Nat Unit where
  compressible := ["values"]
  commutes := commutes
  needsShape := false
  initialState := 0
  updateState := fun s u => s + u
  getParams := fun _ => ((), ())
  encode := fun x _ => ([("values", x)], 1)
  decode := fun d _ _ _ => d.lookup "values"

def Example.twoStages : Encoder ℚ Unit Nat Nat Unit :=
  .node (Example.passStage true) ["values"] fun _ => .node (Example.passStage false) [] fun _ => .missing

/-- **C39 is violated by `GatherEncoder`**: a commuting root with a child that does not commute is
reported as fully commuting. -/
theorem C39_gather_violated :
    gatherFullyCommutes Example.twoStages ≠ 0 ∧ Example.twoStages.fullyCommutes = false ∧
      ¬ Spec.EveryNode (fun st _ => st.commutes = true) Example.twoStages := by
  refine ⟨by decide, by decide, ?_⟩
  rw [← C39_encoder_partial]
  decide

theorem Example.pass_lossless (c : Bool) : Spec.Lossless (fun _ => ()) (Example.passStage c) := by
  intro x s
  rfl

example : Spec.EveryNode
    (fun st keys => Spec.Lossless (fun _ => ()) st ∧ Spec.Returns st keys) Example.twoStages ∧
    Spec.Fits Example.twoStages Example.twoStages.initialState := by
  refine ⟨.node ⟨Example.pass_lossless true, ?_⟩ fun k hk =>
    .node ⟨Example.pass_lossless false, ?_⟩ fun k hk => by simp at hk, ?_⟩
  · intro x p; simp [Example.passStage]
  · intro x p; simp [Example.passStage]
  · exact .node fun k hk => by rw [if_pos hk]; exact .node fun k hk => by simp at hk

/-- The pass-through stage really commutes with sum, so that the aggregation theorem applies to the
two-stage encoder. -/
example (p : PTree (Option Unit)) (hp : Spec.Fits Example.twoStages p) :
    Spec.EveryParam (fun st q => st.commutes = true → Spec.SumLaw (fun _ t r => r = ∑ i, t i) st q)
    Example.twoStages p := by
  cases hp with
  | @node _ _ _ _ c hc =>
  refine .node (fun _ _ _ => ?_) fun k hk => ?_
  swap
  · have h := hc k hk
    generalize c k = ck at h
    cases h
    exact .node (fun _ _ h => by simp [Example.passStage] at h) fun k hk => by simp at hk
  intro n sh ks f g t hg h
  have key : ∀ (g : String → ℚ) (ks : List String) (y : ℚ),
      (ks.map fun k => (k, g k)).lookup "values" = some y ↔ "values" ∈ ks ∧ g "values" = y := by
    intro g ks y
    induction ks with
    | nil => simp
    | cons a ks ih =>
      rw [List.map_cons, List.lookup]
      by_cases ha : "values" = a
      · subst ha; simp
      · have : ("values" == a) = false := by simpa using ha
        simp [this, ih, ha]
  simp only [Example.passStage] at h ⊢
  have hm := ((key _ _ _).1 (h 0)).1
  refine ⟨g "values", (key _ _ _).2 ⟨hm, rfl⟩, ?_⟩
  rw [hg _ hm]
  exact Finset.sum_congr rfl fun i _ => ((key _ _ _).1 (h i)).2

/-! ## C42 -/

/-- The state of a stage after it has encoded the inputs `xs`: start from its initial state and
update with the state update tensors of each encoding, each encoding using the state before it. -/
def Spec.stageState (st : Stage T P S U Sh) (xs : List T) : S :=
  xs.foldl (fun s x => st.updateState s (st.encode x (st.getParams s).1).2) st.initialState

/-- What the child at key `k` gets to encode: the tensors the stage produced for `k`. -/
def Spec.childInputs (st : Stage T P S U Sh) (k : String) (xs : List T) : List T :=
  (xs.foldl (fun (a : S × List T) x =>
    let r := st.encode x (st.getParams a.1).1
    (st.updateState a.1 r.2, a.2 ++ (r.1.lookup k).toList)) (st.initialState, [])).2

/-- The states of all stages after the encoder has encoded `xs`. -/
def Spec.stateAfter : Encoder T P S U Sh → List T → PTree S
  | .missing, _ => .missing
  | .node st keys child, xs =>
    .node (Spec.stageState st xs) keys fun k =>
      if k ∈ keys then Spec.stateAfter (child k) (Spec.childInputs st k xs) else .missing

theorem Aux.childInputs_snoc (st : Stage T P S U Sh) (k : String) (xs : List T) (x : T) :
    Spec.childInputs st k (xs ++ [x]) = Spec.childInputs st k xs ++
      ((st.encode x (st.getParams (Spec.stageState st xs)).1).1.lookup k).toList := by
  have h1 : ∀ (xs : List T) (s : S) (acc : List T),
      (xs.foldl (fun (a : S × List T) x =>
        let r := st.encode x (st.getParams a.1).1
        (st.updateState a.1 r.2, a.2 ++ (r.1.lookup k).toList)) (s, acc)).1 =
      xs.foldl (fun s x => st.updateState s (st.encode x (st.getParams s).1).2) s := by
    intro xs
    induction xs with
    | nil => intro s acc; rfl
    | cons x xs ih => intro s acc; exact ih _ _
  unfold Spec.childInputs
  rw [List.foldl_append]
  simp only [List.foldl_cons, List.foldl_nil]
  rw [h1]
  rfl

theorem Aux.stageState_snoc (st : Stage T P S U Sh) (xs : List T) (x : T) :
    Spec.stageState st (xs ++ [x]) = st.updateState (Spec.stageState st xs)
      (st.encode x (st.getParams (Spec.stageState st xs)).1).2 := by
  unfold Spec.stageState
  rw [List.foldl_append]
  rfl

theorem Aux.stateAfter_fits (e : Encoder T P S U Sh) (he : Spec.EveryNode (fun _ _ => True) e)
    (xs : List T) : Spec.Fits e (Spec.stateAfter e xs) := by
  induction e generalizing xs with
  | missing => cases he
  | node st keys child ih =>
    cases he with
    | node _ hc => exact .node fun k hk => by rw [if_pos hk]; exact ih k (hc k hk) _

/-- One encode call moves the states from "after `xs`" to "after `xs ++ [x]`". -/
theorem Aux.encode_step (shapeOf : T → Sh) (e : Encoder T P S U Sh)
    (he : Spec.EveryNode (fun st keys => Spec.Returns st keys) e) (xs : List T) (x : T) :
    ∃ ep dp enc u sh, e.getParams (Spec.stateAfter e xs) = some (ep, dp) ∧
      e.encode shapeOf x ep = some (enc, u, sh) ∧
      e.updateState (Spec.stateAfter e xs) u = some (Spec.stateAfter e (xs ++ [x])) := by
  induction e generalizing xs x with
  | missing => cases he
  | node stage keys child ih =>
    cases he with
    | node hr hch =>
    generalize hs : Spec.stageState stage xs = s
    generalize hd : stage.encode x (stage.getParams s).1 = d
    have hkeys := (hr x (stage.getParams s).1).2
    rw [hd] at hkeys
    have hlook : ∀ k, k ∈ d.1.map (·.1) → ∃ t, d.1.lookup k = some t :=
      fun k hk => Aux.lookup_of_mem hk
    haveI : Nonempty T := ⟨x⟩
    choose! t ht using hlook
    have hex : ∀ k, k ∈ keys → ∃ r : (PTree P × PTree P) × (Enc T × PTree U × PTree (Option Sh)),
        (child k).getParams (Spec.stateAfter (child k) (Spec.childInputs stage k xs)) = some r.1 ∧
        (child k).encode shapeOf (t k) r.1.1 = some r.2 ∧
        (child k).updateState (Spec.stateAfter (child k) (Spec.childInputs stage k xs)) r.2.2.1 =
          some (Spec.stateAfter (child k) (Spec.childInputs stage k xs ++ [t k])) := by
      intro k hk
      obtain ⟨ep, dp, enc, u, sh, h1, h2, h3⟩ :=
        ih k (hch k hk) (Spec.childInputs stage k xs) (t k)
      exact ⟨((ep, dp), (enc, u, sh)), h1, h2, h3⟩
    choose! r hr using hex
    refine ⟨?a1, ?a2, ?a3, ?a4, ?a5, ?g1, ?g2, ?g3⟩
    case g1 =>
      simp only [Encoder.getParams, Spec.stateAfter, hs]
      rw [Aux.forKeys_some (g := fun k => (r k).1)
        (fun k hk => by rw [if_pos hk, if_pos hk]; exact (hr k hk).1)]
      rfl
    case g2 =>
      simp only [Encoder.encode, hd]
      rw [Aux.forKeys_some (g := fun k => (r k).2) (fun k hk => by
        simp only [ht k (hkeys k hk), hk, if_true]; exact (hr k hk).2.1)]
      rfl
    case g3 =>
      simp only [Encoder.updateState, Spec.stateAfter, hs]
      rw [Aux.forKeys_some (g := fun k => Spec.stateAfter (child k)
        (Spec.childInputs stage k xs ++ [t k])) (fun k hk => by
          simp only [hk, and_self, if_true]; exact (hr k hk).2.2)]
      simp only [Option.map_some, Option.some.injEq, PTree.node.injEq, true_and]
      refine ⟨?_, ?_⟩
      · rw [Aux.stageState_snoc, hs, hd]
      · funext k
        by_cases hk : k ∈ keys
        · simp only [hk, if_true]
          rw [Aux.childInputs_snoc, hs, hd, ht k (hkeys k hk)]
          rfl
        · simp only [hk, if_false]


/-- Two dictionaries have the same structure, and the second has nothing outside it. -/
inductive Aux.Aligned {A B : Type} : PTree B → PTree A → Prop where
  | node {b a keys c d} (h : ∀ k ∈ keys, Aux.Aligned (c k) (d k))
      (hm : ∀ k, k ∉ keys → d k = .missing) : Aux.Aligned (.node b keys c) (.node a keys d)

theorem Aux.pack_aux {A B : Type} (s : PTree B) (t : PTree A) (h : Aux.Aligned s t)
    (rest : List A) : s.packAux (t.flatten ++ rest) = some (t, rest) := by
  induction s generalizing t rest with
  | missing => cases h
  | node b keys c ih =>
    cases h with
    | @node _ a _ _ d hk hm =>
    rw [PTree.flatten, List.cons_append, PTree.packAux]
    have key : ∀ (l : List String), (∀ k ∈ l, k ∈ keys) →
        PTree.packAux.packKeys l (fun k => (c k).packAux)
          (l.flatMap (fun k => (d k).flatten) ++ rest) =
        some (fun k => if k ∈ l then d k else .missing, rest) := by
      intro l
      induction l with
      | nil => intro _; simp [PTree.packAux.packKeys]
      | cons k l ihl =>
        intro hl
        rw [List.flatMap_cons, List.append_assoc, PTree.packAux.packKeys,
          ih k (d k) (hk k (hl k (by simp)))]
        simp only
        rw [ihl fun j hj => hl j (by simp [hj])]
        simp only [Option.map_some, Option.some.injEq, Prod.mk.injEq, and_true]
        funext j
        by_cases hj : j = k
        · subst hj; simp
        · simp [hj]
    rw [key keys fun k hk => hk]
    simp only [Option.map_some, Option.some.injEq, Prod.mk.injEq, PTree.node.injEq, true_and,
      and_true]
    funext k
    by_cases hk' : k ∈ keys
    · simp [hk']
    · simp [hk', hm k hk']

theorem Aux.aligned_after (e : Encoder T P S U Sh) (he : Spec.EveryNode (fun _ _ => True) e)
    (xs : List T) : Aux.Aligned e.initialState (Spec.stateAfter e xs) := by
  induction e generalizing xs with
  | missing => cases he
  | node st keys child ih =>
    cases he with
    | node _ hc =>
    exact .node (fun k hk => by rw [if_pos hk, if_pos hk]; exact ih k (hc k hk) _)
      (fun k hk => by rw [if_neg hk])

theorem Aux.stateAfter_nil (e : Encoder T P S U Sh) : Spec.stateAfter e [] = e.initialState := by
  induction e with
  | missing => rfl
  | node st keys child ih =>
    simp only [Spec.stateAfter, Encoder.initialState, PTree.node.injEq, true_and]
    refine ⟨rfl, ?_⟩
    funext k
    by_cases hk : k ∈ keys
    · simp only [hk, if_true]; exact ih k
    · simp [hk]

theorem Aux.everyNode_mono {Q R : Stage T P S U Sh → List String → Prop}
    {e : Encoder T P S U Sh} (he : Spec.EveryNode Q e) (h : ∀ st ks, Q st ks → R st ks) :
    Spec.EveryNode R e := by
  induction he with
  | node hq _ ih => exact .node (h _ _ hq) ih

/-- **C42 (one call).**  A `SimpleEncoder` whose encoder has already encoded `xs` (so that the
caller holds the flat state "after `xs`") encodes `x` with that state and returns the flat state
"after `xs ++ [x]`". -/
theorem C42_step (shapeOf : T → Sh) (e : Encoder T P S U Sh)
    (he : Spec.EveryNode (fun st keys => Spec.Returns st keys) e) (xs : List T) (x : T) :
    ∃ enc, simpleEncode shapeOf e x (Spec.stateAfter e xs).flatten =
      some (enc, (Spec.stateAfter e (xs ++ [x])).flatten) ∧
      ∃ ep u, e.getParams (Spec.stateAfter e xs) = some (ep, enc.params) ∧
        e.encode shapeOf x ep = some (enc.tensors, u, enc.shapes) := by
  have he' := Aux.everyNode_mono (R := fun _ _ => True) he fun _ _ _ => trivial
  obtain ⟨ep, dp, enc, u, sh, h1, h2, h3⟩ := Aux.encode_step shapeOf e he xs x
  refine ⟨⟨enc, dp, sh⟩, ?_, ep, u, h1, h2⟩
  have hp : e.initialState.pack (Spec.stateAfter e xs).flatten = some (Spec.stateAfter e xs) := by
    have := Aux.pack_aux _ _ (Aux.aligned_after e he' xs) []
    rw [List.append_nil] at this
    simp only [PTree.pack, this]
  simp only [simpleEncode, hp, h1, h2, h3]
  rfl

/-- **C42.**  Encoding any sequence of inputs, starting from the initial state and passing each
returned state to the next call, succeeds, and the final state is the one prescribed by the
specification: in every stage of the tree, the fold of its update function over the state update
tensors of the successive encodings. -/
theorem C42_state_threading (shapeOf : T → Sh) (e : Encoder T P S U Sh)
    (he : Spec.EveryNode (fun st keys => Spec.Returns st keys) e) (xs : List T) :
    ∃ encs, simpleRun shapeOf e xs e.initialState.flatten =
      some (encs, (Spec.stateAfter e xs).flatten) ∧ encs.length = xs.length := by
  have key : ∀ (ys xs : List T), ∃ encs,
      simpleRun shapeOf e ys (Spec.stateAfter e xs).flatten =
        some (encs, (Spec.stateAfter e (xs ++ ys)).flatten) ∧ encs.length = ys.length := by
    intro ys
    induction ys with
    | nil => intro xs; exact ⟨[], by simp [simpleRun], rfl⟩
    | cons y ys ih =>
      intro xs
      obtain ⟨enc, h1, _⟩ := C42_step shapeOf e he xs y
      obtain ⟨encs, h2, h3⟩ := ih (xs ++ [y])
      refine ⟨enc :: encs, ?_, by simp [h3]⟩
      simp only [simpleRun, h1, h2, Option.map_some, List.append_assoc, List.singleton_append]
  have := key xs []
  rwa [Aux.stateAfter_nil, List.nil_append] at this

/-- **C42 (decoding).**  With lossless stages, decoding the encodings of the run returns the inputs
in order. -/
theorem C42_decode (shapeOf : T → Sh) (e : Encoder T P S U Sh)
    (he : Spec.EveryNode (fun st keys => Spec.Lossless shapeOf st ∧ Spec.Returns st keys) e)
    (xs : List T) :
    ∃ encs flat, simpleRun shapeOf e xs e.initialState.flatten = some (encs, flat) ∧
      encs.map (simpleDecode e) = xs.map some := by
  have he' := Aux.everyNode_mono (R := fun st keys => Spec.Returns st keys) he fun _ _ h => h.2
  have heT := Aux.everyNode_mono (R := fun _ _ => True) he fun _ _ _ => trivial
  have key : ∀ (ys xs : List T), ∃ encs flat,
      simpleRun shapeOf e ys (Spec.stateAfter e xs).flatten = some (encs, flat) ∧
        encs.map (simpleDecode e) = ys.map some := by
    intro ys
    induction ys with
    | nil => intro xs; exact ⟨[], _, by simp [simpleRun]; rfl, rfl⟩
    | cons y ys ih =>
      intro xs
      obtain ⟨enc, h1, ep, u, h2, h3⟩ := C42_step shapeOf e he' xs y
      obtain ⟨encs, flat, h4, h5⟩ := ih (xs ++ [y])
      refine ⟨enc :: encs, flat, by simp [simpleRun, h1, h4], ?_⟩
      obtain ⟨ep', dp, enc', u', sh, g1, g2, g3⟩ :=
        C37_roundtrip shapeOf e he _ (Aux.stateAfter_fits e heT xs) y
      rw [h2] at g1
      simp only [Option.some.injEq, Prod.mk.injEq] at g1
      obtain ⟨rfl, rfl⟩ := g1
      rw [h3] at g2
      simp only [Option.some.injEq, Prod.mk.injEq] at g2
      obtain ⟨rfl, rfl, rfl⟩ := g2
      simp only [List.map_cons, h5, simpleDecode, g3]
  have := key xs []
  rwa [Aux.stateAfter_nil] at this

example : ∃ encs, simpleRun (fun _ => ()) Example.twoStages [3, 5, 8] [0, 0] =
    some (encs, [3, 3]) := ⟨_, rfl⟩

end Verif.Props
