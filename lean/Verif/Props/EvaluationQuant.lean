import Verif.Props.QuantWrapperConfigs

/-!
# C107 for quantized layers: evaluations leave no trace in a quantize wrapper
-/
set_option linter.unusedSectionVars false
namespace Verif.Props
open Verif.Quant Verif.Quant.Wrapper Verif.Quant.Config

variable {T V S : Type*}

/-- The layer's `call`, started in state `s`, leaves this state, whatever its activations return. -/
def Spec.LeavesState (s : S) : Prog T S → Prop
  | .ret _ s' => s' = s
  | .act _ _ next => ∀ y, Spec.LeavesState s (next y)

/-- Everything but the calls for inference. -/
def Spec.withoutEvaluations : List (Event T) → List (Event T)
  | [] => []
  | .call false _ :: rest => Spec.withoutEvaluations rest
  | e :: rest => e :: Spec.withoutEvaluations rest

/-- Of the results of a history those of the training calls. -/
def Spec.trainingResults {R : Type*} : List (Event T) → List R → List R
  | .call true _ :: rest, r :: rs => r :: Spec.trainingResults rest rs
  | .call false _ :: rest, _ :: rs => Spec.trainingResults rest rs
  | .assign _ _ :: rest, rs => Spec.trainingResults rest rs
  | _, _ => []

/-- All variables of a wrapper: of the layer, the layer's own state, and of all quantizers. -/
def Spec.allVariables (w : Wrapper T V S) :
    (ℕ → T) × S × List (ℕ × V) × List (Option V × Option V) × Option V :=
  (w.floats, w.state, w.weightVars.map (fun e => (e.1, e.2.2)), w.acts.map (fun a => (a.pre, a.post)),
    w.output.map Prod.snd)

namespace Aux

/-- The states of the reference machine up to the `training` flags of the activations, which are set
before every call. -/
def unflag (st : Spec.RefState T V S) : Spec.RefState T V S :=
  { st with acts := st.acts.map fun a => { a with training := false } }

/-- All quantizers keep their variables in inference. -/
def PureState (st : Spec.RefState T V S) : Prop :=
  (∀ e ∈ st.weightVars, Spec.InferencePure e.2.1) ∧ (∀ a ∈ st.acts, Spec.InferencePure a.quantizer) ∧
    ∀ o ∈ st.output, Spec.InferencePure o.1

theorem rangesAfter_pure (floats : ℕ → T) (wv : List (ℕ × Quant T V × V))
    (h : ∀ e ∈ wv, Spec.InferencePure e.2.1) : Spec.rangesAfter floats false wv = wv := by
  induction wv with
  | nil => rfl
  | cons e rest ih =>
    unfold Spec.rangesAfter
    cases hc : e.2.1.call e.2.2 false (floats e.1) with
    | error er => rfl
    | ok r =>
      dsimp only
      rw [ih fun e he => h e (by simp [he]), h e (by simp) _ _ _ hc]

theorem rangesAfter_quant (floats : ℕ → T) (tr : Bool) (P : Quant T V → Prop)
    (wv : List (ℕ × Quant T V × V)) (h : ∀ e ∈ wv, P e.2.1) :
    ∀ e ∈ Spec.rangesAfter floats tr wv, P e.2.1 := by
  induction wv with
  | nil => simp [Spec.rangesAfter]
  | cons e rest ih =>
    unfold Spec.rangesAfter
    cases hc : e.2.1.call e.2.2 tr (floats e.1) with
    | error er => exact h
    | ok r =>
      intro e' he'
      rcases List.mem_cons.1 he' with rfl | he'
      · exact h e (by simp)
      · exact ih (fun e he => h e (by simp [he])) e' he'

theorem awareCall_pure {a : Aware T V} (hq : Spec.InferencePure a.quantizer)
    (ht : a.training = false) (x : T) : (a.call x).2 = a := by
  obtain ⟨act, quantizer, pre, post, training⟩ := a
  dsimp only at hq ht
  subst ht
  unfold Aware.call
  dsimp only
  cases h1 : quantizeIf quantizer pre false x with
  | error e => rfl
  | ok r =>
    have e1 := quantizeIf_pure hq h1
    dsimp only
    cases h2 : quantizeIf quantizer post false (act.fn r.1) with
    | error e => dsimp only; rw [e1]
    | ok r' =>
      have e2 := quantizeIf_pure hq h2
      dsimp only
      rw [e1, e2]

theorem awareCall_quant (a : Aware T V) (x : T) : (a.call x).2.quantizer = a.quantizer := by
  unfold Aware.call
  cases quantizeIf a.quantizer a.pre a.training x with
  | error e => rfl
  | ok r =>
    dsimp only
    cases quantizeIf a.quantizer a.post a.training (a.act.fn r.1) with
    | error e => rfl
    | ok r' => rfl

theorem set_self {β : Type*} {l : List β} {j : ℕ} {a : β} (h : l[j]? = some a) : l.set j a = l := by
  apply List.ext_getElem?
  intro i
  rw [List.getElem?_set]
  by_cases hij : j = i
  · subst hij
    have hl := (List.getElem?_eq_some_iff.1 h).1
    rw [if_pos rfl, if_pos hl, h]
  · simp [hij]

theorem execute_pure (attr : Key → Option (AVal T)) (s : S) (p : Prog T S) :
    ∀ acts : List (Aware T V), Spec.LeavesState s p →
      (∀ a ∈ acts, Spec.InferencePure a.quantizer ∧ a.training = false) →
      (Spec.execute attr p acts).2 = acts ∧
      ∀ o s', (Spec.execute attr p acts).1 = .ok (o, s') → s' = s := by
  induction p with
  | ret o s' =>
    intro acts hl _
    refine ⟨rfl, fun o' s'' h => ?_⟩
    cases h
    exact hl
  | act k x next ih =>
    intro acts hl ha
    unfold Spec.execute
    cases hk : attr k with
    | none => exact ⟨rfl, fun _ _ h => by cases h⟩
    | some v =>
      cases v with
      | fn a => exact ih _ acts (hl _) ha
      | aware j =>
        dsimp only
        cases hj : acts[j]? with
        | none => exact ⟨rfl, fun _ _ h => by cases h⟩
        | some a =>
          dsimp only
          have hmem := List.mem_of_getElem? hj
          have hc := awareCall_pure (ha a hmem).1 (ha a hmem).2 x
          rw [hc, set_self hj]
          cases (a.call x).1 with
          | error e => exact ⟨rfl, fun _ _ h => by cases h⟩
          | ok y => exact ih y acts (hl y) ha

theorem execute_quant (attr : Key → Option (AVal T)) (P : Quant T V → Prop) (p : Prog T S) :
    ∀ acts : List (Aware T V), (∀ a ∈ acts, P a.quantizer) →
      ∀ a ∈ (Spec.execute attr p acts).2, P a.quantizer := by
  induction p with
  | ret o s' => exact fun acts h => h
  | act k x next ih =>
    intro acts ha
    unfold Spec.execute
    cases hk : attr k with
    | none => exact ha
    | some v =>
      cases v with
      | fn a => exact ih _ acts ha
      | aware j =>
        dsimp only
        cases hj : acts[j]? with
        | none => exact ha
        | some a =>
          dsimp only
          have hset : ∀ b ∈ acts.set j (a.call x).2, P b.quantizer := by
            intro b hb
            rcases List.mem_or_eq_of_mem_set hb with h | h
            · exact ha b h
            · rw [h, awareCall_quant]
              exact ha a (List.mem_of_getElem? hj)
          cases (a.call x).1 with
          | error e => exact hset
          | ok y => exact ih y _ hset

theorem unflag_flags {st st' : Spec.RefState T V S} (h : unflag st = unflag st') (tr : Bool) :
    st.acts.map (fun a => ({ a with training := tr } : Aware T V)) =
      st'.acts.map (fun a => ({ a with training := tr } : Aware T V)) := by
  have h1 : (unflag st).acts.map (fun a => ({ a with training := tr } : Aware T V)) =
      (unflag st').acts.map (fun a => ({ a with training := tr } : Aware T V)) := by rw [h]
  simpa [unflag, List.map_map, Function.comp_def] using h1

theorem emulate_unflag (fn : LayerFn T S) (takes : Bool) (l₀ : Layer T) (wk ak : List Key)
    {st st' : Spec.RefState T V S} (h : unflag st = unflag st') (tr : Bool) (x : T) :
    (Spec.emulate fn takes l₀ wk ak st tr x).1 = (Spec.emulate fn takes l₀ wk ak st' tr x).1 ∧
    unflag (Spec.emulate fn takes l₀ wk ak st tr x).2 =
      unflag (Spec.emulate fn takes l₀ wk ak st' tr x).2 := by
  have hf := unflag_flags h tr
  have hlen : st.acts.length = st'.acts.length := by
    have := congrArg List.length hf
    simpa using this
  have ha : (unflag st).acts = (unflag st').acts := by rw [h]
  obtain ⟨fl, s, wv, acts, out⟩ := st
  obtain ⟨fl', s', wv', acts', out'⟩ := st'
  simp only [unflag, Spec.RefState.mk.injEq] at h
  obtain ⟨rfl, rfl, rfl, _, rfl⟩ := h
  dsimp only at hf hlen ha
  unfold Spec.emulate
  dsimp only
  cases Spec.quantized fl tr wv with
  | error e =>
    refine ⟨rfl, ?_⟩
    unfold unflag at ha ⊢
    dsimp only at ha ⊢
    rw [ha]
  | ok ws =>
    dsimp only
    rw [hlen, hf]
    cases Spec.execute (Spec.overwrite ak ((List.range acts'.length).map .aware) (activationAt l₀))
        (fn s (Spec.overwrite wk ws fun k => (weightAt l₀ k).map (WVal.value fl))
          (if takes then some tr else none) x)
        (acts'.map fun a => ({ a with training := tr } : Aware T V)) with
    | mk r a2 =>
      cases r with
      | error e => exact ⟨rfl, rfl⟩
      | ok os =>
        obtain ⟨o, s2⟩ := os
        exact ⟨rfl, rfl⟩

theorem emulate_false (fn : LayerFn T S) (takes : Bool) (l₀ : Layer T) (wk ak : List Key)
    {st : Spec.RefState T V S} (hp : PureState st)
    (hfn : ∀ s ws x, Spec.LeavesState s (fn s ws (if takes then some false else none) x)) (x : T) :
    unflag (Spec.emulate fn takes l₀ wk ak st false x).2 = unflag st := by
  obtain ⟨fl, s, wv, acts, out⟩ := st
  obtain ⟨h1, h2, h3⟩ := hp
  dsimp only at h1 h2 h3
  unfold Spec.emulate
  dsimp only
  rw [rangesAfter_pure fl wv h1]
  cases Spec.quantized fl false wv with
  | error e => rfl
  | ok ws =>
    dsimp only
    have he := execute_pure
      (Spec.overwrite ak ((List.range acts.length).map .aware) (activationAt l₀)) s
      (fn s (Spec.overwrite wk ws fun k => (weightAt l₀ k).map (WVal.value fl))
        (if takes then some false else none) x)
      (acts.map fun a => ({ a with training := false } : Aware T V)) (hfn _ _ _) (by
        intro a ha
        obtain ⟨b, hb, rfl⟩ := List.mem_map.1 ha
        exact ⟨h2 b hb, rfl⟩)
    cases hx : Spec.execute (Spec.overwrite ak ((List.range acts.length).map .aware) (activationAt l₀))
        (fn s (Spec.overwrite wk ws fun k => (weightAt l₀ k).map (WVal.value fl))
          (if takes then some false else none) x)
        (acts.map fun a => ({ a with training := false } : Aware T V)) with
    | mk r a2 =>
      rw [hx] at he
      obtain ⟨e1, e2⟩ := he
      dsimp only at e1 e2
      subst e1
      cases r with
      | error e => simp [unflag, List.map_map, Function.comp_def]
      | ok os =>
        obtain ⟨o, s2⟩ := os
        have := e2 o s2 rfl
        subst this
        have ho : (Spec.outputAfter false out o).2 = out := by
          cases out with
          | none => rfl
          | some qv =>
            cases o with
            | many ts => rfl
            | one t =>
              unfold Spec.outputAfter
              dsimp only
              cases hc : qv.1.call qv.2 false t with
              | error e => rfl
              | ok r =>
                dsimp only
                rw [h3 qv rfl _ _ _ hc]
        dsimp only
        rw [ho]
        simp [unflag, List.map_map, Function.comp_def]

theorem emulate_pureState (fn : LayerFn T S) (takes : Bool) (l₀ : Layer T) (wk ak : List Key)
    {st : Spec.RefState T V S} (hp : PureState st) (tr : Bool) (x : T) :
    PureState (Spec.emulate fn takes l₀ wk ak st tr x).2 := by
  obtain ⟨fl, s, wv, acts, out⟩ := st
  obtain ⟨h1, h2, h3⟩ := hp
  dsimp only at h1 h2 h3
  have hr := rangesAfter_quant fl tr Spec.InferencePure wv h1
  unfold Spec.emulate
  dsimp only
  cases Spec.quantized fl tr wv with
  | error e => exact ⟨hr, h2, h3⟩
  | ok ws =>
    dsimp only
    have he := execute_quant
      (Spec.overwrite ak ((List.range acts.length).map .aware) (activationAt l₀)) Spec.InferencePure
      (fn s (Spec.overwrite wk ws fun k => (weightAt l₀ k).map (WVal.value fl))
        (if takes then some tr else none) x)
      (acts.map fun a => ({ a with training := tr } : Aware T V)) (by
        intro a ha
        obtain ⟨b, hb, rfl⟩ := List.mem_map.1 ha
        exact h2 b hb)
    cases hx : Spec.execute (Spec.overwrite ak ((List.range acts.length).map .aware) (activationAt l₀))
        (fn s (Spec.overwrite wk ws fun k => (weightAt l₀ k).map (WVal.value fl))
          (if takes then some tr else none) x)
        (acts.map fun a => ({ a with training := tr } : Aware T V)) with
    | mk r a2 =>
      rw [hx] at he
      dsimp only at he
      cases r with
      | error e => exact ⟨hr, he, h3⟩
      | ok os =>
        obtain ⟨o, s2⟩ := os
        refine ⟨hr, he, ?_⟩
        dsimp only
        cases out with
        | none => exact h3
        | some qv =>
          cases o with
          | many ts => exact h3
          | one t =>
            unfold Spec.outputAfter
            dsimp only
            cases hc : qv.1.call qv.2 tr t with
            | error e => exact h3
            | ok r =>
              intro o' ho'
              cases ho'
              exact h3 qv rfl

theorem emulateRun_evaluations (fn : LayerFn T S) (takes : Bool) (shape : ℕ → List ℕ)
    (tshape : T → List ℕ) (l₀ : Layer T) (wk ak : List Key)
    (hfn : ∀ s ws x, Spec.LeavesState s (fn s ws (if takes then some false else none) x))
    (events : List (Event T)) : ∀ st st' : Spec.RefState T V S, unflag st = unflag st' →
      PureState st →
      Spec.trainingResults events (Spec.emulateRun fn takes shape tshape l₀ wk ak events st).1 =
        (Spec.emulateRun fn takes shape tshape l₀ wk ak (Spec.withoutEvaluations events) st').1 ∧
      unflag (Spec.emulateRun fn takes shape tshape l₀ wk ak events st).2 =
        unflag (Spec.emulateRun fn takes shape tshape l₀ wk ak
          (Spec.withoutEvaluations events) st').2 := by
  induction events with
  | nil => exact fun st st' h _ => ⟨rfl, h⟩
  | cons e rest ih =>
    intro st st' h hp
    cases e with
    | assign i t =>
      have := ih { st with floats := if tshape t = shape i then Function.update st.floats i t else st.floats }
        { st' with floats := if tshape t = shape i then Function.update st'.floats i t else st'.floats }
        (by
          obtain ⟨fl, s, wv, acts, out⟩ := st
          obtain ⟨fl', s', wv', acts', out'⟩ := st'
          simp only [unflag, Spec.RefState.mk.injEq] at h ⊢
          obtain ⟨rfl, rfl, rfl, h4, rfl⟩ := h
          exact ⟨rfl, rfl, rfl, h4, rfl⟩) hp
      exact this
    | call tr x =>
      cases tr with
      | true =>
        obtain ⟨e1, e2⟩ := emulate_unflag fn takes l₀ wk ak h true x
        obtain ⟨i1, i2⟩ := ih _ _ e2 (emulate_pureState fn takes l₀ wk ak hp true x)
        refine ⟨?_, i2⟩
        exact congrArg₂ List.cons e1 i1
      | false =>
        have e2 := emulate_false fn takes l₀ wk ak hp hfn x
        exact ih _ _ (e2.trans h) (emulate_pureState fn takes l₀ wk ak hp false x)

theorem allVariables_of_unflag {w w' : Wrapper T V S}
    (h : unflag (Spec.view w) = unflag (Spec.view w')) :
    Spec.allVariables w = Spec.allVariables w' := by
  unfold Spec.allVariables
  simp only [unflag, Spec.view, Spec.RefState.mk.injEq] at h
  obtain ⟨h1, h2, h3, h4, h5⟩ := h
  have ha := congrArg (List.map fun a : Aware T V => (a.pre, a.post)) h4
  simp only [List.map_map, Function.comp_def] at ha
  rw [h1, h2, h3, ha, h5]

end Aux

/-- **C107** (quantization).  However calls for inference are mixed with training calls and updates
of the weights: all training calls have the same results, and at the end all variables (the weights,
the state of the layer, the ranges of all quantizers) are the same, as without the calls for
inference.  The quantizers must keep their variables in inference (`C107_quantization_default` shows this
for the shipped ones), and the wrapped layer its own state. -/
theorem C107_quantization {conf : Conf T V} {shape : ℕ → List ℕ} {tshape : T → List ℕ} {l₀ : Layer T}
    {wk ak : List Key} (hlaw : Spec.Lawful conf shape tshape l₀ wk ak) (fn : LayerFn T S) (takes : Bool)
    (outShape : List ℕ) (floats : ℕ → T) (s : S) (w : Wrapper T V S)
    (hb : build conf shape outShape floats l₀ s = .ok w) (hf : ∀ i, tshape (floats i) = shape i)
    (hk : ∀ ws, conf.getWeights l₀ = .ok ws → ∀ e ∈ ws, Spec.KeepsShape tshape e.2)
    (h1 : ∀ e ∈ w.weightVars, Spec.InferencePure e.2.1)
    (h2 : ∀ a ∈ w.acts, Spec.InferencePure a.quantizer)
    (h3 : ∀ o ∈ w.output, Spec.InferencePure o.1)
    (hfn : ∀ s ws x, Spec.LeavesState s (fn s ws (if takes then some false else none) x))
    (events : List (Event T)) :
    Spec.trainingResults events (run conf fn takes shape tshape events w).1 =
      (run conf fn takes shape tshape (Spec.withoutEvaluations events) w).1 ∧
    Spec.allVariables (run conf fn takes shape tshape events w).2 =
      Spec.allVariables (run conf fn takes shape tshape (Spec.withoutEvaluations events) w).2 := by
  obtain ⟨a1, a2⟩ := C83_refines hlaw fn takes outShape floats s w hb hf hk events
  obtain ⟨b1, b2⟩ := C83_refines hlaw fn takes outShape floats s w hb hf hk
    (Spec.withoutEvaluations events)
  obtain ⟨c1, c2⟩ := Aux.emulateRun_evaluations fn takes shape tshape l₀ wk ak hfn events
    (Spec.view w) (Spec.view w) rfl ⟨h1, h2, h3⟩
  refine ⟨by rw [a1, b1, c1], Aux.allVariables_of_unflag ?_⟩
  rw [a2, b2, c2]

/-- **C107** (quantization, default configs).  For a layer wrapped with a default config whose attributes
are distinct and which fits the layer, nothing is left to assume of the quantizers. -/
theorem C107_quantization_default {α : Type*} [Field α] [LinearOrder α] [IsStrictOrderedRing α] [FloorRing α]
    (c : DConfig) (shape : ℕ → List ℕ) (fn : LayerFn (QTensor α) S) (takes : Bool)
    (outShape : List ℕ) (floats : ℕ → QTensor α) (hf : ∀ i, (floats i).shape = shape i)
    (l₀ : Layer (QTensor α)) (s : S)
    (hw : Spec.FitsLayer c.cls c.weightAttrs l₀) (ha : Spec.FitsLayer c.cls c.activationAttrs l₀)
    (w : Wrapper (QTensor α) (RangeVars α) S)
    (hb : build (ofConfig shipped shape QTensor.shape (.dflt c)) shape outShape floats l₀ s = .ok w)
    (hfn : ∀ s ws x, Spec.LeavesState s (fn s ws (if takes then some false else none) x))
    (events : List (Event (QTensor α))) :
    Spec.trainingResults events
        (run (ofConfig shipped shape QTensor.shape (.dflt c)) fn takes shape QTensor.shape events w).1 =
      (run (ofConfig shipped shape QTensor.shape (.dflt c)) fn takes shape QTensor.shape
        (Spec.withoutEvaluations events) w).1 ∧
    Spec.allVariables
        (run (ofConfig shipped shape QTensor.shape (.dflt c)) fn takes shape QTensor.shape events w).2 =
      Spec.allVariables (run (ofConfig shipped shape QTensor.shape (.dflt c)) fn takes shape QTensor.shape
        (Spec.withoutEvaluations events) w).2 := by
  obtain ⟨ws, as, qs, g1, g2, g3, g4, g5, g6, -⟩ := Aux.build_spec hb
  refine C107_quantization (C83_default_lawful shipped shape QTensor.shape c l₀ hw ha) fn takes outShape
    floats s w hb hf ?_ ?_ ?_ ?_ hfn events
  · intro ws h e he
    obtain ⟨w1, -, rfl⟩ := Aux.map_ok h
    obtain ⟨x, -, rfl⟩ := List.mem_map.1 he
    exact (C83_shipped x.2).1
  · intro e he
    obtain ⟨w1, -, h⟩ := Aux.map_ok g1
    have : (WVal.var e.1, e.2.1) ∈ ws := by rw [g2]; exact List.mem_map.2 ⟨e, he, rfl⟩
    rw [← h] at this
    obtain ⟨x, -, hx⟩ := List.mem_map.1 this
    rw [← (Prod.mk.inj hx).2]
    exact (C83_shipped x.2).2
  · intro a hm
    obtain ⟨w1, -, h⟩ := Aux.map_ok g3
    have : (AVal.fn a.act, a.quantizer) ∈ as := by rw [g4]; exact List.mem_map.2 ⟨a, hm, rfl⟩
    rw [← h] at this
    obtain ⟨x, -, hx⟩ := List.mem_map.1 this
    rw [← (Prod.mk.inj hx).2]
    exact (C83_shipped x.2).2
  · intro o ho
    have g5' : ∃ os : List Quantizer, qs = os.map shipped := by
      revert g5
      change ((Config.dflt c).getOutput AVal.pyName l₀).map (fun qs => qs.map shipped) = .ok qs → _
      cases (Config.dflt c).getOutput AVal.pyName l₀ with
      | error e => exact fun h => nomatch h
      | ok os => exact fun h => ⟨os, (Except.ok.inj h).symm⟩
    obtain ⟨os, rfl⟩ := g5'
    have k := Aux.buildOutput_mem g6
    rw [Option.mem_def] at ho
    rw [ho, List.head?_map] at k
    obtain ⟨x, -, hx⟩ := Option.map_eq_some_iff.1 k.symm
    rw [← hx]
    exact (C83_shipped x).2

open Example in
/-- A layer whose quantizers count their training calls: a history with calls for inference in between
gives the same results for the two training calls and the same counters. -/
example : ∃ w, build (S := ℕ) affineConf (fun _ => []) [] (fun i => if i = 0 then 25 else 3) affine 0 = .ok w ∧
    (∀ e ∈ w.weightVars, Spec.InferencePure e.2.1) ∧ w.weightVars ≠ [] ∧
    (∀ a ∈ w.acts, Spec.InferencePure a.quantizer) ∧ w.acts ≠ [] ∧
    Spec.withoutEvaluations [Event.call true (1 : ℤ), .call false 2, .assign 0 31, .call false 2, .call true 5] =
      [.call true 1, .assign 0 31, .call true 5] := by
  refine ⟨_, rfl, ?_, by simp, ?_, by simp, rfl⟩
  · intro e he v t r h
    simp only [List.mem_singleton] at he
    subst he
    cases h
    rfl
  · intro e he v t r h
    simp only [List.mem_singleton] at he
    subst he
    cases h
    rfl

end Verif.Props
