import Verif.Props.QuantWrapperCalls

/-!
# Property C83, continued: the wrapper with the shipped configs and quantizers; QuantizeLayer
-/

set_option linter.unusedSectionVars false
namespace Verif.Props
open Verif Verif.Quant Verif.Quant.Config Verif.Quant.Wrapper

section
variable {T V S : Type*}

theorem Aux.overwrite_nil {X : Type*} (get : Key → Option X) (vals : List X) (k : Key) :
    Spec.overwrite [] vals get k = get k := by
  simp [Spec.overwrite]

/-- **C83 (configs).**  `NoOpQuantizeConfig`, `Default8BitOutputQuantizeConfig`, and the config of `Activation`
layers keep the contract and name no weights and no activations. -/
theorem C83_empty_lawful (sem : Quantizer → Quant T V) (shape : ℕ → List ℕ) (tshape : T → List ℕ) (c : Config)
    (l₀ : Layer T) (hc : (c = .noOp ∨ ∃ b q, c = .output b q) ∨
      ((∃ n b q, c = .activation n b q) ∧ l₀.own.cls = "Activation")) :
    Spec.Lawful (ofConfig sem shape tshape c) shape tshape l₀ [] [] := by
  have hset : ∀ l, Spec.SameParts l₀ l → (∀ ws, (ofConfig sem shape tshape c).setWeights ws l = (none, l)) ∧
      ∀ as, (ofConfig sem shape tshape c).setActivations as l = (none, l) := by
    intro l hl
    rcases hc with (rfl | ⟨b, q, rfl⟩) | ⟨⟨n, b, q, rfl⟩, h⟩
    · exact ⟨fun _ => rfl, fun _ => rfl⟩
    · exact ⟨fun _ => rfl, fun _ => rfl⟩
    · have h1 : l.own.cls = "Activation" := hl.1.trans h
      constructor <;> intro _ <;> simp [ofConfig, Config.setWeights, Config.setActivations, assertActivation, h1]
  constructor
  · intro ws h
    obtain rfl : ws = [] := by
      obtain ⟨w1, h1, rfl⟩ := Aux.map_ok h
      rcases hc with (rfl | ⟨b, q, rfl⟩) | ⟨⟨n, b, q, rfl⟩, hh⟩
      · cases h1; rfl
      · cases h1; rfl
      · obtain ⟨u, -, rfl⟩ := Aux.map_ok h1; rfl
    exact .nil
  · intro ws h
    obtain rfl : ws = [] := by
      obtain ⟨w1, h1, rfl⟩ := Aux.map_ok h
      rcases hc with (rfl | ⟨b, q, rfl⟩) | ⟨⟨n, b, q, rfl⟩, hh⟩
      · cases h1; rfl
      · cases h1; rfl
      · obtain ⟨u, -, rfl⟩ := Aux.map_ok h1; rfl
    exact .nil
  · intro l hl ws _
    exact ⟨l, (hset l hl).1 ws, hl, fun k => (Aux.overwrite_nil _ _ k).symm, fun _ => rfl⟩
  · intro l hl _ as _
    exact ⟨l, (hset l hl).2 as, hl, fun k => (Aux.overwrite_nil _ _ k).symm, fun _ => rfl⟩

/-- **C83 (configs).**  `OutputOnlyConfig` around a lawful config is lawful, names the same activations, and
names no weights. -/
theorem C83_output_only_lawful {conf : Conf T V} {shape : ℕ → List ℕ} {tshape : T → List ℕ} {l₀ : Layer T}
    {wk ak : List Key} (h : Spec.Lawful conf shape tshape l₀ wk ak) :
    Spec.Lawful (outputOnly conf) shape tshape l₀ [] ak := by
  refine ⟨?_, h.getActivations, ?_, h.setActivations⟩
  · intro ws hws
    cases hws
    exact .nil
  · intro l hl ws _
    exact ⟨l, rfl, hl, fun k => (Aux.overwrite_nil _ _ k).symm, fun _ => rfl⟩

/-- **C83 (configs).**  `FixedQuantizeConfig` around a lawful config is lawful and names the same weights and
activations. -/
theorem C83_fixed_lawful (q : Quant T V) {conf : Conf T V} {shape : ℕ → List ℕ} {tshape : T → List ℕ} {l₀ : Layer T}
    {wk ak : List Key} (h : Spec.Lawful conf shape tshape l₀ wk ak) :
    Spec.Lawful (fixedConfig q conf) shape tshape l₀ wk ak := by
  refine ⟨h.getWeights, ?_, h.setWeights, h.setActivations⟩
  intro as has
  obtain ⟨as', h1, rfl⟩ := Aux.map_ok has
  rw [List.forall₂_map_right_iff]
  exact h.getActivations as' h1

theorem Aux.buildOutput_mem {outShape : List ℕ} {qs : List (Quant T V)} {o : Option (Quant T V × V)}
    (h : buildOutput outShape qs = .ok o) : o.map Prod.fst = qs.head? := by
  cases qs with
  | nil => cases h; rfl
  | cons q qs =>
    simp only [buildOutput] at h
    cases hq : q.build (some outShape) with
    | error e => rw [hq] at h; cases h
    | ok v => rw [hq] at h; cases h; rfl

/-- **C83 (fixed range).**  With a `FixedQuantizeConfig` every activation and the output is quantized by the
fixed quantizer, and the weights by the quantizers of the inner config; the output is quantized exactly if the
inner config quantizes it. -/
theorem C83_fixed_quantizers (q : Quant T V) (conf : Conf T V) (shape : ℕ → List ℕ) (outShape : List ℕ)
    (floats : ℕ → T) (l : Layer T) (s : S) (w w' : Wrapper T V S)
    (h : build (fixedConfig q conf) shape outShape floats l s = .ok w)
    (h' : build conf shape outShape floats l s = .ok w') :
    (∀ A ∈ w.acts, A.quantizer = q) ∧ w.acts.map (fun A => A.act.name) = w'.acts.map (fun A => A.act.name) ∧
    w.output.map Prod.fst = w'.output.map (fun _ => q) ∧
    w.weightVars.map (fun e => (e.1, e.2.1)) = w'.weightVars.map (fun e => (e.1, e.2.1)) := by
  obtain ⟨ws, as, qs, h1, h2, h3, h4, h5, h6, -⟩ := Aux.build_spec h
  obtain ⟨ws', as', qs', g1, g2, g3, g4, g5, g6, -⟩ := Aux.build_spec h'
  have e1 : ws = ws' := by
    have : Except.ok ws = Except.ok (ε := Err) ws' := h1.symm.trans g1
    cases this; rfl
  have e3 : as = as'.map fun a => (a.1, q) := by
    obtain ⟨x, hx, rfl⟩ := Aux.map_ok h3
    rw [g3] at hx; cases hx; rfl
  have e5 : qs = qs'.map fun _ => q := by
    obtain ⟨x, hx, rfl⟩ := Aux.map_ok h5
    rw [g5] at hx; cases hx; rfl
  refine ⟨?_, ?_, ?_, ?_⟩
  · intro A hA
    have : (AVal.fn A.act, A.quantizer) ∈ as := by rw [h4]; exact List.mem_map.2 ⟨A, hA, rfl⟩
    rw [e3] at this
    obtain ⟨x, -, hx⟩ := List.mem_map.1 this
    exact (Prod.mk.inj hx).2.symm
  · have : w.acts.map (fun A => AVal.pyName (AVal.fn A.act)) = w'.acts.map (fun A => AVal.pyName (AVal.fn A.act)) := by
      have k1 : as.map (fun a => a.1.pyName) = as'.map (fun a => a.1.pyName) := by
        rw [e3, List.map_map]; rfl
      rw [h4, g4, List.map_map, List.map_map] at k1
      exact k1
    have k2 := congrArg (List.map (fun o : ActName => o.getD "")) this
    rw [List.map_map, List.map_map] at k2
    exact k2
  · rw [Aux.buildOutput_mem h6, e5]
    have := Aux.buildOutput_mem g6
    cases qs' with
    | nil =>
      simp only [List.head?_nil, Option.map_eq_none_iff] at this
      rw [this]; rfl
    | cons a b =>
      simp only [List.head?_cons, Option.map_eq_some_iff] at this
      obtain ⟨x, hx, -⟩ := this
      rw [hx]; rfl
  · have k1 : ws.map (fun e : WVal T × Quant T V => ((match e.1 with | .var i => i | .tensor _ => 0), e.2)) =
        ws'.map (fun e : WVal T × Quant T V => ((match e.1 with | .var i => i | .tensor _ => 0), e.2)) := by rw [e1]
    rw [h2, g2, List.map_map, List.map_map] at k1
    exact k1

/-- **C83 (no quantization).**  With `NoOpQuantizeConfig` the wrapper returns what the layer itself returns, with
its own weights and activations, after any history. -/
theorem C83_noop (sem : Quantizer → Quant T V) (shape : ℕ → List ℕ) (tshape : T → List ℕ) (fn : LayerFn T S)
    (takes : Bool) (outShape : List ℕ) (floats : ℕ → T) (l₀ : Layer T) (s : S) (w : Wrapper T V S)
    (hb : build (ofConfig sem shape tshape .noOp) shape outShape floats l₀ s = .ok w)
    (events : List (Event T)) (tr : Bool) (x : T) :
    let w' := (run (ofConfig sem shape tshape .noOp) fn takes shape tshape events w).2
    (call (ofConfig sem shape tshape .noOp) fn takes w' tr x).1 =
      (Spec.execute (V := V) (activationAt l₀) (fn w'.state (fun k => (weightAt l₀ k).map (WVal.value w'.floats))
        (if takes then some tr else none) x) []).1.map Prod.fst := by
  intro w'
  rw [← Aux.runLayer_eq]
  obtain ⟨ws, as, qs, b1, b2, b3, b4, b5, b6, b7, b8, b9⟩ := Aux.build_spec hb
  cases b1
  cases b3
  cases b5
  have hv : w.weightVars = [] := by simpa using b2.symm
  have ha : w.acts = [] := by simpa using b4.symm
  have ho : w.output = none := by
    have h : (Except.ok none : Except Err (Option (Quant T V × V))) = .ok w.output := b6
    exact (Except.ok.inj h).symm
  -- the invariant of histories
  have key : ∀ (events : List (Event T)) (w : Wrapper T V S), w.layer = l₀ → w.weightVars = [] → w.acts = [] →
      w.output = none → (run (ofConfig sem shape tshape .noOp) fn takes shape tshape events w).2.layer = l₀ ∧
      (run (ofConfig sem shape tshape .noOp) fn takes shape tshape events w).2.weightVars = [] ∧
      (run (ofConfig sem shape tshape .noOp) fn takes shape tshape events w).2.acts = [] ∧
      (run (ofConfig sem shape tshape .noOp) fn takes shape tshape events w).2.output = none := by
    intro events
    induction events with
    | nil => intro w h1 h2 h3 h4; exact ⟨h1, h2, h3, h4⟩
    | cons e rest ih =>
      intro w h1 h2 h3 h4
      cases e with
      | assign i t => exact ih _ h1 h2 h3 h4
      | call tr x =>
        simp only [run]
        have hc : (call (ofConfig sem shape tshape .noOp) fn takes w tr x).2.layer = l₀ ∧
            (call (ofConfig sem shape tshape .noOp) fn takes w tr x).2.weightVars = [] ∧
            (call (ofConfig sem shape tshape .noOp) fn takes w tr x).2.acts = [] ∧
            (call (ofConfig sem shape tshape .noOp) fn takes w tr x).2.output = none := by
          simp only [call, h2, h3, quantizeWeights, ofConfig, Config.setWeights, Config.setActivations, h4, h1,
            List.map_nil]
          have hl := Aux.runLayer_length (activationAt l₀) (fn w.state
            (fun k => (weightAt l₀ k).map (WVal.value w.floats)) (if takes then some tr else none) x) ([] : List (Aware T V))
          cases hr : runLayer (activationAt l₀) ([] : List (Aware T V)) (fn w.state
            (fun k => (weightAt l₀ k).map (WVal.value w.floats)) (if takes then some tr else none) x) with
          | mk a acts =>
            rw [hr] at hl
            obtain rfl : acts = [] := List.eq_nil_of_length_eq_zero hl
            cases a with
            | error e => exact ⟨rfl, rfl, rfl, rfl⟩
            | ok os => obtain ⟨o, s⟩ := os; exact ⟨rfl, rfl, rfl, rfl⟩
        exact ih _ hc.1 hc.2.1 hc.2.2.1 hc.2.2.2
  obtain ⟨k1, k2, k3, k4⟩ := key events w b8 hv ha ho
  change w'.layer = l₀ at k1
  change w'.weightVars = [] at k2
  change w'.acts = [] at k3
  change w'.output = none at k4
  simp only [call, k2, k3, quantizeWeights, ofConfig, Config.setWeights, Config.setActivations, k4, k1,
    List.map_nil]
  cases hr : runLayer (activationAt l₀) ([] : List (Aware T V)) (fn w'.state
    (fun k => (weightAt l₀ k).map (WVal.value w'.floats)) (if takes then some tr else none) x) with
  | mk a acts =>
    cases a with
    | error e => rfl
    | ok os => obtain ⟨o, s⟩ := os; rfl

/-- **C83 (several outputs).**  If the output is to be quantized and the layer returns a list or tuple, the call
is a `RuntimeError`. -/
theorem C83_several_outputs (tr : Bool) (q : Quant T V) (v : V) (ts : List T) :
    quantizeOutput tr (some (q, v)) (.many ts) = (.error .runtime, some (q, v)) := rfl

/-- **C83 (construction).**  The constructor accepts exactly a layer that is no model together with a config; every
other argument is a `ValueError`; the name is the one given, else the prefix and the layer's name. -/
theorem C83_construct {C : Type*} (layer : Option LayerArg) (config : Option C) (prefix' name : Option String) :
    (∀ r, construct layer config prefix' name = .ok r ↔ ∃ l c, layer = some l ∧ l.isLayer = true ∧ config = some c ∧
      r.2 = c ∧ (∀ n, name = some n → r.1 = n) ∧
      (name = none → r.1 = (match prefix' with | some p => p | none => "") ++ l.name)) ∧
    ((∀ l c, ¬ (layer = some l ∧ l.isLayer = true ∧ config = some c)) →
      construct layer config prefix' name = .error .value) := by
  constructor
  · intro r
    unfold construct
    cases layer with
    | none => simp
    | some l =>
      dsimp only
      cases hl : l.isLayer with
      | false => simp [hl]
      | true =>
        cases config with
        | none => simp
        | some c =>
          obtain ⟨n, c'⟩ := r
          simp only [Bool.not_true, Bool.false_eq_true, if_false, Except.ok.injEq, Prod.mk.injEq]
          constructor
          · rintro ⟨rfl, rfl⟩
            refine ⟨l, c, rfl, hl, rfl, rfl, ?_, ?_⟩
            · rintro n rfl; rfl
            · rintro rfl; cases prefix' <;> rfl
          · rintro ⟨l', c'', h1, -, h2, h3, h4, h5⟩
            cases h1
            cases h2
            refine ⟨?_, h3.symm⟩
            cases name with
            | some m => exact (h4 m rfl).symm
            | none =>
              rw [h5 rfl]
              cases prefix' <;> rfl
  · intro h
    unfold construct
    cases layer with
    | none => rfl
    | some l =>
      dsimp only
      cases hl : l.isLayer with
      | false => rfl
      | true =>
        cases config with
        | none => rfl
        | some c => exact absurd ⟨rfl, hl, rfl⟩ (h l c)

/-- **C83 (QuantizeLayer).**  A `QuantizeLayer` without quantizer is the identity; with a quantizer it returns the
quantized input and, in inference, keeps its variables; anything but a quantizer is a `ValueError`. -/
theorem C83_quantize_layer (inputShape : List ℕ) (tr : Bool) (x : T) :
    (∀ s, quantizeLayer (QArg.nothing : QArg T V) = .ok s → ∀ b, quantizeLayerBuild inputShape s = .ok b →
      quantizeLayerCall tr b x = (.ok x, b)) ∧
    (∀ (q : Quant T V) s, quantizeLayer (.quantizer q) = .ok s → ∀ b, quantizeLayerBuild inputShape s = .ok b →
      ∃ v, q.build (some inputShape) = .ok v ∧ b = some (q, v) ∧
        ∀ u r, q.call u tr x = .ok r → quantizeLayerCall tr (some (q, u)) x = (.ok r.1, some (q, r.2))) ∧
    quantizeLayer (QArg.other : QArg T V) = .error .value := by
  refine ⟨?_, ?_, rfl⟩
  · intro s hs b hb
    cases hs
    cases hb
    rfl
  · intro q s hs b hb
    cases hs
    obtain ⟨v, hv, rfl⟩ := Aux.map_ok hb
    refine ⟨v, hv, rfl, fun u r hr => ?_⟩
    simp only [quantizeLayerCall, hr]

end

/-! ## The shipped quantizers -/

section
variable {α : Type*} [Field α] [LinearOrder α] [IsStrictOrderedRing α] [FloorRing α]

theorem Aux.fakeQuantVars_shape {cfg : QCfg} {pc : Bool} {v : RangeVars α} {t o : QTensor α}
    (h : fakeQuantVars cfg pc v t = some o) : o.shape = t.shape := by
  unfold fakeQuantVars at h
  split at h
  · cases h; rfl
  · split_ifs at h
    cases h; rfl
  · cases h

/-- **C83.**  The shipped quantizers keep the shape of a tensor, and keep their variables in inference. -/
theorem C83_shipped (q : Quantizer) :
    Spec.KeepsShape (fun t : QTensor α => t.shape) (shipped q) ∧ Spec.InferencePure (shipped q : Quant (QTensor α) _) := by
  have base : ∀ (k : QKind) (cfg : QCfg) (v : RangeVars α) tr t r, k.call cfg v tr t = some r → r.1.shape = t.shape ∧
      (tr = false → r.2 = v) := by
    intro k cfg v tr t r h
    obtain ⟨h1, -, h3⟩ := Aux.call_vars (v' := r.2) (o := r.1) h
    exact ⟨Aux.fakeQuantVars_shape h3, h1⟩
  have main : ∀ (v : RangeVars α) tr t r, q.call v tr t = some r → r.1.shape = t.shape ∧ (tr = false → r.2 = v) := by
    intro v tr t r h
    obtain ⟨cls, cfg⟩ := q
    cases cls with
    | convTransposeWeights =>
      simp only [Quantizer.call, Option.bind_eq_some_iff, Option.map_eq_some_iff] at h
      obtain ⟨t', h1, r', h2, o, h3, rfl⟩ := h
      obtain ⟨g1, g2⟩ := base _ _ _ _ _ _ h2
      refine ⟨?_, g2⟩
      dsimp only
      unfold transpose0132 at h1 h3
      split at h1
      · rename_i a b c d hs
        cases h1
        dsimp only at g1
        rw [g1] at h3
        dsimp only at h3
        cases h3
        rw [hs]
      · cases h1
    | _ => exact base _ _ _ _ _ _ h
  have conv : ∀ v tr t r, (shipped q : Quant (QTensor α) _).call v tr t = .ok r → q.call v tr t = some r := by
    intro v tr t r h
    simp only [shipped] at h
    cases hq : q.call v tr t with
    | none => rw [hq] at h; cases h
    | some r' => rw [hq] at h; cases h; rfl
  exact ⟨fun v tr t r h => (main v tr t r (conv _ _ _ _ h)).1, fun v t r h => (main v false t r (conv _ _ _ _ h)).2 rfl⟩

/-- **C83 (default configs).**  A layer wrapped with a default config whose attributes are distinct and which fits
the layer behaves, over any history, like the reference: no hypothesis about quantizers or configs is left. -/
theorem C83_default {S : Type*} (c : DConfig) (shape : ℕ → List ℕ) (fn : LayerFn (QTensor α) S) (takes : Bool)
    (outShape : List ℕ) (floats : ℕ → QTensor α) (hf : ∀ i, (floats i).shape = shape i) (l₀ : Layer (QTensor α)) (s : S)
    (hw : Spec.FitsLayer c.cls c.weightAttrs l₀) (ha : Spec.FitsLayer c.cls c.activationAttrs l₀)
    (w : Wrapper (QTensor α) (RangeVars α) S)
    (hb : build (ofConfig shipped shape QTensor.shape (.dflt c)) shape outShape floats l₀ s = .ok w)
    (events : List (Event (QTensor α))) :
    (run (ofConfig shipped shape QTensor.shape (.dflt c)) fn takes shape QTensor.shape events w).1 =
      (Spec.emulateRun fn takes shape QTensor.shape l₀ (Spec.keys c.cls c.weightAttrs)
        (Spec.keys c.cls c.activationAttrs) events (Spec.view w)).1 ∧
    Spec.view (run (ofConfig shipped shape QTensor.shape (.dflt c)) fn takes shape QTensor.shape events w).2 =
      (Spec.emulateRun fn takes shape QTensor.shape l₀ (Spec.keys c.cls c.weightAttrs)
        (Spec.keys c.cls c.activationAttrs) events (Spec.view w)).2 := by
  refine C83_refines (C83_default_lawful shipped shape QTensor.shape c l₀ hw ha) fn takes outShape floats s w hb hf ?_ events
  intro ws h e he
  obtain ⟨w1, -, rfl⟩ := Aux.map_ok h
  obtain ⟨x, -, rfl⟩ := List.mem_map.1 he
  exact (C83_shipped x.2).1

end

namespace Example

/-- A layer with a kernel (variable 0), a bias (variable 1) and an activation. -/
def affine : Layer ℤ :=
  ⟨⟨"Dense", fun s => if s = "kernel" then some (.var 0) else if s = "bias" then some (.var 1) else none,
    fun s => if s = "activation" then some (.fn ⟨"relu", fun x => max x 0⟩) else none⟩, none⟩

/-- `activation(kernel * x + bias)`; the state counts the calls. -/
def affineFn : LayerFn ℤ ℕ := fun s w _ x =>
  .act (none, "activation") ((w (none, "kernel")).getD 0 * x + (w (none, "bias")).getD 0) fun y => .ret (.one y) (s + 1)

/-- Rounds down to a multiple of ten; counts training calls. -/
def tensQ : Quant ℤ ℕ := ⟨fun _ => .ok 0, fun v tr t => .ok (t / 10 * 10, if tr then v + 1 else v)⟩

def affineConf : Conf ℤ ℕ := ofConfig (fun _ => tensQ) (fun _ => []) (fun _ => []) (.dflt (.mk' false .plain [.one "kernel"] [.one "activation"] false 8 8))

end Example

open Example in
/-- The hypotheses of `C83_refines` are met; the kernel 25 is used as 20 in every call, the second call does not
quantize further, the update to 31 is seen, and only training counts. -/
example : ∃ w, build (S := ℕ) affineConf (fun _ => []) [] (fun i => if i = 0 then 25 else 3) affine 0 = .ok w ∧
    Spec.FitsLayer CClass.plain [.one "kernel"] affine ∧ Spec.FitsLayer CClass.plain [.one "activation"] affine ∧
    (run affineConf affineFn false (fun _ => []) (fun _ => [])
      [.call true 1, .call false 2, .assign 0 31, .call false 2] w).1.map (fun r => match r with | .ok (.one y) => y | _ => 0) =
        [20, 40, 60] ∧
    (run affineConf affineFn false (fun _ => []) (fun _ => [])
      [.call true 1, .call false 2, .assign 0 31, .call false 2] w).2.weightVars.map (fun e => e.2.2) = [1] ∧
    (run affineConf affineFn false (fun _ => []) (fun _ => [])
      [.call true 1, .call false 2, .assign 0 31, .call false 2] w).2.floats 0 = 31 := by
  refine ⟨_, rfl, ?_, ?_, by decide +kernel, by decide +kernel, by decide +kernel⟩
  · simp [Spec.FitsLayer]
  · simp [Spec.FitsLayer]

end Verif.Props
