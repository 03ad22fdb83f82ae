import Verif.Quant.Wrapper
import Verif.Props.QuantSetters
import Verif.Props.QuantOps

/-!
# Property C83: what a quantize wrapper computes, over any history
-/

set_option linter.unusedSectionVars false
namespace Verif.Props
open Verif Verif.Quant Verif.Quant.Config Verif.Quant.Wrapper

section
variable {T V S : Type*}

/-! ## Specification -/

/-- The attributes `get`, with the attributes `keys` replaced by `vals`. -/
def Spec.overwrite {X : Type*} (keys : List Key) (vals : List X) (get : Key → Option X) (k : Key) : Option X :=
  match (keys.zip vals).lookup k with
  | some x => some x
  | none => get k

/-- Two layers have the same class and the same cells. -/
def Spec.SameParts {W A : Type*} (l l' : KLayer W A) : Prop :=
  l'.own.cls = l.own.cls ∧ l'.cells.map (List.map Cell.cls) = l.cells.map (List.map Cell.cls)

/-- The contract of a quantize config for a layer: it names weights `wk` and activations `ak` of the layer,
its getters return exactly those, and its setters replace exactly those (weights only by weights of the same
shape). -/
structure Spec.Lawful (conf : Conf T V) (shape : ℕ → List ℕ) (tshape : T → List ℕ) (l₀ : Layer T)
    (wk ak : List Key) : Prop where
  getWeights : ∀ ws, conf.getWeights l₀ = .ok ws → List.Forall₂ (fun k e => weightAt l₀ k = some e.1) wk ws
  getActivations : ∀ as, conf.getActivations l₀ = .ok as →
    List.Forall₂ (fun k e => activationAt l₀ k = some e.1) ak as
  setWeights : ∀ l, Spec.SameParts l₀ l → ∀ ws : List (WVal T),
    List.Forall₂ (fun k w => ∃ cur, weightAt l k = some cur ∧ cur.shape shape tshape = w.shape shape tshape) wk ws →
    ∃ l', conf.setWeights ws l = (none, l') ∧ Spec.SameParts l₀ l' ∧
      (∀ k, weightAt l' k = Spec.overwrite wk ws (weightAt l) k) ∧ ∀ k, activationAt l' k = activationAt l k
  setActivations : ∀ l, Spec.SameParts l₀ l → (∀ k ∈ ak, (activationAt l k).isSome) → ∀ as : List (AVal T),
    as.length = ak.length →
    ∃ l', conf.setActivations as l = (none, l') ∧ Spec.SameParts l₀ l' ∧
      (∀ k, activationAt l' k = Spec.overwrite ak as (activationAt l) k) ∧ ∀ k, weightAt l' k = weightAt l k

/-- A quantizer keeps the shape of a tensor. -/
def Spec.KeepsShape (tshape : T → List ℕ) (q : Quant T V) : Prop :=
  ∀ v tr t r, q.call v tr t = .ok r → tshape r.1 = tshape t

/-- The state of the reference machine: floating-point weights, the layer's own state, and the variables of the
quantizers.  There is no layer that could be changed. -/
structure Spec.RefState (T V S : Type*) where
  floats : ℕ → T
  state : S
  weightVars : List (ℕ × Quant T V × V)
  acts : List (Aware T V)
  output : Option (Quant T V × V)

/-- What a wrapper has besides its layer. -/
def Spec.view (w : Wrapper T V S) : Spec.RefState T V S := ⟨w.floats, w.state, w.weightVars, w.acts, w.output⟩

/-- The quantized weights, or the first exception. -/
def Spec.quantized (floats : ℕ → T) (training : Bool) (wv : List (ℕ × Quant T V × V)) : Except Err (List T) :=
  wv.mapM fun e => (e.2.1.call e.2.2 training (floats e.1)).map Prod.fst

/-- The variables of the weight quantizers afterwards: each quantizer that was called without an exception leaves the
variables it says; nothing after the first exception changes. -/
def Spec.rangesAfter (floats : ℕ → T) (training : Bool) : List (ℕ × Quant T V × V) → List (ℕ × Quant T V × V)
  | [] => []
  | e :: rest =>
    match e.2.1.call e.2.2 training (floats e.1) with
    | .ok r => (e.1, e.2.1, r.2) :: Spec.rangesAfter floats training rest
    | .error _ => e :: rest

/-- The layer's own computation: `attr` says what stands at each activation; an activation object keeps the variables each
of its calls leaves. -/
def Spec.execute (attr : Key → Option (AVal T)) :
    Prog T S → List (Aware T V) → Except Err (Out T × S) × List (Aware T V)
  | .ret o s, acts => (.ok (o, s), acts)
  | .act k x next, acts =>
    match attr k with
    | some (.fn a) => Spec.execute attr (next (a.fn x)) acts
    | some (.aware j) =>
      match acts[j]? with
      | some a =>
        match (a.call x).1 with
        | .ok y => Spec.execute attr (next y) (acts.set j (a.call x).2)
        | .error e => (.error e, acts.set j (a.call x).2)
      | none => (.error .attribute, acts)
    | none => (.error .attribute, acts)

/-- The output: as it is without a quantizer, quantized if it is one tensor, and otherwise a `RuntimeError`. -/
def Spec.outputAfter (training : Bool) : Option (Quant T V × V) → Out T → Except Err (Out T) × Option (Quant T V × V)
  | none, o => (.ok o, none)
  | some qv, .many _ => (.error .runtime, some qv)
  | some qv, .one t =>
    match qv.1.call qv.2 training t with
    | .ok r => (.ok (.one r.1), some (qv.1, r.2))
    | .error e => (.error e, some qv)

/-- The reference: the original layer computes with its floating-point weights, except that the weights `wk` are
replaced by their quantized values and the activations `ak` by their quantized versions; then the output is
quantized. -/
def Spec.emulate (fn : LayerFn T S) (takesTraining : Bool) (l₀ : Layer T) (wk ak : List Key)
    (st : Spec.RefState T V S) (training : Bool) (x : T) : Except Err (Out T) × Spec.RefState T V S :=
  let wv := Spec.rangesAfter st.floats training st.weightVars
  match Spec.quantized st.floats training st.weightVars with
  | .error e => (.error e, { st with weightVars := wv })
  | .ok ws =>
    match Spec.execute (Spec.overwrite ak ((List.range st.acts.length).map .aware) (activationAt l₀))
        (fn st.state (Spec.overwrite wk ws fun k => (weightAt l₀ k).map (WVal.value st.floats))
          (if takesTraining then some training else none) x)
        (st.acts.map fun a => { a with training := training }) with
    | (.error e, acts) => (.error e, { st with weightVars := wv, acts := acts })
    | (.ok (o, s), acts) =>
      match Spec.outputAfter training st.output o with
      | (r, out) => (r, { st with weightVars := wv, acts := acts, state := s, output := out })

/-- The reference machine over a history. -/
def Spec.emulateRun (fn : LayerFn T S) (takesTraining : Bool) (shape : ℕ → List ℕ) (tshape : T → List ℕ)
    (l₀ : Layer T) (wk ak : List Key) : List (Event T) → Spec.RefState T V S →
    List (Except Err (Out T)) × Spec.RefState T V S
  | [], st => ([], st)
  | .call training x :: rest, st =>
    match Spec.emulate fn takesTraining l₀ wk ak st training x with
    | (r, st') =>
      match Spec.emulateRun fn takesTraining shape tshape l₀ wk ak rest st' with
      | (rs, st'') => (r :: rs, st'')
  | .assign i t :: rest, st =>
    Spec.emulateRun fn takesTraining shape tshape l₀ wk ak rest
      { st with floats := if tshape t = shape i then Function.update st.floats i t else st.floats }

/-! ## The parts of the reference -/

theorem Aux.quantizeWeights_eq (floats : ℕ → T) (tr : Bool) (wv : List (ℕ × Quant T V × V)) :
    quantizeWeights floats tr wv = (Spec.quantized floats tr wv, Spec.rangesAfter floats tr wv) := by
  induction wv with
  | nil => rfl
  | cons e rest ih =>
    obtain ⟨i, q, v⟩ := e
    unfold quantizeWeights Spec.quantized Spec.rangesAfter
    rw [List.mapM_cons]
    cases hq : q.call v tr (floats i) with
    | error e => rfl
    | ok r =>
      dsimp only
      rw [ih]
      unfold Spec.quantized
      cases hr : List.mapM (fun e : ℕ × Quant T V × V => (e.2.1.call e.2.2 tr (floats e.1)).map Prod.fst) rest with
      | error e => rfl
      | ok ws => rfl

theorem Aux.runLayer_eq (attr : Key → Option (AVal T)) (p : Prog T S) (acts : List (Aware T V)) :
    runLayer attr acts p = Spec.execute attr p acts := by
  induction p generalizing acts with
  | ret o s => rfl
  | act k x next ih =>
    unfold runLayer Spec.execute
    cases attr k with
    | none => rfl
    | some v =>
      cases v with
      | fn a => exact ih _ _
      | aware j =>
        dsimp only
        cases acts[j]? with
        | none => rfl
        | some a =>
          dsimp only
          cases a.call x with
          | mk r a' =>
            cases r with
            | error e => rfl
            | ok y => exact ih _ _

theorem Aux.quantizeOutput_eq (tr : Bool) (out : Option (Quant T V × V)) (o : Out T) :
    quantizeOutput tr out o = Spec.outputAfter tr out o := by
  cases out with
  | none => rfl
  | some qv =>
    obtain ⟨q, v⟩ := qv
    cases o with
    | many ts => rfl
    | one t =>
      unfold quantizeOutput Spec.outputAfter
      dsimp only
      cases q.call v tr t <;> rfl

/-- The reference in terms of the model's own parts. -/
theorem Aux.emulate_eq (fn : LayerFn T S) (takesTraining : Bool) (l₀ : Layer T) (wk ak : List Key)
    (st : Spec.RefState T V S) (training : Bool) (x : T) :
    Spec.emulate fn takesTraining l₀ wk ak st training x =
  match quantizeWeights st.floats training st.weightVars with
  | (.error e, wv) => (.error e, { st with weightVars := wv })
  | (.ok ws, wv) =>
    match runLayer (Spec.overwrite ak ((List.range st.acts.length).map .aware) (activationAt l₀))
        (st.acts.map fun a => { a with training := training })
        (fn st.state (Spec.overwrite wk ws fun k => (weightAt l₀ k).map (WVal.value st.floats))
          (if takesTraining then some training else none) x) with
    | (.error e, acts) => (.error e, { st with weightVars := wv, acts := acts })
    | (.ok (o, s), acts) =>
      match quantizeOutput training st.output o with
      | (r, out) => (r, { st with weightVars := wv, acts := acts, state := s, output := out }) := by
  unfold Spec.emulate
  rw [Aux.quantizeWeights_eq]
  dsimp only
  cases Spec.quantized st.floats training st.weightVars with
  | error e => rfl
  | ok ws =>
    dsimp only
    rw [Aux.runLayer_eq]
    cases Spec.execute (Spec.overwrite ak ((List.range st.acts.length).map .aware) (activationAt l₀))
        (fn st.state (Spec.overwrite wk ws fun k => (weightAt l₀ k).map (WVal.value st.floats))
          (if takesTraining then some training else none) x)
        (st.acts.map fun a => { a with training := training }) with
    | mk r acts =>
      cases r with
      | error e => rfl
      | ok os => obtain ⟨o, s⟩ := os; dsimp only; rw [Aux.quantizeOutput_eq]

/-! ## Overwriting -/

theorem Aux.lookup_zip_some {X : Type*} {keys : List Key} {vals : List X} {k : Key} {x : X}
    (h : (keys.zip vals).lookup k = some x) : k ∈ keys ∧ (k, x) ∈ keys.zip vals := by
  induction keys generalizing vals with
  | nil => simp at h
  | cons a as ih =>
    cases vals with
    | nil => simp at h
    | cons b bs =>
      simp only [List.zip_cons_cons, List.lookup_cons] at h
      by_cases hk : k = a
      · subst hk
        simp only [BEq.rfl] at h
        cases h
        simp
      · rw [(beq_eq_false_iff_ne).2 hk] at h
        obtain ⟨h1, h2⟩ := ih h
        exact ⟨List.mem_cons_of_mem _ h1, List.mem_cons_of_mem _ h2⟩

theorem Aux.lookup_zip_none {X : Type*} {keys : List Key} {vals : List X} {k : Key}
    (hl : keys.length = vals.length) : (keys.zip vals).lookup k = none ↔ k ∉ keys := by
  induction keys generalizing vals with
  | nil => simp
  | cons a as ih =>
    cases vals with
    | nil => simp at hl
    | cons b bs =>
      simp only [List.zip_cons_cons, List.lookup_cons, List.mem_cons, not_or]
      by_cases hk : k = a
      · subst hk; simp
      · rw [(beq_eq_false_iff_ne).2 hk]
        simp only [hk, not_false_eq_true, true_and]
        exact ih (by simpa using hl)

theorem Aux.overwrite_not_mem {X : Type*} {keys : List Key} {vals : List X} {get : Key → Option X} {k : Key}
    (h : k ∉ keys) : Spec.overwrite keys vals get k = get k := by
  unfold Spec.overwrite
  cases hl : (keys.zip vals).lookup k with
  | none => rfl
  | some x => exact absurd (Aux.lookup_zip_some hl).1 h

/-- Overwriting with the same keys depends only on the other attributes. -/
theorem Aux.overwrite_congr {X : Type*} {keys : List Key} {vals : List X} {get get' : Key → Option X}
    (hl : keys.length = vals.length) (h : ∀ k, k ∉ keys → get k = get' k) (k : Key) :
    Spec.overwrite keys vals get k = Spec.overwrite keys vals get' k := by
  unfold Spec.overwrite
  cases hk : (keys.zip vals).lookup k with
  | none => exact h k ((Aux.lookup_zip_none hl).1 hk)
  | some x => rfl

theorem Aux.overwrite_map {X Y : Type*} (f : X → Y) {keys : List Key} {vals : List X} {get : Key → Option X} (k : Key) :
    (Spec.overwrite keys vals get k).map f = Spec.overwrite keys (vals.map f) (fun k => (get k).map f) k := by
  unfold Spec.overwrite
  induction keys generalizing vals with
  | nil => simp
  | cons a as ih =>
    cases vals with
    | nil => simp
    | cons b bs =>
      simp only [List.zip_cons_cons, List.map_cons, List.lookup_cons]
      cases hk : (k == a)
      · exact ih
      · rfl

/-! ## The invariant -/

/-- What every call keeps. -/
structure Aux.WInv (shape : ℕ → List ℕ) (tshape : T → List ℕ) (l₀ : Layer T) (wk ak : List Key)
    (w : Wrapper T V S) : Prop where
  parts : Spec.SameParts l₀ w.layer
  weights : ∀ k, k ∉ wk → weightAt w.layer k = weightAt l₀ k
  acts : ∀ k, k ∉ ak → activationAt w.layer k = activationAt l₀ k
  present : ∀ k ∈ ak, (activationAt w.layer k).isSome
  current : List.Forall₂ (fun k (e : ℕ × Quant T V × V) => ∃ cur, weightAt w.layer k = some cur ∧
    cur.shape shape tshape = shape e.1) wk w.weightVars
  keeps : ∀ e ∈ w.weightVars, Spec.KeepsShape tshape e.2.1 ∧ tshape (w.floats e.1) = shape e.1
  count : w.acts.length = ak.length

theorem Aux.quantizeWeights_vars (floats : ℕ → T) (tr : Bool) (wv : List (ℕ × Quant T V × V)) :
    (quantizeWeights floats tr wv).2.map (fun e => (e.1, e.2.1)) = wv.map fun e => (e.1, e.2.1) := by
  induction wv with
  | nil => rfl
  | cons e rest ih =>
    obtain ⟨i, q, v⟩ := e
    simp only [quantizeWeights]
    cases hq : q.call v tr (floats i) with
    | error e => rfl
    | ok r =>
      dsimp only
      cases hr : quantizeWeights floats tr rest with
      | mk a rest' =>
        rw [hr] at ih
        cases a with
        | error e => simpa using ih
        | ok ws => simpa using ih

theorem Aux.quantizeWeights_shapes (tshape : T → List ℕ) (floats : ℕ → T) (tr : Bool)
    (wv : List (ℕ × Quant T V × V)) (hk : ∀ e ∈ wv, Spec.KeepsShape tshape e.2.1) (ws : List T)
    (h : (quantizeWeights floats tr wv).1 = .ok ws) :
    List.Forall₂ (fun (e : ℕ × Quant T V × V) t => tshape t = tshape (floats e.1)) wv ws := by
  induction wv generalizing ws with
  | nil => cases h; exact .nil
  | cons e rest ih =>
    obtain ⟨i, q, v⟩ := e
    simp only [quantizeWeights] at h
    cases hq : q.call v tr (floats i) with
    | error e => rw [hq] at h; cases h
    | ok r =>
      rw [hq] at h
      dsimp only at h
      cases hr : quantizeWeights floats tr rest with
      | mk a rest' =>
        rw [hr] at h ih
        cases a with
        | error e => cases h
        | ok ws' =>
          cases h
          exact .cons (hk _ List.mem_cons_self v tr _ r hq) (ih (fun e he => hk e (List.mem_cons_of_mem _ he)) ws' rfl)

theorem Aux.runLayer_length (attr : Key → Option (AVal T)) (p : Prog T S) (acts : List (Aware T V)) :
    (runLayer attr acts p).2.length = acts.length := by
  induction p generalizing acts with
  | ret o s => rfl
  | act k x next ih =>
    simp only [runLayer]
    cases attr k with
    | none => rfl
    | some v =>
      cases v with
      | fn a => exact ih _ _
      | aware j =>
        dsimp only
        cases acts[j]? with
        | none => rfl
        | some a =>
          dsimp only
          cases a.call x with
          | mk r a' =>
            cases r with
            | error e => simp
            | ok y => dsimp only; rw [ih]; simp

/-- The weight part of the invariant survives any change of the quantizers' variables. -/
theorem Aux.current_vars {l : Layer T} {shape : ℕ → List ℕ} {tshape : T → List ℕ} {wk : List Key}
    {wv wv' : List (ℕ × Quant T V × V)} (h : wv'.map (fun e => (e.1, e.2.1)) = wv.map fun e => (e.1, e.2.1))
    (hc : List.Forall₂ (fun k (e : ℕ × Quant T V × V) => ∃ cur, weightAt l k = some cur ∧
      cur.shape shape tshape = shape e.1) wk wv) :
    List.Forall₂ (fun k (e : ℕ × Quant T V × V) => ∃ cur, weightAt l k = some cur ∧
      cur.shape shape tshape = shape e.1) wk wv' := by
  have key : ∀ ww : List (ℕ × Quant T V × V),
      List.Forall₂ (fun k (e : ℕ × Quant T V × V) => ∃ cur, weightAt l k = some cur ∧
        cur.shape shape tshape = shape e.1) wk ww ↔
      List.Forall₂ (fun k (e : ℕ × Quant T V) => ∃ cur, weightAt l k = some cur ∧
        cur.shape shape tshape = shape e.1) wk (ww.map fun e => (e.1, e.2.1)) := by
    intro ww
    rw [List.forall₂_map_right_iff]
  rw [key, h, ← key]
  exact hc

theorem Aux.keeps_vars {floats : ℕ → T} {shape : ℕ → List ℕ} {tshape : T → List ℕ}
    {wv wv' : List (ℕ × Quant T V × V)} (h : wv'.map (fun e => (e.1, e.2.1)) = wv.map fun e => (e.1, e.2.1))
    (hc : ∀ e ∈ wv, Spec.KeepsShape tshape e.2.1 ∧ tshape (floats e.1) = shape e.1) :
    ∀ e ∈ wv', Spec.KeepsShape tshape e.2.1 ∧ tshape (floats e.1) = shape e.1 := by
  intro e he
  have : (e.1, e.2.1) ∈ wv.map fun e => (e.1, e.2.1) := by
    rw [← h]; exact List.mem_map.2 ⟨e, he, rfl⟩
  obtain ⟨e', he', heq⟩ := List.mem_map.1 this
  have h1 : e'.1 = e.1 := (Prod.mk.inj heq).1
  have h2 : e'.2.1 = e.2.1 := (Prod.mk.inj heq).2
  rw [← h1, ← h2]
  exact hc e' he'

theorem Aux.current_quantized {l : Layer T} {floats : ℕ → T} {shape : ℕ → List ℕ} {tshape : T → List ℕ}
    {wk : List Key} {es : List (ℕ × Quant T V × V)} {ws : List T}
    (h3 : List.Forall₂ (fun k (e : ℕ × Quant T V × V) => ∃ cur, weightAt l k = some cur ∧
      cur.shape shape tshape = shape e.1) wk es)
    (h4 : ∀ e ∈ es, tshape (floats e.1) = shape e.1)
    (hs2 : List.Forall₂ (fun (e : ℕ × Quant T V × V) t => tshape t = tshape (floats e.1)) es ws) :
    List.Forall₂ (fun k t => ∃ cur, weightAt l k = some cur ∧
      cur.shape shape tshape = (WVal.tensor t).shape shape tshape) wk ws := by
  induction h3 generalizing ws with
  | nil => cases hs2; exact .nil
  | cons h5 h6 ih =>
    cases hs2 with
    | cons h7 h8 =>
      refine .cons ?_ (ih (fun e he => h4 e (List.mem_cons_of_mem _ he)) h8)
      obtain ⟨cur, g1, g2⟩ := h5
      refine ⟨cur, g1, g2.trans ?_⟩
      rw [← h4 _ List.mem_cons_self]
      exact h7.symm

/-- One call follows the reference and keeps the invariant. -/
theorem Aux.call_refines {conf : Conf T V} {shape : ℕ → List ℕ} {tshape : T → List ℕ} {l₀ : Layer T}
    {wk ak : List Key} (hlaw : Spec.Lawful conf shape tshape l₀ wk ak) (fn : LayerFn T S) (takes : Bool)
    (w : Wrapper T V S) (hw : Aux.WInv shape tshape l₀ wk ak w) (tr : Bool) (x : T) :
    (call conf fn takes w tr x).1 = (Spec.emulate fn takes l₀ wk ak (Spec.view w) tr x).1 ∧
    Spec.view (call conf fn takes w tr x).2 = (Spec.emulate fn takes l₀ wk ak (Spec.view w) tr x).2 ∧
    Aux.WInv shape tshape l₀ wk ak (call conf fn takes w tr x).2 ∧
    (call conf fn takes w tr x).2.floats = w.floats := by
  have hv := Aux.quantizeWeights_vars w.floats tr w.weightVars
  have hsh := Aux.quantizeWeights_shapes tshape w.floats tr w.weightVars fun e he => (hw.keeps e he).1
  rw [Aux.emulate_eq]
  unfold call Spec.view
  dsimp only
  cases hq : quantizeWeights w.floats tr w.weightVars with
  | mk a wv =>
    rw [hq] at hv hsh
    dsimp only at hv hsh
    cases a with
    | error e =>
      refine ⟨rfl, rfl, ⟨hw.parts, hw.weights, hw.acts, hw.present, Aux.current_vars hv hw.current,
        Aux.keeps_vars hv hw.keeps, hw.count⟩, rfl⟩
    | ok ws =>
      dsimp only
      have hs2 := hsh ws rfl
      have hcur : List.Forall₂ (fun k (wv : WVal T) => ∃ cur, weightAt w.layer k = some cur ∧
          cur.shape shape tshape = wv.shape shape tshape) wk (ws.map WVal.tensor) := by
        rw [List.forall₂_map_right_iff]
        exact Aux.current_quantized hw.current (fun e he => (hw.keeps e he).2) hs2
      obtain ⟨l1, e1, e2, e3, e4⟩ := hlaw.setWeights w.layer hw.parts _ hcur
      rw [e1]
      dsimp only
      obtain ⟨l2, f1, f2, f3, f4⟩ := hlaw.setActivations l1 e2
        (fun k hk => by rw [e4 k]; exact hw.present k hk)
        ((List.range (w.acts.map fun a => { a with training := tr }).length).map .aware)
        (by simp [hw.count])
      rw [f1]
      dsimp only
      have hwl : wk.length = (ws.map (WVal.tensor (T := T))).length := hcur.length_eq
      -- the weights and activations the layer sees
      have hW : (fun k => (weightAt l2 k).map (WVal.value w.floats)) =
          Spec.overwrite wk ws fun k => (weightAt l₀ k).map (WVal.value w.floats) := by
        funext k
        rw [f4 k, e3 k, Aux.overwrite_congr hwl (get' := weightAt l₀) (fun k hk => hw.weights k hk) k,
          Aux.overwrite_map]
        congr 1
        rw [List.map_map]
        exact List.map_id'' (fun t => rfl) ws
      have hA : activationAt l2 = Spec.overwrite ak ((List.range w.acts.length).map .aware) (activationAt l₀) := by
        funext k
        rw [f3 k]
        rw [List.length_map]
        refine Aux.overwrite_congr (by simp [hw.count]) (fun k hk => ?_) k
        rw [e4 k, hw.acts k hk]
      rw [hW, hA]
      have hlen := Aux.runLayer_length (Spec.overwrite ak ((List.range w.acts.length).map .aware) (activationAt l₀))
        (fn w.state (Spec.overwrite wk ws fun k => (weightAt l₀ k).map (WVal.value w.floats))
          (if takes then some tr else none) x) (w.acts.map fun a => { a with training := tr })
      -- the invariant
      have hinv : ∀ (acts : List (Aware T V)) (s : S) (out : Option (Quant T V × V)), acts.length = w.acts.length →
          Aux.WInv shape tshape l₀ wk ak (⟨w.floats, l2, s, wv, acts, out⟩ : Wrapper T V S) := by
        intro acts s out hl
        refine ⟨f2, ?_, ?_, ?_, ?_, Aux.keeps_vars hv hw.keeps, hl.trans hw.count⟩
        · intro k hk
          dsimp only
          rw [f4 k, e3 k, Aux.overwrite_not_mem hk, hw.weights k hk]
        · intro k hk
          dsimp only
          rw [f3 k, Aux.overwrite_not_mem hk, e4 k, hw.acts k hk]
        · intro k hk
          dsimp only
          rw [f3 k]
          unfold Spec.overwrite
          split
          · rfl
          · rw [e4 k]; exact hw.present k hk
        · dsimp only
          refine Aux.current_vars hv ?_
          have h3 := hw.current
          refine (List.forall₂_iff_zip.2 ⟨h3.length_eq, ?_⟩)
          intro k e hke
          have h5 := (List.forall₂_iff_zip.1 h3).2 hke
          obtain ⟨cur, g1, g2⟩ := h5
          cases hl : (wk.zip (ws.map (WVal.tensor (T := T)))).lookup k with
          | none =>
            refine ⟨cur, ?_, g2⟩
            rw [f4 k, e3 k]
            simp only [Spec.overwrite, hl]
            exact g1
          | some t =>
            refine ⟨t, ?_, ?_⟩
            · rw [f4 k, e3 k]
              simp only [Spec.overwrite, hl]
            · obtain ⟨cur', g3, g4⟩ := (List.forall₂_iff_zip.1 hcur).2 (Aux.lookup_zip_some hl).2
              rw [← g4]
              rw [g1] at g3
              cases g3
              exact g2
      cases hr : runLayer (Spec.overwrite ak ((List.range w.acts.length).map .aware) (activationAt l₀))
        (w.acts.map fun a => { a with training := tr })
        (fn w.state (Spec.overwrite wk ws fun k => (weightAt l₀ k).map (WVal.value w.floats))
          (if takes then some tr else none) x) with
      | mk a acts =>
        rw [hr] at hlen
        dsimp only at hlen
        rw [List.length_map] at hlen
        cases a with
        | error e => exact ⟨rfl, rfl, hinv _ _ _ hlen, rfl⟩
        | ok os =>
          obtain ⟨o, s⟩ := os
          dsimp only
          cases hout : quantizeOutput tr w.output o with
          | mk r out => exact ⟨rfl, rfl, hinv _ _ _ hlen, rfl⟩

theorem Aux.assign_inv {shape : ℕ → List ℕ} {tshape : T → List ℕ} {l₀ : Layer T} {wk ak : List Key}
    {w : Wrapper T V S} (hw : Aux.WInv shape tshape l₀ wk ak w) (i : ℕ) (t : T) :
    Aux.WInv shape tshape l₀ wk ak { w with floats := assign shape tshape w.floats i t } := by
  refine ⟨hw.parts, hw.weights, hw.acts, hw.present, hw.current, ?_, hw.count⟩
  intro e he
  refine ⟨(hw.keeps e he).1, ?_⟩
  dsimp only [assign]
  split_ifs with h
  · by_cases hi : e.1 = i
    · rw [hi, Function.update_self]; exact h
    · rw [Function.update_of_ne hi]; exact (hw.keeps e he).2
  · exact (hw.keeps e he).2

theorem Aux.buildWeights_spec {shape : ℕ → List ℕ} : ∀ {ws : List (WVal T × Quant T V)} {wv : List (ℕ × Quant T V × V)},
    buildWeights shape ws = .ok wv → ws = wv.map fun e => (WVal.var e.1, e.2.1)
  | [], wv, h => by cases h; rfl
  | (.tensor t, q) :: rest, wv, h => by simp [buildWeights] at h
  | (.var i, q) :: rest, wv, h => by
    simp only [buildWeights] at h
    cases hq : q.build (some (shape i)) with
    | error e => rw [hq] at h; cases h
    | ok v =>
      rw [hq] at h
      dsimp only at h
      cases hr : buildWeights shape rest with
      | error e => rw [hr] at h; cases h
      | ok r =>
        rw [hr] at h
        cases h
        rw [Aux.buildWeights_spec hr]
        rfl

theorem Aux.make_facts {a : Act T} {q : Quant T V} {A : Aware T V} (h : Aware.make a q = .ok A) :
    A.act = a ∧ A.quantizer = q := by
  unfold Aware.make at h
  split_ifs at h
  cases h1 : buildIf q (preQuant a.name) with
  | error e => rw [h1] at h; cases h
  | ok pre =>
    rw [h1] at h
    dsimp only at h
    cases h2 : buildIf q (postQuant a.name) with
    | error e => rw [h2] at h; cases h
    | ok post => rw [h2] at h; cases h; exact ⟨rfl, rfl⟩

theorem Aux.buildActs_spec : ∀ {as : List (AVal T × Quant T V)} {acts : List (Aware T V)},
    buildActs as = .ok acts → as = acts.map fun A => (AVal.fn A.act, A.quantizer)
  | [], acts, h => by cases h; rfl
  | (.aware j, q) :: rest, acts, h => by simp [buildActs] at h
  | (.fn a, q) :: rest, acts, h => by
    simp only [buildActs] at h
    cases hq : Aware.make a q with
    | error e => rw [hq] at h; cases h
    | ok v =>
      rw [hq] at h
      dsimp only at h
      cases hr : buildActs rest with
      | error e => rw [hr] at h; cases h
      | ok r =>
        rw [hr] at h
        cases h
        obtain ⟨h1, h2⟩ := Aux.make_facts hq
        rw [Aux.buildActs_spec hr, ← h1, ← h2]
        rfl

theorem Aux.build_spec {conf : Conf T V} {shape : ℕ → List ℕ} {outShape : List ℕ} {floats : ℕ → T} {l : Layer T}
    {s : S} {w : Wrapper T V S} (h : build conf shape outShape floats l s = .ok w) :
    ∃ ws as qs, conf.getWeights l = .ok ws ∧ ws = w.weightVars.map (fun e => (WVal.var e.1, e.2.1)) ∧
      conf.getActivations l = .ok as ∧ as = w.acts.map (fun A => (AVal.fn A.act, A.quantizer)) ∧
      conf.getOutput l = .ok qs ∧ buildOutput outShape qs = .ok w.output ∧
      w.floats = floats ∧ w.layer = l ∧ w.state = s := by
  unfold build at h
  cases h1 : conf.getWeights l with
  | error e => rw [h1] at h; cases h
  | ok ws =>
    rw [h1] at h; dsimp only at h
    cases h2 : buildWeights shape ws with
    | error e => rw [h2] at h; cases h
    | ok wv =>
      rw [h2] at h; dsimp only at h
      cases h3 : conf.getActivations l with
      | error e => rw [h3] at h; cases h
      | ok as =>
        rw [h3] at h; dsimp only at h
        cases h4 : buildActs as with
        | error e => rw [h4] at h; cases h
        | ok acts =>
          rw [h4] at h; dsimp only at h
          cases h5 : conf.getOutput l with
          | error e => rw [h5] at h; cases h
          | ok qs =>
            rw [h5] at h; dsimp only at h
            cases h6 : buildOutput outShape qs with
            | error e => rw [h6] at h; cases h
            | ok out =>
              rw [h6] at h
              cases h
              exact ⟨ws, as, qs, rfl, Aux.buildWeights_spec h2, rfl, Aux.buildActs_spec h4, rfl, h6, rfl, rfl, rfl⟩

theorem Aux.build_inv {conf : Conf T V} {shape : ℕ → List ℕ} {tshape : T → List ℕ} {l₀ : Layer T}
    {wk ak : List Key} (hlaw : Spec.Lawful conf shape tshape l₀ wk ak) {outShape : List ℕ} {floats : ℕ → T}
    {s : S} {w : Wrapper T V S} (h : build conf shape outShape floats l₀ s = .ok w)
    (hf : ∀ i, tshape (floats i) = shape i)
    (hk : ∀ ws, conf.getWeights l₀ = .ok ws → ∀ e ∈ ws, Spec.KeepsShape tshape e.2) :
    Aux.WInv shape tshape l₀ wk ak w := by
  obtain ⟨ws, as, qs, h1, h2, h3, h4, h5, h6, h7, h8, h9⟩ := Aux.build_spec h
  have hW := hlaw.getWeights ws h1
  have hA := hlaw.getActivations as h3
  refine ⟨by rw [h8]; exact ⟨rfl, rfl⟩, fun k _ => by rw [h8], fun k _ => by rw [h8], ?_, ?_, ?_, ?_⟩
  · intro k hk
    rw [h8]
    obtain ⟨n, hn, rfl⟩ := List.getElem_of_mem hk
    have hn' : n < as.length := by rw [← hA.length_eq]; exact hn
    have := hA.get hn hn'
    simp only [List.get_eq_getElem] at this
    rw [this]
    rfl
  · rw [h8, h2, List.forall₂_map_right_iff] at *
    exact hW.imp fun k e he => ⟨_, he, rfl⟩
  · intro e he
    refine ⟨hk ws h1 (.var e.1, e.2.1) ?_, by rw [h7]; exact hf e.1⟩
    rw [h2]
    exact List.mem_map.2 ⟨e, he, rfl⟩
  · rw [hA.length_eq, h4, List.length_map]

theorem Aux.run_refines {conf : Conf T V} {shape : ℕ → List ℕ} {tshape : T → List ℕ} {l₀ : Layer T}
    {wk ak : List Key} (hlaw : Spec.Lawful conf shape tshape l₀ wk ak) (fn : LayerFn T S) (takes : Bool)
    (events : List (Event T)) (w : Wrapper T V S) (hw : Aux.WInv shape tshape l₀ wk ak w) :
    (run conf fn takes shape tshape events w).1 =
      (Spec.emulateRun fn takes shape tshape l₀ wk ak events (Spec.view w)).1 ∧
    Spec.view (run conf fn takes shape tshape events w).2 =
      (Spec.emulateRun fn takes shape tshape l₀ wk ak events (Spec.view w)).2 := by
  induction events generalizing w with
  | nil => exact ⟨rfl, rfl⟩
  | cons e rest ih =>
    cases e with
    | call tr x =>
      obtain ⟨h1, h2, h3, -⟩ := Aux.call_refines hlaw fn takes w hw tr x
      obtain ⟨h4, h5⟩ := ih _ h3
      rw [h2] at h4 h5
      simp only [run, Spec.emulateRun]
      exact ⟨by rw [h1, h4], h5⟩
    | assign i t => exact ih _ (Aux.assign_inv hw i t)

/-- **C83.**  Over any history of calls (training and inference) and assignments of the layer's variables, a
quantize wrapper returns exactly what the reference machine returns, and its floating-point weights, its
layer's own state and its quantizers' variables are those of the reference machine.  In particular every call
quantizes the current floating-point weights (never a weight that is already quantized), whatever the earlier
calls left in the layer. -/
theorem C83_refines {conf : Conf T V} {shape : ℕ → List ℕ} {tshape : T → List ℕ} {l₀ : Layer T}
    {wk ak : List Key} (hlaw : Spec.Lawful conf shape tshape l₀ wk ak) (fn : LayerFn T S) (takes : Bool)
    (outShape : List ℕ) (floats : ℕ → T) (s : S) (w : Wrapper T V S)
    (hb : build conf shape outShape floats l₀ s = .ok w) (hf : ∀ i, tshape (floats i) = shape i)
    (hk : ∀ ws, conf.getWeights l₀ = .ok ws → ∀ e ∈ ws, Spec.KeepsShape tshape e.2) (events : List (Event T)) :
    (run conf fn takes shape tshape events w).1 =
      (Spec.emulateRun fn takes shape tshape l₀ wk ak events (Spec.view w)).1 ∧
    Spec.view (run conf fn takes shape tshape events w).2 =
      (Spec.emulateRun fn takes shape tshape l₀ wk ak events (Spec.view w)).2 :=
  Aux.run_refines hlaw fn takes events w (Aux.build_inv hlaw hb hf hk)

/-! ## Floating-point weights and inference -/

/-- **C83 (weights).**  With any config, no call ever changes a floating-point weight: after any history the
variables of the layer have the values the assignments gave them. -/
theorem C83_floats (conf : Conf T V) (fn : LayerFn T S) (takes : Bool) (shape : ℕ → List ℕ) (tshape : T → List ℕ)
    (events : List (Event T)) (w : Wrapper T V S) :
    (run conf fn takes shape tshape events w).2.floats =
      events.foldl (fun f e => match e with
        | .call _ _ => f
        | .assign i t => if tshape t = shape i then Function.update f i t else f) w.floats := by
  induction events generalizing w with
  | nil => rfl
  | cons e rest ih =>
    cases e with
    | call tr x =>
      have h1 : (call conf fn takes w tr x).2.floats = w.floats := by
        unfold call
        cases quantizeWeights w.floats tr w.weightVars with
        | mk a wv =>
          cases a with
          | error e => rfl
          | ok ws =>
            dsimp only
            cases conf.setWeights (ws.map .tensor) w.layer with
            | mk a l =>
              cases a with
              | some e => rfl
              | none =>
                dsimp only
                cases conf.setActivations
                  ((List.range (w.acts.map fun a => { a with training := tr }).length).map .aware) l with
                | mk a l =>
                  cases a with
                  | some e => rfl
                  | none =>
                    dsimp only
                    cases runLayer (activationAt l) (w.acts.map fun a => { a with training := tr })
                      (fn w.state (fun k => (weightAt l k).map (WVal.value w.floats))
                        (if takes then some tr else none) x) with
                    | mk a acts =>
                      cases a with
                      | error e => rfl
                      | ok os =>
                        obtain ⟨o, s⟩ := os
                        rfl
      simp only [run, List.foldl_cons]
      rw [← h1]
      exact ih _
    | assign i t => exact ih _

/-- A quantizer whose variables do not change in inference. -/
def Spec.InferencePure (q : Quant T V) : Prop := ∀ v t r, q.call v false t = .ok r → r.2 = v

theorem Aux.quantizeWeights_pure (floats : ℕ → T) (wv : List (ℕ × Quant T V × V))
    (h : ∀ e ∈ wv, Spec.InferencePure e.2.1) : (quantizeWeights floats false wv).2 = wv := by
  induction wv with
  | nil => rfl
  | cons e rest ih =>
    obtain ⟨i, q, v⟩ := e
    have ih := ih fun e he => h e (List.mem_cons_of_mem _ he)
    simp only [quantizeWeights]
    cases hq : q.call v false (floats i) with
    | error e => rfl
    | ok r =>
      have hr := h _ List.mem_cons_self v _ r hq
      dsimp only at hr ⊢
      cases hr' : quantizeWeights floats false rest with
      | mk a rest' =>
        rw [hr'] at ih
        dsimp only at ih
        subst ih
        cases a <;> simp [hr]

theorem Aux.quantizeIf_pure {q : Quant T V} (hq : Spec.InferencePure q) {v : Option V} {x : T} {r : T × Option V}
    (h : quantizeIf q v false x = .ok r) : r.2 = v := by
  cases v with
  | none => cases h; rfl
  | some v =>
    simp only [quantizeIf] at h
    cases hr : q.call v false x with
    | error e => rw [hr] at h; cases h
    | ok r' => rw [hr] at h; cases h; exact congrArg some (hq v x r' hr)

theorem Aux.aware_pure {A : Aware T V} (hq : Spec.InferencePure A.quantizer) (ht : A.training = false) (x : T) :
    (A.call x).2 = A := by
  obtain ⟨act, q, pre, post, tr⟩ := A
  dsimp only at hq ht
  subst ht
  unfold Aware.call
  dsimp only
  cases hr : quantizeIf q pre false x with
  | error e => rfl
  | ok r =>
    have h1 := Aux.quantizeIf_pure hq hr
    dsimp only
    cases hr' : quantizeIf q post false (act.fn r.1) with
    | error e => dsimp only; rw [h1]
    | ok r' => dsimp only; rw [h1, Aux.quantizeIf_pure hq hr']

theorem Aux.runLayer_pure (attr : Key → Option (AVal T)) (p : Prog T S) (acts : List (Aware T V))
    (h : ∀ A ∈ acts, Spec.InferencePure A.quantizer ∧ A.training = false) : (runLayer attr acts p).2 = acts := by
  induction p generalizing acts with
  | ret o s => rfl
  | act k x next ih =>
    simp only [runLayer]
    cases attr k with
    | none => rfl
    | some v =>
      cases v with
      | fn a => exact ih _ _ h
      | aware j =>
        dsimp only
        cases hj : acts[j]? with
        | none => rfl
        | some a =>
          have hm := List.mem_of_getElem? hj
          have hp := Aux.aware_pure (h a hm).1 (h a hm).2 x
          have hset : acts.set j a = acts := by
            obtain ⟨hj1, hj2⟩ := List.getElem?_eq_some_iff.1 hj
            rw [← hj2]
            exact List.set_getElem_self hj1
          dsimp only
          cases hc : a.call x with
          | mk r a' =>
            rw [hc] at hp
            dsimp only at hp
            subst hp
            cases r with
            | error e => exact hset
            | ok y => dsimp only; rw [hset]; exact ih _ _ h

/-- **C83 (inference).**  With any config, a call with `training=False` changes none of the quantizers'
variables (and no floating-point weight), if each quantizer keeps its variables in inference, as the shipped
ones do. -/
theorem C83_inference (conf : Conf T V) (fn : LayerFn T S) (takes : Bool) (w : Wrapper T V S) (x : T)
    (h1 : ∀ e ∈ w.weightVars, Spec.InferencePure e.2.1) (h2 : ∀ A ∈ w.acts, Spec.InferencePure A.quantizer)
    (h3 : ∀ o ∈ w.output, Spec.InferencePure o.1) :
    (call conf fn takes w false x).2.weightVars = w.weightVars ∧
    (call conf fn takes w false x).2.acts.map (fun A => (A.pre, A.post)) = w.acts.map (fun A => (A.pre, A.post)) ∧
    (call conf fn takes w false x).2.output = w.output ∧ (call conf fn takes w false x).2.floats = w.floats := by
  have hW := Aux.quantizeWeights_pure w.floats w.weightVars h1
  have hA : ∀ A ∈ w.acts.map (fun a => { a with training := false }),
      Spec.InferencePure A.quantizer ∧ A.training = false := by
    intro A hA
    obtain ⟨B, hB, rfl⟩ := List.mem_map.1 hA
    exact ⟨h2 B hB, rfl⟩
  have hM : (w.acts.map (fun a => ({ a with training := false } : Aware T V))).map (fun A => (A.pre, A.post)) =
      w.acts.map (fun A => (A.pre, A.post)) := by
    rw [List.map_map]; rfl
  unfold call
  cases hq : quantizeWeights w.floats false w.weightVars with
  | mk a wv =>
    rw [hq] at hW
    dsimp only at hW
    subst hW
    cases a with
    | error e => exact ⟨rfl, rfl, rfl, rfl⟩
    | ok ws =>
      dsimp only
      cases conf.setWeights (ws.map .tensor) w.layer with
      | mk a l =>
        cases a with
        | some e => exact ⟨rfl, rfl, rfl, rfl⟩
        | none =>
          dsimp only
          cases conf.setActivations
            ((List.range (w.acts.map fun a => { a with training := false }).length).map .aware) l with
          | mk a l =>
            cases a with
            | some e => exact ⟨rfl, hM, rfl, rfl⟩
            | none =>
              dsimp only
              have hR := Aux.runLayer_pure (activationAt l) (fn w.state
                (fun k => (weightAt l k).map (WVal.value w.floats)) (if takes then some false else none) x) _ hA
              cases hr : runLayer (activationAt l) (w.acts.map fun a => { a with training := false })
                (fn w.state (fun k => (weightAt l k).map (WVal.value w.floats))
                  (if takes then some false else none) x) with
              | mk a acts =>
                rw [hr] at hR
                dsimp only at hR
                subst hR
                cases a with
                | error e => exact ⟨rfl, hM, rfl, rfl⟩
                | ok os =>
                  obtain ⟨o, s⟩ := os
                  refine ⟨rfl, hM, ?_, rfl⟩
                  dsimp only [quantizeOutput]
                  cases ho : w.output with
                  | none => rfl
                  | some qv =>
                    obtain ⟨q, v⟩ := qv
                    cases o with
                    | many ts => rfl
                    | one t =>
                      dsimp only
                      cases hc : q.call v false t with
                      | error e => rfl
                      | ok r =>
                        have := h3 (q, v) (by rw [ho]; rfl) v t r hc
                        dsimp only
                        rw [this]

/-! ## The configs -/

/-- The attributes a list of names refers to. -/
def Spec.keysFrom (j : ℕ) : List AttrVal → List Key
  | [] => []
  | a :: as => (match a with | .many ns => ns | .one _ => []).map (fun n => (some j, n)) ++ Spec.keysFrom (j + 1) as

/-- The attributes a default config names: of the layer itself, or of its cells in order. -/
def Spec.keys (cls : CClass) (attrs : List AttrVal) : List Key :=
  if cls = .rnn then Spec.keysFrom 0 attrs
  else attrs.filterMap fun a => match a with | .one s => some (none, s) | .many _ => none

theorem Aux.getAll_iff {X : Type*} {f : String → Option X} {names : List String} {xs : List X} :
    getAll f names = .ok xs ↔ List.Forall₂ (fun n x => f n = some x) names xs := by
  induction names generalizing xs with
  | nil =>
    simp only [getAll, List.forall₂_nil_left_iff]
    constructor
    · intro h; cases h; rfl
    · rintro rfl; rfl
  | cons a rest ih =>
    constructor
    · intro h
      obtain ⟨x, ys, rfl, h1, h2⟩ := Aux.getAll_cons h
      exact .cons h1 (ih.1 h2)
    · intro h
      cases h with
      | cons h1 h2 =>
        simp only [getAll]
        rw [h1, ih.2 h2]

theorem Aux.forall₂_append_split {X Y : Type*} {R : X → Y → Prop} {as bs : List X} {ys : List Y}
    (h : List.Forall₂ R (as ++ bs) ys) : ∃ y1 y2, ys = y1 ++ y2 ∧ List.Forall₂ R as y1 ∧ List.Forall₂ R bs y2 := by
  induction as generalizing ys with
  | nil => exact ⟨[], ys, rfl, .nil, h⟩
  | cons a as ih =>
    cases h with
    | cons h1 h2 =>
      obtain ⟨y1, y2, rfl, h3, h4⟩ := ih h2
      exact ⟨_ :: y1, y2, rfl, .cons h1 h3, h4⟩

theorem Aux.getCells_iff {W A X : Type*} {get : Cell W A → String → Option X} (attrs : List AttrVal)
    (hnd : ∀ x ∈ attrs, ∃ ns, x = AttrVal.many ns) (pre cs : List (Cell W A)) (hl : cs.length = attrs.length)
    (xs : List X) : getCells get attrs cs = .ok xs ↔
      List.Forall₂ (fun (k : Key) x => ((k.1.bind fun i => (pre ++ cs)[i]?).bind fun c => get c k.2) = some x)
        (Spec.keysFrom pre.length attrs) xs := by
  induction attrs generalizing pre cs xs with
  | nil =>
    obtain rfl : cs = [] := List.eq_nil_of_length_eq_zero hl
    simp only [getCells, Spec.keysFrom, List.forall₂_nil_left_iff]
    constructor
    · intro h; cases h; rfl
    · rintro rfl; rfl
  | cons a as ih =>
    cases cs with
    | nil => simp at hl
    | cons c cs =>
      obtain ⟨ns, rfl⟩ := hnd a List.mem_cons_self
      have ih := ih (fun x hx => hnd x (List.mem_cons_of_mem _ hx)) (pre ++ [c]) cs (by simpa using hl)
      simp only [List.append_assoc, List.singleton_append, List.length_append, List.length_singleton] at ih
      have hhead : ∀ ys : List X, List.Forall₂ (fun (k : Key) x => ((k.1.bind fun i => (pre ++ c :: cs)[i]?).bind fun c => get c k.2) = some x)
          (ns.map fun n => (some pre.length, n)) ys ↔ List.Forall₂ (fun n x => get c n = some x) ns ys := by
        intro ys
        rw [List.forall₂_map_left_iff]
        simp
      simp only [Spec.keysFrom]
      constructor
      · intro h
        obtain ⟨ys, zs, rfl, h1, h2⟩ := Aux.getCells_cons h
        exact List.rel_append ((hhead ys).2 (Aux.getAll_iff.1 h1)) ((ih zs).1 h2)
      · intro h
        obtain ⟨y1, y2, rfl, h3, h4⟩ := Aux.forall₂_append_split h
        simp only [getCells, AttrVal.names]
        rw [Aux.getAll_iff.2 ((hhead y1).1 h3)]
        dsimp only
        rw [(ih y2).2 h4]

theorem Aux.keys_plain {cls : CClass} (hr : cls ≠ .rnn) (names : List String) :
    Spec.keys cls (names.map .one) = names.map fun n => (none, n) := by
  unfold Spec.keys
  rw [if_neg hr, List.filterMap_map]
  induction names with
  | nil => rfl
  | cons a as ih => simpa using ih

theorem Aux.getAttrs_iff {W A X : Type*} {cls : CClass} {attrs : List AttrVal} {l : KLayer W A}
    (hf : Spec.FitsLayer cls attrs l) (get : Cell W A → String → Option X) (xs : List X) :
    getAttrs cls get attrs l = .ok xs ↔
      List.Forall₂ (fun (k : Key) x => ((part l k.1).bind fun c => get c k.2) = some x) (Spec.keys cls attrs) xs := by
  by_cases hr : cls = .rnn
  · simp only [Spec.FitsLayer, if_pos hr] at hf
    obtain ⟨⟨cs, hcs, hlen⟩, hnd⟩ := hf
    subst hr
    rw [Aux.getAttrs_rnn _ _ _ cs hcs, Aux.getCells_iff attrs (fun x hx => (hnd x hx).imp fun _ h => h.1) [] cs hlen xs]
    simp only [Spec.keys, if_true, List.length_nil, List.nil_append]
    have hkeys : ∀ (as : List AttrVal) (j : ℕ), ∀ k ∈ Spec.keysFrom j as, ∃ i, k.1 = some i := by
      intro as
      induction as with
      | nil => intro j k hk; simp [Spec.keysFrom] at hk
      | cons a as ih =>
        intro j k hk
        simp only [Spec.keysFrom, List.mem_append, List.mem_map] at hk
        rcases hk with ⟨n, -, rfl⟩ | hk
        · exact ⟨j, rfl⟩
        · exact ih _ k hk
    constructor
    · intro h
      refine (List.forall₂_iff_zip.2 ⟨h.length_eq, fun {k x} hkx => ?_⟩)
      have := (List.forall₂_iff_zip.1 h).2 hkx
      obtain ⟨i, hi⟩ := hkeys attrs 0 k (List.of_mem_zip hkx).1
      rw [hi] at this ⊢
      simpa [part, hcs] using this
    · intro h
      refine (List.forall₂_iff_zip.2 ⟨h.length_eq, fun {k x} hkx => ?_⟩)
      have := (List.forall₂_iff_zip.1 h).2 hkx
      obtain ⟨i, hi⟩ := hkeys attrs 0 k (List.of_mem_zip hkx).1
      rw [hi] at this ⊢
      simpa [part, hcs] using this
  · simp only [Spec.FitsLayer, if_neg hr] at hf
    obtain ⟨names, hn, ha⟩ := Aux.plainNames_ok _ hf.1
    rw [Aux.getAttrs_plain hr _ names _ hn, Aux.getAll_iff, ha, Aux.keys_plain hr, List.forall₂_map_left_iff]
    simp [part]

theorem Aux.mem_keysFrom {as : List AttrVal} {j i : ℕ} {n : String} :
    (some (j + i), n) ∈ Spec.keysFrom j as ↔ ∃ l, as[i]? = some (.many l) ∧ n ∈ l := by
  induction as generalizing j i with
  | nil => simp [Spec.keysFrom]
  | cons a as ih =>
    simp only [Spec.keysFrom, List.mem_append, List.mem_map, Prod.mk.injEq, Option.some.injEq]
    cases i with
    | zero =>
      have hno : ∀ (bs : List AttrVal) (m : ℕ), j < m → (some j, n) ∉ Spec.keysFrom m bs := by
        intro bs
        induction bs with
        | nil => intro m _ h; simp [Spec.keysFrom] at h
        | cons b bs ihb =>
          intro m hm h
          simp only [Spec.keysFrom, List.mem_append, List.mem_map, Prod.mk.injEq, Option.some.injEq] at h
          rcases h with ⟨x, -, h, -⟩ | h
          · omega
          · exact ihb (m + 1) (by omega) h
      simp only [Nat.add_zero, List.getElem?_cons_zero, Option.some.injEq]
      constructor
      · rintro (⟨x, hx, -, rfl⟩ | h)
        · cases a with
          | one s => simp at hx
          | many ns => exact ⟨ns, rfl, hx⟩
        · exact absurd h (hno as (j + 1) (by omega))
      · rintro ⟨l, rfl, hn⟩
        exact .inl ⟨n, hn, trivial, rfl⟩
    | succ i =>
      have := @ih (j + 1) i
      rw [show j + 1 + i = j + (i + 1) by omega] at this
      rw [this]
      simp only [List.getElem?_cons_succ]
      constructor
      · rintro (⟨x, -, h, -⟩ | h)
        · omega
        · exact h
      · exact .inr

theorem Aux.names_iff_mem {W A : Type*} {cls : CClass} {attrs : List AttrVal} {l : KLayer W A}
    (hf : Spec.FitsLayer cls attrs l) (k : Key) : Spec.Names cls attrs k.1 k.2 ↔ k ∈ Spec.keys cls attrs := by
  obtain ⟨i, n⟩ := k
  by_cases hr : cls = .rnn
  · simp only [Spec.Names, Spec.keys, if_pos hr]
    constructor
    · rintro ⟨k, ns, rfl, h1, h2⟩
      have := (@Aux.mem_keysFrom attrs 0 k n).2 ⟨ns, h1, h2⟩
      simpa using this
    · intro h
      cases i with
      | none =>
        exfalso
        have hno : ∀ (bs : List AttrVal) (m : ℕ), ((none : Option ℕ), n) ∉ Spec.keysFrom m bs := by
          intro bs
          induction bs with
          | nil => intro m h; simp [Spec.keysFrom] at h
          | cons b bs ihb =>
            intro m h
            simp only [Spec.keysFrom, List.mem_append, List.mem_map, Prod.mk.injEq] at h
            rcases h with ⟨x, -, h, -⟩ | h
            · cases h
            · exact ihb (m + 1) h
        exact hno _ _ h
      | some k =>
        obtain ⟨ns, h1, h2⟩ := (@Aux.mem_keysFrom attrs 0 k n).1 (by simpa using h)
        exact ⟨k, ns, rfl, h1, h2⟩
  · rw [Spec.Names, if_neg hr]
    simp only [Spec.FitsLayer, if_neg hr] at hf
    obtain ⟨names, hn, ha⟩ := Aux.plainNames_ok _ hf.1
    rw [ha, Aux.keys_plain hr]
    rw [List.mem_map, List.mem_map]
    constructor
    · rintro ⟨rfl, m, h, heq⟩
      cases heq
      exact ⟨n, h, rfl⟩
    · rintro ⟨m, h, heq⟩
      cases heq
      exact ⟨rfl, n, h, rfl⟩

theorem Aux.fits_sameParts {W A : Type*} {cls : CClass} {attrs : List AttrVal} {l l' : KLayer W A}
    (hf : Spec.FitsLayer cls attrs l) (h : Spec.SameParts l l') : Spec.FitsLayer cls attrs l' := by
  by_cases hr : cls = .rnn
  · simp only [Spec.FitsLayer, if_pos hr] at hf ⊢
    obtain ⟨⟨cs, hcs, hlen⟩, hnd⟩ := hf
    refine ⟨?_, hnd⟩
    have h2 := h.2
    rw [hcs] at h2
    cases hc' : l'.cells with
    | none => rw [hc'] at h2; simp at h2
    | some cs' =>
      rw [hc'] at h2
      simp only [Option.map_some, Option.some.injEq] at h2
      refine ⟨cs', rfl, ?_⟩
      have := congrArg List.length h2
      simp only [List.length_map] at this
      omega
  · simp only [Spec.FitsLayer, if_neg hr] at hf ⊢
    exact hf

/-- Layers with as many cells, of the same classes, have the same parts. -/
theorem Aux.sameParts_of {W A : Type*} {l l' : KLayer W A}
    (hc : l.cells.map List.length = l'.cells.map List.length)
    (h : ∀ i p p', Spec.part l i = some p → Spec.part l' i = some p' → p'.cls = p.cls) : Spec.SameParts l l' := by
  refine ⟨h none _ _ rfl rfl, ?_⟩
  cases h1 : l.cells with
  | none =>
    rw [h1] at hc
    cases h2 : l'.cells with
    | none => rfl
    | some cs' => rw [h2] at hc; simp at hc
  | some cs =>
    rw [h1] at hc
    cases h2 : l'.cells with
    | none => rw [h2] at hc; simp at hc
    | some cs' =>
      rw [h2] at hc
      simp only [Option.map_some, Option.some.injEq] at hc ⊢
      refine List.ext_getElem (by simpa using hc.symm) fun i hi hi' => ?_
      simp only [List.length_map] at hi hi'
      simp only [List.getElem_map]
      exact h (some i) _ _ (by simp [Spec.part, h1, hi']) (by simp [Spec.part, h2, hi])

theorem Aux.part_iff {W A : Type*} {l l' : KLayer W A}
    (hc : l.cells.map List.length = l'.cells.map List.length) (i : Option ℕ) :
    (Spec.part l i = none ∧ Spec.part l' i = none) ∨ ∃ p p', Spec.part l i = some p ∧ Spec.part l' i = some p' := by
  cases i with
  | none => exact .inr ⟨_, _, rfl, rfl⟩
  | some i =>
    cases h1 : l.cells with
    | none =>
      rw [h1] at hc
      cases h2 : l'.cells with
      | none => exact .inl ⟨by simp [Spec.part, h1], by simp [Spec.part, h2]⟩
      | some cs' => rw [h2] at hc; simp at hc
    | some cs =>
      rw [h1] at hc
      cases h2 : l'.cells with
      | none => rw [h2] at hc; simp at hc
      | some cs' =>
        rw [h2] at hc
        simp only [Option.map_some, Option.some.injEq] at hc
        by_cases hi : i < cs.length
        · exact .inr ⟨cs[i], cs'[i], by simp [Spec.part, h1, hi], by simp [Spec.part, h2]⟩
        · exact .inl ⟨by simp [Spec.part, h1]; omega, by simp [Spec.part, h2]; omega⟩

theorem Aux.part_eq {W A : Type*} (l : KLayer W A) (i : Option ℕ) : part l i = Spec.part l i := by cases i <;> rfl

theorem Aux.overwrite_spec {X : Type*} {keys : List Key} {vals : List X} {get get' : Key → Option X}
    (h1 : List.Forall₂ (fun k x => get' k = some x) keys vals) (h2 : ∀ k, k ∉ keys → get' k = get k) (k : Key) :
    get' k = Spec.overwrite keys vals get k := by
  unfold Spec.overwrite
  cases hk : (keys.zip vals).lookup k with
  | none => exact h2 k ((Aux.lookup_zip_none h1.length_eq).1 hk)
  | some x => exact (List.forall₂_iff_zip.1 h1).2 (Aux.lookup_zip_some hk).2

theorem Aux.sameParts_trans {W A : Type*} {a b c : KLayer W A} (h : Spec.SameParts a b) (h' : Spec.SameParts b c) :
    Spec.SameParts a c := ⟨h'.1.trans h.1, h'.2.trans h.2⟩

/-- **C83 (configs).**  The default configs keep the contract, whatever their quantizers do. -/
theorem C83_default_lawful (sem : Quantizer → Quant T V) (shape : ℕ → List ℕ) (tshape : T → List ℕ) (c : DConfig)
    (l₀ : Layer T) (hw : Spec.FitsLayer c.cls c.weightAttrs l₀) (ha : Spec.FitsLayer c.cls c.activationAttrs l₀) :
    Spec.Lawful (ofConfig sem shape tshape (.dflt c)) shape tshape l₀ (Spec.keys c.cls c.weightAttrs)
      (Spec.keys c.cls c.activationAttrs) := by
  constructor
  · intro ws h
    obtain ⟨w1, h1, rfl⟩ := Aux.map_ok h
    obtain ⟨w2, h2, rfl⟩ := Aux.map_ok h1
    have h3 := (Aux.getAttrs_iff hw Cell.weight w2).1 h2
    rw [List.map_map, List.forall₂_map_right_iff]
    exact h3
  · intro ws h
    obtain ⟨w1, h1, rfl⟩ := Aux.map_ok h
    obtain ⟨w2, h2, rfl⟩ := Aux.map_ok h1
    have h3 := (Aux.getAttrs_iff ha Cell.activation w2).1 h2
    rw [List.map_map, List.forall₂_map_right_iff]
    exact h3
  · intro l hl ws hs
    have hf := Aux.fits_sameParts hw hl
    -- the current weights
    obtain ⟨cur, hcur, hsame⟩ : ∃ cur, List.Forall₂ (fun k x => weightAt l k = some x) (Spec.keys c.cls c.weightAttrs) cur ∧
        List.Forall₂ (fun (x w : WVal T) => x.shape shape tshape = w.shape shape tshape) cur ws := by
      clear hw hf
      generalize Spec.keys c.cls c.weightAttrs = ks at hs
      induction hs with
      | nil => exact ⟨[], .nil, .nil⟩
      | cons h _ ih =>
        obtain ⟨x, h1, h2⟩ := h
        obtain ⟨cur, h3, h4⟩ := ih
        exact ⟨x :: cur, .cons h1 h3, .cons h2 h4⟩
    have hget : c.getWeights l = .ok (cur.map fun w => (w, c.weightQuantizer)) := by
      unfold DConfig.getWeights
      rw [(Aux.getAttrs_iff hf Cell.weight cur).2 hcur]
      rfl
    obtain ⟨l', e1, e2, e3, e4⟩ := C81_weights_partial (WVal.shape shape tshape) c l _ hf hget ws
      (by rw [List.forall₂_map_left_iff]; exact hsame)
    have hparts : Spec.SameParts l l' := Aux.sameParts_of e3 fun i p p' hp hp' => (e4 i p p' hp hp').1
    refine ⟨l', e1, Aux.sameParts_trans hl hparts, ?_, ?_⟩
    · refine Aux.overwrite_spec ?_ ?_
      · have hf' := Aux.fits_sameParts hf hparts
        obtain ⟨w2, h2, h3⟩ := Aux.map_ok e2
        have h4 := (Aux.getAttrs_iff hf' Cell.weight w2).1 h2
        have h5 : w2 = ws := by
          have := congrArg (List.map Prod.fst) h3
          simpa [Function.comp_def] using this
        rw [h5] at h4
        exact h4
      · intro k hk
        rw [← Aux.names_iff_mem hw] at hk
        unfold weightAt
        rw [Aux.part_eq, Aux.part_eq]
        rcases Aux.part_iff e3 k.1 with ⟨h1, h2⟩ | ⟨p, p', h1, h2⟩
        · rw [h1, h2]
        · rw [h1, h2]
          exact (e4 k.1 p p' h1 h2).2.2 k.2 hk
    · intro k
      unfold activationAt
      rw [Aux.part_eq, Aux.part_eq]
      rcases Aux.part_iff e3 k.1 with ⟨h1, h2⟩ | ⟨p, p', h1, h2⟩
      · rw [h1, h2]
      · rw [h1, h2]
        simp only [Option.bind_some]
        rw [(e4 k.1 p p' h1 h2).2.1]
  · intro l hl hpres as hlen
    have hf := Aux.fits_sameParts ha hl
    obtain ⟨cur, hcur⟩ : ∃ cur, List.Forall₂ (fun k x => activationAt l k = some x) (Spec.keys c.cls c.activationAttrs) cur := by
      clear hlen ha hf
      generalize Spec.keys c.cls c.activationAttrs = ks at hpres
      induction ks with
      | nil => exact ⟨[], .nil⟩
      | cons k ks ih =>
        obtain ⟨cur, h⟩ := ih fun k hk => hpres k (List.mem_cons_of_mem _ hk)
        obtain ⟨x, hx⟩ := Option.isSome_iff_exists.1 (hpres k List.mem_cons_self)
        exact ⟨x :: cur, .cons hx h⟩
    have hget : c.getActivations l = .ok (cur.map fun w => (w, c.activationQuantizer)) := by
      unfold DConfig.getActivations
      rw [(Aux.getAttrs_iff hf Cell.activation cur).2 hcur]
      rfl
    obtain ⟨l', e1, e2, e3, e4⟩ := C81_activations_partial c l _ hf hget as
      (by rw [List.length_map, hlen, hcur.length_eq])
    have hparts : Spec.SameParts l l' := Aux.sameParts_of e3 fun i p p' hp hp' => (e4 i p p' hp hp').1
    refine ⟨l', e1, Aux.sameParts_trans hl hparts, ?_, ?_⟩
    · refine Aux.overwrite_spec ?_ ?_
      · have hf' := Aux.fits_sameParts hf hparts
        obtain ⟨w2, h2, h3⟩ := Aux.map_ok e2
        have h4 := (Aux.getAttrs_iff hf' Cell.activation w2).1 h2
        have h5 : w2 = as := by
          have := congrArg (List.map Prod.fst) h3
          simpa [Function.comp_def] using this
        rw [h5] at h4
        exact h4
      · intro k hk
        rw [← Aux.names_iff_mem ha] at hk
        unfold activationAt
        rw [Aux.part_eq, Aux.part_eq]
        rcases Aux.part_iff e3 k.1 with ⟨h1, h2⟩ | ⟨p, p', h1, h2⟩
        · rw [h1, h2]
        · rw [h1, h2]
          exact (e4 k.1 p p' h1 h2).2.2 k.2 hk
    · intro k
      unfold weightAt
      rw [Aux.part_eq, Aux.part_eq]
      rcases Aux.part_iff e3 k.1 with ⟨h1, h2⟩ | ⟨p, p', h1, h2⟩
      · rw [h1, h2]
      · rw [h1, h2]
        simp only [Option.bind_some]
        rw [(e4 k.1 p p' h1 h2).2.1]

end
end Verif.Props
