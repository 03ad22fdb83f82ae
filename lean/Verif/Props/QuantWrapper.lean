import Verif.Quant.Wrapper
import Verif.Props.QuantSetters
import Verif.Props.QuantOps

/-!
# Properties C61 and C83: what a quantize wrapper computes
-/

set_option linter.unusedSectionVars false
namespace Verif.Props
open Verif Verif.Quant Verif.Quant.Config Verif.Quant.Wrapper

/-! ## Specification: activations -/

/-- Where an activation is quantized. -/
inductive Spec.Place where
  | before
  | after
  | both
  | nowhere

/-- The table of supported activations. -/
def Spec.place : String → Option Spec.Place
  | "softmax" => some .before
  | "sigmoid" => some .before
  | "tanh" => some .before
  | "linear" => some .after
  | "relu" => some .after
  | "swish" => some .after
  | "gelu" => some .both
  | "NoOpActivation" => some .nowhere
  | _ => none

section
variable {T V S : Type*}

/-- A `QuantizeAwareActivation` some time after it was made: it was called and its flag was set, any number
of times. -/
inductive Spec.AwareReachable (a : Act T) (q : Quant T V) : Aware T V → Prop
  | made {A : Aware T V} : Aware.make a q = .ok A → Spec.AwareReachable a q A
  | flag {A : Aware T V} (training : Bool) : Spec.AwareReachable a q A → Spec.AwareReachable a q { A with training := training }
  | call {A : Aware T V} (x : T) : Spec.AwareReachable a q A → Spec.AwareReachable a q (A.call x).2

/-! ## C61 -/

theorem Aux.place_pre (n : String) : preQuant n = true ↔ Spec.place n = some .before ∨ Spec.place n = some .both := by
  unfold Spec.place preQuant
  split <;> simp_all

theorem Aux.place_post (n : String) : postQuant n = true ↔ Spec.place n = some .after ∨ Spec.place n = some .both := by
  unfold Spec.place postQuant
  split <;> simp_all

theorem Aux.place_no (n : String) : noQuant n = true ↔ Spec.place n = some .nowhere := by
  unfold Spec.place noQuant
  split <;> simp_all

/-- **C61.**  Constructing a `QuantizeAwareActivation` (with a quantizer that can make its variables) succeeds
exactly for the activations of the table; any other one is a `ValueError`. -/
theorem C61_supported (a : Act T) (q : Quant T V) (v : V) (hq : q.build none = .ok v) :
    ((∃ A, Aware.make a q = .ok A) ↔ (Spec.place a.name).isSome) ∧
    (Spec.place a.name = none → Aware.make a q = .error .value) := by
  have h1 := Aux.place_pre a.name
  have h2 := Aux.place_post a.name
  have h3 := Aux.place_no a.name
  have hb : ∀ b, ∃ o, buildIf q b = .ok o := by
    intro b
    cases b
    · exact ⟨_, rfl⟩
    · exact ⟨some v, by simp only [buildIf, if_true, hq]; rfl⟩
  cases hp : Spec.place a.name with
  | none =>
    have e1 : preQuant a.name = false := by rw [Bool.eq_false_iff, Ne, h1, hp]; simp
    have e2 : postQuant a.name = false := by rw [Bool.eq_false_iff, Ne, h2, hp]; simp
    have e3 : noQuant a.name = false := by rw [Bool.eq_false_iff, Ne, h3, hp]; simp
    have : Aware.make a q = .error .value := by simp [Aware.make, e1, e2, e3]
    refine ⟨?_, fun _ => this⟩
    rw [this]
    simp
  | some p =>
    refine ⟨?_, fun h => by simp at h⟩
    have hs : (preQuant a.name || postQuant a.name || noQuant a.name) = true := by
      simp only [Bool.or_eq_true, h1, h2, h3, hp, Option.some.injEq]
      cases p <;> simp
    obtain ⟨o1, ho1⟩ := hb (preQuant a.name)
    obtain ⟨o2, ho2⟩ := hb (postQuant a.name)
    simp only [Option.isSome_some, iff_true]
    refine ⟨⟨a, q, o1, o2, false⟩, ?_⟩
    simp only [Aware.make, hs, Bool.not_true, Bool.false_eq_true, if_false]
    rw [ho1]
    dsimp only
    rw [ho2]

theorem Aux.buildIf_isSome {q : Quant T V} {b : Bool} {o : Option V} (h : buildIf q b = .ok o) : o.isSome = b := by
  cases b
  · simp only [buildIf, Bool.false_eq_true, if_false] at h
    cases h
    rfl
  · simp only [buildIf, if_true] at h
    cases hq : q.build none with
    | error e => rw [hq] at h; cases h
    | ok v => rw [hq] at h; cases h; rfl

theorem Aux.quantizeIf_isSome {q : Quant T V} {v : Option V} {tr : Bool} {x : T} {r : T × Option V}
    (h : quantizeIf q v tr x = .ok r) : r.2.isSome = v.isSome := by
  cases v with
  | none => cases h; rfl
  | some v =>
    simp only [quantizeIf] at h
    cases hq : q.call v tr x with
    | error e => rw [hq] at h; cases h
    | ok r' => rw [hq] at h; cases h; rfl

theorem Aux.aware_reachable {a : Act T} {q : Quant T V} {A : Aware T V} (h : Spec.AwareReachable a q A) :
    A.act = a ∧ A.quantizer = q ∧ (Spec.place a.name).isSome ∧ A.pre.isSome = preQuant a.name ∧
      A.post.isSome = postQuant a.name := by
  induction h with
  | made h =>
    unfold Aware.make at h
    split_ifs at h with hs
    cases ho1 : buildIf q (preQuant a.name) with
    | error e => rw [ho1] at h; cases h
    | ok o1 =>
      rw [ho1] at h
      dsimp only at h
      cases ho2 : buildIf q (postQuant a.name) with
      | error e => rw [ho2] at h; cases h
      | ok o2 =>
        rw [ho2] at h
        cases h
        refine ⟨rfl, rfl, ?_, Aux.buildIf_isSome ho1, Aux.buildIf_isSome ho2⟩
        simp only [Bool.not_eq_true', Bool.not_eq_false, Bool.or_eq_true, Aux.place_pre, Aux.place_post,
          Aux.place_no] at hs
        rw [Option.isSome_iff_exists]
        tauto
  | flag tr _ ih => exact ih
  | call x _ ih =>
    rename_i A hA
    obtain ⟨h1, h2, h3, h4, h5⟩ := ih
    unfold Aware.call
    cases hr : quantizeIf A.quantizer A.pre A.training x with
    | error e => exact ⟨h1, h2, h3, h4, h5⟩
    | ok r =>
      dsimp only
      cases hr' : quantizeIf A.quantizer A.post A.training (A.act.fn r.1) with
      | error e => exact ⟨h1, h2, h3, (Aux.quantizeIf_isSome hr).trans h4, h5⟩
      | ok r' => exact ⟨h1, h2, h3, (Aux.quantizeIf_isSome hr).trans h4, (Aux.quantizeIf_isSome hr').trans h5⟩

/-- **C61 (places).**  At any time, a call of the activation object computes the activation function with the
quantizer applied exactly at the places of the table; each place has its own variables, and only the variables
of a place that is quantized exist. -/
theorem C61_places_partial (a : Act T) (q : Quant T V) (A : Aware T V) (h : Spec.AwareReachable a q A) (x y : T)
    (A' : Aware T V) (hc : A.call x = (.ok y, A')) :
    match Spec.place a.name with
    | some .before => ∃ v r, A.pre = some v ∧ A.post = none ∧ q.call v A.training x = .ok r ∧ y = a.fn r.1 ∧
        A' = { A with pre := some r.2 }
    | some .after => ∃ v r, A.pre = none ∧ A.post = some v ∧ q.call v A.training (a.fn x) = .ok r ∧ y = r.1 ∧
        A' = { A with post := some r.2 }
    | some .both => ∃ v r u s, A.pre = some v ∧ A.post = some u ∧ q.call v A.training x = .ok r ∧
        q.call u A.training (a.fn r.1) = .ok s ∧ y = s.1 ∧ A' = { A with pre := some r.2, post := some s.2 }
    | some .nowhere => y = a.fn x ∧ A' = A ∧ A.pre = none ∧ A.post = none
    | none => False := by
  obtain ⟨h1, h2, h3, h4, h5⟩ := Aux.aware_reachable h
  obtain ⟨act, qq, pre, post, tr⟩ := A
  dsimp only at h1 h2 h3 h4 h5
  subst h1 h2
  have p1 := Aux.place_pre act.name
  have p2 := Aux.place_post act.name
  simp only [Aware.call] at hc
  dsimp only
  cases hp : Spec.place act.name with
  | none => rw [hp] at h3; simp at h3
  | some p =>
    rw [hp] at p1 p2
    cases p with
    | before =>
      have e1 : preQuant act.name = true := p1.2 (by simp)
      have e2 : postQuant act.name = false := by rw [Bool.eq_false_iff, Ne, p2]; simp
      rw [e1] at h4
      rw [e2] at h5
      obtain ⟨v, rfl⟩ := Option.isSome_iff_exists.1 h4
      obtain rfl : post = none := by simpa using h5
      simp only [quantizeIf] at hc
      cases hq : qq.call v tr x with
      | error e => rw [hq] at hc; cases hc
      | ok r => rw [hq] at hc; cases hc; exact ⟨v, r, rfl, rfl, hq, rfl, rfl⟩
    | after =>
      have e2 : postQuant act.name = true := p2.2 (by simp)
      have e1 : preQuant act.name = false := by rw [Bool.eq_false_iff, Ne, p1]; simp
      rw [e1] at h4
      rw [e2] at h5
      obtain ⟨v, rfl⟩ := Option.isSome_iff_exists.1 h5
      obtain rfl : pre = none := by simpa using h4
      simp only [quantizeIf] at hc
      cases hq : qq.call v tr (act.fn x) with
      | error e => rw [hq] at hc; cases hc
      | ok r => rw [hq] at hc; cases hc; exact ⟨v, r, rfl, rfl, hq, rfl, rfl⟩
    | both =>
      have e1 : preQuant act.name = true := p1.2 (by simp)
      have e2 : postQuant act.name = true := p2.2 (by simp)
      rw [e1] at h4
      rw [e2] at h5
      obtain ⟨v, rfl⟩ := Option.isSome_iff_exists.1 h4
      obtain ⟨u, rfl⟩ := Option.isSome_iff_exists.1 h5
      simp only [quantizeIf] at hc
      cases hq : qq.call v tr x with
      | error e => rw [hq] at hc; cases hc
      | ok r =>
        rw [hq] at hc
        dsimp only at hc
        cases hq' : qq.call u tr (act.fn r.1) with
        | error e => rw [hq'] at hc; cases hc
        | ok s => rw [hq'] at hc; cases hc; exact ⟨v, r, u, s, rfl, rfl, hq, hq', rfl, rfl⟩
    | nowhere =>
      have e1 : preQuant act.name = false := by rw [Bool.eq_false_iff, Ne, p1]; simp
      have e2 : postQuant act.name = false := by rw [Bool.eq_false_iff, Ne, p2]; simp
      rw [e1] at h4
      rw [e2] at h5
      obtain rfl : pre = none := by simpa using h4
      obtain rfl : post = none := by simpa using h5
      cases hc
      exact ⟨rfl, rfl, rfl, rfl⟩

/-- A quantizer that raises no error makes the activation raise none. -/
theorem C61_total (a : Act T) (q : Quant T V) (A : Aware T V) (h : Spec.AwareReachable a q A)
    (hq : ∀ v tr t, ∃ r, q.call v tr t = .ok r) (x : T) : ∃ y, (A.call x).1 = .ok y := by
  obtain ⟨h1, h2, -⟩ := Aux.aware_reachable h
  have hi : ∀ v tr t, ∃ r, quantizeIf q v tr t = .ok r := by
    intro v tr t
    cases v with
    | none => exact ⟨_, rfl⟩
    | some v =>
      obtain ⟨r, hr⟩ := hq v tr t
      exact ⟨_, by simp only [quantizeIf, hr]; rfl⟩
  simp only [Aware.call, h2]
  obtain ⟨r, hr⟩ := hi A.pre A.training x
  obtain ⟨r', hr'⟩ := hi A.post A.training (A.act.fn r.1)
  rw [hr]
  dsimp only
  rw [hr']
  exact ⟨_, rfl⟩

end

namespace Example

/-- A quantizer that rounds integers down to multiples of ten and counts its calls in training. -/
def tens : Quant ℤ ℕ := ⟨fun _ => .ok 0, fun v tr t => .ok (t / 10 * 10, if tr then v + 1 else v)⟩

end Example

open Example in
/-- C61: a `gelu`-like activation that adds 7, called twice. -/
example : ∃ A : Aware ℤ ℕ, Spec.AwareReachable ⟨"gelu", (· + 7)⟩ tens A ∧ A.call 25 = (.ok 20, ⟨⟨"gelu", (· + 7)⟩, tens, some 2, some 2, true⟩) := by
  refine ⟨⟨⟨"gelu", (· + 7)⟩, tens, some 1, some 1, true⟩, ?_, by rfl⟩
  have h0 : Spec.AwareReachable ⟨"gelu", (· + 7)⟩ tens ⟨⟨"gelu", (· + 7)⟩, tens, some 0, some 0, false⟩ := .made (by rfl)
  exact (Spec.AwareReachable.call 3 (.flag true h0))

open Example in
/-- C61: the documentation of the class says that softmax is quantized before and after; it is not
quantized after. -/
theorem C61_documented_violated : ∃ (a : Act ℤ) (A : Aware ℤ ℕ) (y : ℤ), a.name = "softmax" ∧
    Spec.AwareReachable a tens A ∧ (A.call 25).1 = .ok y ∧ ¬ (10 : ℤ) ∣ y := by
  refine ⟨⟨"softmax", (· + 7)⟩, ⟨⟨"softmax", (· + 7)⟩, tens, some 0, none, false⟩, 27, rfl, .made (by rfl), by rfl, by decide⟩

end Verif.Props
