import Verif.Props.SchemeParams

/-!
# C92: saving and loading keeps the quantizers of the default schemes

A saved model holds for every quantized layer what `get_config` of its quantize config returns, and the
model is loaded with a config made from that.
-/

set_option linter.unusedSectionVars false

namespace Verif.Props
open Verif.Quant.Regex Verif.Quant.Transformer Verif.Quant.Transforms8Bit Verif.Quant.Apply
open Verif.Quant.Config (Registry Config KLayer Err Quantizer DConfig ActName)
open Verif.Quant.SchemeConfig

variable {V U : Type}

namespace Aux

/-- Turning off the output quantizers is recorded where a config has an attribute for it. -/
def Recorded (q : QConfig U) : Prop :=
  q.savedOff = (q.outputOff && q.kind.hasQuantizeOutput)

theorem setOutputOff_weights {W A : Type*} (o : Config) (l : KLayer W A) :
    (setOutputOff o).getWeights l = o.getWeights l := by
  cases o <;> rfl

theorem setOutputOff_activations {W A : Type*} (o : Config) (l : KLayer W A) :
    (setOutputOff o).getActivations l = o.getActivations l := by
  cases o <;> rfl

/-- The configs of the 8-bit registry without output quantization. -/
theorem setOutputOff_output {W A : Type*} (name : A → ActName) (shared : ℕ × ℕ) (r : Registry)
    (hr : r.nBit = false) (l : KLayer W A) (o : Config) (ho : r.getConfig shared l = .ok o) :
    (setOutputOff o).getOutput name l = .ok [] := by
  rcases getConfig_cases ho with ⟨hown, hlk⟩ | ⟨-, w, a, out, -, rfl⟩ | ⟨-, -, w, a, rfl⟩
  · simp only [ownClasses, List.mem_cons, List.not_mem_nil, or_false] at hown
    rcases hown with h | h | h | h <;> rw [h] at hlk <;>
      simp only [Registry.lookup, String.reduceEq, if_true, if_false, Option.some.injEq,
        Verif.Quant.Config.Entry.config.injEq] at hlk <;> subst hlk
    · simp only [setOutputOff, Config.getOutput, Verif.Quant.Config.assertActivation, h, if_true, hr,
        Bool.not_false, Bool.and_self]
    · rfl
    · rfl
    · rfl
  · rfl
  · rfl

end Aux

section Main92
variable [DecidableEq U] [DecidableEq V] (metaEq : Meta U → Meta U → Bool)
  (auto : String → ℕ → String) (c : Classes) (expand : V → V) (str1 str2 : String → String)
  (fuel : ℕ) (m : AModel V U) (out : OModel V U)
  (hnl : ∀ a ∈ m.layers, '\n' ∉ a.layer.cls.toList)
  (hfresh : Spec.FreshNames auto (m.layers.map fun a => a.layer.name))
  (h : quantizeApply (defaultScheme metaEq auto c expand str1 str2 fuel) (.model m) = .ok out)
include hnl hfresh h

/-- C92.  Missing: it fails for the n-bit scheme, see `C92_violated`, and nothing is said about the user's
own configs.  With the 8-bit scheme, the config a saved model is loaded with has the same quantizers for
weights, activations and outputs as the config in the model it was saved from, for every layer whose
config the library has chosen and whatever registries were constructed before. -/
theorem C92_saved_partial (hb : c.params.bits = none) (e : OLayer U) (he : e ∈ out.layers) (q : QConfig U)
    (hq : e = .quantized e.layer q ∨ e = .outputOnly e.layer q)
    (history : List Registry) {W A : Type*} (name : A → ActName) (l : KLayer W A) (o : Config)
    (ho : objectOf history l q.kind = some (.ok o)) :
    (saved q o).getWeights l = o.getWeights l ∧ (saved q o).getActivations l = o.getActivations l ∧
    (saved q o).getOutput name l = outputs name l q o := by
  refine ⟨?_, ?_, ?_⟩
  · rw [saved]; split
    · exact Aux.setOutputOff_weights o l
    · rfl
  · rw [saved]; split
    · exact Aux.setOutputOff_activations o l
    · rfl
  have hrec : Aux.Recorded q := by
    refine Aux.params_result (c := c) (am := m) (G := Aux.Recorded) ⟨rfl, rfl, fun _ _ => rfl, ?_⟩
      (fun _ _ _ _ => rfl) (fun _ => rfl) hnl hfresh h e he q hq
    rintro - ⟨k, a, b⟩ hq
    simp only [Aux.Recorded, Aux.offConfig, hb, Option.isNone_none, Bool.true_and] at hq ⊢
    subst hq
    cases a <;> simp
  have hu := Aux.uniform_result metaEq auto c expand str1 str2 fuel m out hnl hfresh h e he q hq
  rw [outputs]
  cases hoff : q.outputOff with
  | false => rw [if_neg (by simp)]
  | true =>
    rw [if_pos rfl]
    rw [Aux.Recorded, hoff, Bool.true_and] at hrec
    cases hk : q.kind with
    | custom u => rw [hk] at ho; cases ho
    | noOp =>
      rw [hk] at ho hrec
      simp only [objectOf, Option.some.injEq, Except.ok.injEq] at ho
      subst ho
      rw [saved]
      split <;> rfl
    | output b =>
      rw [hk] at ho hu hrec
      simp only [Aux.Uniform, hb] at hu
      subst hu
      simp only [objectOf, Option.some.injEq, Except.ok.injEq] at ho
      subst ho
      rw [saved, if_pos (show q.savedOff = true from hrec)]
      rfl
    | default p cls =>
      rw [hk] at ho hu hrec
      have hp : p.bits = none := by
        rcases hu with rfl | ⟨-, rfl⟩ <;> exact hb
      simp only [objectOf, Option.some.injEq] at ho
      rw [saved, if_pos (by rw [hrec]; simp [Kind.hasQuantizeOutput, hp])]
      exact Aux.setOutputOff_output name _ _ (by simp [registryOf, hp]) l o ho

end Main92

open Example in
/-- C92 is violated: in a model quantized with the n-bit scheme a `ReLU` that feeds an annotated
`Concatenate` has no output quantizer, but after saving and loading it has one. -/
theorem C92_violated : ∃ (m : AModel ℕ String) (out : OModel ℕ String) (l : Layer) (q : QConfig String),
    quantizeApply (schemeOf { bits := some (4, 6) }) (.model m) = .ok out ∧
    .quantized l q ∈ out.layers ∧ l.name = "conv1" ∧ l.cls = "ReLU" ∧
    ∀ (history : List Registry) (W A : Type) (name : A → ActName) (k : KLayer W A), k.own.cls = "ReLU" →
      ∃ o qo, objectOf history k q.kind = some (.ok o) ∧ outputs name k q o = .ok [] ∧
        (saved q o).getOutput name k = .ok [qo] := by
  have h : schemeCheck { bits := some (4, 6) } (concatModel "ReLU") (fun out => decide (∃ e ∈ out.layers,
      e = .quantized e.layer ⟨.default { bits := some (4, 6) } "ReLU", true, false⟩ ∧
      e.layer.name = "conv1" ∧ e.layer.cls = "ReLU")) = true := by decide +kernel
  obtain ⟨out, h1, h2⟩ := schemeCheck_spec h
  obtain ⟨e, he, heq, hn, hc⟩ := of_decide_eq_true h2
  refine ⟨_, out, e.layer, _, h1, heq ▸ he, hn, hc, ?_⟩
  intro history W A name k hk
  have hsup : Spec.SupportedClass k.own.cls := by rw [hk]; exact Or.inr (Or.inl (by decide))
  obtain ⟨o, ho, hd⟩ := C82_documented
    (Verif.Quant.Config.Process.run (history ++ [registryOf { bits := some (4, 6) }])).shared
    (registryOf { bits := some (4, 6) }) (fun hn => Aux.shared_eq history [] _ hn (by simp)) k hsup
  obtain ⟨qo, -, hg⟩ := (hd W A name k rfl).2.2.1 (by rw [hk]; decide)
  exact ⟨o, qo, by rw [objectOf, ho], rfl, hg⟩

open Example in
/-- The hypotheses of C92 are met, with output quantizers turned off, by two `ReLU`s in front of a
`Concatenate`; the loaded configs have no output quantizers either. -/
example : ∃ out, quantizeApply (schemeOf {}) (.model (concatModel "ReLU")) = .ok out ∧
    ∃ l, .quantized l ⟨.default {} "ReLU", true, true⟩ ∈ out.layers := by
  have h : schemeCheck {} (concatModel "ReLU") (fun out => decide (∃ e ∈ out.layers,
      e = .quantized e.layer ⟨.default {} "ReLU", true, true⟩)) = true := by decide +kernel
  obtain ⟨out, h1, h2⟩ := schemeCheck_spec h
  obtain ⟨e, he, heq⟩ := of_decide_eq_true h2
  exact ⟨out, h1, e.layer, heq ▸ he⟩

end Verif.Props
