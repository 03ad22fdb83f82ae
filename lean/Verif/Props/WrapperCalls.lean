import Verif.WrapperCalls

/-!
# C96: the wrappers pass the training flag and keyword arguments on
-/

set_option linter.unusedSectionVars false

namespace Verif.Props
open Verif.WrapperCalls

variable {ω : Type*}

/-- **C96 (pruning).**  A pruned layer whose `call` has a positional `training` argument runs exactly as
if it had been called directly with the caller's arguments: same phase, same keyword arguments, same
rejection.  A layer that knows no `training` is called without it.  Missing for the full claim:
keyword-only `training` arguments, see `C96_keyword_only_violated`. -/
theorem C96_prune_partial (phase : Bool) (sig : Sig) (c : Call ω) :
    (pruneCall phase sig c).kwargs = c.kwargs ∧
    ("training" ∈ sig.args → runCall phase sig (pruneCall phase sig c) = runCall phase sig c) ∧
    ("training" ∉ sig.args →
      runCall phase sig (pruneCall phase sig c) = runCall phase sig ⟨none, c.kwargs⟩) := by
  obtain ⟨t, kw⟩ := c
  refine ⟨?_, ?_, ?_⟩
  · by_cases h : "training" ∈ sig.args <;> simp [pruneCall, h]
  · intro h
    have hf : sig.fits "training" = true := by simp [Sig.fits, h]
    cases t <;> cases hk : kw.all (fun a => sig.fits a.1) <;>
      simp [pruneCall, runCall, if_pos h, hf, hk]
  · intro h
    simp [pruneCall, h]

/-- **C96 (quantization).**  The same for the quantization wrapper. -/
theorem C96_quantize_partial (phase : Bool) (sig : Sig) (c : Call ω) :
    (quantizeCall phase sig c).kwargs = c.kwargs ∧
    ("training" ∈ sig.args → runCall phase sig (quantizeCall phase sig c) = runCall phase sig c) ∧
    ("training" ∉ sig.args →
      runCall phase sig (quantizeCall phase sig c) = runCall phase sig ⟨none, c.kwargs⟩) := by
  obtain ⟨t, kw⟩ := c
  refine ⟨?_, ?_, ?_⟩
  · by_cases h : "training" ∈ sig.args <;> simp [quantizeCall, h]
  · intro h
    have hf : sig.fits "training" = true := by simp [Sig.fits, h]
    cases t <;> cases hk : kw.all (fun a => sig.fits a.1) <;>
      simp [quantizeCall, runCall, if_pos h, hf, hk]
  · intro h
    simp [quantizeCall, h]

/-- **C96 (clustering).**  A clustered layer gets the caller's keyword arguments; it runs as if called
directly when the caller gives no `training` argument or the one of the current learning phase (and the
layer has a place for it).  Missing for the full claim: other values, see `C96_cluster_violated`. -/
theorem C96_cluster_partial (phase : Bool) (sig : Sig) (c : Call ω) :
    (clusterCall sig c).kwargs = c.kwargs ∧
    (c.training = none → runCall phase sig (clusterCall sig c) = runCall phase sig c) ∧
    (c.training = some phase → "training" ∈ sig.args →
      runCall phase sig (clusterCall sig c) = runCall phase sig c) := by
  obtain ⟨t, kw⟩ := c
  refine ⟨rfl, ?_, ?_⟩
  · rintro rfl
    rfl
  · rintro rfl h
    have hf : sig.fits "training" = true := by simp [Sig.fits, h]
    cases hk : kw.all (fun a => sig.fits a.1) <;> simp [clusterCall, runCall, hf, hk]

/-- **C96 (rejected calls).**  A call of a pruned, quantized or clustered layer fails exactly when a keyword argument has
no place in the signature of the layer: it is neither a positional nor a keyword-only parameter, and the layer does not
take arbitrary keywords. -/
theorem C96_rejects (phase : Bool) (sig : Sig) (c : Call ω) :
    (runCall phase sig (pruneCall phase sig c) = none ↔
      ∃ a ∈ c.kwargs, a.1 ∉ sig.args ∧ a.1 ∉ sig.kwonly ∧ sig.varkw = false) ∧
    (runCall phase sig (quantizeCall phase sig c) = none ↔
      ∃ a ∈ c.kwargs, a.1 ∉ sig.args ∧ a.1 ∉ sig.kwonly ∧ sig.varkw = false) ∧
    (runCall phase sig (clusterCall sig c) = none ↔
      ∃ a ∈ c.kwargs, a.1 ∉ sig.args ∧ a.1 ∉ sig.kwonly ∧ sig.varkw = false) := by
  obtain ⟨t, kw⟩ := c
  have hfits : ∀ k, sig.fits k = false ↔ k ∉ sig.args ∧ k ∉ sig.kwonly ∧ sig.varkw = false := by
    intro k; simp [Sig.fits, and_assoc]
  have hall : (kw.all fun a => sig.fits a.1) = false ↔
      ∃ a ∈ kw, a.1 ∉ sig.args ∧ a.1 ∉ sig.kwonly ∧ sig.varkw = false := by
    simp only [List.all_eq_false, Bool.not_eq_true, hfits]
  have hnone : runCall phase sig (⟨none, kw⟩ : Call ω) = none ↔
      ∃ a ∈ kw, a.1 ∉ sig.args ∧ a.1 ∉ sig.kwonly ∧ sig.varkw = false := by
    rw [← hall]
    cases hk : kw.all (fun a => sig.fits a.1) <;> simp [runCall, hk]
  have hsome : ∀ b, "training" ∈ sig.args → (runCall phase sig (⟨some b, kw⟩ : Call ω) = none ↔
      ∃ a ∈ kw, a.1 ∉ sig.args ∧ a.1 ∉ sig.kwonly ∧ sig.varkw = false) := by
    intro b h
    have hf : sig.fits "training" = true := by simp [Sig.fits, h]
    rw [← hall]
    cases hk : kw.all (fun a => sig.fits a.1) <;> simp [runCall, hk, hf]
  refine ⟨?_, ?_, hnone⟩
  · by_cases h : "training" ∈ sig.args
    · rw [(C96_prune_partial phase sig ⟨t, kw⟩).2.1 h]
      cases t with
      | none => exact hnone
      | some b => exact hsome b h
    · rw [(C96_prune_partial phase sig ⟨t, kw⟩).2.2 h]
      exact hnone
  · by_cases h : "training" ∈ sig.args
    · rw [(C96_quantize_partial phase sig ⟨t, kw⟩).2.1 h]
      cases t with
      | none => exact hnone
      | some b => exact hsome b h
    · rw [(C96_quantize_partial phase sig ⟨t, kw⟩).2.2 h]
      exact hnone

/-- `ClusterWeights.call` takes `training` and drops it: called with a `training` argument that differs
from the learning phase, every clustered layer (dropout, batch normalisation, recurrent dropout) runs
in the wrong phase, whatever its signature. -/
theorem C96_cluster_violated (phase : Bool) (sig : Sig) (kwargs : List (String × ω))
    (hrun : runCall phase sig ⟨some (!phase), kwargs⟩ = some (!phase)) :
    runCall phase sig (clusterCall sig ⟨some (!phase), kwargs⟩) = some phase := by
  cases hk : kwargs.all (fun a => sig.fits a.1) <;> simp [runCall, clusterCall, hk] at hrun ⊢

/-- A layer with a keyword-only `training` argument (`def call(self, inputs, *, training=None)`) is not
told: `getfullargspec(...).args` lists positional arguments only. -/
theorem C96_keyword_only_violated :
    ∃ sig : Sig, runCall false sig (⟨some true, []⟩ : Call ω) = some true ∧
      runCall false sig (pruneCall false sig (⟨some true, []⟩ : Call ω)) = some false ∧
      runCall false sig (quantizeCall false sig (⟨some true, []⟩ : Call ω)) = some false :=
  ⟨⟨["self", "inputs"], ["training"], false⟩, by simp [runCall, Sig.fits],
    by simp [runCall, pruneCall], by simp [runCall, quantizeCall]⟩

namespace Example
/-- `Dropout.call(self, inputs, training=None)`. -/
def dropoutSig : Sig := ⟨["self", "inputs", "training"], [], false⟩
/-- `RNN.call(self, inputs, mask=None, training=None, initial_state=None, constants=None)`. -/
def rnnSig : Sig := ⟨["self", "inputs", "mask", "training", "initial_state", "constants"], [], false⟩
/-- `Dense.call(self, inputs)`. -/
def denseSig : Sig := ⟨["self", "inputs"], [], false⟩

example : runCall false rnnSig (pruneCall false rnnSig ⟨some true, [("mask", 3)]⟩) = some true := by
  decide
example : runCall false rnnSig (pruneCall false rnnSig ⟨some true, [("masc", 3)]⟩) = none := by decide
example : runCall false denseSig (quantizeCall false denseSig (⟨some true, []⟩ : Call ℕ)) = some false := by
  decide
example : runCall false dropoutSig (⟨some true, []⟩ : Call ℕ) = some true ∧
    runCall false dropoutSig (clusterCall dropoutSig (⟨some true, []⟩ : Call ℕ)) = some false := by decide
end Example

end Verif.Props
