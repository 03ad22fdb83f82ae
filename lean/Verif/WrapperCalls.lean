import Verif.Prelude

/-!
# How the three wrappers call the wrapped layer

`sparsity/keras/pruning_wrapper.py` 285-333, `quantization/keras/quantize_wrapper.py` 147-179,
`clustering/keras/cluster_wrapper.py` 328-332.  What the wrappers do to weights and activations is in
`Sparsity.Wrapper`, `Quant.Wrapper`, `Clustering.Wrapper`; here only the arguments of the inner call.
-/

namespace Verif.WrapperCalls

/-- The signature of a layer's `call`: positional arguments, keyword-only arguments, whether it takes
`**kwargs`. -/
structure Sig where
  args : List String
  kwonly : List String := []
  varkw : Bool := false
  deriving DecidableEq, Repr

/-- A call of a layer: the `training` argument if one is passed, and other keyword arguments. -/
structure Call (ω : Type*) where
  training : Option Bool
  kwargs : List (String × ω)
  deriving DecidableEq, Repr

variable {ω : Type*}

/-- `PruneLowMagnitude.call`, `pruning_wrapper.py` 285-287 and 322-333: `phase` is the learning phase. -/
def pruneCall (phase : Bool) (sig : Sig) (c : Call ω) : Call ω :=
  let training := match c.training with
    | none => phase
    | some t => t
  if "training" ∈ sig.args then ⟨some training, c.kwargs⟩ else ⟨none, c.kwargs⟩

/-- `QuantizeWrapper.call`, `quantize_wrapper.py` 147-150 and 175-179. -/
def quantizeCall (phase : Bool) (sig : Sig) (c : Call ω) : Call ω :=
  let training := match c.training with
    | none => phase
    | some t => t
  if "training" ∈ sig.args then ⟨some training, c.kwargs⟩ else ⟨none, c.kwargs⟩

/-- `ClusterWeights.call`, `cluster_wrapper.py` 328-332. -/
def clusterCall (_sig : Sig) (c : Call ω) : Call ω := ⟨none, c.kwargs⟩

/-- Whether a signature has a place for an argument. -/
def Sig.fits (sig : Sig) (k : String) : Bool :=
  sig.args.contains k || sig.kwonly.contains k || sig.varkw

/-- Calling the layer: Python rejects an argument the signature has no place for.  A layer that is not
told runs in the current learning phase (Keras layers do `if training is None: training =
K.learning_phase()`).  Returns the phase the layer runs in. -/
def runCall (phase : Bool) (sig : Sig) (c : Call ω) : Option Bool :=
  match c.kwargs.all (fun a => sig.fits a.1), c.training with
  | false, _ => none
  | true, none => some phase
  | true, some t => match sig.fits "training" with
    | true => some t
    | false => none

end Verif.WrapperCalls
