import Mathlib.Data.List.Basic

/-!
# Trainable weights of quantize wrappers

`quantize_wrapper.py` 103-135, 224-262.  From Keras (not part of the repository): `Layer.trainable_weights` is
the list of the layer's trainable variables if `layer.trainable`, else empty; replacing an attribute that holds
a variable by a tensor (`setattr`, done by `set_quantize_weights`) removes the variable from that list;
`_dedup_weights` keeps the first occurrence of each variable.  Variables are numbered; each one is held by one
attribute.  Layers with sublayers are not modelled.
-/

namespace Verif.Quant.Trainable

/-- The wrapper and the layer, as far as trainable weights are concerned. -/
structure Weights where
  /-- `QuantizeWrapperV2` -/
  v2 : Bool
  /-- `layer.trainable` -/
  trainable : Bool
  /-- the trainable variables the layer tracks -/
  layerVars : List ℕ
  /-- `_trainable_weights` of the wrapper -/
  own : List ℕ
  /-- the weights in `_weight_vars` -/
  quantized : List ℕ

/-- Keras `_dedup_weights`: the first occurrence of each. -/
def dedup (l : List ℕ) : List ℕ := l.foldl (fun acc x => if x ∈ acc then acc else acc ++ [x]) []

/-- `layer.trainable_weights`. -/
def Weights.layerTrainable (w : Weights) : List ℕ := if w.trainable then w.layerVars else []

/-- `build`, lines 103-122, 254-256, of a layer with trainable variables `vars` of which `quantized` are
quantized.  `builtBefore` says whether the layer was built before it was wrapped; otherwise it has no
variables when `QuantizeWrapperV2.build` collects them. -/
def build (v2 builtBefore trainable : Bool) (vars quantized : List ℕ) : Weights :=
  let collected := if v2 && builtBefore && trainable then vars else []
  ⟨v2, trainable, vars, collected ++ quantized, quantized⟩

/-- What can happen: a call, which replaces the quantized weights of the layer by tensors, or an assignment to
`trainable`. -/
inductive Event where
  | call
  | setTrainable (b : Bool)
  deriving DecidableEq

/-- `call` → `set_quantize_weights` (lines 163, with the `setattr`s of the configs); `trainable.setter`, lines
228-230. -/
def Weights.step (w : Weights) : Event → Weights
  | .call => { w with layerVars := w.layerVars.filter fun i => i ∉ w.quantized }
  | .setTrainable b => { w with trainable := b }

/-- A history. -/
def Weights.run (w : Weights) (events : List Event) : Weights := events.foldl Weights.step w

/-- `trainable_weights`, lines 232-234, 258-262. -/
def Weights.trainableWeights (w : Weights) : List ℕ :=
  if w.v2 then dedup (w.own ++ w.layerTrainable) else w.layerTrainable ++ w.own

end Verif.Quant.Trainable
