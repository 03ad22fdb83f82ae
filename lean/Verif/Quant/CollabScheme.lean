import Verif.Quant.Apply
import Verif.Quant.PreserveRegistry

/-!
# `quantize_apply` with the sparsity- and cluster-preserving schemes

`collab_opts/prune_preserve/default_8bit_prune_preserve_quantize_scheme.py` lines 22-30,
`collab_opts/cluster_preserve/default_8bit_cluster_preserve_quantize_scheme.py` lines 22-37: the layout transform
of `Default8BitQuantizeScheme`, and the preserving registry.
-/

namespace Verif.Quant.CollabScheme
open Verif.Quant Verif.Quant.Transformer Verif.Quant.Transforms8Bit Verif.Quant.Apply
open Verif.Quant.Config (KLayer Err)
open Verif.Quant.PreserveRegistry (Which PConfig)

/-- A quantize config that is not one of the layout transforms: the user's own, or what the preserving registry has
returned.  (The configs of the layout transforms are the other constructors of `Kind`.) -/
inductive CConfig (U : Type) where
  | user (u : U)
  | registry (p : PConfig Config.Config)
  deriving DecidableEq

variable {V U : Type} {W A : Type*}

/-- What is needed of a Keras layer beside its class and configuration: its attributes and its `trainable_weights`. -/
structure View (W A : Type*) where
  klayer : Layer → KLayer W A
  trainable : Layer → List String

/-- `quantize_registry.supports(layer)` and then `quantize_registry.get_quantize_config(layer)`, as `_quantize` calls
them (`quantize.py` lines 428-440) on a preserving registry: `none` if the layer is not supported, an exception if
the config cannot be given after all. -/
def registry (w : Which) (v : View W A) (l : Layer) : Except Err (Option (QConfig (CConfig U))) :=
  if PreserveRegistry.supports ⟨l.cls, v.trainable l⟩ then
    match PreserveRegistry.getConfig w (v.klayer l) (v.trainable l) with
    | .error e => .error e
    | .ok p => .ok (some ⟨.custom (.registry p), false, false⟩)
  else .ok none

/-- Whether `_quantize` asks the registry about the layer, `quantize.py` lines 402-440. -/
def asked (requires : List String) (g : Graph V (Meta (CConfig U))) (l : Layer) : Bool :=
  decide (l.cls ≠ "InputLayer") && decide (l.cls ≠ "QuantizeLayer") &&
    decide (l.cls ∉ ["QuantizeWrapper", "QuantizeWrapperV2"]) &&
    (decide (l.name ∈ requires) ||
      ((g.metadata l.name).isSome && ((g.metadata l.name).getD default).get.isNone))

/-- `_quantize` with a registry that may raise an exception, `quantize.py` lines 402-456. -/
def quantizeLayerE (reg : Layer → Except Err (Option (QConfig (CConfig U)))) (requires : List String)
    (g : Graph V (Meta (CConfig U))) (l : Layer) : Except String (OLayer (CConfig U)) :=
  match reg l with
  | .ok r => quantizeLayer (fun _ => r) requires g l
  | .error _ =>
    if asked requires g l then .error "ValueError" else quantizeLayer (fun _ => none) requires g l

/-- `quantize_apply(model, scheme)` with a preserving scheme, `quantize.py` lines 289-500. -/
def collabApply [DecidableEq V] [DecidableEq U] (metaEq : Meta (CConfig U) → Meta (CConfig U) → Bool)
    (auto : String → Nat → String) (c : Classes) (expand : V → V) (str1 str2 : String → String) (fuel : Nat)
    (w : Which) (v : View W A) (m : AModel V (CConfig U)) : Except String (OModel V (CConfig U)) :=
  if !m.layers.any fun a => a.annotation.isSome then
    .error "ValueError: `model` must contain at least one annotated layer."
  else if !m.built then .error "ValueError: `model` must be a built model."
  else if ¬ (m.layers.map fun a => a.layer.name).Nodup then
    .error "ValueError: layer names should be unique"
  else
    match (defaultScheme metaEq auto c expand str1 str2 fuel).transform (unwrap m) with
    | .error e => .error e
    | .ok g =>
      match mapExcept (quantizeLayerE (registry w v) (requiresOutput m) g) g.layers with
      | .error e => .error e
      | .ok ls => .ok { layers := ls, outputs := g.outputs, weights := g.weights }

end Verif.Quant.CollabScheme
