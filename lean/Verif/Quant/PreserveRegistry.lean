import Verif.Quant.Config

/-!
# The sparsity- and cluster-preserving quantize registries

`collab_opts/prune_preserve/prune_preserve_quantize_registry.py` (`PR`),
`collab_opts/cluster_preserve/cluster_preserve_quantize_registry.py` (`CR`),
`collab_opts/cluster_preserve/cluster_utils.py` (`CU`).
-/

namespace Verif.Quant.PreserveRegistry
open Verif.Quant Verif.Quant.Config

/-- Which registry: sparsity-preserving, or cluster-preserving with or without sparsity. -/
inductive Which where
  | prune
  | cluster (preserveSparsity : Bool)
  deriving DecidableEq

/-- The weight quantizer of a config: an ordinary one, or the preserving one of a registry, with its
`LastValueQuantizer` arguments; `conv` says whether `build` is the one of the convolution quantizer. -/
inductive WQuantizer where
  | ordinary (q : Quantizer)
  | preserving (w : Which) (conv : Bool) (cfg : QCfg)
  deriving DecidableEq

/-- A quantize config as these registries see it: the name of its class, its attribute `weight_quantizer`, and the
rest. -/
structure PConfig (C : Type*) where
  className : String
  weightQuantizer : WQuantizer
  rest : C
  deriving DecidableEq

/-- A layer: its class and its trainable weights. -/
structure PLayer where
  cls : String
  trainableWeights : List String

/-- `_LAYERS_CONFIG_MAP`: PR 53-64, CR 135-147: weight attributes and config class. -/
def layersConfigMap : List (String × List String × List String) := [
  ("Conv2D", ["kernel"], ["Default8BitConvQuantizeConfig"]),
  ("Dense", ["kernel"], ["Default8BitQuantizeConfig"]),
  ("DepthwiseConv2D", ["depthwise_kernel"], ["Default8BitQuantizeConfig"])]

/-- `_no_trainable_weights`, PR 104-114, CR 187-196. -/
def noTrainableWeights (l : PLayer) : Bool := l.trainableWeights.isEmpty

/-- `_DISABLE_PRUNE_PRESERVE`, `_DISABLE_CLUSTER_PRESERVE`, PR 90-92, 116-127, CR 173-175, 198-207. -/
def disabled (l : PLayer) : Bool := l.cls ∈ ["DepthwiseConv2D"]

/-- `supports`, PR 129-148, CR 209-226. -/
def supports (l : PLayer) : Bool :=
  if noTrainableWeights l then true else (layersConfigMap.lookup l.cls).isSome

/-- `_config_quantizer_map`: PR 94-101, 311-328, CR 177-183, 505-530. -/
def configQuantizer (w : Which) (className : String) : Option WQuantizer :=
  if className = "Default8BitQuantizeConfig" then some (.preserving w false ⟨8, false, true, true⟩)
  else if className = "Default8BitConvQuantizeConfig" then some (.preserving w true ⟨8, true, true, true⟩)
  else none

/-- `apply_sparsity_preserve_quantize_config`, PR 189-219; `apply_cluster_preserve_quantize_config`, CR 236-265. -/
def apply {C : Type*} (w : Which) (l : PLayer) (c : PConfig C) : Except Err (PConfig C) :=
  if supports l then
    if noTrainableWeights l || disabled l then .ok c
    else
      match layersConfigMap.lookup l.cls with
      | none => .error .value
      | some e =>
        if c.className ∈ e.2 then
          match configQuantizer w c.className with
          | none => .error .value
          | some q => .ok { c with weightQuantizer := q }
        else .error .value
  else .error .value

/-- `get_sparsity_preservable_weights` (names), PR 150-170; a `KeyError` for an unsupported layer. -/
def weightNames (l : PLayer) : Except Err (List String) :=
  if noTrainableWeights l then .ok []
  else
    match layersConfigMap.lookup l.cls with
    | none => .error .attribute
    | some e => .ok e.1

/-- The class name of a config of the 8-bit registry. -/
def className : Config → String
  | .dflt c =>
    match c.cls with
    | .plain => "Default8BitQuantizeConfig"
    | .conv => "Default8BitConvQuantizeConfig"
    | .convTranspose => "Default8BitConvTransposeQuantizeConfig"
    | .rnn => "Default8BitQuantizeConfigRNN"
  | .activation _ _ _ => "Default8BitActivationQuantizeConfig"
  | .output _ _ => "Default8BitOutputQuantizeConfig"
  | .noOp => "NoOpQuantizeConfig"
  | .outputOnly _ => "OutputOnlyConfig"

/-- The attribute `weight_quantizer` of a config; configs without that attribute are given a plain quantizer here
(it is never used). -/
def weightQuantizerOf : Config → Quantizer
  | .dflt c => c.weightQuantizer
  | _ => ⟨.lastValue, ⟨8, false, true, true⟩⟩

/-- `get_quantize_config`: PR 222-239, CR 268-286: the config of a new default 8-bit registry, then `apply`. -/
def getConfig {W A : Type*} (w : Which) (l : KLayer W A) (trainableWeights : List String) :
    Except Err (PConfig Config) :=
  match (⟨false, false, 8, 8⟩ : Registry).getConfig (8, 8) l with
  | .error e => .error e
  | .ok c => apply w ⟨l.own.cls, trainableWeights⟩ ⟨className c, .ordinary (weightQuantizerOf c), c⟩

/-! ## Stripping clustering variables -/

/-- A layer of a cluster-preserving quantized model: if it is a wrapper, the name of the wrapped layer and whether
that is a `Conv2D` or `Dense`; the names of its variables. -/
structure SLayer where
  wraps : Option (String × Bool)
  trainable : List String
  nonTrainable : List String
  deriving DecidableEq

/-- Python's `s in name`. -/
def contains (name s : String) : Bool := name.toList.tails.any fun t => s.toList.isPrefixOf t

/-- `_strip_clustering_ops` for a layer, CU 79-104. -/
def strip (l : SLayer) : SLayer :=
  match l.wraps with
  | none => l
  | some (name, handled) =>
    if contains name "depthwise" then l
    else if handled then
      { l with
        trainable := l.trainable.filter fun v =>
          !(contains v "cluster_centroids_tf" || contains v "ori_weights_vars_tf")
        nonTrainable := l.nonTrainable.filter fun v => !contains v "pulling_indices_tf" }
    else l

end Verif.Quant.PreserveRegistry
