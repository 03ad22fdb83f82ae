import Verif.Quant.Transforms8Bit
import Verif.Quant.Config

/-
What the quantize configs that the layout transforms and `quantize_apply` put on layers do: the step
from a `Kind` (which config it is) to the object with its quantizers.

  /repo/tensorflow_model_optimization/python/core/quantization/keras/
    default_8bit/default_8bit_quantize_scheme.py, default_8bit_quantize_registry.py (R8),
    default_8bit_quantize_configs.py, default_8bit_transforms.py
    experimental/default_n_bit/: the n-bit counterparts (RN)
-/
namespace Verif.Quant.SchemeConfig

open Verif.Quant.Transforms8Bit Verif.Quant.Config

variable {U : Type}

/-- The registry with the given arguments: R8 171, RN 180-185; default_8bit_quantize_scheme.py lines
32-35, default_n_bit_quantize_scheme.py lines 36-41.  The 8-bit registry has no numbers of bits. -/
def registryOf (p : Params) : Registry :=
  { nBit := p.bits.isSome, disablePerAxis := p.disablePerAxis
    bitsWeight := (p.bits.getD (8, 8)).1, bitsActivation := (p.bits.getD (8, 8)).2 }

/-- The config object behind a `Kind`, for a layer `l`; `none` for the user's own config.  The registry is
constructed just before it is used (default_8bit_transforms.py lines 670-671, quantize.py line 476), after
the registries `history`.  For a layer that feeds a `Concatenate` the code calls the registry's
`_get_quantize_config` with the class alone, which gives the same config as `get_quantize_config` for
layers that are not recurrent (R8 210-213, 239-270); recurrent layers are not supported there. -/
def objectOf {W A : Type*} (history : List Registry) (l : KLayer W A) : Kind U → Option (Except Err Config)
  | .custom _ => none
  | .noOp => some (.ok .noOp)
  | .output b => some (.ok (.output (activationBits b) true))
  | .default p _ =>
    some ((registryOf p).getConfig (Process.run (history ++ [registryOf p])).shared l)

/-- `config.quantize_output = False`, for the classes with that attribute. -/
def setOutputOff : Config → Config
  | .dflt c => .dflt { c with quantizeOutput := false }
  | .activation n b _ => .activation n b false
  | .output b _ => .output b false
  | c => c

/-- The attributes of the object after `_disable_output_quantize`; this is what `get_config` returns, so
it is also the object a saved model is loaded with: R8 354-362, 506-511, default_8bit_quantize_configs.py
lines 45-46, RN 394-402, 538-542, default_n_bit_quantize_configs.py lines 47-51. -/
def saved (q : QConfig U) (c : Config) : Config := if q.savedOff then setOutputOff c else c

/-- `get_output_quantizers` of the object in the model: the method of its class, or the one
`_disable_output_quantize` has put in its place. -/
def outputs {W A : Type*} (name : A → ActName) (l : KLayer W A) (q : QConfig U) (c : Config) :
    Except Err (List Quantizer) :=
  if q.outputOff then .ok [] else (saved q c).getOutput name l

end Verif.Quant.SchemeConfig
