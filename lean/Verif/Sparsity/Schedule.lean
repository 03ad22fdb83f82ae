import Mathlib.Data.Real.Basic
import Mathlib.Analysis.SpecialFunctions.Pow.Real

/-!
# Model of `sparsity/keras/pruning_schedule.py`

Paths are relative to `/repo/tensorflow_model_optimization/python/core/`.
-/

namespace Verif.Sparsity

/-- The `ValueError`s raised by the constructors,
`sparsity/keras/pruning_schedule.py` lines 66-99. -/
inductive ScheduleError
  | beginNegative      -- l.80-81 'begin_step should be >= 0'
  | endIsMinusOne      -- l.85-86 'end_step cannot be -1.'
  | endNegative        -- l.89-90 'end_step can be -1 or >= 0'
  | endBeforeBegin     -- l.91-92 'begin_step should be <= end_step ...'
  | frequencyNotPos    -- l.94-95 'frequency should be > 0'
  | sparsityRange      -- l.97-99 '{} must be in range [0,1)'
  deriving DecidableEq, Repr

/-- `PruningSchedule._should_prune_in_step`, `pruning_schedule.py` lines 40-64.
`tf.math.floormod` is `Int.fmod` (result has the sign of the divisor). -/
def shouldPruneInStep (step begin_ end_ freq : ℤ) : Bool :=
  let inRange := decide (begin_ ≤ step) && (decide (step ≤ end_) || decide (end_ < 0))
  let turn := decide (Int.fmod (step - begin_) freq = 0)
  inRange && turn

/-- `PruningSchedule._validate_step`, `pruning_schedule.py` lines 66-95. -/
def validateStep (begin_ end_ freq : ℤ) (allowNegative1 : Bool) : Except ScheduleError Unit :=
  if begin_ < 0 then .error .beginNegative
  else if allowNegative1 = false ∧ end_ = -1 then .error .endIsMinusOne
  else if end_ ≠ -1 ∧ end_ < 0 then .error .endNegative
  else if end_ ≠ -1 ∧ end_ < begin_ then .error .endBeforeBegin
  else if freq ≤ 0 then .error .frequencyNotPos
  else .ok ()

open Classical in
/-- `PruningSchedule._validate_sparsity`, `pruning_schedule.py` lines 97-99. -/
noncomputable def validateSparsity (s : ℝ) : Except ScheduleError Unit :=
  if ¬ (0 ≤ s ∧ s < 1) then throw .sparsityRange else pure ()

/-- Fields of `ConstantSparsity`, `pruning_schedule.py` lines 134-161. -/
structure ConstantSparsity where
  targetSparsity : ℝ
  beginStep : ℤ
  endStep : ℤ
  frequency : ℤ

/-- Fields of `PolynomialDecay`, `pruning_schedule.py` lines 180-220.
`power` is an arbitrary real; the code does not validate it. -/
structure PolynomialDecay where
  initialSparsity : ℝ
  finalSparsity : ℝ
  beginStep : ℤ
  endStep : ℤ
  power : ℝ
  frequency : ℤ

/-- `ConstantSparsity.__init__`, lines 137-161. -/
noncomputable def ConstantSparsity.new (target : ℝ) (begin_ end_ freq : ℤ) :
    Except ScheduleError ConstantSparsity := do
  validateStep begin_ end_ freq true
  validateSparsity target
  return ⟨target, begin_, end_, freq⟩

/-- `ConstantSparsity.__call__`, lines 163-166. -/
def ConstantSparsity.call (c : ConstantSparsity) (step : ℤ) : Bool × ℝ :=
  (shouldPruneInStep step c.beginStep c.endStep c.frequency, c.targetSparsity)

/-- `PolynomialDecay.__init__`, lines 183-220. -/
noncomputable def PolynomialDecay.new (init final : ℝ) (begin_ end_ : ℤ) (power : ℝ) (freq : ℤ) :
    Except ScheduleError PolynomialDecay := do
  validateStep begin_ end_ freq false
  validateSparsity init
  validateSparsity final
  return ⟨init, final, begin_, end_, power, freq⟩

/-- The clamped progress `p` of `PolynomialDecay.__call__`, lines 231-237.  The quotient
`(step - begin) / (end - begin)` is an IEEE division: with `end = begin` it is `-inf`, `+inf` or
`0/0 = NaN`; clamping maps the infinities to 0 and 1, NaN is `none`. -/
noncomputable def PolynomialDecay.progress (d : PolynomialDecay) (step : ℤ) : Option ℝ :=
  if d.endStep = d.beginStep then
    if step < d.beginStep then some 0
    else if d.beginStep < step then some 1
    else none
  else
    some (min 1 (max 0 (((step - d.beginStep : ℤ) : ℝ) / ((d.endStep - d.beginStep : ℤ) : ℝ))))

/-- `PolynomialDecay.__call__`, lines 222-246.  `tf.math.pow` is real exponentiation. -/
noncomputable def PolynomialDecay.call (d : PolynomialDecay) (step : ℤ) : Bool × Option ℝ :=
  (shouldPruneInStep step d.beginStep d.endStep d.frequency,
   (d.progress step).map fun p =>
     (d.initialSparsity - d.finalSparsity) * (1 - p) ^ d.power + d.finalSparsity)

/-- `get_config` followed by `from_config` (`pruning_schedule.py` lines 168-177, 248-259 and the
inherited `from_config` lines 121-131: `cls(**config)`), for `ConstantSparsity`. -/
noncomputable def ConstantSparsity.reload (c : ConstantSparsity) :
    Except ScheduleError ConstantSparsity :=
  ConstantSparsity.new c.targetSparsity c.beginStep c.endStep c.frequency

/-- `get_config` followed by `from_config` for `PolynomialDecay`. -/
noncomputable def PolynomialDecay.reload (d : PolynomialDecay) :
    Except ScheduleError PolynomialDecay :=
  PolynomialDecay.new d.initialSparsity d.finalSparsity d.beginStep d.endStep d.power d.frequency

end Verif.Sparsity
