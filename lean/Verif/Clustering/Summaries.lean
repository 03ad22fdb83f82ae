import Verif.Clustering.Model

/-!
# `ClusteringSummaries`: `clustering/keras/clustering_callbacks.py` lines 24-94

Paths are relative to `/repo/tensorflow_model_optimization/python/core/`.  The base class `TensorBoard` is
not modelled.
-/

namespace Verif.Clustering

/-- A value passed as `cluster_update_freq`. -/
inductive Freq where
  | text (s : String)
  | int (n : ℤ)

inductive SumErr where
  | assertion
  | zeroDivision
  | type
  deriving DecidableEq, Repr

/-- A layer of the model, as `_write_summary` sees it: `inner` is its attribute `layer` (if it has one),
given by the clusterable weights the inner layer reports (`none` if it has no
`get_clusterable_weights`); `vars` are the names of its variables. -/
structure SumLayer where
  inner : Option (Option (List String))
  vars : List String

/-- The callback: frequency, `continuous_batch`, and the histograms written so far (name, step). -/
structure CSum where
  freq : Freq
  continuousBatch : ℕ
  written : List (String × ℕ)

/-- `ClusteringSummaries.__init__`, `clustering_callbacks.py` lines 37-54. -/
def CSum.new (f : Freq) : CSum :=
  ⟨match f with
    | .text s => if s = "batch" then .int 1 else .text s
    | .int n => .int n, 0, []⟩

/-- Histograms for one layer, `clustering_callbacks.py` lines 82-94. -/
def layerHistograms (step : ℕ) (l : SumLayer) : List (String × ℕ) :=
  match l.inner with
  | some (some (_ :: _)) => l.vars.map fun v => ("clustering/" ++ v, step)
  | _ => []

/-- `_write_summary`, `clustering_callbacks.py` lines 80-94; `layers` are the (top-level) layers of the
model. -/
def CSum.write (layers : List SumLayer) (s : CSum) : CSum :=
  { s with written := s.written ++ layers.flatMap (layerHistograms s.continuousBatch) }

inductive SumEvent where
  | batchBegin (batch : ℕ)
  | batchEnd (batch : ℕ)
  | epochEnd
  deriving DecidableEq

/-- `on_train_batch_begin` (56-61), `on_train_batch_end` (63-75), `on_epoch_end` (77-80). -/
def CSum.step (layers : List SumLayer) (s : CSum) : SumEvent → CSum × Option SumErr
  | .batchBegin _ => ({ s with continuousBatch := s.continuousBatch + 1 }, none)
  | .batchEnd b =>
    if s.continuousBatch < b then (s, some .assertion)
    else match s.freq with
      | .text "epoch" => (s, none)
      | .text _ => (s, some .type)
      | .int n =>
        if n = 0 then (s, some .zeroDivision)
        else if Int.fmod s.continuousBatch n ≠ 0 then (s, none)
        else (s.write layers, none)
  | .epochEnd =>
    match s.freq with
    | .text "epoch" => (s.write layers, none)
    | _ => (s, none)

/-- A training run stops at the first exception. -/
def CSum.run (layers : List SumLayer) (s : CSum) : List SumEvent → CSum × Option SumErr
  | [] => (s, none)
  | e :: es =>
    match s.step layers e with
    | (s', some err) => (s', some err)
    | (s', none) => s'.run layers es

/-- The callbacks of an epoch with `n` steps, as Keras makes them: with `steps_per_execution = k` there is
one `on_train_batch_begin(s)` / `on_train_batch_end(s')` per execution, `s` being its first and `s'` its
last step (`keras/engine/training.py`, `Model.fit`: `end_step = step + data_handler.step_increment`).
`fuel` bounds the number of executions. -/
def executions (k n : ℕ) : ℕ → ℕ → List SumEvent
  | 0, _ => []
  | fuel + 1, s =>
    if s < n then .batchBegin s :: .batchEnd (min (s + k) n - 1) :: executions k n fuel (s + k)
    else []

/-- The callbacks of one epoch. -/
def epochEvents (k n : ℕ) : List SumEvent := executions k n n 0 ++ [.epochEnd]

/-- The callbacks of `fit`: one entry of `epochs` per epoch, its number of steps. -/
def fitEvents (k : ℕ) (epochs : List ℕ) : List SumEvent := epochs.flatMap (epochEvents k)

end Verif.Clustering
