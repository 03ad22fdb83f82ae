import Verif.Compression.Whole
import Verif.Props.CompressionLayers
import Verif.Props.CompressionAttributes
import Mathlib.Data.List.Forall2
import Mathlib.Data.Rat.Defs
import Mathlib.Tactic.Ring
import Mathlib.Algebra.BigOperators.Ring.List

/-!
# C116: compressing a whole model

`optimize_model`, `get_training_model` and `compress_model` wrap every layer of a model.  The new
model has the same calls and outputs, and for every input it computes what the original network
computes with every compressible weight replaced by its projection (training) or decompression
(inference).  Where the English property fails in the code, the theorems named `..._violated` say how.
-/
set_option linter.unusedSectionVars false
namespace Verif.Props
open Verif.Compression

variable {V T S α : Type} [DecidableEq S]

namespace Spec

/-- What the original network computes when every layer uses changed weights. -/
def withWeights (change : MLayer V T → String → V → V) (m : KModel (MLayer V T)) (feed : Nat → T) :
    Option (List T) :=
  modelOutput (fun l n => (l.weights.lookup n).map (change l n)) MLayer.compute m feed

/-- The weights that the algorithms compress, by the documentation of the algorithms. -/
def compresses (a : Shipped) (c : LayerClass) (n : String) : Prop :=
  match a with
  | .svdSame | .svdDifferent | .svdPeriodic | .weightClustering =>
    n = "kernel" ∧ (c = .dense ∨ c = .conv2d)
  | .biasOnly => n = "bias" ∧ (c = .dense ∨ c = .conv2d)
  | .epr => (n = "kernel" ∨ n = "bias") ∧ c ≠ .other

/-- A layer that has been built and called, always with the same shape. -/
structure Ready (l : MLayer V T) : Prop where
  built : l.built = true
  shape : ∃ s, l.inputShapes ≠ [] ∧ ∀ t ∈ l.inputShapes, t = s

/-- A layer that the algorithm can compress (`Dense` or `Conv2D`, with a kernel, and with a bias if
the bias is to be compressed) or a layer of another class than those the algorithm asks for. -/
structure Handled (a : Shipped) (l : MLayer V T) : Prop extends Ready l where
  kernel : l.cls = .dense ∨ l.cls = .conv2d → "kernel" ∈ l.weights.map (·.1)
  bias : a = .biasOnly → l.cls = .dense ∨ l.cls = .conv2d → "bias" ∈ l.weights.map (·.1)
  conv1d : a = .epr → l.cls ≠ .conv1d

/-- The layers are all of this kind. -/
def EveryLayer {L : Type} (p : L → Prop) (m : KModel L) : Prop := ∀ l, Item.layer l ∈ m.layers → p l

end Spec

namespace Aux

/-- Corresponding layers of two models. -/
inductive ItemRel {L M : Type} (R : L → M → Prop) : Item L → Item M → Prop where
  | input : ItemRel R .input .input
  | layer {l m} : R l m → ItemRel R (.layer l) (.layer m)

theorem cloneLayers_ok {L M : Type} {f : L → Except WErr M} {R : L → M → Prop} :
    ∀ {ls : List (Item L)}, (∀ l, Item.layer l ∈ ls → ∃ m, f l = .ok m ∧ R l m) →
      ∃ ms, cloneLayers f ls = .ok ms ∧ List.Forall₂ (ItemRel R) ls ms
  | [], _ => ⟨[], rfl, .nil⟩
  | .input :: ls, h => by
    obtain ⟨ms, h1, h2⟩ := cloneLayers_ok (ls := ls) fun l hl => h l (List.mem_cons_of_mem _ hl)
    exact ⟨.input :: ms, by rw [cloneLayers, h1], .cons .input h2⟩
  | .layer l :: ls, h => by
    obtain ⟨ms, h1, h2⟩ := cloneLayers_ok (ls := ls) fun l hl => h l (List.mem_cons_of_mem _ hl)
    obtain ⟨m, h3, h4⟩ := h l List.mem_cons_self
    exact ⟨.layer m :: ms, by rw [cloneLayers, h3]; dsimp only; rw [h1], .cons (.layer h4) h2⟩

theorem cloneLayers_error {L M : Type} {f : L → Except WErr M} :
    ∀ {ls : List (Item L)} {l : L} {e : WErr}, Item.layer l ∈ ls → f l = .error e →
      ∃ e', cloneLayers f ls = .error e'
  | [], l, e, h, _ => by simp at h
  | .input :: ls, l, e, h, hf => by
    have h' : Item.layer l ∈ ls := by simpa using h
    obtain ⟨e', h1⟩ := cloneLayers_error h' hf
    exact ⟨e', by rw [cloneLayers, h1]⟩
  | .layer k :: ls, l, e, h, hf => by
    cases hk : f k with
    | error e' => exact ⟨e', by rw [cloneLayers, hk]⟩
    | ok m =>
      have h' : Item.layer l ∈ ls := by
        rcases List.mem_cons.1 h with h | h
        · injection h with h
          rw [h, hk] at hf
          cases hf
        · exact h
      obtain ⟨e', h1⟩ := cloneLayers_error h' hf
      exact ⟨e', by rw [cloneLayers, hk]; dsimp only; rw [h1]⟩

theorem cloneModel_ok {L M : Type} {f : L → Except WErr M} {R : L → M → Prop} {m : KModel L}
    (hk : m.kind ≠ .subclassed) (h : Spec.EveryLayer (fun l => ∃ m, f l = .ok m ∧ R l m) m) :
    ∃ t, cloneModel f m = .ok t ∧ t.kind = m.kind ∧ t.nodes = m.nodes ∧ t.outputs = m.outputs ∧
      List.Forall₂ (ItemRel R) m.layers t.layers := by
  obtain ⟨ms, h1, h2⟩ := cloneLayers_ok (R := R) h
  refine ⟨⟨m.kind, ms, m.nodes, m.outputs⟩, ?_, rfl, rfl, rfl, h2⟩
  unfold cloneModel
  rw [h1]
  cases hm : m.kind with
  | subclassed => exact absurd hm hk
  | sequential => rfl
  | functional => rfl

theorem cloneModel_error {L M : Type} {f : L → Except WErr M} {m : KModel L} {l : L} {e : WErr}
    (hl : Item.layer l ∈ m.layers) (hf : f l = .error e) : ∃ e', cloneModel f m = .error e' := by
  obtain ⟨e', h⟩ := cloneLayers_error hl hf
  unfold cloneModel
  cases m.kind with
  | subclassed => exact ⟨_, rfl⟩
  | sequential => exact ⟨e', by dsimp only; rw [h]⟩
  | functional => exact ⟨e', by dsimp only; rw [h]⟩

theorem evalNodes_congr {c d : Nat → List T → Option T} (h : ∀ i args, c i args = d i args) :
    ∀ nodes done, evalNodes c nodes done = evalNodes d nodes done
  | [], done => rfl
  | (i, ins) :: rest, done => by
    unfold evalNodes
    rw [h]
    cases d i (ins.filterMap (done[·]?)) with
    | none => rfl
    | some v => exact evalNodes_congr h rest _

theorem output_congr {L M : Type} {w : L → String → Option V} {w' : M → String → Option V}
    {c : L → (String → Option V) → List T → T} {c' : M → (String → Option V) → List T → T}
    {m : KModel L} {t : KModel M} (hn : t.nodes = m.nodes) (ho : t.outputs = m.outputs)
    (h : List.Forall₂ (ItemRel fun l k => c l (w l) = c' k (w' k)) m.layers t.layers)
    (feed : Nat → T) : modelOutput w' c' t feed = modelOutput w c m feed := by
  unfold modelOutput
  rw [hn, ho]
  congr 1
  apply evalNodes_congr
  intro i args
  unfold callLayer
  have hlen := h.length_eq
  by_cases hi : i < m.layers.length
  · have hi' : i < t.layers.length := by omega
    have hr := h.get hi hi'
    simp only [List.get_eq_getElem] at hr
    rw [List.getElem?_eq_getElem hi, List.getElem?_eq_getElem hi']
    generalize m.layers[i] = a at hr
    generalize t.layers[i] = b at hr
    cases hr with
    | input => rfl
    | layer hr =>
      dsimp only
      rw [hr]
  · rw [List.getElem?_eq_none (by omega), List.getElem?_eq_none (by omega)]

theorem forall₂_items {L M : Type} {R R' : L → M → Prop} (h : ∀ l m, R l m → R' l m)
    {ls : List (Item L)} {ms : List (Item M)} (hr : List.Forall₂ (ItemRel R) ls ms) :
    List.Forall₂ (ItemRel R') ls ms :=
  hr.imp fun _ _ h' => by
    cases h' with
    | input => exact .input
    | layer h' => exact .layer (h _ _ h')

theorem items_partner {L M : Type} {R : L → M → Prop} {ls : List L} {ms : List M}
    (h : List.Forall₂ R ls ms) {m : M} (hm : m ∈ ms) : ∃ l ∈ ls, R l m := by
  induction h with
  | nil => simp at hm
  | cons hr _ ih =>
    rcases List.mem_cons.1 hm with rfl | hm
    · exact ⟨_, List.mem_cons_self, hr⟩
    · obtain ⟨l, hl, hr'⟩ := ih hm
      exact ⟨l, List.mem_cons_of_mem _ hl, hr'⟩

theorem inputShape_ready {l : MLayer V T} (h : Spec.Ready l) : ∃ s, l.inputShape = some s := by
  obtain ⟨s, hne, hs⟩ := h.shape
  unfold MLayer.inputShape
  cases hl : l.inputShapes with
  | nil => exact absurd hl hne
  | cons a r =>
    refine ⟨a, ?_⟩
    dsimp only
    rw [if_pos]
    rw [List.all_eq_true]
    intro x hx
    rw [hl] at hs
    rw [hs x (List.mem_cons_of_mem _ hx), hs a List.mem_cons_self]
    simp

theorem lookup_isSome_of_key {β : Type} {l : List (String × β)} {n : String} (h : n ∈ l.map (·.1)) :
    (l.lookup n).isSome = true := by
  obtain ⟨e, he, rfl⟩ := List.mem_map.1 h
  exact List.lookup_isSome_iff.2 ⟨e, he, by simp⟩

theorem lookup_filter {β : Type} (l : List (String × β)) (p : String → Bool) (n : String) :
    (l.filter fun e => p e.1).lookup n = if p n then l.lookup n else none := by
  induction l with
  | nil => simp
  | cons e l ih =>
    rw [List.filter_cons]
    by_cases he : n = e.1
    · subst he
      by_cases hp : p e.1 = true
      · rw [if_pos hp, if_pos hp, List.lookup_cons, List.lookup_cons]
        simp
      · rw [if_neg hp, ih, if_neg hp, if_neg hp]
    · have hb : (n == e.1) = false := by simpa using he
      by_cases hp : p e.1 = true
      · rw [if_pos hp, List.lookup_cons, List.lookup_cons, hb]
        exact ih
      · rw [if_neg hp, ih, List.lookup_cons, hb]

/-- The names of the compressible weights of a layer that the algorithm handles. -/
theorem compressible_names {a : Shipped} {l : MLayer V T} (h : Spec.Handled a l) :
    ∃ names, weightNamesOf (getCompressible a l) = some names ∧
      (∀ n ∈ l.weights.map (·.1), n ∈ names ↔ Spec.compresses a l.cls n) ∧
      (l.cls = .dense ∨ l.cls = .conv2d → ∃ e ∈ l.weights, e.1 ∈ names) ∧
      (¬ (l.cls = .dense ∨ l.cls = .conv2d) → names = []) := by
  have hk := h.kernel
  have hb := h.bias
  have h1 := h.conv1d
  have hkernel : l.cls = .dense ∨ l.cls = .conv2d → ∃ e ∈ l.weights, e.1 = "kernel" := fun hc => by
    obtain ⟨e, he, hn⟩ := List.mem_map.1 (hk hc)
    exact ⟨e, he, hn⟩
  have plain : getCompressible a l = (match l.cls with
      | .dense | .conv2d => [some "kernel"]
      | _ => []) → Spec.compresses a l.cls = (fun n => n = "kernel" ∧
        (l.cls = .dense ∨ l.cls = .conv2d)) → ∃ names,
      weightNamesOf (getCompressible a l) = some names ∧
      (∀ n ∈ l.weights.map (·.1), n ∈ names ↔ Spec.compresses a l.cls n) ∧
      (l.cls = .dense ∨ l.cls = .conv2d → ∃ e ∈ l.weights, e.1 ∈ names) ∧
      (¬ (l.cls = .dense ∨ l.cls = .conv2d) → names = []) := by
    intro hg hs
    rw [hg, hs]
    cases hc : l.cls with
    | dense =>
      obtain ⟨e, he, hn⟩ := hkernel (Or.inl hc)
      exact ⟨["kernel"], rfl, by simp, fun _ => ⟨e, he, by simp [hn]⟩, by simp⟩
    | conv2d =>
      obtain ⟨e, he, hn⟩ := hkernel (Or.inr hc)
      exact ⟨["kernel"], rfl, by simp, fun _ => ⟨e, he, by simp [hn]⟩, by simp⟩
    | conv1d => exact ⟨[], rfl, by simp, by simp, by simp⟩
    | other => exact ⟨[], rfl, by simp, by simp, by simp⟩
  cases a with
  | svdSame => exact plain rfl rfl
  | svdDifferent => exact plain rfl rfl
  | svdPeriodic => exact plain rfl rfl
  | weightClustering => exact plain rfl rfl
  | biasOnly =>
    have hbias : l.cls = .dense ∨ l.cls = .conv2d →
        getCompressible .biasOnly l = [some "bias"] ∧ ∃ e ∈ l.weights, e.1 = "bias" := fun hc => by
      have hm := hb rfl hc
      obtain ⟨e, he, hn⟩ := List.mem_map.1 hm
      have hu : l.useBias = true := lookup_isSome_of_key hm
      refine ⟨?_, e, he, hn⟩
      unfold getCompressible
      rcases hc with hc | hc <;> simp only [hc, hu, if_true]
    by_cases hc : l.cls = .dense ∨ l.cls = .conv2d
    · obtain ⟨hg, e, he, hn⟩ := hbias hc
      rw [hg]
      refine ⟨["bias"], rfl, ?_, fun _ => ⟨e, he, by simp [hn]⟩, fun h => absurd hc h⟩
      intro n _
      simp [Spec.compresses, hc]
    · refine ⟨[], ?_, ?_, fun h => absurd h hc, fun _ => rfl⟩
      · unfold getCompressible
        cases h' : l.cls with
        | dense => exact absurd (Or.inl h') hc
        | conv2d => exact absurd (Or.inr h') hc
        | conv1d => rfl
        | other => rfl
      · intro n _
        simp [Spec.compresses, hc]
  | epr =>
    by_cases hc : l.cls = .dense ∨ l.cls = .conv2d
    · obtain ⟨e, he, hn⟩ := hkernel hc
      have hco : l.cls ≠ .other := by rintro h'; rw [h'] at hc; simp at hc
      have hg : getCompressible .epr l =
          if l.useBias then [some "kernel", some "bias"] else [some "kernel"] := by
        unfold getCompressible
        rcases hc with hc | hc <;> simp only [hc]
      rw [hg]
      cases hu : l.useBias with
      | true =>
        refine ⟨["kernel", "bias"], rfl, ?_, fun _ => ⟨e, he, by simp [hn]⟩, fun h => absurd hc h⟩
        intro n _
        simp [Spec.compresses, hco]
      | false =>
        refine ⟨["kernel"], rfl, ?_, fun _ => ⟨e, he, by simp [hn]⟩, fun h => absurd hc h⟩
        intro n hm
        have hnb : n ≠ "bias" := by
          rintro rfl
          have := lookup_isSome_of_key hm
          unfold MLayer.useBias at hu
          rw [hu] at this
          cases this
        simp [Spec.compresses, hco, hnb]
    · have hco : l.cls = .other := by
        cases h' : l.cls with
        | dense => exact absurd (Or.inl h') hc
        | conv2d => exact absurd (Or.inr h') hc
        | conv1d => exact absurd h' (h1 rfl)
        | other => rfl
      refine ⟨[], ?_, ?_, fun h => absurd h hc, fun _ => rfl⟩
      · unfold getCompressible
        rw [hco]
        rfl
      · intro n _
        simp [Spec.compresses, hco]

end Aux

open Classical in
/-- What the weights of a layer become in a model for training: compressible weights are projected,
the other weights of a `Dense` or `Conv2D` layer are kept, and all other layers start afresh. -/
noncomputable def Spec.trainingChange (a : Shipped) (alg : Compressor V)
    (fresh : String → String → V) (l : MLayer V T) (n : String) (v : V) : V :=
  if l.cls = .dense ∨ l.cls = .conv2d then
    if Spec.compresses a l.cls n then alg.project (alg.init v) else v
  else fresh l.name n

theorem Aux.trainingLayer_ok (a : Shipped) (alg : Compressor V) (fresh : String → String → V)
    {l : MLayer V T} (h : Spec.Handled a l) :
    ∃ w, trainingLayer a alg fresh l = .ok w ∧ w.compute = l.compute ∧
      ∀ n, w.wrapped.trainingWeight alg n =
        (l.weights.lookup n).map (Spec.trainingChange a alg fresh l n) := by
  obtain ⟨s, hs⟩ := Aux.inputShape_ready h.toReady
  obtain ⟨names, hn1, hn2, hn3, hn4⟩ := Aux.compressible_names h
  unfold trainingLayer
  rw [if_pos h.built, hs]
  dsimp only
  rw [hn1]
  dsimp only
  by_cases hc : l.cls = .dense ∨ l.cls = .conv2d
  · have hcd : (l.cls == .dense || l.cls == .conv2d) = true := by
      rcases hc with hc | hc <;> rw [hc] <;> rfl
    obtain ⟨e, he, hen⟩ := hn3 hc
    have hany : (l.weights.any fun e => decide (e.1 ∈ names)) = true :=
      List.any_eq_true.2 ⟨e, he, decide_eq_true hen⟩
    rw [hcd, createTraining, if_pos hany, if_pos rfl]
    refine ⟨_, rfl, rfl, fun n => ?_⟩
    simp only [Wrapped.trainingWeight]
    rw [Aux.lookup_map (l.weights.filter fun e => decide (e.1 ∈ names)) alg.init,
      Aux.lookup_filter l.weights (fun n => decide (n ∈ names))]
    have hnot : (l.weights.filter fun e => decide (e.1 ∉ names)).lookup n =
        if decide (n ∉ names) then l.weights.lookup n else none :=
      Aux.lookup_filter l.weights (fun n => decide (n ∉ names)) n
    rw [hnot]
    cases hl : l.weights.lookup n with
    | none => simp
    | some v =>
      have hm : n ∈ l.weights.map (·.1) := by
        by_contra h'
        rw [Aux.lookup_none _ h'] at hl
        cases hl
      have hiff := hn2 n hm
      simp only [Spec.trainingChange, if_pos hc, Option.map_some]
      by_cases hin : n ∈ names
      · simp [hin, hiff.1 hin]
      · have : ¬ Spec.compresses a l.cls n := fun h' => hin (hiff.2 h')
        simp [hin, this]
  · obtain rfl := hn4 hc
    have hany : ¬ (l.weights.any fun e => decide (e.1 ∈ ([] : List String))) = true := by simp
    rw [createTraining, if_neg hany]
    refine ⟨_, rfl, rfl, fun n => ?_⟩
    simp only [Wrapped.trainingWeight, List.lookup_nil, Option.map_none, Option.none_or,
      Spec.trainingChange, if_neg hc]
    clear hany hn2 hn3 hn4 h hs hn1
    generalize l.weights = ws
    induction ws with
    | nil => rfl
    | cons e ws ih =>
      rw [List.map_cons, List.lookup_cons, List.lookup_cons]
      cases hb : n == e.1 with
      | false => exact ih
      | true =>
        have : n = e.1 := by simpa using hb
        simp [this, Spec.trainingChange, if_neg hc]

/-- **C116** (training, exactly).  For every Sequential or functional model of layers that the
algorithm handles, the model for training exists, has the same calls and outputs, and for every
input it computes what the original network computes with the weights changed as
`Spec.trainingChange` says. -/
theorem C116_training_exact (a : Shipped) (alg : Compressor V) (fresh : String → String → V)
    (m : KModel (MLayer V T)) (hk : m.kind ≠ .subclassed)
    (h : Spec.EveryLayer (Spec.Handled a) m) :
    ∃ t, optimizeModel a alg fresh m = .ok t ∧ t.nodes = m.nodes ∧ t.outputs = m.outputs ∧
      ∀ feed, trainingOutput alg t feed =
        Spec.withWeights (Spec.trainingChange a alg fresh) m feed := by
  obtain ⟨t, h1, _, h2, h3, h4⟩ := Aux.cloneModel_ok (f := trainingLayer a alg fresh)
    (R := fun l w => w.compute = l.compute ∧ ∀ n, w.wrapped.trainingWeight alg n =
        (l.weights.lookup n).map (Spec.trainingChange a alg fresh l n)) hk
    fun l hl => Aux.trainingLayer_ok a alg fresh (h l hl)
  refine ⟨t, h1, h2, h3, fun feed => ?_⟩
  refine Aux.output_congr h2 h3 (Aux.forall₂_items (fun l w hr => ?_) h4) feed
  rw [hr.1]
  congr 1
  funext n
  exact (hr.2 n).symm

open Classical in
/-- **C116** (training).  If moreover the layers of other classes have no weights, the model for
training computes, for every input, what the original network computes with every compressible
weight replaced by its projection and all other weights as they are.

Partial: without this hypothesis it is false, see `C116_weights_violated`. -/
theorem C116_training_partial (a : Shipped) (alg : Compressor V) (fresh : String → String → V)
    (m : KModel (MLayer V T)) (hk : m.kind ≠ .subclassed)
    (h : Spec.EveryLayer (Spec.Handled a) m)
    (hw : Spec.EveryLayer (fun l => ¬ (l.cls = .dense ∨ l.cls = .conv2d) → l.weights = []) m) :
    ∃ t, optimizeModel a alg fresh m = .ok t ∧ t.nodes = m.nodes ∧ t.outputs = m.outputs ∧
      ∀ feed, trainingOutput alg t feed =
        Spec.withWeights (fun l n v =>
          if Spec.compresses a l.cls n then alg.project (alg.init v) else v) m feed := by
  obtain ⟨t, h1, h2, h3, h4⟩ := C116_training_exact a alg fresh m hk h
  refine ⟨t, h1, h2, h3, fun feed => ?_⟩
  rw [h4]
  unfold Spec.withWeights
  have hself : ∀ ls : List (Item (MLayer V T)),
      (∀ l, Item.layer l ∈ ls → ¬ (l.cls = .dense ∨ l.cls = .conv2d) → l.weights = []) →
      List.Forall₂ (Aux.ItemRel fun l k =>
        MLayer.compute l (fun n => (l.weights.lookup n).map (fun v =>
          if Spec.compresses a l.cls n then alg.project (alg.init v) else v)) =
        MLayer.compute k (fun n => (k.weights.lookup n).map
          (Spec.trainingChange a alg fresh k n))) ls ls := by
    intro ls
    induction ls with
    | nil => exact fun _ => .nil
    | cons i ls ih =>
      intro hh
      refine .cons ?_ (ih fun l hl => hh l (List.mem_cons_of_mem _ hl))
      cases i with
      | input => exact .input
      | layer l =>
        refine .layer ?_
        congr 1
        funext n
        by_cases hc : l.cls = .dense ∨ l.cls = .conv2d
        · cases l.weights.lookup n with
          | none => rfl
          | some v => simp only [Option.map_some, Spec.trainingChange, if_pos hc]
        · rw [hh l List.mem_cons_self hc]
          rfl
  exact Aux.output_congr rfl rfl (hself m.layers hw) feed

/-- **C116** (training, lossless algorithms).  If projecting the initial training weights gives back
the weight, training starts with exactly the function of the original model. -/
theorem C116_lossless_partial (a : Shipped) (alg : Compressor V) (fresh : String → String → V)
    (hloss : ∀ v, alg.project (alg.init v) = v)
    (m : KModel (MLayer V T)) (hk : m.kind ≠ .subclassed)
    (h : Spec.EveryLayer (Spec.Handled a) m)
    (hw : Spec.EveryLayer (fun l => ¬ (l.cls = .dense ∨ l.cls = .conv2d) → l.weights = []) m) :
    ∃ t, optimizeModel a alg fresh m = .ok t ∧
      ∀ feed, trainingOutput alg t feed = MLayer.output m feed := by
  obtain ⟨t, h1, _, _, h4⟩ := C116_training_partial a alg fresh m hk h hw
  refine ⟨t, h1, fun feed => ?_⟩
  rw [h4]
  unfold Spec.withWeights MLayer.output
  congr 1
  funext l n
  simp [hloss]

/-! ## Inference -/

/-- The layer has been trained by the API: its compressed weights are the kernel, or kernel and bias,
or nothing, and it has two weights in all, or none. -/
structure Spec.TwoWeights (l : WLayer V T) : Prop extends Spec.Compressed l.wrapped where
  two : l.wrapped.own.length + l.wrapped.inner.length = 0 ∨
    l.wrapped.own.length + l.wrapped.inner.length = 2

theorem Aux.lookup_inference (shape : V → S) (alg : Compressor V) (fresh : String → V)
    (l : Wrapped V) (hl : Spec.Compressed l)
    (hfresh : ∀ e ∈ l.inner, shape (fresh e.1) = shape e.2)
    (htwo : l.own.length + l.inner.length = 0 ∨ l.own.length + l.inner.length = 2) :
    ∃ l', createInference shape alg fresh l = .ok l' ∧ ∀ n, l'.inferenceWeight alg n =
      ((l.own.lookup n).map fun ts => alg.decompress (alg.compress ts)).or (l.inner.lookup n) := by
  obtain ⟨l', h1, h2, h3⟩ := C64_inference_partial shape alg fresh l hl hfresh htwo
  refine ⟨l', h1, fun n => ?_⟩
  have hd := List.nodup_append.1 hl.distinct
  by_cases ho : n ∈ l.own.map (·.1)
  · obtain ⟨e, he, rfl⟩ := List.mem_map.1 ho
    rw [h2 e.1 e.2 he, Aux.lookup_of_pair l.own hd.1 (n := e.1) (v := e.2) he]
    rfl
  · rw [Aux.lookup_none _ ho]
    by_cases hi : n ∈ l.inner.map (·.1)
    · obtain ⟨e, he, rfl⟩ := List.mem_map.1 hi
      rw [h3 e.1 e.2 he, Aux.lookup_of_pair l.inner hd.2.1 (n := e.1) (v := e.2) he]
      rfl
    · rw [Aux.lookup_none _ hi]
      obtain ⟨e1, e2⟩ := C64_shapes_checked shape alg fresh l l' h1
      have k1 : l'.own.map (·.1) = l.own.map (·.1) := by
        have := congrArg (List.map (·.1)) e1
        simpa [List.map_map, Function.comp_def] using this
      have k2 : l'.inner.map (·.1) = l.inner.map (·.1) := by
        have := congrArg (List.map (·.1)) e2
        simpa [List.map_map, Function.comp_def] using this
      unfold Wrapped.inferenceWeight
      rw [Aux.lookup_none _ (by rw [k1]; exact ho), Aux.lookup_none _ (by rw [k2]; exact hi)]
      rfl

/-- **C116** (inference).  Whatever training did to the weights: if every layer has two weights or
none, `compress_model` returns a model with the same calls and outputs, which computes, for every
input, what the trained network computes with every group of training weights replaced by its
decompressed compressed form.

Partial: with other numbers of weights it fails, see `C116_inference_violated`. -/
theorem C116_inference_partial (shape : V → S) (alg : Compressor V) (fresh : Wrapped V → String → V)
    (t : KModel (WLayer V T)) (hk : t.kind ≠ .subclassed) (h : Spec.EveryLayer Spec.TwoWeights t)
    (hfresh : Spec.EveryLayer (fun l => ∀ e ∈ l.wrapped.inner,
      shape (fresh l.wrapped e.1) = shape e.2) t) :
    ∃ c, compressTrained shape alg fresh t = .ok c ∧ c.nodes = t.nodes ∧ c.outputs = t.outputs ∧
      ∀ feed, inferenceOutput alg c feed = modelOutput (fun l n =>
        ((l.wrapped.own.lookup n).map fun ts => alg.decompress (alg.compress ts)).or
          (l.wrapped.inner.lookup n)) WLayer.compute t feed := by
  obtain ⟨c, h1, _, h2, h3, h4⟩ := Aux.cloneModel_ok (f := inferenceLayer shape alg fresh)
    (R := fun l w => w.compute = l.compute ∧ ∀ n, w.wrapped.inferenceWeight alg n =
      ((l.wrapped.own.lookup n).map fun ts => alg.decompress (alg.compress ts)).or
        (l.wrapped.inner.lookup n)) hk (fun l hl => by
      have htw := h l hl
      obtain ⟨w, h5, h6⟩ := Aux.lookup_inference shape alg (fresh l.wrapped) l.wrapped
        htw.toCompressed (hfresh l hl) htw.two
      exact ⟨⟨w, l.compute⟩, by unfold inferenceLayer; rw [h5], rfl, h6⟩)
  refine ⟨c, h1, h2, h3, fun feed => ?_⟩
  refine Aux.output_congr h2 h3 (Aux.forall₂_items (fun l w hr => ?_) h4) feed
  rw [hr.1]
  congr 1
  funext n
  exact (hr.2 n).symm

/-- **C116** (inference computes what training computed).  If decompressing a compressed group of
training weights gives its projection, the compressed model computes exactly what the model for
training computes, for every input. -/
theorem C116_same_partial (shape : V → S) (alg : Compressor V) (fresh : Wrapped V → String → V)
    (hsame : ∀ ts, alg.decompress (alg.compress ts) = alg.project ts)
    (t : KModel (WLayer V T)) (hk : t.kind ≠ .subclassed) (h : Spec.EveryLayer Spec.TwoWeights t)
    (hfresh : Spec.EveryLayer (fun l => ∀ e ∈ l.wrapped.inner,
      shape (fresh l.wrapped e.1) = shape e.2) t) :
    ∃ c, compressTrained shape alg fresh t = .ok c ∧
      ∀ feed, inferenceOutput alg c feed = trainingOutput alg t feed := by
  obtain ⟨c, h1, _, _, h2⟩ := C116_inference_partial shape alg fresh t hk h hfresh
  refine ⟨c, h1, fun feed => ?_⟩
  rw [h2]
  unfold trainingOutput Wrapped.trainingWeight
  congr 1
  funext l n
  congr 2
  funext ts
  exact hsame ts

/-! ## What is rejected -/

/-- **C116** (subclassed models).  They are rejected with a `ValueError`. -/
theorem C116_subclassed (a : Shipped) (alg : Compressor V) (fresh : String → String → V)
    (m : KModel (MLayer V T)) (hk : m.kind = .subclassed) :
    optimizeModel a alg fresh m = .error .modelKind := by
  unfold optimizeModel cloneModel
  rw [hk]

/-- **C116** (models that are not built).  A model with a layer that is not built is rejected, with
the `ValueError` of that layer if it is the first. -/
theorem C116_not_built (a : Shipped) (alg : Compressor V) (fresh : String → String → V)
    (m : KModel (MLayer V T)) (l : MLayer V T) (hl : Item.layer l ∈ m.layers)
    (hb : l.built = false) :
    trainingLayer a alg fresh l = .error .notBuilt ∧
      ∃ e, optimizeModel a alg fresh m = .error e := by
  have h : trainingLayer a alg fresh l = .error .notBuilt := by
    unfold trainingLayer
    rw [hb]
    rfl
  exact ⟨h, Aux.cloneModel_error hl h⟩

/-- **C116** (violated: shared layers).  A model with a layer that has been called with two
different shapes cannot be compressed. -/
theorem C116_shapes_violated (a : Shipped) (alg : Compressor V) (fresh : String → String → V)
    (m : KModel (MLayer V T)) (l : MLayer V T) (hl : Item.layer l ∈ m.layers) (s s' : List Nat)
    (hs : s ∈ l.inputShapes) (hs' : s' ∈ l.inputShapes) (hne : s ≠ s') :
    ∃ e, optimizeModel a alg fresh m = .error e := by
  have hnone : l.inputShape = none := by
    unfold MLayer.inputShape
    cases hi : l.inputShapes with
    | nil => rfl
    | cons x r =>
      dsimp only
      rw [if_neg]
      rw [List.all_eq_true]
      intro hall
      have key : ∀ y ∈ l.inputShapes, y = x := by
        intro y hy
        rw [hi] at hy
        rcases List.mem_cons.1 hy with hy | hy
        · exact hy
        · simpa using hall y hy
      exact hne ((key s hs).trans (key s' hs').symm)
  have h : ∃ e, trainingLayer a alg fresh l = .error e := by
    unfold trainingLayer
    rw [hnone]
    cases l.built with
    | true => exact ⟨_, rfl⟩
    | false => exact ⟨_, rfl⟩
  obtain ⟨e, h⟩ := h
  exact Aux.cloneModel_error hl h

/-- **C116** (violated: `BiasOnly` and layers without bias).  A model with a `Dense` or `Conv2D`
layer without bias cannot be compressed by `BiasOnly`, although there is nothing to do in that
layer. -/
theorem C116_bias_violated (alg : Compressor V) (fresh : String → String → V)
    (m : KModel (MLayer V T)) (l : MLayer V T) (hl : Item.layer l ∈ m.layers)
    (hc : l.cls = .dense ∨ l.cls = .conv2d) (hb : "bias" ∉ l.weights.map (·.1)) :
    ∃ e, optimizeModel .biasOnly alg fresh m = .error e := by
  have hu : l.useBias = false := by
    unfold MLayer.useBias
    rw [Aux.lookup_none _ hb]
    rfl
  have hg : getCompressible .biasOnly l = [none] := by
    unfold getCompressible
    rcases hc with hc | hc <;> simp [hc, hu]
  have h : ∃ e, trainingLayer .biasOnly alg fresh l = .error e := by
    unfold trainingLayer
    rw [hg]
    cases l.built with
    | false => exact ⟨_, rfl⟩
    | true =>
      cases l.inputShape with
      | none => exact ⟨_, rfl⟩
      | some s => exact ⟨_, rfl⟩
  obtain ⟨e, h⟩ := h
  exact Aux.cloneModel_error hl h

/-- **C116** (violated: numbers of weights).  A trained model with a layer that has weights, but not
two, cannot be compressed: a compressed layer without bias, a batch normalization. -/
theorem C116_inference_violated (shape : V → S) (alg : Compressor V)
    (fresh : Wrapped V → String → V) (t : KModel (WLayer V T)) (l : WLayer V T)
    (hl : Item.layer l ∈ t.layers) (hc : Spec.Compressed l.wrapped)
    (hn : l.wrapped.own.length + l.wrapped.inner.length ≠ 0 ∧
      l.wrapped.own.length + l.wrapped.inner.length ≠ 2) :
    ∃ e, compressTrained shape alg fresh t = .error e := by
  obtain ⟨e, h⟩ := C64_inference_violated shape alg (fresh l.wrapped) l.wrapped hc hn
  exact Aux.cloneModel_error hl (e := .weights e) (by unfold inferenceLayer; rw [h])

/-! ## EPR -/

/-- The layers of a model other than its input layers. -/
def Spec.realLayers {L : Type} (m : KModel L) : List L :=
  m.layers.filterMap fun | .input => none | .layer l => some l

/-- The number of parameters of a model: of all elements of all weights of all its layers. -/
def Spec.parameterCount (size : V → Nat) (m : KModel (MLayer V T)) : Nat :=
  (((Spec.realLayers m).flatMap fun l => l.weights.map (·.2)).map size).sum

theorem Aux.countParams_eq (size : V → Nat) (m : KModel (MLayer V T)) :
    countParams size m = Spec.parameterCount size m := by
  unfold countParams Spec.parameterCount Spec.realLayers
  induction m.layers with
  | nil => rfl
  | cons i is ih =>
    cases i with
    | input => simpa using ih
    | layer l => simp [ih, Function.comp_def]

theorem Aux.inputCount_eq {L : Type} (m : KModel L) :
    inputCount m + (Spec.realLayers m).length = m.layers.length := by
  unfold inputCount Spec.realLayers
  induction m.layers with
  | nil => rfl
  | cons i is ih => cases i <;> simp <;> omega

/-- **C116** (EPR).  For a model with one input layer and at least one parameter, `get_training_model`
returns the model for training and the regularization weight divided by the number of parameters of
the original model. -/
theorem C116_epr_partial [Field α] (alg : Compressor V) (fresh : String → String → V)
    (size : V → Nat) (lam : α) (m : KModel (MLayer V T)) (hk : m.kind ≠ .subclassed)
    (h : Spec.EveryLayer (Spec.Handled .epr) m) (h1 : m.layers.length = (Spec.realLayers m).length + 1)
    (hp : Spec.parameterCount size m ≠ 0) :
    ∃ t, optimizeModel .epr alg fresh m = .ok t ∧
      eprTrainingModel alg fresh size lam m = .ok (t, lam / (Spec.parameterCount size m : α)) := by
  obtain ⟨t, ht, _⟩ := C116_training_exact .epr alg fresh m hk h
  refine ⟨t, ht, ?_⟩
  have := Aux.inputCount_eq m
  rw [← Aux.countParams_eq] at hp ⊢
  unfold eprTrainingModel
  rw [ht]
  dsimp only
  rw [if_pos (by omega), if_neg hp]

/-- **C116** (violated: several inputs).  EPR cannot train a model with more than one input layer. -/
theorem C116_inputs_violated [Field α] (alg : Compressor V) (fresh : String → String → V)
    (size : V → Nat) (lam : α) (m : KModel (MLayer V T))
    (h : (Spec.realLayers m).length + 1 < m.layers.length) :
    ∃ e, eprTrainingModel alg fresh size lam m = .error e := by
  have := Aux.inputCount_eq m
  unfold eprTrainingModel
  cases optimizeModel .epr alg fresh m with
  | error e => exact ⟨e, rfl⟩
  | ok t => exact ⟨_, by dsimp only; rw [if_neg (by omega)]⟩

/-- **C116** (violated: `Conv1D`).  EPR says that the kernel and the bias of a `Conv1D` layer are
compressible, but a model with such a layer cannot be trained. -/
theorem C116_conv1d_violated (alg : Compressor V) (fresh : String → String → V)
    (m : KModel (MLayer V T)) (l : MLayer V T) (hl : Item.layer l ∈ m.layers)
    (hc : l.cls = .conv1d) (hw : "kernel" ∈ l.weights.map (·.1)) :
    ∃ e, optimizeModel .epr alg fresh m = .error e := by
  obtain ⟨⟨n, v⟩, hm, rfl⟩ := List.mem_map.1 hw
  have key : ∃ e, trainingLayer .epr alg fresh l = .error e := by
    have hnames : ∃ names, weightNamesOf (getCompressible .epr l) = some ("kernel" :: names) := by
      unfold getCompressible
      rw [hc]
      dsimp only
      cases l.useBias
      · exact ⟨[], rfl⟩
      · exact ⟨["bias"], rfl⟩
    obtain ⟨names, hnames⟩ := hnames
    unfold trainingLayer
    cases l.built with
    | false => exact ⟨_, rfl⟩
    | true =>
      cases l.inputShape with
      | none => exact ⟨_, rfl⟩
      | some s =>
        rw [hnames]
        have hany : (l.weights.any fun e => decide (e.1 ∈ "kernel" :: names)) = true :=
          List.any_eq_true.2 ⟨_, hm, by simp⟩
        refine ⟨.weights "ValueError: set_weights", ?_⟩
        simp only [if_true, createTraining, hany, hc]
        rfl
  obtain ⟨e, he⟩ := key
  exact Aux.cloneModel_error hl he

/-! ## What a network computes -/

/-- The calls of a model get their inputs from earlier calls, and are calls of layers it has. -/
def Spec.Executable {L : Type} (m : KModel L) : Prop :=
  (∀ (k i : Nat) (ins : List Nat), m.nodes[k]? = some (i, ins) → i < m.layers.length ∧ ∀ j ∈ ins, j < k) ∧
    ∀ j ∈ m.outputs, j < m.nodes.length

theorem Aux.evalNodes_spec (call : Nat → List T → Option T) :
    ∀ (nodes : List (Nat × List Nat)) (done : List T),
      (∀ (k i : Nat) (ins : List Nat), nodes[k]? = some (i, ins) →
        (∀ args, (call i args).isSome) ∧ ∀ j ∈ ins, j < done.length + k) →
      ∃ vals, evalNodes call nodes done = some (done ++ vals) ∧ vals.length = nodes.length ∧
        ∀ (k i : Nat) (ins : List Nat), nodes[k]? = some (i, ins) →
          vals[k]? = call i (ins.filterMap ((done ++ vals)[·]?))
  | [], done, _ => ⟨[], by simp [evalNodes], rfl, by simp⟩
  | (i, ins) :: rest, done, h => by
    obtain ⟨h0, h0'⟩ := h 0 i ins rfl
    obtain ⟨v, hv⟩ := Option.isSome_iff_exists.1 (h0 (ins.filterMap (done[·]?)))
    obtain ⟨vals, e1, e2, e3⟩ := Aux.evalNodes_spec call rest (done ++ [v]) (by
      intro k i' ins' hk
      obtain ⟨a, b⟩ := h (k + 1) i' ins' (by simpa using hk)
      refine ⟨a, fun j hj => ?_⟩
      have := b j hj
      rw [List.length_append, List.length_singleton]; omega)
    rw [List.append_assoc] at e1 e3
    refine ⟨v :: vals, ?_, by simp [e2], ?_⟩
    · unfold evalNodes
      rw [hv]
      exact e1
    · intro k i' ins' hk
      cases k with
      | zero =>
        have hk' : i = i' ∧ ins = ins' := by simpa using hk
        obtain ⟨rfl, rfl⟩ := hk'
        rw [List.getElem?_cons_zero, ← hv]
        congr 1
        apply List.filterMap_congr
        intro j hj
        have := h0' j hj
        rw [List.getElem?_append_left (by omega)]
      | succ k =>
        rw [List.getElem?_cons_succ]
        exact e3 k i' ins' (by simpa using hk)

/-- **C116** (what a model computes).  The outputs of a model, in terms of which the theorems above are
stated, are the values of its output calls, where an input layer has the value fed to it and another
call the value that its layer computes, with the weights in question, of the values of the calls that
provide its inputs. -/
theorem C116_network {L : Type} (weights : L → String → Option V)
    (compute : L → (String → Option V) → List T → T) (m : KModel L) (hm : Spec.Executable m)
    (feed : Nat → T) :
    ∃ val : List T, val.length = m.nodes.length ∧
      (∀ (k i : Nat) (ins : List Nat), m.nodes[k]? = some (i, ins) →
        (m.layers[i]? = some .input → val[k]? = some (feed i)) ∧
        ∀ l, m.layers[i]? = some (.layer l) →
          val[k]? = some (compute l (weights l) (ins.filterMap (val[·]?)))) ∧
      modelOutput weights compute m feed = some (m.outputs.filterMap (val[·]?)) := by
  obtain ⟨vals, h1, h2, h3⟩ := Aux.evalNodes_spec (callLayer weights compute m.layers feed) m.nodes []
    (by
      intro k i ins hk
      obtain ⟨a, b⟩ := hm.1 k i ins hk
      refine ⟨fun args => ?_, by simpa using b⟩
      obtain ⟨it, hit⟩ : ∃ it, m.layers[i]? = some it := ⟨_, List.getElem?_eq_getElem a⟩
      unfold callLayer
      rw [hit]
      cases it <;> rfl)
  rw [List.nil_append] at h1 h3
  refine ⟨vals, h2, fun k i ins hk => ⟨fun hi => ?_, fun l hl => ?_⟩, ?_⟩
  · rw [h3 k i ins hk]; unfold callLayer; rw [hi]
  · rw [h3 k i ins hk]; unfold callLayer; rw [hl]
  · unfold modelOutput; rw [h1]; rfl

/-! ## Both steps at once -/

/-- A `Dense` or `Conv2D` layer with kernel and bias, or a layer without weights. -/
structure Spec.KernelBias (l : MLayer V T) : Prop extends Spec.Ready l where
  weights : (∃ k b, l.weights = [("kernel", k), ("bias", b)] ∧ (l.cls = .dense ∨ l.cls = .conv2d)) ∨
    (l.weights = [] ∧ ¬ (l.cls = .dense ∨ l.cls = .conv2d))

theorem Aux.svd_layer (alg : Compressor V) (fresh : String → String → V) {l : MLayer V T}
    (h : Spec.KernelBias l) : ∃ w, trainingLayer .svdDifferent alg fresh l = .ok w ∧
      w.compute = l.compute ∧
      ((∃ k b, l.weights = [("kernel", k), ("bias", b)] ∧
        w.wrapped = ⟨[("kernel", alg.init k)], [("bias", b)]⟩) ∨
        (l.weights = [] ∧ w.wrapped = ⟨[], []⟩)) := by
  obtain ⟨s, hs⟩ := Aux.inputShape_ready h.toReady
  unfold trainingLayer
  rw [if_pos h.built, hs]
  dsimp only
  rcases h.weights with ⟨k, b, hw, hc⟩ | ⟨hw, hc⟩
  · have hg : getCompressible .svdDifferent l = [some "kernel"] := by
      unfold getCompressible
      rcases hc with hc | hc <;> simp only [hc]
    have hcd : (l.cls == .dense || l.cls == .conv2d) = true := by
      rcases hc with hc | hc <;> rw [hc] <;> rfl
    rw [hg, hcd, hw]
    refine ⟨⟨⟨[("kernel", alg.init k)], [("bias", b)]⟩, l.compute⟩, ?_, rfl,
      Or.inl ⟨k, b, rfl, rfl⟩⟩
    simp [weightNamesOf, createTraining]
  · have hg : getCompressible .svdDifferent l = [] := by
      unfold getCompressible
      cases hc' : l.cls with
      | dense => exact absurd (Or.inl hc') hc
      | conv2d => exact absurd (Or.inr hc') hc
      | conv1d => rfl
      | other => rfl
    rw [hg, hw]
    exact ⟨⟨⟨[], []⟩, l.compute⟩, rfl, rfl, Or.inr ⟨rfl, rfl⟩⟩

/-- **C116** (`SVD` with different weights for training and inference).  For every model of `Dense`
and `Conv2D` layers with kernel and bias, and layers without weights, `compress_model` returns a
model with the same calls and outputs; for every input it computes what the original network
computes with every kernel replaced by the decompressed compressed kernel. -/
theorem C116_different_partial (shape : V → S) (alg : Compressor V) (fresh : String → String → V)
    (fresh' : Wrapped V → String → V) (hinit : ∀ v, alg.init v ≠ [])
    (hfresh : ∀ w : Wrapped V, (w.inner.map (·.1)).Nodup → ∀ e ∈ w.inner,
      shape (fresh' w e.1) = shape e.2)
    (m : KModel (MLayer V T)) (hk : m.kind ≠ .subclassed)
    (h : Spec.EveryLayer Spec.KernelBias m) :
    ∃ c, compressDifferent shape alg fresh fresh' m = .ok c ∧ c.nodes = m.nodes ∧
      c.outputs = m.outputs ∧ ∀ feed, inferenceOutput alg c feed =
        Spec.withWeights (fun _ n v =>
          if n = "kernel" then alg.decompress (alg.compress (alg.init v)) else v) m feed := by
  obtain ⟨t, h1, hkind, h2, h3, h4⟩ := Aux.cloneModel_ok hk
    (f := trainingLayer .svdDifferent alg fresh)
    (R := fun l w => w.compute = l.compute ∧ ((∃ k b, l.weights = [("kernel", k), ("bias", b)] ∧
        w.wrapped = ⟨[("kernel", alg.init k)], [("bias", b)]⟩) ∨
        (l.weights = [] ∧ w.wrapped = ⟨[], []⟩)))
    fun l hl => Aux.svd_layer alg fresh (h l hl)
  have hmem : ∀ w, Item.layer w ∈ t.layers → Spec.TwoWeights w := by
    intro w hw
    obtain ⟨i, _, hr⟩ := Aux.items_partner h4 hw
    cases hr with
    | layer hr =>
      rcases hr.2 with ⟨k, b, _, e⟩ | ⟨_, e⟩
      · refine ⟨⟨?_, ?_, ?_⟩, ?_⟩ <;> rw [e]
        · exact ⟨["bias"], rfl⟩
        · intro x hx
          rw [List.mem_singleton.1 hx]
          exact hinit k
        · simp
        · simp
      · refine ⟨⟨?_, ?_, ?_⟩, ?_⟩ <;> rw [e] <;> simp
  obtain ⟨c, h5, h6, h7, h8⟩ := C116_inference_partial shape alg fresh' t (by rw [hkind]; exact hk)
    hmem fun w hw => hfresh w.wrapped (List.nodup_append.1 (hmem w hw).distinct).2.1
  refine ⟨c, ?_, by rw [h6, h2], by rw [h7, h3], fun feed => ?_⟩
  · unfold compressDifferent
    have : optimizeModel .svdDifferent alg fresh m = .ok t := h1
    rw [this]
    exact h5
  · rw [h8]
    refine Aux.output_congr h2 h3 (Aux.forall₂_items (fun l w hr => ?_) h4) feed
    rw [hr.1]
    congr 1
    funext n
    rcases hr.2 with ⟨k, b, e1, e2⟩ | ⟨e1, e2⟩
    · rw [e1, e2]
      by_cases hn : n = "kernel"
      · subst hn
        simp
      · have hb : (n == "kernel") = false := by simpa using hn
        simp only [List.lookup_cons, hb, List.lookup_nil, Option.map_none, Option.none_or]
        cases hb' : n == "bias" with
        | false => rfl
        | true => simp [hn]
    · rw [e1, e2]
      rfl

/-! ## The losses of EPR -/

/-- The build of a training wrapper and the entries of its map. -/
theorem Aux.training_map (src : LayerSrc V) (compressible : List String)
    (ho : Spec.Ordinary src compressible) (hs : Spec.NoStale src compressible)
    (hal : Spec.NoAlias src compressible) :
    ∃ l, buildTraining compressible src = .ok l ∧
      (∀ a n, (a, n) ∈ l.map ↔ Spec.IsWeight src compressible a n) ∧ (l.map.map (·.1)).Nodup := by
  obtain ⟨d, hb, hd⟩ := Aux.runBuild_named ho
  have hname := Aux.built_name ho hd hal
  have hdir : dirNames (Aux.builtAttrs compressible src) = dirNames (Spec.attrPlainLayer src) := by
    unfold dirNames; rw [Aux.builtAttrs_keys]
  have hnone : ∀ a, (∀ n, ¬ Spec.IsWeight src compressible a n) →
      (getAttr (Aux.builtAttrs compressible src) a).bind (nameByTensor d) = none := by
    intro a h
    cases hv : (getAttr (Aux.builtAttrs compressible src) a).bind (nameByTensor d) with
    | none => rfl
    | some n => exact absurd (((hname a).2 n).1 hv) (h n)
  obtain ⟨m, hm1, hm2, hm3⟩ := Aux.attrNameMap_spec (Aux.builtAttrs compressible src) d none
    (dirNames (Aux.builtAttrs compressible src)) [] (compressible.getLast?.map some) (by simp) (by
      intro pre b post h hg
      have hg' : getAttr (Spec.attrPlainLayer src) b = none := by
        have := (hname b).1
        rw [hg] at this
        exact Option.isNone_iff_eq_none.1 (by simpa using this.symm)
      rw [List.nil_append, hdir] at h
      obtain ⟨a, ha, hna⟩ := hs pre b post h hg'
      refine ⟨a, ?_, hnone a hna⟩
      rw [← ha]
      congr 1
      apply List.filter_congr
      intro x _
      exact (hname x).1)
  refine ⟨⟨Aux.builtAttrs compressible src, m⟩, ?_, ?_, ?_⟩
  · unfold buildTraining
    rw [hb]
    dsimp only
    rw [if_pos]
    · change (match attrNameMap (Aux.builtAttrs compressible src) d
        (dirNames (Aux.builtAttrs compressible src)) (compressible.getLast?.map some) with
        | .error e => Except.error e
        | .ok m => Except.ok (TrainingLayer.mk (Aux.builtAttrs compressible src) m)) = _
      rw [hm1]
    · rw [List.all_eq_true]
      intro n hn
      obtain ⟨attr, c, hc, hcn, _⟩ := ho.all n hn
      obtain ⟨i, hi⟩ := List.mem_iff_getElem?.1 hc
      exact List.lookup_isSome_iff.2 ⟨(n, i), (hd n i).2 ⟨_, hi, hcn, hn⟩, by simp⟩
  · intro a n
    dsimp only
    rw [hm2, (hname a).2]
    constructor
    · exact fun h => h.2
    · intro h
      refine ⟨?_, h⟩
      obtain ⟨k, hk, _⟩ := Aux.built_weight ho hd h
      unfold dirNames
      rw [List.mem_insertionSort]
      exact List.mem_map_of_mem (f := (·.1)) (Aux.lookup_mem hk)
  · refine hm3.nodup ?_
    unfold dirNames
    rw [(List.perm_insertionSort _ _).nodup_iff, Aux.builtAttrs_keys]
    exact ho.attrs

theorem Aux.once {src : LayerSrc V} {compressible : List String}
    (ho : Spec.Ordinary src compressible) (hn : compressible.Nodup) {map : List (String × String)}
    (hm : ∀ a n, (a, n) ∈ map ↔ Spec.IsWeight src compressible a n)
    (hd : (map.map (·.1)).Nodup) : (map.map (·.2)).Perm compressible := by
  have huniq : ∀ a b n, Spec.IsWeight src compressible a n → Spec.IsWeight src compressible b n →
      a = b := by
    rintro a b n ⟨c, hc, hcn, hin⟩ ⟨c', hc', hcn', _⟩
    obtain ⟨i, hi⟩ := List.mem_iff_getElem?.1 hc
    obtain ⟨j, hj⟩ := List.mem_iff_getElem?.1 hc'
    have hij := ho.names i j _ _ n hi hj hin hcn hcn'
    subst hij
    rw [hi] at hj
    injection hj with hj
    exact (Prod.mk.inj hj).1
  refine (List.perm_ext_iff_of_nodup ?_ hn).2 fun n => ?_
  · rw [List.nodup_map_iff_inj_on (List.Nodup.of_map _ hd)]
    rintro ⟨a, n⟩ ha ⟨b, n'⟩ hb e
    obtain rfl : n = n' := e
    rw [huniq a b n ((hm a n).1 ha) ((hm b n).1 hb)]
  · rw [List.mem_map]
    constructor
    · rintro ⟨⟨a, n'⟩, h, rfl⟩
      obtain ⟨c, _, _, h'⟩ := (hm a n').1 h
      exact h'
    · intro h
      obtain ⟨a, ha⟩ := ho.all n h
      exact ⟨(a, n), (hm a n).2 ha, rfl⟩

/-- A layer as EPR trains it: the code of the layer, its compressible weights and the values of its
training weights, by name. -/
structure Spec.EprLayer (V : Type) where
  src : LayerSrc V
  compressible : List String
  values : String → List V
  distinct : compressible.Nodup
  ordinary : Spec.Ordinary src compressible
  noStale : Spec.NoStale src compressible
  noAlias : Spec.NoAlias src compressible

/-- **C116** (EPR losses).  The losses that `get_training_model` adds sum up to the regularization
weight times the sum of the penalties of all compressible weights of all layers, each counted once.

Partial: for layers as in `C105_training_partial`. -/
theorem C116_loss_partial [Field α] (weight : α) (penalty : List V → α)
    (layers : List (Spec.EprLayer V)) :
    ∃ built : List (TrainingLayer V), List.Forall₂ (fun l b =>
        buildTraining l.compressible l.src = .ok b) layers built ∧
      (eprLosses weight penalty (built.zip (layers.map (·.values)))).sum =
        weight * (layers.map fun l => (l.compressible.map fun n => penalty (l.values n)).sum).sum := by
  induction layers with
  | nil => exact ⟨[], .nil, by simp [eprLosses]⟩
  | cons l ls ih =>
    obtain ⟨bs, h1, h2⟩ := ih
    obtain ⟨b, hb, hm, hd⟩ := Aux.training_map l.src l.compressible l.ordinary l.noStale l.noAlias
    refine ⟨b :: bs, .cons hb h1, ?_⟩
    have hp := Aux.once l.ordinary l.distinct hm hd
    have hsum : (b.map.map fun e => weight * penalty (l.values e.2)).sum =
        weight * (l.compressible.map fun n => penalty (l.values n)).sum := by
      rw [List.sum_map_mul_left]
      congr 1
      have := (hp.map fun n => penalty (l.values n)).sum_eq
      rw [List.map_map] at this
      exact this
    unfold eprLosses at h2 ⊢
    rw [List.map_cons, List.zip_cons_cons, List.flatMap_cons, List.sum_append, h2]
    dsimp only
    rw [hsum, List.map_cons, List.sum_cons, mul_add]

/-! ## Examples -/

namespace Example

/-- `kernel * x + bias`. -/
def wholeDense (weights : String → Option ℚ) (args : List ℚ) : ℚ :=
  (weights "kernel").getD 0 * args.headD 0 + (weights "bias").getD 0

/-- A normalization: `gamma * x`. -/
def wholeNorm (weights : String → Option ℚ) (args : List ℚ) : ℚ :=
  (weights "gamma").getD 0 * args.headD 0

/-- Addition. -/
def wholeAdd (_ : String → Option ℚ) (args : List ℚ) : ℚ := args.sum

def wholeLayer (name : String) : MLayer ℚ ℚ :=
  ⟨name, .dense, true, [[1]], [("kernel", 3), ("bias", 5)], wholeDense⟩

def wholePlus : MLayer ℚ ℚ := ⟨"add", .other, true, [[1]], [], wholeAdd⟩

def wholeGamma : MLayer ℚ ℚ := ⟨"norm", .other, true, [[1]], [("gamma", 7)], wholeNorm⟩

/-- A layer that is called twice, and the sum of both results. -/
def wholeModel : KModel (MLayer ℚ ℚ) :=
  ⟨.functional, [.input, .layer (wholeLayer "a"), .layer wholePlus],
    [(0, []), (1, [0]), (1, [1]), (2, [1, 2])], [3]⟩

/-- A layer and a normalization. -/
def wholeNormModel : KModel (MLayer ℚ ℚ) :=
  ⟨.sequential, [.input, .layer (wholeLayer "a"), .layer wholeGamma],
    [(0, []), (1, [0]), (2, [1])], [2]⟩

/-- Two halves for training, one number for inference. -/
def wholeHalves : Compressor ℚ := ⟨fun v => [v / 2, v / 2], List.sum, fun l => [l.sum], List.sum⟩

theorem whole_ready (l : MLayer ℚ ℚ) (hb : l.built = true) (hs : l.inputShapes = [[1]]) :
    Spec.Ready l := ⟨hb, [1], by simp [hs], by simp [hs]⟩

end Example

/-- The hypotheses of `C116_training_partial` hold for a model with a shared layer. -/
example (a : Shipped) : Example.wholeModel.kind ≠ .subclassed ∧
    Spec.EveryLayer (Spec.Handled a) Example.wholeModel ∧
    Spec.EveryLayer (fun l => ¬ (l.cls = .dense ∨ l.cls = .conv2d) → l.weights = [])
      Example.wholeModel := by
  refine ⟨by decide, ?_, ?_⟩
  · intro l hl
    have : l = Example.wholeLayer "a" ∨ l = Example.wholePlus := by
      simpa [Example.wholeModel] using hl
    rcases this with rfl | rfl
    · exact ⟨Example.whole_ready _ rfl rfl, by simp [Example.wholeLayer],
        by simp [Example.wholeLayer], by simp [Example.wholeLayer]⟩
    · exact ⟨Example.whole_ready _ rfl rfl, by simp [Example.wholePlus],
        by simp [Example.wholePlus], by simp [Example.wholePlus]⟩
  · intro l hl
    have : l = Example.wholeLayer "a" ∨ l = Example.wholePlus := by
      simpa [Example.wholeModel] using hl
    rcases this with rfl | rfl
    · simp [Example.wholeLayer]
    · simp [Example.wholePlus]

/-- The hypotheses of `C116_different_partial` hold for it too. -/
example : Spec.EveryLayer Spec.KernelBias Example.wholeModel ∧
    (∀ v, Example.wholeHalves.init v ≠ []) := by
  refine ⟨?_, by simp [Example.wholeHalves]⟩
  intro l hl
  have : l = Example.wholeLayer "a" ∨ l = Example.wholePlus := by
    simpa [Example.wholeModel] using hl
  rcases this with rfl | rfl
  · exact ⟨Example.whole_ready _ rfl rfl, Or.inl ⟨3, 5, rfl, Or.inl rfl⟩⟩
  · exact ⟨Example.whole_ready _ rfl rfl, Or.inr ⟨rfl, by simp [Example.wholePlus]⟩⟩

/-- What it computes: `(3 * 2 + 5) + (3 * (3 * 2 + 5) + 5) = 49`. -/
example : MLayer.output Example.wholeModel (fun _ => 2) = some [49] := by decide +kernel

/-- It meets the hypothesis of `C116_network`, has one input layer and two parameters. -/
example : Spec.Executable Example.wholeModel ∧
    Example.wholeModel.layers.length = (Spec.realLayers Example.wholeModel).length + 1 ∧
    Spec.parameterCount (fun _ => 1) Example.wholeModel = 2 := by
  refine ⟨⟨?_, by simp [Example.wholeModel]⟩, rfl, rfl⟩
  intro k i ins h
  rcases k with _ | _ | _ | _ | k <;> simp [Example.wholeModel] at h <;> obtain ⟨rfl, rfl⟩ := h <;>
    simp [Example.wholeModel]

/-- The hypotheses of `C116_loss_partial` can be met. -/
example : Spec.EprLayer Nat :=
  ⟨Example.attrDense, ["kernel"], fun _ => [1], by simp, Example.attrDense_ordinary,
    Example.attrDense_noStale, Example.attrDense_noAlias⟩

/-- **C116** (violated: layers of other classes).  A model with a normalization, every layer of which
is built and handled, does not compute the same after `optimize_model` with a lossless algorithm:
the trained `gamma` is lost. -/
theorem C116_weights_violated : ∃ (m : KModel (MLayer ℚ ℚ)) (alg : Compressor ℚ) (t : _),
    (∀ v, alg.project (alg.init v) = v) ∧ Spec.EveryLayer (Spec.Handled .svdSame) m ∧
      optimizeModel .svdSame alg (fun _ _ => 1) m = .ok t ∧
      MLayer.output m (fun _ => 2) = some [77] ∧ trainingOutput alg t (fun _ => 2) = some [11] := by
  have hh : Spec.EveryLayer (Spec.Handled .svdSame) Example.wholeNormModel := by
    intro l hl
    have : l = Example.wholeLayer "a" ∨ l = Example.wholeGamma := by
      simpa [Example.wholeNormModel] using hl
    rcases this with rfl | rfl
    · exact ⟨Example.whole_ready _ rfl rfl, by simp [Example.wholeLayer],
        by simp [Example.wholeLayer], by simp [Example.wholeLayer]⟩
    · exact ⟨Example.whole_ready _ rfl rfl, by simp [Example.wholeGamma],
        by simp [Example.wholeGamma], by simp [Example.wholeGamma]⟩
  refine ⟨Example.wholeNormModel, Example.wholeHalves, _, ?_, hh, rfl, ?_, ?_⟩
  · intro v
    simp [Example.wholeHalves]
  · decide +kernel
  · decide +kernel

end Verif.Props
