import Verif.Quant.Config
import Mathlib.Data.List.Basic

/-!
# Properties C59 and C82: the default quantize registries
-/

set_option linter.unusedSectionVars false
namespace Verif.Props
open Verif.Quant Verif.Quant.Config

/-! ## Specification -/

/-- Every quantizer the config gives to a layer, of any kind, has the expected number of bits. -/
def Spec.UsesBits (bw ba : ℕ) (c : Config) : Prop :=
  ∀ (W A : Type) (name : A → ActName) (l : KLayer W A),
    (∀ ws, c.getWeights l = .ok ws → ∀ p ∈ ws, p.2.cfg.numBits = bw) ∧
    (∀ as, c.getActivations l = .ok as → ∀ p ∈ as, p.2.cfg.numBits = ba) ∧
    (∀ os, c.getOutput name l = .ok os → ∀ q ∈ os, q.cfg.numBits = ba)

/-- Layers with a kernel and an activation. -/
def Spec.kernelClasses : List String := ["Dense", "Conv2D", "Conv2DTranspose", "DepthwiseConv2D"]

/-- Layers whose output is quantized. -/
def Spec.outputClasses : List String := ["ReLU", "LeakyReLU", "Concatenate", "UpSampling2D",
  "AveragePooling1D", "AveragePooling2D", "GlobalAveragePooling1D", "GlobalAveragePooling2D",
  "GlobalAveragePooling3D", "Add"]

/-- Layers that are supported without any quantization of their own. -/
def Spec.passClasses : List String := ["Softmax", "Cropping1D", "Cropping2D", "Cropping3D",
  "ZeroPadding1D", "ZeroPadding2D", "ActivityRegularization", "Dropout", "Flatten", "Permute", "Reshape",
  "SpatialDropout1D", "SpatialDropout2D", "SpatialDropout3D", "GlobalMaxPooling1D", "GlobalMaxPooling2D",
  "GlobalMaxPooling3D", "MaxPooling2D"]

/-- All supported classes. -/
def Spec.SupportedClass (cls : String) : Prop :=
  cls ∈ Spec.kernelClasses ∨ cls ∈ Spec.outputClasses ∨ cls ∈ Spec.passClasses ∨ cls = "Activation"

/-- The attribute with the kernel. -/
def Spec.kernelAttr (cls : String) : String := if cls = "DepthwiseConv2D" then "depthwise_kernel" else "kernel"

/-- The quantizer for activations and outputs: a moving average over batches, per tensor, asymmetric,
with the full range. -/
def Spec.ActivationQuantizer (bits : ℕ) (q : Quantizer) : Prop :=
  q.cls = .movingAverage ∧ q.cfg = ⟨bits, false, false, false⟩

/-- The quantizer for the kernel of a layer of a class: the range of the last kernel, symmetric,
narrow, per channel for (depthwise) convolutions unless that is disabled. -/
def Spec.KernelQuantizer (bits : ℕ) (disablePerAxis : Bool) (cls : String) (q : Quantizer) : Prop :=
  q.cls.kind = .lastValue ∧ q.cfg.numBits = bits ∧ q.cfg.symmetric = true ∧ q.cfg.narrow = true ∧
  (q.cfg.perAxis = true ↔ (cls = "Conv2D" ∨ cls = "DepthwiseConv2D") ∧ disablePerAxis = false)

/-- The documented treatment of the layers of a class: what `get_weights_and_quantizers`,
`get_activations_and_quantizers` and `get_output_quantizers` of the config return.  `relus` are the
activation functions after which the output of an `Activation` layer is quantized. -/
def Spec.Documented (bw ba : ℕ) (disablePerAxis : Bool) (relus : List String) (cls : String)
    (c : Config) : Prop :=
  ∀ (W A : Type) (name : A → ActName) (l : KLayer W A), l.own.cls = cls →
    (cls ∈ Spec.kernelClasses → ∀ w a, l.own.weight (Spec.kernelAttr cls) = some w →
      l.own.activation "activation" = some a → ∃ qw qa,
        Spec.KernelQuantizer bw disablePerAxis cls qw ∧ Spec.ActivationQuantizer ba qa ∧
        c.getWeights l = .ok [(w, qw)] ∧ c.getActivations l = .ok [(a, qa)] ∧ c.getOutput name l = .ok []) ∧
    (cls ∉ Spec.kernelClasses → c.getWeights l = .ok [] ∧ c.getActivations l = .ok []) ∧
    (cls ∈ Spec.outputClasses → ∃ q, Spec.ActivationQuantizer ba q ∧ c.getOutput name l = .ok [q]) ∧
    (cls ∈ Spec.passClasses → c.getOutput name l = .ok []) ∧
    (cls = "Activation" → ∀ a, l.own.activation "activation" = some a →
      (∀ n, name a = some n → n ∈ relus → ∃ q, Spec.ActivationQuantizer ba q ∧ c.getOutput name l = .ok [q]) ∧
      (∀ n, name a = some n → n ∈ ["linear", "softmax", "sigmoid", "tanh"] → c.getOutput name l = .ok []) ∧
      ((∀ n, name a = some n → n ∉ relus ++ ["linear", "softmax", "sigmoid", "tanh"]) →
        c.getOutput name l = .error .value))

/-! ## Lemmas -/

theorem Aux.usesBits_mk (nBit : Bool) (cls : CClass) (w a : List AttrVal) (out : Bool) (bw ba : ℕ) :
    Spec.UsesBits (if nBit then bw else 8) (if nBit then ba else 8) (.dflt (.mk' nBit cls w a out bw ba)) := by
  intro W A name l
  have hw : (DConfig.mk' nBit cls w a out bw ba).weightQuantizer.cfg.numBits = (if nBit then bw else 8) := by
    cases cls <;> rfl
  have ha : (DConfig.mk' nBit cls w a out bw ba).activationQuantizer.cfg.numBits = (if nBit then ba else 8) := rfl
  refine ⟨?_, ?_, ?_⟩
  · intro ws h p hp
    simp only [Config.getWeights, DConfig.getWeights] at h
    cases hg : getAttrs (DConfig.mk' nBit cls w a out bw ba).cls Cell.weight
        (DConfig.mk' nBit cls w a out bw ba).weightAttrs l with
    | error e => rw [hg] at h; simp [Except.map] at h
    | ok xs =>
      rw [hg] at h
      simp only [Except.map, Except.ok.injEq] at h
      subst h
      obtain ⟨x, -, rfl⟩ := List.mem_map.1 hp
      exact hw
  · intro ws h p hp
    simp only [Config.getActivations, DConfig.getActivations] at h
    cases hg : getAttrs (DConfig.mk' nBit cls w a out bw ba).cls Cell.activation
        (DConfig.mk' nBit cls w a out bw ba).activationAttrs l with
    | error e => rw [hg] at h; simp [Except.map] at h
    | ok xs =>
      rw [hg] at h
      simp only [Except.map, Except.ok.injEq] at h
      subst h
      obtain ⟨x, -, rfl⟩ := List.mem_map.1 hp
      exact ha
  · intro os h q hq
    simp only [Config.getOutput, DConfig.getOutput, Except.ok.injEq] at h
    split at h
    · subst h
      rw [List.mem_singleton] at hq
      rw [hq]; exact ha
    · subst h; simp at hq

theorem Aux.usesBits_activation (nBit : Bool) (bw bits : ℕ) (out : Bool) :
    Spec.UsesBits bw bits (.activation nBit bits out) := by
  intro W A name l
  refine ⟨?_, ?_, ?_⟩
  · intro ws h p hp
    simp only [Config.getWeights] at h
    cases hg : assertActivation l with
    | error e => rw [hg] at h; simp [Except.map] at h
    | ok u => rw [hg] at h; simp only [Except.map, Except.ok.injEq] at h; subst h; simp at hp
  · intro ws h p hp
    simp only [Config.getActivations] at h
    cases hg : assertActivation l with
    | error e => rw [hg] at h; simp [Except.map] at h
    | ok u => rw [hg] at h; simp only [Except.map, Except.ok.injEq] at h; subst h; simp at hp
  · intro os h q hq
    simp only [Config.getOutput] at h
    split at h
    · simp at h
    split at h
    · simp only [Except.ok.injEq] at h; subst h; simp at hq
    split at h
    · simp at h
    split at h
    · simp at h
    split at h
    · simp only [Except.ok.injEq] at h; subst h
      rw [List.mem_singleton] at hq
      rw [hq]
    split at h
    · simp only [Except.ok.injEq] at h; subst h; simp at hq
    · simp at h

/-- The classes whose config a registry stores. -/
def Aux.ownClasses : List String := ["Activation", "Conv2DTranspose", "Conv2D", "DepthwiseConv2D"]

theorem Aux.lookup_own (r : Registry) (cls : String) (h : cls ∈ Aux.ownClasses) :
    ∃ c, r.lookup cls = some (.config c) ∧
      Spec.UsesBits (if r.nBit then r.bitsWeight else 8) (if r.nBit then r.bitsActivation else 8) c := by
  simp only [Aux.ownClasses, List.mem_cons, List.not_mem_nil, or_false] at h
  rcases h with rfl | rfl | rfl | rfl
  · exact ⟨_, rfl, Aux.usesBits_activation _ _ _ _⟩
  · exact ⟨_, rfl, Aux.usesBits_mk _ _ _ _ _ _ _⟩
  · exact ⟨_, rfl, Aux.usesBits_mk _ _ _ _ _ _ _⟩
  · exact ⟨_, rfl, Aux.usesBits_mk _ _ _ _ _ _ _⟩

theorem Aux.lookup_other (r : Registry) (cls : String) (h : cls ∉ Aux.ownClasses) :
    r.lookup cls = (layerQuantizeInfo.lookup cls).map fun e => .info e.1 e.2.1 e.2.2 := by
  simp only [Aux.ownClasses, List.mem_cons, List.not_mem_nil, or_false, not_or] at h
  simp only [Registry.lookup, h, if_false]

/-- What a registry returns. -/
theorem Aux.getConfig_cases {W A : Type*} {shared : ℕ × ℕ} {r : Registry} {l : KLayer W A} {c : Config}
    (h : r.getConfig shared l = .ok c) :
    (l.own.cls ∈ Aux.ownClasses ∧ r.lookup l.own.cls = some (.config c)) ∨
    (l.own.cls ∉ Aux.ownClasses ∧ ∃ w a out, layerQuantizeInfo.lookup l.own.cls = some (w, a, out) ∧
      c = .dflt (.mk' r.nBit .plain (w.map .one) (a.map .one) out shared.1 shared.2)) ∨
    (r.lookup l.own.cls = none ∧ isRNN l.own.cls = true ∧ ∃ w a,
      c = .dflt (.mk' r.nBit .rnn w a false r.bitsWeight r.bitsActivation)) := by
  rw [Registry.getConfig] at h
  split at h
  · simp at h
  rename_i hs
  by_cases hown : l.own.cls ∈ Aux.ownClasses
  · obtain ⟨c', hc', -⟩ := Aux.lookup_own r _ hown
    rw [hc'] at h
    simp only [Except.ok.injEq] at h
    exact Or.inl ⟨hown, by rw [hc', h]⟩
  · cases hl : layerQuantizeInfo.lookup l.own.cls with
    | some e =>
      have := Aux.lookup_other r _ hown
      rw [hl] at this
      rw [this] at h
      simp only [Option.map_some, Except.ok.injEq] at h
      exact Or.inr (Or.inl ⟨hown, e.1, e.2.1, e.2.2, rfl, h.symm⟩)
    | none =>
      have := Aux.lookup_other r _ hown
      rw [hl] at this
      simp only [Option.map_none] at this
      rw [this] at h
      simp only at h
      split at h
      · simp at h
      · simp only [Except.ok.injEq] at h
        refine Or.inr (Or.inr ⟨this, ?_, _, _, h.symm⟩)
        simp only [Registry.supports, this, Option.isSome_none, Bool.false_eq_true, if_false,
          Bool.not_eq_true', Bool.not_eq_false] at hs
        by_contra hr
        simp [hr] at hs

theorem Aux.foldl_shared (rs : List Registry) (p : Process)
    (h : ∀ r ∈ rs, r.nBit = true → (r.bitsWeight, r.bitsActivation) = p.shared) :
    (rs.foldl Process.construct p).shared = p.shared := by
  induction rs generalizing p with
  | nil => rfl
  | cons r rs ih =>
    have hp : (p.construct r).shared = p.shared := by
      simp only [Process.construct]
      split
      · rename_i hn; exact h r (by simp) hn
      · rfl
    rw [List.foldl_cons, ih, hp]
    intro r' hr' hn
    rw [hp]; exact h r' (by simp [hr']) hn

theorem Aux.shared_eq (pre post : List Registry) (r : Registry) (hn : r.nBit = true)
    (h : ∀ r' ∈ post, r'.nBit = true → r'.bitsWeight = r.bitsWeight ∧ r'.bitsActivation = r.bitsActivation) :
    (Process.run (pre ++ r :: post)).shared = (r.bitsWeight, r.bitsActivation) := by
  rw [Process.run, List.foldl_append, List.foldl_cons]
  have : ((pre.foldl Process.construct Process.init).construct r).shared = (r.bitsWeight, r.bitsActivation) := by
    simp [Process.construct, hn]
  rw [Aux.foldl_shared, this]
  intro r' hr' hn'
  rw [this, (h r' hr' hn').1, (h r' hr' hn').2]

/-! ## C59 -/

/-- C59, with the condition the code needs: after the registry no n-bit registry with other numbers of
bits is constructed.  (In full: without that condition; see `C59_violated`.) -/
theorem C59_bits_partial (pre post : List Registry) (r : Registry) (hn : r.nBit = true)
    (hlater : ∀ r' ∈ post, r'.nBit = true →
      r'.bitsWeight = r.bitsWeight ∧ r'.bitsActivation = r.bitsActivation)
    {W A : Type*} (l : KLayer W A) (c : Config)
    (hc : r.getConfig (Process.run (pre ++ r :: post)).shared l = .ok c) :
    Spec.UsesBits r.bitsWeight r.bitsActivation c := by
  rw [Aux.shared_eq pre post r hn hlater] at hc
  rcases Aux.getConfig_cases hc with ⟨hown, h⟩ | ⟨-, w, a, out, -, rfl⟩ | ⟨-, -, w, a, rfl⟩
  · obtain ⟨c', hc', hu⟩ := Aux.lookup_own r _ hown
    rw [hc'] at h
    simp only [Option.some.injEq, Entry.config.injEq] at h
    rw [← h]
    simpa [hn] using hu
  · simpa [hn] using Aux.usesBits_mk r.nBit .plain (w.map .one) (a.map .one) out r.bitsWeight r.bitsActivation
  · simpa [hn] using Aux.usesBits_mk r.nBit .rnn w a false r.bitsWeight r.bitsActivation

/-- C59 for the layers whose config the registry makes itself: whatever other registries were
constructed, before or after. -/
theorem C59_own (rs : List Registry) (r : Registry) (hn : r.nBit = true) {W A : Type*} (l : KLayer W A)
    (hl : l.own.cls ∈ ["Activation", "Conv2D", "DepthwiseConv2D", "Conv2DTranspose"]) (c : Config)
    (hc : r.getConfig (Process.run rs).shared l = .ok c) :
    Spec.UsesBits r.bitsWeight r.bitsActivation c := by
  have hown : l.own.cls ∈ Aux.ownClasses := by
    simp only [Aux.ownClasses, List.mem_cons, List.not_mem_nil, or_false] at hl ⊢; tauto
  rcases Aux.getConfig_cases hc with ⟨-, h⟩ | ⟨h, -⟩ | ⟨h, -⟩
  · obtain ⟨c', hc', hu⟩ := Aux.lookup_own r _ hown
    rw [hc'] at h
    simp only [Option.some.injEq, Entry.config.injEq] at h
    rw [← h]
    simpa [hn] using hu
  · exact absurd hown h
  · obtain ⟨c', hc', -⟩ := Aux.lookup_own r _ hown
    rw [hc'] at h; simp at h

/-- What the code does for all other layers (but recurrent ones): every n-bit registry hands out the
bits of the n-bit registry constructed last. -/
theorem C59_last_wins (pre post : List Registry) (last : Registry) (hlast : last.nBit = true)
    (hpost : ∀ r ∈ post, r.nBit = false) (r : Registry) (hn : r.nBit = true) {W A : Type*} (l : KLayer W A)
    (hl : l.own.cls ∉ ["Activation", "Conv2D", "DepthwiseConv2D", "Conv2DTranspose",
      "GRU", "LSTM", "RNN", "SimpleRNN"]) (c : Config)
    (hc : r.getConfig (Process.run (pre ++ last :: post)).shared l = .ok c) :
    Spec.UsesBits last.bitsWeight last.bitsActivation c := by
  rw [Aux.shared_eq pre post last hlast (fun r hr hn => by rw [hpost r hr] at hn; simp at hn)] at hc
  simp only [List.mem_cons, List.not_mem_nil, or_false, not_or] at hl
  rcases Aux.getConfig_cases hc with ⟨hown, h⟩ | ⟨-, w, a, out, -, rfl⟩ | ⟨-, h, -⟩
  · simp only [Aux.ownClasses, List.mem_cons, List.not_mem_nil, or_false] at hown; tauto
  · simpa [hn] using Aux.usesBits_mk r.nBit .plain (w.map .one) (a.map .one) out last.bitsWeight last.bitsActivation
  · simp only [isRNN, List.mem_cons, List.not_mem_nil, or_false, decide_eq_true_eq] at h; tauto

/-- C59 for the 8-bit registry: 8 bits after every history. -/
theorem C59_eight (rs : List Registry) (r : Registry) (hn : r.nBit = false) {W A : Type*} (l : KLayer W A)
    (c : Config) (hc : r.getConfig (Process.run rs).shared l = .ok c) : Spec.UsesBits 8 8 c := by
  rcases Aux.getConfig_cases hc with ⟨hown, h⟩ | ⟨-, w, a, out, -, rfl⟩ | ⟨-, -, w, a, rfl⟩
  · obtain ⟨c', hc', hu⟩ := Aux.lookup_own r _ hown
    rw [hc'] at h
    simp only [Option.some.injEq, Entry.config.injEq] at h
    rw [← h]
    simpa [hn] using hu
  · simpa [hn] using Aux.usesBits_mk r.nBit .plain (w.map .one) (a.map .one) out _ _
  · simpa [hn] using Aux.usesBits_mk r.nBit .rnn w a false r.bitsWeight r.bitsActivation

namespace Example

/-- A dense layer. -/
def denseLayer : KLayer ℕ String :=
  ⟨⟨"Dense", fun s => if s = "kernel" then some 7 else none,
    fun s => if s = "activation" then some "relu" else none⟩, none⟩

end Example

open Example in
/-- C59 fails: after `DefaultNBitQuantizeRegistry(num_bits_weight=4)` and
`DefaultNBitQuantizeRegistry(num_bits_weight=8)` the first one quantizes kernels of dense layers with
8 bits. -/
theorem C59_violated : ∃ (rs : List Registry) (r : Registry) (c : Config) (w : ℕ) (q : Quantizer),
    r ∈ rs ∧ r.nBit = true ∧ r.getConfig (Process.run rs).shared denseLayer = .ok c ∧
    c.getWeights denseLayer = .ok [(w, q)] ∧ q.cfg.numBits ≠ r.bitsWeight :=
  ⟨[⟨true, false, 4, 4⟩, ⟨true, false, 8, 8⟩], ⟨true, false, 4, 4⟩, _, 7, ⟨.lastValue, ⟨8, false, true, true⟩⟩,
    by simp, rfl, rfl, rfl, by decide⟩

open Example in
/-- The hypotheses of `C59_bits_partial` are met, and it says something about kernels. -/
example : ∃ c, (⟨true, false, 4, 6⟩ : Registry).getConfig
    (Process.run ([⟨true, false, 8, 8⟩] ++ ⟨true, false, 4, 6⟩ :: [⟨false, false, 8, 8⟩, ⟨true, true, 4, 6⟩])).shared
    denseLayer = .ok c ∧
    c.getWeights denseLayer = .ok [(7, ⟨.lastValue, ⟨4, false, true, true⟩⟩)] ∧
    c.getActivations denseLayer = .ok [("relu", ⟨.movingAverage, ⟨6, false, false, false⟩⟩)] :=
  ⟨_, rfl, rfl, rfl⟩

/-! ## C82 -/

theorem Aux.lookup_isSome {β : Type*} (l : List (String × β)) (x : String) :
    (l.lookup x).isSome = true ↔ x ∈ l.map Prod.fst := by
  induction l with
  | nil => simp
  | cons e l ih =>
    obtain ⟨k, v⟩ := e
    rw [List.lookup_cons]
    by_cases h : x = k
    · subst h; simp
    · have : (x == k) = false := by simpa using h
      rw [this]
      simp only [List.map_cons, List.mem_cons, h, false_or]
      exact ih

theorem Aux.lookup_supported (r : Registry) (cls : String) :
    (r.lookup cls).isSome = true ↔ Spec.SupportedClass cls := by
  by_cases hown : cls ∈ Aux.ownClasses
  · obtain ⟨c, hc, -⟩ := Aux.lookup_own r cls hown
    simp only [hc, Option.isSome_some, true_iff]
    simp only [Aux.ownClasses, List.mem_cons, List.not_mem_nil, or_false] at hown
    rcases hown with rfl | rfl | rfl | rfl
    · exact Or.inr (Or.inr (Or.inr rfl))
    · exact Or.inl (by decide)
    · exact Or.inl (by decide)
    · exact Or.inl (by decide)
  · rw [Aux.lookup_other r cls hown, Option.isSome_map, Aux.lookup_isSome]
    constructor
    · intro h
      have : ∀ x ∈ layerQuantizeInfo.map Prod.fst, x ∈ Spec.kernelClasses ++ Spec.outputClasses ++ Spec.passClasses := by
        decide
      have := this cls h
      simp only [List.mem_append] at this
      rcases this with (h | h) | h
      · exact Or.inl h
      · exact Or.inr (Or.inl h)
      · exact Or.inr (Or.inr (Or.inl h))
    · have : ∀ x ∈ Spec.kernelClasses ++ Spec.outputClasses ++ Spec.passClasses, x ∉ Aux.ownClasses →
          x ∈ layerQuantizeInfo.map Prod.fst := by decide
      rintro (h | h | h | rfl)
      · exact this cls (by simp [h]) hown
      · exact this cls (by simp [h]) hown
      · exact this cls (by simp [h]) hown
      · exact absurd (by decide) hown

/-- C82: the registries support exactly the documented classes, and recurrent layers all of whose
cells are of supported classes. -/
theorem C82_supports (r : Registry) {W A : Type*} (l : KLayer W A) :
    r.supports l = true ↔ Spec.SupportedClass l.own.cls ∨
      (l.own.cls ∈ ["GRU", "LSTM", "RNN", "SimpleRNN"] ∧
        ∃ cs, l.cells = some cs ∧ ∀ c ∈ cs, Spec.SupportedClass c.cls) := by
  rw [Registry.supports]
  by_cases h : (r.lookup l.own.cls).isSome = true
  · rw [if_pos h]
    simp [(Aux.lookup_supported r _).1 h]
  · rw [if_neg h]
    have h' : ¬ Spec.SupportedClass l.own.cls := fun h' => h ((Aux.lookup_supported r _).2 h')
    simp only [h', false_or]
    by_cases hr : isRNN l.own.cls = true
    · have hr' : l.own.cls ∈ ["GRU", "LSTM", "RNN", "SimpleRNN"] := by simpa [isRNN] using hr
      rw [if_pos hr]
      cases hcs : l.cells with
      | none => simp
      | some cs => simp [hr', Aux.lookup_supported]
    · have hr' : l.own.cls ∉ ["GRU", "LSTM", "RNN", "SimpleRNN"] := by simpa [isRNN] using hr
      rw [if_neg hr]
      simp [hr']

/-- C82: `get_quantize_config` raises a `ValueError` exactly for unsupported layers. -/
theorem C82_unsupported (shared : ℕ × ℕ) (r : Registry) {W A : Type*} (l : KLayer W A) :
    r.getConfig shared l = .error .value ↔ r.supports l = false := by
  constructor
  · intro h
    by_contra hs
    simp only [Bool.not_eq_false] at hs
    rw [Registry.getConfig] at h
    simp only [hs, Bool.not_true, Bool.false_eq_true, if_false] at h
    split at h
    · simp at h
    · simp at h
    · split at h
      · rename_i e he
        have : ∀ cs e, r.rnnAttrs cs = .error e → e = .attribute := by
          intro cs
          induction cs with
          | nil => simp [Registry.rnnAttrs]
          | cons c cs ih =>
            intro e he
            rw [Registry.rnnAttrs] at he
            split at he
            · rename_i e' he'
              simp only [Except.error.injEq] at he
              subst he
              rw [Registry.cellAttrs] at he'
              split at he' <;> simp at he' <;> exact he'.symm
            · split at he
              · rename_i e' he'
                simp only [Except.error.injEq] at he
                subst he
                exact ih _ he'
              · simp at he
        rw [this _ _ he] at h
        simp at h
      · simp at h
  · intro h
    simp [Registry.getConfig, h]

/-- C82: for every layer of a supported class there is a config, and it treats the layers of that class
as documented: it quantizes the kernel and the activation of dense and convolutional layers, the
output of the listed layers and of `Activation` layers with one of the listed functions, nothing else,
and rejects `Activation` layers with an unknown function.  The bits are those the registry has been
given, unless another n-bit registry was constructed since (C59). -/
theorem C82_documented (shared : ℕ × ℕ) (r : Registry)
    (hsh : r.nBit = true → shared = (r.bitsWeight, r.bitsActivation)) {W A : Type*} (l : KLayer W A)
    (hl : Spec.SupportedClass l.own.cls) :
    ∃ c, r.getConfig shared l = .ok c ∧
      Spec.Documented (if r.nBit then r.bitsWeight else 8) (if r.nBit then r.bitsActivation else 8)
        r.disablePerAxis (if r.nBit then ["relu", "relu6", "swish"] else ["relu", "swish", "gelu", "relu6"])
        l.own.cls c := by
  have hsup : r.supports l = true := (C82_supports r l).2 (Or.inl hl)
  have hinfo : ∀ w a out, l.own.cls ∉ Aux.ownClasses → layerQuantizeInfo.lookup l.own.cls = some (w, a, out) →
      r.getConfig shared l =
        .ok (.dflt (.mk' r.nBit .plain (w.map .one) (a.map .one) out r.bitsWeight r.bitsActivation)) := by
    intro w a out hno hlk
    rw [Registry.getConfig]
    simp only [hsup, Bool.not_true, Bool.false_eq_true, if_false, Aux.lookup_other r _ hno, hlk, Option.map_some]
    by_cases hn : r.nBit = true
    · rw [hsh hn]
    · simp only [Bool.not_eq_true] at hn
      simp [hn, DConfig.mk']
  have hown : ∀ c, r.lookup l.own.cls = some (.config c) → r.getConfig shared l = .ok c := by
    intro c hc
    rw [Registry.getConfig]
    simp only [hsup, Bool.not_true, Bool.false_eq_true, if_false, hc]
  rcases hl with hl | hl | hl | hl
  · -- kernels
    have key : ∀ cc, (cc = .plain ∨ cc = .conv ∨ cc = .convTranspose) →
        ((cc = CClass.conv) ↔ (l.own.cls = "Conv2D" ∨ l.own.cls = "DepthwiseConv2D") ∧ r.disablePerAxis = false) →
        Spec.Documented (if r.nBit then r.bitsWeight else 8) (if r.nBit then r.bitsActivation else 8)
        r.disablePerAxis (if r.nBit then ["relu", "relu6", "swish"] else ["relu", "swish", "gelu", "relu6"])
        l.own.cls (.dflt (.mk' r.nBit cc [.one (Spec.kernelAttr l.own.cls)] [.one "activation"] false
          r.bitsWeight r.bitsActivation)) := by
      intro cc hcc hax W' A' name l' hcl
      refine ⟨?_, fun h => absurd hl h, ?_, ?_, ?_⟩
      · intro _ w a hw ha
        refine ⟨(DConfig.mk' r.nBit cc [.one (Spec.kernelAttr l.own.cls)] [.one "activation"] false
            r.bitsWeight r.bitsActivation).weightQuantizer,
          ⟨.movingAverage, ⟨if r.nBit then r.bitsActivation else 8, false, false, false⟩⟩,
          ?_, ⟨rfl, rfl⟩, ?_, ?_, rfl⟩
        · rcases hcc with rfl | rfl | rfl
          · refine ⟨rfl, rfl, rfl, rfl, ?_⟩
            rw [← hax]; simp [DConfig.mk']
          · refine ⟨rfl, rfl, rfl, rfl, ?_⟩
            rw [← hax]; simp [DConfig.mk']
          · refine ⟨rfl, rfl, rfl, rfl, ?_⟩
            rw [← hax]; simp [DConfig.mk']
        · rcases hcc with rfl | rfl | rfl <;>
            simp [Config.getWeights, DConfig.getWeights, DConfig.mk', getAttrs, plainNames, Except.map, getAll, hw]
        · rcases hcc with rfl | rfl | rfl <;>
            simp [Config.getActivations, DConfig.getActivations, DConfig.mk', getAttrs, plainNames, Except.map,
              getAll, ha]
      · intro h
        exact absurd hl ((by decide : ∀ x ∈ Spec.outputClasses, x ∉ Spec.kernelClasses) _ h)
      · intro h
        exact absurd hl ((by decide : ∀ x ∈ Spec.passClasses, x ∉ Spec.kernelClasses) _ h)
      · intro h
        rw [h] at hl
        exact absurd hl (by decide)
    simp only [Spec.kernelClasses, List.mem_cons, List.not_mem_nil, or_false] at hl
    rcases hl with h | h | h | h
    · refine ⟨_, hinfo ["kernel"] ["activation"] false (by rw [h]; decide) (by rw [h]; rfl), ?_⟩
      have := key .plain (Or.inl rfl) (by simp [h])
      rw [h] at this ⊢
      exact this
    · refine ⟨_, hown _ (by rw [h]; rfl), ?_⟩
      have := key (if r.disablePerAxis then .plain else .conv)
        (by cases r.disablePerAxis <;> simp) (by cases r.disablePerAxis <;> simp [h])
      rw [h] at this ⊢
      exact this
    · refine ⟨_, hown _ (by rw [h]; rfl), ?_⟩
      have := key .convTranspose (by simp) (by simp [h])
      rw [h] at this ⊢
      exact this
    · refine ⟨_, hown _ (by rw [h]; rfl), ?_⟩
      have := key (if r.disablePerAxis then .plain else .conv)
        (by cases r.disablePerAxis <;> simp) (by cases r.disablePerAxis <;> simp [h])
      rw [h] at this ⊢
      exact this
  · -- outputs
    have hlk : layerQuantizeInfo.lookup l.own.cls = some ([], [], true) :=
      (by decide : ∀ x ∈ Spec.outputClasses, layerQuantizeInfo.lookup x = some ([], [], true)) _ hl
    refine ⟨_, hinfo _ _ _ ((by decide : ∀ x ∈ Spec.outputClasses, x ∉ Aux.ownClasses) _ hl) hlk, ?_⟩
    intro W' A' name l' hcl
    refine ⟨?_, fun _ => ⟨rfl, rfl⟩, fun _ => ⟨_, ⟨rfl, rfl⟩, rfl⟩, ?_, ?_⟩
    · intro h
      exact absurd h ((by decide : ∀ x ∈ Spec.outputClasses, x ∉ Spec.kernelClasses) _ hl)
    · intro h
      exact absurd h ((by decide : ∀ x ∈ Spec.outputClasses, x ∉ Spec.passClasses) _ hl)
    · intro h
      rw [h] at hl
      exact absurd hl (by decide)
  · -- nothing
    have hlk : layerQuantizeInfo.lookup l.own.cls = some ([], [], false) :=
      (by decide : ∀ x ∈ Spec.passClasses, layerQuantizeInfo.lookup x = some ([], [], false)) _ hl
    refine ⟨_, hinfo _ _ _ ((by decide : ∀ x ∈ Spec.passClasses, x ∉ Aux.ownClasses) _ hl) hlk, ?_⟩
    intro W' A' name l' hcl
    refine ⟨?_, fun _ => ⟨rfl, rfl⟩, ?_, fun _ => rfl, ?_⟩
    · intro h
      exact absurd h ((by decide : ∀ x ∈ Spec.passClasses, x ∉ Spec.kernelClasses) _ hl)
    · intro h
      exact absurd h ((by decide : ∀ x ∈ Spec.passClasses, x ∉ Spec.outputClasses) _ hl)
    · intro h
      rw [h] at hl
      exact absurd hl (by decide)
  · -- activations
    refine ⟨_, hown _ (by rw [hl]; rfl), ?_⟩
    rw [hl]
    intro W' A' name l' hcl
    refine ⟨fun h => absurd h (by decide), fun _ => ?_, fun h => absurd h (by decide),
      fun h => absurd h (by decide), fun _ a ha => ?_⟩
    · simp [Config.getWeights, Config.getActivations, assertActivation, hcl, Except.map]
    · have hout : ∀ n, name a = some n → (Config.activation r.nBit
          (if r.nBit then r.bitsActivation else 8) true).getOutput name l' =
            if n ∈ outputNames r.nBit then
              .ok [⟨.movingAverage, ⟨if r.nBit then r.bitsActivation else 8, false, false, false⟩⟩]
            else if n ∈ ["linear", "softmax", "sigmoid", "tanh"] then .ok [] else .error .value := by
        intro n hn
        simp only [Config.getOutput, assertActivation, hcl, if_true, ha, hn, Bool.not_true, Bool.false_and,
          Bool.false_eq_true, if_false]
      refine ⟨?_, ?_, ?_⟩
      · intro n hn hr
        refine ⟨⟨.movingAverage, ⟨if r.nBit then r.bitsActivation else 8, false, false, false⟩⟩, ⟨rfl, rfl⟩, ?_⟩
        rw [hout n hn]
        exact if_pos hr
      · intro n hn hr
        rw [hout n hn, if_neg, if_pos hr]
        cases r.nBit
        · exact (by decide : ∀ x ∈ ["linear", "softmax", "sigmoid", "tanh"], x ∉ outputNames false) _ hr
        · exact (by decide : ∀ x ∈ ["linear", "softmax", "sigmoid", "tanh"], x ∉ outputNames true) _ hr
      · intro hno
        cases hn : name a with
        | none =>
          simp only [Config.getOutput, assertActivation, hcl, if_true, ha, hn, Bool.not_true, Bool.false_and,
            Bool.false_eq_true, if_false]
        | some n =>
          have := hno n hn
          simp only [List.mem_append, not_or] at this
          rw [hout n hn]
          refine (if_neg this.1).trans (if_neg this.2)

open Example in
/-- A dense layer is of a supported class, an embedding is not. -/
example : Spec.SupportedClass denseLayer.own.cls ∧ ¬ Spec.SupportedClass "Embedding" := by
  refine ⟨Or.inl (by decide), ?_⟩
  simp [Spec.SupportedClass, Spec.kernelClasses, Spec.outputClasses, Spec.passClasses]

theorem Aux.cellAttrs_kernel (r : Registry) (cls : String) (h : cls ∈ Spec.kernelClasses) :
    r.cellAttrs cls = .ok (.many [Spec.kernelAttr cls], .many ["activation"]) := by
  simp only [Spec.kernelClasses, List.mem_cons, List.not_mem_nil, or_false] at h
  rcases h with rfl | rfl | rfl | rfl <;> rfl

theorem Aux.cellAttrs_plain (r : Registry) (cls : String) (h : cls ∈ Spec.outputClasses ++ Spec.passClasses) :
    r.cellAttrs cls = .ok (.many [], .many []) := by
  have hown := (by decide : ∀ x ∈ Spec.outputClasses ++ Spec.passClasses, x ∉ Aux.ownClasses) _ h
  have hlk : ∃ b, layerQuantizeInfo.lookup cls = some ([], [], b) :=
    (by decide : ∀ x ∈ Spec.outputClasses ++ Spec.passClasses, ∃ b, layerQuantizeInfo.lookup x = some ([], [], b)) _ h
  obtain ⟨b, hlk⟩ := hlk
  rw [Registry.cellAttrs, Aux.lookup_other r cls hown, hlk]
  rfl

theorem Aux.rnnAttrs_get (r : Registry) {W A : Type*} (cs : List (Cell W A))
    (hsup : ∀ c ∈ cs, c.cls ∈ Spec.kernelClasses ++ (Spec.outputClasses ++ Spec.passClasses)) :
    ∃ w a, r.rnnAttrs (cs.map Cell.cls) = .ok (w, a) ∧
      (∀ ws : List W, (cs.filter fun c => c.cls ∈ Spec.kernelClasses).map
          (fun c => c.weight (Spec.kernelAttr c.cls)) = ws.map some → getCells Cell.weight w cs = .ok ws) ∧
      (∀ as : List A, (cs.filter fun c => c.cls ∈ Spec.kernelClasses).map
          (fun c => c.activation "activation") = as.map some → getCells Cell.activation a cs = .ok as) := by
  induction cs with
  | nil =>
    refine ⟨[], [], rfl, ?_, ?_⟩
    · intro ws h; cases ws with
      | nil => rfl
      | cons _ _ => simp at h
    · intro ws h; cases ws with
      | nil => rfl
      | cons _ _ => simp at h
  | cons c cs ih =>
    obtain ⟨w, a, h1, h2, h3⟩ := ih fun d hd => hsup d (List.mem_cons_of_mem _ hd)
    by_cases hk : c.cls ∈ Spec.kernelClasses
    · refine ⟨.many [Spec.kernelAttr c.cls] :: w, .many ["activation"] :: a, ?_, ?_, ?_⟩
      · rw [List.map_cons, Registry.rnnAttrs, Aux.cellAttrs_kernel r _ hk]
        dsimp only
        rw [h1]
      · intro ws h
        rw [List.filter_cons_of_pos (by simpa using hk)] at h
        cases ws with
        | nil => simp at h
        | cons x ws =>
          simp only [List.map_cons, List.cons.injEq] at h
          simp only [getCells, AttrVal.names, getAll, h.1]
          rw [h2 ws h.2]
          rfl
      · intro ws h
        rw [List.filter_cons_of_pos (by simpa using hk)] at h
        cases ws with
        | nil => simp at h
        | cons x ws =>
          simp only [List.map_cons, List.cons.injEq] at h
          simp only [getCells, AttrVal.names, getAll, h.1]
          rw [h3 ws h.2]
          rfl
    · have hp : c.cls ∈ Spec.outputClasses ++ Spec.passClasses := by
        rcases List.mem_append.1 (hsup c List.mem_cons_self) with h | h
        · exact absurd h hk
        · exact h
      refine ⟨.many [] :: w, .many [] :: a, ?_, ?_, ?_⟩
      · rw [List.map_cons, Registry.rnnAttrs, Aux.cellAttrs_plain r _ hp]
        dsimp only
        rw [h1]
      · intro ws h
        rw [List.filter_cons_of_neg (by simpa using hk)] at h
        simp only [getCells, AttrVal.names, getAll]
        rw [h2 ws h]
        rfl
      · intro ws h
        rw [List.filter_cons_of_neg (by simpa using hk)] at h
        simp only [getCells, AttrVal.names, getAll]
        rw [h3 ws h]
        rfl

/-- C82, recurrent layers: the config quantizes, cell by cell and in the order of the cells, the kernel and the
activation of every dense or convolutional cell, nothing of the other cells, and not the output. -/
theorem C82_recurrent_partial (shared : ℕ × ℕ) (r : Registry) {W A : Type*} (l : KLayer W A) (cs : List (Cell W A))
    (hrnn : l.own.cls ∈ ["GRU", "LSTM", "RNN", "SimpleRNN"]) (hcs : l.cells = some cs)
    (hsup : ∀ c ∈ cs, c.cls ∈ Spec.kernelClasses ++ (Spec.outputClasses ++ Spec.passClasses))
    (ws : List W) (hw : (cs.filter fun c => c.cls ∈ Spec.kernelClasses).map
      (fun c => c.weight (Spec.kernelAttr c.cls)) = ws.map some)
    (as : List A) (ha : (cs.filter fun c => c.cls ∈ Spec.kernelClasses).map
      (fun c => c.activation "activation") = as.map some) (name : A → ActName) :
    ∃ c, r.getConfig shared l = .ok c ∧
      c.getWeights l = .ok (ws.map fun w =>
        (w, ⟨.lastValue, ⟨if r.nBit then r.bitsWeight else 8, false, true, true⟩⟩)) ∧
      c.getActivations l = .ok (as.map fun a =>
        (a, ⟨.movingAverage, ⟨if r.nBit then r.bitsActivation else 8, false, false, false⟩⟩)) ∧
      c.getOutput name l = .ok [] := by
  have hno : ¬ Spec.SupportedClass l.own.cls := by
    simp only [List.mem_cons, List.not_mem_nil, or_false] at hrnn
    rcases hrnn with h | h | h | h <;> rw [h] <;>
      simp [Spec.SupportedClass, Spec.kernelClasses, Spec.outputClasses, Spec.passClasses]
  have hlk : r.lookup l.own.cls = none := by
    cases h : r.lookup l.own.cls with
    | none => rfl
    | some e => exact absurd ((Aux.lookup_supported r _).1 (by rw [h]; rfl)) hno
  have hs : r.supports l = true := by
    refine (C82_supports r l).2 (Or.inr ⟨hrnn, cs, hcs, fun c hc => ?_⟩)
    rcases List.mem_append.1 (hsup c hc) with h | h
    · exact Or.inl h
    rcases List.mem_append.1 h with h | h
    · exact Or.inr (Or.inl h)
    · exact Or.inr (Or.inr (Or.inl h))
  obtain ⟨w, a, h1, h2, h3⟩ := Aux.rnnAttrs_get r cs hsup
  refine ⟨.dflt (.mk' r.nBit .rnn w a false r.bitsWeight r.bitsActivation), ?_, ?_, ?_, ?_⟩
  · rw [Registry.getConfig]
    simp only [hs, Bool.not_true, Bool.false_eq_true, if_false, hlk, hcs, Option.getD_some, h1]
  · simp only [Config.getWeights, DConfig.getWeights, DConfig.mk', getAttrs, hcs, h2 ws hw, Except.map]
  · simp only [Config.getActivations, DConfig.getActivations, DConfig.mk', getAttrs, hcs, h3 as ha, Except.map]
  · rfl

/-- C82 fails for a recurrent layer with an `Activation` among its cells: `supports` says yes, but
`get_quantize_config` raises an `AttributeError`. -/
theorem C82_activation_cell_violated (shared : ℕ × ℕ) (r : Registry) : ∃ l : KLayer ℕ String,
    r.supports l = true ∧ r.getConfig shared l = .error .attribute := by
  refine ⟨⟨⟨"RNN", fun _ => none, fun _ => none⟩, some [⟨"Activation", fun _ => none, fun _ => none⟩]⟩, ?_, ?_⟩
  · exact (C82_supports r _).2 (Or.inr ⟨by simp, _, rfl, by simp [Spec.SupportedClass]⟩)
  · cases r with | mk n d b b' => cases n <;> cases d <;> rfl

/-- `OutputOnlyConfig` hands on the activations of the config it wraps, but not its weights. -/
theorem C82_output_only {W A : Type*} (c : Config) (l : KLayer W A) (name : A → ActName) :
    (Config.outputOnly c).getActivations l = c.getActivations l ∧
    (Config.outputOnly c).getOutput name l = c.getOutput name l ∧
    (Config.outputOnly c).getWeights l = .ok [] := ⟨rfl, rfl, rfl⟩

open Example in
/-- A recurrent layer with two dense cells and a dropout between them meets the hypotheses of `C82_recurrent_partial`. -/
example : ∃ (l : KLayer ℕ String) (cs : List (Cell ℕ String)),
    l.own.cls ∈ ["GRU", "LSTM", "RNN", "SimpleRNN"] ∧ l.cells = some cs ∧
    (∀ c ∈ cs, c.cls ∈ Spec.kernelClasses ++ (Spec.outputClasses ++ Spec.passClasses)) ∧
    (cs.filter fun c => c.cls ∈ Spec.kernelClasses).map (fun c => c.weight (Spec.kernelAttr c.cls)) =
      [1, 2].map some ∧
    (cs.filter fun c => c.cls ∈ Spec.kernelClasses).map (fun c => c.activation "activation") =
      ["relu", "tanh"].map some :=
  ⟨⟨⟨"RNN", fun _ => none, fun _ => none⟩, some [⟨"Dense", fun _ => some 1, fun _ => some "relu"⟩,
      ⟨"Dropout", fun _ => none, fun _ => none⟩, ⟨"Conv2D", fun _ => some 2, fun _ => some "tanh"⟩]⟩, _,
    by simp, rfl, by decide, by decide, by decide⟩

end Verif.Props
