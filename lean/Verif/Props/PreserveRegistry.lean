import Verif.Quant.PreserveRegistry
import Verif.Props.QuantRegistry
import Mathlib.Data.List.Infix

/-!
# Properties C75 and C85: preserving quantize registries; stripping clustering variables
-/

set_option linter.unusedSectionVars false
namespace Verif.Props
open Verif Verif.Quant Verif.Quant.Config Verif.Quant.PreserveRegistry

/-! ## Specification -/

/-- The layer classes whose weights are preserved, with the config class they need, whether it is the convolution
quantizer, and the arguments of the quantizer. -/
def Spec.Preserved (cls configClass : String) (conv : Bool) (cfg : QCfg) : Prop :=
  (cls = "Conv2D" ∧ configClass = "Default8BitConvQuantizeConfig" ∧ conv = true ∧ cfg = ⟨8, true, true, true⟩) ∨
  (cls = "Dense" ∧ configClass = "Default8BitQuantizeConfig" ∧ conv = false ∧ cfg = ⟨8, false, true, true⟩)

/-- A layer whose config is returned unchanged. -/
def Spec.NothingToPreserve (l : PLayer) : Prop := l.trainableWeights = [] ∨ l.cls = "DepthwiseConv2D"

/-! ## C75 -/

/-- **C75.**  Applying a preserving registry to any layer and any config: without trainable weights, or for a
depthwise convolution, the config is returned unchanged; a `Conv2D` or `Dense` with the config class it needs gets
exactly the preserving quantizer, everything else of the config is kept; everything else is a `ValueError`. -/
theorem C75_apply_partial {C : Type*} (w : Which) (l : PLayer) (c : PConfig C) :
    (Spec.NothingToPreserve l → apply w l c = .ok c) ∧
    (¬ Spec.NothingToPreserve l → ∀ conv cfg, Spec.Preserved l.cls c.className conv cfg →
      apply w l c = .ok { c with weightQuantizer := .preserving w conv cfg }) ∧
    (¬ Spec.NothingToPreserve l → (¬ ∃ conv cfg, Spec.Preserved l.cls c.className conv cfg) →
      apply w l c = .error .value) := by
  obtain ⟨cls, tw⟩ := l
  obtain ⟨cn, q, r⟩ := c
  refine ⟨?_, ?_, ?_⟩
  · rintro (h | h)
    · simp only at h; subst h
      simp [apply, supports, noTrainableWeights]
    · simp only at h; subst h
      simp [apply, supports, disabled, layersConfigMap, List.lookup]
  · intro hn conv cfg hp
    simp only [Spec.NothingToPreserve, not_or] at hn
    have ht : tw.isEmpty = false := by simpa using hn.1
    rcases hp with ⟨h1, h2, rfl, rfl⟩ | ⟨h1, h2, rfl, rfl⟩
    · simp only at h1 h2; subst h1 h2
      simp [apply, supports, noTrainableWeights, ht, disabled, layersConfigMap, List.lookup, configQuantizer]
    · simp only at h1 h2; subst h1 h2
      simp [apply, supports, noTrainableWeights, ht, disabled, layersConfigMap, List.lookup, configQuantizer]
  · intro hn hp
    simp only [Spec.NothingToPreserve, not_or] at hn
    have ht : tw.isEmpty = false := by simpa using hn.1
    have hd : cls ≠ "DepthwiseConv2D" := hn.2
    by_cases h1 : cls = "Conv2D"
    · subst h1
      have h2 : cn ≠ "Default8BitConvQuantizeConfig" := fun h => hp ⟨true, _, .inl ⟨rfl, h, rfl, rfl⟩⟩
      simp [apply, supports, noTrainableWeights, ht, disabled, layersConfigMap, List.lookup, h2]
    · by_cases h3 : cls = "Dense"
      · subst h3
        have h2 : cn ≠ "Default8BitQuantizeConfig" := fun h => hp ⟨false, _, .inr ⟨rfl, h, rfl, rfl⟩⟩
        simp [apply, supports, noTrainableWeights, ht, disabled, layersConfigMap, List.lookup, h2]
      · have e1 : (cls == "Conv2D") = false := by simpa using h1
        have e2 : (cls == "Dense") = false := by simpa using h3
        have e3 : (cls == "DepthwiseConv2D") = false := by simpa using hd
        simp [apply, supports, noTrainableWeights, ht, layersConfigMap, List.lookup, e1, e2, e3]

/-- **C75 (default registries).**  For every `Conv2D` and every `Dense` with trainable weights the default preserving
registries hand out the config of the default 8-bit registry with the preserving quantizer, which has the number of
bits, axis, symmetry and range of the quantizer it replaces. -/
theorem C75_default {W A : Type*} (w : Which) (l : KLayer W A) (tw : List String) (ht : tw ≠ [])
    (hcls : l.own.cls = "Conv2D" ∨ l.own.cls = "Dense") :
    ∃ c p, (⟨false, false, 8, 8⟩ : Registry).getConfig (8, 8) l = .ok c ∧ getConfig w l tw = .ok p ∧ p.rest = c ∧
      p.className = className c ∧
      p.weightQuantizer = .preserving w (decide (l.own.cls = "Conv2D")) (weightQuantizerOf c).cfg := by
  have hn : ∀ cls, cls = "Conv2D" ∨ cls = "Dense" → ¬ Spec.NothingToPreserve ⟨cls, tw⟩ := by
    rintro cls hc (h | h)
    · exact ht h
    · simp only at h; subst h; simp at hc
  rcases hcls with h | h
  · have hg : (⟨false, false, 8, 8⟩ : Registry).getConfig (8, 8) l =
        .ok (.dflt (.mk' false .conv [.one "kernel"] [.one "activation"] false 8 8)) := by
      simp [Registry.getConfig, Registry.supports, Registry.lookup, h]
    refine ⟨_, ⟨className (.dflt (.mk' false .conv [.one "kernel"] [.one "activation"] false 8 8)), .preserving w true ⟨8, true, true, true⟩, .dflt (.mk' false .conv [.one "kernel"] [.one "activation"] false 8 8)⟩, hg, ?_, rfl, rfl,
      by simp [h, weightQuantizerOf, DConfig.mk']⟩
    unfold getConfig
    rw [hg]
    dsimp only
    rw [(C75_apply_partial w _ _).2.1 (hn _ (.inl h)) true ⟨8, true, true, true⟩ (.inl ⟨h, rfl, rfl, rfl⟩)]
  · have hg : (⟨false, false, 8, 8⟩ : Registry).getConfig (8, 8) l =
        .ok (.dflt (.mk' false .plain [.one "kernel"] [.one "activation"] false 8 8)) := by
      simp [Registry.getConfig, Registry.supports, Registry.lookup, h, layerQuantizeInfo, List.lookup]
    refine ⟨_, ⟨className (.dflt (.mk' false .plain [.one "kernel"] [.one "activation"] false 8 8)), .preserving w false ⟨8, false, true, true⟩, .dflt (.mk' false .plain [.one "kernel"] [.one "activation"] false 8 8)⟩, hg, ?_, rfl, rfl,
      by simp [h, weightQuantizerOf, DConfig.mk']⟩
    unfold getConfig
    rw [hg]
    dsimp only
    rw [(C75_apply_partial w _ _).2.1 (hn _ (.inr h)) false ⟨8, false, true, true⟩ (.inr ⟨h, rfl, rfl, rfl⟩)]

/-- **C75 (other layers).**  For a layer without trainable weights and for a depthwise convolution the default
preserving registries hand out the config of the default 8-bit registry unchanged (or its error); every other layer
with trainable weights is rejected. -/
theorem C75_others {W A : Type*} (w : Which) (l : KLayer W A) (tw : List String) :
    (Spec.NothingToPreserve ⟨l.own.cls, tw⟩ → ∀ c, (⟨false, false, 8, 8⟩ : Registry).getConfig (8, 8) l = .ok c →
      getConfig w l tw = .ok ⟨className c, .ordinary (weightQuantizerOf c), c⟩) ∧
    (∀ e, (⟨false, false, 8, 8⟩ : Registry).getConfig (8, 8) l = .error e → getConfig w l tw = .error e) ∧
    (¬ Spec.NothingToPreserve ⟨l.own.cls, tw⟩ → l.own.cls ≠ "Conv2D" → l.own.cls ≠ "Dense" →
      ∀ c, (⟨false, false, 8, 8⟩ : Registry).getConfig (8, 8) l = .ok c → getConfig w l tw = .error .value) := by
  refine ⟨?_, ?_, ?_⟩
  · intro hn c hc
    unfold getConfig
    rw [hc]
    exact (C75_apply_partial w _ _).1 hn
  · intro e he
    unfold getConfig
    rw [he]
  · intro hn h1 h2 c hc
    unfold getConfig
    rw [hc]
    refine (C75_apply_partial w _ _).2.2 hn ?_
    rintro ⟨conv, cfg, ⟨h, -⟩ | ⟨h, -⟩⟩
    · exact h1 h
    · exact h2 h

/-- C75, the weights that are preserved: none without trainable weights; else the kernel of a `Conv2D` or `Dense`,
the depthwise kernel of a `DepthwiseConv2D`, and an error for every other class. -/
theorem C75_weights (l : PLayer) :
    (l.trainableWeights = [] → weightNames l = .ok []) ∧
    (l.trainableWeights ≠ [] →
      ((l.cls = "Conv2D" ∨ l.cls = "Dense") → weightNames l = .ok ["kernel"]) ∧
      (l.cls = "DepthwiseConv2D" → weightNames l = .ok ["depthwise_kernel"]) ∧
      (l.cls ∉ ["Conv2D", "Dense", "DepthwiseConv2D"] → ∃ e, weightNames l = .error e)) := by
  refine ⟨fun h => by simp [weightNames, noTrainableWeights, h], fun h => ?_⟩
  have hf : noTrainableWeights l = false := by
    cases ht : l.trainableWeights with
    | nil => exact absurd ht h
    | cons _ _ => simp [noTrainableWeights, ht]
  refine ⟨?_, ?_, ?_⟩
  · rintro (hc | hc) <;> simp [weightNames, hf, hc, layersConfigMap, List.lookup]
  · intro hc; simp [weightNames, hf, hc, layersConfigMap, List.lookup]
  · intro hc
    simp only [List.mem_cons, List.not_mem_nil, or_false, not_or] at hc
    refine ⟨.attribute, ?_⟩
    have h1 : (l.cls == "Conv2D") = false := by simpa using hc.1
    have h2 : (l.cls == "Dense") = false := by simpa using hc.2.1
    have h3 : (l.cls == "DepthwiseConv2D") = false := by simpa using hc.2.2
    simp [weightNames, hf, layersConfigMap, List.lookup, h1, h2, h3]

/-- C75: `supports` promises too much: a layer without trainable weights is "supported" whatever its class, but the
default registry has no config for it. -/
theorem C75_supports_violated (w : Which) : ∃ l : KLayer ℕ String, supports ⟨l.own.cls, []⟩ = true ∧
    getConfig w l [] = .error .value :=
  ⟨⟨⟨"Lambda", fun _ => none, fun _ => none⟩, none⟩, by decide, by cases w <;> rfl⟩

/-- C75 fails for frozen layers: a frozen `Conv2D` has no trainable weights, so it gets the ordinary quantizer (and
its kernel is trained nevertheless, see `C84_frozen_violated`). -/
theorem C75_frozen_violated (w : Which) : ∃ l : KLayer ℕ String, l.own.cls = "Conv2D" ∧
    ∃ p q, getConfig w l [] = .ok p ∧ p.weightQuantizer = .ordinary q :=
  ⟨⟨⟨"Conv2D", fun _ => none, fun _ => none⟩, none⟩, rfl, _, _, rfl, rfl⟩

/-- The cases of `C75_apply_partial` occur. -/
example : Spec.NothingToPreserve ⟨"DepthwiseConv2D", ["depthwise_kernel"]⟩ ∧
    ¬ Spec.NothingToPreserve ⟨"Dense", ["kernel", "bias"]⟩ ∧
    Spec.Preserved "Dense" "Default8BitQuantizeConfig" false ⟨8, false, true, true⟩ ∧
    ¬ ∃ conv cfg, Spec.Preserved "Conv2DTranspose" "Default8BitConvTransposeQuantizeConfig" conv cfg := by
  refine ⟨.inr rfl, ?_, .inr ⟨rfl, rfl, rfl, rfl⟩, ?_⟩
  · rintro (h | h)
    · cases h
    · exact absurd h (by decide)
  · rintro ⟨conv, cfg, ⟨h, -⟩ | ⟨h, -⟩⟩ <;> exact absurd h (by decide)

/-! ## C85 -/

/-- `s` occurs in `name`. -/
def Spec.Occurs (s name : String) : Prop := ∃ a b, name.toList = a ++ s.toList ++ b

theorem Aux.contains_iff (name s : String) : contains name s = true ↔ Spec.Occurs s name := by
  unfold contains Spec.Occurs
  rw [List.any_eq_true]
  constructor
  · rintro ⟨t, ht, hp⟩
    obtain ⟨a, ha⟩ := List.mem_tails _ _ |>.1 ht
    obtain ⟨b, hb⟩ := List.isPrefixOf_iff_prefix.1 hp
    exact ⟨a, b, by rw [← ha, ← hb, List.append_assoc]⟩
  · rintro ⟨a, b, h⟩
    refine ⟨s.toList ++ b, (List.mem_tails _ _).2 ⟨a, by rw [h, List.append_assoc]⟩, ?_⟩
    exact List.isPrefixOf_iff_prefix.2 ⟨b, rfl⟩

/-- **C85.**  Stripping a wrapped `Conv2D` or `Dense` (whose name does not contain "depthwise") removes exactly the
clustering variables (centroids, original weights, pulling indices), keeps the order of the others, and changes no
other layer; stripping twice is stripping once. -/
theorem C85_partial (l : SLayer) :
    (∀ name, l.wraps = some (name, true) → ¬ Spec.Occurs "depthwise" name →
      (∀ v, v ∈ (strip l).trainable ↔ v ∈ l.trainable ∧ ¬ Spec.Occurs "cluster_centroids_tf" v ∧
        ¬ Spec.Occurs "ori_weights_vars_tf" v) ∧
      (∀ v, v ∈ (strip l).nonTrainable ↔ v ∈ l.nonTrainable ∧ ¬ Spec.Occurs "pulling_indices_tf" v)) ∧
    (strip l).trainable.Sublist l.trainable ∧ (strip l).nonTrainable.Sublist l.nonTrainable ∧
    (strip l).wraps = l.wraps ∧
    ((∀ name, l.wraps ≠ some (name, true)) → strip l = l) ∧ strip (strip l) = strip l := by
  obtain ⟨wraps, tr, ntr⟩ := l
  refine ⟨?_, ?_, ?_, ?_, ?_, ?_⟩
  · intro name hw hd
    simp only at hw
    subst hw
    have : contains name "depthwise" = false := by
      rw [Bool.eq_false_iff, Ne, Aux.contains_iff]; exact hd
    simp only [strip, this, Bool.false_eq_true, if_false, if_true]
    constructor
    · intro v
      rw [List.mem_filter, ← Aux.contains_iff, ← Aux.contains_iff]
      cases contains v "cluster_centroids_tf" <;> cases contains v "ori_weights_vars_tf" <;> simp
    · intro v
      rw [List.mem_filter, ← Aux.contains_iff]
      cases contains v "pulling_indices_tf" <;> simp
  · unfold strip
    rcases wraps with _ | ⟨name, h⟩
    · exact List.Sublist.refl _
    · dsimp only; split_ifs <;> first | exact List.Sublist.refl _ | exact List.filter_sublist
  · unfold strip
    rcases wraps with _ | ⟨name, h⟩
    · exact List.Sublist.refl _
    · dsimp only; split_ifs <;> first | exact List.Sublist.refl _ | exact List.filter_sublist
  · unfold strip
    rcases wraps with _ | ⟨name, h⟩
    · rfl
    · dsimp only; split_ifs <;> rfl
  · intro h
    unfold strip
    rcases wraps with _ | ⟨name, b⟩
    · rfl
    · cases b
      · simp
      · exact absurd rfl (h name)
  · rcases wraps with _ | ⟨name, b⟩
    · rfl
    · by_cases h1 : contains name "depthwise" = true
      · have : strip ⟨some (name, b), tr, ntr⟩ = ⟨some (name, b), tr, ntr⟩ := by simp [strip, h1]
        rw [this, this]
      · cases b
        · have : strip ⟨some (name, false), tr, ntr⟩ = ⟨some (name, false), tr, ntr⟩ := by simp [strip]
          rw [this, this]
        · have : ∀ tr ntr, strip ⟨some (name, true), tr, ntr⟩ = ⟨some (name, true),
              tr.filter fun v => !(contains v "cluster_centroids_tf" || contains v "ori_weights_vars_tf"),
              ntr.filter fun v => !contains v "pulling_indices_tf"⟩ := by
            intro tr ntr
            simp only [strip, h1, if_false, Bool.false_eq_true, if_true]
          rw [this, this, List.filter_filter, List.filter_filter]
          simp only [Bool.and_self]

/-- The hypotheses are met, and something is removed. -/
example : ∃ l : SLayer, l.wraps = some ("dense", true) ∧ ¬ Spec.Occurs "depthwise" "dense" ∧
    (strip l).trainable = ["dense/bias:0", "dense/kernel:0"] := by
  refine ⟨⟨some ("dense", true), ["dense/bias:0", "quant_dense/kernel_cluster_centroids_tf:0", "dense/kernel:0"], []⟩, rfl, ?_,
    by decide +kernel⟩
  rw [← Aux.contains_iff]
  decide +kernel

/-- C85 fails for a `Dense` layer whose name contains "depthwise": its clustering variables stay. -/
theorem C85_violated : ∃ l : SLayer, (∃ name, l.wraps = some (name, true)) ∧
    ∃ v ∈ (strip l).trainable, Spec.Occurs "cluster_centroids_tf" v :=
  ⟨⟨some ("depthwise_head", true), ["cluster_centroids_tf"], []⟩, ⟨_, rfl⟩, "cluster_centroids_tf",
    by decide +kernel, ⟨[], [], by simp⟩⟩

end Verif.Props
