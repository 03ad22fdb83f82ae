import Verif.Props.Serialize

/-!
# Property C86 for the classes of the library
-/

set_option linter.unusedSectionVars false
namespace Verif.Props
open Verif Verif.Quant.Config Verif.Quant.Serialize

/-- The classes with in-place deserialization of the library: only `FixedQuantizeConfig`. -/
theorem Aux.library_inPlace : ∀ c ∈ library, (∃ k, c.2.1.fromConfig = .inPlace k) → c.1 = "FixedQuantizeConfig" := by
  intro c hc
  simp only [library, List.mem_cons, List.not_mem_nil, or_false] at hc
  rcases hc with rfl | rfl | rfl | rfl | rfl | rfl | rfl | rfl | rfl | rfl | rfl | rfl | rfl | rfl | rfl | rfl | rfl |
    rfl | rfl | rfl | rfl | rfl | rfl | rfl | rfl | rfl | rfl | rfl <;>
    first
      | exact fun _ => rfl
      | (rintro ⟨k, hk⟩; cases hk)

theorem Aux.args_cons {args : List (String × Val)} {p : String} {ps : List String} (h : args.map Prod.fst = p :: ps) :
    ∃ v rest, args = (p, v) :: rest ∧ rest.map Prod.fst = ps := by
  cases args with
  | nil => cases h
  | cons a rest =>
    obtain ⟨k, v⟩ := a
    simp only [List.map_cons, List.cons.injEq] at h
    obtain ⟨rfl, h⟩ := h
    exact ⟨v, rest, rfl, h⟩

theorem Aux.faithful_range : Spec.Faithful rangeQuantizer where
  params := by decide
  keys := by decide
  complete := by intro p; simp [rangeQuantizer, own, rangeNames]
  holds := by
    intro args h e he
    simp only [rangeQuantizer, own, rangeNames, List.mem_map] at he
    obtain ⟨n, -, rfl⟩ := he
    rfl
  inverse := by
    intro e he
    simp only [rangeQuantizer, own, rangeNames, List.mem_map] at he
    obtain ⟨n, -, rfl⟩ := he
    simp [Spec.loads, rangeQuantizer]
  known := by simp [Spec.loads, rangeQuantizer]
  defaults := by simp [rangeQuantizer]

theorem Aux.faithful_fixedQuantizer : Spec.Faithful fixedQuantizer where
  params := by decide
  keys := by decide
  complete := by intro p; simp [fixedQuantizer, own]
  holds := by
    intro args h e he
    simp only [fixedQuantizer, own, List.mem_map] at he
    obtain ⟨n, -, rfl⟩ := he
    rfl
  inverse := by
    intro e he
    simp only [fixedQuantizer, own, List.mem_map] at he
    obtain ⟨n, -, rfl⟩ := he
    simp [Spec.loads, fixedQuantizer]
  known := by simp [Spec.loads, fixedQuantizer]
  defaults := by simp [fixedQuantizer]

theorem Aux.faithful_noArguments : Spec.Faithful noArguments where
  params := by decide
  keys := by decide
  complete := by intro p; simp [noArguments]
  holds := by intro args h e he; simp [noArguments] at he
  inverse := by intro e he; simp [noArguments] at he
  known := by simp [Spec.loads, noArguments]
  defaults := by simp [noArguments]

theorem Aux.faithful_default8 (cls : String) (perAxis : Bool) : Spec.Faithful (defaultConfig8 cls perAxis) where
  params := by simp [defaultConfig8]
  keys := by simp [defaultConfig8, own]
  complete := by intro p; simp [defaultConfig8, own]
  holds := by
    intro args h e he
    obtain ⟨v1, r1, rfl, h1⟩ := Aux.args_cons h
    obtain ⟨v2, r2, rfl, h2⟩ := Aux.args_cons h1
    obtain ⟨v3, r3, rfl, h3⟩ := Aux.args_cons h2
    obtain rfl := List.map_eq_nil_iff.1 h3
    simp only [defaultConfig8, own, List.map_cons, List.map_nil, List.mem_cons, List.not_mem_nil, or_false] at he
    rcases he with rfl | rfl | rfl <;> simp [defaultConfig8, List.lookup]
  inverse := by
    intro e he
    simp only [defaultConfig8, own, List.mem_map] at he
    obtain ⟨n, -, rfl⟩ := he
    simp [Spec.loads, defaultConfig8]
  known := by simp [Spec.loads, defaultConfig8]
  defaults := by simp [defaultConfig8]

theorem Aux.faithful_defaultN (cls : String) (perAxis : Bool) : Spec.Faithful (defaultConfigN cls perAxis) where
  params := by simp [defaultConfigN]
  keys := by simp [defaultConfigN, own]
  complete := by intro p; simp [defaultConfigN, own]
  holds := by
    intro args h e he
    obtain ⟨v1, r1, rfl, h1⟩ := Aux.args_cons h
    obtain ⟨v2, r2, rfl, h2⟩ := Aux.args_cons h1
    obtain ⟨v3, r3, rfl, h3⟩ := Aux.args_cons h2
    obtain ⟨v4, r4, rfl, h4⟩ := Aux.args_cons h3
    obtain ⟨v5, r5, rfl, h5⟩ := Aux.args_cons h4
    obtain rfl := List.map_eq_nil_iff.1 h5
    simp only [defaultConfigN, own, List.map_cons, List.map_nil, List.mem_cons, List.not_mem_nil, or_false,
      List.cons_append, List.nil_append] at he
    rcases he with rfl | rfl | rfl | rfl | rfl <;> simp [defaultConfigN, List.lookup, argOf]
  inverse := by
    intro e he
    simp only [defaultConfigN, own, List.map_cons, List.map_nil, List.mem_cons, List.not_mem_nil, or_false,
      List.cons_append, List.nil_append] at he
    rcases he with rfl | rfl | rfl | rfl | rfl <;> simp [Spec.loads, defaultConfigN]
  known := by simp [Spec.loads, defaultConfigN]
  defaults := by
    intro p v h
    simp only [defaultConfigN, List.mem_cons, Prod.mk.injEq, List.not_mem_nil, or_false, reduceCtorEq, and_false,
      false_or, Option.some.injEq] at h
    rcases h with ⟨-, rfl⟩ | ⟨-, rfl⟩ <;> simp [Spec.PlainValue, Spec.loads, defaultConfigN]

theorem Aux.faithful_output8 : Spec.Faithful outputConfig8 where
  params := by decide
  keys := by decide
  complete := by intro p; simp [outputConfig8, own]
  holds := by
    intro args h e he
    simp only [outputConfig8, own, List.mem_map] at he
    obtain ⟨n, -, rfl⟩ := he
    rfl
  inverse := by
    intro e he
    simp only [outputConfig8, own, List.mem_map] at he
    obtain ⟨n, -, rfl⟩ := he
    simp [Spec.loads, outputConfig8]
  known := by simp [Spec.loads, outputConfig8]
  defaults := by
    intro p v h
    simp only [outputConfig8, List.mem_cons, Prod.mk.injEq, List.not_mem_nil, or_false, Option.some.injEq] at h
    obtain ⟨-, rfl⟩ := h
    simp [Spec.PlainValue, Spec.loads, outputConfig8]

theorem Aux.faithful_outputN : Spec.Faithful outputConfigN where
  params := by simp [outputConfigN]
  keys := by simp [outputConfigN]
  complete := by intro p; simp [outputConfigN]
  holds := by
    intro args h e he
    obtain ⟨v1, r1, rfl, h1⟩ := Aux.args_cons h
    obtain ⟨v2, r2, rfl, h2⟩ := Aux.args_cons h1
    obtain rfl := List.map_eq_nil_iff.1 h2
    simp only [outputConfigN, List.mem_cons, List.not_mem_nil, or_false] at he
    rcases he with rfl | rfl <;> simp [outputConfigN, List.lookup, argOf]
  inverse := by
    intro e he
    simp only [outputConfigN, List.mem_cons, List.not_mem_nil, or_false] at he
    rcases he with rfl | rfl <;> simp [Spec.loads, outputConfigN]
  known := by simp [Spec.loads, outputConfigN]
  defaults := by
    intro p v h
    simp only [outputConfigN, List.mem_cons, Prod.mk.injEq, List.not_mem_nil, or_false, Option.some.injEq] at h
    rcases h with ⟨-, rfl⟩ | ⟨-, rfl⟩ <;> simp [Spec.PlainValue, Spec.loads, outputConfigN]

theorem Aux.faithful_outputOnly : Spec.Faithful outputOnlyConfig where
  params := by decide
  keys := by decide
  complete := by intro p; simp [outputOnlyConfig, own]
  holds := by
    intro args h e he
    simp only [outputOnlyConfig, own, List.mem_map] at he
    obtain ⟨n, -, rfl⟩ := he
    rfl
  inverse := by
    intro e he
    simp only [outputOnlyConfig, own, List.mem_map] at he
    obtain ⟨n, -, rfl⟩ := he
    simp [Spec.loads, outputOnlyConfig]
  known := by simp [Spec.loads, outputOnlyConfig]
  defaults := by simp [outputOnlyConfig]

theorem Aux.faithful_fixedConfig : Spec.Faithful fixedQuantizeConfig where
  params := by simp [fixedQuantizeConfig]
  keys := by simp [fixedQuantizeConfig, own]
  complete := by intro p; simp [fixedQuantizeConfig, own]
  holds := by
    intro args h e he
    obtain ⟨v1, r1, rfl, h1⟩ := Aux.args_cons h
    obtain ⟨v2, r2, rfl, h2⟩ := Aux.args_cons h1
    obtain ⟨v3, r3, rfl, h3⟩ := Aux.args_cons h2
    obtain ⟨v4, r4, rfl, h4⟩ := Aux.args_cons h3
    obtain ⟨v5, r5, rfl, h5⟩ := Aux.args_cons h4
    obtain rfl := List.map_eq_nil_iff.1 h5
    simp only [fixedQuantizeConfig, own, List.map_cons, List.map_nil, List.mem_cons, List.not_mem_nil, or_false] at he
    rcases he with rfl | rfl | rfl | rfl | rfl <;> simp [fixedQuantizeConfig, List.lookup]
  inverse := by
    intro e he
    simp only [fixedQuantizeConfig, own, List.map_cons, List.map_nil, List.mem_cons, List.not_mem_nil, or_false] at he
    rcases he with rfl | rfl | rfl | rfl | rfl <;> simp [Spec.loads, fixedQuantizeConfig]
  known := by simp [Spec.loads, fixedQuantizeConfig]
  defaults := by simp [fixedQuantizeConfig]

theorem Aux.faithful_wrapper : Spec.Faithful quantizeWrapper where
  params := by decide
  keys := by decide
  complete := by intro p; simp [quantizeWrapper, own]
  holds := by
    intro args h e he
    simp only [quantizeWrapper, own, List.map_cons, List.map_nil, List.mem_cons, List.not_mem_nil, or_false,
      List.cons_append, List.nil_append] at he
    rcases he with rfl | rfl | rfl | rfl | rfl <;> rfl
  inverse := by
    intro e he
    simp only [quantizeWrapper, own, List.map_cons, List.map_nil, List.mem_cons, List.not_mem_nil, or_false,
      List.cons_append, List.nil_append] at he
    rcases he with rfl | rfl | rfl | rfl | rfl <;> simp [Spec.loads, quantizeWrapper]
  known := by simp [Spec.loads, quantizeWrapper]
  defaults := by
    intro p v h
    simp only [quantizeWrapper, List.mem_cons, Prod.mk.injEq, List.not_mem_nil, or_false, reduceCtorEq, and_false,
      false_or, Option.some.injEq] at h
    rcases h with ⟨rfl, rfl⟩ | ⟨rfl, rfl⟩ <;> simp [Spec.PlainValue, Spec.loads, quantizeWrapper]

theorem Aux.faithful_annotate : Spec.Faithful quantizeAnnotate where
  params := by decide
  keys := by decide
  complete := by intro p; simp [quantizeAnnotate, own]
  holds := by
    intro args h e he
    simp only [quantizeAnnotate, own, List.map_cons, List.map_nil, List.mem_cons, List.not_mem_nil, or_false,
      List.cons_append, List.nil_append] at he
    rcases he with rfl | rfl | rfl | rfl | rfl <;> rfl
  inverse := by
    intro e he
    simp only [quantizeAnnotate, own, List.map_cons, List.map_nil, List.mem_cons, List.not_mem_nil, or_false,
      List.cons_append, List.nil_append] at he
    rcases he with rfl | rfl | rfl | rfl | rfl <;> simp [Spec.loads, quantizeAnnotate]
  known := by simp [Spec.loads, quantizeAnnotate]
  defaults := by
    intro p v h
    simp only [quantizeAnnotate, List.mem_cons, Prod.mk.injEq, List.not_mem_nil, or_false, reduceCtorEq, and_false,
      false_or, Option.some.injEq] at h
    rcases h with ⟨rfl, rfl⟩ | ⟨rfl, rfl⟩ | ⟨rfl, rfl⟩ <;> simp [Spec.PlainValue, Spec.loads, quantizeAnnotate]

theorem Aux.faithful_layer : Spec.Faithful quantizeLayer where
  params := by decide
  keys := by decide
  complete := by intro p; simp [quantizeLayer, own]
  holds := by
    intro args h e he
    simp only [quantizeLayer, own, List.map_cons, List.map_nil, List.mem_cons, List.not_mem_nil, or_false,
      List.cons_append, List.nil_append] at he
    rcases he with rfl | rfl | rfl | rfl <;> rfl
  inverse := by
    intro e he
    simp only [quantizeLayer, own, List.map_cons, List.map_nil, List.mem_cons, List.not_mem_nil, or_false,
      List.cons_append, List.nil_append] at he
    rcases he with rfl | rfl | rfl | rfl <;> simp [Spec.loads, quantizeLayer]
  known := by simp [Spec.loads, quantizeLayer]
  defaults := by
    intro p v h
    simp only [quantizeLayer, List.mem_cons, Prod.mk.injEq, List.not_mem_nil, or_false, reduceCtorEq, and_false,
      false_or, Option.some.injEq] at h
    rcases h with ⟨rfl, rfl⟩ | ⟨rfl, rfl⟩ <;> simp [Spec.PlainValue, Spec.loads, quantizeLayer]

/-- **C86 (library classes).**  Every class `quantize_scope` registers is faithful. -/
theorem C86_library_partial : ∀ c ∈ library, c.2.2 = true → Spec.Faithful c.2.1 := by
  intro c hc hs
  simp only [library, List.mem_cons, List.not_mem_nil, or_false] at hc
  rcases hc with rfl | rfl | rfl | rfl | rfl | rfl | rfl | rfl | rfl | rfl | rfl | rfl | rfl | rfl | rfl | rfl | rfl |
    rfl | rfl | rfl | rfl | rfl | rfl | rfl | rfl | rfl | rfl | rfl <;>
    first
      | exact Aux.faithful_range
      | exact Aux.faithful_fixedQuantizer
      | exact Aux.faithful_noArguments
      | exact Aux.faithful_default8 _ _
      | exact Aux.faithful_defaultN _ _
      | exact Aux.faithful_output8
      | exact Aux.faithful_outputN
      | exact Aux.faithful_outputOnly
      | exact Aux.faithful_fixedConfig
      | exact Aux.faithful_wrapper
      | exact Aux.faithful_annotate
      | exact Aux.faithful_layer
      | exact absurd hs (by decide)

/-- The classes registered under a quantize scope: the library's, or user-defined (and Keras') classes whose names
are not used by the library. -/
def Spec.Registered (user : List String) (c : String) : Prop :=
  (∃ d, (c, d, true) ∈ library) ∨ (c ∈ user ∧ library.lookup c = none)

theorem Aux.library_nodup : (library.map Prod.fst).Nodup := by decide

theorem Aux.registered {K' : String → Class} {user : List String} (hu : ∀ c ∈ user, Spec.Faithful (K' c)) {c : String}
    (h : Spec.Registered user c) : c ∈ quantizeScope user ∧ Spec.Faithful (classes K' c) := by
  rcases h with ⟨d, hd⟩ | ⟨h1, h2⟩
  · have hl := Aux.lookup_of_nodup library Aux.library_nodup c (d, true) hd
    refine ⟨List.mem_append_left _ (List.mem_map.2 ⟨(c, d, true), List.mem_filter.2 ⟨hd, rfl⟩, rfl⟩), ?_⟩
    unfold classes
    rw [hl]
    exact C86_library_partial _ hd rfl
  · refine ⟨List.mem_append_right _ h1, ?_⟩
    unfold classes
    rw [h2]
    exact hu c h1

/-- **C86.**  Under `quantize_scope`, with user-defined and Keras classes whose `get_config` returns their constructor
arguments, every quantizer, quantize config, quantize wrapper, annotation and `QuantizeLayer`, nested to any depth,
loads from its saved configuration as the object it was. -/
theorem C86_quantize_scope (K' : String → Class) (user : List String) (hu : ∀ c ∈ user, Spec.Faithful (K' c)) (o : Val)
    (ho : Spec.Made (classes K') (Spec.Registered user) o) :
    ∃ j m, serialize (classes K') o = .ok j ∧ deserialize (classes K') (quantizeScope user) j = .ok (o, m) :=
  C86_load_partial _ _ _ (fun _ hc => Aux.registered hu hc) o ho

/-- **C86 (loading the same configuration repeatedly).**  Without `FixedQuantizeConfig`, and with user-defined classes
that do not change the dictionary they are given, a saved configuration can be loaded any number of times. -/
theorem C86_repeatedly_partial (K' : String → Class) (user : List String)
    (hu : ∀ c ∈ user, Spec.Faithful (K' c) ∧ ∀ k, (K' c).fromConfig ≠ .inPlace k) (o : Val)
    (ho : Spec.Made (classes K') (fun c => Spec.Registered user c ∧ c ≠ "FixedQuantizeConfig") o) :
    ∃ j, serialize (classes K') o = .ok j ∧ ∀ n, ∃ m, Spec.reload (classes K') (quantizeScope user) j n = .ok (o, m) := by
  refine C86_reload _ _ _ (fun c hc => ?_) o ho
  obtain ⟨hc, hne⟩ := hc
  obtain ⟨h1, h2⟩ := Aux.registered (fun c hc => (hu c hc).1) hc
  refine ⟨h1, h2, fun k hk => ?_⟩
  rcases hc with ⟨d, hd⟩ | ⟨h3, h4⟩
  · have hl := Aux.lookup_of_nodup library Aux.library_nodup c (d, true) hd
    unfold classes at hk
    rw [hl] at hk
    exact hne (Aux.library_inPlace _ hd ⟨k, hk⟩)
  · unfold classes at hk
    rw [h4] at hk
    exact (hu c h3).2 k hk

/-! ### Non-vacuity -/

/-- A Keras layer class. -/
def Example.serDenseClass : Class :=
  { params := [("name", none), ("units", none)], config := own ["name", "units"] }

theorem Example.serDense_faithful : Spec.Faithful Example.serDenseClass where
  params := by decide
  keys := by decide
  complete := by intro p; simp [Example.serDenseClass, own]
  holds := by
    intro args h e he
    simp only [Example.serDenseClass, own, List.mem_map] at he
    obtain ⟨n, -, rfl⟩ := he
    rfl
  inverse := by
    intro e he
    simp only [Example.serDenseClass, own, List.mem_map] at he
    obtain ⟨n, -, rfl⟩ := he
    simp [Spec.loads, Example.serDenseClass]
  known := by simp [Spec.loads, Example.serDenseClass]
  defaults := by simp [Example.serDenseClass]

/-- A dense layer, the config it gets, restricted to its outputs, and the wrapped layer. -/
def Example.serDense : Val := .obj "Dense" (.ofList [("name", .str "dense"), ("units", .num 3)])

def Example.serConf : Val := .obj "Default8BitQuantizeConfig" (.ofList ([("weight_attrs", .strs ["kernel"]),
  ("activation_attrs", .strs ["activation"]), ("quantize_output", .bool false)] ++
  defaultQuantizers "LastValueQuantizer" false (.num 8) (.num 8)))

def Example.serOutputOnly : Val := .obj "OutputOnlyConfig" (.ofList [("quantize_config", Example.serConf)])

def Example.serWrapped : Val := .obj "QuantizeWrapperV2" (.ofList [("name", .str "quant_dense"), ("trainable", .bool true),
  ("dtype", .str "float32"), ("layer", Example.serDense), ("quantize_config", Example.serOutputOnly)])

/-- The hypotheses of `C86_quantize_scope` and `C86_repeatedly_partial` are met by a wrapped layer with a nested config. -/
example : Spec.Made (classes fun _ => Example.serDenseClass)
    (fun c => Spec.Registered ["Dense"] c ∧ c ≠ "FixedQuantizeConfig") Example.serWrapped ∧
    ∀ c ∈ ["Dense"], Spec.Faithful Example.serDenseClass := by
  refine ⟨?_, fun _ _ => Example.serDense_faithful⟩
  have hd : Spec.Made (classes fun _ => Example.serDenseClass)
      (fun c => Spec.Registered ["Dense"] c ∧ c ≠ "FixedQuantizeConfig") Example.serDense := by
    refine .mk "Dense" [("name", .str "dense"), ("units", .num 3)] _ ⟨.inr ⟨by simp, by decide⟩, by decide⟩ rfl ?_ ?_ ?_
    · intro kv h _ h'; exact absurd h' (by rw [show Spec.loads _ = [] from rfl]; simp)
    · intro kv h; simp only [List.mem_cons, List.not_mem_nil, or_false] at h
      rcases h with rfl | rfl <;> simp [Spec.PlainValue]
    · intro kv h; simp only [List.mem_cons, List.not_mem_nil, or_false] at h
      rcases h with rfl | rfl <;> simp [Spec.PlainValue]
  have hc : Spec.Made (classes fun _ => Example.serDenseClass)
      (fun c => Spec.Registered ["Dense"] c ∧ c ≠ "FixedQuantizeConfig") Example.serConf := by
    refine .mk "Default8BitQuantizeConfig" [("weight_attrs", .strs ["kernel"]),
      ("activation_attrs", .strs ["activation"]), ("quantize_output", .bool false)] _
      ⟨.inl ⟨defaultConfig8 "LastValueQuantizer" false, by simp [library]⟩, by decide⟩ rfl ?_ ?_ ?_
    · intro kv h _ h'; exact absurd h' (by rw [show Spec.loads _ = [] from rfl]; simp)
    · intro kv h; simp only [List.mem_cons, List.not_mem_nil, or_false] at h
      rcases h with rfl | rfl | rfl <;> simp [Spec.PlainValue]
    · intro kv h; simp only [List.mem_cons, List.not_mem_nil, or_false] at h
      rcases h with rfl | rfl | rfl <;> simp [Spec.PlainValue]
  have ho : Spec.Made (classes fun _ => Example.serDenseClass)
      (fun c => Spec.Registered ["Dense"] c ∧ c ≠ "FixedQuantizeConfig") Example.serOutputOnly := by
    refine .mk "OutputOnlyConfig" [("quantize_config", Example.serConf)] _
      ⟨.inl ⟨outputOnlyConfig, by simp [library]⟩, by decide⟩ rfl ?_ ?_ ?_
    · intro kv h _ h'; exact absurd h' (by rw [show Spec.loads _ = [] from rfl]; simp)
    · intro kv h; simp only [List.mem_cons, List.not_mem_nil, or_false] at h
      subst h; simp
    · intro kv h; simp only [List.mem_cons, List.not_mem_nil, or_false] at h
      subst h; exact fun _ => hc
  refine .mk "QuantizeWrapperV2" [("layer", Example.serDense), ("quantize_config", Example.serOutputOnly),
    ("name", .str "quant_dense")] _ ⟨.inl ⟨quantizeWrapper, by simp [library]⟩, by decide⟩ rfl ?_ ?_ ?_
  · intro kv h; simp only [List.mem_cons, List.not_mem_nil, or_false] at h
    rcases h with rfl | rfl | rfl
    · simp [Example.serDense, Spec.PlainValue]
    · simp [Example.serOutputOnly, Spec.PlainValue]
    · intro _ h'; exact absurd h' (by rw [show Spec.loads _ = ["quantize_config", "layer"] from rfl]; simp)
  · intro kv h; simp only [List.mem_cons, List.not_mem_nil, or_false] at h
    rcases h with rfl | rfl | rfl <;> simp [Spec.PlainValue]
  · intro kv h; simp only [List.mem_cons, List.not_mem_nil, or_false] at h
    rcases h with rfl | rfl | rfl
    · exact fun _ => hd
    · exact fun _ => ho
    · simp [Spec.PlainValue]

/-! ### Where C86 fails -/

/-- C86 fails for the weight quantizers of convolutions, even when the user adds them to the scope: `get_config` is
inherited and returns four keys, none of which the constructors accept. -/
theorem C86_conv_quantizers_violated (K' : String → Class) (user : List String) : ∀ cls ∈
    ["Default8BitConvWeightsQuantizer", "Default8BitConvTransposeWeightsQuantizer", "DefaultNBitConvWeightsQuantizer",
      "DefaultNBitConvTransposeWeightsQuantizer"], cls ∈ user →
    ∃ o j, construct (classes K' cls) cls [] = .ok o ∧ serialize (classes K') o = .ok j ∧
      deserialize (classes K') (quantizeScope user) j = .error .type := by
  intro cls h hu
  have hmem : (quantizeScope user).contains cls = true := by
    rw [List.contains_iff_mem]; exact List.mem_append_right _ hu
  simp only [List.mem_cons, List.not_mem_nil, or_false] at h
  rcases h with rfl | rfl | rfl | rfl
  all_goals
    refine ⟨_, _, rfl, rfl, ?_⟩
    rw [show ∀ c items, deserialize (classes K') (quantizeScope user) (.dict (.ofList [("class_name", .str c),
      ("config", .dict (.ofList items))])) = _ from fun c items =>
        Aux.deserialize_stored (classes K') (quantizeScope user) c items false]
    unfold loadObject
    dsimp only
    rw [if_pos hmem]
    rfl

/-- C86 fails for `FixedQuantizeConfig` when the same configuration is loaded twice: the first load replaces the
stored inner config by an object, which the second load rejects. -/
theorem C86_fixed_violated (K' : String → Class) : ∃ o j m,
    construct (classes K' "FixedQuantizeConfig") "FixedQuantizeConfig" [("config", .obj "NoOpQuantizeConfig" .nil),
      ("num_bits", .num 8), ("init_min", .num 0), ("init_max", .num 1), ("narrow_range", .bool false)] = .ok o ∧
    serialize (classes K') o = .ok j ∧ Spec.reload (classes K') (quantizeScope []) j 0 = .ok (o, m) ∧
    Spec.reload (classes K') (quantizeScope []) j 1 = .error .value :=
  ⟨_, _, _, rfl, rfl, rfl, rfl⟩

/-- The classes a saved quantized model can mention, with the names of their constructor arguments. -/
def Spec.savedClasses : List (String × List String) :=
  (["LastValueQuantizer", "MovingAverageQuantizer", "AllValuesQuantizer"].map fun c =>
    (c, ["num_bits", "per_axis", "symmetric", "narrow_range"])) ++
  [("FixedQuantizer", ["num_bits", "init_min", "init_max", "narrow_range"]), ("NoQuantizer", [])] ++
  (["Default8BitQuantizeConfig", "Default8BitQuantizeConfigRNN", "Default8BitConvQuantizeConfig",
    "Default8BitConvTransposeQuantizeConfig"].map fun c => (c, ["weight_attrs", "activation_attrs", "quantize_output"])) ++
  (["DefaultNBitQuantizeConfig", "DefaultNBitQuantizeConfigRNN", "DefaultNBitConvQuantizeConfig",
    "DefaultNBitConvTransposeQuantizeConfig"].map fun c =>
    (c, ["weight_attrs", "activation_attrs", "quantize_output", "num_bits_weight", "num_bits_activation"])) ++
  (["Default8BitActivationQuantizeConfig", "Default8BitOutputQuantizeConfig"].map fun c => (c, ["quantize_output"])) ++
  (["DefaultNBitActivationQuantizeConfig", "DefaultNBitOutputQuantizeConfig"].map fun c =>
    (c, ["num_bits_weight", "num_bits_activation"])) ++
  [("NoOpQuantizeConfig", []), ("OutputOnlyConfig", ["quantize_config"]),
    ("FixedQuantizeConfig", ["config", "num_bits", "init_min", "init_max", "narrow_range"])] ++
  (["QuantizeWrapper", "QuantizeWrapperV2", "QuantizeAnnotate"].map fun c =>
    (c, ["name", "trainable", "dtype", "layer", "quantize_config"])) ++
  [("QuantizeLayer", ["name", "trainable", "dtype", "quantizer"])]

theorem Aux.mem_of_lookup {A : Type*} {l : List (String × A)} {k : String} {a : A} (h : l.lookup k = some a) :
    (k, a) ∈ l := by
  induction l with
  | nil => cases h
  | cons x xs ih =>
    rw [List.lookup_cons] at h
    by_cases hk : k = x.1
    · subst hk
      simp only [BEq.rfl, Option.some.injEq] at h
      subst h
      exact List.mem_cons_self
    · rw [(beq_eq_false_iff_ne).2 hk] at h
      exact List.mem_cons_of_mem _ (ih h)

/-- **C86 (the scope).**  `quantize_scope(user)` knows exactly the user's classes and those of the library that a saved
model can mention; the latter have the constructor arguments given above, and are faithful. -/
theorem C86_scope_partial (K' : String → Class) (user : List String) :
    (∀ c, c ∈ quantizeScope user ↔ c ∈ user ∨ c ∈ Spec.savedClasses.map Prod.fst) ∧
    ∀ c ∈ Spec.savedClasses, (classes K' c.1).params.map Prod.fst = c.2 ∧ Spec.Faithful (classes K' c.1) := by
  have h1 : ∀ c, c ∈ (library.filter fun c => c.2.2).map Prod.fst ↔ c ∈ Spec.savedClasses.map Prod.fst := by
    have ha : ∀ c ∈ (library.filter fun c => c.2.2).map Prod.fst, c ∈ Spec.savedClasses.map Prod.fst := by
      decide +kernel
    have hb : ∀ c ∈ Spec.savedClasses.map Prod.fst, c ∈ (library.filter fun c => c.2.2).map Prod.fst := by
      decide +kernel
    exact fun c => ⟨ha c, hb c⟩
  have h2 : ∀ c ∈ Spec.savedClasses, (library.lookup c.1).map (fun d => (d.1.params.map Prod.fst, d.2)) = some (c.2, true) := by
    decide +kernel
  refine ⟨fun c => ?_, fun c hc => ?_⟩
  · rw [quantizeScope, List.mem_append, h1, or_comm]
  · obtain ⟨d, hd, hp⟩ := Option.map_eq_some_iff.1 (h2 c hc)
    simp only [Prod.mk.injEq] at hp
    have hcl : classes K' c.1 = d.1 := by
      unfold classes
      rw [hd]
    rw [hcl]
    exact ⟨hp.1, C86_library_partial (c.1, d) (Aux.mem_of_lookup hd) hp.2⟩

/-- C86 fails for the configs handed out by the sparsity- and cluster-preserving registries (C75), which exchange the
weight quantizer of a default config: whatever was put there, the loaded config has the ordinary quantizer again, so
sparsity or clusters are no longer preserved. -/
theorem C86_preserving_violated (K' : String → Class) (q w a out : Val) (hw : Spec.PlainValue w)
    (ha : Spec.PlainValue a) (hout : Spec.PlainValue out) : ∃ j m,
    serialize (classes K') (.obj "Default8BitQuantizeConfig" (.ofList [("weight_attrs", w), ("activation_attrs", a),
      ("quantize_output", out), ("weight_quantizer", q),
      ("activation_quantizer", .obj "MovingAverageQuantizer" (rangeAttrs (.num 8) false false false))])) = .ok j ∧
    deserialize (classes K') (quantizeScope []) j = .ok (.obj "Default8BitQuantizeConfig" (.ofList [("weight_attrs", w),
      ("activation_attrs", a), ("quantize_output", out),
      ("weight_quantizer", .obj "LastValueQuantizer" (rangeAttrs (.num 8) false true true)),
      ("activation_quantizer", .obj "MovingAverageQuantizer" (rangeAttrs (.num 8) false false false))]), m) := by
  cases w <;> simp only [Spec.PlainValue] at hw <;> cases a <;> simp only [Spec.PlainValue] at ha <;>
    cases out <;> simp only [Spec.PlainValue] at hout <;> exact ⟨_, _, rfl, rfl⟩

/-- The attributes of a range quantizer. -/
def Spec.quantizerObj (cls : String) (bits : Val) (perAxis symmetric narrow : Bool) : Val :=
  .obj cls (.ofList [("num_bits", bits), ("per_axis", .bool perAxis), ("symmetric", .bool symmetric),
    ("narrow_range", .bool narrow)])

/-- The default configs with the class and the `per_axis` of the weight quantizer, and whether they have bit
arguments. -/
def Spec.defaultConfigs : List (String × String × Bool × Bool) := [
  ("Default8BitQuantizeConfig", "LastValueQuantizer", false, false),
  ("Default8BitQuantizeConfigRNN", "LastValueQuantizer", false, false),
  ("Default8BitConvQuantizeConfig", "Default8BitConvWeightsQuantizer", true, false),
  ("Default8BitConvTransposeQuantizeConfig", "Default8BitConvTransposeWeightsQuantizer", false, false),
  ("DefaultNBitQuantizeConfig", "LastValueQuantizer", false, true),
  ("DefaultNBitQuantizeConfigRNN", "LastValueQuantizer", false, true),
  ("DefaultNBitConvQuantizeConfig", "DefaultNBitConvWeightsQuantizer", true, true),
  ("DefaultNBitConvTransposeQuantizeConfig", "DefaultNBitConvTransposeWeightsQuantizer", false, true)]

/-- The keyword arguments of a default config. -/
def Spec.configArgs (hasBits : Bool) (w a out bw ba : Val) : List (String × Val) :=
  [("weight_attrs", w), ("activation_attrs", a), ("quantize_output", out)] ++
    if hasBits then [("num_bits_weight", bw), ("num_bits_activation", ba)] else []

/-- **C86 (quantizers of a loaded config).**  A default config, made with any attributes and numbers of bits, saved
and loaded, has again a symmetric narrow weight quantizer with the bits for weights, per axis for convolutions
only, and an asymmetric full-range moving-average activation quantizer with the bits for activations (8 bits each
for the 8-bit configs). -/
theorem C86_quantizers (K' : String → Class) (w a out bw ba : Val)
    (hw : Spec.PlainValue w) (ha : Spec.PlainValue a) (hout : Spec.PlainValue out) (hbw : Spec.PlainValue bw)
    (hba : Spec.PlainValue ba) : ∀ c ∈ Spec.defaultConfigs, ∃ f j m,
    construct (classes K' c.1) c.1 (Spec.configArgs c.2.2.2 w a out bw ba) = .ok (.obj c.1 f) ∧
    serialize (classes K') (.obj c.1 f) = .ok j ∧
    deserialize (classes K') (quantizeScope []) j = .ok (.obj c.1 f, m) ∧
    f.get "weight_quantizer" =
      some (Spec.quantizerObj c.2.1 (if c.2.2.2 then bw else .num 8) c.2.2.1 true true) ∧
    f.get "activation_quantizer" =
      some (Spec.quantizerObj "MovingAverageQuantizer" (if c.2.2.2 then ba else .num 8) false false false) := by
  intro c hc
  have key : ∀ c ∈ Spec.defaultConfigs, ∃ f,
      construct (classes K' c.1) c.1 (Spec.configArgs c.2.2.2 w a out bw ba) = .ok (.obj c.1 f) ∧
      f.get "weight_quantizer" =
        some (Spec.quantizerObj c.2.1 (if c.2.2.2 then bw else .num 8) c.2.2.1 true true) ∧
      f.get "activation_quantizer" =
        some (Spec.quantizerObj "MovingAverageQuantizer" (if c.2.2.2 then ba else .num 8) false false false) := by
    intro c hc
    simp only [Spec.defaultConfigs, List.mem_cons, List.not_mem_nil, or_false] at hc
    rcases hc with rfl | rfl | rfl | rfl | rfl | rfl | rfl | rfl <;> exact ⟨_, rfl, rfl, rfl⟩
  obtain ⟨f, h1, h2, h3⟩ := key c hc
  have hplain : ∀ kv ∈ Spec.configArgs c.2.2.2 w a out bw ba, Spec.PlainValue kv.2 := by
    intro kv hkv
    unfold Spec.configArgs at hkv
    cases hb : c.2.2.2 <;> rw [hb] at hkv <;> simp only [if_true, Bool.false_eq_true, if_false, List.append_nil, List.cons_append,
      List.nil_append, List.mem_cons, List.not_mem_nil, or_false] at hkv
    · rcases hkv with rfl | rfl | rfl <;> assumption
    · rcases hkv with rfl | rfl | rfl | rfl | rfl <;> assumption
  have hreg : ∀ c ∈ Spec.defaultConfigs, ∃ d, (c.1, d, true) ∈ library := by
    intro c hc
    simp only [Spec.defaultConfigs, List.mem_cons, List.not_mem_nil, or_false] at hc
    rcases hc with rfl | rfl | rfl | rfl | rfl | rfl | rfl | rfl <;>
      exact ⟨_, by unfold library; repeat (first | exact .head _ | apply List.Mem.tail)⟩
  have hloads : ∀ c ∈ Spec.defaultConfigs, Spec.loads (classes K' c.1) = [] := by
    intro c hc
    simp only [Spec.defaultConfigs, List.mem_cons, List.not_mem_nil, or_false] at hc
    rcases hc with rfl | rfl | rfl | rfl | rfl | rfl | rfl | rfl <;> rfl
  have made : Spec.Made (classes K') (Spec.Registered []) (.obj c.1 f) := by
    refine .mk c.1 (Spec.configArgs c.2.2.2 w a out bw ba) _ (Or.inl (hreg c hc)) h1 ?_ ?_ ?_
    · intro kv _ _ hl
      have : Spec.loads (classes K' c.1) = [] := hloads c hc
      rw [this] at hl
      cases hl
    · exact fun kv hkv h => absurd (hplain kv hkv) h
    · exact fun kv hkv h => absurd (hplain kv hkv) h
  obtain ⟨j, m, h4, h5⟩ := C86_quantize_scope K' [] (by simp) _ made
  exact ⟨f, j, m, h1, h4, h5, h2, h3⟩

end Verif.Props
