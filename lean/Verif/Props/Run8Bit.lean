import Verif.Props.CustomConfig
import Std.Data.String.ToNat

/-!
# C57, C58, C77: complete runs of the 8-bit layout transforms on concrete models
-/

set_option linter.unusedSectionVars false

namespace Verif.Props
open Verif.Quant.Transformer Verif.Quant.Transforms8Bit

namespace Aux

theorem digit_ne (j : ℕ) (ch : Char) (h : ch.isDigit = false) : ch ∉ (toString j).toList := by
  intro hm
  have h1 : ch ∈ Nat.toDigits 10 j := by
    rw [show toString j = j.repr from rfl, Nat.toList_repr] at hm; exact hm
  have := Nat.isDigit_of_mem_toDigits (by decide) (by decide) h1
  rw [h] at this; simp at this

theorem split_last {a b x y : List Char} {ch : Char} (hx : ch ∉ x) (hy : ch ∉ y)
    (h : a ++ ch :: x = b ++ ch :: y) : x = y := by
  have h' := congrArg List.reverse h
  simp only [List.reverse_append, List.reverse_cons, List.append_assoc, List.singleton_append] at h'
  have key : ∀ (x y a b : List Char), ch ∉ x → ch ∉ y → x ++ ch :: a = y ++ ch :: b → x = y := by
    intro x
    induction x with
    | nil =>
      intro y a b _ hy h
      cases y with
      | nil => rfl
      | cons c y =>
        simp only [List.nil_append, List.cons_append, List.cons.injEq] at h
        simp [← h.1] at hy
    | cons c x ih =>
      intro y a b hx hy h
      cases y with
      | nil =>
        simp only [List.nil_append, List.cons_append, List.cons.injEq] at h
        simp [h.1] at hx
      | cons d y =>
        simp only [List.cons_append, List.cons.injEq] at h
        simp only [List.mem_cons, not_or] at hx hy
        rw [h.1, ih y a b hx.2 hy.2 h.2]
  have := key x.reverse y.reverse a.reverse b.reverse (by simpa using hx) (by simpa using hy) h'
  exact List.reverse_injective this

theorem autoName_toList (p : String) (j : ℕ) :
    (autoName p j).toList = p.toList ++ '_' :: (toString j).toList := by
  rw [autoName, String.toList_append, String.toList_append]
  simp

/-- The names `prefix_number` are new and distinct if the names of the model contain no `_`. -/
theorem freshNames_autoName (names : List String) (h : ∀ x ∈ names, '_' ∉ x.toList) :
    Spec.FreshNames autoName names := by
  refine ⟨?_, ?_, ?_⟩
  · intro p j p' j' he
    have h1 := congrArg String.toList he
    rw [autoName_toList, autoName_toList] at h1
    have h2 := split_last (digit_ne j '_' (by decide)) (digit_ne j' '_' (by decide)) h1
    exact Nat.repr_injective (String.toList_inj.1 h2)
  · intro p j hm
    refine h _ hm ?_
    rw [autoName_toList]; simp
  · intro x hx
    refine ⟨?_, ?_⟩
    · intro hm
      refine h _ hm ?_
      rw [String.toList_append]; simp
    · intro p j he
      have h1 := congrArg String.toList he
      rw [autoName_toList, String.toList_append] at h1
      have e : ("_QAT_SepConv2D" : String).toList = "_QAT".toList ++ '_' :: "SepConv2D".toList := by
        decide
      rw [e, ← List.append_assoc] at h1
      have h2 := split_last (by decide) (digit_ne j '_' (by decide)) h1
      have : 'S' ∈ (toString j).toList := by rw [← h2]; decide
      exact digit_ne j 'S' (by decide) this

end Aux

namespace Example

/-- A semantics for examples: a `Concatenate` depends on the order of its arguments, every other
layer adds up its weights and arguments. -/
def catSem : Spec.Semantics ℕ ℕ := fun cls _ w args _ =>
  if cls = "Concatenate" then args.foldl (fun acc a => 10 * acc + a.1) 0
  else (w.map (·.2)).sum + (args.map (·.1)).sum

theorem catSem_other {cls : String} (h : cls ≠ "Concatenate") (cfg w args t) :
    catSem cls cfg w args t = (w.map (·.2)).sum + (args.map (·.1)).sum := if_neg h

theorem catSem_float : Spec.FloatOps catSem autoName id id id String := by
  refine ⟨fun _ _ _ _ _ => rfl, ?_, ?_, ?_⟩
  · intro x t; simp [catSem]
  · intro k n r k' hw hcls hr hc args
    obtain ⟨l, w, i, ins⟩ := n
    change w.length = (if l.get "use_bias" = "True" then 3 else 2) at hw
    change l.cls = _ at hcls
    simp only [replaceSepConv1D, hc, Bool.false_eq_true, if_false] at hr
    split at hr
    · simp at hr
    simp only [Except.ok.injEq, Prod.mk.injEq] at hr
    obtain ⟨hr, -⟩ := hr
    rw [← hr]
    funext t
    rw [Spec.chainValue, Spec.chainValue, Spec.chainValue]
    show _ = catSem l.cls l.config w args t
    rw [catSem_other (by simp), catSem_other (by simp), catSem_other (by simp),
      catSem_other (by rw [hcls]; simp)]
    by_cases hb : l.get "use_bias" = "True"
    · rw [if_pos hb] at hw
      rw [if_pos (show (Node.mk l w i ins).layer.get "use_bias" = "True" from hb)]
      match w, hw with
      | [a, b, d], _ => simp [Node.weights]
    · rw [if_neg hb] at hw
      rw [if_neg (show ¬ (Node.mk l w i ins).layer.get "use_bias" = "True" from hb)]
      match w, hw with
      | [a, b], _ => simp [Node.weights]
  · intro k n r k' hw hcls hr hc args
    obtain ⟨l, w, i, ins⟩ := n
    change w.length = (if l.get "use_bias" = "True" then 3 else 2) at hw
    change l.cls = _ at hcls
    simp only [replaceSepConv, hc, Bool.false_eq_true, if_false, Except.ok.injEq,
      Prod.mk.injEq] at hr
    obtain ⟨hr, -⟩ := hr
    rw [← hr]
    funext t
    rw [Spec.chainValue, Spec.chainValue]
    show _ = catSem l.cls l.config w args t
    rw [catSem_other (by simp), catSem_other (by simp), catSem_other (by rw [hcls]; simp)]
    by_cases hb : l.get "use_bias" = "True"
    · rw [if_pos hb] at hw
      rw [if_pos (show (Node.mk l w i ins).layer.get "use_bias" = "True" from hb)]
      match w, hw with
      | [a, b, d], _ => simp [Node.weights]; omega
    · rw [if_neg hb] at hw
      rw [if_neg (show ¬ (Node.mk l w i ins).layer.get "use_bias" = "True" from hb)]
      match w, hw with
      | [a, b], _ => simp [Node.weights]; omega

def allClasses : Classes := ⟨fun _ => true, fun _ => true, {}⟩

def transforms8 : List (Transform ℕ (Meta String)) := transforms autoName allClasses id id id

def metaEq8 (a b : Meta String) : Bool := decide (a = b)

/-- The result of the loops, checked by `p`. -/
def runCheck (g : Graph ℕ (Meta String)) (p : Graph ℕ (Meta String) → Bool) : Bool :=
  match run metaEq8 transforms8 200 (start transforms8 g) with
  | some (.ok g') => p g'
  | _ => false

theorem runCheck_spec {g p} (h : runCheck g p = true) :
    ∃ g', run metaEq8 transforms8 200 (start transforms8 g) = some (.ok g') ∧ p g' = true := by
  rw [runCheck] at h
  split at h
  · rename_i g' hg
    exact ⟨g', hg, h⟩
  · simp at h

/-- Whether the values `val` (the same for all tensors of a layer) are a run. -/
def runBool (g : Graph ℕ (Meta String)) (val : String → ℕ) : Bool :=
  g.layers.all fun l => l.inbound.all fun node =>
    decide (val l.name = catSem l.cls l.config (g.weights l.name)
      (node.map (Spec.argOf fun s _ _ => val s)) 0)

theorem runBool_spec {g val} (h : runBool g val = true) :
    Spec.IsRun catSem g fun s _ _ => val s := by
  refine ⟨?_, fun _ _ _ _ => rfl⟩
  intro l hl i node hnode
  simp only [runBool, List.all_eq_true, decide_eq_true_eq] at h
  funext t
  exact h l hl node (List.mem_of_getElem? hnode)

/-- `in -> conv -> bn -> relu -> sep`, with a separable convolution at the end. -/
def chainModel (functional : Bool) : Graph ℕ (Meta String) :=
  { functional := functional
    layers := [⟨"in", "InputLayer", [], []⟩,
      ⟨"conv", "Conv2D", [("activation", "linear")], [[⟨"in", 0, 0, []⟩]]⟩,
      ⟨"bn", "BatchNormalization", [], [[⟨"conv", 0, 0, []⟩]]⟩,
      ⟨"relu", "ReLU", [], [[⟨"bn", 0, 0, []⟩]]⟩,
      ⟨"sep", "SeparableConv1D", [("use_bias", "True")], [[⟨"relu", 0, 0, []⟩]]⟩]
    outputs := [("sep", 0, 0)]
    weights := fun n => if n = "conv" then [("kernel", 5)] else
      if n = "sep" then [("depthwise", 1), ("pointwise", 2), ("bias", 3)] else []
    metadata := fun _ => none
    candidates := [] }

def chainValues (s : String) : ℕ :=
  match s with
  | "in" => 1 | "conv" => 6 | "bn" => 6 | "relu" => 6 | "sep" => 12
  | "quantize_layer_0" => 1 | "sepconv1d_expand_1" => 6 | "depthwise_conv2d_3" => 7
  | "conv2d_4" => 12 | "sepconv1d_squeeze_2" => 12 | _ => 0

end Example

open Example in
/-- The hypotheses of C77_default8bit_partial are met by `chainModel true`; the loops end, with a
model that contains the layers the transforms made. -/
example : (chainModel true).functional = true ∧ Spec.Valid (chainModel true) ∧
    Spec.Unary (chainModel true) ∧ (∀ l ∈ (chainModel true).layers, l.cls ≠ "Concatenate") ∧
    Spec.FreshNames autoName ((chainModel true).layers.map (·.name)) ∧
    Spec.FloatOps catSem autoName id id id String ∧
    Spec.IsRun catSem (chainModel true) (fun s _ _ => chainValues s) ∧
    ∃ g', run metaEq8 transforms8 200 (start transforms8 (chainModel true)) = some (.ok g') ∧
      Spec.IsRun catSem g' (fun s _ _ => chainValues s) ∧
      g'.layers.map (·.cls) = ["QuantizeLayer", "InputLayer", "Lambda", "Lambda", "Conv2D",
        "DepthwiseConv2D", "ReLU", "BatchNormalization", "Conv2D"] := by
  refine ⟨rfl, ⟨by unfold Spec.UniqueNames; decide +kernel, ?_, ?_, ?_, ?_⟩, ⟨?_, ?_, ?_, ?_⟩,
    by decide +kernel, ?_, catSem_float, runBool_spec (by decide +kernel), ?_⟩
  · intro l hl node hnode c hc r hr
    simp only [chainModel, List.mem_cons, List.not_mem_nil, or_false] at hl
    rcases hl with rfl | rfl | rfl | rfl | rfl <;> simp at hnode <;> subst hnode <;> simp at hc <;>
      subst hc <;> simp [Spec.refs] at hr <;> subst hr <;>
      simp [Spec.IsCall, chainModel]
  · intro o ho
    simp only [chainModel, List.mem_cons, List.not_mem_nil, or_false] at ho
    subst ho
    simp [Spec.IsCall, chainModel]
  · refine ⟨fun s _ => (["in", "conv", "bn", "relu", "sep"] : List String).idxOf s, ?_⟩
    intro l hl i node hnode c hc r hr
    have hnode' := List.mem_of_getElem? hnode
    simp only [chainModel, List.mem_cons, List.not_mem_nil, or_false] at hl
    rcases hl with rfl | rfl | rfl | rfl | rfl <;> simp at hnode' <;> subst hnode' <;> simp at hc <;>
      subst hc <;> simp [Spec.refs] at hr <;> subst hr <;> simp
  · intro n hn
    simp only [chainModel, List.mem_cons, List.not_mem_nil, or_false, forall_eq_or_imp,
      forall_eq] at hn
    simp [chainModel, Ne.symm hn.2.1, Ne.symm hn.2.2.2.2]
  · decide +kernel
  · decide +kernel
  · intro l hl p hp hm node hnode
    simp only [chainModel, List.mem_cons, List.not_mem_nil, or_false] at hl
    rcases hl with rfl | rfl | rfl | rfl | rfl <;> simp at hnode <;> subst hnode <;> exact ⟨_, _, rfl⟩
  · intro l hl hc
    simp only [chainModel, List.mem_cons, List.not_mem_nil, or_false] at hl
    rcases hl with rfl | rfl | rfl | rfl | rfl <;> simp at hc
    simp [Spec.SepWeights, chainModel, Layer.get, List.lookup]
  · exact Aux.freshNames_autoName _ (by decide +kernel)
  · have h : runCheck (chainModel true) (fun g' => runBool g' chainValues &&
        decide (g'.layers.map (·.cls) = ["QuantizeLayer", "InputLayer", "Lambda", "Lambda", "Conv2D",
        "DepthwiseConv2D", "ReLU", "BatchNormalization", "Conv2D"])) = true := by decide +kernel
    obtain ⟨g', h1, h2⟩ := runCheck_spec h
    simp only [Bool.and_eq_true, decide_eq_true_eq] at h2
    exact ⟨g', h1, runBool_spec h2.1, h2.2⟩

open Example in
/-- The hypotheses of C77_sequential (and of C58_sequential) are met by `chainModel false`. -/
example : Spec.SequentialModel (chainModel false) ∧
    Spec.FreshNames autoName ((chainModel false).layers.map (·.name)) ∧
    ∃ g', run metaEq8 transforms8 200 (start transforms8 (chainModel false)) = some (.ok g') ∧
      g'.layers.map (·.cls) = ["InputLayer", "QuantizeLayer", "Conv2D", "BatchNormalization", "ReLU",
        "Lambda", "DepthwiseConv2D", "Conv2D", "Lambda"] ∧
      Spec.sequentialValue catSem g' 1 = 12 := by
  refine ⟨⟨rfl, by unfold Spec.UniqueNames; decide +kernel, by decide +kernel, ?_, ?_⟩, ?_, ?_⟩
  · intro l hl hc
    simp only [chainModel, List.mem_cons, List.not_mem_nil, or_false] at hl
    rcases hl with rfl | rfl | rfl | rfl | rfl <;> simp at hc
    simp [Spec.SepWeights, chainModel, Layer.get, List.lookup]
  · intro n hn
    simp only [chainModel, List.mem_cons, List.not_mem_nil, or_false, forall_eq_or_imp,
      forall_eq] at hn
    simp [chainModel, Ne.symm hn.2.1, Ne.symm hn.2.2.2.2]
  · exact Aux.freshNames_autoName _ (by decide +kernel)
  · have h : runCheck (chainModel false) (fun g' =>
        decide (g'.layers.map (·.cls) = ["InputLayer", "QuantizeLayer", "Conv2D",
          "BatchNormalization", "ReLU", "Lambda", "DepthwiseConv2D", "Conv2D", "Lambda"]) &&
        decide (Spec.sequentialValue catSem g' 1 = 12)) = true := by decide +kernel
    obtain ⟨g', h1, h2⟩ := runCheck_spec h
    simp only [Bool.and_eq_true, decide_eq_true_eq] at h2
    exact ⟨g', h1, h2⟩

namespace Example

/-- `cat([pool, conv])` of two layers on the same input, where `conv` was made first. -/
def catModel : Graph ℕ (Meta String) :=
  { functional := true
    layers := [⟨"in", "InputLayer", [], []⟩,
      ⟨"conv", "Conv2D", [("activation", "linear")], [[⟨"in", 0, 0, []⟩]]⟩,
      ⟨"pool", "MaxPooling2D", [], [[⟨"in", 0, 0, []⟩]]⟩,
      ⟨"cat", "Concatenate", [], [[⟨"pool", 0, 0, []⟩, ⟨"conv", 0, 0, []⟩]]⟩]
    outputs := [("cat", 0, 0)]
    weights := fun n => if n = "conv" then [("kernel", 5)] else []
    metadata := fun _ => none
    candidates := [] }

def catValues (out : ℕ) (s : String) : ℕ :=
  match s with
  | "in" => 1 | "conv" => 6 | "pool" => 1 | "cat" => out | "quantize_layer_0" => 1 | _ => 0

/-- `in -> dense -> relu` in which `dense` has the custom config `"mine"`, and `conv -> relu`
without custom configs. -/
def customModel (cls : String) (q : Option (Meta String)) : Graph ℕ (Meta String) :=
  { functional := true
    layers := [⟨"in", "InputLayer", [], []⟩, ⟨"x", cls, [], [[⟨"in", 0, 0, []⟩]]⟩,
      ⟨"relu", "ReLU", [], [[⟨"x", 0, 0, []⟩]]⟩]
    outputs := [("relu", 0, 0)]
    weights := fun n => if n = "x" then [("kernel", 5)] else []
    metadata := fun n => if n = "x" then q else none
    candidates := [] }

/-- `in -> dense -> bn -> relu`. -/
def denseModel : Graph ℕ (Meta String) :=
  { functional := true
    layers := [⟨"in", "InputLayer", [], []⟩,
      ⟨"dense", "Dense", [("activation", "linear")], [[⟨"in", 0, 0, []⟩]]⟩,
      ⟨"bn", "BatchNormalization", [], [[⟨"dense", 0, 0, []⟩]]⟩,
      ⟨"relu", "ReLU", [], [[⟨"bn", 0, 0, []⟩]]⟩]
    outputs := [("relu", 0, 0)]
    weights := fun _ => []
    metadata := fun _ => none
    candidates := [] }

end Example

open Example in
/-- C77 fails for models with `Concatenate` layers: the 8-bit transforms put the arguments of
`cat([pool, conv])` in the order in which the layers are listed in the model, so the transformed
model computes something else from the same input. -/
theorem C77_concat_violated :
    ∃ g', run metaEq8 transforms8 200 (start transforms8 catModel) = some (.ok g') ∧
      Spec.FloatOps catSem autoName id id id String ∧
      ∃ v w, Spec.IsRun catSem catModel v ∧ Spec.IsRun catSem g' w ∧ v "in" 0 0 = w "in" 0 0 ∧
        Spec.outputValues catModel v = [16] ∧ Spec.outputValues g' w = [61] := by
  have h : runCheck catModel (fun g' => runBool g' (catValues 61) &&
      decide (Spec.outputValues g' (fun s _ _ => catValues 61 s) = [61])) = true := by
    decide +kernel
  obtain ⟨g', h1, h2⟩ := runCheck_spec h
  simp only [Bool.and_eq_true, decide_eq_true_eq] at h2
  exact ⟨g', h1, catSem_float, fun s _ _ => catValues 16 s, fun s _ _ => catValues 61 s,
    runBool_spec (by decide +kernel), runBool_spec h2.1, rfl, by decide +kernel, h2.2⟩

open Example in
/-- C57 fails for the layers in front of a ReLU: the custom config of a `Dense` layer before a `ReLU`
layer is replaced by the config that quantizes nothing. -/
theorem C57_violated :
    ∃ g', run metaEq8 transforms8 200 (start transforms8
        (customModel "Dense" (some { config := some (some ⟨.custom "mine", false, false⟩) }))) = some (.ok g') ∧
      (g'.metadata "x").bind (·.get) = some ⟨.noOp, false, false⟩ := by
  have h : runCheck (customModel "Dense" (some { config := some (some ⟨.custom "mine", false, false⟩) }))
      (fun g' => decide ((g'.metadata "x").bind (·.get) = some ⟨.noOp, false, false⟩)) = true := by
    decide +kernel
  obtain ⟨g', h1, h2⟩ := runCheck_spec h
  exact ⟨g', h1, by simpa using h2⟩

open Example in
/-- The same transform gives a `Conv2D` layer (and `Dense`, `DepthwiseConv2D`) without a custom
config in front of a `ReLU` layer the config that quantizes nothing, so its weights are not
quantized although the layer is annotated; `Conv2DTranspose` (not an exact name in the pattern) is
affected as well. -/
theorem C57_unquantized_weights :
    ∀ cls ∈ ["Conv2D", "Dense", "DepthwiseConv2D", "Conv2DTranspose"],
    ∃ g', run metaEq8 transforms8 200 (start transforms8 (customModel cls none)) = some (.ok g') ∧
      (g'.metadata "x").bind (·.get) = some ⟨.noOp, false, false⟩ := by
  intro cls hcls
  have h : ∀ cls ∈ ["Conv2D", "Dense", "DepthwiseConv2D", "Conv2DTranspose"],
      runCheck (customModel cls none)
        (fun g' => decide ((g'.metadata "x").bind (·.get) = some ⟨.noOp, false, false⟩)) = true := by
    decide +kernel
  obtain ⟨g', h1, h2⟩ := runCheck_spec (h cls hcls)
  exact ⟨g', h1, by simpa using h2⟩

open Example in
/-- `Dense` followed by batch normalization and `ReLU`: the transform without the ReLU comes first
in the list, so the batch normalization gets an output quantizer and the transform with the ReLU
does nothing (for convolutions the order is the other way round). -/
theorem C57_dense_order :
    ∃ g', run metaEq8 transforms8 200 (start transforms8 denseModel) = some (.ok g') ∧
      (g'.metadata "bn").bind (·.get) = some ⟨.output none, false, false⟩ := by
  have h : runCheck denseModel
      (fun g' => decide ((g'.metadata "bn").bind (·.get) = some ⟨.output none, false, false⟩)) = true := by
    decide +kernel
  obtain ⟨g', h1, h2⟩ := runCheck_spec h
  exact ⟨g', h1, by simpa using h2⟩

open Example in
/-- The hypotheses of C57_custom_config_partial are met: `DenseBatchNormQuantize` matches
`dense -> bn` with a custom config on `dense` (and leaves it alone). -/
example :
    let g : Graph ℕ (Meta String) := { denseModel with
      metadata := fun n => if n = "dense" then some { config := some (some ⟨.custom "mine", false, false⟩) }
        else none }
    ∃ t ∈ transforms8, t.name = "DenseBatchNormQuantize" ∧ t.name ∉ Spec.overriding ∧
      ∃ m r, findPattern g t.pattern [] = some m ∧ t.replacement 0 m = .ok (r, 0) ∧
        m.inputs.map (fun n => n.info.get) = [some ⟨.custom "mine", false, false⟩] := by
  refine ⟨pureTransform "DenseBatchNormQuantize" denseBNPattern (replaceBN none), ?_, rfl, by decide, ?_⟩
  · rw [transforms8, Aux.mem_transforms]
    simp [Aux.listed, allClasses]
  · exact ⟨_, _, rfl, rfl, by decide +kernel⟩

end Verif.Props
