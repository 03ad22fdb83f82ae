import Verif.Quant.Apply
import Verif.Props.Annotate
import Verif.Props.CustomConfig
import Verif.Props.ReplaceEffect
import Verif.Props.Run8Bit

/-
C54: `quantize_apply` quantizes exactly the annotated layers.
-/
set_option linter.unusedSectionVars false

namespace Verif.Props
open Verif.Quant.Regex Verif.Quant.Transformer Verif.Quant.Transforms8Bit Verif.Quant.Apply

variable {V U : Type}

namespace Spec

/-- The class of a batch normalization, as the patterns of the transforms see it. -/
def IsBatchNorm (cls : String) : Prop := matchPattern cls "BatchNormalization|SyncBatchNormalization"

/-- The class of a concatenation, as the patterns of the transforms see it. -/
def IsConcat (cls : String) : Prop := matchPattern cls "Concatenate"

/-- The class of a layer that is fused with a following ReLU. -/
def IsFused (cls : String) : Prop := matchPattern cls "Add|Conv2D|DepthwiseConv2D|Dense"

/-- The quantize configs the library itself gives to a layer of the class `cls`: the default of the
registry, an output-only config (batch normalization and concatenation), or a no-op config (these,
and, if `relu` says that there are ReLU layers, layers that are fused with a following ReLU). -/
def LibraryConfig (c : Classes) (relu : Prop) (cls : String) (k : Kind U) : Prop :=
  ((k = .default c.params cls ∨ k = .default { bits := c.params.bits } cls) ∧
    c.supported cls = true) ∨
  (k = .output c.params.bits ∧ (IsBatchNorm cls ∨ IsConcat cls)) ∨
  (k = .noOp ∧ (IsBatchNorm cls ∨ IsConcat cls ∨ relu ∧ IsFused cls))

/-- Some annotated layer is a `ReLU` or an `Activation`. -/
def AnnotatedReLU (m : AModel V U) : Prop :=
  ∃ a ∈ m.layers, a.annotation.isSome = true ∧ (a.layer.cls = "ReLU" ∨ a.layer.cls = "Activation")

/-- The output of the layer `name` is the only input of the only call of an annotated layer; in a
Sequential model, the next layer is annotated. -/
def FeedsOnly (m : AModel V U) (name : String) : Prop :=
  ∃ b ∈ m.layers, b.annotation.isSome = true ∧
    if m.functional = true then ∃ conn : Conn, b.layer.inbound = [[conn]] ∧ conn.src = name
    else ∃ i x, m.layers[i]? = some x ∧ x.layer.name = name ∧ m.layers[i + 1]? = some b

/-- The output of the layer `name` goes to an annotated layer, as a positional or keyword argument; in a Sequential model, the next layer
is annotated. -/
def FeedsAnnotated (m : AModel V U) (name : String) : Prop :=
  ∃ b ∈ m.layers, b.annotation.isSome = true ∧
    if m.functional = true then ∃ call ∈ b.layer.inbound, ∃ conn ∈ call,
      conn.src = name ∨ ∃ kw ∈ conn.kw, kwSource kw.2 = some name
    else ∃ i x, m.layers[i]? = some x ∧ x.layer.name = name ∧ m.layers[i + 1]? = some b

/-- The quantized layers of the library, which are not quantized again, and inputs. -/
def Exempt (cls : String) : Prop :=
  cls ∈ ["InputLayer", "QuantizeLayer", "QuantizeWrapper", "QuantizeWrapperV2"]

end Spec

namespace Aux

/-! ### What a transform does to each layer of a match -/

/-- How the metadata of a layer of the class `cls` may change; `relu` allows to overwrite a config
by the no-op config. -/
structure InfoStep (c : Classes) (relu : Prop) (cls : String) (i i' : Meta U) : Prop where
  key : i.config.isSome = true → i'.config.isSome = true
  has : ∀ q, i.get = some q → ∃ q', i'.get = some q' ∧ (q'.kind = q.kind ∨ relu ∧ Spec.IsFused cls ∧ q'.kind = .noOp)
  hasNot : i.get = none → i'.get = none ∨ ∃ q', i'.get = some q' ∧ Spec.LibraryConfig c relu cls q'.kind

theorem InfoStep.refl (c : Classes) (relu : Prop) (cls : String) (i : Meta U) : InfoStep c relu cls i i :=
  ⟨id, fun q h => ⟨q, h, Or.inl rfl⟩, fun h => Or.inl h⟩

theorem InfoStep.trans {c : Classes} {relu : Prop} {cls : String} {i j k : Meta U} (h1 : InfoStep c relu cls i j)
    (h2 : InfoStep c relu cls j k) : InfoStep c relu cls i k := by
  refine ⟨fun h => h2.key (h1.key h), ?_, ?_⟩
  · intro q hq
    obtain ⟨q', hq', hk⟩ := h1.has q hq
    obtain ⟨q'', hq'', hk'⟩ := h2.has q' hq'
    refine ⟨q'', hq'', ?_⟩
    rcases hk' with hk' | hk'
    · rw [hk']; exact hk
    · exact Or.inr hk'
  · intro hq
    rcases h1.hasNot hq with h | ⟨q', hq', hk⟩
    · exact h2.hasNot h
    · obtain ⟨q'', hq'', hk'⟩ := h2.has q' hq'
      refine Or.inr ⟨q'', hq'', ?_⟩
      rcases hk' with hk' | hk'
      · rw [hk']; exact hk
      · exact Or.inr (Or.inr ⟨hk'.2.2, Or.inr (Or.inr ⟨hk'.1, hk'.2.1⟩)⟩)

/-- How a layer may change. -/
structure NodeStep (c : Classes) (relu : Prop) (n n' : Node V (Meta U)) : Prop where
  name : n'.name = n.name
  cls : n'.layer.cls = n.layer.cls
  weights : n'.weights = n.weights
  config : n'.layer.config = n.layer.config ∨ matchPattern n.layer.cls convClass = true ∨
    matchPattern n.layer.cls "Dense" = true
  info : InfoStep c relu n.layer.cls n.info n'.info

theorem NodeStep.refl (c : Classes) (relu : Prop) (n : Node V (Meta U)) : NodeStep c relu n n :=
  ⟨rfl, rfl, rfl, Or.inl rfl, InfoStep.refl _ _ _ _⟩

theorem NodeStep.trans {c : Classes} {relu : Prop} {a b d : Node V (Meta U)} (h1 : NodeStep c relu a b)
    (h2 : NodeStep c relu b d) : NodeStep c relu a d := by
  refine ⟨h2.name.trans h1.name, h2.cls.trans h1.cls, h2.weights.trans h1.weights, ?_, ?_⟩
  · rcases h2.config with h | h
    · rw [h]; exact h1.config
    · rw [h1.cls] at h; exact Or.inr h
  · have := h2.info
    rw [h1.cls] at this
    exact h1.info.trans this

/-- The layers of two trees correspond. -/
def Corr (c : Classes) (relu : Prop) (m r : Node V (Meta U)) : Prop :=
  (∀ n', Spec.InTree n' r → ∃ n, Spec.InTree n m ∧ NodeStep c relu n n') ∧
  (∀ n, Spec.InTree n m → ∃ n', Spec.InTree n' r ∧ NodeStep c relu n n')

theorem corr_refl (c : Classes) (relu : Prop) (m : Node V (Meta U)) : Corr c relu m m :=
  ⟨fun n h => ⟨n, h, NodeStep.refl _ _ _⟩, fun n h => ⟨n, h, NodeStep.refl _ _ _⟩⟩

theorem corr_trans {c : Classes} {relu : Prop} {a b d : Node V (Meta U)} (h1 : Corr c relu a b)
    (h2 : Corr c relu b d) : Corr c relu a d := by
  constructor
  · intro n hn
    obtain ⟨n1, hn1, s1⟩ := h2.1 n hn
    obtain ⟨n2, hn2, s2⟩ := h1.1 n1 hn1
    exact ⟨n2, hn2, s2.trans s1⟩
  · intro n hn
    obtain ⟨n1, hn1, s1⟩ := h1.2 n hn
    obtain ⟨n2, hn2, s2⟩ := h2.2 n1 hn1
    exact ⟨n2, hn2, s1.trans s2⟩

theorem corr_mk {c : Classes} {relu : Prop} {l l' : Layer} {w w' : List (String × V)} {i i' : Meta U}
    {ins ins' : List (Node V (Meta U))}
    (hroot : NodeStep c relu (.mk l w i ins) (.mk l' w' i' ins'))
    (hins : List.Forall₂ (Corr c relu) ins ins') :
    Corr c relu (.mk l w i ins) (.mk l' w' i' ins') := by
  constructor
  · intro n hn
    cases hn with
    | root => exact ⟨_, Spec.InTree.root _, hroot⟩
    | child hc hn =>
      rename_i c'
      change c' ∈ ins' at hc
      obtain ⟨k, hk, rfl⟩ := List.mem_iff_getElem.1 hc
      have hk' : k < ins.length := by rw [hins.length_eq]; exact hk
      obtain ⟨n2, hn2, s⟩ := (List.Forall₂.get hins hk' hk).1 n hn
      exact ⟨n2, Spec.InTree.child (c := ins[k]) (List.getElem_mem hk') hn2, s⟩
  · intro n hn
    cases hn with
    | root => exact ⟨_, Spec.InTree.root _, hroot⟩
    | child hc hn =>
      rename_i c'
      change c' ∈ ins at hc
      obtain ⟨k, hk, rfl⟩ := List.mem_iff_getElem.1 hc
      have hk' : k < ins'.length := by rw [← hins.length_eq]; exact hk
      obtain ⟨n2, hn2, s⟩ := (List.Forall₂.get hins hk hk').2 n hn
      exact ⟨n2, Spec.InTree.child (c := ins'[k]) (List.getElem_mem hk') hn2, s⟩

theorem forall₂_refl {α : Type} {R : α → α → Prop} (h : ∀ x, R x x) (xs : List α) :
    List.Forall₂ R xs xs := by
  induction xs with
  | nil => exact .nil
  | cons x xs ih => exact .cons (h x) ih

theorem corr_info {c : Classes} {relu : Prop} {l : Layer} {w : List (String × V)} {i i' : Meta U}
    {ins : List (Node V (Meta U))} (h : InfoStep c relu l.cls i i') :
    Corr c relu (.mk l w i ins) (.mk l w i' ins) :=
  corr_mk ⟨rfl, rfl, rfl, Or.inl rfl, h⟩ (forall₂_refl (corr_refl c relu) ins)

theorem info_set {c : Classes} {relu : Prop} {cls : String} {i : Meta U} {k : Kind U} (h : i.get = none)
    (hk : Spec.LibraryConfig c relu cls k) : InfoStep c relu cls i (i.set k) :=
  ⟨fun _ => rfl, fun q hq => by rw [h] at hq; simp at hq, fun _ => Or.inr ⟨⟨k, false, false⟩, rfl, hk⟩⟩

theorem info_relu {c : Classes} {relu : Prop} {cls : String} {i : Meta U} (h : relu)
    (hf : Spec.IsFused cls) : InfoStep c relu cls i (i.set .noOp) :=
  ⟨fun _ => rfl, fun _ _ => ⟨⟨.noOp, false, false⟩, rfl, Or.inr ⟨h, hf, rfl⟩⟩,
    fun _ => Or.inr ⟨⟨.noOp, false, false⟩, rfl, Or.inr (Or.inr ⟨rfl, Or.inr (Or.inr ⟨h, hf⟩)⟩)⟩⟩

theorem corr_setConfig {c : Classes} {relu : Prop} {n : Node V (Meta U)} {k : Kind U}
    (h : hasConfig n = false) (hk : Spec.LibraryConfig c relu n.layer.cls k) : Corr c relu n (setConfig k n) := by
  cases n
  exact corr_info (info_set (by simpa [hasConfig, Node.info] using h) hk)

theorem corr_setRelu {c : Classes} {relu : Prop} (h : relu) (n : Node V (Meta U))
    (hf : Spec.IsFused n.layer.cls) : Corr c relu n (setConfig .noOp n) := by
  cases n
  exact corr_info (info_relu h hf)

theorem corr_setNoOp {c : Classes} {relu : Prop} {n : Node V (Meta U)}
    (h : matchPattern n.layer.cls convClass = true ∨ matchPattern n.layer.cls "Dense" = true) :
    Corr c relu n (setNoOp n) := by
  cases n
  exact corr_mk ⟨rfl, rfl, rfl, Or.inr h, InfoStep.refl _ _ _ _⟩ (forall₂_refl (corr_refl c relu) _)

theorem corr_withInputs {c : Classes} {relu : Prop} {n : Node V (Meta U)} {ins : List (Node V (Meta U))}
    (h : List.Forall₂ (Corr c relu) n.inputs ins) : Corr c relu n (withInputs n ins) := by
  cases n
  exact corr_mk ⟨rfl, rfl, rfl, Or.inl rfl, InfoStep.refl _ _ _ _⟩ h

theorem corr_onInput {c : Classes} {relu : Prop} (f : Node V (Meta U) → Node V (Meta U)) (n : Node V (Meta U))
    (h : ∀ i is, n.inputs = i :: is → Corr c relu i (f i)) : Corr c relu n (onInput f n) := by
  rw [onInput]
  split
  · exact corr_refl _ _ _
  · rename_i i is hi
    refine corr_withInputs ?_
    rw [hi]
    exact .cons (h i is hi) (forall₂_refl (corr_refl c relu) is)

theorem info_off {c : Classes} {relu : Prop} {cls : String} (b : Bits) (i : Meta U) :
    InfoStep c relu cls i { i with config := i.config.map fun c => c.map fun q =>
      { q with outputOff := true, savedOff := q.savedOff || (b.isNone && q.kind.hasQuantizeOutput) } } := by
  cases i with
  | mk config quantizer =>
    cases config with
    | none => exact InfoStep.refl _ _ _ _
    | some c =>
      cases c with
      | none => exact InfoStep.refl _ _ _ _
      | some q =>
        refine ⟨fun _ => rfl, fun q' hq' => ⟨{ q with outputOff := true, savedOff := q.savedOff || (b.isNone && q.kind.hasQuantizeOutput) },
            rfl, Or.inl ?_⟩, ?_⟩
        · simp only [Meta.get, Option.getD_some, Option.some.injEq] at hq'
          rw [← hq']
        · intro h; simp [Meta.get] at h

theorem corr_disableOutput {c : Classes} {relu : Prop} (b : Bits) (n : Node V (Meta U)) :
    Corr c relu n (disableOutput b n) := by
  cases n
  exact corr_info (info_off _ _)

theorem chain_no {look : Bool} {more : List Bool} {n : Node V (Meta U)}
    (h : ¬ chainHasConfig (look :: more) n = true) :
    (look = true → hasConfig n = false) ∧
      ∀ i is, n.inputs = i :: is → ¬ chainHasConfig more i = true :=
  chain_cons (R := fun _ _ => True) (fun _ => trivial) h

theorem cls_onInput (f : Node V (Meta U) → Node V (Meta U)) (n : Node V (Meta U)) :
    (onInput f n).layer = n.layer ∧ hasConfig (onInput f n) = hasConfig n := by
  rw [onInput]
  split
  · exact ⟨rfl, rfl⟩
  · cases n; exact ⟨rfl, rfl⟩

theorem corr_feed (c : Classes) {relu : Prop} {n : Node V (Meta U)} {e} (h : feed c n = some e) :
    Corr c relu n e.1 := by
  unfold feed at h
  split at h
  · simp only [Option.some.injEq] at h; rw [← h]; exact corr_refl _ _ _
  rename_i hc
  have hc : hasConfig n = false := by simpa using hc
  split at h
  · cases n
    cases hb : c.params.bits with
    | some b => rw [hb] at h; cases h
    | none =>
    rw [hb] at h
    simp only [Option.some.injEq] at h; rw [← h]
    exact corr_info ⟨id, fun q hq => ⟨q, hq, Or.inl rfl⟩, fun hq => Or.inl hq⟩
  split at h
  · simp at h
  split at h
  · rename_i hcat
    simp only [Option.some.injEq] at h; rw [← h]
    refine corr_setConfig hc (Or.inr (Or.inr ⟨rfl, Or.inr (Or.inl ?_)⟩))
    rw [hcat, Spec.IsConcat]
    decide +kernel
  split at h
  · simp at h
  · rename_i hsup
    simp only [Option.some.injEq] at h; rw [← h]
    exact corr_setConfig hc (Or.inl ⟨Or.inr rfl, by simpa using hsup⟩)

theorem corr_feeds (c : Classes) {relu : Prop} (f : Node V (Meta U) × Bool → Node V (Meta U))
    (hf : ∀ e, Corr c relu e.1 (f e)) (ns : List (Node V (Meta U))) :
    List.Forall₂ (Corr c relu) ns ((feeds c ns).1.map f) := by
  induction ns with
  | nil => exact .nil
  | cons n ns ih =>
    rw [feeds]
    split
    · rw [List.map_map]
      have : ∀ xs : List (Node V (Meta U)),
          List.Forall₂ (Corr c relu) xs (xs.map (f ∘ fun x => (x, false))) := by
        intro xs
        induction xs with
        | nil => exact .nil
        | cons x xs ih => exact .cons (hf (x, false)) ih
      exact this _
    · rename_i e he
      exact .cons (corr_trans (corr_feed c he) (hf e)) ih

theorem corr_concat (c : Classes) {relu : Prop} (m : Node V (Meta U))
    (hcat : Spec.IsConcat m.layer.cls) :
    Corr c relu m (replaceConcat c m) := by
  rw [replaceConcat]
  split
  · have h1 : Corr c relu m (withInputs m ((feeds c m.inputs).1.map fun e =>
        if e.2 then disableOutput c.params.bits e.1 else e.1)) := by
      refine corr_withInputs (corr_feeds c _ ?_ _)
      intro e
      split
      · exact corr_disableOutput _ _
      · exact corr_refl _ _ _
    dsimp only
    split
    · exact h1
    · rename_i hc
      refine corr_trans h1 (corr_setConfig (by simpa using hc) (Or.inr (Or.inl ⟨rfl, Or.inr ?_⟩)))
      cases m
      exact hcat
  · exact corr_withInputs (corr_feeds c _ (fun e => corr_refl _ _ _) _)

section
variable {auto : String → ℕ → String} {expand : V → V} {str1 str2 : String → String}

/-- The pure transforms. -/
theorem pure_corr (c : Classes) : ∀ t ∈ transforms (U := U) auto c expand str1 str2,
    t.name ∉ ["InputLayerQuantize", "SeparableConv1DQuantize", "SeparableConvQuantize"] →
    ∀ (g : Graph V (Meta U)) l h m k r k', matchTree g t.pattern l h = some m →
    t.replacement k m = .ok (r, k') →
    Corr c (matchPattern m.layer.cls "ReLU" = true ∨ matchPattern m.layer.cls "Activation" = true) m r
      ∧ k' = k := by
  have pure : ∀ (relu : Prop) (f : Node V (Meta U) → Node V (Meta U)) (m r : Node V (Meta U))
      (k k' : ℕ), (Except.ok (f m, k) : Except String _) = .ok (r, k') → Corr c relu m (f m) →
      Corr c relu m r ∧ k' = k := by
    intro relu f m r k k' h hs
    simp only [Except.ok.injEq, Prod.mk.injEq] at h
    rw [← h.1]
    exact ⟨hs, h.2.symm⟩
  have inner : ∀ (relu : Prop) (g : Graph V (Meta U)) cls cfg cls' cfg' ins l h m,
      cls' = convClass ∨ cls' = "Dense" →
      matchTree g (.mk cls cfg [.mk cls' cfg' ins]) l h = some m →
      Corr c relu m (onInput setNoOp m) := by
    intro relu g cls cfg cls' cfg' ins l h m hc hm
    obtain ⟨i, is, hi, hmi, -⟩ := match_input hm
    refine corr_onInput _ _ ?_
    intro i' is' hi'
    rw [hi] at hi'
    obtain ⟨rfl, rfl⟩ := List.cons.inj hi'
    have := match_class hmi
    refine corr_setNoOp ?_
    rcases hc with rfl | rfl
    · exact Or.inl this
    · exact Or.inr this
  have inner2 : ∀ (relu : Prop) (g : Graph V (Meta U)) cls cfg cls1 cfg1 cls' cfg' ins l h m,
      cls' = convClass ∨ cls' = "Dense" →
      matchTree g (.mk cls cfg [.mk cls1 cfg1 [.mk cls' cfg' ins]]) l h = some m →
      Corr c relu m (onInput (onInput setNoOp) m) := by
    intro relu g cls cfg cls1 cfg1 cls' cfg' ins l h m hc hm
    obtain ⟨i, is, hi, hmi, -⟩ := match_input hm
    refine corr_onInput _ _ ?_
    intro i' is' hi'
    rw [hi] at hi'
    obtain ⟨rfl, rfl⟩ := List.cons.inj hi'
    exact inner relu g _ _ _ _ _ _ _ _ hc hmi
  have set : ∀ (relu : Prop) (k : Kind U) (f : Node V (Meta U) → Node V (Meta U))
      (n : Node V (Meta U)), k = .noOp ∨ k = .output c.params.bits → Spec.IsBatchNorm n.layer.cls →
      hasConfig n = false → Corr c relu n (onInput f n) →
      Corr c relu n (setConfig k (onInput f n)) := by
    intro relu k f n hk hbn hn h
    refine corr_trans h (corr_setConfig ?_ ?_)
    · rw [(cls_onInput f n).2]; exact hn
    · rw [(cls_onInput f n).1]
      rcases hk with rfl | rfl
      · exact Or.inr (Or.inr ⟨rfl, Or.inl hbn⟩)
      · exact Or.inr (Or.inl ⟨rfl, Or.inl hbn⟩)
  have bn : ∀ (relu : Prop) (g : Graph V (Meta U)) cfg cls' cfg' ins l h m,
      cls' = convClass ∨ cls' = "Dense" →
      matchTree g (.mk bnClass cfg [.mk cls' cfg' ins]) l h = some m →
      Corr c relu m (replaceBN c.params.bits m) := by
    intro relu g cfg cls' cfg' ins l h m hc hm
    rw [replaceBN]
    split
    · exact corr_refl _ _ _
    · rename_i hh
      exact set _ _ _ _ (Or.inr rfl) (match_class hm) ((chain_no hh).1 rfl) (inner relu g _ _ _ _ _ _ _ _ hc hm)
  have rbn : ∀ (relu : Prop) (g : Graph V (Meta U)) cfg cls1 cfg1 cls' cfg' ins l h m,
      cls' = convClass ∨ cls' = "Dense" →
      matchTree g (.mk bnClass cfg [.mk cls1 cfg1 [.mk cls' cfg' ins]]) l h = some m →
      Corr c relu m (replaceReshapeBN c.params.bits m) := by
    intro relu g cfg cls1 cfg1 cls' cfg' ins l h m hc hm
    rw [replaceReshapeBN]
    split
    · exact corr_refl _ _ _
    · rename_i hh
      exact set _ _ _ _ (Or.inr rfl) (match_class hm) ((chain_no hh).1 rfl) (inner2 relu g _ _ _ _ _ _ _ _ _ _ hc hm)
  have bnr : ∀ (relu : Prop) (g : Graph V (Meta U)) cls cfg cfg1 cls' cfg' ins l h m,
      cls' = convClass ∨ cls' = "Dense" →
      matchTree g (.mk cls cfg [.mk bnClass cfg1 [.mk cls' cfg' ins]]) l h = some m →
      Corr c relu m (replaceBNReLU m) := by
    intro relu g cls cfg cfg1 cls' cfg' ins l h m hc hm
    rw [replaceBNReLU]
    split
    · exact corr_refl _ _ _
    · rename_i hh
      obtain ⟨i, is, hi, hmi, -⟩ := match_input hm
      refine corr_onInput _ _ ?_
      intro i' is' hi'
      have hno := (chain_no hh).2 _ _ hi'
      rw [hi] at hi'
      obtain ⟨rfl, rfl⟩ := List.cons.inj hi'
      exact set _ _ _ _ (Or.inl rfl) (match_class hmi) ((chain_no hno).1 rfl) (inner relu g _ _ _ _ _ _ _ _ hc hmi)
  have rbnr : ∀ (relu : Prop) (g : Graph V (Meta U)) cls cfg cfg1 cls2 cfg2 cls' cfg' ins l h m,
      cls' = convClass ∨ cls' = "Dense" →
      matchTree g (.mk cls cfg [.mk bnClass cfg1 [.mk cls2 cfg2 [.mk cls' cfg' ins]]]) l h = some m →
      Corr c relu m (replaceReshapeBNReLU m) := by
    intro relu g cls cfg cfg1 cls2 cfg2 cls' cfg' ins l h m hc hm
    rw [replaceReshapeBNReLU]
    split
    · exact corr_refl _ _ _
    · rename_i hh
      obtain ⟨i, is, hi, hmi, -⟩ := match_input hm
      refine corr_onInput _ _ ?_
      intro i' is' hi'
      have hno := (chain_no hh).2 _ _ hi'
      rw [hi] at hi'
      obtain ⟨rfl, rfl⟩ := List.cons.inj hi'
      exact set _ _ _ _ (Or.inl rfl) (match_class hmi) ((chain_no hno).1 rfl)
        (inner2 relu g _ _ _ _ _ _ _ _ _ _ hc hmi)
  have relu : ∀ (R : Prop) (g : Graph V (Meta U)) cls cfg l h m, R →
      matchTree g (.mk cls cfg [producer]) l h = some m → Corr c R m (replaceLayerReLU m) := by
    intro R g cls cfg l h m hR hm
    obtain ⟨i, is, hi, hmi, -⟩ := match_input hm
    refine corr_onInput _ _ ?_
    intro i' is' hi'
    rw [hi] at hi'
    obtain ⟨rfl, rfl⟩ := List.cons.inj hi'
    exact corr_setRelu hR _ (match_class hmi)
  intro t ht hname g l h m k r k' hm hrep
  rw [Aux.mem_transforms] at ht
  simp only [Aux.listed, pureTransform, List.mem_cons, List.not_mem_nil, or_false] at ht
  rcases ht with rfl | rfl | rfl | rfl | rfl | rfl | rfl | rfl | rfl | rfl | rfl | rfl | rfl | rfl |
    rfl | rfl | rfl | rfl | rfl
  · exact absurd (by simp) hname
  · exact absurd (by simp) hname
  · exact absurd (by simp) hname
  · exact pure _ _ _ _ _ _ hrep (rbnr _ g _ _ _ _ _ _ _ _ _ _ _ (Or.inl rfl) hm)
  · exact pure _ _ _ _ _ _ hrep (rbnr _ g _ _ _ _ _ _ _ _ _ _ _ (Or.inl rfl) hm)
  · exact pure _ _ _ _ _ _ hrep (bnr _ g _ _ _ _ _ _ _ _ _ (Or.inl rfl) hm)
  · exact pure _ _ _ _ _ _ hrep (bnr _ g _ _ _ _ _ _ _ _ _ (Or.inl rfl) hm)
  · exact pure _ _ _ _ _ _ hrep (rbn _ g _ _ _ _ _ _ _ _ _ (Or.inl rfl) hm)
  · exact pure _ _ _ _ _ _ hrep (bn _ g _ _ _ _ _ _ _ (Or.inl rfl) hm)
  · exact pure _ _ _ _ _ _ hrep (corr_concat c m (match_class hm))
  · exact pure _ _ _ _ _ _ hrep (corr_concat c m (match_class hm))
  · exact pure _ _ _ _ _ _ hrep (corr_concat c m (match_class hm))
  · exact pure _ _ _ _ _ _ hrep (corr_concat c m (match_class hm))
  · exact pure _ _ _ _ _ _ hrep (corr_concat c m (match_class hm))
  · exact pure _ _ _ _ _ _ hrep (bn _ g _ _ _ _ _ _ _ (Or.inr rfl) hm)
  · exact pure _ _ _ _ _ _ hrep (bnr _ g _ _ _ _ _ _ _ _ _ (Or.inr rfl) hm)
  · exact pure _ _ _ _ _ _ hrep (bnr _ g _ _ _ _ _ _ _ _ _ (Or.inr rfl) hm)
  · exact pure _ _ _ _ _ _ hrep (relu _ g _ _ _ _ m (Or.inl (match_class hm)) hm)
  · exact pure _ _ _ _ _ _ hrep (relu _ g _ _ _ _ m (Or.inr (match_class hm)) hm)


/-- A layer that a transform made. -/
def NewNode (names : List String) (n : Node V (Meta U)) : Prop :=
  n.name ∉ names ∧ n.layer.cls ∉ ["SeparableConv1D", "ReLU", "Activation", "InputLayer", "Concatenate"] ∧
    '\n' ∉ n.layer.cls.toList

/-- What the replacement of a match by a transform is. -/
def StepOk (c : Classes) (names : List String) (relu : Prop) (m r : Node V (Meta U)) : Prop :=
  ((∀ n', Spec.InTree n' r → (∃ n, Spec.InTree n m ∧ NodeStep c relu n n') ∨
      (NewNode names n' ∧ (n'.layer.cls = "QuantizeLayer" ∧ ∃ n, Spec.InTree n m ∧ n.layer.cls = "InputLayer") ∧
        n'.info = default)) ∧
    (∀ n, Spec.InTree n m → ∃ n', Spec.InTree n' r ∧ NodeStep c relu n n')) ∨
  ((∀ n', Spec.InTree n' r → NewNode names n' ∧ n'.layer.cls ≠ "QuantizeLayer" ∧
      n'.info.config.isSome = true) ∧
    (∀ n, Spec.InTree n m → n.layer.cls ∈ ["SeparableConv1D", "SeparableConv2D"] ∧ n.info.get = none))

theorem inTree_leaf {l : Layer} {w : List (String × V)} {i : Meta U} {n : Node V (Meta U)}
    (h : Spec.InTree n (.mk l w i [])) : n = .mk l w i [] := by
  cases h with
  | root => rfl
  | child hc _ => simp at hc

theorem inTree_chain {l : Layer} {w : List (String × V)} {i : Meta U} {n x : Node V (Meta U)}
    (h : Spec.InTree n (.mk l w i [x])) : n = .mk l w i [x] ∨ Spec.InTree n x := by
  cases h with
  | root => exact Or.inl rfl
  | child hc h =>
    simp only [List.mem_singleton] at hc
    subst hc
    exact Or.inr h

theorem stepOk_refl (c : Classes) (names : List String) (relu : Prop) (m : Node V (Meta U)) :
    StepOk c names relu m m :=
  Or.inl ⟨fun n h => Or.inl ⟨n, h, NodeStep.refl _ _ _⟩, fun n h => ⟨n, h, NodeStep.refl _ _ _⟩⟩

/-- Every transform of the 8-bit layout transform. -/
theorem transforms_step (c : Classes) {names : List String} (hfresh : Spec.FreshNames auto names)
    {t} (ht : t ∈ transforms (U := U) auto c expand str1 str2)
    {g : Graph V (Meta U)} {matched k k'} {m r : Node V (Meta U)}
    (hnl : ∀ l ∈ g.layers, '\n' ∉ l.cls.toList)
    (hsep : ∀ l ∈ g.layers, l.cls = "SeparableConv1D" → l.name ∈ names)
    (hf : findPattern g t.pattern matched = some m) (hr : t.replacement k m = .ok (r, k')) :
    StepOk c names (m.layer.cls = "ReLU" ∨ m.layer.cls = "Activation") m r := by
  obtain ⟨hml, -, hmt⟩ := findPattern_some hf
  have hcls : ∀ cls ∈ ["InputLayer", "SeparableConv1D", "SeparableConv2D", "Concatenate"], ∀ cfg ps,
      t.pattern = .mk cls cfg ps → m.layer.cls = cls := by
    intro cls hc cfg ps hp
    rw [hp] at hmt
    exact (C56_single cls _ (plainName_four cls hc) (hnl _ hml)).1 (match_class hmt)
  have hleaf : ∀ cls, t.pattern = .mk cls [] [] → ∃ l w i, m = .mk l w i [] := by
    intro cls hp
    rw [hp] at hmt
    exact ⟨_, _, _, leaf_match hmt⟩
  rcases transforms_split auto c expand str1 str2 t ht with ⟨hp, hrep⟩ | ⟨hp, hrep⟩ | ⟨hp, hrep⟩ |
      ⟨hn, hp⟩
  · rw [hrep] at hr
    simp only [replaceInput, Except.ok.injEq, Prod.mk.injEq] at hr
    obtain ⟨rfl, -⟩ := hr
    refine Or.inl ⟨?_, ?_⟩
    · intro n' hn'
      rcases inTree_chain hn' with rfl | hn'
      · exact Or.inr ⟨⟨hfresh.fresh _ _, by simp [Node.layer], by simp [Node.layer]⟩,
          ⟨rfl, m, Spec.InTree.root m, hcls _ (by simp) _ _ hp⟩, rfl⟩
      · exact Or.inl ⟨n', hn', NodeStep.refl _ _ _⟩
    · intro n hn
      exact ⟨n, Spec.InTree.child (List.mem_singleton.2 rfl) hn, NodeStep.refl _ _ _⟩
  · have hcl := hcls _ (by simp) _ _ hp
    obtain ⟨l, w, i, rfl⟩ := hleaf _ hp
    rw [hrep] at hr
    cases hc : hasConfig (.mk l w i [] : Node V (Meta U)) with
    | true =>
      simp only [replaceSepConv1D, hc, if_true, Except.ok.injEq, Prod.mk.injEq] at hr
      rw [← hr.1]
      exact stepOk_refl _ _ _ _
    | false =>
      simp only [replaceSepConv1D, hc, Bool.false_eq_true, if_false] at hr
      split at hr
      · simp at hr
      simp only [Except.ok.injEq, Prod.mk.injEq] at hr
      obtain ⟨rfl, -⟩ := hr
      refine Or.inr ⟨?_, ?_⟩
      · intro n' hn'
        rcases inTree_chain hn' with rfl | hn'
        · exact ⟨⟨hfresh.fresh _ _, by simp [Node.layer], by simp [Node.layer]⟩, by simp [Node.layer], rfl⟩
        rcases inTree_chain hn' with rfl | hn'
        · refine ⟨⟨?_, by simp [Node.layer], by simp [Node.layer]⟩, by simp [Node.layer], rfl⟩
          exact (hfresh.suffix _ (hsep _ hml hcl)).1
        · rw [inTree_leaf hn']
          exact ⟨⟨hfresh.fresh _ _, by simp [Node.layer], by simp [Node.layer]⟩, by simp [Node.layer], rfl⟩
      · intro n hn
        rw [inTree_leaf hn]
        refine ⟨by rw [hcl]; simp, ?_⟩
        simpa [hasConfig] using hc
  · have hcl := hcls _ (by simp) _ _ hp
    obtain ⟨l, w, i, rfl⟩ := hleaf _ hp
    rw [hrep] at hr
    cases hc : hasConfig (.mk l w i [] : Node V (Meta U)) with
    | true =>
      simp only [replaceSepConv, hc, if_true, Except.ok.injEq, Prod.mk.injEq] at hr
      rw [← hr.1]
      exact stepOk_refl _ _ _ _
    | false =>
      simp only [replaceSepConv, hc, Bool.false_eq_true, if_false, Except.ok.injEq,
        Prod.mk.injEq] at hr
      obtain ⟨rfl, -⟩ := hr
      refine Or.inr ⟨?_, ?_⟩
      · intro n' hn'
        rcases inTree_chain hn' with rfl | hn'
        · exact ⟨⟨hfresh.fresh _ _, by simp [Node.layer], by simp [Node.layer]⟩, by simp [Node.layer], rfl⟩
        · rw [inTree_leaf hn']
          exact ⟨⟨hfresh.fresh _ _, by simp [Node.layer], by simp [Node.layer]⟩, by simp [Node.layer], rfl⟩
      · intro n hn
        rw [inTree_leaf hn]
        refine ⟨by rw [hcl]; simp, ?_⟩
        simpa [hasConfig] using hc
  · obtain ⟨hc, -⟩ := pure_corr c t ht hn g _ _ m k r k' hmt hr
    have p1 : Spec.PlainName "ReLU" := by decide +kernel
    have p2 : Spec.PlainName "Activation" := by decide +kernel
    rw [C56_single _ _ p1 (hnl _ hml), C56_single _ _ p2 (hnl _ hml)] at hc
    exact Or.inl ⟨fun n' hn' => Or.inl (hc.1 n' hn'), hc.2⟩

end

/-! ### The invariant of the loops -/

/-- The quantize config of an annotated layer. -/
def KindOk (c : Classes) (am : AModel V U) (a : ALayer U) (i : Meta U) : Prop :=
  i.config.isSome = true ∧
  (∀ u, a.annotation = some (some u) → ∃ q, i.get = some q ∧
    (q.kind = .custom u ∨ Spec.AnnotatedReLU am ∧ Spec.IsFused a.layer.cls ∧ q.kind = .noOp)) ∧
  (a.annotation = some none → i.get = none ∨
    ∃ q, i.get = some q ∧ Spec.LibraryConfig c (Spec.AnnotatedReLU am) a.layer.cls q.kind)

/-- An input is annotated or feeds an annotated layer. -/
def InputFeeds (am : AModel V U) : Prop := ∃ a ∈ am.layers, a.layer.cls = "InputLayer" ∧
  (a.annotation = none → feedsAnnotated am a.layer.name = true)

/-- The invariant. -/
structure ApplyInv (c : Classes) (am : AModel V U) (g : Graph V (Meta U)) : Prop where
  candidates : g.candidates ≠ []
  newline : ∀ l ∈ g.layers, '\n' ∉ l.cls.toList
  layers : ∀ l ∈ g.layers,
    (∃ a ∈ am.layers, a.layer.name = l.name ∧ a.layer.cls = l.cls ∧
      g.weights l.name = am.weights l.name ∧
      (a.annotation = none → l.config = a.layer.config ∧
        (a.layer.cls ≠ "InputLayer" → g.metadata l.name = none)) ∧
      (a.annotation.isSome = true → ∃ i, g.metadata l.name = some i ∧ KindOk c am a i)) ∨
    (l.name ∉ am.layers.map (fun a => a.layer.name) ∧
      l.cls ∉ ["SeparableConv1D", "ReLU", "Activation", "InputLayer", "Concatenate"] ∧
      ((l.cls = "QuantizeLayer" ∧ InputFeeds am) ∨
        (l.cls ≠ "QuantizeLayer" ∧ ∃ i, g.metadata l.name = some i ∧ i.config.isSome = true)))
  present : ∀ a ∈ am.layers, (∃ l ∈ g.layers, l.name = a.layer.name) ∨
    (a.annotation = some none ∧ a.layer.cls ∈ ["SeparableConv1D", "SeparableConv2D"])
  untouched : ∀ a ∈ am.layers, a.annotation = none →
    (a.layer.cls = "InputLayer" → feedsAnnotated am a.layer.name = false) → a.layer.name ∉ g.candidates

theorem kind_step {c : Classes} {am : AModel V U} {a : ALayer U} {i i' : Meta U}
    (h : KindOk c am a i) {relu : Prop} (hrelu : relu → Spec.AnnotatedReLU am)
    (hs : InfoStep c relu a.layer.cls i i') : KindOk c am a i' := by
  refine ⟨hs.key h.1, ?_, ?_⟩
  · intro u hu
    obtain ⟨q, hq, hk⟩ := h.2.1 u hu
    obtain ⟨q', hq', hk'⟩ := hs.has q hq
    refine ⟨q', hq', ?_⟩
    rcases hk' with hk' | ⟨hr, hf, hk'⟩
    · rw [hk']; exact hk
    · exact Or.inr ⟨hrelu hr, hf, hk'⟩
  · intro ha
    rcases h.2.2 ha with hn | ⟨q, hq, hl⟩
    · rcases hs.hasNot hn with hn | ⟨q', hq', hl⟩
      · exact Or.inl hn
      · refine Or.inr ⟨q', hq', hl.imp id (Or.imp id ?_)⟩
        exact fun h => ⟨h.1, h.2.imp id (Or.imp id fun h => ⟨hrelu h.1, h.2⟩)⟩
    · obtain ⟨q', hq', hk'⟩ := hs.has q hq
      refine Or.inr ⟨q', hq', ?_⟩
      rcases hk' with hk' | ⟨hr, hf, hk'⟩
      · rw [hk']; exact hl
      · exact Or.inr (Or.inr ⟨hk', Or.inr (Or.inr ⟨hrelu hr, hf⟩)⟩)

theorem default_config : ((default : Meta U).config.isSome = true) → False := by
  intro h
  change (none : Option (Option (QConfig U))).isSome = true at h
  simp at h

theorem config_ne_default {i : Meta U} (h : i.config.isSome = true) : i ≠ default := by
  rintro rfl
  exact default_config h

section Inv
variable [DecidableEq U] {c : Classes} {am : AModel V U}
  (hnd : (am.layers.map fun a => a.layer.name).Nodup)
include hnd

omit [DecidableEq U] in
theorem same_alayer {a b : ALayer U} (ha : a ∈ am.layers) (hb : b ∈ am.layers)
    (h : a.layer.name = b.layer.name) : a = b :=
  List.inj_on_of_nodup_map hnd ha hb h

theorem apply_step {g g' : Graph V (Meta U)} (hinv : ApplyInv c am g) {m r : Node V (Meta U)}
    {relu : Prop} (hrelu : relu → Spec.AnnotatedReLU am)
    (hnodes : ∀ n, Spec.InTree n m → n.layer ∈ g.layers ∧ n.weights = g.weights n.name ∧
      n.info = (g.metadata n.name).getD default)
    (hcand : ∀ n, Spec.InTree n m → n.name ∈ g.candidates)
    (hstep : StepOk c (am.layers.map fun a => a.layer.name) relu m r)
    (heff : Effect g m r g') : ApplyInv c am g' := by
  have hnames : ∀ a ∈ am.layers, a.layer.name ∈ am.layers.map fun a => a.layer.name :=
    fun a ha => List.mem_map_of_mem ha
  -- an old layer of the match
  have hold : ∀ n, Spec.InTree n m → ∀ a ∈ am.layers, a.layer.name = n.name →
      a.layer.cls = n.layer.cls ∧ g.weights n.name = am.weights n.name ∧
      (a.annotation = none → a.layer.cls = "InputLayer" ∧ n.layer.config = a.layer.config) ∧
      (a.annotation.isSome = true → KindOk c am a n.info) := by
    intro n hn a ha he
    obtain ⟨h1, h2, h3⟩ := hnodes n hn
    rcases hinv.layers _ h1 with ⟨b, hb, e1, e2, e3, e4, e5⟩ | ⟨e1, -⟩
    · obtain rfl := same_alayer hnd ha hb (he.trans e1.symm)
      refine ⟨e2, e3, fun hnone => ⟨?_, (e4 hnone).1⟩, ?_⟩
      · by_contra hin
        exact hinv.untouched a ha hnone (fun h => absurd h hin) (by rw [he]; exact hcand n hn)
      · intro hs
        obtain ⟨i, hi, hk⟩ := e5 hs
        change g.metadata n.name = some i at hi
        rw [h3, hi]
        exact hk
    · exact absurd (show n.name ∈ _ from he ▸ hnames a ha) e1
  have hnewname : ∀ n', Spec.InTree n' r →
      n'.name ∈ nodeNames m ∨ n'.name ∉ am.layers.map fun a => a.layer.name := by
    intro n' hn'
    rcases hstep with ⟨h, -⟩ | ⟨h, -⟩
    · rcases h n' hn' with ⟨n, hn, hs⟩ | ⟨hnew, -⟩
      · exact Or.inl ((mem_nodeNames _ _).2 ⟨n, hn, hs.name.symm⟩)
      · exact Or.inr hnew.1
    · exact Or.inr (h n' hn').1.1
  refine ⟨(heff.candidates.2 hinv.candidates).1, ?_, ?_, ?_, ?_⟩
  · intro l' hl'
    rcases heff.only l' hl' with ⟨l, hl, -, hs⟩ | ⟨n', hn', hs⟩
    · rw [hs.2.1]; exact hinv.newline l hl
    · rw [hs.2.1]
      rcases hstep with ⟨h, -⟩ | ⟨h, -⟩
      · rcases h n' hn' with ⟨n, hn, hst⟩ | ⟨hnew, -⟩
        · rw [hst.cls]; exact hinv.newline _ (hnodes n hn).1
        · exact hnew.2.2
      · exact (h n' hn').1.2.2
  · intro l' hl'
    rcases heff.only l' hl' with ⟨l, hl, hnm, hs⟩ | ⟨n', hn', hs⟩
    · -- a layer outside of the match
      rw [hs.1, hs.2.1, hs.2.2]
      rcases hinv.layers l hl with ⟨a, ha, e1, e2, e3, e4, e5⟩ | ⟨e1, e2, e3⟩
      · left
        have hmeta : g'.metadata l.name = g.metadata l.name := by
          rcases heff.info l.name with ⟨n', hn', hx, -⟩ | ⟨-, h⟩
          · rcases hnewname n' hn' with h | h
            · exact absurd (hx ▸ h) hnm
            · exact absurd (by rw [hx, ← e1]; exact hnames a ha) h
          · rw [h, if_neg hnm]
        have hw : g'.weights l.name = g.weights l.name := by
          rcases heff.weights l.name with ⟨n', hn', hx, -⟩ | ⟨-, h⟩
          · rcases hnewname n' hn' with h | h
            · exact absurd (hx ▸ h) hnm
            · exact absurd (by rw [hx, ← e1]; exact hnames a ha) h
          · rw [h, if_neg hnm]
        rw [hmeta, hw]
        exact ⟨a, ha, e1, e2, e3, e4, e5⟩
      · right
        refine ⟨e1, e2, ?_⟩
        rcases e3 with e3 | ⟨hnq, i, hi, hk⟩
        · exact Or.inl e3
        right
        refine ⟨hnq, ?_⟩
        rcases heff.info l.name with ⟨n', hn', hx, hne, h⟩ | ⟨-, h⟩
        · refine ⟨n'.info, h, ?_⟩
          rcases hstep with ⟨h, -⟩ | ⟨h, -⟩
          · rcases h n' hn' with ⟨n, hn, hst⟩ | ⟨-, -, hd⟩
            · refine absurd ?_ hnm
              exact (mem_nodeNames _ _).2 ⟨n, hn, hst.name.symm.trans hx⟩
            · exact absurd hd hne
          · exact (h n' hn').2.2
        · rw [if_neg hnm] at h
          exact ⟨i, by rw [h]; exact hi, hk⟩
    · -- a layer of the replacement
      have hx : l'.name = n'.name := hs.1
      rw [hx, hs.2.1, hs.2.2]
      rcases hstep with ⟨h1, h2⟩ | ⟨h1, h2⟩
      · rcases h1 n' hn' with ⟨n, hn, hst⟩ | ⟨hnew, hq, -⟩
        · -- whose layer was in the match
          have hmem : n'.name ∈ nodeNames m := (mem_nodeNames _ _).2 ⟨n, hn, hst.name.symm⟩
          have hinfo : n.info.config.isSome = true → ∃ n2 n2', Spec.InTree n2 m ∧
              Spec.InTree n2' r ∧ NodeStep c relu n2 n2' ∧ n2.name = n'.name ∧
              n2.info = n.info ∧ g'.metadata n'.name = some n2'.info := by
            intro hk
            rcases heff.info n'.name with ⟨n2', hn2', hx2, hne, hm2⟩ | ⟨hall, -⟩
            · rcases h1 n2' hn2' with ⟨n2, hn2, hst2⟩ | ⟨-, -, hd⟩
              · have hn2n : n2.name = n'.name := hst2.name.symm.trans hx2
                refine ⟨n2, n2', hn2, hn2', hst2, hn2n, ?_, hm2⟩
                rw [(hnodes n2 hn2).2.2, (hnodes n hn).2.2, hn2n, hst.name]
              · exact absurd hd hne
            · exact absurd (hall n' hn' rfl) (config_ne_default (hst.info.key hk))
          rcases hinv.layers _ (hnodes n hn).1 with ⟨a, ha, e1, e2, -⟩ | ⟨e1, e2, e3⟩
          · left
            have e1' : a.layer.name = n'.name := e1.trans hst.name.symm
            obtain ⟨o1, o2, o3, o4⟩ := hold n hn a ha e1
            refine ⟨a, ha, e1', e2.trans hst.cls.symm, ?_, ?_, ?_⟩
            · rcases heff.weights n'.name with ⟨n2', hn2', hx2, hne, hw⟩ | ⟨hall, hw⟩
              · rcases h1 n2' hn2' with ⟨n2, hn2, hst2⟩ | ⟨hnew, -⟩
                · have hn2n : n2.name = n'.name := hst2.name.symm.trans hx2
                  rw [hw, hst2.weights, (hnodes n2 hn2).2.1, hn2n, hst.name, o2]
                · exact absurd (by rw [hx2, ← e1']; exact hnames a ha) hnew.1
              · rw [hw, if_pos hmem, ← hall n' hn' rfl, hst.weights, (hnodes n hn).2.1, o2, hst.name]
            · intro hnone
              obtain ⟨p1, p2⟩ := o3 hnone
              refine ⟨?_, fun hin => absurd p1 hin⟩
              rcases hst.config with hc | hc | hc
              · rw [hc]; exact p2
              · rw [← o1, p1] at hc; exact absurd hc (by decide +kernel)
              · rw [← o1, p1] at hc; exact absurd hc (by decide +kernel)
            · intro hsome
              obtain ⟨n2, n2', hn2, hn2', hst2, hn2n, hii, hm2⟩ := hinfo (o4 hsome).1
              refine ⟨_, hm2, ?_⟩
              obtain ⟨q1, -, -, q4⟩ := hold n2 hn2 a ha (e1'.trans hn2n.symm)
              refine kind_step (q4 hsome) hrelu ?_
              rw [q1]
              exact hst2.info
          · right
            change n.name ∉ _ at e1
            rw [hst.cls, hst.name]
            refine ⟨e1, e2, ?_⟩
            rcases e3 with e3 | ⟨hnq, i, hi, hk⟩
            · exact Or.inl e3
            right
            refine ⟨hnq, ?_⟩
            change g.metadata n.name = some i at hi
            have hni : n.info = i := by rw [(hnodes n hn).2.2, hi]; rfl
            obtain ⟨n2, n2', -, -, hst2, -, hii, hm2⟩ := hinfo (by rw [hni]; exact hk)
            rw [hst.name] at hm2
            exact ⟨_, hm2, hst2.info.key (by rw [hii, hni]; exact hk)⟩
        · refine Or.inr ⟨hnew.1, hnew.2.1, Or.inl ⟨hq.1, ?_⟩⟩
          obtain ⟨n, hn, hin⟩ := hq.2
          rcases hinv.layers _ (hnodes n hn).1 with ⟨a, ha, e1, e2, -⟩ | ⟨-, e2, -⟩
          · refine ⟨a, ha, e2.trans hin, fun hnone => ?_⟩
            by_contra hf
            refine hinv.untouched a ha hnone (fun _ => by simpa using hf) ?_
            rw [e1]; exact hcand n hn
          · rw [hin] at e2; simp at e2
      · right
        obtain ⟨hnew, hnq, hk⟩ := h1 n' hn'
        refine ⟨hnew.1, hnew.2.1, Or.inr ⟨hnq, ?_⟩⟩
        rcases heff.info n'.name with ⟨n2', hn2', -, -, hm2⟩ | ⟨hall, -⟩
        · exact ⟨_, hm2, (h1 n2' hn2').2.2⟩
        · exact absurd (hall n' hn' rfl) (config_ne_default hk)
  · intro a ha
    rcases hinv.present a ha with ⟨l, hl, he⟩ | h
    · by_cases hnm : l.name ∈ nodeNames m
      · obtain ⟨n, hn, hnl⟩ := (mem_nodeNames _ _).1 hnm
        rcases hstep with ⟨h1, h2⟩ | ⟨h1, h2⟩
        · obtain ⟨n', hn', hst⟩ := h2 n hn
          obtain ⟨l', hl', hs⟩ := heff.added n' hn'
          exact Or.inl ⟨l', hl', by rw [hs.1]; exact hst.name.trans (hnl.trans he)⟩
        · right
          obtain ⟨hc, hg⟩ := h2 n hn
          obtain ⟨o1, o2, o3, o4⟩ := hold n hn a ha (he.symm.trans hnl.symm)
          rw [← o1] at hc
          cases hann : a.annotation with
          | none =>
            rw [(o3 hann).1] at hc
            exact absurd hc (by decide)
          | some cfg =>
            cases cfg with
            | none => exact ⟨rfl, hc⟩
            | some u =>
              obtain ⟨q, hq, -⟩ := (o4 (by rw [hann]; rfl)).2.1 u hann
              rw [hg] at hq
              simp at hq
      · obtain ⟨l', hl', hs⟩ := heff.kept l hl hnm
        exact Or.inl ⟨l', hl', by rw [hs.1]; exact he⟩
    · exact Or.inr h
  · intro a ha hnone hin hmem
    rw [(heff.candidates.2 hinv.candidates).2] at hmem
    rcases hmem with hmem | hmem
    · exact hinv.untouched a ha hnone hin hmem
    · obtain ⟨n', hn', he⟩ := (mem_nodeNames _ _).1 hmem
      rcases hnewname n' hn' with h | h
      · obtain ⟨n, hn, hnn⟩ := (mem_nodeNames _ _).1 h
        refine hinv.untouched a ha hnone hin ?_
        rw [← he, ← hnn]
        exact hcand n hn
      · exact h (by rw [he]; exact hnames a ha)

variable {auto : String → ℕ → String} {expand : V → V} {str1 str2 : String → String}

/-- A step of the loops, which replaces a match. -/
structure ReplaceStep (c : Classes) (am : AModel V U) (auto : String → ℕ → String) (expand : V → V)
    (str1 str2 : String → String) (g : Graph V (Meta U)) (t : Transform V (Meta U))
    (m r : Node V (Meta U)) (k k' : ℕ) (g' : Graph V (Meta U)) : Prop where
  mem : t ∈ transforms auto c expand str1 str2
  found : ∃ matched, findPattern g t.pattern matched = some m
  replaced : t.replacement k m = .ok (r, k')
  effect : Effect g m r g'
  nodes : ∀ n, Spec.InTree n m → n.layer ∈ g.layers ∧ n.weights = g.weights n.name ∧
    n.info = (g.metadata n.name).getD default
  candidates : ∀ n, Spec.InTree n m → n.name ∈ g.candidates
  step : StepOk c (am.layers.map fun a => a.layer.name)
    (m.layer.cls = "ReLU" ∨ m.layer.cls = "Activation") m r

theorem apply_run [DecidableEq V] (metaEq : Meta U → Meta U → Bool)
    (hfresh : Spec.FreshNames auto (am.layers.map fun a => a.layer.name))
    (J : Graph V (Meta U) → ℕ → Prop) (hidle : ∀ g k (t : Transform V (Meta U)) m k', J g k →
      t ∈ transforms auto c expand str1 str2 → ∀ r, t.replacement k m = .ok (r, k') → J g k')
    (hJ : ∀ g g' t m r k k', ApplyInv c am g → J g k →
      ReplaceStep c am auto expand str1 str2 g t m r k k' g' → J g' k') :
    ∀ fuel (s : Loop V (Meta U)) g', ApplyInv c am s.graph → J s.graph s.supply →
    (∀ t ∈ s.rest, t ∈ transforms auto c expand str1 str2) →
    run metaEq (transforms auto c expand str1 str2) fuel s = some (.ok g') →
    ApplyInv c am g' ∧ ∃ k, J g' k := by
  intro fuel
  induction fuel with
  | zero => intro s g' _ _ _ h; simp [run] at h
  | succ fuel ih =>
    intro s g' hok hj hrest h
    rw [run] at h
    split at h
    · rename_i s' hturn
      have hboth : ApplyInv c am s'.graph ∧ J s'.graph s'.supply := by
        rcases turn_next hturn with ⟨-, -, rfl⟩ | ⟨t, tl, hr, -, rfl⟩ |
          ⟨t, tl, m, r, k, hr, hfind, hrep, -, hmat, hsup, ⟨-, hg, -⟩ | ⟨-, hg, -⟩⟩
        · exact ⟨hok, hj⟩
        · exact ⟨hok, hj⟩
        · rw [hg, hsup]
          exact ⟨hok, hidle _ _ t m _ hj (hrest t (by rw [hr]; simp)) r hrep⟩
        · have ht : t ∈ transforms auto c expand str1 str2 := hrest t (by rw [hr]; simp)
          obtain ⟨hml, -, hmt⟩ := findPattern_some hfind
          have hsep : ∀ l ∈ s.graph.layers, l.cls ∈ ["SeparableConv1D", "ReLU", "Activation",
              "InputLayer", "Concatenate"] → ∃ a ∈ am.layers, a.layer.name = l.name ∧ a.layer.cls = l.cls := by
            intro l hl hc
            rcases hok.layers l hl with ⟨a, ha, e1, e2, -⟩ | ⟨-, e2, -⟩
            · exact ⟨a, ha, e1, e2⟩
            · exact absurd hc e2
          have hcand : ∀ n, Spec.InTree n m → n.name ∈ s.graph.candidates := by
            intro n hn
            rcases matchTree_candidates _ _ _ _ _ hmt n hn with h | h
            · exact absurd h hok.candidates
            · exact h
          have hstep : StepOk c (am.layers.map fun a => a.layer.name)
              (m.layer.cls = "ReLU" ∨ m.layer.cls = "Activation") m r := by
            refine transforms_step c hfresh ht hok.newline ?_ hfind hrep
            intro l hl hc
            obtain ⟨a, ha, e1, -⟩ := hsep l hl (by rw [hc]; simp)
            rw [← e1]; exact List.mem_map_of_mem ha
          have heff := replace_effect hml hg
          have hnodes := matchTree_nodes _ _ _ _ _ hml hmt
          refine ⟨apply_step hnd hok (m := m) (r := r)
            (relu := m.layer.cls = "ReLU" ∨ m.layer.cls = "Activation") ?_ hnodes hcand hstep heff, ?_⟩
          · intro hre
            obtain ⟨a, ha, e1, e2⟩ := hsep _ hml (by rcases hre with h | h <;> rw [h] <;> simp)
            refine ⟨a, ha, ?_, by rw [e2]; exact hre⟩
            by_contra hnone
            refine hok.untouched a ha (by simpa using hnone) ?_ ?_
            · rw [e2]; rcases hre with h | h <;> rw [h] <;> intro hh <;> exact absurd hh (by decide)
            · rw [e1]; exact hcand m (Spec.InTree.root m)
          · rw [hsup]
            exact hJ _ _ t m r _ _ hok hj ⟨ht, ⟨_, hfind⟩, hrep, heff, hnodes, hcand, hstep⟩
      refine ih s' g' hboth.1 hboth.2 ?_ h
      rcases turn_next hturn with ⟨-, -, rfl⟩ | ⟨t, tl, hr, -, rfl⟩ |
          ⟨t, tl, m, r, k, hr, hfind, hrep, hrest', -⟩
      · exact fun t ht => ht
      · exact fun t' ht' => hrest t' (by rw [hr]; simp only [List.mem_cons]; exact Or.inr ht')
      · rw [hrest']; exact hrest
    · rename_i g hturn
      simp only [Option.some.injEq, Except.ok.injEq] at h
      subst h
      rw [turn_done hturn]; exact ⟨hok, _, hj⟩
    · simp at h

theorem quantizeMap_eq {a : ALayer U} (ha : a ∈ am.layers) :
    quantizeMap am a.layer.name = mapEntry am a := by
  rw [quantizeMap]
  cases hf : am.layers.find? (fun b => b.layer.name = a.layer.name) with
  | none =>
    rw [List.find?_eq_none] at hf
    exact absurd (by simp) (hf a ha)
  | some b =>
    have h1 := List.find?_some hf
    have h2 := List.mem_of_find?_eq_some hf
    simp only [decide_eq_true_eq] at h1
    rw [same_alayer hnd h2 ha h1]
    rfl

theorem apply_start (hann : ∃ a ∈ am.layers, a.annotation.isSome = true)
    (hnl : ∀ a ∈ am.layers, '\n' ∉ a.layer.cls.toList) : ApplyInv c am (unwrap am) := by
  refine ⟨?_, ?_, ?_, ?_, ?_⟩
  · obtain ⟨a, ha, hs⟩ := hann
    obtain ⟨cfg, hcfg⟩ := Option.isSome_iff_exists.1 hs
    have : a.layer.name ∈ (unwrap am).candidates := by
      refine List.mem_map.2 ⟨a, List.mem_filter.2 ⟨ha, ?_⟩, rfl⟩
      rw [mapEntry, hcfg]; rfl
    exact List.ne_nil_of_mem this
  · intro l hl
    obtain ⟨a, ha, rfl⟩ := List.mem_map.1 hl
    exact hnl a ha
  · intro l hl
    obtain ⟨a, ha, rfl⟩ := List.mem_map.1 hl
    refine Or.inl ⟨a, ha, rfl, rfl, rfl, ?_, ?_⟩
    · intro hnone
      refine ⟨rfl, fun hin => ?_⟩
      change quantizeMap am a.layer.name = none
      rw [quantizeMap_eq hnd ha, mapEntry, hnone]
      simp [hin]
    · intro hs
      obtain ⟨cfg, hcfg⟩ := Option.isSome_iff_exists.1 hs
      refine ⟨{ config := some (cfg.map fun u => ⟨.custom u, false, false⟩) }, ?_, rfl, ?_, ?_⟩
      · change quantizeMap am a.layer.name = _
        rw [quantizeMap_eq hnd ha, mapEntry, hcfg]
      · intro u hu
        rw [hcfg] at hu
        simp only [Option.some.injEq] at hu
        subst hu
        exact ⟨_, rfl, Or.inl rfl⟩
      · intro hu
        rw [hcfg] at hu
        simp only [Option.some.injEq] at hu
        subst hu
        exact Or.inl rfl
  · intro a ha
    exact Or.inl ⟨a.layer, List.mem_map_of_mem ha, rfl⟩
  · intro a ha hnone hin hmem
    obtain ⟨b, hb, he⟩ := List.mem_map.1 hmem
    obtain ⟨hb, hs⟩ := List.mem_filter.1 hb
    obtain rfl := same_alayer hnd hb ha he
    rw [mapEntry, hnone] at hs
    by_cases hc : b.layer.cls = "InputLayer"
    · simp [hc, hin hc] at hs
    · simp [hc] at hs

end Inv


/-! ### The clone of the transformed model -/

theorem previous_iff : ∀ (ls : List (ALayer U)) (name x : String),
    (ls.map fun a => a.layer.name).Nodup →
    (previous ls name = some x ↔ ∃ i a b, ls[i]? = some a ∧ a.layer.name = x ∧
      ls[i + 1]? = some b ∧ b.layer.name = name)
  | [], name, x, _ => by simp [previous]
  | [a], name, x, _ => by simp [previous]
  | a :: b :: rest, name, x, hnd => by
    rw [previous]
    have ih := previous_iff (b :: rest) name x (by simpa using (List.nodup_cons.1 hnd).2)
    split
    · rename_i he
      constructor
      · intro h
        simp only [Option.some.injEq] at h
        exact ⟨0, a, b, rfl, h, rfl, he⟩
      · rintro ⟨i, a', b', h1, h2, h3, h4⟩
        cases i with
        | zero =>
          simp only [List.getElem?_cons_zero, Option.some.injEq] at h1
          rw [h1, h2]
        | succ i =>
          exfalso
          simp only [List.getElem?_cons_succ] at h3
          have hmem : b' ∈ rest := List.mem_of_getElem? h3
          have h5 := (List.nodup_cons.1 (List.nodup_cons.1 hnd).2).1
          refine h5 ?_
          show b.layer.name ∈ _
          rw [he, ← h4]
          exact List.mem_map_of_mem hmem
    · rename_i he
      rw [ih]
      constructor
      · rintro ⟨i, a', b', h1, h2, h3, h4⟩
        exact ⟨i + 1, a', b', h1, h2, h3, h4⟩
      · rintro ⟨i, a', b', h1, h2, h3, h4⟩
        cases i with
        | zero =>
          simp only [zero_add, List.getElem?_cons_succ, List.getElem?_cons_zero, Option.some.injEq] at h3
          rw [h3] at he
          exact absurd h4 he
        | succ i => exact ⟨i, a', b', h1, h2, h3, h4⟩

theorem mem_requires {am : AModel V U} (hnd : (am.layers.map fun a => a.layer.name).Nodup)
    (x : String) : x ∈ requiresOutput am ↔ isAnnotated am x = false ∧ Spec.FeedsOnly am x := by
  have hfeed : ∀ b, feeder am b = some x ↔
      if am.functional = true then ∃ conn : Conn, b.layer.inbound = [[conn]] ∧ conn.src = x
      else ∃ i a b', am.layers[i]? = some a ∧ a.layer.name = x ∧ am.layers[i + 1]? = some b' ∧
        b'.layer.name = b.layer.name := by
    intro b
    rw [feeder]
    split
    · split
      · rename_i conn hc
        simp [hc]
      · rename_i hc
        constructor
        · simp
        · rintro ⟨conn, h, -⟩
          exact absurd h (hc conn)
    · exact previous_iff _ _ _ hnd
  rw [requiresOutput, List.mem_filterMap]
  constructor
  · rintro ⟨b, hb, h⟩
    split at h
    · rename_i hs
      obtain ⟨h1, h2⟩ := Option.filter_eq_some_iff.1 h
      refine ⟨by simpa using h2, b, hb, hs, ?_⟩
      rw [hfeed] at h1
      split at h1
      · rename_i hf; rw [if_pos hf]; exact h1
      · rename_i hf
        rw [if_neg hf]
        obtain ⟨i, a, b', e1, e2, e3, e4⟩ := h1
        rw [same_alayer hnd (List.mem_of_getElem? e3) hb e4] at e3
        exact ⟨i, a, e1, e2, e3⟩
    · simp at h
  · rintro ⟨hna, b, hb, hs, h⟩
    refine ⟨b, hb, ?_⟩
    rw [if_pos hs, Option.filter_eq_some_iff]
    refine ⟨?_, by simpa using hna⟩
    rw [hfeed]
    split
    · rename_i hf; rw [if_pos hf] at h; exact h
    · rename_i hf
      rw [if_neg hf] at h
      obtain ⟨i, a, e1, e2, e3⟩ := h
      exact ⟨i, a, b, e1, e2, e3, rfl⟩

theorem isAnnotated_eq {am : AModel V U} (hnd : (am.layers.map fun a => a.layer.name).Nodup)
    {a : ALayer U} (ha : a ∈ am.layers) : isAnnotated am a.layer.name = a.annotation.isSome := by
  cases hs : a.annotation.isSome with
  | true =>
    rw [isAnnotated, List.any_eq_true]
    exact ⟨a, ha, by simp [hs]⟩
  | false =>
    rw [isAnnotated, List.any_eq_false]
    intro b hb h
    simp only [Bool.and_eq_true, decide_eq_true_eq] at h
    rw [same_alayer hnd hb ha h.1, hs] at h
    simp at h

theorem quantizeLayer_layer {reg : Layer → Option (QConfig U)} {req : List String}
    {g : Graph V (Meta U)} {l : Layer} {e : OLayer U} (h : quantizeLayer reg req g l = .ok e) :
    e.layer.name = l.name ∧ e.layer.cls = l.cls ∧ (l.cls ≠ "QuantizeLayer" → e.layer = l) := by
  rw [quantizeLayer] at h
  split at h
  · simp only [Except.ok.injEq] at h; subst h; exact ⟨rfl, rfl, fun _ => rfl⟩
  split at h
  · rename_i hq
    split at h
    · simp only [Except.ok.injEq] at h; subst h; exact ⟨rfl, rfl, fun _ => rfl⟩
    · split at h
      · simp only [Except.ok.injEq] at h; subst h; exact ⟨rfl, rfl, fun _ => rfl⟩
      · split at h
        · simp at h
        · simp only [Except.ok.injEq] at h; subst h
          refine ⟨?_, ?_, fun hn => absurd hq hn⟩ <;> · simp only [OLayer.layer]; split <;> rfl
  split at h
  · simp only [Except.ok.injEq] at h; subst h; exact ⟨rfl, rfl, fun _ => rfl⟩
  split at h
  · split at h <;> · simp only [Except.ok.injEq] at h; subst h; exact ⟨rfl, rfl, fun _ => rfl⟩
  · split at h
    · simp only [Except.ok.injEq] at h; subst h; exact ⟨rfl, rfl, fun _ => rfl⟩
    · split at h
      · simp only [Except.ok.injEq] at h; subst h; exact ⟨rfl, rfl, fun _ => rfl⟩
      · simp at h

theorem apply_split {scheme : Scheme V U} {am : AModel V U} {out : OModel V U}
    (h : quantizeApply scheme (.model am) = .ok out) :
    (∃ a ∈ am.layers, a.annotation.isSome = true) ∧
    (am.layers.map fun a => a.layer.name).Nodup ∧
    ∃ g, scheme.transform (unwrap am) = .ok g ∧ out.weights = g.weights ∧
      List.Forall₂ (fun l e => quantizeLayer scheme.registry (requiresOutput am) g l = .ok e)
        g.layers out.layers := by
  rw [quantizeApply] at h
  split at h
  · simp at h
  rename_i hann
  split at h
  · simp at h
  split at h
  · simp at h
  rename_i hnd
  refine ⟨by simpa [Option.isSome_iff_ne_none] using hann, by simpa using hnd, ?_⟩
  split at h
  · simp at h
  · rename_i g hg
    split at h
    · simp at h
    · rename_i ls hls
      simp only [Except.ok.injEq] at h
      subst h
      exact ⟨g, hg, rfl, (mapExcept_ok _ _ _).1 hls⟩

section Default
variable [DecidableEq U] [DecidableEq V] {metaEq : Meta U → Meta U → Bool}
  {auto : String → ℕ → String} {c : Classes} {expand : V → V} {str1 str2 : String → String}
  {fuel : ℕ} {am : AModel V U} {out : OModel V U}

theorem apply_inv_with (hnl : ∀ a ∈ am.layers, '\n' ∉ a.layer.cls.toList)
    (hfresh : Spec.FreshNames auto (am.layers.map fun a => a.layer.name))
    (J : Graph V (Meta U) → ℕ → Prop) (hidle : ∀ g k (t : Transform V (Meta U)) m k', J g k →
      t ∈ transforms auto c expand str1 str2 → ∀ r, t.replacement k m = .ok (r, k') → J g k')
    (hJ : ∀ g g' t m r k k', ApplyInv c am g → J g k →
      ReplaceStep c am auto expand str1 str2 g t m r k k' g' → J g' k')
    (hstart : (am.layers.map fun a => a.layer.name).Nodup → J (unwrap am) 0)
    (h : quantizeApply (defaultScheme metaEq auto c expand str1 str2 fuel) (.model am) = .ok out) :
    (am.layers.map fun a => a.layer.name).Nodup ∧ ∃ g, (∃ k, J g k) ∧ ApplyInv c am g ∧ out.weights = g.weights ∧
      (∀ l ∈ g.layers, ∃ e ∈ out.layers, e.layer.name = l.name) ∧
      ∀ e ∈ out.layers, ∃ l ∈ g.layers, quantizeLayer
        (fun l => if c.supported l.cls then some ⟨.default c.params l.cls, false, false⟩ else none)
        (requiresOutput am) g l = .ok e := by
  obtain ⟨hann, hnd, g, hg, hw, hall⟩ := apply_split h
  have hrun : ApplyInv c am g ∧ ∃ k, J g k := by
    simp only [defaultScheme] at hg
    refine apply_run hnd metaEq hfresh J hidle hJ fuel
      (start (transforms auto c expand str1 str2) (unwrap am)) g
      (apply_start hnd hann hnl) (hstart hnd) (fun t ht => ht) ?_
    cases hr : run metaEq (transforms auto c expand str1 str2) fuel
        (start (transforms auto c expand str1 str2) (unwrap am)) with
    | none => rw [hr] at hg; simp at hg
    | some e => rw [hr] at hg; simp only [Option.getD_some] at hg; rw [hg]
  refine ⟨hnd, g, hrun.2, hrun.1, hw, ?_, ?_⟩
  · intro l hl
    obtain ⟨i, hi, rfl⟩ := List.mem_iff_getElem.1 hl
    have hi' : i < out.layers.length := by rw [← hall.length_eq]; exact hi
    exact ⟨out.layers[i], List.getElem_mem hi', (quantizeLayer_layer (List.Forall₂.get hall hi hi')).1⟩
  · intro e he
    obtain ⟨i, hi, rfl⟩ := List.mem_iff_getElem.1 he
    have hi' : i < g.layers.length := by rw [hall.length_eq]; exact hi
    exact ⟨g.layers[i], List.getElem_mem hi', List.Forall₂.get hall hi' hi⟩

theorem apply_inv (hnl : ∀ a ∈ am.layers, '\n' ∉ a.layer.cls.toList)
    (hfresh : Spec.FreshNames auto (am.layers.map fun a => a.layer.name))
    (h : quantizeApply (defaultScheme metaEq auto c expand str1 str2 fuel) (.model am) = .ok out) :
    (am.layers.map fun a => a.layer.name).Nodup ∧ ∃ g, ApplyInv c am g ∧ out.weights = g.weights ∧
      (∀ l ∈ g.layers, ∃ e ∈ out.layers, e.layer.name = l.name) ∧
      ∀ e ∈ out.layers, ∃ l ∈ g.layers, quantizeLayer
        (fun l => if c.supported l.cls then some ⟨.default c.params l.cls, false, false⟩ else none)
        (requiresOutput am) g l = .ok e := by
  obtain ⟨hnd, g, -, h'⟩ := apply_inv_with hnl hfresh (fun _ _ => True) (fun _ _ _ _ _ _ _ _ _ => trivial)
    (fun _ _ _ _ _ _ _ _ _ _ => trivial) (fun _ => trivial) h
  exact ⟨hnd, g, h'⟩

/-- The layer of the transformed model behind a layer of the result. -/
theorem apply_layer {g : Graph V (Meta U)} (hnd : (am.layers.map fun a => a.layer.name).Nodup)
    (hinv : ApplyInv c am g) {l : Layer} (hl : l ∈ g.layers) {a : ALayer U} (ha : a ∈ am.layers)
    (hn : l.name = a.layer.name) : a.layer.cls = l.cls ∧ g.weights l.name = am.weights l.name ∧
      (a.annotation = none → l.config = a.layer.config ∧
        (a.layer.cls ≠ "InputLayer" → g.metadata l.name = none)) ∧
      (a.annotation.isSome = true → ∃ i, g.metadata l.name = some i ∧ KindOk c am a i) := by
  rcases hinv.layers l hl with ⟨b, hb, e1, e2⟩ | ⟨e1, -⟩
  · rw [same_alayer hnd hb ha (e1.trans hn)] at e2
    exact e2
  · exact absurd (by rw [hn]; exact List.mem_map_of_mem ha) e1

end Default

end Aux

section Main54
variable [DecidableEq U] [DecidableEq V] (metaEq : Meta U → Meta U → Bool)
  (auto : String → ℕ → String) (c : Classes) (expand : V → V) (str1 str2 : String → String)
  (fuel : ℕ) (m : AModel V U) (out : OModel V U)
  (hnl : ∀ a ∈ m.layers, '\n' ∉ a.layer.cls.toList)
  (hfresh : Spec.FreshNames auto (m.layers.map fun a => a.layer.name))
  (h : quantizeApply (defaultScheme metaEq auto c expand str1 str2 fuel) (.model m) = .ok out)
include hnl hfresh h

/-- C54, layers that are not annotated: they are in the result, with the same class, configuration
and weights, without any quantization of weights; they get quantization of their output if and only
if they are the only input of an annotated layer and the registry supports them. -/
theorem C54_unannotated (a : ALayer U) (ha : a ∈ m.layers) (hann : a.annotation = none) :
    (∃ e ∈ out.layers, e.layer.name = a.layer.name) ∧
    out.weights a.layer.name = m.weights a.layer.name ∧
    ∀ e ∈ out.layers, e.layer.name = a.layer.name → Spec.SameLayer a.layer e.layer ∧
      ((e = .plain e.layer ∧
          ¬ (¬ Spec.Exempt a.layer.cls ∧ Spec.FeedsOnly m a.layer.name ∧ c.supported a.layer.cls = true)) ∨
       (e = .outputOnly e.layer ⟨.default c.params a.layer.cls, false, false⟩ ∧
          ¬ Spec.Exempt a.layer.cls ∧ Spec.FeedsOnly m a.layer.name ∧ c.supported a.layer.cls = true)) := by
  obtain ⟨hnd, g, hinv, hw, hall, hback⟩ := Aux.apply_inv hnl hfresh h
  have hpres : ∃ l ∈ g.layers, l.name = a.layer.name := by
    rcases hinv.present a ha with h | ⟨h, -⟩
    · exact h
    · rw [hann] at h; simp at h
  obtain ⟨l, hl, hln⟩ := hpres
  refine ⟨?_, ?_, ?_⟩
  · obtain ⟨e, he, hen⟩ := hall l hl
    exact ⟨e, he, hen.trans hln⟩
  · rw [hw, ← hln]
    exact (Aux.apply_layer hnd hinv hl ha hln).2.1
  · intro e he hen
    obtain ⟨l, hl, hq⟩ := hback e he
    obtain ⟨q1, q2, q3⟩ := Aux.quantizeLayer_layer hq
    have hln : l.name = a.layer.name := q1.symm.trans hen
    obtain ⟨e2, -, e4, -⟩ := Aux.apply_layer hnd hinv hl ha hln
    obtain ⟨e4, e5⟩ := e4 hann
    have hreq : l.name ∈ requiresOutput m ↔ Spec.FeedsOnly m a.layer.name := by
      rw [hln, Aux.mem_requires hnd, Aux.isAnnotated_eq hnd ha, hann]
      simp
    rw [quantizeLayer, ← e2] at hq
    have same : ∀ e : OLayer U, e.layer = l → Spec.SameLayer a.layer e.layer := by
      intro e he
      rw [he]
      exact ⟨hln, e2.symm, e4⟩
    split at hq
    · rename_i hin
      simp only [Except.ok.injEq] at hq; subst hq
      exact ⟨same _ rfl, Or.inl ⟨rfl, fun hx => hx.1 (by rw [Spec.Exempt, hin]; simp)⟩⟩
    rename_i hin
    rw [e5 hin] at hq
    split at hq
    · rename_i hql
      have : e = .plain l := by
        split at hq
        · simp only [Except.ok.injEq] at hq; exact hq.symm
        · simp only [Except.ok.injEq] at hq; exact hq.symm
      subst this
      exact ⟨same _ rfl, Or.inl ⟨rfl, fun hx => hx.1 (by rw [Spec.Exempt, hql]; simp)⟩⟩
    rename_i hql
    split at hq
    · rename_i hpl
      simp only [Except.ok.injEq] at hq; subst hq
      refine ⟨same _ rfl, Or.inl ⟨rfl, fun hx => ?_⟩⟩
      rcases hpl with ⟨-, hpl⟩ | hpl
      · exact hpl (hreq.2 hx.2.1)
      · refine hx.1 ?_
        rw [Spec.Exempt]
        simp only [List.mem_cons, List.not_mem_nil, or_false] at hpl ⊢
        exact Or.inr (Or.inr hpl)
    rename_i hpl
    simp only [Option.isNone_none, true_and, not_or, not_not] at hpl
    rw [if_pos hpl.1] at hq
    have hex : ¬ Spec.Exempt a.layer.cls := by
      intro hx
      simp only [Spec.Exempt, List.mem_cons, List.not_mem_nil, or_false] at hx
      have := hpl.2
      simp only [List.mem_cons, List.not_mem_nil, or_false] at this
      tauto
    split at hq
    · rename_i hsup
      simp only [Except.ok.injEq] at hq; subst hq
      refine ⟨same _ rfl, Or.inl ⟨rfl, fun hx => ?_⟩⟩
      rw [hx.2.2] at hsup
      simp at hsup
    · rename_i q hsup
      simp only [Except.ok.injEq] at hq; subst hq
      refine ⟨same _ rfl, Or.inr ⟨?_, hex, hreq.1 hpl.1, ?_⟩⟩
      · split at hsup
        · simp only [Option.some.injEq] at hsup; rw [← hsup]; rfl
        · simp at hsup
      · by_contra hns
        rw [if_neg hns] at hsup
        simp at hsup

/-- C54, annotated layers.  Missing: a config of its own does not always survive, see `C54_violated`.
Every annotated layer is in the result, with the same class and weights,
wrapped with a quantize config: its own config if it has one (unless it is followed by a ReLU and of
a class that is fused with it, see C57), and otherwise a config the library has for its class.
(A separable convolution without a config of its own is replaced by other layers; these are wrapped
with a quantize config or `QuantizeLayer`s by `C54_everything`.) -/
theorem C54_annotated_partial (a : ALayer U) (ha : a ∈ m.layers) (cfg : Option U)
    (hann : a.annotation = some cfg) (hex : ¬ Spec.Exempt a.layer.cls)
    (hsep : cfg = none → a.layer.cls ≠ "SeparableConv1D" ∧ a.layer.cls ≠ "SeparableConv2D") :
    (∃ e ∈ out.layers, e.layer.name = a.layer.name) ∧
    out.weights a.layer.name = m.weights a.layer.name ∧
    ∀ e ∈ out.layers, e.layer.name = a.layer.name → e.layer.cls = a.layer.cls ∧
      ∃ q, e = .quantized e.layer q ∧
        (∀ u, cfg = some u → q.kind = .custom u ∨
          (Spec.AnnotatedReLU m ∧ Spec.IsFused a.layer.cls ∧ q.kind = .noOp)) ∧
        (cfg = none → Spec.LibraryConfig c (Spec.AnnotatedReLU m) a.layer.cls q.kind) := by
  obtain ⟨hnd, g, hinv, hw, hall, hback⟩ := Aux.apply_inv hnl hfresh h
  have hpres : ∃ l ∈ g.layers, l.name = a.layer.name := by
    rcases hinv.present a ha with h | ⟨h, hc⟩
    · exact h
    · rw [hann] at h
      simp only [Option.some.injEq] at h
      have := hsep h
      simp only [List.mem_cons, List.not_mem_nil, or_false] at hc
      tauto
  obtain ⟨l, hl, hln⟩ := hpres
  refine ⟨?_, ?_, ?_⟩
  · obtain ⟨e, he, hen⟩ := hall l hl
    exact ⟨e, he, hen.trans hln⟩
  · rw [hw, ← hln]
    exact (Aux.apply_layer hnd hinv hl ha hln).2.1
  · intro e he hen
    obtain ⟨l, hl, hq⟩ := hback e he
    obtain ⟨q1, q2, q3⟩ := Aux.quantizeLayer_layer hq
    have hln : l.name = a.layer.name := q1.symm.trans hen
    obtain ⟨e2, -, -, e5⟩ := Aux.apply_layer hnd hinv hl ha hln
    obtain ⟨i, hi, hk⟩ := e5 (by rw [hann]; rfl)
    refine ⟨q2.trans e2.symm, ?_⟩
    have hreq : l.name ∉ requiresOutput m := by
      rw [hln, Aux.mem_requires hnd, Aux.isAnnotated_eq hnd ha, hann]
      simp
    simp only [Spec.Exempt, List.mem_cons, List.not_mem_nil, or_false, not_or] at hex
    rw [quantizeLayer, ← e2, if_neg hex.1, if_neg hex.2.1, if_neg (by simp [hi, hex.2.2]),
      if_neg hreq, hi] at hq
    simp only [Option.getD_some] at hq
    split at hq
    · rename_i q hget
      simp only [Except.ok.injEq] at hq; subst hq
      refine ⟨q, rfl, ?_, ?_⟩
      · intro u hu
        obtain ⟨q', hq', hor⟩ := hk.2.1 u (by rw [hann, hu])
        rw [hget] at hq'
        simp only [Option.some.injEq] at hq'
        rw [hq']; exact hor
      · intro hu
        rcases hk.2.2 (by rw [hann, hu]) with hn | ⟨q', hq', hl⟩
        · rw [hget] at hn; simp at hn
        · rw [hget] at hq'
          simp only [Option.some.injEq] at hq'
          rw [hq']; exact hl
    · rename_i hget
      have hnone : ∀ u, cfg ≠ some u := by
        intro u hu
        obtain ⟨q', hq', -⟩ := hk.2.1 u (by rw [hann, hu])
        rw [hget] at hq'; simp at hq'
      split at hq
      · rename_i q hsup
        simp only [Except.ok.injEq] at hq; subst hq
        refine ⟨q, rfl, fun u hu => absurd hu (hnone u), fun _ => ?_⟩
        split at hsup
        · rename_i hs
          simp only [Option.some.injEq] at hsup
          rw [← hsup]
          exact Or.inl ⟨Or.inl rfl, hs⟩
        · simp at hsup
      · simp at hq

/-- C54: without an annotated ReLU or Activation, a layer with a quantize config of its own is
wrapped with that config. -/
theorem C54_custom (hrelu : ¬ Spec.AnnotatedReLU m) (a : ALayer U) (ha : a ∈ m.layers) (u : U)
    (hann : a.annotation = some (some u)) (hex : ¬ Spec.Exempt a.layer.cls) :
    ∃ e ∈ out.layers, e.layer.name = a.layer.name ∧ e.layer.cls = a.layer.cls ∧
      ∃ off saved, e = .quantized e.layer ⟨.custom u, off, saved⟩ := by
  obtain ⟨⟨e, he, hen⟩, -, hall⟩ := C54_annotated_partial metaEq auto c expand str1 str2 fuel m out hnl hfresh h
    a ha (some u) hann hex (by simp)
  obtain ⟨hcls, q, hq, hcus, -⟩ := hall e he hen
  refine ⟨e, he, hen, hcls, q.outputOff, q.savedOff, ?_⟩
  rcases hcus u rfl with hk | ⟨hr, -⟩
  · rw [← hk]; exact hq
  · exact absurd hr hrelu

/-- C54: a layer of the result is one of the layers that were not annotated, as described by
`C54_unannotated`, or it is wrapped with a quantize config, or it is a `QuantizeLayer` or was already
quantized. -/
theorem C54_everything
    (hconn : ∀ b ∈ m.layers, ∀ x ∈ inboundNames b.layer, ∃ a ∈ m.layers, a.layer.name = x)
    (e : OLayer U) (he : e ∈ out.layers) :
    (∃ a ∈ m.layers, a.annotation = none ∧ Spec.SameLayer a.layer e.layer) ∨
    (∃ q, e = .quantized e.layer q) ∨ (Spec.Exempt e.layer.cls ∧ e = .plain e.layer) := by
  obtain ⟨hnd, g, hinv, hw, hall, hback⟩ := Aux.apply_inv hnl hfresh h
  obtain ⟨l, hl, hq⟩ := hback e he
  obtain ⟨q1, q2, q3⟩ := Aux.quantizeLayer_layer hq
  have done : (∃ i, g.metadata l.name = some i ∧ i.config.isSome = true) ∧
      l.name ∉ requiresOutput m → (∃ q, e = .quantized e.layer q) ∨
      (Spec.Exempt e.layer.cls ∧ e = .plain e.layer) := by
    rintro ⟨⟨i, hi, hk⟩, hreq⟩
    rw [q2]
    rw [quantizeLayer] at hq
    split at hq
    · rename_i hin
      simp only [Except.ok.injEq] at hq; subst hq
      exact Or.inr ⟨by rw [Spec.Exempt, hin]; simp, rfl⟩
    split at hq
    · rename_i hin
      right
      refine ⟨by rw [Spec.Exempt, hin]; simp, ?_⟩
      rw [hi] at hq
      split at hq
      · simp only [Except.ok.injEq] at hq; subst hq; rfl
      · simp [hk] at hq
    split at hq
    · rename_i hpl
      simp only [Except.ok.injEq] at hq; subst hq
      right
      refine ⟨?_, rfl⟩
      rcases hpl with ⟨hpl, -⟩ | hpl
      · rw [hi] at hpl; simp at hpl
      · rw [Spec.Exempt]
        simp only [List.mem_cons, List.not_mem_nil, or_false] at hpl ⊢
        exact Or.inr (Or.inr hpl)
    left
    split at hq
    · simp only [Except.ok.injEq] at hq; subst hq; exact ⟨_, rfl⟩
    · split at hq
      · simp only [Except.ok.injEq] at hq; subst hq; exact ⟨_, rfl⟩
      · simp at hq
  rcases hinv.layers l hl with ⟨a, ha, e1, e2, e3, e4, e5⟩ | ⟨e1, e2, e3⟩
  · cases hann : a.annotation with
    | none =>
      left
      refine ⟨a, ha, hann, ?_⟩
      exact ((C54_unannotated metaEq auto c expand str1 str2 fuel m out hnl hfresh h a ha hann).2.2 e he
        (q1.trans e1.symm)).1
    | some cfg =>
      right
      obtain ⟨i, hi, hk⟩ := e5 (by rw [hann]; rfl)
      refine done ⟨⟨i, hi, hk.1⟩, ?_⟩
      rw [← e1, Aux.mem_requires hnd, Aux.isAnnotated_eq hnd ha, hann]
      simp
  · right
    have hreq : l.name ∉ requiresOutput m := by
      rw [Aux.mem_requires hnd]
      rintro ⟨-, b, hb, -, hx⟩
      refine e1 ?_
      split at hx
      · obtain ⟨conn, h1, h2⟩ := hx
        obtain ⟨a, ha, hax⟩ := hconn b hb l.name (by simp [inboundNames, h1, connSources, h2])
        rw [← hax]; exact List.mem_map_of_mem ha
      · obtain ⟨i, x, h1, h2, -⟩ := hx
        rw [← h2]; exact List.mem_map_of_mem (List.mem_of_getElem? h1)
    rcases e3 with ⟨hql, -⟩ | ⟨-, hmeta⟩
    · right
      rw [q2]
      refine ⟨by rw [Spec.Exempt, hql]; simp, ?_⟩
      rw [quantizeLayer, hql, if_neg (by decide), if_pos rfl] at hq
      split at hq
      · simp only [Except.ok.injEq] at hq; subst hq; rfl
      · split at hq
        · simp only [Except.ok.injEq] at hq; subst hq; rfl
        · split at hq
          · simp at hq
          · simp only [Except.ok.injEq] at hq; subst hq; rfl
    · exact done ⟨hmeta, hreq⟩


/-- C54, inputs: a `QuantizeLayer` of the result was in the model, or was added because some input
of the model feeds an annotated layer. -/
theorem C54_inputs (hin : ∀ a ∈ m.layers, a.layer.cls = "InputLayer" → a.annotation = none)
    (e : OLayer U) (he : e ∈ out.layers) (hcls : e.layer.cls = "QuantizeLayer") :
    (∃ a ∈ m.layers, a.layer.name = e.layer.name ∧ a.layer.cls = "QuantizeLayer") ∨
    ∃ a ∈ m.layers, a.layer.cls = "InputLayer" ∧ Spec.FeedsAnnotated m a.layer.name := by
  obtain ⟨hnd, g, hinv, hw, hall, hback⟩ := Aux.apply_inv hnl hfresh h
  obtain ⟨l, hl, hq⟩ := hback e he
  obtain ⟨q1, q2, q3⟩ := Aux.quantizeLayer_layer hq
  rcases hinv.layers l hl with ⟨a, ha, e1, e2, -⟩ | ⟨-, -, ⟨-, a, ha, e1, e2⟩ | ⟨e1, -⟩⟩
  · exact Or.inl ⟨a, ha, e1.trans q1.symm, by rw [e2, ← q2, hcls]⟩
  · refine Or.inr ⟨a, ha, e1, ?_⟩
    have hf := e2 (hin a ha e1)
    rw [feedsAnnotated, List.any_eq_true] at hf
    obtain ⟨b, hb, hf⟩ := hf
    rw [Bool.and_eq_true] at hf
    refine ⟨b, hb, hf.1, ?_⟩
    have hf2 := hf.2
    split at hf2
    · rename_i hfun
      rw [if_pos hfun]
      simp only [inboundNames, connSources, decide_eq_true_eq, List.mem_flatMap, List.mem_cons,
        List.mem_filterMap] at hf2
      obtain ⟨call, hc, conn, hconn, hs⟩ := hf2
      exact ⟨call, hc, conn, hconn, hs.imp_left Eq.symm⟩
    · rename_i hfun
      rw [if_neg hfun]
      simp only [decide_eq_true_eq] at hf2
      obtain ⟨i, x, b', h1, h2, h3, h4⟩ := (Aux.previous_iff _ _ _ hnd).1 hf2
      rw [Aux.same_alayer hnd (List.mem_of_getElem? h3) hb h4] at h3
      exact ⟨i, x, h1, h2, h3⟩
  · exact absurd (q2.symm.trans hcls) e1

omit h in
/-- C54: `quantize_apply` fails if an annotated layer has neither a config of its own nor one in the
library. -/
theorem C54_unsupported (a : ALayer U) (ha : a ∈ m.layers) (hann : a.annotation = some none)
    (hex : ¬ Spec.Exempt a.layer.cls)
    (hsep : a.layer.cls ≠ "SeparableConv1D" ∧ a.layer.cls ≠ "SeparableConv2D")
    (hno : ∀ k : Kind U, ¬ Spec.LibraryConfig c (Spec.AnnotatedReLU m) a.layer.cls k) :
    ∃ e, quantizeApply (defaultScheme metaEq auto c expand str1 str2 fuel) (.model m) = .error e := by
  cases h : quantizeApply (defaultScheme metaEq auto c expand str1 str2 fuel) (.model m) with
  | error e => exact ⟨e, rfl⟩
  | ok out =>
    obtain ⟨⟨e, he, hen⟩, -, hall⟩ := C54_annotated_partial metaEq auto c expand str1 str2 fuel m out hnl hfresh h
      a ha none hann hex (fun _ => hsep)
    obtain ⟨-, q, -, -, hlib⟩ := hall e he hen
    exact absurd (hlib rfl) (hno q.kind)

end Main54

/-- C54: what `quantize_apply` rejects with any scheme: `None`, things that are not Keras models,
subclassed models, models without annotated layers and models that are not built. -/
theorem C54_rejects (scheme : Scheme V U) :
    (∃ e, quantizeApply scheme .none = .error e) ∧
    (∃ e, quantizeApply scheme .other = .error e) ∧
    (∃ e, quantizeApply scheme .subclassed = .error e) ∧
    ∀ m : AModel V U, (∀ a ∈ m.layers, a.annotation = none) ∨ m.built = false →
      ∃ e, quantizeApply scheme (.model m) = .error e := by
  refine ⟨⟨_, rfl⟩, ⟨_, rfl⟩, ⟨_, rfl⟩, ?_⟩
  intro m hm
  rw [quantizeApply]
  split
  · exact ⟨_, rfl⟩
  rename_i hann
  split
  · exact ⟨_, rfl⟩
  rename_i hb
  exfalso
  rcases hm with hm | hm
  · refine hann ?_
    rw [Bool.not_eq_true', List.any_eq_false]
    intro a ha
    simp [hm a ha]
  · simp [hm] at hb

namespace Example

/-- `in -> conv -> bn -> relu -> pool -> dense`, where the pooling is not annotated and the dense
layer has a config of its own. -/
def annotatedModel (functional : Bool) : AModel ℕ String :=
  { functional := functional
    built := true
    layers := [{ layer := ⟨"in", "InputLayer", [], []⟩ },
      { layer := ⟨"conv", "Conv2D", [("activation", "linear")], [[⟨"in", 0, 0, []⟩]]⟩,
        annotation := some none },
      { layer := ⟨"bn", "BatchNormalization", [], [[⟨"conv", 0, 0, []⟩]]⟩, annotation := some none },
      { layer := ⟨"relu", "ReLU", [], [[⟨"bn", 0, 0, []⟩]]⟩, annotation := some none },
      { layer := ⟨"pool", "MaxPooling2D", [], [[⟨"relu", 0, 0, []⟩]]⟩ },
      { layer := ⟨"dense", "Dense", [("activation", "softmax")], [[⟨"pool", 0, 0, []⟩]]⟩,
        annotation := some (some "mine") }]
    outputs := [("dense", 0, 0)]
    weights := fun n => if n = "conv" then [("kernel", 5)] else
      if n = "dense" then [("kernel", 1), ("bias", 2)] else [] }

def supported8 (cls : String) : Bool :=
  decide (cls ∈ ["Conv2D", "DepthwiseConv2D", "Dense", "ReLU", "MaxPooling2D", "Concatenate"])

def scheme8 : Scheme ℕ String :=
  defaultScheme metaEq8 autoName ⟨fun _ => true, supported8, {}⟩ id id id 200

/-- The result of `quantize_apply`, checked by `p`. -/
def applyCheck (m : AModel ℕ String) (p : OModel ℕ String → Bool) : Bool :=
  match quantizeApply scheme8 (.model m) with
  | .ok out => p out
  | .error _ => false

theorem applyCheck_spec {m p} (h : applyCheck m p = true) :
    ∃ out, quantizeApply scheme8 (.model m) = .ok out ∧ p out = true := by
  rw [applyCheck] at h
  split at h
  · rename_i out ho
    exact ⟨out, ho, h⟩
  · simp at h

/-- A layer of the result: its name and how it is quantized. -/
def summary : OLayer String → String × String × Option (Kind String)
  | .plain l => (l.name, "plain", none)
  | .outputOnly l q => (l.name, "output", some q.kind)
  | .quantized l q => (l.name, "quantized", some q.kind)

end Example

open Example in
/-- The hypotheses of the theorems are met by `annotatedModel`; the result has a quantized input,
the default config on `conv` and `relu`, the no-op config on the fused batch normalization, output
quantization on `pool`, which feeds an annotated layer, and the user's config on `dense`. -/
example : (∀ a ∈ (annotatedModel false).layers, '\n' ∉ a.layer.cls.toList) ∧
    Spec.FreshNames autoName ((annotatedModel false).layers.map fun a => a.layer.name) ∧
    ∃ out, quantizeApply scheme8 (.model (annotatedModel false)) = .ok out ∧
      out.layers.map summary = [("in", "plain", none), ("quantize_layer_0", "plain", none),
        ("conv", "quantized", some (.default {} "Conv2D")), ("bn", "quantized", some .noOp),
        ("relu", "quantized", some (.default {} "ReLU")),
        ("pool", "output", some (.default {} "MaxPooling2D")),
        ("dense", "quantized", some (.custom "mine"))] := by
  refine ⟨by decide +kernel, Aux.freshNames_autoName _ (by decide +kernel), ?_⟩
  have h : applyCheck (annotatedModel false) (fun out => decide (out.layers.map summary =
      [("in", "plain", none), ("quantize_layer_0", "plain", none),
        ("conv", "quantized", some (.default {} "Conv2D")), ("bn", "quantized", some .noOp),
        ("relu", "quantized", some (.default {} "ReLU")),
        ("pool", "output", some (.default {} "MaxPooling2D")),
        ("dense", "quantized", some (.custom "mine"))])) = true := by decide +kernel
  obtain ⟨out, h1, h2⟩ := applyCheck_spec h
  exact ⟨out, h1, by simpa using h2⟩

open Example in
/-- The same for a functional model, where the new layers come last. -/
example : (∀ b ∈ (annotatedModel true).layers, ∀ x ∈ inboundNames b.layer,
      ∃ a ∈ (annotatedModel true).layers, a.layer.name = x) ∧
    ∃ out, quantizeApply scheme8 (.model (annotatedModel true)) = .ok out ∧
      ∀ s, s ∈ out.layers.map summary ↔ s ∈ [("in", "plain", none), ("quantize_layer_0", "plain", none),
        ("conv", "quantized", some (.default {} "Conv2D")), ("bn", "quantized", some .noOp),
        ("relu", "quantized", some (.default {} "ReLU")),
        ("pool", "output", some (.default {} "MaxPooling2D")),
        ("dense", "quantized", some (.custom "mine"))] := by
  refine ⟨by decide +kernel, ?_⟩
  have h : applyCheck (annotatedModel true) (fun out => decide (List.Perm (out.layers.map summary)
      [("in", "plain", none), ("quantize_layer_0", "plain", none),
        ("conv", "quantized", some (.default {} "Conv2D")), ("bn", "quantized", some .noOp),
        ("relu", "quantized", some (.default {} "ReLU")),
        ("pool", "output", some (.default {} "MaxPooling2D")),
        ("dense", "quantized", some (.custom "mine"))])) = true := by decide +kernel
  obtain ⟨out, h1, h2⟩ := applyCheck_spec h
  have h3 := of_decide_eq_true h2
  exact ⟨out, h1, fun s => h3.mem_iff⟩

open Example in
/-- C54_inputs on a model whose input feeds no annotated layer: no `QuantizeLayer` is added. -/
example : ∃ m : AModel ℕ String, (∀ a ∈ m.layers, a.layer.cls = "InputLayer" → a.annotation = none) ∧
    ∃ out, quantizeApply scheme8 (.model m) = .ok out ∧
      out.layers.map summary = [("in", "plain", none), ("pool", "output", some (.default {} "MaxPooling2D")),
        ("dense", "quantized", some (.default {} "Dense"))] := by
  refine ⟨{ annotatedModel false with
    layers := [{ layer := ⟨"in", "InputLayer", [], []⟩ },
      { layer := ⟨"pool", "MaxPooling2D", [], []⟩ },
      { layer := ⟨"dense", "Dense", [("activation", "linear")], []⟩, annotation := some none }] },
    by decide +kernel, ?_⟩
  have h : applyCheck { annotatedModel false with
    layers := [{ layer := ⟨"in", "InputLayer", [], []⟩ },
      { layer := ⟨"pool", "MaxPooling2D", [], []⟩ },
      { layer := ⟨"dense", "Dense", [("activation", "linear")], []⟩, annotation := some none }] }
      (fun out => decide (out.layers.map summary =
        [("in", "plain", none), ("pool", "output", some (.default {} "MaxPooling2D")),
        ("dense", "quantized", some (.default {} "Dense"))])) = true := by decide +kernel
  obtain ⟨out, h1, h2⟩ := applyCheck_spec h
  exact ⟨out, h1, by simpa using h2⟩

namespace Example

/-- `in -> dense -> relu`, all annotated, the dense layer with a config of its own. -/
def overwrittenModel : AModel ℕ String :=
  { functional := false
    built := true
    layers := [{ layer := ⟨"in", "InputLayer", [], []⟩ },
      { layer := ⟨"dense", "Dense", [("activation", "linear")], []⟩, annotation := some (some "mine") },
      { layer := ⟨"relu", "ReLU", [], []⟩, annotation := some none }]
    outputs := []
    weights := fun n => if n = "dense" then [("kernel", 1), ("bias", 2)] else [] }

end Example

open Example in
/-- C54 is violated: the config of an annotated `Dense` layer in front of an annotated `ReLU` is
replaced by the no-op config, so its weights are not quantized. -/
theorem C54_violated : ∃ (m : AModel ℕ String) (out : OModel ℕ String),
    quantizeApply scheme8 (.model m) = .ok out ∧
    (∃ a ∈ m.layers, a.layer.name = "dense" ∧ a.annotation = some (some "mine")) ∧
    ∀ e ∈ out.layers, e.layer.name = "dense" → e = .quantized e.layer ⟨.noOp, false, false⟩ := by
  have h : applyCheck overwrittenModel (fun out => decide (∀ e ∈ out.layers, e.layer.name = "dense" →
    e = .quantized e.layer ⟨.noOp, false, false⟩)) = true := by decide +kernel
  obtain ⟨out, h1, h2⟩ := applyCheck_spec h
  exact ⟨overwrittenModel, out, h1, by decide +kernel, of_decide_eq_true h2⟩

open Example in
/-- An annotated layer without a config: the hypotheses of C54_unsupported. -/
example : ∀ k : Kind String, ¬ Spec.LibraryConfig ⟨fun _ => true, supported8, {}⟩ True "Embedding" k := by
  have h1 : supported8 "Embedding" = false := by decide +kernel
  have h2 : matchPattern "Embedding" "BatchNormalization|SyncBatchNormalization" = false := by
    decide +kernel
  have h3 : matchPattern "Embedding" "Concatenate" = false := by decide +kernel
  have h4 : matchPattern "Embedding" "Add|Conv2D|DepthwiseConv2D|Dense" = false := by decide +kernel
  intro k hk
  simp [Spec.LibraryConfig, Spec.IsBatchNorm, Spec.IsConcat, Spec.IsFused, h1, h2, h3, h4] at hk

end Verif.Props
