import Verif.Props.ConcatSteps
import Verif.Props.OnlyFused
import Verif.Props.SchemeSaved
import Verif.Props.TransformerExhausted
import Mathlib.Tactic.Tauto

/-
C117: concatenated tensors are quantized once, after the concatenation.
-/
set_option linter.unusedSectionVars false
set_option linter.unusedSimpArgs false

namespace Verif.Props
open Verif.Quant Verif.Quant.Regex Verif.Quant.Transformer Verif.Quant.Transforms8Bit Verif.Quant.Apply

variable {V U M : Type}

namespace Spec

/-- The inputs of the layer `y` are the outputs of the layers `xs`, each once, which go nowhere else: `y` is called once, no
other layer refers to one of them, none of them is an output of the model, and each is called at most once. -/
structure FedBy (m : AModel V U) (xs : List (ALayer U)) (y : ALayer U) : Prop where
  functional : m.functional = true
  inputs : ∃ conns, y.layer.inbound = [conns] ∧ conns.map (·.src) = xs.map fun x => x.layer.name
  distinct : (xs.map fun x => x.layer.name).Nodup
  layers : ∀ x ∈ xs, x ∈ m.layers ∧ x ≠ y
  only : ∀ x ∈ xs, ∀ z ∈ m.layers, x.layer.name ∈ inboundNames z.layer → z = y
  inner : ∀ x ∈ xs, ∀ o ∈ m.outputs, o.1 ≠ x.layer.name
  once : ∀ x ∈ xs, x.layer.inbound.length ≤ 1

/-- A layer whose output the library can leave unquantized: it is annotated with a config of its own, or it is a Keras
layer that is a concatenation or that the registry supports.  (`InputLayer`s and separable convolutions are replaced.) -/
def CanFeed (c : Classes) (x : ALayer U) : Prop :=
  x.layer.cls ∉ ["InputLayer", "SeparableConv1D", "SeparableConv2D", "QuantizeLayer", "QuantizeWrapper", "QuantizeWrapperV2"] ∧
  ((∃ u, x.annotation = some (some u)) ∨
    (x.annotation = some none ∧ c.keras x.layer.cls = true ∧ (x.layer.cls = "Concatenate" ∨ c.supported x.layer.cls = true)))

/-- The layer is wrapped, and its config quantizes no output: it is the no-op config, or its quantizer of the output was
taken away. -/
def OutputOff (out : OModel V U) (x : String) : Prop :=
  (∃ e ∈ out.layers, e.layer.name = x) ∧
  ∀ e ∈ out.layers, e.layer.name = x → ∃ q, e = .quantized e.layer q ∧ (q.kind = .noOp ∨ q.outputOff = true)

end Spec

namespace Aux

section Keep
variable {c : Classes} {names : List String} {relu : Prop} {g g' : Graph V (Meta U)} {m r : Node V (Meta U)}
  (heff : Effect g m r g') (hstep : StepOk c names relu m r) {x : String} (hx : x ∈ names)
  (hinfo : ∀ n, Spec.InTree n m → n.info = (g.metadata n.name).getD default)
include heff hstep hx hinfo

theorem keep_has (h : configOf g x ≠ none) : configOf g' x ≠ none := by
  by_cases hm : ∀ n, Spec.InTree n m → n.name ≠ x
  · rw [configOf, (keep_other heff hstep hx hm).2]
    exact h
  · obtain ⟨n, hn, he⟩ : ∃ n, Spec.InTree n m ∧ n.name = x := by
      by_contra h
      exact hm fun n hn he => h ⟨n, hn, he⟩
    obtain ⟨q, hq⟩ := Option.ne_none_iff_exists'.1 h
    have hmeta : ∀ n, Spec.InTree n m → n.name = x → n.info.get = some q := by
      intro n hn he
      rw [hinfo n hn, he]; exact hq
    rcases hstep with ⟨h1, h2⟩ | ⟨-, h2⟩
    · rcases heff.info x with ⟨n', hn', he', -, h⟩ | ⟨hdef, -⟩
      · rcases h1 n' hn' with ⟨n, hn, hs⟩ | ⟨hnew', -⟩
        · rw [configOf, h]
          obtain ⟨q', hq', -⟩ := hs.info.has q (hmeta n hn (hs.name.symm.trans he'))
          rw [Option.getD_some, hq']; simp
        · exact absurd (he' ▸ hx) hnew'.1
      · obtain ⟨n', hn', hs⟩ := h2 n hn
        obtain ⟨q', hq', -⟩ := hs.info.has q (hmeta n hn he)
        rw [hdef n' hn' (hs.name.trans he), get_default] at hq'
        simp at hq'
    · have := (h2 n hn).2
      rw [hmeta n hn he] at this
      simp at this

theorem keep_off (hk : x ∈ nodeNames m → KeepOff m r) (h : OffI ((g.metadata x).getD default)) :
    OffI ((g'.metadata x).getD default) := by
  by_cases hm : ∀ n, Spec.InTree n m → n.name ≠ x
  · rw [(keep_other heff hstep hx hm).2]
    exact h
  · obtain ⟨n, hn, he⟩ : ∃ n, Spec.InTree n m ∧ n.name = x := by
      by_contra h
      exact hm fun n hn he => h ⟨n, hn, he⟩
    have hk := hk ((mem_nodeNames _ _).2 ⟨n, hn, he⟩)
    have hall : ∀ n', Spec.InTree n' r → n'.name = x → OffI n'.info := by
      intro n' hn' he'
      obtain ⟨n1, hn1, e1, ho⟩ := hk n' hn'
      refine ho ?_
      rw [hinfo n1 hn1, e1, he']
      exact h
    have hex : ∃ n', Spec.InTree n' r ∧ n'.name = x := by
      rcases hstep with ⟨-, h2⟩ | ⟨-, h2⟩
      · obtain ⟨n', hn', hs⟩ := h2 n hn
        exact ⟨n', hn', hs.name.trans he⟩
      · have := (h2 n hn).2
        obtain ⟨q, hq, -⟩ := h
        rw [hinfo n hn, he, hq] at this
        simp at this
    rcases heff.info x with ⟨n', hn', he', -, hg⟩ | ⟨hdef, -⟩
    · rw [hg]; exact hall n' hn' he'
    · obtain ⟨n', hn', he'⟩ := hex
      have := hall n' hn' he'
      rw [hdef n' hn' he'] at this
      exact absurd this (not_off_none get_default)

end Keep

section Step
variable [DecidableEq U] [DecidableEq V] {c : Classes} {am : AModel V U}
  (hnd : (am.layers.map fun a => a.layer.name).Nodup)
  {auto : String → ℕ → String} {expand : V → V} {str1 str2 : String → String}
  {X : List (ALayer U)} {Y : ALayer U} (hX : ∀ x ∈ X, x ∈ am.layers) (hY : Y ∈ am.layers)
  (hcX : ∀ x ∈ X, x.layer.cls ∉ ["InputLayer", "SeparableConv1D", "SeparableConv2D"])
  (hcY : Y.layer.cls = "Concatenate")

/-- The patterns of the shipped transforms. -/
theorem concat_kinds (auto : String → ℕ → String) (c : Classes) (expand : V → V) (str1 str2 : String → String) :
    ∀ t ∈ transforms (U := U) auto c expand str1 str2,
    (∃ cls ∈ ["InputLayer", "SeparableConv1D", "SeparableConv2D"], t.pattern = .mk cls [] []) ∨
    (t.name ∉ ["InputLayerQuantize", "SeparableConv1DQuantize", "SeparableConvQuantize"] ∧
      (ChainPat t.pattern ∨ ∃ k, k ≠ 0 ∧ t.pattern = concatPattern k)) := by
  intro t ht
  rcases transforms_split auto c expand str1 str2 t ht with ⟨hp, -⟩ | ⟨hp, -⟩ | ⟨hp, -⟩ | ⟨hn, hch | ⟨ps, hps⟩⟩
  · exact Or.inl ⟨_, by simp, hp⟩
  · exact Or.inl ⟨_, by simp, hp⟩
  · exact Or.inl ⟨_, by simp, hp⟩
  · exact Or.inr ⟨hn, Or.inl hch⟩
  · refine Or.inr ⟨hn, Or.inr ?_⟩
    rw [mem_transforms] at ht
    simp only [listed, pureTransform, List.mem_cons, List.not_mem_nil, or_false] at ht
    rcases ht with rfl | rfl | rfl | rfl | rfl | rfl | rfl | rfl | rfl | rfl | rfl | rfl | rfl | rfl |
      rfl | rfl | rfl | rfl | rfl
    all_goals
      first
        | exact ⟨6, by omega, rfl⟩
        | exact ⟨5, by omega, rfl⟩
        | exact ⟨4, by omega, rfl⟩
        | exact ⟨3, by omega, rfl⟩
        | exact ⟨2, by omega, rfl⟩
        | (exfalso; revert hps; simp [convReshapeBNPattern, convBNPattern, denseBNPattern, reluAct, bnClass])

include hnd hX hY hcX hcY in
theorem star_step {g g' : Graph V (Meta U)} {t : Transform V (Meta U)} {m r : Node V (Meta U)} {k k' : ℕ}
    {matched : List String} (hok : ApplyInv c am g) (hst : StarF g (X.map fun x => x.layer.name) Y.layer.name)
    (hs : ReplaceStep c am auto expand str1 str2 g t m r k k' g')
    (hfind : findPattern g t.pattern matched = some m) (hg : replace g m r = .ok g') :
    StarF g' (X.map fun x => x.layer.name) Y.layer.name ∧
      ∀ a ∈ X.map (fun x => x.layer.name), a ∈ nodeNames m → KeepOff m r := by
  obtain ⟨hml, -, hmt⟩ := findPattern_some hfind
  have hcls : ∀ l ∈ g.layers, l.name = Y.layer.name → l.cls = "Concatenate" :=
    fun l hl he => (apply_layer hnd hok hl hY he).1.symm.trans hcY
  have hg' := hg
  rw [replace, hst.functional] at hg'
  rcases concat_kinds auto c expand str1 str2 t hs.mem with ⟨cls, hc, hp⟩ | ⟨hn, hpat⟩
  · have hmc : m.layer.cls = cls := by
      have hmt' := hmt
      rw [hp] at hmt'
      refine (C56_single _ _ ?_ (hok.newline _ hml)).1 (matchLayer_parts (matchTree_split hmt').1).1
      simp only [List.mem_cons, List.not_mem_nil, or_false] at hc
      rcases hc with rfl | rfl | rfl <;> decide +kernel
    have hleaf : ∃ l w i, m = .mk l w i [] := by
      rw [hp] at hmt
      exact ⟨_, _, _, leaf_match hmt⟩
    have hne : ∀ x ∈ am.layers, x.layer.cls ∉ ["InputLayer", "SeparableConv1D", "SeparableConv2D"] →
        ∀ n, Spec.InTree n m → n.name ≠ x.layer.name := by
      intro x hx hxc n hn he
      have hnm : n = m := by
        obtain ⟨l, w, i, rfl⟩ := hleaf
        exact inTree_leaf hn
      subst hnm
      exact hxc (by rw [(apply_layer hnd hok hml hx he).1, hmc]; exact hc)
    have hneX : ∀ a ∈ X.map (fun x => x.layer.name), a ∉ nodeNames m := by
      intro a ha h
      obtain ⟨x, hx, rfl⟩ := List.mem_map.1 ha
      obtain ⟨n, hn, he⟩ := (mem_nodeNames _ _).1 h
      exact hne x (hX x hx) (hcX x hx) n hn he
    have hYc : Y.layer.cls ∉ ["InputLayer", "SeparableConv1D", "SeparableConv2D"] := by rw [hcY]; decide
    refine ⟨starF_other hst (fun n hn => (hs.nodes n hn).1) hg' hs.effect.functional hneX ?_ ?_ ?_,
      fun a ha h => absurd h (hneX a ha)⟩
    · intro h
      obtain ⟨n, hn, he⟩ := (mem_nodeNames _ _).1 h
      exact hne Y hY hYc n hn he
    · intro a ha h
      obtain ⟨x, hx, rfl⟩ := List.mem_map.1 ha
      obtain ⟨n, hn, he⟩ := (mem_nodeNames _ _).1 h
      exact keep_names hs.effect hs.step (List.mem_map_of_mem (hX x hx)) (hne x (hX x hx) (hcX x hx)) n hn he
    · intro h
      obtain ⟨n, hn, he⟩ := (mem_nodeNames _ _).1 h
      exact keep_names hs.effect hs.step (List.mem_map_of_mem hY) (hne Y hY hYc) n hn he
  · refine ⟨?_, fun _ _ _ => keep_transform auto c expand str1 str2 t hs.mem hn _ _ _ _ _ _ hmt hs.replaced⟩
    have hsame := (pure_same (unitOps auto expand str1 str2) c t hs.mem hn g _ _ _ _ _ _ hmt hs.replaced).1
    have hcount : (∀ a ∈ X.map (fun x => x.layer.name), (nodeNames m).count a ≤ 1) ∧
        (nodeNames m).count Y.layer.name ≤ 1 := by
      rcases hpat with hpat | ⟨k0, hk0, hpat⟩
      · exact star_chain hst hcls hpat hml hmt
      · rw [hpat] at hmt
        exact star_concat hst hk0 hml hmt
    exact starF_same hst (matched_of_find hst.functional hfind) unitSem hsame hcount.1 hcount.2 hg' hs.effect.functional

/-- What the transform of the concatenation does. -/
theorem star_off {g : Graph V (Meta U)} (hst : StarF g (X.map fun x => x.layer.name) Y.layer.name)
    (hgood : ∀ x ∈ X, ∀ l ∈ g.layers, l.name = x.layer.name → GoodFeed c (nodeOf g l [] : Node V (Meta U)))
    {k : ℕ} (hk : k ≠ 0) {m : Node V (Meta U)} (hml : m.layer ∈ g.layers) (hmY : m.name = Y.layer.name)
    (hmt : matchTree g (concatPattern k) m.layer true = some m) :
    ∀ x ∈ X, (∃ n, Spec.InTree n m ∧ n.name = x.layer.name) ∧
      ∀ n', Spec.InTree n' (replaceConcat c m) → n'.name = x.layer.name → OffI n'.info := by
  obtain ⟨cs, hcs, hp⟩ := hst.conn _ hml hmY
  have hlay := star_layers hst hp
  have hin : inputLayerNames g m.layer = cs.map (·.src) := by
    rw [inputLayerNames, if_pos hst.functional, hcs]; rfl
  have hsh := concat_shape hk hmt
  rw [hin] at hsh
  intro x hx
  have hxn : x.layer.name ∈ X.map fun x => x.layer.name := List.mem_map_of_mem hx
  refine ⟨?_, ?_⟩
  · obtain ⟨z, hz, he⟩ := List.mem_map.1 (hlay.mem_iff.2 hxn)
    refine ⟨nodeOf g z [], ?_, he⟩
    rw [hsh]
    exact .child (List.mem_map_of_mem hz) (.root _)
  · intro n' hn' he
    have hYx : m.layer.name ≠ x.layer.name := by
      intro h
      have h2 : Y.layer.name = x.layer.name := hmY.symm.trans h
      exact hst.ne (h2 ▸ hxn)
    generalize m.layer = l at hsh hYx
    rw [hsh] at hn'
    refine (concat_off c ?_ ?_ hn').resolve_left ?_
    · intro n hn
      obtain ⟨z, -, rfl⟩ := List.mem_map.1 hn
      rfl
    · intro n hn
      obtain ⟨z, hz, rfl⟩ := List.mem_map.1 hn
      obtain ⟨x', hx', e⟩ := List.mem_map.1 (hlay.mem_iff.1 (List.mem_map_of_mem hz))
      exact hgood x' hx' z (getLayers_subset _ _ _ hz) e.symm
    · rw [he]; exact fun h => hYx h.symm

end Step

section Run
variable [DecidableEq U] [DecidableEq V] {c : Classes} {am : AModel V U}
  (hnd : (am.layers.map fun a => a.layer.name).Nodup)
  {auto : String → ℕ → String} {expand : V → V} {str1 str2 : String → String}
  {X : List (ALayer U)} {Y : ALayer U} (hY : Y ∈ am.layers) (hcY : Y.layer.cls = "Concatenate")
  (hfresh : Spec.FreshNames auto (am.layers.map fun a => a.layer.name))

/-- The transform for a concatenation of `k` layers, and its place in the list. -/
theorem concat_place (auto : String → ℕ → String) (c : Classes) (expand : V → V) (str1 str2 : String → String) {k : ℕ}
    (h2 : 2 ≤ k) (h6 : k ≤ 6) : ∃ (T : Transform V (Meta U)) (early late : List (Transform V (Meta U))),
    transforms auto c expand str1 str2 = early ++ T :: late ∧ (∀ t ∈ early, t.name ≠ T.name) ∧
    T.pattern = concatPattern k ∧ T.replacement = fun s n => .ok (replaceConcat c n, s) := by
  have hk : k = 2 ∨ k = 3 ∨ k = 4 ∨ k = 5 ∨ k = 6 := by omega
  rcases hk with rfl | rfl | rfl | rfl | rfl
  · exact ⟨_, [_, _, _, _, _, _, _, _, _, _, _, _, _], _, rfl, by simp [pureTransform], rfl, rfl⟩
  · exact ⟨_, [_, _, _, _, _, _, _, _, _, _, _, _], _, rfl, by simp [pureTransform], rfl, rfl⟩
  · exact ⟨_, [_, _, _, _, _, _, _, _, _, _, _], _, rfl, by simp [pureTransform], rfl, rfl⟩
  · exact ⟨_, [_, _, _, _, _, _, _, _, _, _], _, rfl, by simp [pureTransform], rfl, rfl⟩
  · exact ⟨_, [_, _, _, _, _, _, _, _, _], _, rfl, by simp [pureTransform], rfl, rfl⟩

include hnd hY hcY hfresh

theorem concat_run (metaEq : Meta U → Meta U → Bool) (hmeta : ∀ i j, metaEq i j = true ↔ i = j)
    (hfed : Spec.FedBy am X Y) (hcan : ∀ x ∈ X, Spec.CanFeed c x) (h2 : 2 ≤ X.length) (h6 : X.length ≤ 6)
    (haY : Y.annotation.isSome = true) (hstart : ApplyInv c am (unwrap am)) (fuel : ℕ) (g' : Graph V (Meta U))
    (hrun : run metaEq (transforms auto c expand str1 str2) fuel
      (start (transforms auto c expand str1 str2) (unwrap am)) = some (.ok g')) :
    ApplyInv c am g' ∧ ∀ x ∈ X, OffI ((g'.metadata x.layer.name).getD default) := by
  have hX : ∀ x ∈ X, x ∈ am.layers := fun x hx => (hfed.layers x hx).1
  have hcX : ∀ x ∈ X, x.layer.cls ∉ ["InputLayer", "SeparableConv1D", "SeparableConv2D"] := by
    intro x hx h
    refine (hcan x hx).1 ?_
    simp only [List.mem_cons, List.not_mem_nil, or_false] at h ⊢
    tauto
  have hmap : ((unwrap am).layers.map (·.name)) = am.layers.map fun a => a.layer.name := by
    simp [unwrap, List.map_map, Function.comp_def]
  obtain ⟨T, early, late, hsplit, hearly, hTp, hTr⟩ :=
    concat_place (V := V) (U := U) auto c expand str1 str2 (k := X.length) h2 h6
  let Good : Graph V (Meta U) → Prop := fun g => ∀ x ∈ X, configOf g x.layer.name ≠ none ∨
    (c.keras x.layer.cls = true ∧ (x.layer.cls = "Concatenate" ∨ c.supported x.layer.cls = true))
  let J : Loop V (Meta U) → Prop := fun s =>
    StarF s.graph (X.map fun x => x.layer.name) Y.layer.name ∧
    (∀ a ∈ X.map (fun x => x.layer.name), a ∈ s.graph.candidates) ∧ Y.layer.name ∈ s.graph.candidates ∧ Good s.graph ∧
    (((∃ pre post, s.rest = pre ++ T :: post ∧ ∀ t ∈ pre, t.name ≠ T.name) ∧ (T.name, Y.layer.name) ∉ s.matched) ∨
      ∀ x ∈ X, OffI ((s.graph.metadata x.layer.name).getD default))
  suffices hall : ApplyInv c am g' ∧ ∃ s', J s' ∧ s'.graph = g' ∧ s'.rest = [] by
    obtain ⟨h1, s, ⟨-, -, -, -, hJ⟩, hsg, hsr⟩ := hall
    rcases hJ with ⟨⟨pre, post, h, -⟩, -⟩ | hJ
    · rw [hsr] at h; simp at h
    · rw [hsg] at hJ
      exact ⟨h1, hJ⟩
  have hgood : ∀ g, ApplyInv c am g → Good g → ∀ x ∈ X, ∀ l ∈ g.layers, l.name = x.layer.name →
      GoodFeed c (nodeOf g l [] : Node V (Meta U)) := by
    intro g hok hg x hx l hl he
    have hlc : l.cls = x.layer.cls := (apply_layer hnd hok hl (hX x hx) he).1.symm
    rcases hg x hx with h | ⟨h1, h3⟩
    · left
      rw [configOf, ← he] at h
      exact h
    · right
      have hq : x.layer.cls ≠ "QuantizeLayer" := by
        intro h
        exact (hcan x hx).1 (by rw [h]; simp)
      change l.cls ≠ "QuantizeLayer" ∧ c.keras l.cls = true ∧ (l.cls = "Concatenate" ∨ c.supported l.cls = true)
      rw [hlc]
      exact ⟨hq, h1, h3⟩
  have hk0 : X.length ≠ 0 := by omega
  have hlen : (X.map fun x => x.layer.name).length = X.length := List.length_map ..
  have head : ∀ {s : Loop V (Meta U)} {t tl pre post}, s.rest = t :: tl → s.rest = pre ++ T :: post →
      (∀ t ∈ pre, t.name ≠ T.name) → t = T ∨ t.name ≠ T.name := by
    intro s t tl pre post hr h hpre
    cases pre with
    | nil => rw [hr, List.nil_append] at h; exact Or.inl (List.cons.inj h).1
    | cons p pre =>
      rw [hr, List.cons_append] at h
      rw [(List.cons.inj h).1]
      exact Or.inr (hpre p (by simp))
  refine loop_run hnd metaEq hfresh J ?_ ?_ ?_ ?_ fuel _ g' hstart ?_ (fun t h => h) hrun
  · rintro s - ⟨h1, h3, h4, h5, hJ⟩ hnil
    refine ⟨h1, h3, h4, h5, ?_⟩
    rcases hJ with ⟨⟨pre, post, h, -⟩, -⟩ | hJ
    · rw [hnil] at h; simp at h
    · exact Or.inr hJ
  · rintro s t tl hok ⟨h1, h3, h4, h5, hJ⟩ hr hnone
    refine ⟨h1, h3, h4, h5, ?_⟩
    rcases hJ with ⟨⟨pre, post, h, hpre⟩, hmat⟩ | hJ
    · left
      refine ⟨?_, hmat⟩
      cases pre with
      | nil =>
        exfalso
        rw [hr, List.nil_append] at h
        obtain ⟨rfl, rfl⟩ := List.cons.inj h
        obtain ⟨l, hl, he, n, hn⟩ := star_match h1 h3 h4 hok.newline
          (fun l hl he => (apply_layer hnd hok hl hY he).1.symm.trans hcY)
          (by intro h; rw [h] at hlen; exact hk0 hlen.symm)
        rw [hlen, ← hTp] at hn
        exact find_some hl (fun hh => hmat (mem_matchedBy.1 (he ▸ hh))) hn hnone
      | cons p pre =>
        rw [hr, List.cons_append] at h
        obtain ⟨rfl, rfl⟩ := List.cons.inj h
        exact ⟨pre, post, rfl, fun t ht => hpre t (by simp [ht])⟩
    · exact Or.inr hJ
  · rintro s s' t tl m r k hok ⟨h1, h3, h4, h5, hJ⟩ hr ht hfind hrep hbeq hrest hmatched hsup hgraph
    refine ⟨by rw [hgraph]; exact h1, by rw [hgraph]; exact h3, by rw [hgraph]; exact h4, by rw [hgraph]; exact h5, ?_⟩
    rw [hgraph, hrest, hmatched]
    rcases hJ with ⟨⟨pre, post, h, hpre⟩, hmat⟩ | hJ
    · by_cases hnew : t = T ∧ m.name = Y.layer.name
      · right
        obtain ⟨rfl, hmY⟩ := hnew
        obtain ⟨hml, -, hmt⟩ := findPattern_some hfind
        rw [hTp] at hmt
        rw [hTr] at hrep
        simp only [Except.ok.injEq, Prod.mk.injEq] at hrep
        have hrm : m = r := (beq_honest hmeta m r).1 hbeq
        intro x hx
        obtain ⟨⟨n, hn, he⟩, hoff⟩ := star_off h1 (hgood _ hok h5) hk0 hml hmY hmt x hx
        have := hoff n (by rw [hrep.1, ← hrm]; exact hn) he
        rw [(matchTree_nodes _ _ _ _ _ hml hmt n hn).2.2, he] at this
        exact this
      · left
        refine ⟨⟨pre, post, h, hpre⟩, ?_⟩
        rw [List.mem_append, List.mem_singleton, not_or]
        refine ⟨hmat, fun he => ?_⟩
        obtain ⟨e1, e2⟩ := Prod.mk.inj he
        rcases head hr h hpre with ht | ht
        · exact hnew ⟨ht, e2.symm⟩
        · exact ht e1.symm
    · exact Or.inr hJ
  · rintro s s' t tl m r k hok ⟨h1, h3, h4, h5, hJ⟩ hr hs hfind hbeq hg hrest hmatched hsup
    obtain ⟨hst', hkeep⟩ := star_step hnd hX hY hcX hcY hok h1 hs hfind hg
    have hinfo : ∀ n, Spec.InTree n m → n.info = (s.graph.metadata n.name).getD default := fun n hn => (hs.nodes n hn).2.2
    refine ⟨hst', fun a ha => cand_next hok hs.effect (h3 a ha), cand_next hok hs.effect h4, ?_, ?_⟩
    · intro x hx
      rcases h5 x hx with h | h
      · exact Or.inl (keep_has hs.effect hs.step (List.mem_map_of_mem (hX x hx)) hinfo h)
      · exact Or.inr h
    · rw [hrest, hmatched]
      rcases hJ with ⟨⟨pre, post, h, hpre⟩, hmat⟩ | hJ
      · by_cases hnew : t = T ∧ m.name = Y.layer.name
        · right
          obtain ⟨rfl, hmY⟩ := hnew
          obtain ⟨hml, -, hmt⟩ := findPattern_some hfind
          rw [hTp] at hmt
          have hrep := hs.replaced
          rw [hTr] at hrep
          simp only [Except.ok.injEq, Prod.mk.injEq] at hrep
          intro x hx
          obtain ⟨⟨n, hn, he⟩, hoff⟩ := star_off h1 (hgood _ hok h5) hk0 hml hmY hmt x hx
          rw [hrep.1] at hoff
          rcases hs.effect.info x.layer.name with ⟨n', hn', he', -, hi⟩ | ⟨hdef, -⟩
          · rw [hi]; exact hoff n' hn' he'
          · exfalso
            have hxn : x.layer.name ∈ am.layers.map fun a => a.layer.name := List.mem_map_of_mem (hX x hx)
            rcases hs.step with ⟨-, q2⟩ | ⟨-, q2⟩
            · obtain ⟨n', hn', hst2⟩ := q2 n hn
              have := hoff n' hn' (hst2.name.trans he)
              rw [hdef n' hn' (hst2.name.trans he)] at this
              exact not_off_none get_default this
            · have := (q2 m (.root m)).1
              rw [← (apply_layer hnd hok hml hY hmY).1, hcY] at this
              simp at this
        · left
          refine ⟨⟨pre, post, h, hpre⟩, ?_⟩
          rw [List.mem_append, List.mem_singleton, not_or]
          refine ⟨hmat, fun he => ?_⟩
          obtain ⟨e1, e2⟩ := Prod.mk.inj he
          rcases head hr h hpre with ht | ht
          · exact hnew ⟨ht, e2.symm⟩
          · exact ht e1.symm
      · right
        intro x hx
        exact keep_off hs.effect hs.step (List.mem_map_of_mem (hX x hx)) hinfo
          (hkeep _ (List.mem_map_of_mem hx)) (hJ x hx)
  · refine ⟨⟨hfed.functional, hfed.distinct, ?_, ?_, ?_, ?_, ?_, ?_, ?_⟩, ?_, candidate_start hY haY, ?_,
      Or.inl ⟨⟨early, late, hsplit, hearly⟩, by simp [start]⟩⟩
    · intro h
      obtain ⟨x, hx, he⟩ := List.mem_map.1 h
      exact (hfed.layers x hx).2 (same_alayer hnd (hX x hx) hY he)
    · intro a ha
      obtain ⟨x, hx, rfl⟩ := List.mem_map.1 ha
      change ((unwrap am).layers.map (·.name)).count _ = 1
      rw [hmap]
      exact List.count_eq_one_of_mem hnd (List.mem_map_of_mem (hX x hx))
    · change ((unwrap am).layers.map (·.name)).count _ = 1
      rw [hmap]
      exact List.count_eq_one_of_mem hnd (List.mem_map_of_mem hY)
    · intro l hl he
      obtain ⟨z, hz, rfl⟩ := List.mem_map.1 hl
      rw [same_alayer hnd hz hY he]
      obtain ⟨cs, e1, e2⟩ := hfed.inputs
      exact ⟨cs, e1, by rw [e2]⟩
    · intro a ha l hl h
      obtain ⟨x, hx, rfl⟩ := List.mem_map.1 ha
      obtain ⟨z, hz, rfl⟩ := List.mem_map.1 hl
      rw [hfed.only x hx z hz h]
    · intro a ha o ho
      obtain ⟨x, hx, rfl⟩ := List.mem_map.1 ha
      exact hfed.inner x hx o ho
    · intro a ha l hl he
      obtain ⟨x, hx, rfl⟩ := List.mem_map.1 ha
      obtain ⟨z, hz, rfl⟩ := List.mem_map.1 hl
      rw [same_alayer hnd hz (hX x hx) he]
      exact hfed.once x hx
    · intro a ha
      obtain ⟨x, hx, rfl⟩ := List.mem_map.1 ha
      refine candidate_start (hX x hx) ?_
      rcases (hcan x hx).2 with ⟨u, hu⟩ | ⟨hu, -⟩ <;> rw [hu] <;> rfl
    · intro x hx
      rcases (hcan x hx).2 with ⟨u, hu⟩ | ⟨-, hu⟩
      · left
        change configOf (unwrap am) x.layer.name ≠ none
        rw [configOf, show (unwrap am).metadata x.layer.name = quantizeMap am x.layer.name from rfl,
          quantizeMap_eq hnd (hX x hx), mapEntry, hu]
        simp [Meta.get]
      · exact Or.inr hu

end Run

end Aux

section Main117
variable [DecidableEq U] [DecidableEq V] (metaEq : Meta U → Meta U → Bool) (hmeta : ∀ i j, metaEq i j = true ↔ i = j)
  (auto : String → ℕ → String) (c : Classes) (expand : V → V) (str1 str2 : String → String)
  (fuel : ℕ) (m : AModel V U) (out : OModel V U)
  (hnl : ∀ a ∈ m.layers, '\n' ∉ a.layer.cls.toList)
  (hfresh : Spec.FreshNames auto (m.layers.map fun a => a.layer.name))
  (h : quantizeApply (defaultScheme metaEq auto c expand str1 str2 fuel) (.model m) = .ok out)
  (xs : List (ALayer U)) (y : ALayer U) (hy : y ∈ m.layers) (hcy : y.layer.cls = "Concatenate")
  (hay : y.annotation.isSome = true) (h2 : 2 ≤ xs.length) (h6 : xs.length ≤ 6)
  (hfed : Spec.FedBy m xs y) (hcan : ∀ x ∈ xs, Spec.CanFeed c x)
include hmeta hnl hfresh h hy hcy hay h2 h6 hfed hcan

/-- C117: the outputs of layers that all go into one annotated concatenation of two to six of them are not quantized before the
concatenation. -/
theorem C117_feeds_partial : ∀ x ∈ xs, Spec.OutputOff out x.layer.name := by
  obtain ⟨hann, hnd, g, hg, hw, hall⟩ := Aux.apply_split h
  simp only [defaultScheme] at hg
  obtain ⟨hok, hoff⟩ := Aux.concat_run hnd hy hcy hfresh metaEq hmeta hfed hcan h2 h6 hay
    (Aux.apply_start hnd hann hnl) fuel g (by
    cases hr : run metaEq (transforms auto c expand str1 str2) fuel
        (start (transforms auto c expand str1 str2) (unwrap m)) with
    | none => rw [hr] at hg; simp at hg
    | some e => rw [hr] at hg; simp only [Option.getD_some] at hg; rw [hg])
  intro x hx
  have hxm := (hfed.layers x hx).1
  have hc := (hcan x hx).1
  simp only [List.mem_cons, List.not_mem_nil, or_false, not_or] at hc
  refine ⟨?_, ?_⟩
  · rcases hok.present x hxm with ⟨l, hl, hn⟩ | ⟨-, h⟩
    · obtain ⟨i, hi, rfl⟩ := List.mem_iff_getElem.1 hl
      have hi' : i < out.layers.length := by rw [← hall.length_eq]; exact hi
      exact ⟨out.layers[i], List.getElem_mem hi', (Aux.quantizeLayer_layer (List.Forall₂.get hall hi hi')).1.trans hn⟩
    · exfalso
      simp only [List.mem_cons, List.not_mem_nil, or_false] at h
      tauto
  · intro e he hen
    obtain ⟨i, hi, rfl⟩ := List.mem_iff_getElem.1 he
    have hi' : i < g.layers.length := by rw [hall.length_eq]; exact hi
    have hq := List.Forall₂.get hall hi' hi
    simp only [List.get_eq_getElem] at hq
    generalize out.layers[i] = e at hq hen
    have hl : g.layers[i] ∈ g.layers := List.getElem_mem hi'
    generalize g.layers[i] = l at hq hl
    have hln : l.name = x.layer.name := (Aux.quantizeLayer_layer hq).1.symm.trans hen
    have hcls := (Aux.apply_layer hnd hok hl hxm hln).1
    have hax : x.annotation.isSome = true := by
      rcases (hcan x hx).2 with ⟨u, hu⟩ | ⟨hu, -⟩ <;> rw [hu] <;> rfl
    obtain ⟨i, hi, hk⟩ := (Aux.apply_layer hnd hok hl hxm hln).2.2.2 hax
    have hreq : l.name ∉ requiresOutput m := by
      rw [hln, Aux.mem_requires hnd, Aux.isAnnotated_eq hnd hxm, hax]
      simp
    obtain ⟨q, hget, ho⟩ := hoff x hx
    rw [← hln, hi, Option.getD_some] at hget
    simp only [defaultScheme] at hq
    rw [quantizeLayer, ← hcls, if_neg hc.1, if_neg hc.2.2.2.1, if_neg, if_neg hreq] at hq
    · rw [hi, Option.getD_some, hget] at hq
      simp only [Except.ok.injEq] at hq
      subst hq
      exact ⟨q, rfl, ho⟩
    · rw [hi]
      rintro (⟨h, -⟩ | h)
      · simp at h
      · simp only [List.mem_cons, List.not_mem_nil, or_false] at h
        tauto

/-- C117, what the configs do: none of the layers in front of the concatenation has an output quantizer, whatever config
object is behind its config, unless it is the user's own one, whose method is then replaced, too (`outputOff`). -/
theorem C117_no_output_quantizer_partial : ∀ x ∈ xs, ∀ e ∈ out.layers, e.layer.name = x.layer.name →
    ∃ q, e = .quantized e.layer q ∧
      (∀ u, q.kind = .custom u → q.outputOff = true) ∧
      ∀ (history : List Config.Registry) (W A : Type) (name : A → Config.ActName) (l : Config.KLayer W A) (o : Config.Config),
        SchemeConfig.objectOf history l q.kind = some (.ok o) → SchemeConfig.outputs name l q o = .ok [] := by
  intro x hx e he hen
  obtain ⟨q, hq, ho⟩ := (C117_feeds_partial metaEq hmeta auto c expand str1 str2 fuel m out hnl hfresh h xs y hy hcy hay h2 h6
    hfed hcan x hx).2 e he hen
  refine ⟨q, hq, ?_, ?_⟩
  · intro u hu
    rcases ho with h | h
    · rw [h] at hu; cases hu
    · exact h
  · intro history W A name l o hobj
    rw [SchemeConfig.outputs]
    split
    · rfl
    · rename_i hoff
      rcases ho with h | h
      · rw [h] at hobj
        simp only [SchemeConfig.objectOf, Option.some.injEq, Except.ok.injEq] at hobj
        subst hobj
        rw [SchemeConfig.saved]
        split <;> rfl
      · exact absurd h hoff

/-- C117, after the concatenation: the concatenation is wrapped with a config, and if its output is an output of the model
this config quantizes the output (no quantizer was taken away, and it is not the no-op config). -/
theorem C117_concat (hout : ∃ o ∈ out.outputs, o.1 = y.layer.name)
    (hact : y.layer.config.lookup "activation" ≠ some "{'class_name': 'NoOpActivation', 'config': {}}") :
    (∃ e ∈ out.layers, e.layer.name = y.layer.name) ∧
    ∀ e ∈ out.layers, e.layer.name = y.layer.name →
      ∃ q, e = .quantized e.layer q ∧ q.kind ≠ .noOp ∧ q.outputOff = false := by
  obtain ⟨cfg, hcfg⟩ := Option.isSome_iff_exists.1 hay
  obtain ⟨h1, -, h3⟩ := C54_annotated_partial metaEq auto c expand str1 str2 fuel m out hnl hfresh h y hy cfg hcfg
    (by rw [hcy, Spec.Exempt]; decide) (by rw [hcy]; exact fun _ => ⟨by decide, by decide⟩)
  refine ⟨h1, ?_⟩
  intro e he hen
  obtain ⟨-, q, hq, -, -⟩ := h3 e he hen
  have hno : ¬ Spec.Unquantized e := by
    intro hun
    rcases C115_only_fused metaEq auto c expand str1 str2 fuel m out hnl hfresh
      (fun hf => by rw [hfed.functional] at hf; cases hf) h y hy e he hen hun with h | h
    · exact hact h
    · rw [Spec.OnlyInto, if_pos hfed.functional] at h
      obtain ⟨o, ho, hoy⟩ := hout
      exact h.2 o ho hoy
  refine ⟨q, hq, fun h => hno ⟨q, hq, Or.inl h⟩, ?_⟩
  cases hoff : q.outputOff with
  | false => rfl
  | true => exact absurd ⟨q, hq, Or.inr (Or.inl hoff)⟩ hno

end Main117

namespace Example

/-- `in -> dense`, `in -> relu` with a config of the user, and a ReLU, concatenated. -/
def concat3 : AModel ℕ String :=
  { functional := true
    built := true
    layers := [{ layer := ⟨"in", "InputLayer", [], []⟩ },
      { layer := ⟨"dense", "Dense", [("activation", "linear")], [[⟨"in", 0, 0, []⟩]]⟩, annotation := some none },
      { layer := ⟨"mine", "ReLU", [], [[⟨"in", 0, 0, []⟩]]⟩, annotation := some (some "mine") },
      { layer := ⟨"relu", "ReLU", [], [[⟨"in", 0, 0, []⟩]]⟩, annotation := some none },
      { layer := ⟨"cat", "Concatenate", [("axis", "-1")], [[⟨"dense", 0, 0, []⟩, ⟨"mine", 0, 0, []⟩, ⟨"relu", 0, 0, []⟩]]⟩,
        annotation := some none }]
    outputs := [("cat", 0, 0)]
    weights := fun n => if n = "dense" then [("kernel", 1), ("bias", 2)] else [] }

def feeds3 : List (ALayer String) := [
      { layer := ⟨"dense", "Dense", [("activation", "linear")], [[⟨"in", 0, 0, []⟩]]⟩, annotation := some none },
      { layer := ⟨"mine", "ReLU", [], [[⟨"in", 0, 0, []⟩]]⟩, annotation := some (some "mine") },
      { layer := ⟨"relu", "ReLU", [], [[⟨"in", 0, 0, []⟩]]⟩, annotation := some none }]

def cat3 : ALayer String :=
      { layer := ⟨"cat", "Concatenate", [("axis", "-1")], [[⟨"dense", 0, 0, []⟩, ⟨"mine", 0, 0, []⟩, ⟨"relu", 0, 0, []⟩]]⟩,
        annotation := some none }

/-- `n` ReLUs of the input, concatenated. -/
def concatReLUs (n : ℕ) : AModel ℕ String :=
  { functional := true
    built := true
    layers := { layer := ⟨"in", "InputLayer", [], []⟩ } :: ((List.range n).map fun i =>
        ({ layer := ⟨"relu" ++ toString i, "ReLU", [], [[⟨"in", 0, 0, []⟩]]⟩, annotation := some none } : ALayer String)) ++
      [{ layer := ⟨"cat", "Concatenate", [], [(List.range n).map fun i => ⟨"relu" ++ toString i, 0, 0, []⟩]⟩
         annotation := some none }]
    outputs := [("cat", 0, 0)]
    weights := fun _ => [] }

/-- Two ReLUs of the input, concatenated; the first one is also an output of the model. -/
def concatShared : AModel ℕ String :=
  { concatReLUs 2 with outputs := [("relu0", 0, 0), ("cat", 0, 0)] }

end Example

open Example in
/-- The hypotheses of C117 are met by `concat3`. -/
example : (∀ i j, metaEq8 i j = true ↔ i = j) ∧ (∀ a ∈ concat3.layers, '\n' ∉ a.layer.cls.toList) ∧
    Spec.FreshNames autoName (concat3.layers.map fun a => a.layer.name) ∧
    (∃ out, quantizeApply (defaultScheme metaEq8 autoName classes8 id id id 200) (.model concat3) = .ok out ∧
      ∃ o ∈ out.outputs, o.1 = cat3.layer.name) ∧
    cat3 ∈ concat3.layers ∧ Spec.FedBy concat3 feeds3 cat3 ∧ ∀ x ∈ feeds3, Spec.CanFeed classes8 x := by
  refine ⟨by simp [metaEq8], by decide +kernel, Aux.freshNames_autoName _ (by decide +kernel), ?_, by decide +kernel,
    ⟨rfl, ⟨_, rfl, by decide +kernel⟩, by decide +kernel, by decide +kernel, by decide +kernel, by decide +kernel,
      by decide +kernel⟩, ?_⟩
  · have h : applyCheck concat3 (fun out => decide (∃ o ∈ out.outputs, o.1 = cat3.layer.name)) = true := by decide +kernel
    obtain ⟨out, h1, h2⟩ := applyCheck_spec h
    exact ⟨out, h1, of_decide_eq_true h2⟩
  · intro x hx
    simp only [feeds3, List.mem_cons, List.not_mem_nil, or_false] at hx
    rcases hx with rfl | rfl | rfl
    · exact ⟨by decide +kernel, Or.inr ⟨rfl, by decide +kernel, Or.inr (by decide +kernel)⟩⟩
    · exact ⟨by decide +kernel, Or.inl ⟨_, rfl⟩⟩
    · exact ⟨by decide +kernel, Or.inr ⟨rfl, by decide +kernel, Or.inr (by decide +kernel)⟩⟩

open Example in
/-- C117 is violated by layers with an activation: when two annotated convolutions go into an annotated concatenation, the
output quantizers of their configs are taken away, but those configs never had one; the activation is still quantized. -/
theorem C117_activation_violated : ∃ (m : AModel ℕ String) (out : OModel ℕ String) (l : Layer) (q : QConfig String),
    quantizeApply (schemeOf {}) (.model m) = .ok out ∧ m = concatModel "Conv2D" ∧
    .quantized l q ∈ out.layers ∧ l.name = "conv1" ∧ l.cls = "Conv2D" ∧ q.outputOff = true ∧
    ∀ (history : List Config.Registry) (W A : Type) (k : Config.KLayer W A) (w : W) (a : A), k.own.cls = "Conv2D" →
      k.own.weight "kernel" = some w → k.own.activation "activation" = some a →
      ∃ o qa, SchemeConfig.objectOf history k q.kind = some (.ok o) ∧ o.getActivations k = .ok [(a, qa)] := by
  have h : schemeCheck {} (concatModel "Conv2D") (fun out => decide (∃ e ∈ out.layers,
      e = .quantized e.layer ⟨.default {} "Conv2D", true, true⟩ ∧
      e.layer.name = "conv1" ∧ e.layer.cls = "Conv2D")) = true := by decide +kernel
  obtain ⟨out, h1, h2⟩ := schemeCheck_spec h
  obtain ⟨e, he, heq, hn, hc⟩ := of_decide_eq_true h2
  refine ⟨_, out, e.layer, _, h1, rfl, heq ▸ he, hn, hc, rfl, ?_⟩
  intro history W A k w a hk hw ha
  have hsup : Spec.SupportedClass k.own.cls := by rw [hk]; exact Or.inl (by decide)
  obtain ⟨o, ho, hd⟩ := C82_documented
    (Config.Process.run (history ++ [SchemeConfig.registryOf {}])).shared
    (SchemeConfig.registryOf {}) (fun hn => by cases hn) k hsup
  obtain ⟨qw, qa, -, -, hg⟩ := (hd W A (fun _ => none) k rfl).1 (by rw [hk]; decide) w a
    (by rw [hk]; exact hw) ha
  exact ⟨o, qa, by rw [SchemeConfig.objectOf, ho], hg.2.1⟩

open Example in
/-- C117 is violated by concatenations of more than six layers: there is no pattern for them, and the outputs of the layers
in front of the concatenation are quantized. -/
theorem C117_seven_violated : ∃ (m : AModel ℕ String) (out : OModel ℕ String), m = concatReLUs 7 ∧
    quantizeApply scheme8 (.model m) = .ok out ∧
    ∃ e ∈ out.layers, e.layer.name = "relu0" ∧ e = .quantized e.layer ⟨.default {} "ReLU", false, false⟩ := by
  have h : applyCheck (concatReLUs 7) (fun out => decide (
    ∃ e ∈ out.layers, e.layer.name = "relu0" ∧ e = .quantized e.layer ⟨.default {} "ReLU", false, false⟩)) = true := by
    decide +kernel
  obtain ⟨out, h1, h2⟩ := applyCheck_spec h
  exact ⟨_, out, rfl, h1, of_decide_eq_true h2⟩

open Example in
/-- C117 is violated when one layer in front of the concatenation is not supported: then the other ones are quantized before
the concatenation, too. -/
theorem C117_unsupported_violated : ∃ (m : AModel ℕ String) (out : OModel ℕ String), m = denseBNConcat ∧
    quantizeApply scheme8 (.model m) = .ok out ∧
    ∃ e ∈ out.layers, e.layer.name = "act" ∧ e = .quantized e.layer ⟨.default {} "ReLU", false, false⟩ := by
  have h : applyCheck denseBNConcat (fun out => decide (
    ∃ e ∈ out.layers, e.layer.name = "act" ∧ e = .quantized e.layer ⟨.default {} "ReLU", false, false⟩)) = true := by
    decide +kernel
  obtain ⟨out, h1, h2⟩ := applyCheck_spec h
  exact ⟨_, out, rfl, h1, of_decide_eq_true h2⟩

open Example in
/-- C117 is violated when the output of one layer in front of the concatenation is also used elsewhere: then the other one,
which is only used by the concatenation, is quantized before the concatenation, too. -/
theorem C117_shared_violated : ∃ (m : AModel ℕ String) (out : OModel ℕ String), m = concatShared ∧
    quantizeApply scheme8 (.model m) = .ok out ∧
    ∃ e ∈ out.layers, e.layer.name = "relu1" ∧ e = .quantized e.layer ⟨.default {} "ReLU", false, false⟩ := by
  have h : applyCheck concatShared (fun out => decide (
    ∃ e ∈ out.layers, e.layer.name = "relu1" ∧ e = .quantized e.layer ⟨.default {} "ReLU", false, false⟩)) = true := by
    decide +kernel
  obtain ⟨out, h1, h2⟩ := applyCheck_spec h
  exact ⟨_, out, rfl, h1, of_decide_eq_true h2⟩

end Verif.Props
