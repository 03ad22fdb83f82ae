import Verif.Props.FusedRun

set_option linter.unusedSectionVars false
set_option linter.unusedSimpArgs false

namespace Verif.Props
open Verif.Quant.Regex Verif.Quant.Transformer Verif.Quant.Transforms8Bit Verif.Quant.Apply

variable {V U M : Type}

namespace Spec

/-- The output of the layer `x` goes to the layer `y` only, and `y` has no other input: in a functional model `y` is
called once, with the output of `x` alone, no other layer refers to `x`, `x` is no output of the model and is called
at most once; in a Sequential model `y` comes directly after `x`. -/
def FeedsJust (m : AModel V U) (x y : ALayer U) : Prop :=
  if m.functional then
    (∃ conn, y.layer.inbound = [[conn]] ∧ conn.src = x.layer.name) ∧
    (∀ z ∈ m.layers, x.layer.name ∈ inboundNames z.layer → z = y) ∧
    (∀ o ∈ m.outputs, o.1 ≠ x.layer.name) ∧ x.layer.inbound.length ≤ 1 ∧ x ≠ y
  else ∃ before rest, m.layers = before ++ x :: y :: rest

end Spec

namespace Aux

section Inst
variable [DecidableEq U] [DecidableEq V] {c : Classes} {am : AModel V U}
  (hnd : (am.layers.map fun a => a.layer.name).Nodup)
  {auto : String → ℕ → String} {expand : V → V} {str1 str2 : String → String}

theorem alayer_eq (hnd : (am.layers.map fun a => a.layer.name).Nodup) {x y : ALayer U} (hx : x ∈ am.layers)
    (hy : y ∈ am.layers) (h : x.layer.name = y.layer.name) : x = y := same_alayer hnd hx hy h

theorem link_start {x y : ALayer U} (hnd : (am.layers.map fun a => a.layer.name).Nodup) (hx : x ∈ am.layers)
    (hy : y ∈ am.layers) (h : Spec.FeedsJust am x y) : Link (unwrap am) x.layer.name y.layer.name := by
  have hmap : ((unwrap am).layers.map (·.name)) = am.layers.map fun a => a.layer.name := by
    simp [unwrap, List.map_map, Function.comp_def]
  rw [Spec.FeedsJust] at h
  split at h
  · rename_i hf
    obtain ⟨⟨conn, h1, h2⟩, h3, h4, h5, h6⟩ := h
    left
    refine ⟨hf, fun he => h6 (alayer_eq hnd hx hy he), ?_, ?_, ?_, ?_, h4, ?_⟩
    · rw [hmap]; exact List.count_eq_one_of_mem hnd (List.mem_map_of_mem hx)
    · rw [hmap]; exact List.count_eq_one_of_mem hnd (List.mem_map_of_mem hy)
    · intro l hl he
      obtain ⟨z, hz, rfl⟩ := List.mem_map.1 hl
      rw [alayer_eq hnd hz hy he]
      exact ⟨conn, h1, h2⟩
    · intro l hl he
      obtain ⟨z, hz, rfl⟩ := List.mem_map.1 hl
      rw [h3 z hz he]
    · intro l hl he
      obtain ⟨z, hz, rfl⟩ := List.mem_map.1 hl
      rw [alayer_eq hnd hz hx he]
      exact h5
  · rename_i hf
    obtain ⟨p, q, he⟩ := h
    right
    refine ⟨show am.functional = false by simpa using hf, ?_, p.map (fun a => a.layer.name), q.map (fun a => a.layer.name), ?_⟩
    · rw [Spec.UniqueNames, hmap]; exact hnd
    · rw [hmap, he]; simp

theorem candidate_start {x : ALayer U} (hx : x ∈ am.layers) (h : x.annotation.isSome = true) :
    x.layer.name ∈ (unwrap am).candidates := by
  obtain ⟨cfg, hcfg⟩ := Option.isSome_iff_exists.1 h
  refine List.mem_map.2 ⟨x, List.mem_filter.2 ⟨hx, ?_⟩, rfl⟩
  rw [mapEntry, hcfg]; rfl

theorem config_start {x : ALayer U} (hnd : (am.layers.map fun a => a.layer.name).Nodup) (hx : x ∈ am.layers)
    (h : x.annotation = some none) : configOf (unwrap am) x.layer.name = none := by
  rw [configOf, show (unwrap am).metadata x.layer.name = quantizeMap am x.layer.name from rfl,
    quantizeMap_eq hnd hx, mapEntry, h]
  rfl

theorem base_start {x y : ALayer U} (hnd : (am.layers.map fun a => a.layer.name).Nodup) (hx : x ∈ am.layers)
    (hy : y ∈ am.layers) (h : Spec.FeedsJust am x y) (hax : x.annotation.isSome = true)
    (hay : y.annotation.isSome = true)
    (hseq : am.functional = false → Spec.SequentialModel (unwrap am)) :
    Base auto am x.layer.name y.layer.name (unwrap am) 0 := by
  have hmap : ((unwrap am).layers.map (·.name)) = am.layers.map fun a => a.layer.name := by
    simp [unwrap, List.map_map, Function.comp_def]
  refine ⟨link_start hnd hx hy h, candidate_start hx hax, candidate_start hy hay, fun hf => ?_⟩
  refine ⟨hseq hf, ⟨fun l hl => Or.inl ?_, fun l hl _ => ?_⟩, fun _ => rfl⟩ <;>
    (rw [← hmap]; exact List.mem_map_of_mem hl)

variable {A B : ALayer U} (hA : A ∈ am.layers) (hB : B ∈ am.layers)
  (hcA : A.layer.cls ∈ Spec.fusedClasses) (hcB : B.layer.cls ∈ Spec.normClasses)

theorem norm_match : ∀ clsB ∈ Spec.normClasses, matchPattern clsB bnClass = true := by decide +kernel

include hnd hA hB hcB in
/-- The match that fuses the two layers exists. -/
theorem pair_match {g : Graph V (Meta U)} {k : ℕ} (hok : ApplyInv c am g)
    (hbase : Base auto am A.layer.name B.layer.name g k) (hbef : FusedBefore A.layer.name B.layer.name g) {clsPat : String}
    (hpat : matchPattern A.layer.cls clsPat = true) {hd : Bool}
    (hhd : g.functional = true → ∀ y ∈ g.layers, y.name = B.layer.name → isMatchSupported g y hd = true) :
    ∃ lb ∈ g.layers, lb.name = B.layer.name ∧ ∃ n,
      matchTree g (.mk bnClass [] [.mk clsPat [("activation", "linear")] []]) lb hd = some n := by
  have hf := link_feeds hbase.link
  obtain ⟨lb, hlb, heb⟩ := hf.existsB
  obtain ⟨la, hla, hea, hin⟩ := hf.input lb hlb heb
  refine ⟨lb, hlb, heb, _, matchTree_chain (matchLayer_some (heb ▸ hbase.candB) ?_ (by simp))
    (fun h => hhd h lb hlb heb) hin (matchTree_leaf (matchLayer_some (hea ▸ hbase.candA) ?_ ?_)
      (fun h => hf.inner h la hla hea))⟩
  · rw [← (apply_layer hnd hok hlb hB heb).1]
    exact norm_match _ hcB
  · rw [← (apply_layer hnd hok hla hA hea).1]
    exact hpat
  · intro e he
    rw [List.mem_singleton.1 he]
    exact hbef.act la hla hea

/-- The match with the second layer at its head. -/
theorem pair_shape {g : Graph V (Meta U)} {a b clsA clsB : String} (h2 : Two g a b clsA clsB true) {cls cfg clsP cfgP}
    {l : Layer} {hd} {m : Node V (Meta U)} (hl : l ∈ g.layers) (hlb : l.name = b)
    (hm : matchTree g (.mk cls cfg [.mk clsP cfgP []]) l hd = some m) :
    ∃ x ∈ g.layers, x.name = a ∧ m = nodeOf g l [nodeOf g x []] := by
  obtain ⟨x, n, hx, hxa, hn, rfl⟩ := match_pair h2 hl hlb hm
  obtain ⟨-, -, ⟨-, rfl⟩ | ⟨h, -⟩⟩ := matchTree_split hn
  · exact ⟨x, hx, hxa, rfl⟩
  · exact absurd rfl h

/-- A match of a pattern with a place for the second layer below the head. -/
theorem relu_shape {g : Graph V (Meta U)} {a b clsA clsB : String} (h2 : Two g a b clsA clsB true)
    {cls cfg cls1 cfg1 clsP cfgP} {l : Layer} {hd} {m : Node V (Meta U)} (hl : l ∈ g.layers)
    (hcA : matchPattern clsA cls = false) (hcB : matchPattern clsB cls = false)
    (hq : matchPattern clsB clsP = false)
    (hm : matchTree g (.mk cls cfg [.mk cls1 cfg1 [.mk clsP cfgP []]]) l hd = some m) :
    l.name ≠ a ∧ l.name ≠ b ∧ ((∀ n, Spec.InTree n m → n.name ≠ a ∧ n.name ≠ b) ∨
    ∃ x ∈ g.layers, x.name = b ∧ ∃ y ∈ g.layers, y.name = a ∧ m = nodeOf g l [nodeOf g x [nodeOf g y []]] ∧
      x ∈ getLayers g (inputLayerNames g l)) := by
  have hla := head_not h2 hl hm hcA
  have hlb : l.name ≠ b := by
    intro h
    have := (matchLayer_parts (matchTree_split hm).1).1
    rw [h2.clsB l hl h, hcB] at this
    simp at this
  refine ⟨hla, hlb, ?_⟩
  obtain ⟨-, -, ⟨h, -⟩ | ⟨-, ns, hns, rfl⟩⟩ := matchTree_split hm
  · simp at h
  obtain ⟨x, hx⟩ : ∃ x, getLayers g (inputLayerNames g l) = [x] := by
    cases hgl : getLayers g (inputLayerNames g l) with
    | nil => rw [hgl] at hns; simp [matchTrees] at hns
    | cons x xs =>
      cases xs with
      | nil => exact ⟨x, rfl⟩
      | cons _ _ =>
        rw [hgl, matchTrees] at hns
        obtain ⟨i, hi, h1⟩ := Option.bind_eq_some_iff.1 hns
        simp [matchTrees] at h1
  have hxg : x ∈ g.layers := getLayers_subset g _ x (by rw [hx]; simp)
  rw [hx, matchTrees] at hns
  obtain ⟨i, hi, h1⟩ := Option.bind_eq_some_iff.1 hns
  obtain ⟨is, his, rfl⟩ := Option.map_eq_some_iff.1 h1
  simp only [matchTrees, Option.some.injEq] at his
  subst his
  by_cases hxb : x.name = b
  · right
    obtain ⟨y, hy, hya, rfl⟩ := pair_shape h2 hxg hxb hi
    exact ⟨x, hxg, hxb, y, hy, hya, rfl, by rw [hx]; simp⟩
  · left
    have hxa : x.name ≠ a := fun h => hlb (h2.feeds.only l hl x (by rw [hx]; simp) h)
    intro n hn
    rcases inTree_cases.1 hn with rfl | hn
    · exact ⟨hla, hlb⟩
    · obtain ⟨e1, e2⟩ := untouched_below h2 hxg hxa hxb (by rfl) hi n hn
      exact ⟨e1, e2 (by simp [nowheres, nowhere, leafHit, hq])⟩

/-- The classes of the first layers of these patterns. -/
theorem conv_table : ∀ clsA ∈ ["Conv2D", "DepthwiseConv2D"], ∀ clsB ∈ Spec.normClasses,
    (cleanPat clsA clsB true (.mk "InputLayer" [] []) = true ∧ cleanPat clsA clsB true (.mk "SeparableConv1D" [] []) = true ∧
    cleanPat clsA clsB true (.mk "SeparableConv2D" [] []) = true ∧
    cleanPat clsA clsB true (.mk "ReLU" [] [convReshapeBNPattern]) = true ∧
    cleanPat clsA clsB true (reluAct convReshapeBNPattern) = true ∧
    cleanPat clsA clsB true convReshapeBNPattern = true) ∧
    matchPattern clsA "ReLU" = false ∧ matchPattern clsB "ReLU" = false ∧ matchPattern clsA "Activation" = false ∧
    matchPattern clsB "Activation" = false ∧ matchPattern clsB convClass = false ∧ matchPattern clsA bnClass = false ∧
    matchPattern clsA convClass = true := by
  decide +kernel

theorem fuses_weaken {a b : String} {m r : Node V (Meta U)} (h : Fuses a b True m r) : Fuses a b False m r :=
  ⟨h.nodup, h.memA, h.keptA, h.setA, h.memB, fun h => h.elim⟩

include hnd hA hB in
/-- `Conv2DBatchNormReLUQuantize` and `Conv2DBatchNormActivationQuantize`. -/
theorem relu_outcome (hcA : A.layer.cls ∈ ["Conv2D", "DepthwiseConv2D"]) (hcB : B.layer.cls ∈ Spec.normClasses)
    {g : Graph V (Meta U)} {k k' : ℕ} (hok : ApplyInv c am g)
    (hbase : Base auto am A.layer.name B.layer.name g k) (hbef : FusedBefore A.layer.name B.layer.name g)
    {cls : String} {cfg} (hcls : cls = "ReLU" ∨ cls = "Activation") {m r : Node V (Meta U)} (hml : m.layer ∈ g.layers)
    (hmt : matchTree g (.mk cls cfg [convBNPattern]) m.layer true = some m)
    (hr : (Except.ok (replaceBNReLU m, k) : Except String _) = .ok (r, k')) :
    (∀ n, Spec.InTree n m → n.name ≠ A.layer.name ∧ n.name ≠ B.layer.name) ∨
    ((∃ x ∈ getLayers g (inputLayerNames g m.layer), x.name = B.layer.name) ∧
      ((r = m ∧ configOf g m.name ≠ none) ∨ Fuses A.layer.name B.layer.name True m r)) := by
  have h2 := two_of (lin := true) hnd hA hB hok hbase.link (fun h => by simp at h)
  obtain ⟨-, c1, c2, c3, c4, c5, -⟩ := conv_table _ hcA _ hcB
  simp only [Except.ok.injEq, Prod.mk.injEq] at hr
  obtain ⟨hla, hlb, h | ⟨x, hx, hxb, y, hy, hya, hm, hxin⟩⟩ := relu_shape h2 hml
    (by rcases hcls with h | h <;> rw [h] <;> assumption) (by rcases hcls with h | h <;> rw [h] <;> assumption) c5 hmt
  · exact Or.inl h
  · right
    refine ⟨⟨x, hxin, hxb⟩, ?_⟩
    have hne : y.name ≠ x.name := by rw [hya, hxb]; exact h2.feeds.ne
    have ha : ((g.metadata y.name).getD default).get = none := by rw [hya]; exact hbef.metaA
    have hb : ((g.metadata x.name).getD default).get = none := by rw [hxb]; exact hbef.metaB
    have := fuses_relu (V := V) (lc := m.layer) (wa := g.weights y.name) (wb := g.weights x.name) (wc := g.weights m.layer.name)
      (ic := (g.metadata m.layer.name).getD default) hne (by rw [hya]; exact hla) (by rw [hxb]; exact hlb) ha hb
    rw [← hr.1, hm, ← hxb, ← hya]
    exact this

theorem conv_split (auto : String → ℕ → String) (c : Classes) (expand : V → V) (str1 str2 : String → String) :
    ∃ late, transforms (U := U) auto c expand str1 str2 =
      [ { name := "InputLayerQuantize", pattern := .mk "InputLayer" [] []
          replacement := replaceInput c.params.bits auto },
        { name := "SeparableConv1DQuantize", pattern := .mk "SeparableConv1D" [] []
          replacement := replaceSepConv1D auto expand str1 str2 },
        { name := "SeparableConvQuantize", pattern := .mk "SeparableConv2D" [] []
          replacement := replaceSepConv auto },
        pureTransform "Conv2DReshapeBatchNormReLUQuantize" (.mk "ReLU" [] [convReshapeBNPattern])
          replaceReshapeBNReLU,
        pureTransform "Conv2DReshapeBatchNormActivationQuantize" (reluAct convReshapeBNPattern)
          replaceReshapeBNReLU,
        pureTransform "Conv2DBatchNormReLUQuantize" (.mk "ReLU" [] [convBNPattern]) replaceBNReLU,
        pureTransform "Conv2DBatchNormActivationQuantize" (reluAct convBNPattern) replaceBNReLU,
        pureTransform "Conv2DReshapeBatchNormQuantize" convReshapeBNPattern (replaceReshapeBN c.params.bits) ] ++
      pureTransform "Conv2DBatchNormQuantize" convBNPattern (replaceBN c.params.bits) :: late := ⟨_, rfl⟩

variable (hfresh : Spec.FreshNames auto (am.layers.map fun a => a.layer.name))
include hnd hA hB hfresh

/-- The loops fuse a convolution and the batch normalization after it. -/
theorem conv_run (hcA : A.layer.cls ∈ ["Conv2D", "DepthwiseConv2D"]) (hcB : B.layer.cls ∈ Spec.normClasses)
    (metaEq : Meta U → Meta U → Bool) (hrefl : ∀ i, metaEq i i = true)
    (hfeeds : Spec.FeedsJust am A B) (haA : A.annotation = some none) (haB : B.annotation = some none)
    (hact : A.layer.get "activation" = "linear")
    (hseq : am.functional = false → Spec.SequentialModel (unwrap am))
    (hstart : ApplyInv c am (unwrap am)) (fuel : ℕ) (g' : Graph V (Meta U))
    (hrun : run metaEq (transforms auto c expand str1 str2) fuel
      (start (transforms auto c expand str1 str2) (unwrap am)) = some (.ok g')) :
    ApplyInv c am g' ∧ FusedAfter A.layer.name B.layer.name False g' := by
  obtain ⟨late, hsplit⟩ := conv_split (U := U) auto c expand str1 str2
  have hcA' : A.layer.cls ∈ Spec.fusedClasses := by
    simp only [List.mem_cons, List.not_mem_nil, or_false] at hcA
    rcases hcA with h | h <;> rw [h] <;> decide
  obtain ⟨⟨t0, t1, t2, t3, t4, t7⟩, c1, c2, c3, c4, c5, c6, c7⟩ := conv_table _ hcA _ hcB
  refine fuse_run hnd hA hB hcA' hcB hfresh metaEq hrefl _ _ late hsplit B.layer.name False (fun _ => True)
    ?_ ?_ (base_start hnd hA hB hfeeds (by rw [haA]; rfl) (by rw [haB]; rfl) hseq) ?_ trivial hstart fuel g' hrun
  · intro g k hok hb hbef _
    exact pair_match hnd hA hB hcB hok hb hbef c7 (fun h => (link_feeds hb.link).head h)
  · intro g t m r k k' matched hok hb hbef _ ht hfind hrep
    have h2 := two_of (lin := true) hnd hA hB hok hb.link (fun h => by simp at h)
    obtain ⟨hml, -, hmt⟩ := findPattern_some hfind
    have clean : ∀ {p}, t.pattern = p → cleanPat A.layer.cls B.layer.cls true p = true → t.name ≠ "Conv2DBatchNormQuantize" →
        Outcome c am auto expand str1 str2 A.layer.name B.layer.name B.layer.name "Conv2DBatchNormQuantize" False
          (fun _ => True) g t m r k k' := by
      intro p hp hc hn
      rw [hp] at hmt
      exact Or.inl ⟨clean_untouched h2 hml hmt hc, fun h => absurd h hn, fun _ _ _ => trivial⟩
    have relu : ∀ {cls cfg}, (cls = "ReLU" ∨ cls = "Activation") → t.pattern = .mk cls cfg [convBNPattern] →
        t.replacement = (fun k n => .ok (replaceBNReLU n, k)) →
        t.name ∉ ["InputLayerQuantize", "SeparableConv1DQuantize", "SeparableConvQuantize"] →
        t.name ≠ "Conv2DBatchNormQuantize" →
        Outcome c am auto expand str1 str2 A.layer.name B.layer.name B.layer.name "Conv2DBatchNormQuantize" False
          (fun _ => True) g t m r k k' := by
      intro cls cfg hcls hp hr hn1 hn2
      rw [hp] at hmt
      rw [hr] at hrep
      rcases relu_outcome hnd hA hB hcA hcB hok hb hbef hcls hml hmt hrep with h | ⟨-, ⟨h, -⟩ | h⟩
      · exact Or.inl ⟨h, fun h => absurd h hn2, fun _ _ _ => trivial⟩
      · exact Or.inr (Or.inr (Or.inl ⟨h, hn2⟩))
      · exact Or.inr (Or.inl ⟨fuses_weaken h, hn1⟩)
    simp only [List.mem_cons, List.not_mem_nil, or_false] at ht
    rcases ht with (rfl | rfl | rfl | rfl | rfl | rfl | rfl | rfl) | rfl
    · exact clean rfl t0 (by simp [pureTransform])
    · exact clean rfl t1 (by simp [pureTransform])
    · exact clean rfl t2 (by simp [pureTransform])
    · exact clean rfl t3 (by simp [pureTransform])
    · exact clean rfl t4 (by simp [pureTransform])
    · exact relu (Or.inl rfl) rfl rfl (by simp [pureTransform]) (by simp [pureTransform])
    · exact relu (Or.inr rfl) rfl rfl (by simp [pureTransform]) (by simp [pureTransform])
    · exact clean rfl t7 (by simp [pureTransform])
    · by_cases hmb : m.layer.name = B.layer.name
      · obtain ⟨y, hy, hya, hm⟩ := pair_shape h2 hml hmb hmt
        right; left
        refine ⟨?_, by simp [pureTransform]⟩
        have hne : y.name ≠ m.layer.name := by rw [hya, hmb]; exact h2.feeds.ne
        have hrr : r = replaceBN c.params.bits m := by
          simp only [pureTransform, Except.ok.injEq, Prod.mk.injEq] at hrep
          exact hrep.1.symm
        rw [hrr]
        have := fuses_bn (V := V) (bits := c.params.bits) (wa := g.weights y.name) (wb := g.weights m.layer.name) hne
          (ia := (g.metadata y.name).getD default) (ib := (g.metadata m.layer.name).getD default)
          (by rw [hya]; exact hbef.metaA) (by rw [hmb]; exact hbef.metaB)
        rw [hm, ← hmb, ← hya]
        exact this
      · left
        refine ⟨fun n hn => ?_, fun _ => hmb, fun _ _ _ => trivial⟩
        obtain ⟨e1, e2⟩ := untouched_below h2 hml (head_not h2 hml hmt c6) hmb (by rfl) hmt n hn
        exact ⟨e1, e2 (by simp [nowheres, nowhere, leafHit, convPattern, c5])⟩
  · refine ⟨?_, config_start hnd hA haA, config_start hnd hB haB⟩
    intro l hl he
    obtain ⟨z, hz, rfl⟩ := List.mem_map.1 hl
    rw [same_alayer hnd hz hA he]
    exact hact

variable {D : ALayer U} (hD : D ∈ am.layers)

/-- What is known of the ReLU before the fusion. -/
def BeforeRelu (B D : ALayer U) (g : Graph V (Meta U)) : Prop :=
  Link g B.layer.name D.layer.name ∧ D.layer.name ∈ g.candidates ∧ configOf g D.layer.name = none ∧
    ∀ l ∈ g.layers, l.name = D.layer.name → l.get "activation" = D.layer.get "activation"

omit hnd hA hB hfresh in
theorem relu_table : ∀ clsD ∈ ["ReLU", "Activation"],
    nowhere (leafHit clsD) (.mk "InputLayer" [] []) = true ∧ nowhere (leafHit clsD) (.mk "SeparableConv1D" [] []) = true ∧
    nowhere (leafHit clsD) (.mk "SeparableConv2D" [] []) = true ∧
    nowhere (leafHit clsD) (.mk "ReLU" [] [convReshapeBNPattern]) = true ∧
    nowhere (leafHit clsD) (reluAct convReshapeBNPattern) = true ∧
    nowhere (leafHit clsD) (.mk "ReLU" [] [convBNPattern]) = true ∧
    nowhere (leafHit clsD) (reluAct convBNPattern) = true := by decide +kernel

include hD in
theorem beforeRelu_other {g g' : Graph V (Meta U)} {t : Transform V (Meta U)} {m r : Node V (Meta U)} {k k' : ℕ}
    {matched : List String} (hok : ApplyInv c am g) (hbase : Base auto am A.layer.name B.layer.name g k)
    (hs : ReplaceStep c am auto expand str1 str2 g t m r k k' g')
    (hfind : findPattern g t.pattern matched = some m) (hg : replace g m r = .ok g')
    (hK : BeforeRelu B D g)
    (hout : ∀ n, Spec.InTree n m → n.name ≠ B.layer.name ∧ n.name ≠ D.layer.name) : BeforeRelu B D g' := by
  have hnb : B.layer.name ∈ am.layers.map fun a => a.layer.name := List.mem_map_of_mem hB
  have hnd' : D.layer.name ∈ am.layers.map fun a => a.layer.name := List.mem_map_of_mem hD
  obtain ⟨h1, h2, h3, h4⟩ := hK
  obtain ⟨k1, k2⟩ := keep_other hs.effect hs.step hnd' fun n hn => (hout n hn).2
  refine ⟨link_other hfresh hs.mem hfind hs.replaced hg h1 hbase.seq hs.step hnb hnd' hout,
    cand_next hok hs.effect h2, by rw [configOf, k2]; exact h3, ?_⟩
  intro l' hl' he
  obtain ⟨l, hl, hsame⟩ := k1 l' hl' he
  rw [get_same hsame]
  exact h4 l hl (hsame.1.symm.trans he)

include hD in
theorem relu_exist (hcA : A.layer.cls ∈ ["Conv2D", "DepthwiseConv2D"]) (hcB : B.layer.cls ∈ Spec.normClasses)
    {cls cfg} (hcls : matchPattern D.layer.cls cls = true)
    (hcfg : ∀ e ∈ cfg, e.1 = "activation" ∧ e.2 = D.layer.get "activation")
    {g : Graph V (Meta U)} {k : ℕ} (hok : ApplyInv c am g)
    (hb : Base auto am A.layer.name B.layer.name g k) (hbef : FusedBefore A.layer.name B.layer.name g)
    (hK : BeforeRelu B D g) : ∃ l ∈ g.layers, l.name = D.layer.name ∧ ∃ n,
      matchTree g (.mk cls cfg [convBNPattern]) l true = some n := by
  obtain ⟨h1, h2, h3, h4⟩ := hK
  obtain ⟨-, -, -, -, -, -, -, c7⟩ := conv_table _ hcA _ hcB
  have hf := link_feeds h1
  obtain ⟨lb, hlb, heb, n, hn⟩ := pair_match hnd hA hB hcB hok hb hbef c7 (hd := false) (fun h => hf.inner h)
  obtain ⟨ld, hld, hed⟩ := hf.existsB
  obtain ⟨x, hx, hxb, hin⟩ := hf.input ld hld hed
  obtain rfl := hf.uniqueA x hx lb hlb hxb heb
  refine ⟨ld, hld, hed, _, matchTree_chain (matchLayer_some (hed ▸ h2) ?_ ?_) (fun h => hf.head h ld hld hed) hin hn⟩
  · rw [← (apply_layer hnd hok hld hD hed).1]; exact hcls
  · intro e he
    obtain ⟨e1, e2⟩ := hcfg e he
    rw [e1, e2]; exact h4 ld hld hed

include hD in
/-- The turns before the fusion of a convolution, a batch normalization and a ReLU. -/
theorem relu_turn (hcA : A.layer.cls ∈ ["Conv2D", "DepthwiseConv2D"]) (hcB : B.layer.cls ∈ Spec.normClasses)
    (tname : String)
    {g : Graph V (Meta U)} {t : Transform V (Meta U)} {m r : Node V (Meta U)} {k k' : ℕ} {matched : List String}
    (hok : ApplyInv c am g) (hb : Base auto am A.layer.name B.layer.name g k)
    (hbef : FusedBefore A.layer.name B.layer.name g) (hK : BeforeRelu B D g)
    (hfind : findPattern g t.pattern matched = some m) (hrep : t.replacement k m = .ok (r, k')) {p : Pattern}
    (hp : t.pattern = p) (hleaf : nowhere (leafHit D.layer.cls) p = true)
    (hcase : cleanPat A.layer.cls B.layer.cls true p = true ∨
      ((∃ cls cfg, (cls = "ReLU" ∨ cls = "Activation") ∧ p = .mk cls cfg [convBNPattern]) ∧
        t.replacement = (fun k n => .ok (replaceBNReLU n, k)) ∧
        t.name ∉ ["InputLayerQuantize", "SeparableConv1DQuantize", "SeparableConvQuantize"])) :
    Outcome c am auto expand str1 str2 A.layer.name B.layer.name D.layer.name tname True (BeforeRelu B D) g t m r k k' := by
  have h2 := two_of (lin := true) hnd hA hB hok hb.link (fun h => by simp at h)
  have h3 := two_of (lin := true) hnd hB hD hok hK.1 (fun h => by simp at h)
  obtain ⟨hml, -, hmt⟩ := findPattern_some hfind
  have away : (∀ n, Spec.InTree n m → n.name ≠ A.layer.name ∧ n.name ≠ B.layer.name) →
      Outcome c am auto expand str1 str2 A.layer.name B.layer.name D.layer.name tname True (BeforeRelu B D) g t m r k k' := by
    intro h
    have hd : ∀ n, Spec.InTree n m → n.name ≠ D.layer.name :=
      no_third h3 _ _ _ _ hml (by rw [hp]; exact hleaf) hmt fun n hn => (h n hn).2
    refine Or.inl ⟨h, fun _ => hd m (.root _), fun g' hs hg => ?_⟩
    exact beforeRelu_other hnd hA hB hfresh hD hok hb hs hfind hg hK fun n hn => ⟨(h n hn).2, hd n hn⟩
  rcases hcase with hc | ⟨⟨cls, cfg, hcls, hp'⟩, hr, hn1⟩
  · rw [hp] at hmt
    exact away (clean_untouched h2 hml hmt hc)
  · rw [hp, hp'] at hmt
    rw [hr] at hrep
    rcases relu_outcome hnd hA hB hcA hcB hok hb hbef hcls hml hmt hrep with h | ⟨⟨x, hx, hxb⟩, ⟨-, hno⟩ | h⟩
    · exact away h
    · refine absurd ?_ hno
      rw [show m.name = D.layer.name from h3.feeds.only _ hml x hx hxb]
      exact hK.2.2.1
    · exact Or.inr (Or.inl ⟨h, hn1⟩)

include hD in
/-- The loops fuse a convolution, a batch normalization and a ReLU. -/
theorem relu_run (hcA : A.layer.cls ∈ ["Conv2D", "DepthwiseConv2D"]) (hcB : B.layer.cls ∈ Spec.normClasses)
    (hcD : D.layer.cls = "ReLU" ∨ (D.layer.cls = "Activation" ∧ D.layer.get "activation" = "relu"))
    (metaEq : Meta U → Meta U → Bool) (hrefl : ∀ i, metaEq i i = true)
    (hfeeds : Spec.FeedsJust am A B) (hfeeds' : Spec.FeedsJust am B D)
    (haA : A.annotation = some none) (haB : B.annotation = some none) (haD : D.annotation = some none)
    (hact : A.layer.get "activation" = "linear")
    (hseq : am.functional = false → Spec.SequentialModel (unwrap am))
    (hstart : ApplyInv c am (unwrap am)) (fuel : ℕ) (g' : Graph V (Meta U))
    (hrun : run metaEq (transforms auto c expand str1 str2) fuel
      (start (transforms auto c expand str1 str2) (unwrap am)) = some (.ok g')) :
    ApplyInv c am g' ∧ FusedAfter A.layer.name B.layer.name True g' := by
  obtain ⟨late, hsplit⟩ := conv_split (U := U) auto c expand str1 str2
  have hcA' : A.layer.cls ∈ Spec.fusedClasses := by
    simp only [List.mem_cons, List.not_mem_nil, or_false] at hcA
    rcases hcA with h | h <;> rw [h] <;> decide
  have hcD' : D.layer.cls ∈ ["ReLU", "Activation"] := by
    rcases hcD with h | h
    · rw [h]; simp
    · rw [h.1]; simp
  obtain ⟨⟨t0, t1, t2, t3, t4, t7⟩, c1, c2, c3, c4, c5, c6, c7⟩ := conv_table _ hcA _ hcB
  obtain ⟨u0, u1, u2, u3, u4, u5, u6⟩ := relu_table _ hcD'
  have hbase := base_start (auto := auto) hnd hA hB hfeeds (by rw [haA]; rfl) (by rw [haB]; rfl) hseq
  have hbefore : FusedBefore A.layer.name B.layer.name (unwrap am) := by
    refine ⟨?_, config_start hnd hA haA, config_start hnd hB haB⟩
    intro l hl he
    obtain ⟨z, hz, rfl⟩ := List.mem_map.1 hl
    rw [same_alayer hnd hz hA he]
    exact hact
  have hK : BeforeRelu B D (unwrap am) := by
    refine ⟨link_start hnd hB hD hfeeds', candidate_start hD (by rw [haD]; rfl), config_start hnd hD haD, ?_⟩
    intro l hl he
    obtain ⟨z, hz, rfl⟩ := List.mem_map.1 hl
    rw [same_alayer hnd hz hD he]
  rcases hcD with hcD | ⟨hcD, hactD⟩
  · refine fuse_run hnd hA hB hcA' hcB hfresh metaEq hrefl
      (pureTransform "Conv2DBatchNormReLUQuantize" (.mk "ReLU" [] [convBNPattern]) replaceBNReLU)
      [_, _, _, _, _] (_ :: _ :: _ :: late) hsplit D.layer.name True (BeforeRelu B D)
      ?_ ?_ hbase hbefore hK hstart fuel g' hrun
    · intro g k hok hb hbef hK
      exact relu_exist hnd hA hB hfresh hD hcA hcB (by rw [hcD]; decide +kernel) (by simp) hok hb hbef hK
    · intro g t m r k k' matched hok hb hbef hK ht hfind hrep
      simp only [List.mem_cons, List.not_mem_nil, or_false] at ht
      refine relu_turn hnd hA hB hfresh hD hcA hcB _ hok hb hbef hK hfind hrep rfl ?_ ?_
      · rcases ht with (rfl | rfl | rfl | rfl | rfl) | rfl
        exacts [u0, u1, u2, u3, u4, u5]
      · rcases ht with (rfl | rfl | rfl | rfl | rfl) | rfl
        · exact Or.inl t0
        · exact Or.inl t1
        · exact Or.inl t2
        · exact Or.inl t3
        · exact Or.inl t4
        · exact Or.inr ⟨⟨_, _, Or.inl rfl, rfl⟩, rfl, by simp [pureTransform]⟩
  · refine fuse_run hnd hA hB hcA' hcB hfresh metaEq hrefl
      (pureTransform "Conv2DBatchNormActivationQuantize" (reluAct convBNPattern) replaceBNReLU)
      [_, _, _, _, _, _] (_ :: _ :: late) hsplit D.layer.name True (BeforeRelu B D)
      ?_ ?_ hbase hbefore hK hstart fuel g' hrun
    · intro g k hok hb hbef hK
      exact relu_exist hnd hA hB hfresh hD hcA hcB (by rw [hcD]; decide +kernel) (by simp [hactD]) hok hb hbef hK
    · intro g t m r k k' matched hok hb hbef hK ht hfind hrep
      simp only [List.mem_cons, List.not_mem_nil, or_false] at ht
      refine relu_turn hnd hA hB hfresh hD hcA hcB _ hok hb hbef hK hfind hrep rfl ?_ ?_
      · rcases ht with (rfl | rfl | rfl | rfl | rfl | rfl) | rfl
        exacts [u0, u1, u2, u3, u4, u5, u6]
      · rcases ht with (rfl | rfl | rfl | rfl | rfl | rfl) | rfl
        · exact Or.inl t0
        · exact Or.inl t1
        · exact Or.inl t2
        · exact Or.inl t3
        · exact Or.inl t4
        · exact Or.inr ⟨⟨_, _, Or.inl rfl, rfl⟩, rfl, by simp [pureTransform]⟩
        · exact Or.inr ⟨⟨_, _, Or.inr rfl, rfl⟩, rfl, by simp [pureTransform]⟩

end Inst

end Aux
end Verif.Props
