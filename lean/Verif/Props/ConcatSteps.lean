import Verif.Props.ConcatGraph

/-
C117, part 2: the steps of the transformer around a concatenation.
-/
set_option linter.unusedSectionVars false
set_option linter.unusedSimpArgs false

namespace Verif.Props
open Verif.Quant.Regex Verif.Quant.Transformer Verif.Quant.Transforms8Bit Verif.Quant.Apply

variable {V U M Val : Type}

namespace Aux

/-! ### How often a layer is in a match -/

theorem tree_parent {n m : Node V M} (h : Spec.InTree n m) : n = m ∨ ∃ b, Spec.InTree b m ∧ n ∈ b.inputs := by
  induction h with
  | root => exact Or.inl rfl
  | child hc _ ih =>
    right
    rcases ih with rfl | ⟨b, hb, hn⟩
    · exact ⟨_, .root _, hc⟩
    · exact ⟨b, .child hc hb, hn⟩

theorem preorderList_mem : ∀ (ns : List (Node V M)) (n : Node V M), n ∈ preorderList ns → ∃ c ∈ ns, Spec.InTree n c
  | [], n, h => by simp [preorderList] at h
  | c :: cs, n, h => by
    rw [preorderList, List.mem_append] at h
    rcases h with h | h
    · exact ⟨c, by simp, (mem_preorder _ _).1 h⟩
    · obtain ⟨d, hd, hn⟩ := preorderList_mem cs n h
      exact ⟨d, by simp [hd], hn⟩

theorem count_of_parents {m : Node V M} {a : String} (h : ∀ b, Spec.InTree b m → ∀ n ∈ b.inputs, n.name ≠ a) :
    (nodeNames m).count a ≤ 1 := by
  obtain ⟨l, w, i, ins⟩ := m
  rw [nodeNames, preorder, List.map_cons, List.count_cons, List.count_eq_zero_of_not_mem]
  · split <;> omega
  · intro hm
    obtain ⟨n, hn, he⟩ := List.mem_map.1 hm
    obtain ⟨c, hc, hn⟩ := preorderList_mem _ _ hn
    rcases tree_parent hn with rfl | ⟨b, hb, hnb⟩
    · exact h _ (.root _) n hc he
    · exact h b (.child hc hb) n hnb he

theorem unary_concat : ∀ q ∈ Spec.unaryClasses, matchPattern "Concatenate" q = false := by decide +kernel

section
variable [Inhabited M] {g : Graph V M} {xs : List String} {b : String}

theorem chain_last {p : Pattern} (hp : ChainPat p) : ∀ {l h} {m : Node V M}, matchTree g p l h = some m →
    ∃ init last, nodeNames m = init ++ [last] ∧ ∀ s ∈ init, ∃ n, Spec.InTree n m ∧ n.name = s ∧ n.inputs ≠ [] := by
  induction hp with
  | leaf cls cfg =>
    intro l h m hm
    obtain ⟨-, -, ⟨-, rfl⟩ | ⟨h0, -⟩⟩ := matchTree_split hm
    · exact ⟨[], l.name, rfl, by simp⟩
    · exact absurd rfl h0
  | @step cls cfg p hc hp ih =>
    intro l h m hm
    obtain ⟨x, is, h1, h2, h3⟩ := match_input hm
    obtain ⟨l0, w, i, ins⟩ := m
    dsimp only [Node.inputs] at h1
    rw [h3 rfl] at h1
    subst h1
    obtain ⟨init, last, e1, e2⟩ := ih h2
    refine ⟨l0.name :: init, last, ?_, ?_⟩
    · rw [nodeNames, preorder, preorderList, preorderList, List.append_nil, List.map_cons]
      rw [nodeNames] at e1
      rw [e1]
      rfl
    · intro s hs
      rcases List.mem_cons.1 hs with rfl | hs
      · exact ⟨_, .root _, rfl, by simp [Node.inputs]⟩
      · obtain ⟨n, hn, e⟩ := e2 s hs
        exact ⟨n, .child (List.mem_singleton_self _) hn, e⟩

/-- The parent of one of the feeding layers is the concatenation. -/
theorem star_parent (hf : StarF g xs b) {p : Pattern} {l : Layer} {hd} {m : Node V M} (hl : l ∈ g.layers)
    (hm : matchTree g p l hd = some m) {d n : Node V M} (hd' : Spec.InTree d m) (hn : n ∈ d.inputs) (hx : n.name ∈ xs) :
    d.name = b := by
  have h1 := (tree_edges p l hd m hm d hd' n hn).1
  have h2 := of_decide_eq_true (List.mem_filter.1 h1).2
  rw [inputLayerNames, if_pos hf.functional] at h2
  exact hf.only _ hx _ (matchTree_nodes _ _ _ _ _ hl hm d hd').1 (head_src _ h2)

/-- In the matches of a chain each of the layers is there at most once. -/
theorem star_chain (hf : StarF g xs b) (hcls : ∀ l ∈ g.layers, l.name = b → l.cls = "Concatenate") {p : Pattern}
    (hp : ChainPat p) {l : Layer} {hd} {m : Node V M} (hl : l ∈ g.layers) (hm : matchTree g p l hd = some m) :
    (∀ a ∈ xs, (nodeNames m).count a ≤ 1) ∧ (nodeNames m).count b ≤ 1 := by
  have hnot : ∀ n, Spec.InTree n m → n.inputs ≠ [] → n.name ≠ b := by
    intro n hn hne he
    obtain ⟨q, hq, hmq⟩ := (chain_inner hp hm n hn).2 hne
    have := hcls _ (matchTree_nodes _ _ _ _ _ hl hm n hn).1 he
    rw [this, unary_concat q hq] at hmq
    simp at hmq
  refine ⟨?_, ?_⟩
  · intro a ha
    refine count_of_parents fun d hd' n hn he => ?_
    exact hnot d hd' (List.ne_nil_of_mem hn) (star_parent hf hl hm hd' hn (he ▸ ha))
  · obtain ⟨init, last, e1, e2⟩ := chain_last hp hm
    rw [e1, List.count_append, List.count_eq_zero_of_not_mem, List.count_singleton]
    · split <;> omega
    · intro hb
      obtain ⟨n, hn, he, hne⟩ := e2 b hb
      exact hnot n hn hne he

/-- The match of a concatenation. -/
theorem concat_shape {k : ℕ} (hk : k ≠ 0) {l : Layer} {hd} {m : Node V M} (hm : matchTree g (concatPattern k) l hd = some m) :
    m = nodeOf g l ((getLayers g (inputLayerNames g l)).map fun x => nodeOf g x []) := by
  rw [concatPattern] at hm
  obtain ⟨-, -, ⟨h, -⟩ | ⟨-, ns, hns, rfl⟩⟩ := matchTree_split hm
  · cases k with
    | zero => exact absurd rfl hk
    | succ k => simp [List.replicate_succ] at h
  · rw [leaf_trees _ _ ns _ hns]
    intro q hq
    rw [List.eq_of_mem_replicate hq]
    exact ⟨_, _, rfl⟩

theorem star_concat (hf : StarF g xs b) {k : ℕ} (hk : k ≠ 0) {l : Layer} {hd} {m : Node V M} (hl : l ∈ g.layers)
    (hm : matchTree g (concatPattern k) l hd = some m) :
    (∀ a ∈ xs, (nodeNames m).count a ≤ 1) ∧ (nodeNames m).count b ≤ 1 := by
  have hsh := concat_shape hk hm
  have names := flat_names (g := g) l (getLayers g (inputLayerNames g l))
  rw [← hsh] at names
  have hin : ∀ s, s ∈ (getLayers g (inputLayerNames g l)).map (·.name) → s ∈ (l.inbound.headD []).map (·.src) := by
    intro s hs
    obtain ⟨z, hz, rfl⟩ := List.mem_map.1 hs
    have := of_decide_eq_true (List.mem_filter.1 hz).2
    rw [inputLayerNames, if_pos hf.functional] at this
    exact this
  have hle : ∀ s, (g.layers.map (·.name)).count s = 1 →
      ((getLayers g (inputLayerNames g l)).map (·.name)).count s ≤ 1 := by
    intro s hs
    rw [← hs]
    exact List.Sublist.count_le _ ((List.filter_sublist (l := g.layers)).map _)
  refine ⟨?_, ?_⟩
  · intro a ha
    rw [names, List.count_cons]
    by_cases he : l.name = a
    · rw [List.count_eq_zero_of_not_mem]
      · split <;> omega
      · intro h
        have := hf.only a ha l hl (head_src _ (hin a h))
        rw [he] at this
        exact hf.ne (this ▸ ha)
    · rw [if_neg (by simpa using he)]
      exact hle a (hf.countA a ha)
  · rw [names, List.count_cons]
    by_cases he : l.name = b
    · rw [List.count_eq_zero_of_not_mem]
      · split <;> omega
      · intro h
        obtain ⟨cs, hcs, hp⟩ := hf.conn l hl he
        have := hin b h
        rw [hcs] at this
        exact hf.ne (hp.mem_iff.1 this)
    · rw [if_neg (by simpa using he)]
      exact hle b hf.countB

end

/-! ### A layer without a quantizer of its output never gets one back -/

def KeepOff (m r : Node V (Meta U)) : Prop :=
  ∀ n', Spec.InTree n' r → ∃ n, Spec.InTree n m ∧ n.name = n'.name ∧ (OffI n.info → OffI n'.info)

theorem keepOff_refl (m : Node V (Meta U)) : KeepOff m m := fun n hn => ⟨n, hn, rfl, id⟩

theorem not_off_none {i : Meta U} (h : i.get = none) : ¬ OffI i := by
  rintro ⟨q, hq, -⟩
  rw [h] at hq
  simp at hq

theorem off_noOp (i : Meta U) : OffI (i.set .noOp) := ⟨_, rfl, Or.inl rfl⟩

section
variable {g : Graph V (Meta U)}
variable {l0 l1 l2 l3 : Layer} {w0 w1 w2 w3 : List (String × V)} {i0 i1 i2 i3 : Meta U} {b : Bits}

theorem keep_bn : KeepOff (.mk l0 w0 i0 [.mk l1 w1 i1 []]) (replaceBN b (.mk l0 w0 i0 [.mk l1 w1 i1 []])) := by
  rw [replaceBN]
  split
  · exact keepOff_refl _
  · rename_i hc
    have h0 : i0.get = none := by
      by_contra h
      obtain ⟨q, hq⟩ := Option.ne_none_iff_exists'.1 h
      exact hc (by simp [chainHasConfig, hasConfig, Node.info, hq])
    intro n' hn'
    rcases inTree_chain hn' with rfl | hn'
    · exact ⟨_, .root _, rfl, fun ho => absurd ho (not_off_none h0)⟩
    · rw [inTree_leaf hn']
      exact ⟨.mk l1 w1 i1 [], .child (List.mem_singleton_self _) (.root _), rfl, id⟩

theorem keep_reshapeBN :
    KeepOff (.mk l0 w0 i0 [.mk l1 w1 i1 [.mk l2 w2 i2 []]])
      (replaceReshapeBN b (.mk l0 w0 i0 [.mk l1 w1 i1 [.mk l2 w2 i2 []]])) := by
  rw [replaceReshapeBN]
  split
  · exact keepOff_refl _
  · rename_i hc
    have h0 : i0.get = none := by
      by_contra h
      obtain ⟨q, hq⟩ := Option.ne_none_iff_exists'.1 h
      exact hc (by simp [chainHasConfig, hasConfig, Node.info, hq])
    intro n' hn'
    rcases inTree_chain hn' with rfl | hn'
    · exact ⟨_, .root _, rfl, fun ho => absurd ho (not_off_none h0)⟩
    rcases inTree_chain hn' with rfl | hn'
    · exact ⟨.mk l1 w1 i1 [.mk l2 w2 i2 []], .child (List.mem_singleton_self _) (.root _), rfl, id⟩
    · rw [inTree_leaf hn']
      exact ⟨.mk l2 w2 i2 [], .child (List.mem_singleton_self _) (.child (List.mem_singleton_self _) (.root _)), rfl, id⟩

theorem keep_bnRelu :
    KeepOff (.mk l0 w0 i0 [.mk l1 w1 i1 [.mk l2 w2 i2 []]])
      (replaceBNReLU (.mk l0 w0 i0 [.mk l1 w1 i1 [.mk l2 w2 i2 []]])) := by
  rw [replaceBNReLU]
  split
  · exact keepOff_refl _
  · intro n' hn'
    rcases inTree_chain hn' with rfl | hn'
    · exact ⟨_, .root _, rfl, id⟩
    rcases inTree_chain hn' with rfl | hn'
    · exact ⟨.mk l1 w1 i1 [.mk l2 w2 i2 []], .child (List.mem_singleton_self _) (.root _), rfl, fun _ => off_noOp _⟩
    · rw [inTree_leaf hn']
      exact ⟨.mk l2 w2 i2 [], .child (List.mem_singleton_self _) (.child (List.mem_singleton_self _) (.root _)), rfl, id⟩

theorem keep_reshapeBNRelu :
    KeepOff (.mk l0 w0 i0 [.mk l1 w1 i1 [.mk l2 w2 i2 [.mk l3 w3 i3 []]]])
      (replaceReshapeBNReLU (.mk l0 w0 i0 [.mk l1 w1 i1 [.mk l2 w2 i2 [.mk l3 w3 i3 []]]])) := by
  rw [replaceReshapeBNReLU]
  split
  · exact keepOff_refl _
  · intro n' hn'
    rcases inTree_chain hn' with rfl | hn'
    · exact ⟨_, .root _, rfl, id⟩
    rcases inTree_chain hn' with rfl | hn'
    · exact ⟨.mk l1 w1 i1 [.mk l2 w2 i2 [.mk l3 w3 i3 []]], .child (List.mem_singleton_self _) (.root _), rfl,
        fun _ => off_noOp _⟩
    rcases inTree_chain hn' with rfl | hn'
    · exact ⟨.mk l2 w2 i2 [.mk l3 w3 i3 []], .child (List.mem_singleton_self _) (.child (List.mem_singleton_self _) (.root _)), rfl, id⟩
    · rw [inTree_leaf hn']
      exact ⟨.mk l3 w3 i3 [], .child (List.mem_singleton_self _) (.child (List.mem_singleton_self _) (.child (List.mem_singleton_self _) (.root _))), rfl, id⟩

theorem keep_layerRelu :
    KeepOff (.mk l0 w0 i0 [.mk l1 w1 i1 []]) (replaceLayerReLU (.mk l0 w0 i0 [.mk l1 w1 i1 []])) := by
  intro n' hn'
  rw [replaceLayerReLU] at hn'
  rcases inTree_chain hn' with rfl | hn'
  · exact ⟨_, .root _, rfl, id⟩
  · rw [inTree_leaf hn']
    exact ⟨.mk l1 w1 i1 [], .child (List.mem_singleton_self _) (.root _), rfl, fun _ => off_noOp _⟩

theorem off_disable (bits : Bits) (n : Node V (Meta U)) (h : n.info.get ≠ none) : OffI (disableOutput bits n).info := by
  obtain ⟨l, w, i, ins⟩ := n
  obtain ⟨q, hq⟩ := Option.ne_none_iff_exists'.1 h
  have hcfg : i.config = some (some q) := by
    change i.config.getD none = some q at hq
    cases hc : i.config with
    | none => rw [hc] at hq; simp at hq
    | some x => rw [hc] at hq; simp only [Option.getD_some] at hq; rw [hq]
  refine ⟨{ q with outputOff := true, savedOff := q.savedOff || (bits.isNone && q.kind.hasQuantizeOutput) }, ?_, Or.inr rfl⟩
  simp [disableOutput, Node.info, Meta.get, hcfg]

/-- What the loop over the feeding layers does. -/
theorem feeds_info (c : Classes) : ∀ ns : List (Node V (Meta U)), ∀ e ∈ (feeds c ns).1,
    ∃ n ∈ ns, n.name = e.1.name ∧ e.1.inputs = n.inputs ∧ (OffI n.info → OffI e.1.info)
  | [], e, he => by simp [feeds] at he
  | n :: ns, e, he => by
    rw [feeds] at he
    cases hf : feed c n with
    | none =>
      rw [hf] at he
      obtain ⟨x, hx, rfl⟩ := List.mem_map.1 he
      exact ⟨x, hx, rfl, rfl, id⟩
    | some e0 =>
      rw [hf] at he
      obtain ⟨s1, s2⟩ := feed_same c hf
      rcases List.mem_cons.1 he with rfl | he
      · refine ⟨n, by simp, by rw [Node.name, Node.name, s1], s2, ?_⟩
        rintro ⟨q, hq, ho⟩
        unfold feed at hf
        rw [if_pos (by rw [hasConfig, hq]; rfl)] at hf
        simp only [Option.some.injEq] at hf
        rw [← hf]
        exact ⟨q, hq, ho⟩
      · obtain ⟨x, hx, h⟩ := feeds_info c ns e he
        exact ⟨x, by simp [hx], h⟩

theorem disable_keeps (bits : Bits) (n : Node V (Meta U)) : OffI n.info → OffI (disableOutput bits n).info := by
  rintro ⟨q, hq, -⟩
  exact off_disable bits n (by rw [hq]; simp)

theorem disable_same (bits : Bits) (n : Node V (Meta U)) :
    (disableOutput bits n).name = n.name ∧ (disableOutput bits n).inputs = n.inputs := by
  cases n; exact ⟨rfl, rfl⟩

theorem inTree_of_leaf {n x : Node V (Meta U)} (hx : x.inputs = []) (hn : Spec.InTree n x) : n = x := by
  obtain ⟨lx, wx, ix, xs⟩ := x
  dsimp only [Node.inputs] at hx
  subst hx
  exact inTree_leaf hn

theorem keep_concat (c : Classes) {ins : List (Node V (Meta U))} (hleaf : ∀ n ∈ ins, n.inputs = []) :
    KeepOff (.mk l0 w0 i0 ins) (replaceConcat c (.mk l0 w0 i0 ins)) := by
  have fin : ∀ {j : Meta U} {f : Node V (Meta U) × Bool → Node V (Meta U)} {n' : Node V (Meta U)},
      (∀ e, (f e).name = e.1.name ∧ (f e).inputs = e.1.inputs ∧ (OffI e.1.info → OffI (f e).info)) →
      (OffI i0 → OffI j) → Spec.InTree n' (.mk l0 w0 j ((feeds c ins).1.map f)) →
      ∃ n, Spec.InTree n (.mk l0 w0 i0 ins) ∧ n.name = n'.name ∧ (OffI n.info → OffI n'.info) := by
    intro j f n' hf hj hn
    cases hn with
    | root => exact ⟨_, .root _, rfl, hj⟩
    | child hc hx =>
      obtain ⟨e, hem, rfl⟩ := List.mem_map.1 hc
      obtain ⟨n, hn, h1, h2, h3⟩ := feeds_info c ins e hem
      rw [inTree_of_leaf ((hf e).2.1.trans (h2.trans (hleaf n hn))) hx]
      exact ⟨n, .child hn (.root _), h1.trans (hf e).1.symm, fun ho => (hf e).2.2 (h3 ho)⟩
  intro n' hn'
  have hfe : ∀ x, (.mk l0 w0 i0 ins : Node V (Meta U)).inputs = x → x = ins := fun x h => h.symm
  rw [replaceConcat] at hn'
  generalize (.mk l0 w0 i0 ins : Node V (Meta U)).inputs = ins' at hn' hfe
  rw [hfe ins' rfl] at hn'
  clear hfe
  have hdis : ∀ e : Node V (Meta U) × Bool,
      (if e.2 then disableOutput c.params.bits e.1 else e.1).name = e.1.name ∧
      (if e.2 then disableOutput c.params.bits e.1 else e.1).inputs = e.1.inputs ∧
      (OffI e.1.info → OffI (if e.2 then disableOutput c.params.bits e.1 else e.1).info) := by
    intro e
    split
    · exact ⟨(disable_same _ _).1, (disable_same _ _).2, disable_keeps _ _⟩
    · exact ⟨rfl, rfl, id⟩
  split at hn'
  · dsimp only at hn'
    split at hn'
    · exact fin hdis id hn'
    · rename_i hc
      refine fin hdis (fun ho => ?_) hn'
      exfalso
      obtain ⟨q, hq, -⟩ := ho
      exact hc (by simp [hasConfig, withInputs, Node.info, hq])
  · exact fin (fun e => ⟨rfl, rfl, id⟩) id hn'

/-- Every transform that makes up no layers. -/
theorem keep_transform (auto : String → ℕ → String) (c : Classes) (expand : V → V) (str1 str2 : String → String) :
    ∀ t ∈ transforms (U := U) auto c expand str1 str2,
    t.name ∉ ["InputLayerQuantize", "SeparableConv1DQuantize", "SeparableConvQuantize"] →
    ∀ (l : Layer) hd m k r k', matchTree g t.pattern l hd = some m →
    t.replacement k m = .ok (r, k') → KeepOff m r := by
  have bn : ∀ {cls cfg} {l : Layer} {hd m}, matchTree g (.mk bnClass [] [.mk cls cfg []]) l hd = some m →
      KeepOff m (replaceBN c.params.bits m) := by
    intro cls cfg l hd m hm
    obtain ⟨l0, w0, i0, x, rfl, h0, h1⟩ := chain_match hm
    obtain ⟨l1, w1, i1, rfl, -⟩ := end_match h1
    exact keep_bn
  have bnRelu : ∀ {cls0 cfg0 cls cfg} {l : Layer} {hd m},
      matchTree g (.mk cls0 cfg0 [.mk bnClass [] [.mk cls cfg []]]) l hd = some m → KeepOff m (replaceBNReLU m) := by
    intro cls0 cfg0 cls cfg l hd m hm
    obtain ⟨l0, w0, i0, x, rfl, h0, h1⟩ := chain_match hm
    obtain ⟨l1, w1, i1, x, rfl, q1, h2⟩ := chain_match h1
    obtain ⟨l2, w2, i2, rfl, -⟩ := end_match h2
    exact keep_bnRelu
  have reshape : ∀ {l : Layer} {hd m}, matchTree g convReshapeBNPattern l hd = some m →
      KeepOff m (replaceReshapeBN c.params.bits m) := by
    intro l hd m hm
    obtain ⟨l0, w0, i0, x, rfl, h0, h1⟩ := chain_match hm
    obtain ⟨l1, w1, i1, x, rfl, q1, h2⟩ := chain_match h1
    obtain ⟨l2, w2, i2, rfl, -⟩ := end_match h2
    exact keep_reshapeBN
  have reshapeRelu : ∀ {cls0 cfg0} {l : Layer} {hd m},
      matchTree g (.mk cls0 cfg0 [convReshapeBNPattern]) l hd = some m → KeepOff m (replaceReshapeBNReLU m) := by
    intro cls0 cfg0 l hd m hm
    obtain ⟨l0, w0, i0, x, rfl, h0, h1⟩ := chain_match hm
    obtain ⟨l1, w1, i1, x, rfl, q1, h2⟩ := chain_match h1
    obtain ⟨l2, w2, i2, x, rfl, q2, h3⟩ := chain_match h2
    obtain ⟨l3, w3, i3, rfl, -⟩ := end_match h3
    exact keep_reshapeBNRelu
  have relu : ∀ {cls0 cfg0} {l : Layer} {hd m},
      matchTree g (.mk cls0 cfg0 [producer]) l hd = some m → KeepOff m (replaceLayerReLU m) := by
    intro cls0 cfg0 l hd m hm
    obtain ⟨l0, w0, i0, x, rfl, h0, h1⟩ := chain_match hm
    obtain ⟨l1, w1, i1, rfl, -⟩ := end_match h1
    exact keep_layerRelu
  have concat : ∀ {n : ℕ} {l : Layer} {hd m}, n ≠ 0 → matchTree g (concatPattern n) l hd = some m →
      KeepOff m (replaceConcat c m) := by
    intro n l hd m hk hm
    rw [concat_shape hk hm]
    refine keep_concat c ?_
    intro x hx
    obtain ⟨z, -, rfl⟩ := List.mem_map.1 hx
    rfl
  intro t ht hn l hd m k r k' hm hr
  rw [mem_transforms] at ht
  simp only [listed, pureTransform, List.mem_cons, List.not_mem_nil, or_false] at ht
  rcases ht with rfl | rfl | rfl | rfl | rfl | rfl | rfl | rfl | rfl | rfl | rfl | rfl | rfl | rfl |
    rfl | rfl | rfl | rfl | rfl
  · simp at hn
  · simp at hn
  · simp at hn
  all_goals
    dsimp only at hm hr
    simp only [Except.ok.injEq, Prod.mk.injEq] at hr
    rw [← hr.1]
  · exact reshapeRelu hm
  · exact reshapeRelu hm
  · exact bnRelu hm
  · exact bnRelu hm
  · exact reshape hm
  · exact bn hm
  · exact concat (by omega) hm
  · exact concat (by omega) hm
  · exact concat (by omega) hm
  · exact concat (by omega) hm
  · exact concat (by omega) hm
  · exact bn hm
  · exact bnRelu hm
  · exact bnRelu hm
  · exact relu hm
  · exact relu hm

/-! ### The step at the concatenation -/

/-- The transform knows what to do with the layer in front of the concatenation. -/
def GoodFeed (c : Classes) (n : Node V (Meta U)) : Prop :=
  n.info.get ≠ none ∨ (n.layer.cls ≠ "QuantizeLayer" ∧ c.keras n.layer.cls = true ∧
    (n.layer.cls = "Concatenate" ∨ c.supported n.layer.cls = true))

theorem feed_good {c : Classes} {n : Node V (Meta U)} (h : GoodFeed c n) : ∃ e, feed c n = some e ∧
    e.1.name = n.name ∧ e.1.inputs = n.inputs ∧ OffI (if e.2 then disableOutput c.params.bits e.1 else e.1).info := by
  obtain ⟨l, w, i, ins⟩ := n
  by_cases hc : i.get = none
  · have h' : l.cls ≠ "QuantizeLayer" ∧ c.keras l.cls = true ∧ (l.cls = "Concatenate" ∨ c.supported l.cls = true) :=
      h.resolve_left (fun h => h hc)
    have h0 : hasConfig (.mk l w i ins : Node V (Meta U)) = false := by simp [hasConfig, Node.info, hc]
    by_cases hcat : l.cls = "Concatenate"
    · refine ⟨(setConfig .noOp (.mk l w i ins), false), ?_, rfl, rfl, off_noOp i⟩
      unfold feed
      simp [h0, Node.layer, hcat] at h' ⊢
      exact h'
    · refine ⟨(setConfig (.default { bits := c.params.bits } l.cls) (.mk l w i ins), true), ?_, rfl, rfl, ?_⟩
      · unfold feed
        have h3 := h'.2.2.resolve_left hcat
        simp [h0, Node.layer, hcat, h'.1, h'.2.1, h3]
      · rw [if_pos rfl]
        exact off_disable _ _ (by simp [setConfig, Node.info, Meta.set, Meta.get])
  · refine ⟨(.mk l w i ins, true), ?_, rfl, rfl, ?_⟩
    · unfold feed
      rw [if_pos]
      obtain ⟨q, hq⟩ := Option.ne_none_iff_exists'.1 hc
      simp [hasConfig, Node.info, hq]
    · rw [if_pos rfl]; exact off_disable _ _ hc

theorem feeds_good {c : Classes} : ∀ ns : List (Node V (Meta U)), (∀ n ∈ ns, GoodFeed c n) →
    (feeds c ns).2 = true ∧ ∀ e ∈ (feeds c ns).1,
      (∃ n ∈ ns, e.1.name = n.name ∧ e.1.inputs = n.inputs) ∧ OffI (if e.2 then disableOutput c.params.bits e.1 else e.1).info
  | [], _ => by simp [feeds]
  | n :: ns, h => by
    obtain ⟨e, he, h1, h2, h3⟩ := feed_good (h n (by simp))
    obtain ⟨i1, i2⟩ := feeds_good ns (fun x hx => h x (by simp [hx]))
    rw [feeds, he]
    refine ⟨i1, ?_⟩
    intro e' he'
    rcases List.mem_cons.1 he' with rfl | he'
    · exact ⟨⟨n, by simp, h1, h2⟩, h3⟩
    · obtain ⟨⟨x, hx, hh⟩, ho⟩ := i2 e' he'
      exact ⟨⟨x, by simp [hx], hh⟩, ho⟩

theorem concat_off (c : Classes) {ins : List (Node V (Meta U))} (hleaf : ∀ n ∈ ins, n.inputs = [])
    (hgood : ∀ n ∈ ins, GoodFeed c n) {n' : Node V (Meta U)} (hn' : Spec.InTree n' (replaceConcat c (.mk l0 w0 i0 ins))) :
    n'.name = l0.name ∨ OffI n'.info := by
  obtain ⟨f1, f2⟩ := feeds_good ins hgood
  have fin : ∀ {j : Meta U}, Spec.InTree n' (.mk l0 w0 j
      ((feeds c ins).1.map fun e => if e.2 then disableOutput c.params.bits e.1 else e.1)) →
      n'.name = l0.name ∨ OffI n'.info := by
    intro j hn
    cases hn with
    | root => exact Or.inl rfl
    | child hc hx =>
      obtain ⟨e, hem, rfl⟩ := List.mem_map.1 hc
      obtain ⟨⟨n, hn, -, h2⟩, ho⟩ := f2 e hem
      right
      have hl : (if e.2 then disableOutput c.params.bits e.1 else e.1).inputs = [] := by
        split
        · rw [(disable_same _ _).2, h2]; exact hleaf n hn
        · rw [h2]; exact hleaf n hn
      rw [inTree_of_leaf hl hx]
      exact ho
  have hfe : ∀ x, (.mk l0 w0 i0 ins : Node V (Meta U)).inputs = x → x = ins := fun x h => h.symm
  rw [replaceConcat] at hn'
  generalize (.mk l0 w0 i0 ins : Node V (Meta U)).inputs = ins' at hn' hfe
  rw [hfe ins' rfl] at hn'
  rw [if_pos f1] at hn'
  dsimp only at hn'
  split at hn'
  · exact fin hn'
  · exact fin hn'

end

end Aux
end Verif.Props
