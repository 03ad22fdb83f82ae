import Verif.Props.OnlyFusedGraph

/-
C115, part 2: what a transform takes the quantizer of the output from.
-/
set_option linter.unusedSectionVars false
set_option linter.unusedSimpArgs false

namespace Verif.Props
open Verif.Quant.Regex Verif.Quant.Transformer Verif.Quant.Transforms8Bit Verif.Quant.Apply

variable {V U M Val : Type}

namespace Spec

/-- A layer that TFLite fuses with the layer in front of it: a batch normalization (the pattern of the code also takes
class names that begin with `BatchNormalization`), a ReLU, a concatenation, an `Activation('relu')`, or a `Lambda` named
like the ones put in after a separable convolution.  (`$` in a Python pattern lets a newline pass.) -/
def Absorbs (l : Layer) : Prop :=
  "BatchNormalization".toList <+: l.cls.toList ∨
  l.cls = "SyncBatchNormalization" ∨ l.cls = "ReLU" ∨ l.cls = "Concatenate" ∨
  (l.cls = "Activation" ∧ (l.config.lookup "activation" = some "relu" ∨ l.config.lookup "activation" = some "relu\n")) ∨
  (l.cls = "Lambda" ∧ "sepconv1d_squeeze".toList <+: l.name.toList)

end Spec

namespace Aux

/-- The part of it that does not depend on the configuration. -/
def AbsorbP (name cls : String) : Prop :=
  "BatchNormalization".toList <+: cls.toList ∨
  cls = "SyncBatchNormalization" ∨ cls = "ReLU" ∨ cls = "Concatenate" ∨ cls = "Activation" ∨
  (cls = "Lambda" ∧ "sepconv1d_squeeze".toList <+: name.toList)

theorem absorbs_P {l : Layer} (h : Spec.Absorbs l) : AbsorbP l.name l.cls := by
  rcases h with h | h | h | h | ⟨h, -⟩ | h
  · exact Or.inl h
  · exact Or.inr (Or.inl h)
  · exact Or.inr (Or.inr (Or.inl h))
  · exact Or.inr (Or.inr (Or.inr (Or.inl h)))
  · exact Or.inr (Or.inr (Or.inr (Or.inr (Or.inl h))))
  · exact Or.inr (Or.inr (Or.inr (Or.inr (Or.inr h))))

theorem P_absorbs {l : Layer} (h : AbsorbP l.name l.cls) (ha : l.cls = "Activation" → Spec.Absorbs l) :
    Spec.Absorbs l := by
  rcases h with h | h | h | h | h | h
  · exact Or.inl h
  · exact Or.inr (Or.inl h)
  · exact Or.inr (Or.inr (Or.inl h))
  · exact Or.inr (Or.inr (Or.inr (Or.inl h)))
  · exact ha h
  · exact Or.inr (Or.inr (Or.inr (Or.inr (Or.inr h))))

theorem absorb_squeeze {name : String} (h : matchPattern name squeezeName = true ∨ name = squeezeName) :
    "sepconv1d_squeeze".toList <+: name.toList := by
  rcases h with h | rfl
  · rw [matchPattern, reMatch] at h
    have e : branches ('^' :: squeezeName.toList ++ ['$']) = ['^' :: squeezeName.toList ++ ['$']] := by decide +kernel
    have e2 : parseBranch ('^' :: squeezeName.toList ++ ['$'])
        = some (.bol :: ("sepconv1d_squeeze".toList.map Atom.lit ++ [.starAny, .eol])) := by decide +kernel
    rw [e] at h
    simp only [List.any_cons, List.any_nil, Bool.or_false, e2, Option.map_some, Option.getD_some] at h
    rw [matchBranch, Bool.true_and] at h
    obtain ⟨t, ht, -⟩ := (match_lits _ _ _ _ (by intro t; cases t <;> rfl)).1 h
    exact ⟨t, ht.symm⟩
  · decide +kernel

section
variable {g : Graph V (Meta U)}

theorem bn_absorbs {l : Layer} {cfg} (hnl : '\n' ∉ l.cls.toList) (h : matchLayer g l bnClass cfg = true) :
    Spec.Absorbs l := by
  have h1 := (matchLayer_parts h).1
  have := (C56_alternation ["BatchNormalization"] "SyncBatchNormalization" l.cls (by decide +kernel) (by decide +kernel)).1
    (by rw [show Spec.alternation (["BatchNormalization"] ++ ["SyncBatchNormalization"]) = bnClass by decide +kernel]; exact h1)
  rcases this with ⟨a, ha, hp⟩ | h2 | h2
  · simp only [List.mem_singleton] at ha
    subst ha
    exact Or.inl hp
  · exact Or.inr (Or.inl h2)
  · rw [h2] at hnl; simp at hnl

theorem relu_absorbs {l : Layer} {cfg} (hnl : '\n' ∉ l.cls.toList) (h : matchLayer g l "ReLU" cfg = true) :
    Spec.Absorbs l :=
  Or.inr (Or.inr (Or.inl ((C56_single _ _ (by decide +kernel) hnl).1 (matchLayer_parts h).1)))

theorem concat_absorbs {l : Layer} {cfg} (hnl : '\n' ∉ l.cls.toList) (h : matchLayer g l "Concatenate" cfg = true) :
    Spec.Absorbs l :=
  Or.inr (Or.inr (Or.inr (Or.inl ((C56_single _ _ (by decide +kernel) hnl).1 (matchLayer_parts h).1))))

theorem get_some {l : Layer} {v : String} (h : l.get "activation" = v) (hv : v ≠ "None") :
    l.config.lookup "activation" = some v := by
  rw [Layer.get, if_neg (by decide)] at h
  cases hl : l.config.lookup "activation" with
  | none => rw [hl] at h; exact absurd h.symm hv
  | some w => rw [hl] at h; exact congrArg some h

theorem act_absorbs {l : Layer} (hnl : '\n' ∉ l.cls.toList)
    (h : matchLayer g l "Activation" [("activation", "relu")] = true) : Spec.Absorbs l := by
  obtain ⟨h1, h2⟩ := matchLayer_parts h
  refine Or.inr (Or.inr (Or.inr (Or.inr (Or.inl ⟨(C56_single _ _ (by decide +kernel) hnl).1 h1, ?_⟩))))
  have h3 := h2 _ (List.mem_singleton_self _)
  dsimp only at h3
  have h4 : l.get "activation" = "relu" ∨ l.get "activation" = "relu\n" := by
    rcases h3 with h3 | h3
    · have := (C56_alternation [] "relu" (l.get "activation") (by simp) (by decide +kernel)).1 (by
        rw [show Spec.alternation ([] ++ ["relu"]) = "relu" by decide +kernel]; exact h3)
      rcases this with ⟨a, ha, -⟩ | h5 | h5
      · simp at ha
      · exact Or.inl h5
      · exact Or.inr (by rw [h5]; decide +kernel)
    · exact Or.inl h3
  rcases h4 with h4 | h4
  · exact Or.inl (get_some h4 (by decide))
  · exact Or.inr (get_some h4 (by decide))

theorem lambda_absorbs {l : Layer} (hnl : '\n' ∉ l.cls.toList)
    (h : matchLayer g l "Lambda" [("name", squeezeName)] = true) : Spec.Absorbs l := by
  obtain ⟨h1, h2⟩ := matchLayer_parts h
  refine Or.inr (Or.inr (Or.inr (Or.inr (Or.inr ⟨(C56_single _ _ (by decide +kernel) hnl).1 h1, ?_⟩))))
  have h3 := h2 _ (List.mem_singleton_self _)
  dsimp only at h3
  have e : l.get "name" = l.name := rfl
  rw [e] at h3
  exact absorb_squeeze h3

/-- The config of the node does not quantize the output. -/
def OffI (i : Meta U) : Prop := ∃ q, i.get = some q ∧ (q.kind = .noOp ∨ q.outputOff = true)

/-- The output of the node is not quantized. -/
def OffN (n : Node V (Meta U)) : Prop := n.layer.get "activation" = noOpActivation ∨ OffI n.info

/-- In the step from `m` to `r`, outputs are left unquantized only in front of layers that absorb them. -/
def OffStep (m r : Node V (Meta U)) : Prop :=
  ∀ n', Spec.InTree n' r → ∃ n, Spec.InTree n m ∧ n.name = n'.name ∧
    (OffN n' → OffN n ∨ ∃ b, Spec.InTree b m ∧ n ∈ b.inputs ∧ Spec.Absorbs b.layer)

theorem offStep_refl (m : Node V (Meta U)) : OffStep m m := fun n hn => ⟨n, hn, rfl, Or.inl⟩

theorem not_off_set (i : Meta U) {k : Kind U} (hk : k ≠ .noOp) : ¬ OffI (i.set k) := by
  rintro ⟨q, hq, h⟩
  simp only [Meta.set, Meta.get, Option.getD_some, Option.some.injEq] at hq
  subst hq
  rcases h with h | h
  · exact hk h
  · simp at h

theorem chain_match {cls cfg p} {l : Layer} {hd} {m : Node V (Meta U)} (hm : matchTree g (.mk cls cfg [p]) l hd = some m) :
    ∃ l0 w i x, m = .mk l0 w i [x] ∧ matchLayer g l0 cls cfg = true ∧ matchTree g p x.layer false = some x := by
  obtain ⟨x, is, h1, h2, h3⟩ := match_input hm
  have h4 := match_head hm
  obtain ⟨l0, w, i, ins⟩ := m
  dsimp only [Node.inputs] at h1
  rw [h3 rfl] at h1
  subst h1
  exact ⟨l0, w, i, x, rfl, h4, h2⟩

theorem end_match {cls cfg} {l : Layer} {hd} {m : Node V (Meta U)} (hm : matchTree g (.mk cls cfg []) l hd = some m) :
    ∃ l0 w i, m = .mk l0 w i [] ∧ matchLayer g l0 cls cfg = true := by
  have h4 := match_head hm
  obtain ⟨-, -, ⟨-, rfl⟩ | ⟨h0, -⟩⟩ := matchTree_split hm
  · exact ⟨_, _, _, rfl, h4⟩
  · exact absurd rfl h0

variable {l0 l1 l2 l3 : Layer} {w0 w1 w2 w3 : List (String × V)} {i0 i1 i2 i3 : Meta U} {b : Bits}

theorem off_bn (h : Spec.Absorbs l0) :
    OffStep (.mk l0 w0 i0 [.mk l1 w1 i1 []]) (replaceBN b (.mk l0 w0 i0 [.mk l1 w1 i1 []])) := by
  rw [replaceBN]
  split
  · exact offStep_refl _
  · intro n' hn'
    rcases inTree_chain hn' with rfl | hn'
    · exact ⟨_, .root _, rfl, fun ho => Or.inl (ho.elim Or.inl fun ho => absurd ho (not_off_set _ (by simp)))⟩
    · rw [inTree_leaf hn']
      exact ⟨.mk l1 w1 i1 [], .child (List.mem_singleton_self _) (.root _), rfl,
        fun _ => Or.inr ⟨_, .root _, by simp [Node.inputs], h⟩⟩

theorem off_reshapeBN (h : Spec.Absorbs l1) :
    OffStep (.mk l0 w0 i0 [.mk l1 w1 i1 [.mk l2 w2 i2 []]])
      (replaceReshapeBN b (.mk l0 w0 i0 [.mk l1 w1 i1 [.mk l2 w2 i2 []]])) := by
  rw [replaceReshapeBN]
  split
  · exact offStep_refl _
  · intro n' hn'
    rcases inTree_chain hn' with rfl | hn'
    · exact ⟨_, .root _, rfl, fun ho => Or.inl (ho.elim Or.inl fun ho => absurd ho (not_off_set _ (by simp)))⟩
    rcases inTree_chain hn' with rfl | hn'
    · exact ⟨.mk l1 w1 i1 [.mk l2 w2 i2 []], .child (List.mem_singleton_self _) (.root _), rfl, Or.inl⟩
    · rw [inTree_leaf hn']
      exact ⟨.mk l2 w2 i2 [], .child (List.mem_singleton_self _) (.child (List.mem_singleton_self _) (.root _)), rfl,
        fun _ => Or.inr ⟨.mk l1 w1 i1 [.mk l2 w2 i2 []], .child (List.mem_singleton_self _) (.root _), by simp [Node.inputs], h⟩⟩

theorem off_bnRelu (h : Spec.Absorbs l0) (h1 : Spec.Absorbs l1) :
    OffStep (.mk l0 w0 i0 [.mk l1 w1 i1 [.mk l2 w2 i2 []]])
      (replaceBNReLU (.mk l0 w0 i0 [.mk l1 w1 i1 [.mk l2 w2 i2 []]])) := by
  rw [replaceBNReLU]
  split
  · exact offStep_refl _
  · intro n' hn'
    rcases inTree_chain hn' with rfl | hn'
    · exact ⟨_, .root _, rfl, Or.inl⟩
    rcases inTree_chain hn' with rfl | hn'
    · exact ⟨.mk l1 w1 i1 [.mk l2 w2 i2 []], .child (List.mem_singleton_self _) (.root _), rfl,
        fun _ => Or.inr ⟨_, .root _, by simp [Node.inputs], h⟩⟩
    · rw [inTree_leaf hn']
      exact ⟨.mk l2 w2 i2 [], .child (List.mem_singleton_self _) (.child (List.mem_singleton_self _) (.root _)), rfl,
        fun _ => Or.inr ⟨.mk l1 w1 i1 [.mk l2 w2 i2 []], .child (List.mem_singleton_self _) (.root _), by simp [Node.inputs], h1⟩⟩

theorem off_reshapeBNRelu (h : Spec.Absorbs l0) (h1 : Spec.Absorbs l2) :
    OffStep (.mk l0 w0 i0 [.mk l1 w1 i1 [.mk l2 w2 i2 [.mk l3 w3 i3 []]]])
      (replaceReshapeBNReLU (.mk l0 w0 i0 [.mk l1 w1 i1 [.mk l2 w2 i2 [.mk l3 w3 i3 []]]])) := by
  rw [replaceReshapeBNReLU]
  split
  · exact offStep_refl _
  · intro n' hn'
    rcases inTree_chain hn' with rfl | hn'
    · exact ⟨_, .root _, rfl, Or.inl⟩
    rcases inTree_chain hn' with rfl | hn'
    · exact ⟨.mk l1 w1 i1 [.mk l2 w2 i2 [.mk l3 w3 i3 []]], .child (List.mem_singleton_self _) (.root _), rfl,
        fun _ => Or.inr ⟨_, .root _, by simp [Node.inputs], h⟩⟩
    rcases inTree_chain hn' with rfl | hn'
    · exact ⟨.mk l2 w2 i2 [.mk l3 w3 i3 []], .child (List.mem_singleton_self _) (.child (List.mem_singleton_self _) (.root _)), rfl, Or.inl⟩
    · rw [inTree_leaf hn']
      exact ⟨.mk l3 w3 i3 [], .child (List.mem_singleton_self _) (.child (List.mem_singleton_self _) (.child (List.mem_singleton_self _) (.root _))), rfl,
        fun _ => Or.inr ⟨.mk l2 w2 i2 [.mk l3 w3 i3 []], .child (List.mem_singleton_self _) (.child (List.mem_singleton_self _) (.root _)),
          by simp [Node.inputs], h1⟩⟩

theorem off_layerRelu (h : Spec.Absorbs l0) :
    OffStep (.mk l0 w0 i0 [.mk l1 w1 i1 []]) (replaceLayerReLU (.mk l0 w0 i0 [.mk l1 w1 i1 []])) := by
  intro n' hn'
  rw [replaceLayerReLU] at hn'
  rcases inTree_chain hn' with rfl | hn'
  · exact ⟨_, .root _, rfl, Or.inl⟩
  · rw [inTree_leaf hn']
    exact ⟨.mk l1 w1 i1 [], .child (List.mem_singleton_self _) (.root _), rfl,
      fun _ => Or.inr ⟨_, .root _, by simp [Node.inputs], h⟩⟩

theorem feeds_names (c : Classes) : ∀ ns : List (Node V (Meta U)), ∀ e ∈ (feeds c ns).1,
    ∃ n ∈ ns, n.name = e.1.name ∧ e.1.inputs = n.inputs
  | [], e, he => by simp [feeds] at he
  | n :: ns, e, he => by
    rw [feeds] at he
    cases hf : feed c n with
    | none =>
      rw [hf] at he
      obtain ⟨x, hx, rfl⟩ := List.mem_map.1 he
      exact ⟨x, hx, rfl, rfl⟩
    | some e0 =>
      rw [hf] at he
      obtain ⟨s1, s2⟩ := feed_same c hf
      rcases List.mem_cons.1 he with rfl | he
      · exact ⟨n, by simp, by rw [Node.name, Node.name, s1], s2⟩
      · obtain ⟨x, hx, h⟩ := feeds_names c ns e he
        exact ⟨x, by simp [hx], h⟩

theorem off_concat (c : Classes) {ins : List (Node V (Meta U))} (h : Spec.Absorbs l0) (hleaf : ∀ n ∈ ins, n.inputs = []) :
    OffStep (.mk l0 w0 i0 ins) (replaceConcat c (.mk l0 w0 i0 ins)) := by
  have name_dis : ∀ x : Node V (Meta U), (disableOutput c.params.bits x).name = x.name ∧
      (disableOutput c.params.bits x).inputs = x.inputs := by
    intro x; cases x; exact ⟨rfl, rfl⟩
  have leaf : ∀ {n x : Node V (Meta U)}, x.inputs = [] → Spec.InTree n x → n = x := by
    intro n x hx hn
    obtain ⟨lx, wx, ix, xs⟩ := x
    dsimp only [Node.inputs] at hx
    subst hx
    exact inTree_leaf hn
  have fin : ∀ {j : Meta U} {f : Node V (Meta U) × Bool → Node V (Meta U)} {n' : Node V (Meta U)},
      (∀ e, (f e).name = e.1.name ∧ (f e).inputs = e.1.inputs) → (OffI j → OffI i0) →
      Spec.InTree n' (.mk l0 w0 j ((feeds c ins).1.map f)) →
      ∃ n, Spec.InTree n (.mk l0 w0 i0 ins) ∧ n.name = n'.name ∧
        (OffN n' → OffN n ∨ ∃ b, Spec.InTree b (.mk l0 w0 i0 ins) ∧ n ∈ b.inputs ∧ Spec.Absorbs b.layer) := by
    intro j f n' hf hj hn
    cases hn with
    | root => exact ⟨_, .root _, rfl, fun ho => Or.inl (ho.imp_right hj)⟩
    | child hc hx =>
      obtain ⟨e, hem, rfl⟩ := List.mem_map.1 hc
      obtain ⟨n, hn, h1, h2⟩ := feeds_names c ins e hem
      rw [leaf ((hf e).2.trans (h2.trans (hleaf n hn))) hx]
      exact ⟨n, .child hn (.root _), h1.trans (hf e).1.symm, fun _ => Or.inr ⟨_, .root _, hn, h⟩⟩
  intro n' hn'
  have hfe : ∀ x, (.mk l0 w0 i0 ins : Node V (Meta U)).inputs = x → x = ins := fun x h => h.symm
  rw [replaceConcat] at hn'
  generalize (.mk l0 w0 i0 ins : Node V (Meta U)).inputs = ins' at hn' hfe
  rw [hfe ins' rfl] at hn'
  clear hfe
  have hdis : ∀ e : Node V (Meta U) × Bool,
      (if e.2 then disableOutput c.params.bits e.1 else e.1).name = e.1.name ∧
      (if e.2 then disableOutput c.params.bits e.1 else e.1).inputs = e.1.inputs := by
    intro e
    split
    · exact name_dis e.1
    · exact ⟨rfl, rfl⟩
  split at hn'
  · dsimp only at hn'
    split at hn'
    · exact fin hdis id hn'
    · exact fin hdis (fun ho => absurd ho (not_off_set _ (by simp))) hn'
  · exact fin (fun e => ⟨rfl, rfl⟩) id hn'

/-- Every transform that makes up no layers. -/
theorem off_transform (auto : String → ℕ → String) (c : Classes) (expand : V → V) (str1 str2 : String → String) :
    ∀ t ∈ transforms (U := U) auto c expand str1 str2,
    t.name ∉ ["InputLayerQuantize", "SeparableConv1DQuantize", "SeparableConvQuantize"] →
    ∀ (l : Layer) hd m k r k', matchTree g t.pattern l hd = some m → (∀ n, Spec.InTree n m → '\n' ∉ n.layer.cls.toList) →
    t.replacement k m = .ok (r, k') → OffStep m r := by
  have bn : ∀ {cls cfg} {l : Layer} {hd m}, matchTree g (.mk bnClass [] [.mk cls cfg []]) l hd = some m →
      (∀ n, Spec.InTree n m → '\n' ∉ n.layer.cls.toList) → OffStep m (replaceBN c.params.bits m) := by
    intro cls cfg l hd m hm hnl
    obtain ⟨l0, w0, i0, x, rfl, h0, h1⟩ := chain_match hm
    obtain ⟨l1, w1, i1, rfl, -⟩ := end_match h1
    exact off_bn (bn_absorbs (hnl _ (.root _)) h0)
  have head : ∀ {cls cfg} {l : Layer}, (cls = "ReLU" ∧ cfg = []) ∨ (cls = "Activation" ∧ cfg = [("activation", "relu")]) →
      '\n' ∉ l.cls.toList → matchLayer g l cls cfg = true → Spec.Absorbs l := by
    rintro cls cfg l (⟨rfl, rfl⟩ | ⟨rfl, rfl⟩) hnl h
    · exact relu_absorbs hnl h
    · exact act_absorbs hnl h
  have bnRelu : ∀ {cls0 cfg0 cls cfg} {l : Layer} {hd m},
      (cls0 = "ReLU" ∧ cfg0 = []) ∨ (cls0 = "Activation" ∧ cfg0 = [("activation", "relu")]) →
      matchTree g (.mk cls0 cfg0 [.mk bnClass [] [.mk cls cfg []]]) l hd = some m →
      (∀ n, Spec.InTree n m → '\n' ∉ n.layer.cls.toList) → OffStep m (replaceBNReLU m) := by
    intro cls0 cfg0 cls cfg l hd m hc hm hnl
    obtain ⟨l0, w0, i0, x, rfl, h0, h1⟩ := chain_match hm
    obtain ⟨l1, w1, i1, x, rfl, q1, h2⟩ := chain_match h1
    obtain ⟨l2, w2, i2, rfl, -⟩ := end_match h2
    exact off_bnRelu (head hc (hnl _ (.root _)) h0)
      (bn_absorbs (hnl (.mk l1 w1 i1 [.mk l2 w2 i2 []]) (.child (List.mem_singleton_self _) (.root _))) q1)
  have reshape : ∀ {l : Layer} {hd m}, matchTree g convReshapeBNPattern l hd = some m →
      (∀ n, Spec.InTree n m → '\n' ∉ n.layer.cls.toList) → OffStep m (replaceReshapeBN c.params.bits m) := by
    intro l hd m hm hnl
    obtain ⟨l0, w0, i0, x, rfl, h0, h1⟩ := chain_match hm
    obtain ⟨l1, w1, i1, x, rfl, q1, h2⟩ := chain_match h1
    obtain ⟨l2, w2, i2, rfl, -⟩ := end_match h2
    exact off_reshapeBN
      (lambda_absorbs (hnl (.mk l1 w1 i1 [.mk l2 w2 i2 []]) (.child (List.mem_singleton_self _) (.root _))) q1)
  have reshapeRelu : ∀ {cls0 cfg0} {l : Layer} {hd m},
      (cls0 = "ReLU" ∧ cfg0 = []) ∨ (cls0 = "Activation" ∧ cfg0 = [("activation", "relu")]) →
      matchTree g (.mk cls0 cfg0 [convReshapeBNPattern]) l hd = some m →
      (∀ n, Spec.InTree n m → '\n' ∉ n.layer.cls.toList) → OffStep m (replaceReshapeBNReLU m) := by
    intro cls0 cfg0 l hd m hc hm hnl
    obtain ⟨l0, w0, i0, x, rfl, h0, h1⟩ := chain_match hm
    obtain ⟨l1, w1, i1, x, rfl, q1, h2⟩ := chain_match h1
    obtain ⟨l2, w2, i2, x, rfl, q2, h3⟩ := chain_match h2
    obtain ⟨l3, w3, i3, rfl, -⟩ := end_match h3
    exact off_reshapeBNRelu (head hc (hnl _ (.root _)) h0)
      (lambda_absorbs (hnl (.mk l2 w2 i2 [.mk l3 w3 i3 []]) (.child (List.mem_singleton_self _)
        (.child (List.mem_singleton_self _) (.root _)))) q2)
  have relu : ∀ {cls0 cfg0} {l : Layer} {hd m},
      (cls0 = "ReLU" ∧ cfg0 = []) ∨ (cls0 = "Activation" ∧ cfg0 = [("activation", "relu")]) →
      matchTree g (.mk cls0 cfg0 [producer]) l hd = some m →
      (∀ n, Spec.InTree n m → '\n' ∉ n.layer.cls.toList) → OffStep m (replaceLayerReLU m) := by
    intro cls0 cfg0 l hd m hc hm hnl
    obtain ⟨l0, w0, i0, x, rfl, h0, h1⟩ := chain_match hm
    obtain ⟨l1, w1, i1, rfl, -⟩ := end_match h1
    exact off_layerRelu (head hc (hnl _ (.root _)) h0)
  have concat : ∀ {n : ℕ} {l : Layer} {hd m}, matchTree g (concatPattern n) l hd = some m →
      (∀ n, Spec.InTree n m → '\n' ∉ n.layer.cls.toList) → OffStep m (replaceConcat c m) := by
    intro n l hd m hm hnl
    have h0 := match_head hm
    rw [concatPattern] at hm
    have hleaf : ∀ q ∈ List.replicate n (Pattern.mk ".*" [] []), ∃ cls cfg, q = Pattern.mk cls cfg [] := by
      intro q hq
      rw [List.eq_of_mem_replicate hq]
      exact ⟨_, _, rfl⟩
    have hins : ∀ x ∈ m.inputs, x.inputs = [] := by
      obtain ⟨-, -, ⟨-, h⟩ | ⟨-, ns, hns, h⟩⟩ := matchTree_split hm
      · rw [h]; simp [nodeOf, Node.inputs]
      · have h5 := congrArg Node.inputs h
        rw [h5, show (nodeOf g l ns).inputs = ns from rfl, leaf_trees _ _ ns hleaf hns]
        intro x hx
        obtain ⟨z, -, rfl⟩ := List.mem_map.1 hx
        rfl
    obtain ⟨l0, w0, i0, ins⟩ := m
    exact off_concat c (concat_absorbs (hnl _ (.root _)) h0) hins
  intro t ht hn l hd m k r k' hm hnl hr
  rw [mem_transforms] at ht
  simp only [listed, pureTransform, List.mem_cons, List.not_mem_nil, or_false] at ht
  rcases ht with rfl | rfl | rfl | rfl | rfl | rfl | rfl | rfl | rfl | rfl | rfl | rfl | rfl | rfl |
    rfl | rfl | rfl | rfl | rfl
  · simp at hn
  · simp at hn
  · simp at hn
  all_goals
    dsimp only at hm hr
    simp only [Except.ok.injEq, Prod.mk.injEq] at hr
    rw [← hr.1]
  · exact reshapeRelu (Or.inl ⟨rfl, rfl⟩) hm hnl
  · exact reshapeRelu (Or.inr ⟨rfl, rfl⟩) hm hnl
  · exact bnRelu (Or.inl ⟨rfl, rfl⟩) hm hnl
  · exact bnRelu (Or.inr ⟨rfl, rfl⟩) hm hnl
  · exact reshape hm hnl
  · exact bn hm hnl
  · exact concat hm hnl
  · exact concat hm hnl
  · exact concat hm hnl
  · exact concat hm hnl
  · exact concat hm hnl
  · exact bn hm hnl
  · exact bnRelu (Or.inl ⟨rfl, rfl⟩) hm hnl
  · exact bnRelu (Or.inr ⟨rfl, rfl⟩) hm hnl
  · exact relu (Or.inl ⟨rfl, rfl⟩) hm hnl
  · exact relu (Or.inr ⟨rfl, rfl⟩) hm hnl

end

end Aux
end Verif.Props
