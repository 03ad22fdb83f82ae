import Verif.Props.FusedPhases

set_option linter.unusedSectionVars false

namespace Verif.Props
open Verif.Quant.Regex Verif.Quant.Transformer Verif.Quant.Transforms8Bit Verif.Quant.Apply

variable {V U M : Type}

namespace Spec

/-- The classes of the layers in front of a batch normalization. -/
def fusedClasses : List String := ["Conv2D", "DepthwiseConv2D", "Dense"]

/-- The classes of batch normalizations. -/
def normClasses : List String := ["BatchNormalization", "SyncBatchNormalization"]

end Spec

namespace Aux

/-- Neither layer has a place in the pattern. -/
def cleanPat (clsA clsB : String) (lin : Bool) (p : Pattern) : Bool :=
  !matchPattern clsA (headClass p) && nowhere (patHit clsA clsB lin) p && nowhere (leafHit clsB) p

section
variable [Inhabited M] {g : Graph V M} {a b clsA clsB : String} {lin : Bool}

theorem head_not (h2 : Two g a b clsA clsB lin) {p : Pattern} {l : Layer} {hd} {m : Node V M} (hl : l ∈ g.layers)
    (hm : matchTree g p l hd = some m) (hc : matchPattern clsA (headClass p) = false) : l.name ≠ a := by
  intro hla
  obtain ⟨cls, cfg, ins⟩ := p
  have := (matchLayer_parts (matchTree_split hm).1).1
  rw [h2.clsA l hl hla] at this
  rw [show headClass (.mk cls cfg ins) = cls from rfl, this] at hc
  simp at hc

theorem clean_untouched (h2 : Two g a b clsA clsB lin) {p : Pattern} {l : Layer} {hd} {m : Node V M} (hl : l ∈ g.layers)
    (hm : matchTree g p l hd = some m) (hc : cleanPat clsA clsB lin p = true) :
    ∀ n, Spec.InTree n m → n.name ≠ a ∧ n.name ≠ b := by
  simp only [cleanPat, Bool.and_eq_true, Bool.not_eq_true'] at hc
  exact fun n hn => ⟨no_first h2 p l hd m hl (head_not h2 hl hm hc.1.1) hc.1.2 hm n hn,
    no_second h2 p l hd m hl hc.1.2 hc.2 hm n hn⟩

/-- The matches of patterns without inputs. -/
theorem leaf_trees : ∀ (ps : List Pattern) (ls : List Layer) (ns : List (Node V M)),
    (∀ q ∈ ps, ∃ cls cfg, q = .mk cls cfg []) → matchTrees g ps ls = some ns → ns = ls.map fun x => nodeOf g x []
  | [], [], ns => by
    intro _ h
    simp only [matchTrees, Option.some.injEq] at h
    exact h.symm
  | [], _ :: _, ns => by intro _ h; simp [matchTrees] at h
  | _ :: _, [], ns => by intro _ h; simp [matchTrees] at h
  | p :: ps, l :: ls, ns => by
    intro hq h
    rw [matchTrees] at h
    obtain ⟨n0, h0, h1⟩ := Option.bind_eq_some_iff.1 h
    obtain ⟨ns', h2', rfl⟩ := Option.map_eq_some_iff.1 h1
    obtain ⟨cls, cfg, rfl⟩ := hq p (by simp)
    obtain ⟨-, -, ⟨-, rfl⟩ | ⟨h, -⟩⟩ := matchTree_split h0
    · rw [leaf_trees ps ls ns' (fun q hq' => hq q (by simp [hq'])) h2', List.map_cons]
    · exact absurd rfl h

theorem flat_names (l : Layer) (ls : List Layer) :
    nodeNames (nodeOf g l (ls.map fun x => nodeOf g x [])) = l.name :: ls.map (·.name) := by
  have : ∀ ls : List Layer, (preorderList (ls.map fun x => nodeOf g x [])).map Node.name = ls.map (·.name) := by
    intro ls
    induction ls with
    | nil => rfl
    | cons x xs ih =>
      rw [List.map_cons, preorderList, List.map_append, ih]
      rfl
  rw [nodeNames, nodeOf, preorder, List.map_cons, this]
  rfl

theorem link_count {g : Graph V M} {a b : String} (h : Link g a b) : (g.layers.map (·.name)).count b = 1 := by
  rcases h with h | h
  · exact h.countB
  · obtain ⟨p, q, he⟩ := h.adjacent
    exact List.count_eq_one_of_mem h.unique (by rw [he]; simp)

/-- The layers of a concatenation are matched once each. -/
theorem concat_counts (h2 : Two g a b clsA clsB lin) (hlink : Link g a b) {cls cfg ins} {l : Layer} {hd} {m : Node V M}
    (hl : l ∈ g.layers) (hm : matchTree g (.mk cls cfg ins) l hd = some m)
    (hleaf : ∀ q ∈ ins, ∃ cls cfg, q = .mk cls cfg []) (hc : matchPattern clsA cls = false)
    (hcb : matchPattern clsB cls = false) :
    (∀ n, Spec.InTree n m → n.name ≠ a) ∧ (nodeNames m).count b ≤ 1 := by
  have hla := head_not h2 hl hm hc
  have hlb : l.name ≠ b := by
    intro h
    have := (matchLayer_parts (matchTree_split hm).1).1
    rw [h2.clsB l hl h, hcb] at this
    simp at this
  obtain ⟨-, -, ⟨-, rfl⟩ | ⟨-, ns, hns, rfl⟩⟩ := matchTree_split hm
  · refine ⟨?_, ?_⟩
    · intro n hn
      cases hn with
      | root => exact hla
      | child hc _ => simp at hc
    · have := flat_names (g := g) l []
      rw [List.map_nil, List.map_nil] at this
      rw [this, List.count_cons_of_ne hlb]; simp
  · rw [leaf_trees ins _ ns hleaf hns]
    refine ⟨?_, ?_⟩
    · intro n hn
      have : n.name ∈ nodeNames (nodeOf g l ((getLayers g (inputLayerNames g l)).map fun x => nodeOf g x [])) :=
        (mem_nodeNames _ _).2 ⟨n, hn, rfl⟩
      rw [flat_names] at this
      rcases List.mem_cons.1 this with h | h
      · rw [h]; exact hla
      · obtain ⟨x, hx, he⟩ := List.mem_map.1 h
        rw [← he]
        exact fun hxa => hlb (h2.feeds.only l hl x hx hxa)
    · rw [flat_names, List.count_cons_of_ne hlb, ← link_count hlink]
      exact List.Sublist.count_le _ ((List.filter_sublist (l := g.layers)).map _)

end

/-- After the first layer got its no-op activation, no pattern has a place for it, and only the concatenations
have one for the second layer. -/
theorem after_table (auto : String → ℕ → String) (c : Classes) (expand : V → V) (str1 str2 : String → String) :
    ∀ t ∈ transforms (U := U) auto c expand str1 str2, ∀ clsA ∈ Spec.fusedClasses, ∀ clsB ∈ Spec.normClasses,
      cleanPat clsA clsB false t.pattern = true ∨
      (t.name ∉ ["InputLayerQuantize", "SeparableConv1DQuantize", "SeparableConvQuantize"] ∧
        ∃ ins, t.pattern = .mk "Concatenate" [] ins ∧ ∀ q ∈ ins, ∃ cls cfg, q = .mk cls cfg []) := by
  intro t ht
  rw [mem_transforms] at ht
  simp only [listed, pureTransform, List.mem_cons, List.not_mem_nil, or_false] at ht
  have hconcat : ∀ k, ∀ q ∈ List.replicate k (Pattern.mk ".*" [] []), ∃ cls cfg, q = Pattern.mk cls cfg [] := by
    intro k q hq
    rw [List.eq_of_mem_replicate hq]
    exact ⟨_, _, rfl⟩
  suffices h : (∀ clsA ∈ Spec.fusedClasses, ∀ clsB ∈ Spec.normClasses, cleanPat clsA clsB false t.pattern = true) ∨
      (t.name ∉ ["InputLayerQuantize", "SeparableConv1DQuantize", "SeparableConvQuantize"] ∧
        ∃ ins, t.pattern = .mk "Concatenate" [] ins ∧ ∀ q ∈ ins, ∃ cls cfg, q = .mk cls cfg []) from
    fun clsA hA clsB hB => h.imp (fun h => h clsA hA clsB hB) id
  rcases ht with rfl | rfl | rfl | rfl | rfl | rfl | rfl | rfl | rfl | rfl | rfl | rfl | rfl | rfl |
    rfl | rfl | rfl | rfl | rfl
  all_goals
    first
      | exact Or.inr ⟨by simp, _, rfl, hconcat _⟩
      | (left; dsimp only; decide +kernel)

theorem concat_classes : ∀ clsA ∈ Spec.fusedClasses, ∀ clsB ∈ Spec.normClasses,
    matchPattern clsA "Concatenate" = false ∧ matchPattern clsB "Concatenate" = false := by decide +kernel

section Phases
variable [DecidableEq U] [DecidableEq V] {c : Classes} {am : AModel V U}
  (hnd : (am.layers.map fun a => a.layer.name).Nodup)
  {auto : String → ℕ → String} {expand : V → V} {str1 str2 : String → String}
  {A B : ALayer U} (hA : A ∈ am.layers) (hB : B ∈ am.layers)
  (hcA : A.layer.cls ∈ Spec.fusedClasses) (hcB : B.layer.cls ∈ Spec.normClasses)
  (hfresh : Spec.FreshNames auto (am.layers.map fun a => a.layer.name))
include hnd hA hB hcA hcB hfresh

/-- After the fusion nothing changes any more. -/
theorem after_step {noop : Prop} {g g' : Graph V (Meta U)} {t : Transform V (Meta U)} {m r : Node V (Meta U)} {k k' : ℕ}
    {matched : List String} (hok : ApplyInv c am g) (hbase : Base auto am A.layer.name B.layer.name g k)
    (hafter : FusedAfter A.layer.name B.layer.name noop g)
    (hs : ReplaceStep c am auto expand str1 str2 g t m r k k' g')
    (hfind : findPattern g t.pattern matched = some m) (hg : replace g m r = .ok g') :
    Base auto am A.layer.name B.layer.name g' k' ∧ FusedAfter A.layer.name B.layer.name noop g' := by
  have hna : A.layer.name ∈ am.layers.map fun a => a.layer.name := List.mem_map_of_mem hA
  have hnb : B.layer.name ∈ am.layers.map fun a => a.layer.name := List.mem_map_of_mem hB
  obtain ⟨hml, -, hmt⟩ := findPattern_some hfind
  have h2 := two_of (lin := false) hnd hA hB hok hbase.link (fun _ => hafter.act)
  have key : (∀ n, Spec.InTree n m → n.name ≠ A.layer.name) ∧
      Base auto am A.layer.name B.layer.name g' k' := by
    rcases after_table auto c expand str1 str2 t hs.mem _ hcA _ hcB with hc | ⟨hn, ins, hp, hleaf⟩
    · have := clean_untouched h2 hml hmt hc
      exact ⟨fun n hn => (this n hn).1, base_other hfresh hok hbase hs hfind hg hna hnb this⟩
    · rw [hp] at hmt
      obtain ⟨c1, c2⟩ := concat_classes _ hcA _ hcB
      obtain ⟨h3, h4⟩ := concat_counts h2 hbase.link hml hmt hleaf c1 c2
      refine ⟨h3, base_same hfresh hok hbase hs hfind hg hn ?_ h4⟩
      rw [List.count_eq_zero_of_not_mem]
      · exact Nat.zero_le _
      · intro h
        obtain ⟨n, hn, he⟩ := (mem_nodeNames _ _).1 h
        exact h3 n hn he
  obtain ⟨k1, k2⟩ := keep_other hs.effect hs.step hna key.1
  refine ⟨key.2, ?_, ?_, ?_⟩
  · intro l' hl' he
    obtain ⟨l, hl, hsame⟩ := k1 l' hl' he
    rw [get_same hsame]
    exact hafter.act l hl (hsame.1.symm.trans he)
  · rw [configOf, k2]; exact hafter.metaA
  · intro h
    obtain ⟨q, hq, hk⟩ := hafter.metaB h
    exact keep_noOp hs.effect hs.step hnb (fun n hn => (hs.nodes n hn).2.2) hq hk

end Phases

/-! ### The fusing step -/

/-- The replacement fuses the two layers. -/
structure Fuses (a b : String) (noop : Prop) (m r : Node V (Meta U)) : Prop where
  nodup : (nodeNames m).Nodup
  memA : a ∈ nodeNames m
  keptA : ∃ n, Spec.InTree n r ∧ n.name = a
  setA : ∀ n, Spec.InTree n r → n.name = a → n.layer.get "activation" = noOpActivation ∧ n.info.get = none
  memB : ∃ n, Spec.InTree n r ∧ n.name = b
  setB : noop → ∀ n, Spec.InTree n r → n.name = b → ∃ q, n.info.get = some q ∧ q.kind = .noOp

theorem fuses_after {a b : String} {noop : Prop} {g g' : Graph V (Meta U)} {m r : Node V (Meta U)}
    (heff : Effect g m r g') (h : Fuses a b noop m r) : FusedAfter a b noop g' := by
  refine ⟨?_, ?_, ?_⟩
  · intro l' hl' he
    rcases heff.only l' hl' with ⟨l, -, hm, hs⟩ | ⟨n, hn, hs⟩
    · exact absurd (by rw [← hs.1, he]; exact h.memA) hm
    · rw [get_same hs]
      exact (h.setA n hn (hs.1.symm.trans he)).1
  · rcases heff.info a with ⟨n, hn, he, -, hi⟩ | ⟨-, hi⟩
    · rw [configOf, hi]
      exact (h.setA n hn he).2
    · rw [configOf, hi, if_pos h.memA]; rfl
  · intro hno
    rcases heff.info b with ⟨n, hn, he, -, hi⟩ | ⟨hi, -⟩
    · rw [configOf, hi]
      exact h.setB hno n hn he
    · exfalso
      obtain ⟨n, hn, he⟩ := h.memB
      obtain ⟨q, hq, -⟩ := h.setB hno n hn he
      rw [hi n hn he, get_default] at hq
      simp at hq

theorem noOp_get (l : Layer) :
    Layer.get { l with config := setKey l.config "activation" noOpActivation } "activation" = noOpActivation := by
  have h : ∀ (cfg : List (String × String)) key val, (setKey cfg key val).lookup key = some val := by
    intro cfg key val
    rw [setKey]
    split
    · rename_i h
      induction cfg with
      | nil => simp at h
      | cons e es ih =>
        by_cases he : e.1 = key
        · simp [he]
        · simp only [List.map_cons, if_neg he]
          rw [List.lookup_cons, show (key == e.1) = false by simpa using fun h => he h.symm]
          exact ih (by simpa [he] using h)
    · rename_i h
      induction cfg with
      | nil => simp
      | cons e es ih =>
        have he : e.1 ≠ key := by intro he; exact h (by simp [he])
        rw [List.cons_append, List.lookup_cons, show (key == e.1) = false by simpa using fun h => he h.symm]
        exact ih (by intro h'; exact h (by simp only [List.any_cons, h', Bool.or_true]))
  rw [Layer.get, if_neg (by decide), h]
  rfl

/-- A layer with a no-op activation. -/
def noOpLayer (l : Layer) : Layer := { l with config := setKey l.config "activation" noOpActivation }

theorem inTree_cases {l : Layer} {w : List (String × V)} {i : Meta U} {x n : Node V (Meta U)} :
    Spec.InTree n (.mk l w i [x]) ↔ n = .mk l w i [x] ∨ Spec.InTree n x :=
  ⟨inTree_chain, fun h => h.elim (fun e => e ▸ .root _) (fun h => .child (by simp) h)⟩

theorem inTree_single {l : Layer} {w : List (String × V)} {i : Meta U} {n : Node V (Meta U)} :
    Spec.InTree n (.mk l w i []) ↔ n = .mk l w i [] :=
  ⟨inTree_leaf, fun e => e ▸ .root _⟩

/-- A batch normalization and the layer in front of it. -/
theorem fuses_bn {bits : Bits} {la lb : Layer} {wa wb : List (String × V)} {ia ib : Meta U} (hne : la.name ≠ lb.name)
    (ha : ia.get = none) (hb : ib.get = none) :
    Fuses la.name lb.name False (.mk lb wb ib [.mk la wa ia []] : Node V (Meta U))
      (replaceBN bits (.mk lb wb ib [.mk la wa ia []])) := by
  have hr : replaceBN bits (.mk lb wb ib [.mk la wa ia []] : Node V (Meta U))
      = .mk lb wb (ib.set (.output bits)) [.mk (noOpLayer la) wa ia []] := by
    rw [replaceBN, if_neg]
    · rfl
    · simp [chainHasConfig, hasConfig, Node.info, Node.inputs, ha, hb]
  rw [hr]
  refine ⟨?_, ?_, ?_, ?_, ?_, fun h => h.elim⟩
  · simp [nodeNames, preorder, preorderList, Node.name, Node.layer, Ne.symm hne]
  · simp [nodeNames, preorder, preorderList, Node.name, Node.layer]
  · exact ⟨_, inTree_cases.2 (Or.inr (.root _)), rfl⟩
  · intro n hn he
    rcases inTree_cases.1 hn with rfl | hn
    · exact absurd he.symm hne
    · rw [inTree_single.1 hn]
      exact ⟨noOp_get la, ha⟩
  · exact ⟨_, .root _, rfl⟩

/-- The same in front of a ReLU. -/
theorem fuses_relu {la lb lc : Layer} {wa wb wc : List (String × V)} {ia ib ic : Meta U} (hne : la.name ≠ lb.name)
    (hca : lc.name ≠ la.name) (hcb : lc.name ≠ lb.name) (ha : ia.get = none) (hb : ib.get = none) :
    replaceBNReLU (.mk lc wc ic [.mk lb wb ib [.mk la wa ia []]] : Node V (Meta U))
      = .mk lc wc ic [.mk lb wb ib [.mk la wa ia []]] ∧ ic.get ≠ none ∨
    Fuses la.name lb.name True (.mk lc wc ic [.mk lb wb ib [.mk la wa ia []]] : Node V (Meta U))
      (replaceBNReLU (.mk lc wc ic [.mk lb wb ib [.mk la wa ia []]])) := by
  by_cases hc : ic.get = none
  · right
    have hr : replaceBNReLU (.mk lc wc ic [.mk lb wb ib [.mk la wa ia []]] : Node V (Meta U))
        = .mk lc wc ic [.mk lb wb (ib.set .noOp) [.mk (noOpLayer la) wa ia []]] := by
      rw [replaceBNReLU, if_neg]
      · rfl
      · simp [chainHasConfig, hasConfig, Node.info, Node.inputs, ha, hb, hc]
    rw [hr]
    refine ⟨?_, ?_, ?_, ?_, ?_, ?_⟩
    · simp [nodeNames, preorder, preorderList, Node.name, Node.layer, Ne.symm hne, hca, hcb]
    · simp [nodeNames, preorder, preorderList, Node.name, Node.layer]
    · exact ⟨_, inTree_cases.2 (Or.inr (inTree_cases.2 (Or.inr (.root _)))), rfl⟩
    · intro n hn he
      rcases inTree_cases.1 hn with rfl | hn
      · exact absurd he hca
      rcases inTree_cases.1 hn with rfl | hn
      · exact absurd he.symm hne
      · rw [inTree_single.1 hn]
        exact ⟨noOp_get la, ha⟩
    · exact ⟨_, inTree_cases.2 (Or.inr (.root _)), rfl⟩
    · intro _ n hn he
      rcases inTree_cases.1 hn with rfl | hn
      · exact absurd he hcb
      rcases inTree_cases.1 hn with rfl | hn
      · exact ⟨_, rfl, rfl⟩
      · rw [inTree_single.1 hn] at he
        exact absurd he hne
  · left
    refine ⟨?_, hc⟩
    rw [replaceBNReLU, if_pos]
    obtain ⟨q, hq⟩ := Option.ne_none_iff_exists'.1 hc
    simp [chainHasConfig, hasConfig, Node.info, hq]

end Aux
end Verif.Props
