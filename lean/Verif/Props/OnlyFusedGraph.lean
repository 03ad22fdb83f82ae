import Verif.Props.Fused

/-
C115, part 1: a layer whose output goes to one layer only, which may have further inputs, while other parts of the
model are replaced.
-/
set_option linter.unusedSectionVars false
set_option linter.unusedSimpArgs false

namespace Verif.Props
open Verif.Quant.Regex Verif.Quant.Transformer Verif.Quant.Transforms8Bit Verif.Quant.Apply

variable {V U M Val : Type}

namespace Aux

/-- In a functional model the output of `a` is used by `b`, whose name and class satisfy `P`, and nowhere else. -/
structure SoleF (P : String → String → Prop) (g : Graph V M) (a b : String) : Prop where
  functional : g.functional = true
  only : ∀ l ∈ g.layers, a ∈ inboundNames l → l.name = b ∧ P l.name l.cls
  outs : ∀ o ∈ g.outputs, o.1 ≠ a

theorem head_src (l : Layer) {s : String} (hs : s ∈ (l.inbound.headD []).map (·.src)) : s ∈ inboundNames l := by
  obtain ⟨c, hc, rfl⟩ := List.mem_map.1 hs
  cases hl : l.inbound with
  | nil => rw [hl] at hc; simp at hc
  | cons node rest =>
    rw [hl] at hc
    simp only [List.headD_cons] at hc
    rw [inboundNames, hl, List.flatMap_cons, List.mem_append]
    exact Or.inl (List.mem_flatMap.2 ⟨c, hc, by simp [connSources]⟩)

section
variable [Inhabited M] [DecidableEq M] {P : String → String → Prop}

theorem soleF_other {g : Graph V M} {m r : Node V M} {g'} {a b : String} (hf : SoleF P g a b)
    (hm : ∀ n, Spec.InTree n m → n.layer ∈ g.layers)
    (h : replaceFunctional g m r = .ok g') (hfun : g'.functional = g.functional)
    (ham : a ∉ nodeNames m) (hbm : b ∉ nodeNames m) (har : a ∉ nodeNames r) : SoleF P g' a b := by
  have hlen := (replaceFunctional_ok h).1
  have hroot : m.name ∈ nodeNames m := (mem_nodeNames _ _).2 ⟨m, .root _, rfl⟩
  have hrootr : r.name ∈ nodeNames r := (mem_nodeNames _ _).2 ⟨r, .root _, rfl⟩
  have hwn : ∀ n, Spec.InTree n (wire r (leafInbounds m r)).1 → n.name ∈ nodeNames r := by
    intro n hn
    rw [← wire_nodeNames r (leafInbounds m r)]
    exact (mem_nodeNames _ _).2 ⟨n, hn, rfl⟩
  refine ⟨hfun.trans hf.functional, ?_, ?_⟩
  · intro l' hl' ha
    rcases mem_after h hl' with ⟨l, hl, -, rfl⟩ | ⟨n, hn, rfl⟩
    · rcases rename_inboundNames ha with ha | rfl
      · exact hf.only l hl ha
      · exact absurd hrootr har
    · exfalso
      have hle : (leaves r).length ≤ (leafInbounds m r).length := by
        rw [leafInbounds, List.length_map, hlen]
      rcases (wire_spec r _ hle).2 n hn with ⟨-, h2⟩ | ⟨-, h2⟩
      · obtain ⟨l, hl, he⟩ := List.mem_map.1 h2
        rw [inboundNames, ← he, rename_all] at ha
        have ha' : a ∈ inboundNames (renameLayer m.name r.name l) := ha
        obtain ⟨x, hx, -, rfl⟩ := mem_leaves m l hl
        rcases rename_inboundNames ha' with ha' | rfl
        · have := (hf.only _ (hm x hx) ha').1
          exact hbm ((mem_nodeNames _ _).2 ⟨x, hx, this⟩)
        · exact har hrootr
      · rw [inboundNames, h2] at ha
        simp only [List.flatMap_cons, List.flatMap_nil, List.append_nil, List.mem_flatMap, List.mem_map] at ha
        obtain ⟨_, ⟨c, hc, rfl⟩, ha⟩ := ha
        simp only [connSources, List.filterMap_nil, List.mem_singleton] at ha
        rw [ha] at har
        exact har (hwn c (inTree_trans (inTree_input hc) hn))
  · intro o ho
    obtain ⟨-, rfl⟩ := replaceFunctional_ok h
    rw [foldl_register_outputs] at ho
    simp only [removeLayers, repointed, List.mem_map] at ho
    obtain ⟨o', ho', rfl⟩ := ho
    split
    · rintro rfl; exact har hrootr
    · exact hf.outs o' ho'

theorem soleF_same {g : Graph V M} {m r : Node V M} {g'} {a b : String} (hf : SoleF P g a b)
    (hm : Matched g m) (sem : Spec.Semantics V Val) (hs : Same sem False r m)
    (h : replaceFunctional g m r = .ok g') (hfun : g'.functional = g.functional) : SoleF P g' a b := by
  have hhead : r.name = m.name := (same_root hs).1
  have hinb : leafInbounds m r = (leaves m).map (·.inbound) := by
    refine List.map_congr_left fun l _ => ?_
    rw [rename_all, hhead, renameLayer_self]
  have hw : ∀ n', Spec.InTree n' (wire r (leafInbounds m r)).1 → ∃ n, Spec.InTree n m ∧ n.name = n'.name ∧
      n.layer.cls = n'.layer.cls ∧ ((n.inputs = [] ∧ n'.layer.inbound = n.layer.inbound) ∨
        (n.inputs ≠ [] ∧ n'.layer.inbound = [n.inputs.map fun c => ⟨c.name, 0, 0, []⟩])) := by
    have := (shape_wire sem (·.inbound) r m hs []).2
    rw [List.append_nil, ← hinb] at this
    exact this
  have hsrc : ∀ n, Spec.InTree n m → ∀ c ∈ n.inputs, c.name ∈ (n.layer.inbound.headD []).map (·.src) := by
    intro n hn c hc
    have := hm.inputs n hn (List.ne_nil_of_mem hc)
    have hcl : c.layer ∈ getLayers g ((n.layer.inbound.headD []).map (·.src)) := by
      rw [← this]; exact List.mem_map_of_mem hc
    exact of_decide_eq_true (List.mem_filter.1 hcl).2
  refine ⟨hfun.trans hf.functional, ?_, ?_⟩
  · intro l' hl' ha
    rcases mem_after h hl' with ⟨l, hl, -, rfl⟩ | ⟨n', hn', rfl⟩
    · rw [hhead, renameLayer_self] at ha ⊢
      exact hf.only l hl ha
    · obtain ⟨n, hn, e1, e2, ⟨-, e3⟩ | ⟨hne, e3⟩⟩ := hw n' hn'
      · rw [inboundNames, e3] at ha
        rw [show n'.layer.name = n.layer.name from e1.symm, ← e2]
        exact hf.only _ (hm.mem n hn) ha
      · rw [inboundNames, e3] at ha
        simp only [List.flatMap_cons, List.flatMap_nil, List.append_nil, List.mem_flatMap, List.mem_map] at ha
        obtain ⟨_, ⟨c, hc, rfl⟩, ha⟩ := ha
        simp only [connSources, List.filterMap_nil, List.mem_singleton] at ha
        rw [show n'.layer.name = n.layer.name from e1.symm, ← e2]
        exact hf.only _ (hm.mem n hn) (head_src _ (ha ▸ hsrc n hn c hc))
  · intro o ho
    obtain ⟨-, rfl⟩ := replaceFunctional_ok h
    rw [foldl_register_outputs] at ho
    simp only [removeLayers, repointed, List.mem_map] at ho
    obtain ⟨o', ho', rfl⟩ := ho
    split
    · rename_i he
      have := hf.outs o' ho'
      rw [he] at this
      rw [hhead]; exact this
    · exact hf.outs o' ho'

end

section
variable [Inhabited M] {g : Graph V M}

mutual
/-- The nodes below a node of a match are its inputs, and they have no other consumers. -/
theorem tree_edges : ∀ (p : Pattern) (l : Layer) hd (m : Node V M), matchTree g p l hd = some m →
    ∀ b, Spec.InTree b m → ∀ n ∈ b.inputs, n.layer ∈ getLayers g (inputLayerNames g b.layer) ∧
      (g.functional = true → isMatchSupported g n.layer false = true)
  | .mk cls cfg ins, l, hd, m => by
    intro hm b hb n hn
    obtain ⟨-, -, ⟨-, rfl⟩ | ⟨hne, ns, hns, rfl⟩⟩ := matchTree_split hm
    · cases hb with
      | root => simp [nodeOf, Node.inputs] at hn
      | child hc _ => simp at hc
    · have h := tree_edgesList ins _ ns hns
      cases hb with
      | root => exact (h n hn).1
      | child hc hb => exact (h _ hc).2 b hb n hn
theorem tree_edgesList : ∀ (ps : List Pattern) (ls : List Layer) (ns : List (Node V M)), matchTrees g ps ls = some ns →
    ∀ c ∈ ns, (c.layer ∈ ls ∧ (g.functional = true → isMatchSupported g c.layer false = true)) ∧
      ∀ b, Spec.InTree b c → ∀ n ∈ b.inputs, n.layer ∈ getLayers g (inputLayerNames g b.layer) ∧
        (g.functional = true → isMatchSupported g n.layer false = true)
  | [], [], ns => by
    intro h
    simp only [matchTrees, Option.some.injEq] at h
    subst h; simp
  | [], _ :: _, ns => by intro h; simp [matchTrees] at h
  | _ :: _, [], ns => by intro h; simp [matchTrees] at h
  | p :: ps, l :: ls, ns => by
    intro h c hc
    rw [matchTrees] at h
    obtain ⟨n0, h0, h1⟩ := Option.bind_eq_some_iff.1 h
    obtain ⟨ns', h2', rfl⟩ := Option.map_eq_some_iff.1 h1
    rcases List.mem_cons.1 hc with rfl | hc
    · refine ⟨?_, tree_edges p l false c h0⟩
      have hl := matchTree_layer h0
      obtain ⟨cls, cfg, ins⟩ := p
      rw [hl]
      exact ⟨by simp, (matchTree_split h0).2.1⟩
    · obtain ⟨⟨i1, i2⟩, i3⟩ := tree_edgesList ps ls ns' h2' c hc
      exact ⟨⟨List.mem_cons_of_mem _ i1, i2⟩, i3⟩
end

theorem soleF_create {P : String → String → Prop} (hf : g.functional = true) {p : Pattern} {l : Layer} {hd} {m : Node V M}
    (hl : l ∈ g.layers) (hm : matchTree g p l hd = some m) {b n : Node V M} (hb : Spec.InTree b m) (hn : n ∈ b.inputs)
    (hP : P b.name b.layer.cls) : SoleF P g n.name b.name := by
  obtain ⟨h1, h2⟩ := tree_edges p l hd m hm b hb n hn
  have h3 := of_decide_eq_true (List.mem_filter.1 h1).2
  rw [inputLayerNames, if_pos hf] at h3
  have h4 := head_src _ h3
  have h5 := supported_consumers (h2 hf)
  have hbl := (matchTree_nodes _ _ _ _ _ hl hm b hb).1
  have h6 : b.layer ∈ consumers g n.layer.name := List.mem_filter.2 ⟨hbl, by simpa using h4⟩
  have h7 : (consumers g n.layer.name) = [b.layer] ∧ outputConsumers g n.layer.name = [] := by
    have : 0 < (consumers g n.layer.name).length := List.length_pos_of_mem h6
    constructor
    · have hl1 : (consumers g n.layer.name).length = 1 := by omega
      obtain ⟨z, hz⟩ := List.length_eq_one_iff.1 hl1
      rw [hz] at h6 ⊢
      rw [List.mem_singleton.1 h6]
    · exact List.length_eq_zero_iff.1 (by omega)
  refine ⟨hf, ?_, ?_⟩
  · intro z hz ha
    have : z ∈ consumers g n.layer.name := List.mem_filter.2 ⟨hz, decide_eq_true ha⟩
    rw [h7.1] at this
    rw [List.mem_singleton.1 this]
    exact ⟨rfl, hP⟩
  · intro o ho he
    have : o ∈ outputConsumers g n.layer.name := List.mem_filter.2 ⟨ho, decide_eq_true he⟩
    rw [h7.2] at this
    simp at this

theorem feedsS_create (hf : g.functional = false) (hu : Spec.UniqueNames g) {p : Pattern} {l : Layer} {hd} {m : Node V M}
    (hl : l ∈ g.layers) (hm : matchTree g p l hd = some m) {b n : Node V M} (hb : Spec.InTree b m) (hn : n ∈ b.inputs) :
    FeedsS g n.name b.name := by
  obtain ⟨h1, -⟩ := tree_edges p l hd m hm b hb n hn
  have h3 := of_decide_eq_true (List.mem_filter.1 h1).2
  have hbl := (matchTree_nodes _ _ _ _ _ hl hm b hb).1
  refine ⟨hf, hu, ?_⟩
  rw [inputLayerNames, hf] at h3
  simp only [Bool.false_eq_true, if_false] at h3
  have hi : g.layers.idxOf b.layer < g.layers.length := List.idxOf_lt_length_iff.2 hbl
  have hget : g.layers[g.layers.idxOf b.layer] = b.layer := List.getElem_idxOf hi
  cases hx : g.layers.idxOf b.layer with
  | zero => rw [hx] at h3; simp at h3
  | succ i =>
    rw [hx] at h3
    have hi' : i + 1 < g.layers.length := by rw [← hx]; exact hi
    have hi0 : i < g.layers.length := by omega
    simp only [List.getElem?_eq_getElem hi0, Option.toList_some, List.map_cons, List.map_nil,
      List.mem_singleton] at h3
    refine ⟨(g.layers.take i).map (·.name), (g.layers.drop (i + 2)).map (·.name), ?_⟩
    have h8 : g.layers = g.layers.take i ++ g.layers[i] :: g.layers[i + 1] :: g.layers.drop (i + 2) := by
      conv_lhs => rw [← List.take_append_drop i g.layers, List.drop_eq_getElem_cons hi0,
        List.drop_eq_getElem_cons hi']
    have h9 : g.layers[i + 1] = b.layer := by rw [← hget]; congr 1; exact hx.symm
    rw [h9] at h8
    have h10 := congrArg (List.map (·.name)) h8
    rw [List.map_append, List.map_cons, List.map_cons, ← h3] at h10
    exact h10

end

end Aux
end Verif.Props
