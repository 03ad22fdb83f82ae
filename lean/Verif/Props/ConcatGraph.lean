import Verif.Props.OnlyFused

/-
C117, part 1: some layers whose outputs go to one layer only, and no other inputs of that layer, while the model is
rewritten.
-/
set_option linter.unusedSectionVars false
set_option linter.unusedSimpArgs false

namespace Verif.Props
open Verif.Quant.Regex Verif.Quant.Transformer Verif.Quant.Transforms8Bit Verif.Quant.Apply

variable {V U M Val : Type}

namespace Aux

/-- In a functional model the inputs of `b` are the layers `xs`, each once, whose outputs go nowhere else. -/
structure StarF (g : Graph V M) (xs : List String) (b : String) : Prop where
  functional : g.functional = true
  nodup : xs.Nodup
  ne : b ∉ xs
  countA : ∀ a ∈ xs, (g.layers.map (·.name)).count a = 1
  countB : (g.layers.map (·.name)).count b = 1
  conn : ∀ y ∈ g.layers, y.name = b → ∃ cs, y.inbound = [cs] ∧ (cs.map (·.src)).Perm xs
  only : ∀ a ∈ xs, ∀ l ∈ g.layers, a ∈ inboundNames l → l.name = b
  outs : ∀ a ∈ xs, ∀ o ∈ g.outputs, o.1 ≠ a
  single : ∀ a ∈ xs, ∀ x ∈ g.layers, x.name = a → x.inbound.length ≤ 1

section
variable [Inhabited M] [DecidableEq M]

omit [DecidableEq M] [Inhabited M] in
/-- The layers with the names `xs`. -/
theorem star_layers {g : Graph V M} {xs names : List String} {b : String} (hf : StarF g xs b) (hp : names.Perm xs) :
    ((getLayers g names).map (·.name)).Perm xs := by
  rw [List.perm_ext_iff_of_nodup]
  · intro a
    simp only [getLayers, List.mem_map, List.mem_filter, decide_eq_true_eq, hp.mem_iff]
    constructor
    · rintro ⟨l, ⟨-, h⟩, rfl⟩; exact h
    · intro ha
      have := hf.countA a ha
      have hpos : 0 < (g.layers.map (·.name)).count a := by omega
      obtain ⟨l, hl, rfl⟩ := List.mem_map.1 (List.count_pos_iff.1 hpos)
      exact ⟨l, ⟨hl, ha⟩, rfl⟩
  · rw [List.nodup_iff_count_le_one]
    intro a
    by_cases ha : a ∈ xs
    · rw [← hf.countA a ha]
      exact List.Sublist.count_le _ ((List.filter_sublist (l := g.layers)).map _)
    · rw [List.count_eq_zero_of_not_mem]
      · exact Nat.zero_le _
      · intro h
        obtain ⟨l, hl, rfl⟩ := List.mem_map.1 h
        have := of_decide_eq_true (List.mem_filter.1 hl).2
        exact ha (hp.mem_iff.1 this)
  · exact hf.nodup

/-- A replacement of other layers. -/
theorem starF_other {g : Graph V M} {m r : Node V M} {g'} {xs : List String} {b : String} (hf : StarF g xs b)
    (hm : ∀ n, Spec.InTree n m → n.layer ∈ g.layers)
    (h : replaceFunctional g m r = .ok g') (hfun : g'.functional = g.functional)
    (ham : ∀ a ∈ xs, a ∉ nodeNames m) (hbm : b ∉ nodeNames m) (har : ∀ a ∈ xs, a ∉ nodeNames r)
    (hbr : b ∉ nodeNames r) : StarF g' xs b := by
  have hlen := (replaceFunctional_ok h).1
  have hroot : m.name ∈ nodeNames m := (mem_nodeNames _ _).2 ⟨m, .root _, rfl⟩
  have hrootr : r.name ∈ nodeNames r := (mem_nodeNames _ _).2 ⟨r, .root _, rfl⟩
  have hwn : ∀ n, Spec.InTree n (wire r (leafInbounds m r)).1 → n.name ∈ nodeNames r := by
    intro n hn
    rw [← wire_nodeNames r (leafInbounds m r)]
    exact (mem_nodeNames _ _).2 ⟨n, hn, rfl⟩
  refine ⟨hfun.trans hf.functional, hf.nodup, hf.ne, ?_, ?_, ?_, ?_, ?_, ?_⟩
  · intro a ha
    rw [names_after h, List.count_append, count_filter_not (ham a ha), hf.countA a ha,
      List.count_eq_zero_of_not_mem (har a ha)]
  · rw [names_after h, List.count_append, count_filter_not hbm, hf.countB, List.count_eq_zero_of_not_mem hbr]
  · intro y hy hyb
    rcases mem_after h hy with ⟨l, hl, -, rfl⟩ | ⟨n, hn, rfl⟩
    · obtain ⟨cs, hc, hs⟩ := hf.conn l hl hyb
      refine ⟨cs.map (renameConn m.name r.name), by simp [renameLayer, hc], ?_⟩
      have : (cs.map (renameConn m.name r.name)).map (·.src) = cs.map (·.src) := by
        rw [List.map_map]
        refine List.map_congr_left fun x hx => ?_
        have hx' : x.src ∈ xs := hs.mem_iff.1 (List.mem_map_of_mem hx)
        simp only [Function.comp, renameConn]
        rw [if_neg]
        intro he
        exact ham _ hx' (he ▸ hroot)
      rw [this]; exact hs
    · exact absurd (hyb ▸ hwn n hn) hbr
  · intro a hax l' hl' ha
    rcases mem_after h hl' with ⟨l, hl, -, rfl⟩ | ⟨n, hn, rfl⟩
    · rcases rename_inboundNames ha with ha | rfl
      · exact hf.only a hax l hl ha
      · exact absurd hrootr (har _ hax)
    · exfalso
      have hle : (leaves r).length ≤ (leafInbounds m r).length := by
        rw [leafInbounds, List.length_map, hlen]
      rcases (wire_spec r _ hle).2 n hn with ⟨-, h2⟩ | ⟨-, h2⟩
      · obtain ⟨l, hl, he⟩ := List.mem_map.1 h2
        rw [inboundNames, ← he, rename_all] at ha
        have ha' : a ∈ inboundNames (renameLayer m.name r.name l) := ha
        obtain ⟨x, hx, -, rfl⟩ := mem_leaves m l hl
        rcases rename_inboundNames ha' with ha' | rfl
        · have := hf.only a hax _ (hm x hx) ha'
          exact hbm ((mem_nodeNames _ _).2 ⟨x, hx, this⟩)
        · exact har _ hax hrootr
      · rw [inboundNames, h2] at ha
        simp only [List.flatMap_cons, List.flatMap_nil, List.append_nil, List.mem_flatMap, List.mem_map] at ha
        obtain ⟨_, ⟨c, hc, rfl⟩, ha⟩ := ha
        simp only [connSources, List.filterMap_nil, List.mem_singleton] at ha
        have := har a hax
        rw [ha] at this
        exact this (hwn c (inTree_trans (inTree_input hc) hn))
  · intro a hax o ho
    obtain ⟨-, rfl⟩ := replaceFunctional_ok h
    rw [foldl_register_outputs] at ho
    simp only [removeLayers, repointed, List.mem_map] at ho
    obtain ⟨o', ho', rfl⟩ := ho
    split
    · rintro rfl; exact har _ hax hrootr
    · exact hf.outs a hax o' ho'
  · intro a hax x hx hxa
    rcases mem_after h hx with ⟨l, hl, -, rfl⟩ | ⟨n, hn, rfl⟩
    · simpa [renameLayer] using hf.single a hax l hl hxa
    · exact absurd (hxa ▸ hwn n hn) (har a hax)

/-- A replacement by layers of the same names, connected in the same way. -/
theorem starF_same {g : Graph V M} {m r : Node V M} {g'} {xs : List String} {b : String} (hf : StarF g xs b)
    (hm : Matched g m) (sem : Spec.Semantics V Val) (hs : Same sem False r m)
    (hca : ∀ a ∈ xs, (nodeNames m).count a ≤ 1) (hcb : (nodeNames m).count b ≤ 1)
    (h : replaceFunctional g m r = .ok g') (hfun : g'.functional = g.functional) :
    StarF g' xs b := by
  have hnames : nodeNames r = nodeNames m := namesEq_of_keys (same_keys _ _ hs)
  have hhead : r.name = m.name := (same_root hs).1
  have hinb : leafInbounds m r = (leaves m).map (·.inbound) := by
    refine List.map_congr_left fun l _ => ?_
    rw [rename_all, hhead, renameLayer_self]
  have hw : ∀ n', Spec.InTree n' (wire r (leafInbounds m r)).1 → ∃ n, Spec.InTree n m ∧ n.name = n'.name ∧
      n.layer.cls = n'.layer.cls ∧ ((n.inputs = [] ∧ n'.layer.inbound = n.layer.inbound) ∨
        (n.inputs ≠ [] ∧ n'.layer.inbound = [n.inputs.map fun c => ⟨c.name, 0, 0, []⟩])) := by
    have := (shape_wire sem (·.inbound) r m hs []).2
    rw [List.append_nil, ← hinb] at this
    exact this
  have count : ∀ x, (g.layers.map (·.name)).count x = 1 → (nodeNames m).count x ≤ 1 →
      (g'.layers.map (·.name)).count x = 1 := by
    intro x hx hxm
    rw [names_after h, hnames, List.count_append]
    by_cases hmem : x ∈ nodeNames m
    · rw [List.count_eq_zero_of_not_mem (by simp [hmem])]
      have := List.count_pos_iff.2 hmem
      omega
    · rw [count_filter_not hmem, hx, List.count_eq_zero_of_not_mem hmem]
  have hsrc : ∀ n, Spec.InTree n m → ∀ c ∈ n.inputs, c.name ∈ (n.layer.inbound.headD []).map (·.src) := by
    intro n hn c hc
    have := hm.inputs n hn (List.ne_nil_of_mem hc)
    have hcl : c.layer ∈ getLayers g ((n.layer.inbound.headD []).map (·.src)) := by
      rw [← this]; exact List.mem_map_of_mem hc
    exact of_decide_eq_true (List.mem_filter.1 hcl).2
  refine ⟨hfun.trans hf.functional, hf.nodup, hf.ne, fun a ha => count a (hf.countA a ha) (hca a ha),
    count b hf.countB hcb, ?_, ?_, ?_, ?_⟩
  · intro y hy hyb
    rcases mem_after h hy with ⟨l, hl, -, rfl⟩ | ⟨n', hn', rfl⟩
    · rw [hhead, renameLayer_self] at hyb ⊢
      exact hf.conn l hl hyb
    · obtain ⟨n, hn, e1, -, ⟨-, e3⟩ | ⟨hne, e3⟩⟩ := hw n' hn'
      · rw [e3]; exact hf.conn _ (hm.mem n hn) (e1.trans hyb)
      · obtain ⟨cs, hc, hp⟩ := hf.conn _ (hm.mem n hn) (e1.trans hyb)
        have hin := hm.inputs n hn hne
        rw [hc] at hin
        simp only [List.headD_cons] at hin
        refine ⟨_, e3, ?_⟩
        have h1 := star_layers hf hp
        rw [← hin, List.map_map] at h1
        rw [List.map_map]
        exact h1
  · intro a hax l' hl' ha
    rcases mem_after h hl' with ⟨l, hl, -, rfl⟩ | ⟨n', hn', rfl⟩
    · rw [hhead, renameLayer_self] at ha ⊢
      exact hf.only a hax l hl ha
    · obtain ⟨n, hn, e1, -, ⟨-, e3⟩ | ⟨hne, e3⟩⟩ := hw n' hn'
      · rw [inboundNames, e3] at ha
        exact e1.symm.trans (hf.only a hax _ (hm.mem n hn) ha)
      · rw [inboundNames, e3] at ha
        simp only [List.flatMap_cons, List.flatMap_nil, List.append_nil, List.mem_flatMap, List.mem_map] at ha
        obtain ⟨_, ⟨c, hc, rfl⟩, ha⟩ := ha
        simp only [connSources, List.filterMap_nil, List.mem_singleton] at ha
        exact e1.symm.trans (hf.only a hax _ (hm.mem n hn) (head_src _ (ha ▸ hsrc n hn c hc)))
  · intro a hax o ho
    obtain ⟨-, rfl⟩ := replaceFunctional_ok h
    rw [foldl_register_outputs] at ho
    simp only [removeLayers, repointed, List.mem_map] at ho
    obtain ⟨o', ho', rfl⟩ := ho
    split
    · rename_i he
      have := hf.outs a hax o' ho'
      rw [he] at this
      rw [hhead]; exact this
    · exact hf.outs a hax o' ho'
  · intro a hax x hx hxa
    rcases mem_after h hx with ⟨l, hl, -, rfl⟩ | ⟨n', hn', rfl⟩
    · rw [hhead, renameLayer_self] at hxa ⊢
      exact hf.single a hax l hl hxa
    · obtain ⟨n, hn, e1, -, ⟨-, e3⟩ | ⟨hne, e3⟩⟩ := hw n' hn'
      · rw [e3]; exact hf.single a hax _ (hm.mem n hn) (e1.trans hxa)
      · rw [e3]; simp

end

/-! ### What the search for matches sees -/

section
variable [Inhabited M] {g : Graph V M} {xs : List String} {b : String}

theorem star_supported (hf : StarF g xs b) {a : String} (ha : a ∈ xs) {z : Layer} (hz : z ∈ g.layers) (hza : z.name = a) :
    isMatchSupported g z false = true := by
  obtain ⟨y, hy⟩ := unique_of_count hf.countB
  have h1 := hf.single a ha z hz hza
  rw [isMatchSupported, if_neg (by omega), if_neg]
  have h2 : outputConsumers g z.name = [] := by
    rw [outputConsumers, List.filter_eq_nil_iff]
    intro o ho
    have := hf.outs a ha o ho
    simp [hza, this]
  have h3 : (consumers g z.name).length ≤ 1 := by
    have : consumers g z.name = ((g.layers.filter fun l => decide (l.name = b)).filter
        fun l => decide (z.name ∈ inboundNames l)) := by
      rw [List.filter_filter, consumers]
      refine List.filter_congr fun l hl => ?_
      rw [Bool.eq_iff_iff]
      simp only [decide_eq_true_eq, Bool.and_eq_true]
      exact ⟨fun h => ⟨h, hf.only a ha l hl (hza ▸ h)⟩, fun h => h.1⟩
    rw [this, hy]
    exact (List.length_filter_le _ _).trans (by simp)
  rw [h2, List.length_nil]
  omega

theorem star_trees (hf : StarF g xs b) (hc : ∀ a ∈ xs, a ∈ g.candidates)
    (hnl : ∀ l ∈ g.layers, '\n' ∉ l.cls.toList) : ∀ ls : List Layer, (∀ l ∈ ls, l ∈ g.layers ∧ l.name ∈ xs) →
    matchTrees g (List.replicate ls.length (.mk ".*" [] [])) ls = some (ls.map fun x => nodeOf g x [])
  | [], _ => rfl
  | l :: ls, h => by
    obtain ⟨h1, h2⟩ := h l (by simp)
    rw [List.length_cons, List.replicate_succ, matchTrees,
      matchTree_leaf (matchLayer_some (hc _ h2) (C56_any _ (hnl l h1)) (by simp))
        (fun _ => star_supported hf h2 h1 rfl),
      star_trees hf hc hnl ls (fun x hx => h x (by simp [hx]))]
    rfl

/-- The match at the concatenation. -/
theorem star_match (hf : StarF g xs b) (hc : ∀ a ∈ xs, a ∈ g.candidates) (hcb : b ∈ g.candidates)
    (hnl : ∀ l ∈ g.layers, '\n' ∉ l.cls.toList) (hcls : ∀ l ∈ g.layers, l.name = b → l.cls = "Concatenate")
    (hne : xs ≠ []) :
    ∃ y ∈ g.layers, y.name = b ∧ ∃ n, matchTree g (concatPattern xs.length) y true = some n := by
  have hpos : 0 < (g.layers.map (·.name)).count b := by rw [hf.countB]; omega
  obtain ⟨y, hy, rfl⟩ := List.mem_map.1 (List.count_pos_iff.1 hpos)
  obtain ⟨cs, hcs, hp⟩ := hf.conn y hy rfl
  have h1 : matchLayer g y "Concatenate" [] = true :=
    matchLayer_some hcb (by rw [hcls y hy rfl]; decide +kernel) (by simp)
  have h2 : isMatchSupported g y true = true := by
    rw [isMatchSupported, hcs]; simp
  have hin : inputLayerNames g y = cs.map (·.src) := by
    rw [inputLayerNames, if_pos hf.functional, hcs]; rfl
  have hlay := star_layers hf hp
  have hlen : (getLayers g (cs.map (·.src))).length = xs.length := by
    rw [← hlay.length_eq, List.length_map]
  have ht := star_trees hf hc hnl (getLayers g (cs.map (·.src))) (by
    intro l hl
    exact ⟨getLayers_subset _ _ _ hl, hlay.mem_iff.1 (List.mem_map_of_mem hl)⟩)
  rw [hlen] at ht
  refine ⟨y, hy, rfl, nodeOf g y ((getLayers g (cs.map (·.src))).map fun x => nodeOf g x []), ?_⟩
  rw [concatPattern, matchTree, if_neg (by rw [h1]; simp), if_neg (by rw [h2]; simp), if_neg, hin, ht]
  · rfl
  · cases xs with
    | nil => exact absurd rfl hne
    | cons a as => simp [List.replicate_succ]

end

end Aux
end Verif.Props
