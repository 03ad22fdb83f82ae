import Verif.Props.Apply
import Verif.Props.FloatSequential

set_option linter.unusedSectionVars false

namespace Verif.Props
open Verif.Quant.Regex Verif.Quant.Transformer Verif.Quant.Transforms8Bit Verif.Quant.Apply

variable {V U M Val : Type}

namespace Aux

/-! ### Trees of the same shape -/

mutual
/-- The nodes of a wired replacement of the same shape as the match. -/
theorem shape_wire (sem : Spec.Semantics V Val) (f : Layer → List (List Conn)) : ∀ r m : Node V M, Same sem False r m →
    ∀ rest, (wire r ((leaves m).map f ++ rest)).2 = rest ∧
      ∀ n', Spec.InTree n' (wire r ((leaves m).map f ++ rest)).1 → ∃ n, Spec.InTree n m ∧ n.name = n'.name ∧
        n.layer.cls = n'.layer.cls ∧ ((n.inputs = [] ∧ n'.layer.inbound = f n.layer) ∨
          (n.inputs ≠ [] ∧ n'.layer.inbound = [n.inputs.map fun c => ⟨c.name, 0, 0, []⟩]))
  | .mk l w i [], .mk l' w' i' [] => by
    intro h rest
    rw [Same] at h
    obtain ⟨⟨h1, h2, -⟩, -⟩ := h
    simp only [leaves, List.map_cons, List.map_nil, List.cons_append, List.nil_append, wire, true_and]
    intro n' hn'
    cases hn' with
    | root => exact ⟨_, .root _, h1.symm, h2.symm, Or.inl ⟨rfl, rfl⟩⟩
    | child hc _ => simp at hc
  | .mk l w i [], .mk l' w' i' (_ :: _) => by intro h; rw [Same, SameList] at h; exact h.2.elim
  | .mk l w i (_ :: _), .mk l' w' i' [] => by intro h; rw [Same, SameList] at h; exact h.2.elim
  | .mk l w i (n :: ns), .mk l' w' i' (n' :: ns') => by
    intro h rest
    rw [Same] at h
    obtain ⟨⟨h1, h2, -⟩, hl⟩ := h
    have hnames := sameList_names _ _ hl
    rw [SameList] at hl
    obtain ⟨e1, e2⟩ := shape_wire sem f n n' hl.1 ((leavesList ns').map f ++ rest)
    obtain ⟨e3, e4⟩ := shapeList_wire sem f ns ns' hl.2 rest
    rw [leaves, List.map_append, List.append_assoc, wire]
    rw [e1]
    refine ⟨e3, ?_⟩
    intro x hx
    cases hx with
    | root =>
      refine ⟨_, .root _, h1.symm, h2.symm, Or.inr ⟨by simp [Node.inputs], ?_⟩⟩
      have e : ∀ xs : List (Node V M), (xs.map fun c => (⟨c.name, 0, 0, []⟩ : Conn))
          = (xs.map (·.name)).map fun s => ⟨s, 0, 0, []⟩ := by
        intro xs; rw [List.map_map]; rfl
      simp only [Node.layer, Node.inputs]
      rw [e, e, hnames]
    | child hc hx =>
      rcases List.mem_cons.1 hc with rfl | hc
      · obtain ⟨y, hy, hh⟩ := e2 x hx
        exact ⟨y, .child (by simp) hy, hh⟩
      · obtain ⟨c, hc', y, hy, hh⟩ := e4 _ hc x hx
        exact ⟨y, .child (by simp [hc']) hy, hh⟩
theorem shapeList_wire (sem : Spec.Semantics V Val) (f : Layer → List (List Conn)) : ∀ rs ms : List (Node V M),
    SameList sem False rs ms → ∀ rest,
      (wireList rs ((leavesList ms).map f ++ rest)).2 = rest ∧
      ∀ c' ∈ (wireList rs ((leavesList ms).map f ++ rest)).1, ∀ n', Spec.InTree n' c' →
        ∃ c ∈ ms, ∃ n, Spec.InTree n c ∧ n.name = n'.name ∧
        n.layer.cls = n'.layer.cls ∧ ((n.inputs = [] ∧ n'.layer.inbound = f n.layer) ∨
          (n.inputs ≠ [] ∧ n'.layer.inbound = [n.inputs.map fun c => ⟨c.name, 0, 0, []⟩]))
  | [], [] => by intro _ rest; simp [wireList, leavesList]
  | [], _ :: _ => by intro h; rw [SameList] at h; exact h.elim
  | _ :: _, [] => by intro h; rw [SameList] at h; exact h.elim
  | n :: ns, n' :: ns' => by
    intro h rest
    rw [SameList] at h
    obtain ⟨e1, e2⟩ := shape_wire sem f n n' h.1 ((leavesList ns').map f ++ rest)
    obtain ⟨e3, e4⟩ := shapeList_wire sem f ns ns' h.2 rest
    rw [leavesList, List.map_append, List.append_assoc, wireList]
    rw [e1]
    refine ⟨e3, ?_⟩
    intro c hc x hx
    rcases List.mem_cons.1 hc with rfl | hc
    · obtain ⟨y, hy, hh⟩ := e2 x hx
      exact ⟨n', by simp, y, hy, hh⟩
    · obtain ⟨c, hc', y, hy, hh⟩ := e4 _ hc x hx
      exact ⟨c, by simp [hc'], y, hy, hh⟩
end

theorem renameLayer_self (a : String) (l : Layer) : renameLayer a a l = l := by
  have hk : ∀ k : Kw, renameKw a a k = k := by
    intro k; cases k with
    | tensor s n t => simp only [renameKw]; split <;> simp_all
    | value v => rfl
  have hc : ∀ c : Conn, renameConn a a c = c := by
    intro c
    rcases c with ⟨s, n, t, kw⟩
    simp only [renameConn, hk]
    congr 1
    · split <;> simp_all
    · exact List.map_id _
  rw [renameLayer]
  have h2 : ∀ node : List Conn, node.map (renameConn a a) = node := by
    intro node
    conv_rhs => rw [← List.map_id node]
    exact List.map_congr_left fun x _ => hc x
  have h1 : (l.inbound.map fun node => node.map (renameConn a a)) = l.inbound := by
    conv_rhs => rw [← List.map_id l.inbound]
    exact List.map_congr_left fun x _ => h2 x
  rw [h1]

theorem rename_inboundNames {old new s : String} {l : Layer} (h : s ∈ inboundNames (renameLayer old new l)) :
    s ∈ inboundNames l ∨ s = new := by
  simp only [inboundNames, renameLayer, List.mem_flatMap, List.mem_map] at h ⊢
  obtain ⟨_, ⟨node, hnode, rfl⟩, _, hc0, hs⟩ := h
  obtain ⟨c, hc, rfl⟩ := List.mem_map.1 hc0
  simp only [connSources, renameConn, List.mem_cons, List.mem_filterMap, List.mem_map] at hs
  rcases hs with hs | ⟨e', ⟨e, he, rfl⟩, hs⟩
  · split at hs
    · exact Or.inr hs
    · exact Or.inl ⟨node, hnode, c, hc, by simp [connSources, hs]⟩
  · cases hk : e.2 with
    | value v => rw [hk] at hs; simp [renameKw, kwSource] at hs
    | tensor src n t =>
      rw [hk] at hs
      simp only [renameKw, kwSource, Option.some.injEq] at hs
      split at hs
      · exact Or.inr hs.symm
      · refine Or.inl ⟨node, hnode, c, hc, ?_⟩
        rw [connSources, List.mem_cons]
        exact Or.inr (List.mem_filterMap.2 ⟨e, he, by rw [hk, kwSource, hs]⟩)

/-! ### A layer whose output goes to one other layer only -/

/-- In a functional model. -/
structure FeedsF (g : Graph V M) (a b : String) : Prop where
  functional : g.functional = true
  ne : a ≠ b
  countA : (g.layers.map (·.name)).count a = 1
  countB : (g.layers.map (·.name)).count b = 1
  conn : ∀ y ∈ g.layers, y.name = b → ∃ c, y.inbound = [[c]] ∧ c.src = a
  only : ∀ l ∈ g.layers, a ∈ inboundNames l → l.name = b
  outs : ∀ o ∈ g.outputs, o.1 ≠ a
  single : ∀ x ∈ g.layers, x.name = a → x.inbound.length ≤ 1

/-- In a Sequential model. -/
structure FeedsS (g : Graph V M) (a b : String) : Prop where
  functional : g.functional = false
  unique : Spec.UniqueNames g
  adjacent : ∃ p q, g.layers.map (·.name) = p ++ a :: b :: q

section
variable [Inhabited M] [DecidableEq M]

theorem names_after {g : Graph V M} {m r : Node V M} {g'} (h : replaceFunctional g m r = .ok g') :
    g'.layers.map (·.name) = (g.layers.map (·.name)).filter (fun x => !decide (x ∈ nodeNames m)) ++ nodeNames r := by
  rw [replaceFunctional_layers h, List.map_append]
  congr 1
  · induction g.layers with
    | nil => rfl
    | cons l ls ih =>
      have hn : (if m.name ∈ inboundNames l then renameLayer m.name r.name l else l).name = l.name := by
        split <;> rfl
      simp only [List.map_cons, List.filter_cons, hn]
      split
      · simp only [List.map_cons, hn, List.cons.injEq, true_and]; exact ih
      · exact ih
  · rw [List.map_map, ← wire_nodeNames r (leafInbounds m r)]; rfl

theorem mem_after {g : Graph V M} {m r : Node V M} {g'} (h : replaceFunctional g m r = .ok g') {l' : Layer}
    (hl' : l' ∈ g'.layers) :
    (∃ l ∈ g.layers, l.name ∉ nodeNames m ∧ l' = renameLayer m.name r.name l) ∨
    (∃ n, Spec.InTree n (wire r (leafInbounds m r)).1 ∧ l' = n.layer) := by
  rw [replaceFunctional_layers h, List.mem_append] at hl'
  rcases hl' with hl' | hl'
  · simp only [List.mem_filter, List.mem_map, rename_all] at hl'
    obtain ⟨⟨l, hl, rfl⟩, hn⟩ := hl'
    rw [Bool.not_eq_true', decide_eq_false_iff_not] at hn
    exact Or.inl ⟨l, hl, hn, rfl⟩
  · simp only [List.mem_map, mem_preorder] at hl'
    obtain ⟨n, hn, rfl⟩ := hl'
    exact Or.inr ⟨n, hn, rfl⟩

theorem count_filter_not {xs ys : List String} {a : String} (h : a ∉ ys) :
    (xs.filter fun x => !decide (x ∈ ys)).count a = xs.count a := by
  rw [List.count_filter]
  simp [h]

/-- A replacement of other layers. -/
theorem feedsF_other {g : Graph V M} {m r : Node V M} {g'} {a b : String} (hf : FeedsF g a b)
    (hm : ∀ n, Spec.InTree n m → n.layer ∈ g.layers)
    (h : replaceFunctional g m r = .ok g') (hfun : g'.functional = g.functional)
    (ham : a ∉ nodeNames m) (hbm : b ∉ nodeNames m) (har : a ∉ nodeNames r) (hbr : b ∉ nodeNames r) :
    FeedsF g' a b := by
  have hlen := (replaceFunctional_ok h).1
  have hroot : m.name ∈ nodeNames m := (mem_nodeNames _ _).2 ⟨m, .root _, rfl⟩
  have hrootr : r.name ∈ nodeNames r := (mem_nodeNames _ _).2 ⟨r, .root _, rfl⟩
  have hwn : ∀ n, Spec.InTree n (wire r (leafInbounds m r)).1 → n.name ∈ nodeNames r := by
    intro n hn
    rw [← wire_nodeNames r (leafInbounds m r)]
    exact (mem_nodeNames _ _).2 ⟨n, hn, rfl⟩
  refine ⟨hfun.trans hf.functional, hf.ne, ?_, ?_, ?_, ?_, ?_, ?_⟩
  · rw [names_after h, List.count_append, count_filter_not ham, hf.countA, List.count_eq_zero_of_not_mem har]
  · rw [names_after h, List.count_append, count_filter_not hbm, hf.countB, List.count_eq_zero_of_not_mem hbr]
  · intro y hy hyb
    rcases mem_after h hy with ⟨l, hl, -, rfl⟩ | ⟨n, hn, rfl⟩
    · obtain ⟨c, hc, hs⟩ := hf.conn l hl hyb
      refine ⟨renameConn m.name r.name c, by simp [renameLayer, hc], ?_⟩
      simp only [renameConn, hs]
      rw [if_neg]
      rintro rfl; exact ham hroot
    · exact absurd (hyb ▸ hwn n hn) hbr
  · intro l' hl' ha
    rcases mem_after h hl' with ⟨l, hl, -, rfl⟩ | ⟨n, hn, rfl⟩
    · rcases rename_inboundNames ha with ha | rfl
      · exact hf.only l hl ha
      · exact absurd hrootr har
    · exfalso
      have hle : (leaves r).length ≤ (leafInbounds m r).length := by
        rw [leafInbounds, List.length_map, hlen]
      rcases (wire_spec r _ hle).2 n hn with ⟨-, h2⟩ | ⟨-, h2⟩
      · obtain ⟨l, hl, he⟩ := List.mem_map.1 h2
        rw [inboundNames, ← he, rename_all] at ha
        have ha' : a ∈ inboundNames (renameLayer m.name r.name l) := ha
        obtain ⟨x, hx, -, rfl⟩ := mem_leaves m l hl
        rcases rename_inboundNames ha' with ha' | rfl
        · have := hf.only _ (hm x hx) ha'
          exact hbm ((mem_nodeNames _ _).2 ⟨x, hx, this⟩)
        · exact har hrootr
      · rw [inboundNames, h2] at ha
        simp only [List.flatMap_cons, List.flatMap_nil, List.append_nil, List.mem_flatMap, List.mem_map] at ha
        obtain ⟨_, ⟨c, hc, rfl⟩, ha⟩ := ha
        simp only [connSources, List.filterMap_nil, List.mem_singleton] at ha
        rw [ha] at har
        exact har (hwn c (inTree_trans (inTree_input hc) hn))
  · intro o ho
    obtain ⟨-, rfl⟩ := replaceFunctional_ok h
    rw [foldl_register_outputs] at ho
    simp only [removeLayers, repointed, List.mem_map] at ho
    obtain ⟨o', ho', rfl⟩ := ho
    split
    · rintro rfl; exact har hrootr
    · exact hf.outs o' ho'
  · intro x hx hxa
    rcases mem_after h hx with ⟨l, hl, -, rfl⟩ | ⟨n, hn, rfl⟩
    · simpa [renameLayer] using hf.single l hl hxa
    · exact absurd (hxa ▸ hwn n hn) har

/-- A replacement by layers of the same names, connected in the same way. -/
theorem feedsF_same {g : Graph V M} {m r : Node V M} {g'} {a b : String} (hf : FeedsF g a b)
    (hm : Matched g m) (sem : Spec.Semantics V Val) (hs : Same sem False r m)
    (hca : (nodeNames m).count a ≤ 1) (hcb : (nodeNames m).count b ≤ 1)
    (h : replaceFunctional g m r = .ok g') (hfun : g'.functional = g.functional) :
    FeedsF g' a b := by
  have hnames : nodeNames r = nodeNames m := namesEq_of_keys (same_keys _ _ hs)
  have hhead : r.name = m.name := (same_root hs).1
  have hinb : leafInbounds m r = (leaves m).map (·.inbound) := by
    refine List.map_congr_left fun l _ => ?_
    rw [rename_all, hhead, renameLayer_self]
  have hw : ∀ n', Spec.InTree n' (wire r (leafInbounds m r)).1 → ∃ n, Spec.InTree n m ∧ n.name = n'.name ∧
      n.layer.cls = n'.layer.cls ∧ ((n.inputs = [] ∧ n'.layer.inbound = n.layer.inbound) ∨
        (n.inputs ≠ [] ∧ n'.layer.inbound = [n.inputs.map fun c => ⟨c.name, 0, 0, []⟩])) := by
    have := (shape_wire sem (·.inbound) r m hs []).2
    rw [List.append_nil, ← hinb] at this
    exact this
  have count : ∀ x, (g.layers.map (·.name)).count x = 1 → (nodeNames m).count x ≤ 1 →
      (g'.layers.map (·.name)).count x = 1 := by
    intro x hx hxm
    rw [names_after h, hnames, List.count_append]
    by_cases hmem : x ∈ nodeNames m
    · rw [List.count_eq_zero_of_not_mem (by simp [hmem])]
      have := List.count_pos_iff.2 hmem
      omega
    · rw [count_filter_not hmem, hx, List.count_eq_zero_of_not_mem hmem]
  have hsrc : ∀ n, Spec.InTree n m → ∀ c ∈ n.inputs, c.name ∈ (n.layer.inbound.headD []).map (·.src) := by
    intro n hn c hc
    have := hm.inputs n hn (List.ne_nil_of_mem hc)
    have hcl : c.layer ∈ getLayers g ((n.layer.inbound.headD []).map (·.src)) := by
      rw [← this]; exact List.mem_map_of_mem hc
    exact of_decide_eq_true (List.mem_filter.1 hcl).2
  have hsub : ∀ (l : Layer) s, s ∈ (l.inbound.headD []).map (·.src) → s ∈ inboundNames l := by
    intro l s hs
    obtain ⟨c, hc, rfl⟩ := List.mem_map.1 hs
    cases hl : l.inbound with
    | nil => rw [hl] at hc; simp at hc
    | cons node rest =>
      rw [hl] at hc
      simp only [List.headD_cons] at hc
      rw [inboundNames, hl, List.flatMap_cons, List.mem_append]
      exact Or.inl (List.mem_flatMap.2 ⟨c, hc, by simp [connSources]⟩)
  refine ⟨hfun.trans hf.functional, hf.ne, count a hf.countA hca, count b hf.countB hcb, ?_, ?_, ?_, ?_⟩
  · intro y hy hyb
    rcases mem_after h hy with ⟨l, hl, -, rfl⟩ | ⟨n', hn', rfl⟩
    · rw [hhead, renameLayer_self] at hyb ⊢
      exact hf.conn l hl hyb
    · obtain ⟨n, hn, e1, -, ⟨-, e3⟩ | ⟨hne, e3⟩⟩ := hw n' hn'
      · rw [e3]; exact hf.conn _ (hm.mem n hn) (e1.trans hyb)
      · obtain ⟨c, hc, hca'⟩ := hf.conn _ (hm.mem n hn) (e1.trans hyb)
        have hin := hm.inputs n hn hne
        rw [hc] at hin
        simp only [List.headD_cons, List.map_cons, List.map_nil, hca'] at hin
        have hlen : (getLayers g [a]).length = 1 := by
          have : (getLayers g [a]).length = (g.layers.map (·.name)).count a := by
            rw [getLayers, List.count_eq_countP, List.countP_map, List.countP_eq_length_filter]
            congr 1
            refine List.filter_congr fun x _ => ?_
            rw [Bool.eq_iff_iff]
            simp
          rw [this, hf.countA]
        cases hni : n.inputs with
        | nil => exact absurd hni hne
        | cons x xs =>
          have hxs : xs = [] := by
            have := congrArg List.length hin
            rw [List.length_map, hlen, hni] at this
            simpa using this
          subst hxs
          have hxa : x.name = a := by
            have := hsrc n hn x (by rw [hni]; simp)
            rw [hc] at this
            simpa [hca'] using this
          rw [e3, hni]
          exact ⟨_, rfl, hxa⟩
  · intro l' hl' ha
    rcases mem_after h hl' with ⟨l, hl, -, rfl⟩ | ⟨n', hn', rfl⟩
    · rw [hhead, renameLayer_self] at ha ⊢
      exact hf.only l hl ha
    · obtain ⟨n, hn, e1, -, ⟨-, e3⟩ | ⟨hne, e3⟩⟩ := hw n' hn'
      · rw [inboundNames, e3] at ha
        exact e1.symm.trans (hf.only _ (hm.mem n hn) ha)
      · rw [inboundNames, e3] at ha
        simp only [List.flatMap_cons, List.flatMap_nil, List.append_nil, List.mem_flatMap, List.mem_map] at ha
        obtain ⟨_, ⟨c, hc, rfl⟩, ha⟩ := ha
        simp only [connSources, List.filterMap_nil, List.mem_singleton] at ha
        exact e1.symm.trans (hf.only _ (hm.mem n hn) (hsub _ _ (ha ▸ hsrc n hn c hc)))
  · intro o ho
    obtain ⟨-, rfl⟩ := replaceFunctional_ok h
    rw [foldl_register_outputs] at ho
    simp only [removeLayers, repointed, List.mem_map] at ho
    obtain ⟨o', ho', rfl⟩ := ho
    split
    · rename_i he
      have := hf.outs o' ho'
      rw [he] at this
      rw [hhead]; exact this
    · exact hf.outs o' ho'
  · intro x hx hxa
    rcases mem_after h hx with ⟨l, hl, -, rfl⟩ | ⟨n', hn', rfl⟩
    · rw [hhead, renameLayer_self] at hxa ⊢
      exact hf.single l hl hxa
    · obtain ⟨n, hn, e1, -, ⟨-, e3⟩ | ⟨hne, e3⟩⟩ := hw n' hn'
      · rw [e3]; exact hf.single _ (hm.mem n hn) (e1.trans hxa)
      · rw [e3]; simp

end

/-! ### Sequential models -/

theorem adjacent_split {p q s t : List String} {a b c : String} (h : p ++ a :: b :: q = s ++ c :: t) (hca : c ≠ a)
    (hcb : c ≠ b) : (∃ q1, s = p ++ a :: b :: q1) ∨ ∃ p1, t = p1 ++ a :: b :: q := by
  rcases List.append_eq_append_iff.1 h with ⟨u, h1, h2⟩ | ⟨u, h1, h2⟩
  · cases u with
    | nil => simp only [List.nil_append, List.cons.injEq] at h2; exact absurd h2.1.symm hca
    | cons x u =>
      simp only [List.cons_append, List.cons.injEq] at h2
      obtain ⟨rfl, h2⟩ := h2
      cases u with
      | nil => simp only [List.nil_append, List.cons.injEq] at h2; exact absurd h2.1.symm hcb
      | cons y u =>
        simp only [List.cons_append, List.cons.injEq] at h2
        obtain ⟨rfl, h2⟩ := h2
        exact Or.inl ⟨u, h1⟩
  · cases u with
    | nil => simp only [List.nil_append, List.cons.injEq] at h2; exact absurd h2.1 hca
    | cons x u =>
      simp only [List.cons_append, List.cons.injEq] at h2
      exact Or.inr ⟨u, h2.2⟩

mutual
theorem same_postorder (sem : Spec.Semantics V Val) : ∀ n n' : Node V M, Same sem False n n' →
    (postorder n).map (·.name) = (postorder n').map (·.name)
  | .mk l w i ins, .mk l' w' i' ins' => by
    intro h
    rw [Same] at h
    rw [postorder, postorder, List.map_append, List.map_append, sameList_postorder sem ins ins' h.2]
    simp only [List.map_cons, List.map_nil, Node.name, Node.layer, h.1.1]
theorem sameList_postorder (sem : Spec.Semantics V Val) : ∀ ns ns' : List (Node V M), SameList sem False ns ns' →
    (postorderList ns).map (·.name) = (postorderList ns').map (·.name)
  | [], [] => fun _ => rfl
  | [], _ :: _ => by intro h; rw [SameList] at h; exact h.elim
  | _ :: _, [] => by intro h; rw [SameList] at h; exact h.elim
  | n :: ns, n' :: ns' => by
    intro h
    rw [SameList] at h
    rw [postorderList, postorderList, List.map_append, List.map_append, same_postorder sem n n' h.1,
      sameList_postorder sem ns ns' h.2]
end

section
variable [Inhabited M] [DecidableEq M]

theorem seq_names {g : Graph V M} (hu : Spec.UniqueNames g) {m r : Node V M} {pre post : List Layer}
    (hg : g.layers = pre ++ (postorder m).map (·.layer) ++ post) :
    g.layers.map (·.name) = pre.map (·.name) ++ (postorder m).map (·.name) ++ post.map (·.name) ∧
    (replaceSequential g m r).layers.map (·.name)
      = pre.map (·.name) ++ (postorder r).map (·.name) ++ post.map (·.name) := by
  rw [replaceSequential_layers g hu m r pre post hg, hg]
  simp only [List.map_append, List.map_map]
  exact ⟨rfl, rfl⟩

theorem feedsS_same {g : Graph V M} {a b : String} (hf : FeedsS g a b) {m r : Node V M} {pre post : List Layer}
    (hg : g.layers = pre ++ (postorder m).map (·.layer) ++ post) (sem : Spec.Semantics V Val)
    (hs : Same sem False r m) (hu : Spec.UniqueNames (replaceSequential g m r))
    (hfun : (replaceSequential g m r).functional = false) : FeedsS (replaceSequential g m r) a b := by
  obtain ⟨p, q, hpq⟩ := hf.adjacent
  refine ⟨hfun, hu, p, q, ?_⟩
  rw [(seq_names hf.unique hg).2, same_postorder sem r m hs, ← (seq_names (r := r) hf.unique hg).1, hpq]

theorem feedsS_other {g : Graph V M} {a b : String} (hf : FeedsS g a b) {l : Layer} {w} {i : M} {r : Node V M}
    {pre post : List Layer} (hg : g.layers = pre ++ (postorder (.mk l w i [] : Node V M)).map (·.layer) ++ post)
    (ha : l.name ≠ a) (hb : l.name ≠ b) (hu : Spec.UniqueNames (replaceSequential g (.mk l w i []) r))
    (hfun : (replaceSequential g (.mk l w i []) r).functional = false) :
    FeedsS (replaceSequential g (.mk l w i []) r) a b := by
  obtain ⟨p, q, hpq⟩ := hf.adjacent
  have h1 := (seq_names (r := r) hf.unique hg).1
  have h2 := (seq_names (r := r) hf.unique hg).2
  rw [hpq] at h1
  simp only [postorder, postorderList, List.nil_append, List.map_cons, List.map_nil, List.append_assoc,
    List.cons_append, Node.name, Node.layer] at h1
  refine ⟨hfun, hu, ?_⟩
  rw [h2]
  rcases adjacent_split h1 ha hb with ⟨q1, e⟩ | ⟨p1, e⟩
  · rw [e]; exact ⟨p, q1 ++ (postorder r).map (·.name) ++ post.map (·.name), by simp⟩
  · rw [e]; exact ⟨pre.map (·.name) ++ (postorder r).map (·.name) ++ p1, q, by simp⟩

end

/-! ### What the search for matches sees -/

section
variable [Inhabited M]

/-- The output of the layer `a` goes to the layer `b` only, which has no other input. -/
structure Feeds (g : Graph V M) (a b : String) : Prop where
  input : ∀ y ∈ g.layers, y.name = b →
    ∃ x ∈ g.layers, x.name = a ∧ getLayers g (inputLayerNames g y) = [x]
  only : ∀ l ∈ g.layers, ∀ x ∈ getLayers g (inputLayerNames g l), x.name = a → l.name = b
  inner : g.functional = true → ∀ x ∈ g.layers, x.name = a → isMatchSupported g x false = true
  head : g.functional = true → ∀ y ∈ g.layers, y.name = b → isMatchSupported g y true = true
  existsA : ∃ x ∈ g.layers, x.name = a
  existsB : ∃ y ∈ g.layers, y.name = b
  uniqueA : ∀ x ∈ g.layers, ∀ x' ∈ g.layers, x.name = a → x'.name = a → x = x'
  uniqueB : ∀ x ∈ g.layers, ∀ x' ∈ g.layers, x.name = b → x'.name = b → x = x'
  ne : a ≠ b

theorem unique_of_count {ls : List Layer} {a : String} (h : (ls.map (·.name)).count a = 1) :
    ∃ x, (ls.filter fun l => decide (l.name = a)) = [x] := by
  rw [← List.length_eq_one_iff, ← h, List.count_eq_countP, List.countP_map, List.countP_eq_length_filter]
  congr 1

theorem feeds_functional {g : Graph V M} {a b : String} (hf : FeedsF g a b) : Feeds g a b := by
  obtain ⟨x, hx⟩ := unique_of_count hf.countA
  obtain ⟨y, hy⟩ := unique_of_count hf.countB
  have memx : ∀ l, (l ∈ g.layers ∧ l.name = a) ↔ l = x := by
    intro l
    have : l ∈ (g.layers.filter fun l => decide (l.name = a)) ↔ l = x := by rw [hx]; simp
    simpa using this
  have memy : ∀ l, (l ∈ g.layers ∧ l.name = b) ↔ l = y := by
    intro l
    have : l ∈ (g.layers.filter fun l => decide (l.name = b)) ↔ l = y := by rw [hy]; simp
    simpa using this
  have hin : ∀ l, inputLayerNames g l = (l.inbound.headD []).map (·.src) := by
    intro l; rw [inputLayerNames, if_pos hf.functional]
  refine ⟨?_, ?_, ?_, ?_, ⟨x, (memx x).2 rfl⟩, ⟨y, (memy y).2 rfl⟩, ?_, ?_, hf.ne⟩
  · intro l hl hlb
    obtain ⟨c, hc, hs⟩ := hf.conn l hl hlb
    refine ⟨x, ((memx x).2 rfl).1, ((memx x).2 rfl).2, ?_⟩
    rw [hin, hc]
    simp only [List.headD_cons, List.map_cons, List.map_nil, hs, getLayers, List.mem_singleton]
    exact hx
  · intro l hl z hz hza
    have hz' := of_decide_eq_true (List.mem_filter.1 hz).2
    rw [hin, hza] at hz'
    refine hf.only l hl ?_
    obtain ⟨c, hc, hs⟩ := List.mem_map.1 hz'
    cases hi : l.inbound with
    | nil => rw [hi] at hc; simp at hc
    | cons node rest =>
      rw [hi] at hc
      simp only [List.headD_cons] at hc
      rw [inboundNames, hi, List.flatMap_cons, List.mem_append]
      exact Or.inl (List.mem_flatMap.2 ⟨c, hc, by simp [connSources, hs]⟩)
  · intro _ z hz hza
    have h1 := hf.single z hz hza
    rw [isMatchSupported, if_neg (by omega), if_neg]
    have h2 : outputConsumers g z.name = [] := by
      rw [outputConsumers, List.filter_eq_nil_iff]
      intro o ho
      have := hf.outs o ho
      simp [hza, this]
    have h3 : (consumers g z.name).length ≤ 1 := by
      have : consumers g z.name = ((g.layers.filter fun l => decide (l.name = b)).filter
          fun l => decide (z.name ∈ inboundNames l)) := by
        rw [List.filter_filter, consumers]
        refine List.filter_congr fun l hl => ?_
        rw [Bool.eq_iff_iff]
        simp only [decide_eq_true_eq, Bool.and_eq_true]
        exact ⟨fun h => ⟨h, hf.only l hl (hza ▸ h)⟩, fun h => h.1⟩
      rw [this, hy]
      exact (List.length_filter_le _ _).trans (by simp)
    rw [h2, List.length_nil]
    omega
  · intro _ z hz hzb
    obtain ⟨c, hc, -⟩ := hf.conn z hz hzb
    rw [isMatchSupported, hc]
    simp
  · intro z hz z' hz' e e'
    rw [(memx z).1 ⟨hz, e⟩, (memx z').1 ⟨hz', e'⟩]
  · intro z hz z' hz' e e'
    rw [(memy z).1 ⟨hz, e⟩, (memy z').1 ⟨hz', e'⟩]

theorem feeds_sequential {g : Graph V M} {a b : String} (hf : FeedsS g a b) : Feeds g a b := by
  obtain ⟨p, q, hpq⟩ := hf.adjacent
  obtain ⟨P, R, hg, hP, hR⟩ := List.map_eq_append_iff.1 hpq
  obtain ⟨x, R', rfl, hxa, hR'⟩ := List.map_eq_cons_iff.1 hR
  obtain ⟨y, Q, rfl, hyb, -⟩ := List.map_eq_cons_iff.1 hR'
  have hnd : g.layers.Nodup := List.Nodup.of_map _ hf.unique
  have hxm : x ∈ g.layers := by rw [hg]; simp
  have hym : y ∈ g.layers := by rw [hg]; simp
  have hidx : g.layers.idxOf x = P.length := by
    have : x ∉ P := by
      intro hp
      rw [hg] at hnd
      exact (List.nodup_append.1 hnd).2.2 x hp x (by simp) rfl
    rw [hg, List.idxOf_append_of_notMem this]; simp
  have hgx : g.layers[P.length]? = some x := by rw [hg]; simp
  have hgy : g.layers[P.length + 1]? = some y := by rw [hg]; simp
  have hidy : g.layers.idxOf y = P.length + 1 := by
    have hlt : P.length + 1 < g.layers.length := by rw [hg]; simp
    have he : g.layers[P.length + 1] = y := by
      have := List.getElem?_eq_getElem hlt
      rw [hgy] at this
      exact (Option.some.inj this).symm
    rw [← he]
    exact List.Nodup.idxOf_getElem hnd _ hlt
  have hun : ∀ z ∈ g.layers, ∀ z' ∈ g.layers, z.name = z'.name → z = z' :=
    fun z hz z' hz' h => nodup_map_inj hf.unique hz hz' h
  refine ⟨?_, ?_, ?_, ?_, ⟨x, hxm, hxa⟩, ⟨y, hym, hyb⟩, ?_, ?_, ?_⟩
  · intro l hl hlb
    obtain rfl := hun l hl y hym (hlb.trans hyb.symm)
    refine ⟨x, hxm, hxa, ?_⟩
    rw [inputLayerNames, if_neg (by rw [hf.functional]; simp), hidy]
    simp only [hgx, Option.toList_some, List.map_cons, List.map_nil]
    exact getLayers_single hf.unique hxm
  · intro l hl z hz hza
    have hzm := getLayers_subset _ _ _ hz
    have hz' := of_decide_eq_true (List.mem_filter.1 hz).2
    obtain rfl := hun z hzm x hxm (hza.trans hxa.symm)
    rw [inputLayerNames, if_neg (by rw [hf.functional]; simp)] at hz'
    cases hi : g.layers.idxOf l with
    | zero => rw [hi] at hz'; simp at hz'
    | succ i =>
      rw [hi] at hz'
      simp only [List.mem_map, Option.mem_toList] at hz'
      obtain ⟨z', hz', hn⟩ := hz'
      have hlt : i < g.layers.length := by
        by_contra hge
        rw [List.getElem?_eq_none (by omega)] at hz'
        simp at hz'
      obtain rfl := hun z' (List.mem_of_getElem? hz') z hzm hn
      have hii : i = P.length := by
        rw [← hidx]
        have := List.getElem?_eq_getElem hlt
        rw [hz'] at this
        rw [Option.some.inj this]
        exact (List.Nodup.idxOf_getElem hnd _ hlt).symm
      have hll : g.layers[g.layers.idxOf l]? = some l := by
        have hlt' := List.idxOf_lt_length_of_mem hl
        rw [List.getElem?_eq_getElem hlt', List.getElem_idxOf hlt']
      rw [hi, hii, hgy] at hll
      rw [← Option.some.inj hll]; exact hyb
  · intro h; rw [hf.functional] at h; simp at h
  · intro h; rw [hf.functional] at h; simp at h
  · intro z hz z' hz' e e'
    exact hun z hz z' hz' (e.trans e'.symm)
  · intro z hz z' hz' e e'
    exact hun z hz z' hz' (e.trans e'.symm)
  · intro h
    have : x = y := hun x hxm y hym (by rw [hxa, hyb, h])
    rw [this, hidy] at hidx
    omega

end

end Aux
end Verif.Props
