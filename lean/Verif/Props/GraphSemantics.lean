import Verif.Props.Transformer

/-!
# C76, C77: replacing a piece of a functional model

What a functional model computes is described by its *runs*: assignments of values to all tensors
of the model that agree with what the layers compute.
-/

set_option linter.unusedSectionVars false

namespace Verif.Props
open Verif.Quant.Transformer

variable {V M Val : Type}

namespace Spec

/-- An argument of a call: the tensor and the keyword arguments (tensors or constants). -/
abbrev Arg (Val : Type) := Val × List (String × (Val ⊕ String))

/-- What layers compute: from the class, the configuration, the weights and the arguments, the
output tensors (numbered from 0). -/
abbrev Semantics (V Val : Type) :=
  String → List (String × String) → List (String × V) → List (Arg Val) → ℕ → Val

/-- The value of a keyword argument under an assignment of values to tensors. -/
def kwValue (v : String → ℕ → ℕ → Val) : Kw → Val ⊕ String
  | .tensor s n t => .inl (v s n t)
  | .value x => .inr x

/-- The value of an entry of an inbound node. -/
def argOf (v : String → ℕ → ℕ → Val) (c : Conn) : Arg Val :=
  (v c.src c.node c.tensor, c.kw.map fun e => (e.1, kwValue v e.2))

/-- `v layer node tensor` is a run of the model: for every call of every layer, the values of its
output tensors are what the layer computes from its arguments.  The values of layers without
inbound nodes, the input layers, are arbitrary; an input layer has a single tensor. -/
structure IsRun (sem : Semantics V Val) (g : Graph V M) (v : String → ℕ → ℕ → Val) : Prop where
  calls : ∀ l ∈ g.layers, ∀ i node, l.inbound[i]? = some node →
    v l.name i = sem l.cls l.config (g.weights l.name) (node.map (argOf v))
  single : ∀ l ∈ g.layers, l.inbound = [] → ∀ t, v l.name 0 t = v l.name 0 0

/-- The values of the outputs of the model. -/
def outputValues (g : Graph V M) (v : String → ℕ → ℕ → Val) : List Val :=
  g.outputs.map fun o => v o.1 o.2.1 o.2.2

/-- The calls (layer, node index) a keyword argument refers to. -/
def kwRefs : Kw → List (String × ℕ)
  | .tensor s n _ => [(s, n)]
  | .value _ => []

/-- The calls an entry of an inbound node refers to. -/
def refs (c : Conn) : List (String × ℕ) := (c.src, c.node) :: c.kw.flatMap fun e => kwRefs e.2

/-- `(s, k)` is a call of a layer of the model.  (An input layer has the call 0.) -/
def IsCall (g : Graph V M) (r : String × ℕ) : Prop :=
  ∃ l ∈ g.layers, l.name = r.1 ∧ r.2 < max 1 l.inbound.length

/-- A well-formed functional model: names are unique, every reference is to an existing call, there
are no cycles, and there are weights for existing layers only. -/
structure Valid (g : Graph V M) : Prop where
  unique : UniqueNames g
  closed : ∀ l ∈ g.layers, ∀ node ∈ l.inbound, ∀ c ∈ node, ∀ r ∈ refs c, IsCall g r
  outputs : ∀ o ∈ g.outputs, IsCall g (o.1, o.2.1)
  acyclic : ∃ rank : String → ℕ → ℕ, ∀ l ∈ g.layers, ∀ i node, l.inbound[i]? = some node →
    ∀ c ∈ node, ∀ r ∈ refs c, rank r.1 r.2 < rank l.name i
  weights : ∀ n, (∀ l ∈ g.layers, l.name ≠ n) → g.weights n = []

/-- The names of the replacement are distinct, and each is the name of a matched layer or new. -/
structure GoodNames (g : Graph V M) (m r : Node V M) : Prop where
  distinct : (nodeNames r).Nodup
  fresh : ∀ n ∈ nodeNames r, n ∈ nodeNames m ∨ ∀ l ∈ g.layers, l.name ≠ n

/-- In the match the layers that are not leaves are called in the simplest way: once, with the first
output tensors of their input layers, in the order of the node's inputs, and without keyword
arguments. -/
def PlainCalls (m : Node V M) : Prop :=
  ∀ n, InTree n m → n.inputs ≠ [] →
    n.layer.inbound = [n.inputs.map fun c => ⟨c.name, 0, 0, []⟩]

mutual
/-- The value of the head of a tree of layers, when the leaves get their arguments from `v`. -/
def treeValue (sem : Semantics V Val) (v : String → ℕ → ℕ → Val) : Node V M → ℕ → Val
  | .mk l w _ [] =>
    match l.inbound with
    | [] => v l.name 0
    | node :: _ => sem l.cls l.config w (node.map (argOf v))
  | .mk l w _ (n :: ns) =>
    sem l.cls l.config w ((treeValue sem v n 0, []) :: treeArgs sem v ns)
/-- The first output tensors of a list of trees, as arguments. -/
def treeArgs (sem : Semantics V Val) (v : String → ℕ → ℕ → Val) : List (Node V M) → List (Arg Val)
  | [] => []
  | n :: ns => (treeValue sem v n 0, []) :: treeArgs sem v ns
end

end Spec

namespace Aux

theorem treeArgs_eq (sem : Spec.Semantics V Val) (v : String → ℕ → ℕ → Val)
    (ns : List (Node V M)) :
    Spec.treeArgs sem v ns = ns.map fun n => (Spec.treeValue sem v n 0, []) := by
  induction ns with
  | nil => rfl
  | cons n ns ih => rw [Spec.treeArgs, ih]; rfl

theorem treeValue_inner (sem : Spec.Semantics V Val) (v : String → ℕ → ℕ → Val) (n : Node V M)
    (h : n.inputs ≠ []) : Spec.treeValue sem v n = sem n.layer.cls n.layer.config n.weights
      (n.inputs.map fun c => (Spec.treeValue sem v c 0, [])) := by
  cases n with
  | mk l w i ins =>
    cases ins with
    | nil => exact absurd rfl h
    | cons c cs =>
      rw [Spec.treeValue, treeArgs_eq]
      rfl

theorem treeValue_leaf (sem : Spec.Semantics V Val) (v : String → ℕ → ℕ → Val) (n : Node V M)
    (h : n.inputs = []) (node : List Conn) (rest) (hi : n.layer.inbound = node :: rest) :
    Spec.treeValue sem v n = sem n.layer.cls n.layer.config n.weights (node.map (Spec.argOf v)) := by
  cases n with
  | mk l w i ins =>
    simp only [Node.inputs] at h
    subst h
    simp only [Node.layer] at hi
    rw [Spec.treeValue, hi]
    rfl

theorem treeValue_input (sem : Spec.Semantics V Val) (v : String → ℕ → ℕ → Val) (n : Node V M)
    (h : n.inputs = []) (hi : n.layer.inbound = []) :
    Spec.treeValue sem v n = v n.name 0 := by
  cases n with
  | mk l w i ins =>
    simp only [Node.inputs] at h
    subst h
    simp only [Node.layer] at hi
    rw [Spec.treeValue, hi]
    rfl

theorem inTree_trans {a b c : Node V M} (h1 : Spec.InTree a b) (h2 : Spec.InTree b c) :
    Spec.InTree a c := by
  induction h2 with
  | root => exact h1
  | child hc _ ih => exact .child hc ih

theorem inTree_input {n c : Node V M} (h : c ∈ n.inputs) : Spec.InTree c n := by
  cases n
  exact .child h (.root _)

/-- Induction on a tree of nodes. -/
theorem node_induction {P : Node V M → Prop}
    (h : ∀ n : Node V M, (∀ c ∈ n.inputs, P c) → P n) : ∀ n, P n
  | .mk l w i ins => by
    refine h _ ?_
    intro c hc
    have hlt : c ∈ ins := hc
    exact node_induction h c
termination_by n => sizeOf n
decreasing_by
  simp only [Node.mk.sizeOf_spec]
  have := List.sizeOf_lt_of_mem hlt
  omega

section Match
variable [Inhabited M]

mutual
/-- What holds of every node of a match in a functional model. -/
theorem matchTree_supported (g : Graph V M) (hf : g.functional = true) :
    ∀ (p : Pattern) (l : Layer) (h : Bool) (m : Node V M), l ∈ g.layers →
    matchTree g p l h = some m → ∀ n, Spec.InTree n m →
      (n = m ∧ isMatchSupported g n.layer h = true ∨ isMatchSupported g n.layer false = true) ∧
      (n.inputs ≠ [] → n.inputs.map (·.layer)
        = getLayers g ((n.layer.inbound.headD []).map (·.src)))
  | .mk cls config inputs, l, h, m => by
    intro hl hm n hn
    obtain ⟨-, hsup, ⟨-, rfl⟩ | ⟨hne, ns, hns, rfl⟩⟩ := matchTree_split hm
    · cases hn with
      | root => exact ⟨Or.inl ⟨rfl, hsup hf⟩, fun hh => absurd rfl hh⟩
      | child hc _ => simp at hc
    · simp only [inputLayerNames, hf, if_true] at hns
      cases hn with
      | root =>
        refine ⟨Or.inl ⟨rfl, hsup hf⟩, fun _ => ?_⟩
        exact (matchTrees_supported g hf inputs _ ns (getLayers_subset g _) hns).1
      | child hc hn =>
        have := (matchTrees_supported g hf inputs _ ns (getLayers_subset g _) hns).2 _ hc n hn
        exact ⟨Or.inr this.1, this.2⟩
theorem matchTrees_supported (g : Graph V M) (hf : g.functional = true) :
    ∀ (ps : List Pattern) (ls : List Layer)
    (ns : List (Node V M)), (∀ l ∈ ls, l ∈ g.layers) → matchTrees g ps ls = some ns →
    ns.map (·.layer) = ls ∧
    ∀ c ∈ ns, ∀ n, Spec.InTree n c → isMatchSupported g n.layer false = true ∧
      (n.inputs ≠ [] → n.inputs.map (·.layer)
        = getLayers g ((n.layer.inbound.headD []).map (·.src)))
  | [], [], ns => by
    intro _ h
    simp only [matchTrees, Option.some.injEq] at h
    subst h
    simp
  | [], _ :: _, ns => by intro _ h; simp [matchTrees] at h
  | _ :: _, [], ns => by intro _ h; simp [matchTrees] at h
  | p :: ps, l :: ls, ns => by
    intro hls h
    rw [matchTrees] at h
    obtain ⟨n0, h0, h1⟩ := Option.bind_eq_some_iff.1 h
    obtain ⟨ns', h2, rfl⟩ := Option.map_eq_some_iff.1 h1
    have ih := matchTrees_supported g hf ps ls ns' (fun x hx => hls x (by simp [hx])) h2
    refine ⟨by rw [List.map_cons, ih.1, matchTree_layer h0], ?_⟩
    intro c hc n hn
    rcases List.mem_cons.1 hc with rfl | hc
    · have := matchTree_supported g hf p l false c (hls l (by simp)) h0 n hn
      refine ⟨?_, this.2⟩
      rcases this.1 with ⟨-, h⟩ | h <;> exact h
    · exact ih.2 c hc n hn
end

end Match

/-- What `findPattern` guarantees in a functional model. -/
structure Matched (g : Graph V M) (m : Node V M) : Prop where
  mem : ∀ n, Spec.InTree n m → n.layer ∈ g.layers
  weights : ∀ n, Spec.InTree n m → n.weights = g.weights n.name
  single : ∀ n, Spec.InTree n m → n.layer.inbound.length ≤ 1
  consumers : ∀ n, Spec.InTree n m → n = m ∨
    (consumers g n.name).length + (outputConsumers g n.name).length ≤ 1
  inputs : ∀ n, Spec.InTree n m → n.inputs ≠ [] → n.inputs.map (·.layer)
        = getLayers g ((n.layer.inbound.headD []).map (·.src))

theorem supported_single {g : Graph V M} {l : Layer} {h : Bool}
    (hs : isMatchSupported g l h = true) : l.inbound.length ≤ 1 := by
  rw [isMatchSupported] at hs
  split at hs
  · simp at hs
  · omega

theorem supported_consumers {g : Graph V M} {l : Layer}
    (hs : isMatchSupported g l false = true) :
    (Verif.Quant.Transformer.consumers g l.name).length + (outputConsumers g l.name).length ≤ 1 := by
  rw [isMatchSupported] at hs
  split at hs
  · simp at hs
  · split at hs
    · simp at hs
    · omega

theorem matched_of_find [Inhabited M] {g : Graph V M} (hf : g.functional = true) {p matched m}
    (h : findPattern g p matched = some m) : Matched g m := by
  obtain ⟨hml, -, hmt⟩ := findPattern_some h
  have h1 := matchTree_nodes g p m.layer true m hml hmt
  have h2 := matchTree_supported g hf p m.layer true m hml hmt
  refine ⟨fun n hn => (h1 n hn).1, fun n hn => (h1 n hn).2.1, ?_, ?_, fun n hn => (h2 n hn).2⟩
  · intro n hn
    rcases (h2 n hn).1 with ⟨-, hs⟩ | hs <;> exact supported_single hs
  · intro n hn
    rcases (h2 n hn).1 with ⟨he, -⟩ | hs
    · exact Or.inl he
    · exact Or.inr (supported_consumers hs)

/-- In a run, a plainly called match has the value of the tree. -/
theorem match_value (sem : Spec.Semantics V Val) {g : Graph V M} {v : String → ℕ → ℕ → Val}
    (hv : Spec.IsRun sem g v) {m : Node V M} (hm : Matched g m) (hp : Spec.PlainCalls m) :
    ∀ n, Spec.InTree n m → v n.name 0 = Spec.treeValue sem v n := by
  refine node_induction (P := fun n => Spec.InTree n m → v n.name 0 = Spec.treeValue sem v n) ?_
  intro n ih hn
  have hl := hm.mem n hn
  have hw := hm.weights n hn
  by_cases hi : n.inputs = []
  · cases hin : n.layer.inbound with
    | nil => rw [treeValue_input sem v n hi hin]
    | cons node rest =>
      rw [treeValue_leaf sem v n hi node rest hin, hw]
      exact hv.calls _ hl 0 node (by rw [hin]; rfl)
  · rw [treeValue_inner sem v n hi, hw]
    have hin := hp n hn hi
    have := hv.calls _ hl 0 _ (by rw [hin]; rfl)
    rw [Node.name, this]
    congr 1
    rw [List.map_map]
    refine List.map_congr_left ?_
    intro c hc
    have := ih c hc (inTree_trans (inTree_input hc) hn)
    simp [Spec.argOf, this]

/-! ### References -/

theorem mem_inboundNames (l : Layer) (s : String) :
    s ∈ inboundNames l ↔ ∃ node ∈ l.inbound, ∃ c ∈ node, ∃ k, (s, k) ∈ Spec.refs c := by
  simp only [inboundNames, List.mem_flatMap]
  constructor
  · rintro ⟨node, hn, c, hc, h⟩
    refine ⟨node, hn, c, hc, ?_⟩
    simp only [connSources, List.mem_cons, List.mem_filterMap] at h
    rcases h with rfl | ⟨e, he, hs⟩
    · exact ⟨c.node, by simp [Spec.refs]⟩
    · cases hk : e.2 with
      | tensor a b d =>
        rw [hk] at hs
        simp only [kwSource, Option.some.injEq] at hs
        subst hs
        refine ⟨b, ?_⟩
        simp only [Spec.refs, List.mem_cons, List.mem_flatMap]
        exact Or.inr ⟨e, he, by rw [hk]; simp [Spec.kwRefs]⟩
      | value x => rw [hk] at hs; simp [kwSource] at hs
  · rintro ⟨node, hn, c, hc, k, h⟩
    refine ⟨node, hn, c, hc, ?_⟩
    simp only [Spec.refs, List.mem_cons, List.mem_flatMap, Prod.mk.injEq] at h
    simp only [connSources, List.mem_cons, List.mem_filterMap]
    rcases h with ⟨rfl, -⟩ | ⟨e, he, hs⟩
    · exact Or.inl rfl
    · right
      refine ⟨e, he, ?_⟩
      cases hk : e.2 with
      | tensor a b d =>
        rw [hk] at hs
        simp only [Spec.kwRefs, List.mem_singleton, Prod.mk.injEq] at hs
        simp [kwSource, hs.1]
      | value x => rw [hk] at hs; simp [Spec.kwRefs] at hs

/-- Renaming has no effect on a layer that does not mention the name. -/
theorem renameConn_refs (old new : String) (c : Conn) :
    Spec.refs (renameConn old new c)
      = (Spec.refs c).map fun r => (if r.1 = old then new else r.1, r.2) := by
  simp only [Spec.refs, renameConn, List.map_cons, List.cons.injEq, true_and]
  rw [List.map_flatMap, List.flatMap_map]
  refine List.flatMap_congr ?_
  intro e _
  cases he : e.2 with
  | tensor a b d => simp [renameKw, Spec.kwRefs]
  | value x => simp [renameKw, Spec.kwRefs]

theorem renameConn_arg (old new : String) (c : Conn) (v v' : String → ℕ → ℕ → Val)
    (h : ∀ r ∈ Spec.refs c, v' (if r.1 = old then new else r.1) r.2 = v r.1 r.2) :
    Spec.argOf v' (renameConn old new c) = Spec.argOf v c := by
  have h0 := h (c.src, c.node) (by simp [Spec.refs])
  simp only [Spec.argOf, renameConn, List.map_map]
  refine Prod.ext ?_ ?_
  · simpa using congrFun h0 c.tensor
  · refine List.map_congr_left ?_
    intro e he
    simp only [Function.comp, Prod.mk.injEq, true_and]
    cases hk : e.2 with
    | tensor a b d =>
      have := h (a, b) (by
        simp only [Spec.refs, List.mem_cons, List.mem_flatMap]
        exact Or.inr ⟨e, he, by rw [hk]; simp [Spec.kwRefs]⟩)
      simp only [renameKw, Spec.kwValue]
      exact congrArg Sum.inl (congrFun this d)
    | value x => simp [renameKw, Spec.kwValue]

theorem arg_congr (c : Conn) (v v' : String → ℕ → ℕ → Val)
    (h : ∀ r ∈ Spec.refs c, v' r.1 r.2 = v r.1 r.2) : Spec.argOf v' c = Spec.argOf v c := by
  have h0 := h (c.src, c.node) (by simp [Spec.refs])
  simp only [Spec.argOf]
  refine Prod.ext ?_ ?_
  · exact congrFun h0 c.tensor
  · refine List.map_congr_left ?_
    intro e he
    simp only [Prod.mk.injEq, true_and]
    cases hk : e.2 with
    | tensor a b d =>
      have := h (a, b) (by
        simp only [Spec.refs, List.mem_cons, List.mem_flatMap]
        exact Or.inr ⟨e, he, by rw [hk]; simp [Spec.kwRefs]⟩)
      simp only [Spec.kwValue]
      exact congrArg Sum.inl (congrFun this d)
    | value x => simp [Spec.kwValue]

theorem map_self {α : Type} (f : α → α) (xs : List α) (h : ∀ x ∈ xs, f x = x) : xs.map f = xs := by
  induction xs with
  | nil => rfl
  | cons x xs ih => rw [List.map_cons, h x (by simp), ih fun y hy => h y (by simp [hy])]

/-- The renaming of step 1 as a renaming of all layers. -/
theorem rename_all (old new : String) (l : Layer) :
    (if old ∈ inboundNames l then renameLayer old new l else l) = renameLayer old new l := by
  split
  · rfl
  · rename_i hn
    have hconn : ∀ node ∈ l.inbound, ∀ c ∈ node, renameConn old new c = c := by
      intro node hnode c hc
      have href : ∀ r ∈ Spec.refs c, r.1 ≠ old := by
        intro r hr he
        refine hn ((mem_inboundNames l old).2 ⟨node, hnode, c, hc, r.2, ?_⟩)
        rw [← he]; exact hr
      have h0 : c.src ≠ old := href (c.src, c.node) (by simp [Spec.refs])
      have hkw : (c.kw.map fun e => (e.1, renameKw old new e.2)) = c.kw := by
        conv => rhs; rw [← List.map_id c.kw]
        refine List.map_congr_left ?_
        intro e he
        cases hk : e.2 with
        | tensor a b d =>
          have ha : a ≠ old := href (a, b) (by
            simp only [Spec.refs, List.mem_cons, List.mem_flatMap]
            exact Or.inr ⟨e, he, by rw [hk]; simp [Spec.kwRefs]⟩)
          simp [renameKw, ha, ← hk]
        | value x => simp [renameKw, ← hk]
      cases c
      simp only [renameConn, Conn.mk.injEq]
      refine ⟨if_neg h0, trivial, trivial, hkw⟩
    have hin : (l.inbound.map fun node => node.map (renameConn old new)) = l.inbound :=
      map_self _ _ fun node hnode => map_self _ _ fun c hc => hconn node hnode c hc
    cases l
    simp only [renameLayer, Layer.mk.injEq, true_and]
    exact hin.symm

/-! ### The match inside the graph -/

theorem call_zero {g : Graph V M} (hu : Spec.UniqueNames g) {l : Layer} (hl : l ∈ g.layers)
    (h1 : l.inbound.length ≤ 1) {k : ℕ} (hc : Spec.IsCall g (l.name, k)) : k = 0 := by
  obtain ⟨l', hl', hn, hk⟩ := hc
  have : l' = l := List.inj_on_of_nodup_map hu hl' hl hn
  subst this
  simp only at hk
  omega

/-- A child in the match is mentioned in the only inbound node of its parent, as its call 0. -/
theorem child_ref {g : Graph V M} (hg : Spec.Valid g) {m : Node V M} (hm : Matched g m)
    {p c : Node V M} (hp : Spec.InTree p m) (hc : c ∈ p.inputs) :
    ∃ node, p.layer.inbound[0]? = some node ∧ ∃ cn ∈ node, (c.name, 0) ∈ Spec.refs cn := by
  have hne : p.inputs ≠ [] := by intro h; rw [h] at hc; simp at hc
  have hin := hm.inputs p hp hne
  have hcl : c.layer ∈ getLayers g ((p.layer.inbound.headD []).map (·.src)) := by
    rw [← hin]; exact List.mem_map_of_mem hc
  have hcn := (List.mem_filter.1 hcl).2
  simp only [decide_eq_true_eq, List.mem_map] at hcn
  obtain ⟨cn, hcn, hsrc⟩ := hcn
  cases hib : p.layer.inbound with
  | nil => rw [hib] at hcn; simp at hcn
  | cons node rest =>
    rw [hib] at hcn
    simp only [List.headD_cons] at hcn
    refine ⟨node, by simp, cn, hcn, ?_⟩
    have hr : (cn.src, cn.node) ∈ Spec.refs cn := by simp [Spec.refs]
    have hcall := hg.closed p.layer (hm.mem p hp) node (by rw [hib]; simp) cn hcn _ hr
    rw [hsrc] at hcall hr
    have hct := inTree_trans (inTree_input hc) hp
    have h0 := call_zero hg.unique (hm.mem c hct) (hm.single c hct) hcall
    rw [h0] at hr
    exact hr

theorem child_consumer {g : Graph V M} (hg : Spec.Valid g) {m : Node V M} (hm : Matched g m)
    {p c : Node V M} (hp : Spec.InTree p m) (hc : c ∈ p.inputs) :
    c.name ∈ inboundNames p.layer := by
  obtain ⟨node, hnode, cn, hcn, hr⟩ := child_ref hg hm hp hc
  exact (mem_inboundNames _ _).2 ⟨node, List.mem_of_getElem? hnode, cn, hcn, 0, hr⟩

section Rank
variable {g : Graph V M} (hg : Spec.Valid g) {m : Node V M} (hm : Matched g m)
  {rank : String → ℕ → ℕ}
  (hrank : ∀ l ∈ g.layers, ∀ i node, l.inbound[i]? = some node →
    ∀ c ∈ node, ∀ r ∈ Spec.refs c, rank r.1 r.2 < rank l.name i)
include hg hm hrank

theorem child_rank {p c : Node V M} (hp : Spec.InTree p m) (hc : c ∈ p.inputs) :
    rank c.name 0 < rank p.name 0 := by
  obtain ⟨node, hnode, cn, hcn, hr⟩ := child_ref hg hm hp hc
  exact hrank _ (hm.mem p hp) 0 node hnode cn hcn _ hr

theorem tree_rank : ∀ p, Spec.InTree p m → ∀ n, Spec.InTree n p → n = p ∨
    rank n.name 0 < rank p.name 0 := by
  refine node_induction (P := fun p => Spec.InTree p m → ∀ n, Spec.InTree n p → n = p ∨
    rank n.name 0 < rank p.name 0) ?_
  intro p ih hp n hn
  cases hn with
  | root => exact Or.inl rfl
  | child hc hn =>
    right
    have h1 := child_rank hg hm hrank hp hc
    rcases ih _ hc (inTree_trans (.child hc (.root _)) hp) n hn with rfl | h2
    · exact h1
    · exact h2.trans h1

end Rank

theorem inTree_parent {n m : Node V M} (h : Spec.InTree n m) :
    n = m ∨ ∃ p, Spec.InTree p m ∧ n ∈ p.inputs := by
  induction h with
  | root => exact Or.inl rfl
  | @child l w i ins c hc hn ih =>
    right
    rcases ih with rfl | ⟨p, hp, hnp⟩
    · exact ⟨_, .root _, hc⟩
    · exact ⟨p, .child hc hp, hnp⟩

theorem only_consumer {g : Graph V M} (hg : Spec.Valid g) {m : Node V M} (hm : Matched g m)
    {p c : Node V M} (hp : Spec.InTree p m) (hc : c ∈ p.inputs) :
    (∀ l ∈ g.layers, c.name ∈ inboundNames l → l = p.layer) ∧
    (∀ o ∈ g.outputs, o.1 ≠ c.name) := by
  obtain ⟨rank, hrank⟩ := hg.acyclic
  have hct := inTree_trans (inTree_input hc) hp
  have hne : c ≠ m := by
    rintro rfl
    have h1 := child_rank hg hm hrank hp hc
    rcases tree_rank hg hm hrank _ (.root _) p hp with rfl | h2
    · exact lt_irrefl _ h1
    · exact lt_irrefl _ (h1.trans h2)
  have hlen := (hm.consumers c hct).resolve_left hne
  have hpc : p.layer ∈ consumers g c.name :=
    List.mem_filter.2 ⟨hm.mem p hp, by simpa using child_consumer hg hm hp hc⟩
  have h1 : 1 ≤ (consumers g c.name).length := List.length_pos_of_mem hpc
  refine ⟨?_, ?_⟩
  · intro l hl hin
    have hlc : l ∈ consumers g c.name := List.mem_filter.2 ⟨hl, by simpa using hin⟩
    obtain ⟨a, ha⟩ := List.length_eq_one_iff.1 (show (consumers g c.name).length = 1 by omega)
    rw [ha, List.mem_singleton] at hlc hpc
    rw [hlc, hpc]
  · intro o ho he
    have : o ∈ outputConsumers g c.name := List.mem_filter.2 ⟨ho, by simpa using he⟩
    have := List.length_pos_of_mem this
    omega

theorem same_node {g : Graph V M} (hg : Spec.Valid g) {m : Node V M} (hm : Matched g m)
    {n1 n2 : Node V M} (h1 : Spec.InTree n1 m) (h2 : Spec.InTree n2 m) (hn : n1.name = n2.name) :
    n1 = n2 := by
  obtain ⟨rank, hrank⟩ := hg.acyclic
  have key : ∀ d n1 n2, Spec.InTree n1 m → Spec.InTree n2 m → n1.name = n2.name →
      rank m.name 0 - rank n1.name 0 = d → n1 = n2 := by
    intro d
    induction d using Nat.strong_induction_on with
    | _ d ih =>
    intro n1 n2 h1 h2 hn hd
    rcases inTree_parent h1 with rfl | ⟨p1, hp1, hc1⟩
    · rcases tree_rank hg hm hrank _ (.root _) n2 h2 with rfl | hlt
      · rfl
      · rw [← hn] at hlt; exact absurd hlt (lt_irrefl _)
    · rcases inTree_parent h2 with rfl | ⟨p2, hp2, hc2⟩
      · rcases tree_rank hg hm hrank _ (.root _) n1 h1 with rfl | hlt
        · rfl
        · rw [hn] at hlt; exact absurd hlt (lt_irrefl _)
      · have hr1 := child_rank hg hm hrank hp1 hc1
        have hle : rank p1.name 0 ≤ rank m.name 0 := by
          rcases tree_rank hg hm hrank _ (.root _) p1 hp1 with rfl | h
          · exact le_refl _
          · exact h.le
        have hpl : p2.layer = p1.layer :=
          (only_consumer hg hm hp1 hc1).1 p2.layer (hm.mem p2 hp2)
            (by rw [hn]; exact child_consumer hg hm hp2 hc2)
        have hpn : p1.name = p2.name := by rw [Node.name, Node.name, hpl]
        have hpp : p1 = p2 := ih _ (by omega) p1 p2 hp1 hp2 hpn rfl
        subst hpp
        have hne : p1.inputs ≠ [] := by intro h; rw [h] at hc1; simp at hc1
        have hin := hm.inputs p1 hp1 hne
        have hnd : (p1.inputs.map (·.name)).Nodup := by
          have : p1.inputs.map (·.name) = (p1.inputs.map (·.layer)).map (·.name) := by
            rw [List.map_map]; rfl
          rw [this, hin]
          exact List.Nodup.sublist (List.Sublist.map _ List.filter_sublist) hg.unique
        exact List.inj_on_of_nodup_map hnd hc1 hc2 hn
  exact key _ n1 n2 h1 h2 hn rfl

/-- What lies outside the match: nothing there mentions a matched layer except the head. -/
theorem outside_layer {g : Graph V M} (hg : Spec.Valid g) {m : Node V M} (hm : Matched g m)
    {l : Layer} (hl : l ∈ g.layers) (hout : l.name ∉ nodeNames m) {s : String}
    (hs : s ∈ inboundNames l) : s = m.name ∨ s ∉ nodeNames m := by
  by_contra hcon
  simp only [not_or, not_not] at hcon
  obtain ⟨n, hn, rfl⟩ := (mem_nodeNames m s).1 hcon.2
  rcases inTree_parent hn with rfl | ⟨p, hp, hc⟩
  · exact hcon.1 rfl
  · have := (only_consumer hg hm hp hc).1 l hl hs
    subst this
    exact hout ((mem_nodeNames m _).2 ⟨p, hp, rfl⟩)

theorem outside_output {g : Graph V M} (hg : Spec.Valid g) {m : Node V M} (hm : Matched g m)
    {o : String × ℕ × ℕ} (ho : o ∈ g.outputs) : o.1 = m.name ∨ o.1 ∉ nodeNames m := by
  by_contra hcon
  simp only [not_or, not_not] at hcon
  obtain ⟨n, hn, he⟩ := (mem_nodeNames m o.1).1 hcon.2
  rcases inTree_parent hn with rfl | ⟨p, hp, hc⟩
  · exact hcon.1 he.symm
  · exact (only_consumer hg hm hp hc).2 o ho he.symm

/-- A leaf of the match mentions no matched layer. -/
theorem outside_leaf {g : Graph V M} (hg : Spec.Valid g) {m : Node V M} (hm : Matched g m)
    {n : Node V M} (hn : Spec.InTree n m) (hleaf : n.inputs = []) {s : String}
    (hs : s ∈ inboundNames n.layer) : s ∉ nodeNames m := by
  intro hmem
  obtain ⟨x, hx, rfl⟩ := (mem_nodeNames m s).1 hmem
  obtain ⟨rank, hrank⟩ := hg.acyclic
  rcases inTree_parent hx with rfl | ⟨p, hp, hc⟩
  · obtain ⟨node, hnode, c, hc, k, hr⟩ := (mem_inboundNames _ _).1 hs
    have hcall := hg.closed _ (hm.mem n hn) node hnode c hc _ hr
    have h0 := call_zero hg.unique (hm.mem x hx) (hm.single x hx) hcall
    subst h0
    obtain ⟨i, hi⟩ := List.getElem?_of_mem hnode
    have hi0 : i = 0 := by
      have := hm.single n hn
      have := (List.getElem?_eq_some_iff.1 hi).1
      omega
    subst hi0
    have hlt := hrank _ (hm.mem n hn) 0 node hi c hc _ hr
    rcases tree_rank hg hm hrank _ (.root _) n hn with rfl | h2
    · exact lt_irrefl _ hlt
    · exact lt_irrefl _ (hlt.trans h2)
  · have := (only_consumer hg hm hp hc).1 _ (hm.mem n hn) hs
    have hpn : n = p := same_node hg hm hn hp (by rw [Node.name, Node.name, this])
    subst hpn
    rw [hleaf] at hc
    simp at hc

mutual
theorem mem_leaves : ∀ (n : Node V M) (l : Layer), l ∈ leaves n →
    ∃ x, Spec.InTree x n ∧ x.inputs = [] ∧ x.layer = l
  | .mk l w i [], l', h => by
    simp only [leaves, List.mem_singleton] at h
    subst h
    exact ⟨_, .root _, rfl, rfl⟩
  | .mk l w i (n :: ns), l', h => by
    rw [leaves, List.mem_append] at h
    rcases h with h | h
    · obtain ⟨x, hx, h1, h2⟩ := mem_leaves n l' h
      exact ⟨x, .child (by simp) hx, h1, h2⟩
    · obtain ⟨c, hc, x, hx, h1, h2⟩ := mem_leavesList ns l' h
      exact ⟨x, .child (by simp [hc]) hx, h1, h2⟩
theorem mem_leavesList : ∀ (ns : List (Node V M)) (l : Layer), l ∈ leavesList ns →
    ∃ c ∈ ns, ∃ x, Spec.InTree x c ∧ x.inputs = [] ∧ x.layer = l
  | [], l', h => by simp [leavesList] at h
  | n :: ns, l', h => by
    rw [leavesList, List.mem_append] at h
    rcases h with h | h
    · obtain ⟨x, hx, h1, h2⟩ := mem_leaves n l' h
      exact ⟨n, by simp, x, hx, h1, h2⟩
    · obtain ⟨c, hc, x, hx, h1, h2⟩ := mem_leavesList ns l' h
      exact ⟨c, by simp [hc], x, hx, h1, h2⟩
end

theorem leafInbounds_eq {g : Graph V M} (hg : Spec.Valid g) {m : Node V M} (hm : Matched g m)
    (r : Node V M) : leafInbounds m r = (leaves m).map (·.inbound) := by
  refine List.map_congr_left ?_
  intro l hl
  obtain ⟨x, hx, hleaf, rfl⟩ := mem_leaves m l hl
  rw [if_neg]
  intro h
  exact outside_leaf hg hm hx hleaf h ((mem_nodeNames m _).2 ⟨m, .root _, rfl⟩)

/-! ### The wired replacement -/

mutual
theorem wire_name : ∀ (n : Node V M) (inbs : List (List (List Conn))),
    (wire n inbs).1.name = n.name
  | .mk l w m [], [] => by simp [wire]
  | .mk l w m [], inb :: rest => by simp [wire, Node.name, Node.layer]
  | .mk l w m (n :: ns), inbs => by simp [wire, Node.name, Node.layer]
theorem wireList_names : ∀ (ns : List (Node V M)) (inbs : List (List (List Conn))),
    (wireList ns inbs).1.map (·.name) = ns.map (·.name)
  | [], inbs => by simp [wireList]
  | n :: ns, inbs => by
    simp only [wireList, List.map_cons]
    rw [wire_name n inbs, wireList_names ns]
end

mutual
/-- In a wired tree the inner nodes are connected to their inputs, the leaves have the given inbound
nodes, and as many are used up as there are leaves. -/
theorem wire_spec : ∀ (n : Node V M) (inbs : List (List (List Conn))),
    (leaves n).length ≤ inbs.length →
    (wire n inbs).2 = inbs.drop (leaves n).length ∧
    ∀ x, Spec.InTree x (wire n inbs).1 →
      (x.inputs = [] ∧ x.layer.inbound ∈ inbs) ∨
      (x.inputs ≠ [] ∧ x.layer.inbound = [x.inputs.map fun c => ⟨c.name, 0, 0, []⟩])
  | .mk l w m [], [] => by intro h; simp [leaves] at h
  | .mk l w m [], inb :: rest => by
    intro _
    refine ⟨by simp [wire, leaves], ?_⟩
    intro x hx
    rw [wire] at hx
    cases hx with
    | root => exact Or.inl ⟨rfl, by simp [Node.layer]⟩
    | child hc _ => simp at hc
  | .mk l w m (n :: ns), inbs => by
    intro h
    rw [leaves, List.length_append] at h
    obtain ⟨h1, h2⟩ := wire_spec n inbs (by omega)
    obtain ⟨h3, h4⟩ := wireList_spec ns (wire n inbs).2 (by rw [h1, List.length_drop]; omega)
    refine ⟨?_, ?_⟩
    · rw [wire, leaves]
      show (wireList ns (wire n inbs).2).2 = _
      rw [h3, h1, List.drop_drop, List.length_append]
    · intro x hx
      rw [wire] at hx
      cases hx with
      | root =>
        right
        refine ⟨by simp [Node.inputs], ?_⟩
        simp only [Node.layer, Node.inputs, List.map_cons, List.cons.injEq, and_true]
        refine ⟨by rw [wire_name], ?_⟩
        have := wireList_names ns (wire n inbs).2
        have e1 : ∀ xs : List (Node V M), (xs.map fun c => (⟨c.name, 0, 0, []⟩ : Conn))
            = (xs.map (·.name)).map fun s => ⟨s, 0, 0, []⟩ := by
          intro xs; rw [List.map_map]; rfl
        rw [e1, e1, this]
      | child hc hx =>
        rcases List.mem_cons.1 hc with rfl | hc
        · exact h2 x hx
        · rcases h4 _ hc x hx with ⟨ha, hb⟩ | hb
          · refine Or.inl ⟨ha, ?_⟩
            rw [h1] at hb
            exact List.mem_of_mem_drop hb
          · exact Or.inr hb
theorem wireList_spec : ∀ (ns : List (Node V M)) (inbs : List (List (List Conn))),
    (leavesList ns).length ≤ inbs.length →
    (wireList ns inbs).2 = inbs.drop (leavesList ns).length ∧
    ∀ c ∈ (wireList ns inbs).1, ∀ x, Spec.InTree x c →
      (x.inputs = [] ∧ x.layer.inbound ∈ inbs) ∨
      (x.inputs ≠ [] ∧ x.layer.inbound = [x.inputs.map fun c => ⟨c.name, 0, 0, []⟩])
  | [], inbs => by intro _; simp [wireList, leavesList]
  | n :: ns, inbs => by
    intro h
    rw [leavesList, List.length_append] at h
    obtain ⟨h1, h2⟩ := wire_spec n inbs (by omega)
    obtain ⟨h3, h4⟩ := wireList_spec ns (wire n inbs).2 (by rw [h1, List.length_drop]; omega)
    refine ⟨?_, ?_⟩
    · rw [wireList, leavesList]
      show (wireList ns (wire n inbs).2).2 = _
      rw [h3, h1, List.drop_drop, List.length_append]
    · intro c hc x hx
      rw [wireList] at hc
      rcases List.mem_cons.1 hc with rfl | hc
      · exact h2 x hx
      · rcases h4 _ hc x hx with ⟨ha, hb⟩ | hb
        · refine Or.inl ⟨ha, ?_⟩
          rw [h1] at hb
          exact List.mem_of_mem_drop hb
        · exact Or.inr hb
end

theorem wire_nodeNames (n : Node V M) (inbs) : nodeNames (wire n inbs).1 = nodeNames n := by
  have h := congrArg (List.map fun x => x.1.1) (wire_strip n inbs)
  rw [List.map_map, List.map_map] at h
  exact h

/-- The nodes below a node are a contiguous part of the list of all nodes. -/
theorem preorder_infix {p r : Node V M} (h : Spec.InTree p r) :
    ∃ a b, preorder r = a ++ preorder p ++ b := by
  induction h with
  | root => exact ⟨[], [], by simp⟩
  | @child l w i ins c hc _ ih =>
    obtain ⟨a, b, hab⟩ := ih
    obtain ⟨pre, post, rfl⟩ := List.append_of_mem hc
    have hl : ∀ xs ys : List (Node V M), preorderList (xs ++ ys) = preorderList xs ++ preorderList ys := by
      intro xs ys
      induction xs with
      | nil => simp [preorderList]
      | cons x xs ih => simp [preorderList, ih]
    refine ⟨.mk l w i (pre ++ c :: post) :: (preorderList pre ++ a), b ++ preorderList post, ?_⟩
    rw [preorder, hl, preorderList, hab]
    simp

/-- In the list of names the parent comes before the child. -/
theorem idx_lt {p c r : Node V M} (hp : Spec.InTree p r) (hc : c ∈ p.inputs)
    (hnd : (nodeNames r).Nodup) : (nodeNames r).idxOf p.name < (nodeNames r).idxOf c.name := by
  obtain ⟨a, b, hab⟩ := preorder_infix hp
  have hpre : preorder p = p :: preorderList p.inputs := by cases p; rfl
  have hcm : c ∈ preorderList p.inputs := (mem_preorderList c _).2 ⟨c, hc, .root _⟩
  have e : nodeNames r = a.map (·.name) ++ p.name ::
      ((preorderList p.inputs).map (·.name) ++ b.map (·.name)) := by
    rw [nodeNames, hab, hpre]; simp
  rw [e] at hnd ⊢
  have hp1 : p.name ∉ a.map (·.name) := by
    intro h
    exact (List.nodup_append.1 hnd).2.2 _ h _ (by simp) rfl
  have hcn : c.name ∈ (preorderList p.inputs).map (·.name) ++ b.map (·.name) :=
    List.mem_append.2 (Or.inl (List.mem_map_of_mem hcm))
  have hc1 : c.name ∉ a.map (·.name) := by
    intro h
    exact (List.nodup_append.1 hnd).2.2 _ h _ (by
      simp only [List.mem_cons]; exact Or.inr hcn) rfl
  have hpc : p.name ≠ c.name := by
    intro h
    have := (List.nodup_cons.1 (List.nodup_append.1 hnd).2.1).1
    rw [h] at this
    exact this hcn
  rw [List.idxOf_append_of_notMem hp1, List.idxOf_append_of_notMem hc1, List.idxOf_cons_self,
    List.idxOf_cons_ne _ hpc]
  omega

/-! ### The maps -/

section Maps
variable [Inhabited M] [DecidableEq M]

theorem foldl_register_outputs (ns : List (Node V M)) : ∀ g : Graph V M,
    (ns.foldl (fun g n => register { g with layers := g.layers ++ [n.layer] } n) g).outputs
      = g.outputs := by
  induction ns with
  | nil => intro g; rfl
  | cons n ns ih => intro g; rw [List.foldl_cons, ih]; rfl

theorem foldl_register_functional (ns : List (Node V M)) : ∀ g : Graph V M,
    (ns.foldl (fun g n => register { g with layers := g.layers ++ [n.layer] } n) g).functional
      = g.functional := by
  induction ns with
  | nil => intro g; rfl
  | cons n ns ih => intro g; rw [List.foldl_cons, ih]; rfl

theorem foldl_register_maps (ns : List (Node V M)) : ∀ g : Graph V M,
    (∀ k, k ∉ ns.map (·.name) →
      (ns.foldl (fun g n => register { g with layers := g.layers ++ [n.layer] } n) g).weights k
        = g.weights k ∧
      (ns.foldl (fun g n => register { g with layers := g.layers ++ [n.layer] } n) g).metadata k
        = g.metadata k) ∧
    ((ns.map (·.name)).Nodup → ∀ n ∈ ns,
      (ns.foldl (fun g n => register { g with layers := g.layers ++ [n.layer] } n) g).weights n.name
        = (if n.weights ≠ [] then n.weights else g.weights n.name) ∧
      (ns.foldl (fun g n => register { g with layers := g.layers ++ [n.layer] } n) g).metadata n.name
        = (if n.info ≠ default then some n.info else g.metadata n.name)) := by
  induction ns with
  | nil => intro g; simp
  | cons n ns ih =>
    intro g
    rw [List.foldl_cons]
    refine ⟨?_, ?_⟩
    · intro k hk
      simp only [List.map_cons, List.mem_cons, not_or] at hk
      have := (ih (register { g with layers := g.layers ++ [n.layer] } n)).1 k hk.2
      rw [this.1, this.2]
      simp [register, hk.1]
    · intro hnd x hx
      simp only [List.map_cons, List.nodup_cons] at hnd
      rcases List.mem_cons.1 hx with rfl | hx
      · have := (ih (register { g with layers := g.layers ++ [x.layer] } x)).1 x.name hnd.1
        rw [this.1, this.2]
        simp [register]
      · have := (ih (register { g with layers := g.layers ++ [n.layer] } n)).2 hnd.2 x hx
        rw [this.1, this.2]
        have hne : x.name ≠ n.name := by
          intro h
          refine hnd.1 ?_
          rw [← h]
          exact List.mem_map_of_mem hx
        simp [register, hne]

/-! ### The graph after a replacement -/

section After
variable {g : Graph V M} (hg : Spec.Valid g) {m r : Node V M} (hm : Matched g m)
  (hr : Spec.GoodNames g m r) {g' : Graph V M} (h : replaceFunctional g m r = .ok g')
include hg hm h

theorem after_mem (l' : Layer) : l' ∈ g'.layers ↔
    (∃ l ∈ g.layers, l.name ∉ nodeNames m ∧ l' = renameLayer m.name r.name l) ∨
    (∃ n, Spec.InTree n (wire r (leafInbounds m r)).1 ∧ l' = n.layer) := by
  rw [replaceFunctional_layers h, List.mem_append]
  refine or_congr ?_ ?_
  · simp only [List.mem_filter, List.mem_map, rename_all]
    constructor
    · rintro ⟨⟨l, hl, rfl⟩, hn⟩
      rw [Bool.not_eq_true', decide_eq_false_iff_not] at hn
      exact ⟨l, hl, hn, rfl⟩
    · rintro ⟨l, hl, hn, rfl⟩
      refine ⟨⟨l, hl, rfl⟩, ?_⟩
      rw [Bool.not_eq_true', decide_eq_false_iff_not]
      exact hn
  · simp only [List.mem_map, mem_preorder]
    constructor
    · rintro ⟨n, hn, rfl⟩; exact ⟨n, hn, rfl⟩
    · rintro ⟨n, hn, rfl⟩; exact ⟨n, hn, rfl⟩

/-- The nodes of the wired replacement. -/
theorem after_wired {n : Node V M} (hn : Spec.InTree n (wire r (leafInbounds m r)).1) :
    (n.inputs = [] ∧ ∃ x, Spec.InTree x m ∧ x.inputs = [] ∧ n.layer.inbound = x.layer.inbound) ∨
    (n.inputs ≠ [] ∧ n.layer.inbound = [n.inputs.map fun c => ⟨c.name, 0, 0, []⟩]) := by
  have hlen := (replaceFunctional_ok h).1
  have hle : (leaves r).length ≤ (leafInbounds m r).length := by
    rw [leafInbounds_eq hg hm, List.length_map, hlen]
  rcases (wire_spec r _ hle).2 n hn with ⟨h1, h2⟩ | h1
  · left
    rw [leafInbounds_eq hg hm] at h2
    obtain ⟨l, hl, he⟩ := List.mem_map.1 h2
    obtain ⟨x, hx, hx1, rfl⟩ := mem_leaves m l hl
    exact ⟨h1, x, hx, hx1, he.symm⟩
  · exact Or.inr h1

theorem wired_name {n : Node V M} (hn : Spec.InTree n (wire r (leafInbounds m r)).1) :
    n.name ∈ nodeNames r := by
  rw [← wire_nodeNames r (leafInbounds m r)]
  exact (mem_nodeNames _ _).2 ⟨n, hn, rfl⟩

theorem wired_of_name {s : String} (hs : s ∈ nodeNames r) :
    ∃ n, Spec.InTree n (wire r (leafInbounds m r)).1 ∧ n.name = s := by
  rw [← wire_nodeNames r (leafInbounds m r)] at hs
  exact (mem_nodeNames _ _).1 hs

theorem wired_single {n : Node V M} (hn : Spec.InTree n (wire r (leafInbounds m r)).1) :
    n.layer.inbound.length ≤ 1 := by
  rcases after_wired hg hm h hn with ⟨-, x, hx, -, he⟩ | ⟨-, he⟩
  · rw [he]; exact hm.single x hx
  · rw [he]; simp

theorem after_call {s : String} {k : ℕ} (hc : Spec.IsCall g (s, k)) (hs : s ∉ nodeNames m) :
    Spec.IsCall g' (s, k) := by
  obtain ⟨l, hl, hn, hk⟩ := hc
  simp only at hn hk
  refine ⟨renameLayer m.name r.name l, (after_mem hg hm h _).2 (Or.inl ⟨l, hl, by rwa [hn], rfl⟩),
    hn, ?_⟩
  simpa [renameLayer] using hk

theorem after_call_wired {n : Node V M} (hn : Spec.InTree n (wire r (leafInbounds m r)).1) :
    Spec.IsCall g' (n.name, 0) :=
  ⟨n.layer, (after_mem hg hm h _).2 (Or.inr ⟨n, hn, rfl⟩), rfl, by simp⟩

theorem head_call {k : ℕ} (hc : Spec.IsCall g (m.name, k)) : k = 0 :=
  call_zero hg.unique (hm.mem m (.root _)) (hm.single m (.root _)) hc

include hr

theorem kept_name {l : Layer} (hl : l ∈ g.layers) (hn : l.name ∉ nodeNames m) :
    l.name ∉ nodeNames r := by
  intro hh
  rcases hr.fresh _ hh with h1 | h1
  · exact hn h1
  · exact h1 l hl rfl

theorem call_name {s : String} {k : ℕ} (hc : Spec.IsCall g (s, k)) (hs : s ∉ nodeNames m) :
    s ∉ nodeNames r := by
  obtain ⟨l, hl, hn, -⟩ := hc
  simp only at hn
  rw [← hn] at hs ⊢
  exact kept_name hg hm hr h hl hs

theorem after_weights_wired {n : Node V M}
    (hn : Spec.InTree n (wire r (leafInbounds m r)).1) : g'.weights n.name = n.weights := by
  obtain ⟨-, rfl⟩ := replaceFunctional_ok h
  have hnd : ((preorder (wire r (leafInbounds m r)).1).map (·.name)).Nodup := by
    have := hr.distinct
    rw [← wire_nodeNames r (leafInbounds m r)] at this
    exact this
  rw [((foldl_register_maps _ _).2 hnd n ((mem_preorder _ _).2 hn)).1]
  split
  · rfl
  · rename_i hw
    simp only [ne_eq, not_not] at hw
    rw [hw]
    simp only [removeLayers]
    split
    · rfl
    · rename_i hnm
      have hf := (hr.fresh _ (wired_name hg hm h hn)).resolve_left hnm
      exact hg.weights _ hf

theorem after_weights_kept {s : String} (hs : s ∉ nodeNames r) (hs' : s ∉ nodeNames m) :
    g'.weights s = g.weights s ∧ g'.metadata s = g.metadata s := by
  obtain ⟨-, rfl⟩ := replaceFunctional_ok h
  have : s ∉ (preorder (wire r (leafInbounds m r)).1).map (·.name) := by
    have e := wire_nodeNames r (leafInbounds m r)
    rw [nodeNames] at e
    rw [e]; exact hs
  rw [((foldl_register_maps _ _).1 s this).1, ((foldl_register_maps _ _).1 s this).2]
  simp [removeLayers, repointed, hs']

theorem after_unique : Spec.UniqueNames g' := by
  rw [Spec.UniqueNames, replaceFunctional_layers h, List.map_append]
  have e1 : ((preorder (wire r (leafInbounds m r)).1).map (·.layer)).map (·.name) = nodeNames r := by
    rw [List.map_map, ← wire_nodeNames r (leafInbounds m r)]; rfl
  rw [e1]
  have e2 : ∀ ls : List Layer, ((ls.map fun l =>
        if m.name ∈ inboundNames l then renameLayer m.name r.name l else l).filter
          fun l => !decide (l.name ∈ nodeNames m)).map (·.name)
      = (ls.map (·.name)).filter fun s => !decide (s ∈ nodeNames m) := by
    intro ls
    simp only [rename_all]
    rw [List.filter_map, List.filter_map, List.map_map]
    rfl
  rw [e2]
  refine List.nodup_append.2 ⟨hg.unique.filter _, hr.distinct, ?_⟩
  intro a ha b hb hab
  subst hab
  obtain ⟨h1, h2⟩ := List.mem_filter.1 ha
  obtain ⟨l, hl, rfl⟩ := List.mem_map.1 h1
  exact kept_name hg hm hr h hl (by simpa using h2) hb

/-- The references of a kept layer. -/
theorem kept_refs {l : Layer} (hl : l ∈ g.layers) (hn : l.name ∉ nodeNames m) {node : List Conn}
    (hnode : node ∈ l.inbound) {c : Conn} (hc : c ∈ node) {x : String × ℕ}
    (hx : x ∈ Spec.refs c) :
    x = (m.name, 0) ∨ (x.1 ≠ m.name ∧ x.1 ∉ nodeNames m ∧ x.1 ∉ nodeNames r) := by
  have hcall := hg.closed l hl node hnode c hc x hx
  obtain ⟨s, k⟩ := x
  have hs : s ∈ inboundNames l := (mem_inboundNames _ _).2 ⟨node, hnode, c, hc, k, hx⟩
  rcases outside_layer hg hm hl hn hs with rfl | hs'
  · left
    rw [head_call hg hm h hcall]
  · right
    refine ⟨?_, hs', call_name hg hm hr h hcall hs'⟩
    rintro rfl
    exact hs' ((mem_nodeNames m _).2 ⟨m, .root _, rfl⟩)

/-- The references of a leaf of the replacement. -/
theorem leaf_refs {n : Node V M} (hn : Spec.InTree n (wire r (leafInbounds m r)).1)
    (hleaf : n.inputs = []) {node : List Conn}
    (hnode : node ∈ n.layer.inbound) {c : Conn} (hc : c ∈ node) {x : String × ℕ}
    (hx : x ∈ Spec.refs c) :
    Spec.IsCall g x ∧ x.1 ∉ nodeNames m ∧ x.1 ∉ nodeNames r := by
  rcases after_wired hg hm h hn with ⟨-, y, hy, hy1, he⟩ | ⟨hne, -⟩
  · rw [he] at hnode
    have hcall := hg.closed _ (hm.mem y hy) node hnode c hc x hx
    obtain ⟨s, k⟩ := x
    have hs : s ∈ inboundNames y.layer := (mem_inboundNames _ _).2 ⟨node, hnode, c, hc, k, hx⟩
    have h1 := outside_leaf hg hm hy hy1 hs
    exact ⟨hcall, h1, call_name hg hm hr h hcall h1⟩
  · exact absurd hleaf hne

theorem after_outputs : g'.outputs = g.outputs.map fun o =>
    if o.1 = m.name then (r.name, o.2) else o := by
  obtain ⟨-, rfl⟩ := replaceFunctional_ok h
  rw [foldl_register_outputs]
  rfl

theorem root_wired : Spec.InTree (wire r (leafInbounds m r)).1 (wire r (leafInbounds m r)).1 :=
  .root _

theorem after_valid : Spec.Valid g' := by
  have hroot : (wire r (leafInbounds m r)).1.name = r.name := wire_name _ _
  have hrootcall : Spec.IsCall g' (r.name, 0) := by
    rw [← hroot]; exact after_call_wired hg hm h (.root _)
  refine ⟨after_unique hg hm hr h, ?_, ?_, ?_, ?_⟩
  · intro l' hl' node hnode c hc x hx
    rcases (after_mem hg hm h l').1 hl' with ⟨l, hl, hn, rfl⟩ | ⟨n, hn, rfl⟩
    · simp only [renameLayer, List.mem_map] at hnode
      obtain ⟨node, hnode, rfl⟩ := hnode
      obtain ⟨c, hc', rfl⟩ := List.mem_map.1 hc
      rw [renameConn_refs] at hx
      obtain ⟨y, hy, rfl⟩ := List.mem_map.1 hx
      rcases kept_refs hg hm hr h hl hn hnode hc' hy with rfl | ⟨h1, h2, h3⟩
      · simpa using hrootcall
      · simp only [h1, if_false]
        exact after_call hg hm h (hg.closed l hl node hnode c hc' y hy) h2
    · rcases after_wired hg hm h hn with ⟨hleaf, -⟩ | ⟨hne, he⟩
      · obtain ⟨h1, h2, h3⟩ := leaf_refs hg hm hr h hn hleaf hnode hc hx
        exact after_call hg hm h h1 h2
      · rw [he, List.mem_singleton] at hnode
        subst hnode
        obtain ⟨ch, hch, rfl⟩ := List.mem_map.1 hc
        simp only [Spec.refs, List.flatMap_nil, List.mem_singleton] at hx
        subst hx
        exact after_call_wired hg hm h (inTree_trans (inTree_input hch) hn)
  · intro o' ho'
    rw [after_outputs hg hm hr h] at ho'
    obtain ⟨o, ho, rfl⟩ := List.mem_map.1 ho'
    have hcall := hg.outputs o ho
    split
    · rename_i he
      rw [he] at hcall
      rw [head_call hg hm h hcall]
      exact hrootcall
    · rename_i he
      exact after_call hg hm h hcall ((outside_output hg hm ho).resolve_left he)
  · obtain ⟨rank, hrank⟩ := hg.acyclic
    let K := (nodeNames r).length + 1
    refine ⟨fun s k => if s ∈ nodeNames r then (rank m.name 0 + 1) * K - (nodeNames r).idxOf s
      else (rank s k + 1) * K, ?_⟩
    intro l' hl' i node hnode c hc x hx
    have hroot0 : (nodeNames r).idxOf r.name = 0 := by
      cases r with
      | mk l w i ins => simp [nodeNames, preorder]
    have hrootm : r.name ∈ nodeNames r := (mem_nodeNames r _).2 ⟨r, .root _, rfl⟩
    rcases (after_mem hg hm h l').1 hl' with ⟨l, hl, hn, rfl⟩ | ⟨n, hn, rfl⟩
    · have hln := kept_name hg hm hr h hl hn
      simp only [renameLayer, List.getElem?_map, Option.map_eq_some_iff] at hnode
      obtain ⟨node, hnode, rfl⟩ := hnode
      obtain ⟨c, hc', rfl⟩ := List.mem_map.1 hc
      rw [renameConn_refs] at hx
      obtain ⟨y, hy, rfl⟩ := List.mem_map.1 hx
      have hlt := hrank l hl i node hnode c hc' y hy
      have hname : (renameLayer m.name r.name l).name = l.name := rfl
      beta_reduce
      rw [hname, if_neg hln]
      rcases kept_refs hg hm hr h hl hn (List.mem_of_getElem? hnode) hc' hy with rfl | ⟨h1, h2, h3⟩
      · simp only [if_true, hrootm, hroot0, Nat.sub_zero]
        exact Nat.mul_lt_mul_of_pos_right (by simpa using hlt) (by omega)
      · simp only [h1, if_false, h3]
        exact Nat.mul_lt_mul_of_pos_right (by simpa using hlt) (by omega)
    · have hnn := wired_name hg hm h hn
      have hidx : (nodeNames r).idxOf n.name < (nodeNames r).length := List.idxOf_lt_length_of_mem hnn
      have hname : n.layer.name = n.name := rfl
      beta_reduce
      rw [hname, if_pos hnn]
      have hmul : (rank m.name 0 + 1) * K = rank m.name 0 * K + K := Nat.succ_mul _ _
      rcases after_wired hg hm h hn with ⟨hleaf, y, hy, hy1, he⟩ | ⟨hne, he⟩
      · obtain ⟨h1, h2, h3⟩ := leaf_refs hg hm hr h hn hleaf (List.mem_of_getElem? hnode) hc hx
        rw [if_neg h3]
        rw [he] at hnode
        have hi0 : i = 0 := by
          have := hm.single y hy
          have := (List.getElem?_eq_some_iff.1 hnode).1
          omega
        subst hi0
        have hlt := hrank _ (hm.mem y hy) 0 node hnode c hc x hx
        have hle : rank y.name 0 ≤ rank m.name 0 := by
          rcases tree_rank hg hm hrank _ (.root _) y hy with rfl | h'
          · exact le_refl _
          · exact h'.le
        have hlt' : rank x.1 x.2 + 1 ≤ rank m.name 0 := by
          have : rank x.1 x.2 < rank y.name 0 := hlt
          omega
        have := Nat.mul_le_mul_right K hlt'
        omega
      · rw [he] at hnode
        have := List.mem_of_getElem? hnode
        rw [List.mem_singleton] at this
        subst this
        obtain ⟨ch, hch, rfl⟩ := List.mem_map.1 hc
        simp only [Spec.refs, List.flatMap_nil, List.mem_singleton] at hx
        subst hx
        have hcn := wired_name hg hm h (inTree_trans (inTree_input hch) hn)
        simp only [hcn, if_true]
        have hnd := hr.distinct
        rw [← wire_nodeNames r (leafInbounds m r)] at hnd
        have hlt := idx_lt hn hch hnd
        rw [wire_nodeNames] at hlt
        have hidx' : (nodeNames r).idxOf ch.name < (nodeNames r).length :=
          List.idxOf_lt_length_of_mem hcn
        omega
  · intro s hs
    have h1 : s ∉ nodeNames r := by
      intro hh
      obtain ⟨n, hn, rfl⟩ := wired_of_name hg hm h hh
      exact hs n.layer ((after_mem hg hm h _).2 (Or.inr ⟨n, hn, rfl⟩)) rfl
    by_cases h2 : s ∈ nodeNames m
    · obtain ⟨-, rfl⟩ := replaceFunctional_ok h
      have : s ∉ (preorder (wire r (leafInbounds m r)).1).map (·.name) := by
        have e := wire_nodeNames r (leafInbounds m r)
        rw [nodeNames] at e
        rw [e]; exact h1
      rw [((foldl_register_maps _ _).1 s this).1]
      simp [removeLayers, h2]
    · rw [(after_weights_kept hg hm hr h h1 h2).1]
      refine hg.weights s ?_
      intro l hl he
      exact hs _ ((after_mem hg hm h _).2 (Or.inl ⟨l, hl, by rwa [he], rfl⟩)) he

end After

end Maps

/-! ### Runs -/

/-- The values of a model are determined by the values of its input layers. -/
theorem run_unique (sem : Spec.Semantics V Val) {g : Graph V M} (hg : Spec.Valid g)
    {v w : String → ℕ → ℕ → Val} (hv : Spec.IsRun sem g v) (hw : Spec.IsRun sem g w)
    (hin : ∀ l ∈ g.layers, l.inbound = [] → v l.name 0 0 = w l.name 0 0) :
    ∀ s k, Spec.IsCall g (s, k) → v s k = w s k := by
  obtain ⟨rank, hrank⟩ := hg.acyclic
  have key : ∀ d s k, rank s k = d → Spec.IsCall g (s, k) → v s k = w s k := by
    intro d
    induction d using Nat.strong_induction_on with
    | _ d ih =>
    intro s k hd hc
    obtain ⟨l, hl, hn, hk⟩ := hc
    simp only at hn hk
    subst hn
    by_cases he : l.inbound = []
    · have hk0 : k = 0 := by rw [he] at hk; simpa using hk
      subst hk0
      funext t
      rw [hv.single l hl he t, hw.single l hl he t, hin l hl he]
    · have hlt : k < l.inbound.length := by
        have : 0 < l.inbound.length := List.length_pos_iff.2 he
        omega
      have hnode := List.getElem?_eq_getElem hlt
      rw [hv.calls l hl k _ hnode, hw.calls l hl k _ hnode]
      congr 1
      refine List.map_congr_left ?_
      intro c hc
      refine arg_congr c w v ?_
      intro x hx
      refine ih _ ?_ x.1 x.2 rfl (hg.closed l hl _ (List.getElem_mem hlt) c hc x hx)
      rw [← hd]
      exact hrank l hl k _ hnode c hc x hx
  exact fun s k hc => key _ s k rfl hc

section Run
variable [Inhabited M] [DecidableEq M]
variable {g : Graph V M} (hg : Spec.Valid g) {m r : Node V M} (hm : Matched g m)
  (hr : Spec.GoodNames g m r) {g' : Graph V M} (h : replaceFunctional g m r = .ok g')

/-- The values after the replacement. -/
noncomputable def newValues (sem : Spec.Semantics V Val) (v : String → ℕ → ℕ → Val)
    (W : Node V M) : String → ℕ → ℕ → Val := fun s k =>
  open Classical in
  if h : ∃ n, Spec.InTree n W ∧ n.name = s then Spec.treeValue sem v h.choose else v s k

theorem newValues_out (sem : Spec.Semantics V Val) (v : String → ℕ → ℕ → Val) {W : Node V M}
    {s : String} (hs : s ∉ nodeNames W) (k : ℕ) : newValues sem v W s k = v s k := by
  rw [newValues, dif_neg]
  intro hh
  exact hs ((mem_nodeNames W s).2 hh)

theorem newValues_in (sem : Spec.Semantics V Val) (v : String → ℕ → ℕ → Val) {W : Node V M}
    (hnd : (nodeNames W).Nodup) {n : Node V M} (hn : Spec.InTree n W) (k : ℕ) :
    newValues sem v W n.name k = Spec.treeValue sem v n := by
  have hex : ∃ n', Spec.InTree n' W ∧ n'.name = n.name := ⟨n, hn, rfl⟩
  rw [newValues, dif_pos hex]
  have : hex.choose = n :=
    List.inj_on_of_nodup_map hnd ((mem_preorder _ _).2 hex.choose_spec.1)
      ((mem_preorder _ _).2 hn) hex.choose_spec.2
  rw [this]

include hg hm hr h

theorem after_run (sem : Spec.Semantics V Val) {v : String → ℕ → ℕ → Val}
    (hv : Spec.IsRun sem g v) (hp : Spec.PlainCalls m)
    (hin : ∀ n, Spec.InTree n (wire r (leafInbounds m r)).1 → n.layer.inbound = [] →
      ∃ l ∈ g.layers, l.name = n.name ∧ l.inbound = [])
    (heq : Spec.treeValue sem v (wire r (leafInbounds m r)).1 = Spec.treeValue sem v m) :
    Spec.IsRun sem g' (newValues sem v (wire r (leafInbounds m r)).1) ∧
    Spec.outputValues g' (newValues sem v (wire r (leafInbounds m r)).1)
      = Spec.outputValues g v := by
  have hroot : (wire r (leafInbounds m r)).1.name = r.name := wire_name _ _
  have hnd : (nodeNames (wire r (leafInbounds m r)).1).Nodup := by
    rw [wire_nodeNames]; exact hr.distinct
  have hout : ∀ s, s ∉ nodeNames r → s ∉ nodeNames (wire r (leafInbounds m r)).1 := by
    intro s hs; rw [wire_nodeNames]; exact hs
  have hhead : ∀ k, newValues sem v (wire r (leafInbounds m r)).1 r.name k = v m.name 0 := by
    intro k
    rw [← hroot, newValues_in sem v hnd (.root _), heq,
      match_value sem hv hm hp m (.root _)]
  refine ⟨⟨?_, ?_⟩, ?_⟩
  · intro l' hl' i node hnode
    rcases (after_mem hg hm h l').1 hl' with ⟨l, hl, hn, rfl⟩ | ⟨n, hn, rfl⟩
    · have hln := kept_name hg hm hr h hl hn
      simp only [renameLayer, List.getElem?_map, Option.map_eq_some_iff] at hnode
      obtain ⟨node, hnode, rfl⟩ := hnode
      have hname : (renameLayer m.name r.name l).name = l.name := rfl
      rw [hname, newValues_out sem v (hout _ hln), hv.calls l hl i node hnode,
        (after_weights_kept hg hm hr h hln hn).1]
      show sem l.cls l.config _ _ = sem l.cls l.config _ _
      congr 1
      rw [List.map_map]
      refine List.map_congr_left ?_
      intro c hc
      refine (renameConn_arg m.name r.name c v _ ?_).symm
      intro x hx
      rcases kept_refs hg hm hr h hl hn (List.mem_of_getElem? hnode) hc hx with rfl | ⟨h1, h2, h3⟩
      · simp only [if_true]
        exact hhead 0
      · rw [if_neg h1]
        exact newValues_out sem v (hout _ h3) _
    · have hi0 : i = 0 := by
        have := wired_single hg hm h hn
        have := (List.getElem?_eq_some_iff.1 hnode).1
        omega
      subst hi0
      rw [show n.layer.name = n.name from rfl, newValues_in sem v hnd hn,
        after_weights_wired hg hm hr h hn]
      rcases after_wired hg hm h hn with ⟨hleaf, -⟩ | ⟨hne, he⟩
      · cases hib : n.layer.inbound with
        | nil => rw [hib] at hnode; simp at hnode
        | cons nd rest =>
          rw [hib] at hnode
          simp only [List.getElem?_cons_zero, Option.some.injEq] at hnode
          subst hnode
          rw [treeValue_leaf sem v n hleaf nd rest hib]
          congr 1
          refine List.map_congr_left ?_
          intro c hc
          refine (arg_congr c v _ ?_).symm
          intro x hx
          have := (leaf_refs hg hm hr h hn hleaf (by rw [hib]; simp) hc hx).2.2
          exact newValues_out sem v (hout _ this) _
      · rw [he] at hnode
        simp only [List.getElem?_cons_zero, Option.some.injEq] at hnode
        subst hnode
        rw [treeValue_inner sem v n hne]
        congr 1
        rw [List.map_map]
        refine List.map_congr_left ?_
        intro c hc
        have := newValues_in sem v hnd (inTree_trans (inTree_input hc) hn) 0
        simp [Spec.argOf, this]
  · intro l' hl' he t
    rcases (after_mem hg hm h l').1 hl' with ⟨l, hl, hn, rfl⟩ | ⟨n, hn, rfl⟩
    · have hln := kept_name hg hm hr h hl hn
      have hname : (renameLayer m.name r.name l).name = l.name := rfl
      rw [hname, newValues_out sem v (hout _ hln)]
      exact hv.single l hl (by simpa [renameLayer] using he) t
    · rw [show n.layer.name = n.name from rfl, newValues_in sem v hnd hn]
      rcases after_wired hg hm h hn with ⟨hleaf, -⟩ | ⟨hne, he'⟩
      · rw [treeValue_input sem v n hleaf he]
        obtain ⟨l, hl, hln, hli⟩ := hin n hn he
        rw [← hln]
        exact hv.single l hl hli t
      · rw [he'] at he; simp at he
  · rw [Spec.outputValues, Spec.outputValues, after_outputs hg hm hr h, List.map_map]
    refine List.map_congr_left ?_
    intro o ho
    have hcall := hg.outputs o ho
    simp only [Function.comp]
    split
    · rename_i he
      rw [he] at hcall
      have h0 := head_call hg hm h hcall
      simp only [hhead, h0, he]
    · rename_i he
      have h1 := (outside_output hg hm ho).resolve_left he
      rw [newValues_out sem v (hout _ (call_name hg hm hr h hcall h1))]

end Run

end Aux

section Main
variable [Inhabited M] [DecidableEq M]

/-- C76: replacing a match in a well-formed functional model gives a well-formed functional model:
names stay unique, no layer and no output of the model is left with a reference to something that
does not exist, no cycle appears; the unmatched layers are all still there, and only references to
the head of the match have become references to the head of the replacement; they keep their
weights and their metadata; the new layers have the weights of the nodes of the replacement. -/
theorem C76_replace_valid (g : Graph V M) (hf : g.functional = true) (hg : Spec.Valid g)
    (p : Pattern) (matched : List String) (m r : Node V M) (g' : Graph V M)
    (hm : findPattern g p matched = some m) (hr : Spec.GoodNames g m r)
    (h : replaceFunctional g m r = .ok g') :
    Spec.Valid g' ∧
    (∀ l ∈ g.layers, l.name ∉ nodeNames m →
      renameLayer m.name r.name l ∈ g'.layers ∧ g'.weights l.name = g.weights l.name ∧
      g'.metadata l.name = g.metadata l.name) ∧
    (∀ n, Spec.InTree n r → ∃ l ∈ g'.layers, l.name = n.name ∧ l.cls = n.layer.cls ∧
      l.config = n.layer.config ∧ g'.weights l.name = n.weights) ∧
    g'.layers.length + (nodeNames m).dedup.length = g.layers.length + (nodeNames r).length := by
  have hM := Aux.matched_of_find hf hm
  refine ⟨Aux.after_valid hg hM hr h, ?_, ?_, ?_⟩
  · intro l hl hn
    have hln := Aux.kept_name hg hM hr h hl hn
    exact ⟨(Aux.after_mem hg hM h _).2 (Or.inl ⟨l, hl, hn, rfl⟩),
      Aux.after_weights_kept hg hM hr h hln hn⟩
  · intro n hn
    have h1 : Aux.strip n ∈ (preorder (wire r (Aux.leafInbounds m r)).1).map Aux.strip := by
      rw [Aux.wire_strip]
      exact List.mem_map_of_mem ((Aux.mem_preorder _ _).2 hn)
    obtain ⟨n', hn', he⟩ := List.mem_map.1 h1
    rw [Aux.mem_preorder] at hn'
    simp only [Aux.strip, Prod.mk.injEq] at he
    refine ⟨n'.layer, (Aux.after_mem hg hM h _).2 (Or.inr ⟨n', hn', rfl⟩), he.1.1, he.1.2.1,
      he.1.2.2, ?_⟩
    rw [← he.2.1]
    exact Aux.after_weights_wired hg hM hr h hn'
  · have e1 := Aux.replaceFunctional_layers h
    have e2 := congrArg (fun ls : List Layer => (ls.map (·.name)).length) e1
    simp only [Aux.rename_all, List.map_append, List.length_append, List.map_map,
      List.length_map] at e2
    have e3 : (preorder (wire r (Aux.leafInbounds m r)).1).length = (nodeNames r).length := by
      have := congrArg List.length (Aux.wire_nodeNames r (Aux.leafInbounds m r))
      simpa [nodeNames] using this
    rw [e2, e3]
    have e6 : ∀ ls : List Layer, ((ls.map fun l => renameLayer m.name r.name l).filter
        fun l => !decide (l.name ∈ nodeNames m)).length = (ls.filter ((fun l => !decide (l.name ∈ nodeNames m)) ∘
        renameLayer m.name r.name)).length := by
      intro ls; rw [List.filter_map, List.length_map]
    rw [e6]
    have e4 : (g.layers.filter ((fun l => !decide (l.name ∈ nodeNames m)) ∘
        renameLayer m.name r.name)).length + (g.layers.filter fun l => decide (l.name ∈ nodeNames m)).length
        = g.layers.length := by
      have := List.length_eq_length_filter_add (l := g.layers) (fun l => decide (l.name ∈ nodeNames m))
      rw [this, Nat.add_comm]
      rfl
    have e5 : (g.layers.filter fun l => decide (l.name ∈ nodeNames m)).length
        = (nodeNames m).dedup.length := by
      have hperm : List.Perm ((g.layers.filter fun l => decide (l.name ∈ nodeNames m)).map (·.name))
          (nodeNames m).dedup := by
        refine (List.perm_ext_iff_of_nodup ?_ (List.nodup_dedup _)).2 ?_
        · exact List.Nodup.sublist (List.Sublist.map _ List.filter_sublist) hg.unique
        · intro s
          simp only [List.mem_map, List.mem_filter, decide_eq_true_eq, List.mem_dedup]
          constructor
          · rintro ⟨l, ⟨-, hl⟩, rfl⟩; exact hl
          · intro hs
            obtain ⟨n, hn, rfl⟩ := (Aux.mem_nodeNames m s).1 hs
            exact ⟨n.layer, ⟨hM.mem n hn, hs⟩, rfl⟩
      have := hperm.length_eq
      simpa using this
    omega

/-- C77, for matches with plain calls: replacing a match by layers that compute the same leaves
the function of the model unchanged.  Missing: matches in which an inner layer is called with
keyword arguments, with a tensor other than the first, or with its inputs in an order other than
that of the layers of the model; there the claim is false, see `C77_violated`.  Given what layers compute (`sem`), if the match has only plain calls, if input layers
stay input layers, and if for every run of the model the replacement, connected to
what the leaves of the match were connected to, computes the same value as the match, then for
the same values of the input layers the outputs of the model after the replacement are those
before. -/
theorem C77_same_function_partial (sem : Spec.Semantics V Val)
    (g : Graph V M) (hf : g.functional = true) (hg : Spec.Valid g)
    (p : Pattern) (matched : List String) (m r : Node V M) (g' : Graph V M)
    (hm : findPattern g p matched = some m) (hr : Spec.GoodNames g m r)
    (hp : Spec.PlainCalls m) (h : replaceFunctional g m r = .ok g')
    (hin : ∀ l' ∈ g'.layers, l'.inbound = [] → ∃ l ∈ g.layers, l.name = l'.name ∧ l.inbound = [])
    (heq : ∀ v, Spec.IsRun sem g v → Spec.treeValue sem v (wire r ((leaves m).map (·.inbound))).1
      = Spec.treeValue sem v m)
    (v w : String → ℕ → ℕ → Val) (hv : Spec.IsRun sem g v) (hw : Spec.IsRun sem g' w)
    (hsame : ∀ l ∈ g'.layers, l.inbound = [] → v l.name 0 0 = w l.name 0 0) :
    Spec.outputValues g' w = Spec.outputValues g v := by
  have hM := Aux.matched_of_find hf hm
  have heq' := heq v hv
  rw [← Aux.leafInbounds_eq hg hM r] at heq'
  have hin' : ∀ n, Spec.InTree n (wire r (Aux.leafInbounds m r)).1 → n.layer.inbound = [] →
      ∃ l ∈ g.layers, l.name = n.name ∧ l.inbound = [] := fun n hn he =>
    hin n.layer ((Aux.after_mem hg hM h _).2 (Or.inr ⟨n, hn, rfl⟩)) he
  obtain ⟨h1, h2⟩ := Aux.after_run hg hM hr h sem hv hp hin' heq'
  rw [← h2]
  have hval := Aux.after_valid hg hM hr h
  have huniq := Aux.run_unique sem hval hw h1 (by
    intro l hl he
    rw [← hsame l hl he]
    rcases (Aux.after_mem hg hM h l).1 hl with ⟨l0, hl0, hn0, rfl⟩ | ⟨n, hn, rfl⟩
    · have hln := Aux.kept_name hg hM hr h hl0 hn0
      have hname : (renameLayer m.name r.name l0).name = l0.name := rfl
      rw [hname, Aux.newValues_out]
      rw [Aux.wire_nodeNames]; exact hln
    · rw [show n.layer.name = n.name from rfl, Aux.newValues_in sem v _ hn]
      · rcases Aux.after_wired hg hM h hn with ⟨hleaf, -⟩ | ⟨hne, he'⟩
        · rw [Aux.treeValue_input sem v n hleaf he]
        · rw [he'] at he; simp at he
      · rw [Aux.wire_nodeNames]; exact hr.distinct)
  rw [Spec.outputValues, Spec.outputValues]
  refine List.map_congr_left ?_
  intro o ho
  rw [huniq o.1 o.2.1 (hval.outputs o ho)]

end Main

namespace Example

/-- `input -> conv -> bn(training=False) -> relu`, where the call of `bn` has a keyword argument if
`kw` says so. -/
def graphKw (kw : List (String × Kw)) : Graph ℕ ℕ :=
  { functional := true
    layers := [⟨"input", "InputLayer", [], []⟩, ⟨"conv", "Conv2D", [], [[⟨"input", 0, 0, []⟩]]⟩,
      ⟨"bn", "BatchNormalization", [], [[⟨"conv", 0, 0, kw⟩]]⟩,
      ⟨"relu", "ReLU", [], [[⟨"bn", 0, 0, []⟩]]⟩]
    outputs := [("relu", 0, 0)]
    weights := fun n => if n = "conv" then [("kernel", 5)] else []
    metadata := fun _ => none
    candidates := [] }

/-- The pattern `BatchNormalization` after `Conv2D`. -/
def convBnPattern : Pattern := .mk "BatchNormalization" [] [.mk "Conv2D" [] []]

/-- The match in `graphKw`. -/
def convBnMatch (kw : List (String × Kw)) (infoConv infoBn : ℕ) : Node ℕ ℕ :=
  .mk ⟨"bn", "BatchNormalization", [], [[⟨"conv", 0, 0, kw⟩]]⟩ [] infoBn
    [.mk ⟨"conv", "Conv2D", [], [[⟨"input", 0, 0, []⟩]]⟩ [("kernel", 5)] infoConv []]

/-- A semantics in which a layer counts its keyword arguments. -/
def countSem : Spec.Semantics ℕ ℕ := fun _ _ w args _ =>
  w.length + (args.map fun a => a.1 + 10 * a.2.length).sum

end Example

/-- The hypotheses of C76 and C77 are met by a model `input -> conv -> bn -> relu`. -/
example : (Example.graphKw []).functional = true ∧ Spec.Valid (Example.graphKw []) ∧
    (∃ m, findPattern (Example.graphKw []) Example.convBnPattern [] = some m ∧
      m = Example.convBnMatch [] 0 0) ∧
    Spec.GoodNames (Example.graphKw []) (Example.convBnMatch [] 0 0) (Example.convBnMatch [] 1 2) ∧
    Spec.PlainCalls (Example.convBnMatch [] 0 0) ∧
    (∃ g', replaceFunctional (Example.graphKw []) (Example.convBnMatch [] 0 0)
      (Example.convBnMatch [] 1 2) = .ok g' ∧
      g'.layers.map (·.name) = ["input", "relu", "bn", "conv"] ∧ g'.metadata "bn" = some 2) ∧
    (∀ v, Spec.treeValue Example.countSem v (wire (Example.convBnMatch [] 1 2)
        ((leaves (Example.convBnMatch [] 0 0)).map (·.inbound))).1
      = Spec.treeValue Example.countSem v (Example.convBnMatch [] 0 0)) := by
  refine ⟨rfl, ⟨by unfold Spec.UniqueNames; decide +kernel, ?_, ?_, ?_, ?_⟩, ⟨_, rfl, rfl⟩,
    ⟨by decide +kernel, ?_⟩, ?_, ⟨_, rfl, by decide +kernel, by decide +kernel⟩, ?_⟩
  · intro l hl node hnode c hc r hr
    simp only [Example.graphKw, List.mem_cons, List.not_mem_nil, or_false] at hl
    rcases hl with rfl | rfl | rfl | rfl <;> simp at hnode <;> subst hnode <;> simp at hc <;>
      subst hc <;> simp [Spec.refs] at hr <;> subst hr <;>
      simp [Spec.IsCall, Example.graphKw]
  · intro o ho
    simp only [Example.graphKw, List.mem_cons, List.not_mem_nil, or_false] at ho
    subst ho
    simp [Spec.IsCall, Example.graphKw]
  · refine ⟨fun s _ => (["input", "conv", "bn", "relu"] : List String).idxOf s, ?_⟩
    intro l hl i node hnode c hc r hr
    have hnode' := List.mem_of_getElem? hnode
    simp only [Example.graphKw, List.mem_cons, List.not_mem_nil, or_false] at hl
    rcases hl with rfl | rfl | rfl | rfl <;> simp at hnode' <;> subst hnode' <;> simp at hc <;>
      subst hc <;> simp [Spec.refs] at hr <;> subst hr <;> simp
  · intro n hn
    simp only [Example.graphKw, List.mem_cons, List.not_mem_nil, or_false, forall_eq_or_imp,
      forall_eq] at hn
    simp [Example.graphKw, Ne.symm hn.2.1]
  · intro n hn
    exact Or.inl hn
  · intro n hn hne
    rw [← Aux.mem_preorder] at hn
    simp only [Example.convBnMatch, preorder, preorderList, List.append_nil, List.mem_cons,
      List.not_mem_nil, or_false] at hn
    rcases hn with rfl | rfl
    · rfl
    · exact absurd rfl hne
  · intro v
    rfl

/-- C77 fails without plain calls: in `input -> conv -> bn(training=False) -> relu` the replacement
of `conv` and `bn` by the very same layers with new metadata drops the keyword argument of the
call, so that for the same input the model computes something else. -/
theorem C77_violated :
    ∃ (g g' : Graph ℕ ℕ) (m r : Node ℕ ℕ) (v w : String → ℕ → ℕ → ℕ),
      g.functional = true ∧ findPattern g Example.convBnPattern [] = some m ∧
      (∃ i j, m = Example.convBnMatch [("training", .value "False")] 0 0 ∧
        r = Example.convBnMatch [("training", .value "False")] i j) ∧
      replaceFunctional g m r = .ok g' ∧
      Spec.IsRun Example.countSem g v ∧ Spec.IsRun Example.countSem g' w ∧
      v "input" 0 0 = w "input" 0 0 ∧
      Spec.outputValues g v ≠ Spec.outputValues g' w := by
  refine ⟨Example.graphKw [("training", .value "False")], _,
    Example.convBnMatch [("training", .value "False")] 0 0,
    Example.convBnMatch [("training", .value "False")] 1 2,
    fun s _ _ => if s = "input" then 3 else if s = "conv" then 4 else 14,
    fun s _ _ => if s = "input" then 3 else 4, rfl, rfl, ⟨1, 2, rfl, rfl⟩, rfl, ⟨?_, ?_⟩, ⟨?_, ?_⟩,
    rfl, by decide +kernel⟩
  · intro l hl i node hnode
    simp only [Example.graphKw, List.mem_cons, List.not_mem_nil, or_false] at hl
    rcases hl with rfl | rfl | rfl | rfl
    all_goals
      cases i with
      | zero => simp at hnode <;> subst hnode <;> funext t <;> rfl
      | succ i => simp at hnode
  · intro l hl he t; rfl
  · intro l hl i node hnode
    have hl : l ∈ ([⟨"input", "InputLayer", [], []⟩, ⟨"relu", "ReLU", [], [[⟨"bn", 0, 0, []⟩]]⟩,
      ⟨"bn", "BatchNormalization", [], [[⟨"conv", 0, 0, []⟩]]⟩,
      ⟨"conv", "Conv2D", [], [[⟨"input", 0, 0, []⟩]]⟩] : List Layer) := hl
    simp only [List.mem_cons, List.not_mem_nil, or_false] at hl
    rcases hl with rfl | rfl | rfl | rfl
    all_goals
      cases i with
      | zero => simp at hnode <;> subst hnode <;> funext t <;> rfl
      | succ i => simp at hnode
  · intro l hl he t; rfl

end Verif.Props
