import Verif.Props.Transforms8Bit

/-!
# C77 for the default 8-bit layout transforms: the model computes the same in floating point
-/

set_option linter.unusedSectionVars false

namespace Verif.Props
open Verif.Quant.Transformer Verif.Quant.Transforms8Bit
open Verif.Quant.Regex (matchPattern)

variable {V U M Val : Type}

namespace Spec

/-- What a chain of layers (a tree in which every node has at most one input) computes from the
arguments of its first layer. -/
def chainValue (sem : Semantics V Val) : Node V M → List (Arg Val) → ℕ → Val
  | .mk l w _ [], args => sem l.cls l.config w args
  | .mk l w _ (n :: _), args => sem l.cls l.config w [(chainValue sem n args 0, [])]

/-- The number of weights of a separable convolution. -/
def SepWeights (l : Layer) (w : List (String × V)) : Prop :=
  w.length = if l.get "use_bias" = "True" then 3 else 2

/-- What is assumed of the operations: a no-op activation computes the same as a linear one, a
quantize layer (without fake quantization) returns its argument, and a separable convolution
computes the same as the layers it is split into. -/
structure FloatOps (sem : Semantics V Val) (auto : String → ℕ → String) (expand : V → V)
    (str1 str2 : String → String) (U : Type) : Prop where
  noOp : ∀ cls config w args, matchPattern ((config.lookup "activation").getD "None") "linear" →
    sem cls (setKey config "activation" noOpActivation) w args = sem cls config w args
  quantize : ∀ config x t, sem "QuantizeLayer" config [] [(x, [])] t = x
  separable1D : ∀ k (n r : Node V (Meta U)) k', SepWeights n.layer n.weights →
    n.layer.cls = "SeparableConv1D" →
    replaceSepConv1D auto expand str1 str2 k n = .ok (r, k') → hasConfig n = false →
    ∀ args, chainValue sem r args = sem n.layer.cls n.layer.config n.weights args
  separable2D : ∀ k (n r : Node V (Meta U)) k', SepWeights n.layer n.weights →
    n.layer.cls = "SeparableConv2D" →
    replaceSepConv auto k n = .ok (r, k') → hasConfig n = false →
    ∀ args, chainValue sem r args = sem n.layer.cls n.layer.config n.weights args

/-- The classes of layers that are called with one tensor. -/
def unaryClasses : List String := ["ReLU", "Activation", bnClass, "Lambda", "SeparableConv1D"]

/-- The shape of models the result is about: class names contain no line breaks, exactly the
`InputLayer`s are inputs, layers of the classes that transforms look through are called with the
first tensor of one layer and without keyword arguments, separable convolutions have as many
weights as they should. -/
structure Unary (g : Graph V M) : Prop where
  names : ∀ l ∈ g.layers, '\n' ∉ l.cls.toList
  inputs : ∀ l ∈ g.layers, l.cls = "InputLayer" ↔ l.inbound = []
  unary : ∀ l ∈ g.layers, ∀ p ∈ unaryClasses, matchPattern l.cls p = true →
    ∀ node ∈ l.inbound, ∃ s k, node = [⟨s, k, 0, []⟩]
  weights : ∀ l ∈ g.layers, l.cls = "SeparableConv1D" ∨ l.cls = "SeparableConv2D" →
    SepWeights l (g.weights l.name)

/-- The names Keras makes up are new and different from each other. -/
structure FreshNames (auto : String → ℕ → String) (names : List String) : Prop where
  distinct : ∀ p j p' j', auto p j = auto p' j' → j = j'
  fresh : ∀ p j, auto p j ∉ names
  suffix : ∀ x ∈ names, x ++ "_QAT_SepConv2D" ∉ names ∧ ∀ p j, x ++ "_QAT_SepConv2D" ≠ auto p j

end Spec

namespace Aux

/-! ### Trees that compute the same -/

mutual
/-- The same layers up to metadata and configurations with the same meaning, and, if `inb`, with the
same inbound nodes. -/
def Same (sem : Spec.Semantics V Val) (inb : Prop) : Node V M → Node V M → Prop
  | .mk l w _ ins, .mk l' w' _ ins' =>
    (l.name = l'.name ∧ l.cls = l'.cls ∧ w = w' ∧ (inb → l.inbound = l'.inbound) ∧
      (l.get "use_bias" = l'.get "use_bias") ∧
      ∀ args, sem l.cls l.config w args = sem l'.cls l'.config w' args) ∧ SameList sem inb ins ins'
def SameList (sem : Spec.Semantics V Val) (inb : Prop) : List (Node V M) → List (Node V M) → Prop
  | [], [] => True
  | n :: ns, n' :: ns' => Same sem inb n n' ∧ SameList sem inb ns ns'
  | [], _ :: _ => False
  | _ :: _, [] => False
end

mutual
theorem same_refl (sem : Spec.Semantics V Val) (inb : Prop) : ∀ n : Node V M, Same sem inb n n
  | .mk l w i ins => by
    rw [Same]
    exact ⟨⟨rfl, rfl, rfl, fun _ => rfl, rfl, fun _ => rfl⟩, sameList_refl sem inb ins⟩
theorem sameList_refl (sem : Spec.Semantics V Val) (inb : Prop) :
    ∀ ns : List (Node V M), SameList sem inb ns ns
  | [] => by rw [SameList]; trivial
  | n :: ns => by rw [SameList]; exact ⟨same_refl sem inb n, sameList_refl sem inb ns⟩
end

mutual
theorem same_value (sem : Spec.Semantics V Val) (v : String → ℕ → ℕ → Val) :
    ∀ n n' : Node V M, Same sem True n n' → Spec.treeValue sem v n = Spec.treeValue sem v n'
  | .mk l w i [], .mk l' w' i' [] => by
    intro h
    rw [Same] at h
    obtain ⟨⟨h1, -, -, h2, -, h3⟩, -⟩ := h
    rw [Spec.treeValue, Spec.treeValue, h2 trivial]
    split
    · rw [h1]
    · exact h3 _
  | .mk l w i [], .mk l' w' i' (_ :: _) => by intro h; rw [Same, SameList] at h; exact h.2.elim
  | .mk l w i (_ :: _), .mk l' w' i' [] => by intro h; rw [Same, SameList] at h; exact h.2.elim
  | .mk l w i (n :: ns), .mk l' w' i' (n' :: ns') => by
    intro h
    rw [Same, SameList] at h
    obtain ⟨⟨-, -, -, -, -, h3⟩, h4, h5⟩ := h
    rw [Spec.treeValue, Spec.treeValue, same_value sem v n n' h4, same_args sem v ns ns' h5]
    exact h3 _
theorem same_args (sem : Spec.Semantics V Val) (v : String → ℕ → ℕ → Val) :
    ∀ ns ns' : List (Node V M), SameList sem True ns ns' →
      Spec.treeArgs sem v ns = Spec.treeArgs sem v ns'
  | [], [] => fun _ => rfl
  | [], _ :: _ => by intro h; rw [SameList] at h; exact h.elim
  | _ :: _, [] => by intro h; rw [SameList] at h; exact h.elim
  | n :: ns, n' :: ns' => by
    intro h
    rw [SameList] at h
    rw [Spec.treeArgs, Spec.treeArgs, same_value sem v n n' h.1, same_args sem v ns ns' h.2]
end

theorem same_root {sem : Spec.Semantics V Val} {inb : Prop} {n n' : Node V M}
    (h : Same sem inb n n') : n.name = n'.name ∧ n.layer.cls = n'.layer.cls ∧
      n.weights = n'.weights ∧ (inb → n.layer.inbound = n'.layer.inbound) ∧
      (n.layer.get "use_bias" = n'.layer.get "use_bias") ∧
      SameList sem inb n.inputs n'.inputs := by
  cases n; cases n'
  rw [Same] at h
  exact ⟨h.1.1, h.1.2.1, h.1.2.2.1, h.1.2.2.2.1, h.1.2.2.2.2.1, h.2⟩

mutual
theorem same_mem {sem : Spec.Semantics V Val} {inb : Prop} : ∀ n n' : Node V M, Same sem inb n n' →
    ∀ x, Spec.InTree x n → ∃ x', Spec.InTree x' n' ∧ Same sem inb x x'
  | .mk l w i ins, .mk l' w' i' ins' => by
    intro h x hx
    cases hx with
    | root => exact ⟨_, .root _, h⟩
    | child hc hx =>
      rw [Same] at h
      obtain ⟨c', hc', x', hx', hs⟩ := sameList_mem ins ins' h.2 _ hc x hx
      exact ⟨x', .child hc' hx', hs⟩
theorem sameList_mem {sem : Spec.Semantics V Val} {inb : Prop} : ∀ ns ns' : List (Node V M),
    SameList sem inb ns ns' → ∀ c ∈ ns, ∀ x, Spec.InTree x c →
      ∃ c' ∈ ns', ∃ x', Spec.InTree x' c' ∧ Same sem inb x x'
  | [], [] => by intro _ c hc; simp at hc
  | [], _ :: _ => by intro h; rw [SameList] at h; exact h.elim
  | _ :: _, [] => by intro h; rw [SameList] at h; exact h.elim
  | n :: ns, n' :: ns' => by
    intro h c hc x hx
    rw [SameList] at h
    rcases List.mem_cons.1 hc with rfl | hc
    · obtain ⟨x', hx', hs⟩ := same_mem c n' h.1 x hx
      exact ⟨n', by simp, x', hx', hs⟩
    · obtain ⟨c', hc', x', hx', hs⟩ := sameList_mem ns ns' h.2 c hc x hx
      exact ⟨c', by simp [hc'], x', hx', hs⟩
end

mutual
theorem same_keys {sem : Spec.Semantics V Val} {inb : Prop} : ∀ n n' : Node V M, Same sem inb n n' →
    treeKeys n = treeKeys n'
  | .mk l w i ins, .mk l' w' i' ins' => by
    intro h
    rw [Same] at h
    rw [treeKeys_mk, treeKeys_mk, h.1.1, h.1.2.1, sameList_keys ins ins' h.2]
theorem sameList_keys {sem : Spec.Semantics V Val} {inb : Prop} : ∀ ns ns' : List (Node V M),
    SameList sem inb ns ns' → treeKeysList ns = treeKeysList ns'
  | [], [] => fun _ => rfl
  | [], _ :: _ => by intro h; rw [SameList] at h; exact h.elim
  | _ :: _, [] => by intro h; rw [SameList] at h; exact h.elim
  | n :: ns, n' :: ns' => by
    intro h
    rw [SameList] at h
    rw [treeKeysList_cons, treeKeysList_cons, same_keys n n' h.1, sameList_keys ns ns' h.2]
end

theorem sameList_names {sem : Spec.Semantics V Val} {inb : Prop} : ∀ ns ns' : List (Node V M),
    SameList sem inb ns ns' → ns.map (·.name) = ns'.map (·.name)
  | [], [] => fun _ => rfl
  | [], _ :: _ => by intro h; rw [SameList] at h; exact h.elim
  | _ :: _, [] => by intro h; rw [SameList] at h; exact h.elim
  | n :: ns, n' :: ns' => by
    intro h
    rw [SameList] at h
    rw [List.map_cons, List.map_cons, (same_root h.1).1, sameList_names ns ns' h.2]

theorem plain_child {l w} {i : M} {ins : List (Node V M)} {c}
    (h : Spec.PlainCalls (.mk l w i ins)) (hc : c ∈ ins) : Spec.PlainCalls c :=
  fun n hn hne => h n (.child hc hn) hne

mutual
/-- Wiring the replacement makes it the same as the match, with the inbound nodes. -/
theorem same_wire (sem : Spec.Semantics V Val) : ∀ n n' : Node V M, Same sem False n n' →
    Spec.PlainCalls n' → ∀ rest, (wire n ((leaves n').map (·.inbound) ++ rest)).2 = rest ∧
      Same sem True (wire n ((leaves n').map (·.inbound) ++ rest)).1 n'
  | .mk l w i [], .mk l' w' i' [] => by
    intro h _ rest
    rw [Same] at h
    obtain ⟨⟨h1, h2, h3, -, h5, h4⟩, -⟩ := h
    simp only [leaves, List.map_cons, List.map_nil, List.cons_append, List.nil_append, wire, true_and]
    rw [Same]
    exact ⟨⟨h1, h2, h3, fun _ => rfl, h5, h4⟩, by rw [SameList]; trivial⟩
  | .mk l w i [], .mk l' w' i' (_ :: _) => by intro h; rw [Same, SameList] at h; exact h.2.elim
  | .mk l w i (_ :: _), .mk l' w' i' [] => by intro h; rw [Same, SameList] at h; exact h.2.elim
  | .mk l w i (n :: ns), .mk l' w' i' (n' :: ns') => by
    intro h hp rest
    rw [Same] at h
    obtain ⟨⟨h1, h2, h3, -, h5, h4⟩, hl⟩ := h
    have hnames := sameList_names _ _ hl
    rw [SameList] at hl
    obtain ⟨e1, e2⟩ := same_wire sem n n' hl.1 (plain_child hp (by simp))
      ((leavesList ns').map (·.inbound) ++ rest)
    obtain ⟨e3, e4⟩ := sameList_wire sem ns ns' hl.2 (fun c hc => plain_child hp (by simp [hc])) rest
    rw [leaves, List.map_append, List.append_assoc, wire]
    rw [e1]
    refine ⟨e3, ?_⟩
    rw [Same]
    refine ⟨⟨h1, h2, h3, fun _ => ?_, h5, h4⟩, ?_⟩
    · have := hp _ (.root _) (by simp [Node.inputs])
      simp only [Node.layer, Node.inputs] at this
      rw [this]
      have e : ∀ xs : List (Node V M), (xs.map fun c => (⟨c.name, 0, 0, []⟩ : Conn))
          = (xs.map (·.name)).map fun s => ⟨s, 0, 0, []⟩ := by
        intro xs; rw [List.map_map]; rfl
      rw [e, e, hnames]
    · rw [SameList]
      exact ⟨e2, e4⟩
theorem sameList_wire (sem : Spec.Semantics V Val) : ∀ ns ns' : List (Node V M),
    SameList sem False ns ns' → (∀ c ∈ ns', Spec.PlainCalls c) → ∀ rest,
      (wireList ns ((leavesList ns').map (·.inbound) ++ rest)).2 = rest ∧
      SameList sem True (wireList ns ((leavesList ns').map (·.inbound) ++ rest)).1 ns'
  | [], [] => by intro _ _ rest; simp [wireList, leavesList, SameList]
  | [], _ :: _ => by intro h; rw [SameList] at h; exact h.elim
  | _ :: _, [] => by intro h; rw [SameList] at h; exact h.elim
  | n :: ns, n' :: ns' => by
    intro h hp rest
    rw [SameList] at h
    obtain ⟨e1, e2⟩ := same_wire sem n n' h.1 (hp n' (by simp))
      ((leavesList ns').map (·.inbound) ++ rest)
    obtain ⟨e3, e4⟩ := sameList_wire sem ns ns' h.2 (fun c hc => hp c (by simp [hc])) rest
    rw [leavesList, List.map_append, List.append_assoc, wireList]
    rw [e1]
    refine ⟨e3, ?_⟩
    rw [SameList]
    exact ⟨e2, e4⟩
end

/-! ### The replacements of the pure transforms compute the same -/

section Pure
variable {sem : Spec.Semantics V Val} {auto : String → ℕ → String} {expand : V → V}
  {str1 str2 : String → String} (hsem : Spec.FloatOps sem auto expand str1 str2 U)

theorem same_setConfig {n n' : Node V (Meta U)} (k : Kind U) (h : Same sem False n n') :
    Same sem False (setConfig k n) n' := by
  cases n; cases n'
  rw [setConfig]
  rw [Same] at h ⊢
  exact h

theorem same_disableOutput (b : Bits) {n n' : Node V (Meta U)} (h : Same sem False n n') :
    Same sem False (disableOutput b n) n' := by
  cases n; cases n'
  rw [disableOutput]
  rw [Same] at h ⊢
  exact h

theorem same_withInputs {n n' : Node V (Meta U)} {ins} (h : Same sem False n n')
    (hi : SameList sem False ins n'.inputs) : Same sem False (withInputs n ins) n' := by
  cases n; cases n'
  rw [withInputs]
  rw [Same] at h ⊢
  exact ⟨h.1, hi⟩

theorem same_onInput (f : Node V (Meta U) → Node V (Meta U)) (n : Node V (Meta U))
    (h : ∀ i is, n.inputs = i :: is → Same sem False (f i) i) : Same sem False (onInput f n) n := by
  rw [onInput]
  split
  · exact same_refl _ _ _
  · rename_i i is hi
    refine same_withInputs (same_refl _ _ _) ?_
    rw [hi, SameList]
    exact ⟨h i is hi, sameList_refl _ _ _⟩

theorem lookup_setKey (config : List (String × String)) (key val k' : String) (h : k' ≠ key) :
    (setKey config key val).lookup k' = config.lookup k' := by
  rw [setKey]
  split
  · induction config with
    | nil => rfl
    | cons e config ih =>
      have ih' : (config.map fun e => if e.1 = key then (key, val) else e).lookup k'
          = config.lookup k' := by
        by_cases hany : config.any fun e => e.1 = key
        · exact ih hany
        · congr 1
          refine map_self _ _ ?_
          intro x hx
          rw [if_neg]
          intro hh
          exact hany (List.any_eq_true.2 ⟨x, hx, by simpa using hh⟩)
      rw [List.map_cons, List.lookup_cons, List.lookup_cons, ih']
      by_cases he : e.1 = key
      · have h1 : (k' == key) = false := by simpa using h
        have h2 : (k' == e.1) = false := by rw [he]; exact h1
        simp [he, h1]
      · simp [he]
  · rw [List.lookup_append]
    cases config.lookup k' with
    | some x => rfl
    | none =>
      have h1 : (k' == key) = false := by simpa using h
      simp [List.lookup_cons, h1]

include hsem in
theorem same_setNoOp (n : Node V (Meta U))
    (h : matchPattern (n.layer.get "activation") "linear" = true) : Same sem False (setNoOp n) n := by
  cases n with
  | mk l w i ins =>
    rw [setNoOp, Same]
    refine ⟨⟨rfl, rfl, rfl, fun h => h.elim, ?_, ?_⟩, sameList_refl _ _ _⟩
    · simp only [Layer.get]
      rw [if_neg (by decide), if_neg (by decide), lookup_setKey _ _ _ _ (by decide)]
    · intro args
      refine hsem.noOp _ _ _ _ ?_
      simpa [Layer.get, Node.layer] using h

theorem match_head [Inhabited M] {g : Graph V M} {cls config inputs l h} {m : Node V M}
    (hm : matchTree g (.mk cls config inputs) l h = some m) :
    matchLayer g m.layer cls config = true := by
  have := matchTree_layer hm
  rw [this]
  exact (matchTree_split hm).1

theorem match_class [Inhabited M] {g : Graph V M} {cls config inputs l h} {m : Node V M}
    (hm : matchTree g (.mk cls config inputs) l h = some m) :
    matchPattern m.layer.cls cls = true := by
  have := match_head hm
  simp only [matchLayer, Bool.and_eq_true] at this
  exact this.1.2

theorem match_input [Inhabited M] {g : Graph V M} {cls config p ps l h} {m : Node V M}
    (hm : matchTree g (.mk cls config (p :: ps)) l h = some m) :
    ∃ i is, m.inputs = i :: is ∧ matchTree g p i.layer false = some i ∧ (ps = [] → is = []) := by
  obtain ⟨-, -, ⟨h0, -⟩ | ⟨-, ns, hns, rfl⟩⟩ := matchTree_split hm
  · simp at h0
  · generalize getLayers g (inputLayerNames g l) = ls at hns
    cases ls with
    | nil => simp [matchTrees] at hns
    | cons x xs =>
      rw [matchTrees] at hns
      obtain ⟨i, hi, h1⟩ := Option.bind_eq_some_iff.1 hns
      obtain ⟨is, his, rfl⟩ := Option.map_eq_some_iff.1 h1
      refine ⟨i, is, rfl, by rw [matchTree_layer hi]; exact hi, ?_⟩
      rintro rfl
      cases xs with
      | nil => simp only [matchTrees, Option.some.injEq] at his; exact his.symm
      | cons y ys => simp [matchTrees] at his

theorem linear_of_match {g : Graph V (Meta U)} {cls inputs l h} {m : Node V (Meta U)}
    (hm : matchTree g (.mk cls [("activation", "linear")] inputs) l h = some m) :
    matchPattern (m.layer.get "activation") "linear" = true := by
  have := match_head hm
  simp only [matchLayer, Bool.and_eq_true, List.all_cons, List.all_nil, and_true,
    Bool.or_eq_true, decide_eq_true_eq] at this
  rcases this.2 with h | h
  · exact h
  · rw [h]; decide +kernel

include hsem in
/-- The pure transforms: each replacement computes the same. -/
theorem pure_same (c : Classes) : ∀ t ∈ transforms (U := U) auto c expand str1 str2,
    t.name ∉ ["InputLayerQuantize", "SeparableConv1DQuantize", "SeparableConvQuantize"] →
    ∀ (g : Graph V (Meta U)) l h m k r k', matchTree g t.pattern l h = some m →
    t.replacement k m = .ok (r, k') → Same sem False r m ∧ k' = k := by
  have pure : ∀ (f : Node V (Meta U) → Node V (Meta U)) (m r : Node V (Meta U)) (k k' : ℕ),
      (Except.ok (f m, k) : Except String _) = .ok (r, k') → Same sem False (f m) m →
      Same sem False r m ∧ k' = k := by
    intro f m r k k' h hs
    simp only [Except.ok.injEq, Prod.mk.injEq] at h
    rw [← h.1]
    exact ⟨hs, h.2.symm⟩
  have bn : ∀ (g : Graph V (Meta U)) cls cfg cls' ins l h m,
      matchTree g (.mk cls cfg [.mk cls' [("activation", "linear")] ins]) l h = some m →
      Same sem False (replaceBN c.params.bits m) m ∧ Same sem False (onInput setNoOp m) m := by
    intro g cls cfg cls' ins l h m hm
    obtain ⟨i, is, hi, hmi, -⟩ := match_input hm
    have h1 : Same sem False (onInput setNoOp m) m := same_onInput _ _ (by
      intro i' is' hi'
      rw [hi] at hi'
      obtain ⟨rfl, rfl⟩ := List.cons.inj hi'
      exact same_setNoOp hsem _ (linear_of_match hmi))
    refine ⟨?_, h1⟩
    rw [replaceBN]
    split
    · exact same_refl _ _ _
    · exact same_setConfig _ h1
  have rbn : ∀ (g : Graph V (Meta U)) cls cfg cls1 cfg1 cls' ins l h m,
      matchTree g (.mk cls cfg [.mk cls1 cfg1 [.mk cls' [("activation", "linear")] ins]]) l h
        = some m →
      Same sem False (replaceReshapeBN c.params.bits m) m ∧ Same sem False (replaceBNReLU m) m ∧
      Same sem False (onInput (onInput setNoOp) m) m := by
    intro g cls cfg cls1 cfg1 cls' ins l h m hm
    obtain ⟨i, is, hi, hmi, -⟩ := match_input hm
    have h1 := (bn g _ _ _ _ _ _ _ hmi).2
    have h2 : Same sem False (onInput (onInput setNoOp) m) m := same_onInput _ _ (by
      intro i' is' hi'
      rw [hi] at hi'
      obtain ⟨rfl, rfl⟩ := List.cons.inj hi'
      exact h1)
    refine ⟨?_, ?_, h2⟩
    · rw [replaceReshapeBN]
      split
      · exact same_refl _ _ _
      · exact same_setConfig _ h2
    · rw [replaceBNReLU]
      split
      · exact same_refl _ _ _
      · refine same_onInput _ _ ?_
        intro i' is' hi'
        rw [hi] at hi'
        obtain ⟨rfl, rfl⟩ := List.cons.inj hi'
        exact same_setConfig _ h1
  have rbnr : ∀ (g : Graph V (Meta U)) cls cfg cls1 cfg1 cls2 cfg2 cls' ins l h m,
      matchTree g (.mk cls cfg [.mk cls1 cfg1 [.mk cls2 cfg2 [.mk cls' [("activation", "linear")] ins]]])
        l h = some m →
      Same sem False (replaceReshapeBNReLU m) m := by
    intro g cls cfg cls1 cfg1 cls2 cfg2 cls' ins l h m hm
    obtain ⟨i, is, hi, hmi, -⟩ := match_input hm
    have h1 := (rbn g _ _ _ _ _ _ _ _ _ hmi).2.2
    rw [replaceReshapeBNReLU]
    split
    · exact same_refl _ _ _
    · refine same_onInput _ _ ?_
      intro i' is' hi'
      rw [hi] at hi'
      obtain ⟨rfl, rfl⟩ := List.cons.inj hi'
      exact same_setConfig _ h1
  have relu : ∀ m : Node V (Meta U), Same sem False (replaceLayerReLU m) m := fun m =>
    same_onInput _ _ fun i is _ => same_setConfig _ (same_refl _ _ _)
  have hfeed : ∀ n e, feed c n = some e → Same sem False (e.1 : Node V (Meta U)) n := by
    intro n e h
    unfold feed at h
    split at h
    · simp only [Option.some.injEq] at h; rw [← h]; exact same_refl _ _ _
    split at h
    · cases n
      cases hb : c.params.bits with
      | some b => rw [hb] at h; cases h
      | none =>
      rw [hb] at h
      simp only [Option.some.injEq] at h; rw [← h, Same]
      exact ⟨⟨rfl, rfl, rfl, fun h => h.elim, rfl, fun _ => rfl⟩, sameList_refl _ _ _⟩
    split at h
    · simp at h
    split at h
    · simp only [Option.some.injEq] at h; rw [← h]; exact same_setConfig _ (same_refl _ _ _)
    split at h
    · simp at h
    · simp only [Option.some.injEq] at h; rw [← h]; exact same_setConfig _ (same_refl _ _ _)
  have hfeeds : ∀ (f : Node V (Meta U) × Bool → Node V (Meta U)),
      (∀ e n, Same sem False e.1 n → Same sem False (f e) n) → ∀ ns,
      SameList sem False ((feeds c ns).1.map f) ns := by
    intro f hf ns
    induction ns with
    | nil => rw [feeds, List.map_nil, SameList]; trivial
    | cons n ns ih =>
      rw [feeds]
      split
      · rw [List.map_map]
        have : ∀ xs : List (Node V (Meta U)),
            SameList sem False (xs.map (f ∘ fun x => (x, false))) xs := by
          intro xs
          induction xs with
          | nil => rw [List.map_nil, SameList]; trivial
          | cons x xs ih => rw [List.map_cons, SameList]; exact ⟨hf _ _ (same_refl _ _ _), ih⟩
        exact this _
      · rename_i e he
        simp only [List.map_cons]
        rw [SameList]
        exact ⟨hf _ _ (hfeed n e he), ih⟩
  have concat : ∀ m : Node V (Meta U), Same sem False (replaceConcat c m) m := by
    intro m
    rw [replaceConcat]
    split
    · have h1 : Same sem False (withInputs m ((feeds c m.inputs).1.map fun e =>
          if e.2 then disableOutput c.params.bits e.1 else e.1)) m := by
        refine same_withInputs (same_refl _ _ _) (hfeeds _ ?_ _)
        intro e n hs
        split
        · exact same_disableOutput _ hs
        · exact hs
      dsimp only
      split
      · exact h1
      · exact same_setConfig _ h1
    · exact same_withInputs (same_refl _ _ _) (hfeeds _ (fun e n hs => hs) _)
  intro t ht hname g l h m k r k' hm hrep
  rw [Aux.mem_transforms] at ht
  simp only [Aux.listed, pureTransform, List.mem_cons, List.not_mem_nil, or_false] at ht
  rcases ht with rfl | rfl | rfl | rfl | rfl | rfl | rfl | rfl | rfl | rfl | rfl | rfl | rfl | rfl |
    rfl | rfl | rfl | rfl | rfl
  · exact absurd (by simp) hname
  · exact absurd (by simp) hname
  · exact absurd (by simp) hname
  · exact pure _ _ _ _ _ hrep (rbnr g _ _ _ _ _ _ _ _ _ _ _ hm)
  · exact pure _ _ _ _ _ hrep (rbnr g _ _ _ _ _ _ _ _ _ _ _ hm)
  · exact pure _ _ _ _ _ hrep (rbn g _ _ _ _ _ _ _ _ _ hm).2.1
  · exact pure _ _ _ _ _ hrep (rbn g _ _ _ _ _ _ _ _ _ hm).2.1
  · exact pure _ _ _ _ _ hrep (rbn g _ _ _ _ _ _ _ _ _ hm).1
  · exact pure _ _ _ _ _ hrep (bn g _ _ _ _ _ _ _ hm).1
  · exact pure _ _ _ _ _ hrep (concat m)
  · exact pure _ _ _ _ _ hrep (concat m)
  · exact pure _ _ _ _ _ hrep (concat m)
  · exact pure _ _ _ _ _ hrep (concat m)
  · exact pure _ _ _ _ _ hrep (concat m)
  · exact pure _ _ _ _ _ hrep (bn g _ _ _ _ _ _ _ hm).1
  · exact pure _ _ _ _ _ hrep (rbn g _ _ _ _ _ _ _ _ _ hm).2.1
  · exact pure _ _ _ _ _ hrep (rbn g _ _ _ _ _ _ _ _ _ hm).2.1
  · exact pure _ _ _ _ _ hrep (relu m)
  · exact pure _ _ _ _ _ hrep (relu m)

end Pure

/-! ### Matches of chain patterns -/

/-- Patterns in which every node has at most one input, and the nodes with an input have the class of
a layer that is called with one tensor. -/
inductive ChainPat : Pattern → Prop
  | leaf (cls cfg) : ChainPat (.mk cls cfg [])
  | step {cls cfg p} : cls ∈ Spec.unaryClasses → ChainPat p → ChainPat (.mk cls cfg [p])

theorem chain_inner [Inhabited M] {g : Graph V M} {p : Pattern} (hp : ChainPat p) :
    ∀ {l h m}, matchTree g p l h = some m → ∀ n, Spec.InTree n m → n.inputs.length ≤ 1 ∧
      (n.inputs ≠ [] → ∃ q ∈ Spec.unaryClasses, matchPattern n.layer.cls q = true) := by
  induction hp with
  | leaf cls cfg =>
    intro l h m hm n hn
    obtain ⟨-, -, ⟨-, rfl⟩ | ⟨h0, -⟩⟩ := matchTree_split hm
    · cases hn with
      | root => simp [nodeOf, Node.inputs]
      | child hc _ => simp at hc
    · exact absurd rfl h0
  | @step cls cfg p hcls _ ih =>
    intro l h m hm n hn
    obtain ⟨i, is, hi, hmi, his⟩ := match_input hm
    have his := his rfl
    subst his
    have hcl := match_class hm
    cases m with
    | mk lm wm im insm =>
      simp only [Node.inputs] at hi
      subst hi
      cases hn with
      | root => exact ⟨by simp [Node.inputs], fun _ => ⟨cls, hcls, hcl⟩⟩
      | child hc hn =>
        rw [List.mem_singleton] at hc
        subst hc
        exact ih hmi n hn

section Chain
variable {g : Graph V M} (hg : Spec.Valid g) {m : Node V M} (hm : Matched g m)
  (hchain : ∀ n, Spec.InTree n m → n.inputs.length ≤ 1 ∧
      (n.inputs ≠ [] → ∃ q ∈ Spec.unaryClasses, matchPattern n.layer.cls q = true))
include hg hm hchain

theorem chain_plain (hu : Spec.Unary g) : Spec.PlainCalls m := by
  intro n hn hne
  obtain ⟨hlen, hq⟩ := hchain n hn
  obtain ⟨q, hq, hcls⟩ := hq hne
  cases hi : n.inputs with
  | nil => exact absurd hi hne
  | cons c cs =>
    have hcs : cs = [] := by rw [hi] at hlen; simpa using hlen
    subst hcs
    have hc : c ∈ n.inputs := by rw [hi]; simp
    obtain ⟨node, hnode, cn, hcn, hr⟩ := child_ref hg hm hn hc
    have hmem := List.mem_of_getElem? hnode
    obtain ⟨s, k, rfl⟩ := hu.unary _ (hm.mem n hn) q hq hcls node hmem
    rw [List.mem_singleton] at hcn
    subst hcn
    simp only [Spec.refs, List.flatMap_nil, List.mem_singleton, Prod.mk.injEq] at hr
    have hs := hm.single n hn
    cases hib : n.layer.inbound with
    | nil => rw [hib] at hnode; simp at hnode
    | cons nd rest =>
      rw [hib] at hnode hs
      simp only [List.getElem?_cons_zero, Option.some.injEq] at hnode
      simp only [List.length_cons] at hs
      have : rest = [] := by
        cases rest with
        | nil => rfl
        | cons _ _ => simp at hs
      rw [hnode, this, ← hr.1, ← hr.2]
      rfl

theorem chain_nodup : (nodeNames m).Nodup := by
  obtain ⟨rank, hrank⟩ := hg.acyclic
  have key : ∀ n : Node V M, Spec.InTree n m → (nodeNames n).Nodup := by
    refine node_induction (P := fun n => Spec.InTree n m → (nodeNames n).Nodup) ?_
    intro n ih hn
    have hpre : nodeNames n = n.name :: (preorderList n.inputs).map Node.name := by cases n; rfl
    rw [hpre]
    have hlen := (hchain n hn).1
    cases hi : n.inputs with
    | nil => simp [preorderList]
    | cons c cs =>
      have hcs : cs = [] := by rw [hi] at hlen; simpa using hlen
      subst hcs
      have hc : c ∈ n.inputs := by rw [hi]; simp
      have hct := inTree_trans (inTree_input hc) hn
      simp only [preorderList, List.append_nil]
      rw [List.nodup_cons]
      refine ⟨?_, ih c hc hct⟩
      intro hmem
      obtain ⟨x, hx, hxn⟩ := List.mem_map.1 hmem
      rw [mem_preorder] at hx
      have h1 := child_rank hg hm hrank hn hc
      rcases tree_rank hg hm hrank c hct x hx with rfl | h2
      · rw [hxn] at h1; exact lt_irrefl _ h1
      · rw [hxn] at h2; exact lt_irrefl _ (h1.trans h2)
  exact key m (.root _)

end Chain

/-! ### One replacement -/

/-- What must hold of the new layers so that the shape of the model is kept. -/
structure NodeOk (n : Node V M) : Prop where
  names : '\n' ∉ n.layer.cls.toList
  inputs : n.layer.cls = "InputLayer" ↔ n.layer.inbound = []
  unary : ∀ p ∈ Spec.unaryClasses, matchPattern n.layer.cls p = true →
    ∀ node ∈ n.layer.inbound, ∃ s k, node = [⟨s, k, 0, []⟩]
  weights : n.layer.cls = "SeparableConv1D" ∨ n.layer.cls = "SeparableConv2D" →
    Spec.SepWeights n.layer n.weights
  concat : n.layer.cls ≠ "Concatenate"

section Step
variable [Inhabited M] [DecidableEq M]
variable {g : Graph V M} (hg : Spec.Valid g) {m r : Node V M} (hm : Matched g m)
  (hr : Spec.GoodNames g m r) {g' : Graph V M} (h : replaceFunctional g m r = .ok g')
include hg hm hr h

theorem step_functional : g'.functional = g.functional := by
  obtain ⟨-, rfl⟩ := replaceFunctional_ok h
  rw [foldl_register_functional]
  rfl

theorem step_unary (hu : Spec.Unary g) (hc : ∀ l ∈ g.layers, l.cls ≠ "Concatenate")
    (hW : ∀ n, Spec.InTree n (wire r (leafInbounds m r)).1 → NodeOk n) :
    Spec.Unary g' ∧ ∀ l ∈ g'.layers, l.cls ≠ "Concatenate" := by
  refine ⟨⟨?_, ?_, ?_, ?_⟩, ?_⟩
  · intro l' hl'
    rcases (after_mem hg hm h l').1 hl' with ⟨l, hl, -, rfl⟩ | ⟨n, hn, rfl⟩
    · exact hu.names l hl
    · exact (hW n hn).names
  · intro l' hl'
    rcases (after_mem hg hm h l').1 hl' with ⟨l, hl, -, rfl⟩ | ⟨n, hn, rfl⟩
    · have := hu.inputs l hl
      simpa [renameLayer] using this
    · exact (hW n hn).inputs
  · intro l' hl' p hp hcls node hnode
    rcases (after_mem hg hm h l').1 hl' with ⟨l, hl, -, rfl⟩ | ⟨n, hn, rfl⟩
    · simp only [renameLayer, List.mem_map] at hnode
      obtain ⟨nd, hnd, rfl⟩ := hnode
      obtain ⟨s, k, rfl⟩ := hu.unary l hl p hp hcls nd hnd
      exact ⟨_, k, rfl⟩
    · exact (hW n hn).unary p hp hcls node hnode
  · intro l' hl' hcls
    rcases (after_mem hg hm h l').1 hl' with ⟨l, hl, hn, rfl⟩ | ⟨n, hn, rfl⟩
    · have hln := kept_name hg hm hr h hl hn
      rw [show (renameLayer m.name r.name l).name = l.name from rfl,
        (after_weights_kept hg hm hr h hln hn).1]
      exact hu.weights l hl hcls
    · rw [show n.layer.name = n.name from rfl, after_weights_wired hg hm hr h hn]
      exact (hW n hn).weights hcls
  · intro l' hl'
    rcases (after_mem hg hm h l').1 hl' with ⟨l, hl, hn, rfl⟩ | ⟨n, hn, rfl⟩
    · exact hc l hl
    · exact (hW n hn).concat

theorem step_run (sem : Spec.Semantics V Val) {v : String → ℕ → ℕ → Val}
    (hv : Spec.IsRun sem g v) (hp : Spec.PlainCalls m)
    (hin : ∀ n, Spec.InTree n (wire r (leafInbounds m r)).1 → n.layer.inbound = [] →
      ∃ l ∈ g.layers, l.name = n.name ∧ l.inbound = [])
    (heq : Spec.treeValue sem v (wire r (leafInbounds m r)).1 = Spec.treeValue sem v m) :
    ∃ v', Spec.IsRun sem g' v' ∧ Spec.outputValues g' v' = Spec.outputValues g v ∧
      ∀ l ∈ g'.layers, l.inbound = [] → v' l.name 0 = v l.name 0 := by
  obtain ⟨h1, h2⟩ := after_run hg hm hr h sem hv hp hin heq
  refine ⟨_, h1, h2, ?_⟩
  intro l hl he
  rcases (after_mem hg hm h l).1 hl with ⟨l0, hl0, hn0, rfl⟩ | ⟨n, hn, rfl⟩
  · have hln := kept_name hg hm hr h hl0 hn0
    have hname : (renameLayer m.name r.name l0).name = l0.name := rfl
    rw [hname, newValues_out]
    rw [wire_nodeNames]; exact hln
  · rw [show n.layer.name = n.name from rfl, newValues_in sem v _ hn]
    · rcases after_wired hg hm h hn with ⟨hleaf, -⟩ | ⟨hne, he'⟩
      · rw [treeValue_input sem v n hleaf he]
      · rw [he'] at he; simp at he
    · rw [wire_nodeNames]; exact hr.distinct

end Step

/-- The names in the model while the transforms run. -/
structure NamesOk (auto : String → ℕ → String) (names : List String) (g : Graph V M) (k : ℕ) :
    Prop where
  origin : ∀ l ∈ g.layers, l.name ∈ names ∨ (∃ p j, j < k ∧ l.name = auto p j) ∨
    ∃ x ∈ names, l.name = x ++ "_QAT_SepConv2D" ∧ ∀ l' ∈ g.layers, l'.name ≠ x
  sep : ∀ l ∈ g.layers, l.cls = "SeparableConv1D" → l.name ∈ names

theorem namesOk_mono {auto : String → ℕ → String} {names} {g : Graph V M} {k k'} (hk : k ≤ k')
    (h : NamesOk auto names g k) : NamesOk auto names g k' := by
  refine ⟨fun l hl => ?_, h.sep⟩
  rcases h.origin l hl with h1 | ⟨p, j, hj, h1⟩ | h1
  · exact Or.inl h1
  · exact Or.inr (Or.inl ⟨p, j, by omega, h1⟩)
  · exact Or.inr (Or.inr h1)

theorem append_right_cancel {a b s : String} (h : a ++ s = b ++ s) : a = b := by
  have := congrArg String.toList h
  rw [String.toList_append, String.toList_append] at this
  exact String.toList_inj.1 (List.append_cancel_right this)

theorem auto_fresh {auto : String → ℕ → String} {names} {g : Graph V M} {k}
    (hf : Spec.FreshNames auto names) (h : NamesOk auto names g k) (p : String) (j : ℕ) (hj : k ≤ j) :
    ∀ l ∈ g.layers, l.name ≠ auto p j := by
  intro l hl he
  rcases h.origin l hl with h1 | ⟨p', j', hj', h1⟩ | ⟨x, hx, h1, -⟩
  · rw [he] at h1; exact hf.fresh _ _ h1
  · rw [he] at h1
    have := hf.distinct _ _ _ _ h1
    omega
  · rw [he] at h1
    exact (hf.suffix x hx).2 _ _ h1.symm

theorem suffix_fresh {auto : String → ℕ → String} {names} {g : Graph V M} {k}
    (hf : Spec.FreshNames auto names) (h : NamesOk auto names g k) {x : Layer} (hx : x ∈ g.layers)
    (hxn : x.name ∈ names) : ∀ l ∈ g.layers, l.name ≠ x.name ++ "_QAT_SepConv2D" := by
  intro l hl he
  rcases h.origin l hl with h1 | ⟨p', j', hj', h1⟩ | ⟨y, hy, h1, h2⟩
  · rw [he] at h1; exact (hf.suffix _ hxn).1 h1
  · rw [he] at h1; exact (hf.suffix _ hxn).2 _ _ h1
  · rw [he] at h1
    have := append_right_cancel h1
    exact h2 x hx this

theorem namesOk_step {auto : String → ℕ → String} {names} {g g' : Graph V M} {k k'}
    (hf : Spec.FreshNames auto names) (h : NamesOk auto names g k) (hk : k ≤ k')
    (hnew : ∀ l' ∈ g'.layers, (∃ l ∈ g.layers, l.name = l'.name ∧ l.cls = l'.cls) ∨
      (l'.cls ≠ "SeparableConv1D" ∧ ((∃ p j, j < k' ∧ l'.name = auto p j) ∨
        ∃ x ∈ names, l'.name = x ++ "_QAT_SepConv2D" ∧ ∀ l'' ∈ g'.layers, l''.name ≠ x))) :
    NamesOk auto names g' k' := by
  refine ⟨?_, ?_⟩
  · intro l' hl'
    rcases hnew l' hl' with ⟨l, hl, hn, -⟩ | ⟨-, h1 | h1⟩
    · rw [← hn]
      rcases (namesOk_mono hk h).origin l hl with h1 | h1 | ⟨x, hx, h1, h2⟩
      · exact Or.inl h1
      · exact Or.inr (Or.inl h1)
      · refine Or.inr (Or.inr ⟨x, hx, h1, ?_⟩)
        intro l'' hl'' he
        rcases hnew l'' hl'' with ⟨l2, hl2, hn2, -⟩ | ⟨-, ⟨p, j, -, h3⟩ | ⟨y, hy, h3, -⟩⟩
        · exact h2 l2 hl2 (hn2.trans he)
        · rw [he] at h3; rw [h3] at hx; exact hf.fresh _ _ hx
        · rw [he] at h3; rw [h3] at hx; exact (hf.suffix y hy).1 hx
    · exact Or.inr (Or.inl h1)
    · exact Or.inr (Or.inr h1)
  · intro l' hl' hcls
    rcases hnew l' hl' with ⟨l, hl, hn, hc⟩ | ⟨h1, -⟩
    · rw [← hn]; exact h.sep l hl (hc.trans hcls)
    · exact absurd hcls h1

/-- What is kept while the transforms run. -/
structure FloatOk (sem : Spec.Semantics V Val) (auto : String → ℕ → String) (names : List String)
    (g0 : Graph V M) (v0 : String → ℕ → ℕ → Val) (g : Graph V M) (k : ℕ) : Prop where
  functional : g.functional = true
  valid : Spec.Valid g
  unary : Spec.Unary g
  concat : ∀ l ∈ g.layers, l.cls ≠ "Concatenate"
  names : NamesOk auto names g k
  run : ∃ v, Spec.IsRun sem g v ∧ Spec.outputValues g v = Spec.outputValues g0 v0 ∧
    ∀ l ∈ g.layers, l.inbound = [] → (∃ l0 ∈ g0.layers, l0.name = l.name ∧ l0.inbound = []) ∧
      v l.name 0 = v0 l.name 0

theorem namesEq_of_keys {n n' : Node V M} (h : treeKeys n = treeKeys n') :
    nodeNames n = nodeNames n' := by
  have := congrArg (List.map Prod.fst) h
  simpa [treeKeys, nodeNames, List.map_map, Function.comp_def] using this

section Core
variable [Inhabited M] [DecidableEq M]
variable {sem : Spec.Semantics V Val} {auto : String → ℕ → String} {names : List String}
  {g0 : Graph V M} {v0 : String → ℕ → ℕ → Val} {g : Graph V M} {k : ℕ}
  (hfresh : Spec.FreshNames auto names)
  (hok : FloatOk sem auto names g0 v0 g k) {m r : Node V M} (hm : Matched g m)
  {g' : Graph V M} (h : replaceFunctional g m r = .ok g')
include hfresh hok hm h

/-- The step, from what has to be checked of the replacement. -/
theorem core_step {k' : ℕ} (hk : k ≤ k') (hr : Spec.GoodNames g m r) (hp : Spec.PlainCalls m)
    (hW : ∀ n, Spec.InTree n (wire r ((leaves m).map (·.inbound))).1 → NodeOk n)
    (hin : ∀ n, Spec.InTree n (wire r ((leaves m).map (·.inbound))).1 → n.layer.inbound = [] →
      ∃ l ∈ g.layers, l.name = n.name ∧ l.inbound = [])
    (heq : ∀ v, Spec.IsRun sem g v →
      Spec.treeValue sem v (wire r ((leaves m).map (·.inbound))).1 = Spec.treeValue sem v m)
    (hnew : ∀ n, Spec.InTree n r → (∃ l ∈ g.layers, l.name = n.name ∧ l.cls = n.layer.cls) ∨
      (n.layer.cls ≠ "SeparableConv1D" ∧ ((∃ p j, j < k' ∧ n.name = auto p j) ∨
        ∃ x ∈ names, x ∈ nodeNames m ∧ n.name = x ++ "_QAT_SepConv2D" ∧ x ∉ nodeNames r))) :
    FloatOk sem auto names g0 v0 g' k' := by
  have hg := hok.valid
  rw [← leafInbounds_eq hg hm r] at hW hin heq
  obtain ⟨v, hv, hout, hinp⟩ := hok.run
  obtain ⟨v', hv', hout', hinp'⟩ := step_run hg hm hr h sem hv hp hin (heq v hv)
  have hun := step_unary hg hm hr h hok.unary hok.concat hW
  refine ⟨by rw [step_functional hg hm hr h]; exact hok.functional, after_valid hg hm hr h,
    hun.1, hun.2, ?_, v', hv', hout'.trans hout, ?_⟩
  · refine namesOk_step hfresh hok.names hk ?_
    intro l' hl'
    have hrep : replace g m r = .ok g' := by rw [replace, hok.functional]; exact h
    rcases replace_keys hrep l' hl' with h1 | ⟨n, hn, h1, h2⟩
    · exact Or.inl h1
    · rcases hnew n hn with ⟨l, hl, h3, h4⟩ | ⟨h3, h4 | ⟨x, hx, hxm, h4, hxr⟩⟩
      · exact Or.inl ⟨l, hl, h3.trans h1, h4.trans h2⟩
      · rw [← h1, ← h2]; exact Or.inr ⟨h3, Or.inl h4⟩
      · rw [← h1, ← h2]
        refine Or.inr ⟨h3, Or.inr ⟨x, hx, h4, ?_⟩⟩
        intro l'' hl'' he
        rcases (after_mem hg hm h l'').1 hl'' with ⟨l0, hl0, hn0, rfl⟩ | ⟨n0, hn0, rfl⟩
        · rw [show (renameLayer m.name r.name l0).name = l0.name from rfl] at he
          rw [he] at hn0; exact hn0 hxm
        · have := wired_name hg hm h hn0
          rw [Node.name, he] at this
          exact hxr this
  · intro l hl he
    have e := hinp' l hl he
    rcases (after_mem hg hm h l).1 hl with ⟨l0, hl0, hn0, rfl⟩ | ⟨n, hn, rfl⟩
    · have := hinp l0 hl0 (by simpa [renameLayer] using he)
      exact ⟨this.1, e.trans this.2⟩
    · obtain ⟨l1, hl1, hn1, he1⟩ := hin n hn he
      have := hinp l1 hl1 he1
      rw [hn1] at this
      exact ⟨this.1, e.trans this.2⟩

variable (hchain : ∀ n, Spec.InTree n m → n.inputs.length ≤ 1 ∧
      (n.inputs ≠ [] → ∃ q ∈ Spec.unaryClasses, matchPattern n.layer.cls q = true))
include hchain

/-- The step for replacements that are the same up to metadata. -/
theorem core_same (hs : Same sem False r m) : FloatOk sem auto names g0 v0 g' k := by
  have hg := hok.valid
  have hp := chain_plain hg hm hchain hok.unary
  have hkeys := same_keys _ _ hs
  have hnames := namesEq_of_keys hkeys
  have hwire := (same_wire sem r m hs hp []).2
  rw [List.append_nil] at hwire
  refine core_step hfresh hok hm h (le_refl _) ⟨?_, ?_⟩ hp ?_ ?_ ?_ ?_
  · rw [hnames]; exact chain_nodup hg hm hchain
  · intro n hn; rw [hnames] at hn; exact Or.inl hn
  · intro n hn
    obtain ⟨x, hx, hsx⟩ := same_mem _ _ hwire n hn
    obtain ⟨h1, h2, h3, h4, h5, -⟩ := same_root hsx
    have h4 := h4 trivial
    have hxl := hm.mem x hx
    refine ⟨?_, ?_, ?_, ?_, ?_⟩
    · rw [h2]; exact hok.unary.names _ hxl
    · rw [h2, h4]; exact hok.unary.inputs _ hxl
    · rw [h2, h4]; exact hok.unary.unary _ hxl
    · rw [h2, h3, Spec.SepWeights, h5]
      intro hc
      have := hok.unary.weights _ hxl hc
      rw [← show x.name = x.layer.name from rfl, ← hm.weights x hx] at this
      exact this
    · rw [h2]; exact hok.concat _ hxl
  · intro n hn he
    obtain ⟨x, hx, hsx⟩ := same_mem _ _ hwire n hn
    obtain ⟨h1, -, -, h4, -⟩ := same_root hsx
    exact ⟨x.layer, hm.mem x hx, h1.symm, (h4 trivial).symm.trans he⟩
  · intro v _
    exact same_value sem v _ _ hwire
  · intro n hn
    left
    have : (n.name, n.layer.cls) ∈ treeKeys r :=
      List.mem_map.2 ⟨n, (mem_preorder _ _).2 hn, rfl⟩
    rw [hkeys] at this
    obtain ⟨x, hx, he⟩ := List.mem_map.1 this
    simp only [Prod.mk.injEq] at he
    exact ⟨x.layer, hm.mem x ((mem_preorder _ _).1 hx), he.1, he.2⟩

end Core

theorem not_unary_conv : ∀ c ∈ ["QuantizeLayer", "SeparableConv2D", "Conv2D", "DepthwiseConv2D"],
    ∀ p ∈ Spec.unaryClasses, matchPattern c p = false := by decide +kernel

section Special
variable [DecidableEq U]
variable {sem : Spec.Semantics V Val} {auto : String → ℕ → String} {expand : V → V}
  {str1 str2 : String → String} (hsem : Spec.FloatOps sem auto expand str1 str2 U)
  {names : List String} {g0 : Graph V (Meta U)} {v0 : String → ℕ → ℕ → Val}
  {g : Graph V (Meta U)} {k : ℕ} (hfresh : Spec.FreshNames auto names)
  (hok : FloatOk sem auto names g0 v0 g k)
  {l : Layer} {w : List (String × V)} {i : Meta U}
  (hm : Matched g (.mk l w i []))
  {r : Node V (Meta U)} {g' : Graph V (Meta U)} (h : replaceFunctional g (.mk l w i []) r = .ok g')
include hsem hfresh hok hm h

theorem leaf_plain : Spec.PlainCalls (.mk l w i [] : Node V (Meta U)) := by
  intro n hn hne
  cases hn with
  | root => exact absurd rfl hne
  | child hc _ => simp at hc

theorem leaf_names (x : String) : x ∈ nodeNames (.mk l w i [] : Node V (Meta U)) ↔ x = l.name := by
  simp [nodeNames, preorder, preorderList, Node.name, Node.layer]

theorem special_input {b : Bits} (hcls : l.cls = "InputLayer") {k'}
    (hr : replaceInput b auto k (.mk l w i []) = .ok (r, k')) :
    FloatOk sem auto names g0 v0 g' k' := by
  simp only [replaceInput, Except.ok.injEq, Prod.mk.injEq] at hr
  obtain ⟨rfl, rfl⟩ := hr
  have hl := hm.mem _ (.root _)
  simp only [Node.layer] at hl
  have hinb := (hok.unary.inputs l hl).1 hcls
  have hne := auto_fresh hfresh hok.names "quantize_layer" k (le_refl _)
  have hW : ∀ n, Spec.InTree n (wire (.mk
        (⟨auto "quantize_layer" k, "QuantizeLayer", [("quantizer", "AllValuesQuantizer"),
          ("num_bits", toString (activationBits b))], []⟩ : Layer)
        [] default [.mk l w i []] : Node V (Meta U))
        ((leaves (.mk l w i [] : Node V (Meta U))).map (·.inbound))).1 →
      n = .mk (⟨auto "quantize_layer" k, "QuantizeLayer", [("quantizer", "AllValuesQuantizer"),
          ("num_bits", toString (activationBits b))],
        [[⟨l.name, 0, 0, []⟩]]⟩ : Layer) [] default [.mk l w i []] ∨ n = .mk l w i [] := by
    intro n hn
    simp only [leaves, List.map_cons, List.map_nil, wire, wireList] at hn
    cases hn with
    | root => exact Or.inl rfl
    | child hc hn =>
      rw [List.mem_singleton] at hc
      subst hc
      cases hn with
      | root => exact Or.inr rfl
      | child hc _ => simp at hc
  refine core_step hfresh hok hm h (k' := k + 1) (by omega) ⟨?_, ?_⟩
    (leaf_plain hsem hfresh hok hm h) ?_ ?_ ?_ ?_
  · simp only [nodeNames, preorder, preorderList, Node.name, Node.layer, List.map_cons,
      List.append_nil, List.map_nil, List.nodup_cons, List.mem_singleton, List.not_mem_nil,
      not_false_eq_true, List.nodup_nil, and_true]
    exact fun hh => hne l hl hh.symm
  · intro n hn
    simp only [nodeNames, preorder, preorderList, Node.name, Node.layer, List.map_cons,
      List.append_nil, List.map_nil, List.mem_cons, List.not_mem_nil, or_false] at hn ⊢
    rcases hn with rfl | rfl
    · exact Or.inr hne
    · exact Or.inl rfl
  · intro n hn
    rcases hW n hn with rfl | rfl
    · refine ⟨by simp only [Node.layer]; decide, by simp [Node.layer], ?_, ?_, by simp [Node.layer]⟩
      · intro p hp hc
        have := not_unary_conv "QuantizeLayer" (by simp) p hp
        simp only [Node.layer] at hc
        rw [this] at hc
        simp at hc
      · simp [Node.layer]
    · refine ⟨hok.unary.names l hl, hok.unary.inputs l hl, hok.unary.unary l hl, ?_,
        hok.concat l hl⟩
      intro hc
      simp only [Node.layer, hcls] at hc
      simp at hc
  · intro n hn he
    rcases hW n hn with rfl | rfl
    · simp [Node.layer] at he
    · exact ⟨l, hl, rfl, hinb⟩
  · intro v hv
    simp only [leaves, List.map_cons, List.map_nil, wire, wireList]
    simp only [Spec.treeValue, Spec.treeArgs]
    funext t
    rw [hsem.quantize]
    simp only [hinb]
    exact (hv.single l hl hinb t).symm
  · intro n hn
    cases hn with
    | root => exact Or.inr ⟨by simp [Node.layer], Or.inl ⟨_, k, by omega, rfl⟩⟩
    | child hc hn =>
      rw [List.mem_singleton] at hc
      subst hc
      cases hn with
      | root => exact Or.inl ⟨l, hl, rfl, rfl⟩
      | child hc _ => simp at hc

/-- A separable 2D convolution. -/
theorem special_sep2 (hcls : l.cls = "SeparableConv2D") {k'}
    (hc0 : hasConfig (.mk l w i [] : Node V (Meta U)) = false)
    (hr : replaceSepConv auto k (.mk l w i []) = .ok (r, k')) :
    FloatOk sem auto names g0 v0 g' k' := by
  have hl := hm.mem _ (.root _)
  simp only [Node.layer] at hl
  have hw : w = g.weights l.name := hm.weights _ (.root _)
  have hsw : Spec.SepWeights l w := by rw [hw]; exact hok.unary.weights l hl (Or.inr hcls)
  have hval := hsem.separable2D k (.mk l w i []) r k' hsw hcls hr hc0
  have hinb : l.inbound ≠ [] := by
    intro hh
    have := (hok.unary.inputs l hl).2 hh
    rw [hcls] at this
    simp at this
  simp only [replaceSepConv, hc0, Bool.false_eq_true, if_false, Except.ok.injEq,
    Prod.mk.injEq] at hr
  obtain ⟨hr, rfl⟩ := hr
  obtain ⟨lc, wc, ic, ld, wd, id', hrr, hlc, hlcn, hld, hldn⟩ :
      ∃ lc wc ic ld wd id', r = (.mk lc wc ic [.mk ld wd id' []] : Node V (Meta U)) ∧
        lc.cls = "Conv2D" ∧ lc.name = auto "conv2d" (k + 1) ∧ ld.cls = "DepthwiseConv2D" ∧
        ld.name = auto "depthwise_conv2d" k := by
    exact ⟨_, _, _, _, _, _, hr.symm, rfl, rfl, rfl, rfl⟩
  subst hrr
  clear hr
  have hnec := auto_fresh hfresh hok.names "conv2d" (k + 1) (by omega)
  have hned := auto_fresh hfresh hok.names "depthwise_conv2d" k (le_refl _)
  have hW : ∀ n, Spec.InTree n (wire (.mk lc wc ic [.mk ld wd id' []])
        ((leaves (.mk l w i [] : Node V (Meta U))).map (·.inbound))).1 →
      n = .mk { lc with inbound := [[⟨ld.name, 0, 0, []⟩]] } wc ic
        [.mk { ld with inbound := l.inbound } wd id' []] ∨
      n = .mk { ld with inbound := l.inbound } wd id' [] := by
    intro n hn
    simp only [leaves, List.map_cons, List.map_nil, wire, wireList] at hn
    cases hn with
    | root => exact Or.inl rfl
    | child hc hn =>
      rw [List.mem_singleton] at hc
      subst hc
      cases hn with
      | root => exact Or.inr rfl
      | child hc _ => simp at hc
  refine core_step hfresh hok hm h (k' := k + 2) (by omega) ⟨?_, ?_⟩
    (leaf_plain hsem hfresh hok hm h) ?_ ?_ ?_ ?_
  · simp only [nodeNames, preorder, preorderList, Node.name, Node.layer, List.map_cons,
      List.append_nil, List.map_nil, List.nodup_cons, List.mem_singleton, List.not_mem_nil,
      not_false_eq_true, List.nodup_nil, and_true]
    rw [hlcn, hldn]
    intro hh
    have := hfresh.distinct _ _ _ _ hh
    omega
  · intro n hn
    simp only [nodeNames, preorder, preorderList, Node.name, Node.layer, List.map_cons,
      List.append_nil, List.map_nil, List.mem_cons, List.not_mem_nil, or_false] at hn ⊢
    rcases hn with rfl | rfl
    · right; rw [hlcn]; exact hnec
    · right; rw [hldn]; exact hned
  · intro n hn
    rcases hW n hn with rfl | rfl
    · refine ⟨by simp only [Node.layer, hlc]; decide, by simp [Node.layer, hlc], ?_, ?_,
        by simp [Node.layer, hlc]⟩
      · intro p hp hc
        have := not_unary_conv "Conv2D" (by simp) p hp
        simp only [Node.layer, hlc] at hc
        rw [this] at hc
        simp at hc
      · simp [Node.layer, hlc]
    · refine ⟨by simp only [Node.layer, hld]; decide, by simp [Node.layer, hld, hinb], ?_, ?_,
        by simp [Node.layer, hld]⟩
      · intro p hp hc
        have := not_unary_conv "DepthwiseConv2D" (by simp) p hp
        simp only [Node.layer, hld] at hc
        rw [this] at hc
        simp at hc
      · simp [Node.layer, hld]
  · intro n hn he
    rcases hW n hn with rfl | rfl
    · simp [Node.layer] at he
    · exact absurd he hinb
  · intro v hv
    cases hib : l.inbound with
    | nil => exact absurd hib hinb
    | cons node rest =>
      have e := hval (node.map (Spec.argOf v))
      simp only [leaves, List.map_cons, List.map_nil, wire, wireList, Spec.treeValue, Spec.treeArgs,
        hib]
      rw [Spec.chainValue, Spec.chainValue] at e
      exact e
  · intro n hn
    right
    cases hn with
    | root => exact ⟨by simp [Node.layer, hlc], Or.inl ⟨_, k + 1, by omega, hlcn⟩⟩
    | child hc hn =>
      rw [List.mem_singleton] at hc
      subst hc
      cases hn with
      | root => exact ⟨by simp [Node.layer, hld], Or.inl ⟨_, k, by omega, hldn⟩⟩
      | child hc _ => simp at hc

/-- A separable 1D convolution. -/
theorem special_sep1 (hcls : l.cls = "SeparableConv1D") {k'}
    (hc0 : hasConfig (.mk l w i [] : Node V (Meta U)) = false)
    (hr : replaceSepConv1D auto expand str1 str2 k (.mk l w i []) = .ok (r, k')) :
    FloatOk sem auto names g0 v0 g' k' := by
  have hl := hm.mem _ (.root _)
  simp only [Node.layer] at hl
  have hw : w = g.weights l.name := hm.weights _ (.root _)
  have hsw : Spec.SepWeights l w := by rw [hw]; exact hok.unary.weights l hl (Or.inl hcls)
  have hval := hsem.separable1D k (.mk l w i []) r k' hsw hcls hr hc0
  have hinb : l.inbound ≠ [] := by
    intro hh
    have := (hok.unary.inputs l hl).2 hh
    rw [hcls] at this
    simp at this
  have hln := hok.names.sep l hl hcls
  simp only [replaceSepConv1D, hc0, Bool.false_eq_true, if_false] at hr
  split at hr
  · simp at hr
  simp only [Except.ok.injEq, Prod.mk.injEq] at hr
  obtain ⟨hr, rfl⟩ := hr
  obtain ⟨ls, is, lc, wc, ic, le, ie, hrr, hls, hlsn, hlc, hlcn, hlcw, hle, hlen⟩ :
      ∃ ls is lc wc ic le ie,
        r = (.mk ls [] is [.mk lc wc ic [.mk le [] ie []]] : Node V (Meta U)) ∧
        ls.cls = "Lambda" ∧ ls.name = auto "sepconv1d_squeeze" (k + 1) ∧
        lc.cls = "SeparableConv2D" ∧ lc.name = l.name ++ "_QAT_SepConv2D" ∧
        Spec.SepWeights lc wc ∧ le.cls = "Lambda" ∧ le.name = auto "sepconv1d_expand" k := by
    refine ⟨_, _, _, _, _, _, _, hr.symm, rfl, rfl, rfl, rfl, ?_, rfl, rfl⟩
    simp only [Spec.SepWeights, Node.weights, Node.layer] at hsw ⊢
    show _ = if l.get "use_bias" = "True" then 3 else 2
    by_cases hb : l.get "use_bias" = "True"
    · rw [if_pos hb] at hsw ⊢; simp [hsw, hb]
    · rw [if_neg hb] at hsw ⊢; simp [hsw, hb]
  subst hrr
  clear hr
  have hnes := auto_fresh hfresh hok.names "sepconv1d_squeeze" (k + 1) (by omega)
  have hnee := auto_fresh hfresh hok.names "sepconv1d_expand" k (le_refl _)
  have hnec := suffix_fresh hfresh hok.names hl hln
  have hW : ∀ n, Spec.InTree n (wire (.mk ls [] is [.mk lc wc ic [.mk le [] ie []]])
        ((leaves (.mk l w i [] : Node V (Meta U))).map (·.inbound))).1 →
      (n.layer = { ls with inbound := [[⟨lc.name, 0, 0, []⟩]] } ∧ n.weights = []) ∨
      (n.layer = { lc with inbound := [[⟨le.name, 0, 0, []⟩]] } ∧ n.weights = wc) ∨
      (n.layer = { le with inbound := l.inbound } ∧ n.weights = []) := by
    intro n hn
    simp only [leaves, List.map_cons, List.map_nil, wire, wireList] at hn
    cases hn with
    | root => exact Or.inl ⟨rfl, rfl⟩
    | child hc hn =>
      rw [List.mem_singleton] at hc
      subst hc
      cases hn with
      | root => exact Or.inr (Or.inl ⟨rfl, rfl⟩)
      | child hc hn =>
        rw [List.mem_singleton] at hc
        subst hc
        cases hn with
        | root => exact Or.inr (Or.inr ⟨rfl, rfl⟩)
        | child hc _ => simp at hc
  have hR : ∀ n, Spec.InTree n (.mk ls [] is [.mk lc wc ic [.mk le [] ie []]] : Node V (Meta U)) →
      n.layer = ls ∨ n.layer = lc ∨ n.layer = le := by
    intro n hn
    cases hn with
    | root => exact Or.inl rfl
    | child hc hn =>
      rw [List.mem_singleton] at hc
      subst hc
      cases hn with
      | root => exact Or.inr (Or.inl rfl)
      | child hc hn =>
        rw [List.mem_singleton] at hc
        subst hc
        cases hn with
        | root => exact Or.inr (Or.inr rfl)
        | child hc _ => simp at hc
  have hsuf := hfresh.suffix l.name hln
  refine core_step hfresh hok hm h (k' := k + 2) (by omega) ⟨?_, ?_⟩
    (leaf_plain hsem hfresh hok hm h) ?_ ?_ ?_ ?_
  · simp only [nodeNames, preorder, preorderList, Node.name, Node.layer, List.map_cons,
      List.append_nil, List.map_nil, List.nodup_cons, List.mem_cons, List.not_mem_nil,
      not_false_eq_true, List.nodup_nil, and_true, or_false]
    rw [hlsn, hlcn, hlen]
    refine ⟨?_, hsuf.2 _ _⟩
    rintro (hh | hh)
    · exact hsuf.2 _ _ hh.symm
    · have := hfresh.distinct _ _ _ _ hh
      omega
  · intro n hn
    simp only [nodeNames, preorder, preorderList, Node.name, Node.layer, List.map_cons,
      List.append_nil, List.map_nil, List.mem_cons, List.not_mem_nil, or_false] at hn ⊢
    rcases hn with rfl | rfl | rfl
    · right; rw [hlsn]; exact hnes
    · right; rw [hlcn]; exact hnec
    · right; rw [hlen]; exact hnee
  · intro n hn
    rcases hW n hn with ⟨h1, h2⟩ | ⟨h1, h2⟩ | ⟨h1, h2⟩
    · refine ⟨by rw [h1]; simp only [hls]; decide, by simp [h1, hls], ?_, by simp [h1, hls],
        by simp [h1, hls]⟩
      intro p hp hc node hnode
      rw [h1, List.mem_singleton] at hnode
      exact ⟨_, _, hnode⟩
    · refine ⟨by rw [h1]; simp only [hlc]; decide, by simp [h1, hlc], ?_, ?_, by simp [h1, hlc]⟩
      · intro p hp hc node hnode
        rw [h1, List.mem_singleton] at hnode
        exact ⟨_, _, hnode⟩
      · intro _
        rw [h1, h2]
        exact hlcw
    · refine ⟨by rw [h1]; simp only [hle]; decide, by simp [h1, hle, hinb], ?_, by simp [h1, hle],
        by simp [h1, hle]⟩
      intro p hp hc node hnode
      rw [h1] at hnode
      refine hok.unary.unary l hl "SeparableConv1D" (by simp [Spec.unaryClasses]) ?_ node hnode
      rw [hcls]; decide +kernel
  · intro n hn he
    rcases hW n hn with ⟨h1, h2⟩ | ⟨h1, h2⟩ | ⟨h1, h2⟩
    · rw [h1] at he; simp at he
    · rw [h1] at he; simp at he
    · rw [h1] at he; exact absurd he hinb
  · intro v hv
    cases hib : l.inbound with
    | nil => exact absurd hib hinb
    | cons node rest =>
      have e := hval (node.map (Spec.argOf v))
      simp only [leaves, List.map_cons, List.map_nil, wire, wireList, Spec.treeValue, Spec.treeArgs,
        hib]
      rw [Spec.chainValue, Spec.chainValue, Spec.chainValue] at e
      exact e
  · intro n hn
    right
    rcases hR n hn with h1 | h1 | h1
    · rw [Node.name, h1]
      exact ⟨by rw [hls]; decide, Or.inl ⟨_, k + 1, by omega, hlsn⟩⟩
    · rw [Node.name, h1]
      refine ⟨by rw [hlc]; decide, Or.inr ⟨l.name, hln, ?_, hlcn, ?_⟩⟩
      · simp [nodeNames, preorder, Node.name, Node.layer]
      · simp only [nodeNames, preorder, preorderList, Node.name, Node.layer, List.map_cons,
          List.append_nil, List.map_nil, List.mem_cons, List.not_mem_nil, or_false, not_or]
        rw [hlsn, hlcn, hlen]
        refine ⟨hnes l hl, hnec l hl, hnee l hl⟩
    · rw [Node.name, h1]
      exact ⟨by rw [hle]; decide, Or.inl ⟨_, k, by omega, hlen⟩⟩

end Special


theorem floatOk_mono {sem : Spec.Semantics V Val} {auto : String → ℕ → String} {names : List String}
    {g0 g : Graph V M} {v0 : String → ℕ → ℕ → Val} {k k' : ℕ} (hk : k ≤ k')
    (h : FloatOk sem auto names g0 v0 g k) : FloatOk sem auto names g0 v0 g k' :=
  ⟨h.functional, h.valid, h.unary, h.concat, namesOk_mono hk h.names, h.run⟩

theorem transforms_split (auto : String → ℕ → String) (c : Classes) (expand : V → V)
    (str1 str2 : String → String) : ∀ t ∈ transforms (U := U) auto c expand str1 str2,
    (t.pattern = .mk "InputLayer" [] [] ∧ t.replacement = replaceInput c.params.bits auto) ∨
    (t.pattern = .mk "SeparableConv1D" [] [] ∧
      t.replacement = replaceSepConv1D auto expand str1 str2) ∨
    (t.pattern = .mk "SeparableConv2D" [] [] ∧ t.replacement = replaceSepConv auto) ∨
    (t.name ∉ ["InputLayerQuantize", "SeparableConv1DQuantize", "SeparableConvQuantize"] ∧
      (ChainPat t.pattern ∨ ∃ ps, t.pattern = .mk "Concatenate" [] ps)) := by
  intro t ht
  rw [Aux.mem_transforms] at ht
  simp only [Aux.listed, pureTransform, List.mem_cons, List.not_mem_nil, or_false] at ht
  rcases ht with rfl | rfl | rfl | rfl | rfl | rfl | rfl | rfl | rfl | rfl | rfl | rfl | rfl | rfl |
    rfl | rfl | rfl | rfl | rfl
  · exact Or.inl ⟨rfl, rfl⟩
  · exact Or.inr (Or.inl ⟨rfl, rfl⟩)
  · exact Or.inr (Or.inr (Or.inl ⟨rfl, rfl⟩))
  all_goals
    refine Or.inr (Or.inr (Or.inr ⟨by simp, ?_⟩))
    first
      | exact Or.inr ⟨_, rfl⟩
      | (left
         simp only [reluAct, convReshapeBNPattern, convBNPattern, denseBNPattern, convPattern, producer]
         repeat' first
           | exact ChainPat.leaf _ _
           | refine ChainPat.step (by simp [Spec.unaryClasses]) ?_)

theorem plainName_four : ∀ c ∈ ["InputLayer", "SeparableConv1D", "SeparableConv2D", "Concatenate"],
    Spec.PlainName c := by decide +kernel

theorem leaf_match [Inhabited M] {g : Graph V M} {cls l h} {m : Node V M}
    (hm : matchTree g (.mk cls [] []) l h = some m) : m = .mk l (g.weights l.name) m.info [] := by
  obtain ⟨-, -, ⟨-, rfl⟩ | ⟨h0, -⟩⟩ := matchTree_split hm
  · rfl
  · exact absurd rfl h0

theorem turn_done [Inhabited M] [DecidableEq M] [DecidableEq V] {metaEq : M → M → Bool}
    {ts : List (Transform V M)} {s : Loop V M} {g : Graph V M} (h : turn metaEq ts s = .done g) :
    g = s.graph := by
  rw [turn] at h
  split at h
  · split at h
    · simp at h
    · simpa using h.symm
  · split at h
    · simp at h
    · split at h
      · simp at h
      · split at h
        · simp at h
        · split at h <;> simp at h

section Loop8
variable [DecidableEq U] [DecidableEq V]
variable {sem : Spec.Semantics V Val} {auto : String → ℕ → String} {expand : V → V}
  {str1 str2 : String → String} (hsem : Spec.FloatOps sem auto expand str1 str2 U)
  {names : List String} {g0 : Graph V (Meta U)} {v0 : String → ℕ → ℕ → Val}
  (hfresh : Spec.FreshNames auto names)
include hsem hfresh

theorem float_step (c : Classes) {g : Graph V (Meta U)} {k k' : ℕ}
    (hok : FloatOk sem auto names g0 v0 g k) {t} (ht : t ∈ transforms auto c expand str1 str2)
    {matched m r} (hf : findPattern g t.pattern matched = some m)
    (hr : t.replacement k m = .ok (r, k')) :
    k ≤ k' ∧ ∀ g', replaceFunctional g m r = .ok g' → FloatOk sem auto names g0 v0 g' k' := by
  have hm := matched_of_find hok.functional hf
  obtain ⟨hml, -, hmt⟩ := findPattern_some hf
  have hcls : ∀ cls ∈ ["InputLayer", "SeparableConv1D", "SeparableConv2D", "Concatenate"], ∀ cfg ps,
      t.pattern = .mk cls cfg ps → m.layer.cls = cls := by
    intro cls hc cfg ps hp
    rw [hp] at hmt
    exact (C56_single cls _ (plainName_four cls hc) (hok.unary.names _ hml)).1 (match_class hmt)
  have hleaf : ∀ cls, t.pattern = .mk cls [] [] → ∃ l w i, m = .mk l w i [] := by
    intro cls hp
    rw [hp] at hmt
    exact ⟨_, _, _, leaf_match hmt⟩
  have same : ∀ g' l w i, m = .mk l w i [] → r = m → replaceFunctional g m r = .ok g' →
      FloatOk sem auto names g0 v0 g' k := by
    intro g' l w i he hrm h
    refine core_same hfresh hok hm h ?_ (by rw [hrm]; exact same_refl _ _ _)
    intro n hn
    subst he
    cases hn with
    | root => simp [Node.inputs]
    | child hc _ => simp at hc
  rcases transforms_split auto c expand str1 str2 t ht with ⟨hp, hrep⟩ | ⟨hp, hrep⟩ | ⟨hp, hrep⟩ |
      ⟨hn, hp⟩
  · have hcl := hcls _ (by simp) _ _ hp
    obtain ⟨l, w, i, rfl⟩ := hleaf _ hp
    rw [hrep] at hr
    refine ⟨?_, fun g' h => special_input hsem hfresh hok hm h hcl hr⟩
    simp only [replaceInput, Except.ok.injEq, Prod.mk.injEq] at hr
    omega
  · have hcl := hcls _ (by simp) _ _ hp
    obtain ⟨l, w, i, rfl⟩ := hleaf _ hp
    rw [hrep] at hr
    cases hc : hasConfig (.mk l w i [] : Node V (Meta U)) with
    | true =>
      simp only [replaceSepConv1D, hc, if_true, Except.ok.injEq, Prod.mk.injEq] at hr
      obtain ⟨rfl, rfl⟩ := hr
      exact ⟨le_refl _, fun g' h => same g' _ _ _ rfl rfl h⟩
    | false =>
      refine ⟨?_, fun g' h => special_sep1 hsem hfresh hok hm h hcl hc hr⟩
      simp only [replaceSepConv1D, hc, Bool.false_eq_true, if_false] at hr
      split at hr
      · simp at hr
      · simp only [Except.ok.injEq, Prod.mk.injEq] at hr
        omega
  · have hcl := hcls _ (by simp) _ _ hp
    obtain ⟨l, w, i, rfl⟩ := hleaf _ hp
    rw [hrep] at hr
    cases hc : hasConfig (.mk l w i [] : Node V (Meta U)) with
    | true =>
      simp only [replaceSepConv, hc, if_true, Except.ok.injEq, Prod.mk.injEq] at hr
      obtain ⟨rfl, rfl⟩ := hr
      exact ⟨le_refl _, fun g' h => same g' _ _ _ rfl rfl h⟩
    | false =>
      refine ⟨?_, fun g' h => special_sep2 hsem hfresh hok hm h hcl hc hr⟩
      simp only [replaceSepConv, hc, Bool.false_eq_true, if_false, Except.ok.injEq,
        Prod.mk.injEq] at hr
      omega
  · obtain ⟨hs, rfl⟩ := pure_same hsem c t ht hn g _ _ m k r k' hmt hr
    refine ⟨le_refl _, fun g' h => ?_⟩
    rcases hp with hp | ⟨ps, hp⟩
    · exact core_same hfresh hok hm h (chain_inner hp hmt) hs
    · exact absurd (hcls _ (by simp) _ _ hp) (hok.concat _ hml)

theorem float_run (metaEq : Meta U → Meta U → Bool) (c : Classes) : ∀ fuel (s : Loop V (Meta U)) g',
    FloatOk sem auto names g0 v0 s.graph s.supply →
    (∀ t ∈ s.rest, t ∈ transforms auto c expand str1 str2) →
    run metaEq (transforms auto c expand str1 str2) fuel s = some (.ok g') →
    ∃ k, FloatOk sem auto names g0 v0 g' k := by
  intro fuel
  induction fuel with
  | zero => intro s g' _ _ h; simp [run] at h
  | succ fuel ih =>
    intro s g' hok hrest h
    rw [run] at h
    split at h
    · rename_i s' hturn
      refine ih s' g' ?_ ?_ h
      · rcases turn_next hturn with ⟨-, -, rfl⟩ | ⟨t, tl, hr, -, rfl⟩ |
          ⟨t, tl, m, r, k, hr, hfind, hrep, -, hmat, hsup, ⟨-, hg, -⟩ | ⟨-, hg, -⟩⟩
        · exact hok
        · exact hok
        · have ht : t ∈ transforms auto c expand str1 str2 := hrest t (by rw [hr]; simp)
          obtain ⟨hk, -⟩ := float_step hsem hfresh c hok ht hfind hrep
          rw [hg, hsup]
          exact floatOk_mono hk hok
        · have ht : t ∈ transforms auto c expand str1 str2 := hrest t (by rw [hr]; simp)
          obtain ⟨-, hk⟩ := float_step hsem hfresh c hok ht hfind hrep
          rw [hsup]
          refine hk _ ?_
          rw [replace, hok.functional] at hg
          exact hg
      · rcases turn_next hturn with ⟨-, -, rfl⟩ | ⟨t, tl, hr, -, rfl⟩ |
          ⟨t, tl, m, r, k, hr, hfind, hrep, hrest', -⟩
        · exact fun t ht => ht
        · exact fun t' ht' => hrest t' (by rw [hr]; simp only [List.mem_cons]; exact Or.inr ht')
        · rw [hrest']; exact hrest
    · rename_i g hturn
      simp only [Option.some.injEq, Except.ok.injEq] at h
      subst h
      refine ⟨s.supply, ?_⟩
      rw [turn_done hturn]; exact hok
    · simp at h

end Loop8

end Aux

section Main
variable [DecidableEq U] [DecidableEq V]

/-- C77: the default 8-bit layout transforms, from the start to the end of the loops, on a functional
model without `Concatenate` layers: whenever the loops end without an exception, the transformed
model computes the same outputs from the same inputs as the given model (without fake
quantization). -/
theorem C77_default8bit_partial (metaEq : Meta U → Meta U → Bool) (auto : String → ℕ → String)
    (c : Classes) (expand : V → V) (str1 str2 : String → String) (sem : Spec.Semantics V Val)
    (hsem : Spec.FloatOps sem auto expand str1 str2 U)
    (g g' : Graph V (Meta U)) (hf : g.functional = true) (hg : Spec.Valid g) (hu : Spec.Unary g)
    (hcat : ∀ l ∈ g.layers, l.cls ≠ "Concatenate")
    (hnames : Spec.FreshNames auto (g.layers.map (·.name))) (fuel : ℕ)
    (hrun : run metaEq (transforms auto c expand str1 str2) fuel
      (start (transforms auto c expand str1 str2) g) = some (.ok g'))
    (v w : String → ℕ → ℕ → Val) (hv : Spec.IsRun sem g v) (hw : Spec.IsRun sem g' w)
    (hsame : ∀ l ∈ g.layers, l.inbound = [] → v l.name 0 0 = w l.name 0 0) :
    Spec.Valid g' ∧ Spec.outputValues g' w = Spec.outputValues g v := by
  have hok : Aux.FloatOk sem auto (g.layers.map (·.name)) g v g 0 :=
    ⟨hf, hg, hu, hcat,
      ⟨fun l hl => Or.inl (List.mem_map_of_mem hl), fun l hl _ => List.mem_map_of_mem hl⟩,
      v, hv, rfl, fun l hl he => ⟨⟨l, hl, rfl, he⟩, rfl⟩⟩
  obtain ⟨k, hok'⟩ := Aux.float_run hsem hnames metaEq c fuel _ g' hok (fun t ht => ht) hrun
  refine ⟨hok'.valid, ?_⟩
  obtain ⟨v', hv', hout, hinp⟩ := hok'.run
  rw [← hout]
  have huniq := Aux.run_unique sem hok'.valid hw hv' (by
    intro l hl he
    obtain ⟨⟨l0, hl0, hn0, he0⟩, h2⟩ := hinp l hl he
    rw [h2, ← hn0]
    exact (hsame l0 hl0 he0).symm)
  unfold Spec.outputValues
  refine List.map_congr_left ?_
  intro o ho
  rw [huniq _ _ (hok'.valid.outputs o ho)]

end Main

end Verif.Props
