import Verif.Props.FloatSequential

/-
What a replacement of the graph transformer does to the layers, weights, metadata and candidates of
a model, for Sequential and functional models alike.  (Lemmas for C54 and C57.)
-/
set_option linter.unusedSectionVars false

namespace Verif.Props
open Verif.Quant.Transformer Verif.Quant.Transforms8Bit

variable {V U M : Type}

namespace Spec

/-- The same layer up to its connections. -/
def SameLayer (l l' : Layer) : Prop := l'.name = l.name ∧ l'.cls = l.cls ∧ l'.config = l.config

end Spec

namespace Aux

section
variable [Inhabited M] [DecidableEq M]

/-- The metadata after a list of nodes was registered. -/
theorem fold_metadata (step : Graph V M → Node V M → Graph V M)
    (hstep : ∀ g n k, (step g n).metadata k
      = if k = n.name ∧ n.info ≠ default then some n.info else g.metadata k)
    (ns : List (Node V M)) : ∀ (g : Graph V M) (x : String),
    (∃ n ∈ ns, n.name = x ∧ n.info ≠ default ∧ (ns.foldl step g).metadata x = some n.info) ∨
    ((∀ n ∈ ns, n.name = x → n.info = default) ∧ (ns.foldl step g).metadata x = g.metadata x) := by
  induction ns with
  | nil => intro g x; right; simp
  | cons n ns ih =>
    intro g x
    rw [List.foldl_cons]
    rcases ih (step g n) x with ⟨n', hn', h1, h2, h3⟩ | ⟨h1, h2⟩
    · exact Or.inl ⟨n', by simp [hn'], h1, h2, h3⟩
    · by_cases hx : x = n.name ∧ n.info ≠ default
      · left
        refine ⟨n, by simp, hx.1.symm, hx.2, ?_⟩
        rw [h2, hstep, if_pos hx]
      · right
        refine ⟨?_, ?_⟩
        · intro n' hn' he
          rcases List.mem_cons.1 hn' with rfl | hn'
          · by_contra hne
            exact hx ⟨he.symm, hne⟩
          · exact h1 n' hn' he
        · rw [h2, hstep, if_neg hx]

/-- The weights after a list of nodes was registered. -/
theorem fold_weights (step : Graph V M → Node V M → Graph V M)
    (hstep : ∀ g n k, (step g n).weights k
      = if k = n.name ∧ n.weights ≠ [] then n.weights else g.weights k)
    (ns : List (Node V M)) : ∀ (g : Graph V M) (x : String),
    (∃ n ∈ ns, n.name = x ∧ n.weights ≠ [] ∧ (ns.foldl step g).weights x = n.weights) ∨
    ((∀ n ∈ ns, n.name = x → n.weights = []) ∧ (ns.foldl step g).weights x = g.weights x) := by
  induction ns with
  | nil => intro g x; right; simp
  | cons n ns ih =>
    intro g x
    rw [List.foldl_cons]
    rcases ih (step g n) x with ⟨n', hn', h1, h2, h3⟩ | ⟨h1, h2⟩
    · exact Or.inl ⟨n', by simp [hn'], h1, h2, h3⟩
    · by_cases hx : x = n.name ∧ n.weights ≠ []
      · left
        refine ⟨n, by simp, hx.1.symm, hx.2, ?_⟩
        rw [h2, hstep, if_pos hx]
      · right
        refine ⟨?_, ?_⟩
        · intro n' hn' he
          rcases List.mem_cons.1 hn' with rfl | hn'
          · by_contra hne
            exact hx ⟨he.symm, hne⟩
          · exact h1 n' hn' he
        · rw [h2, hstep, if_neg hx]

theorem fold_candidates (step : Graph V M → Node V M → Graph V M)
    (hstep : ∀ g n, (step g n).candidates
      = if g.candidates.isEmpty then [] else g.candidates ++ [n.name])
    (ns : List (Node V M)) : ∀ g : Graph V M, (ns.foldl step g).candidates
      = if g.candidates.isEmpty then [] else g.candidates ++ ns.map (·.name) := by
  induction ns with
  | nil =>
    intro g
    cases hc : g.candidates <;> simp [hc]
  | cons n ns ih =>
    intro g
    rw [List.foldl_cons, ih, hstep]
    cases hc : g.candidates with
    | nil => simp
    | cons c cs => simp

/-- `addSequential` as a fold, for everything but the layers. -/
theorem addSequential_fold (ns : List (Node V M)) : ∀ (g : Graph V M) (i : Nat),
    (addSequential g i ns).metadata = (ns.foldl register g).metadata ∧
    (addSequential g i ns).weights = (ns.foldl register g).weights ∧
    (addSequential g i ns).candidates = (ns.foldl register g).candidates := by
  have key : ∀ (ns : List (Node V M)) (g g' : Graph V M), g.metadata = g'.metadata →
      g.weights = g'.weights → g.candidates = g'.candidates →
      (ns.foldl register g).metadata = (ns.foldl register g').metadata ∧
      (ns.foldl register g).weights = (ns.foldl register g').weights ∧
      (ns.foldl register g).candidates = (ns.foldl register g').candidates := by
    intro ns
    induction ns with
    | nil => intro g g' h1 h2 h3; exact ⟨h1, h2, h3⟩
    | cons n ns ih =>
      intro g g' h1 h2 h3
      rw [List.foldl_cons, List.foldl_cons]
      refine ih _ _ ?_ ?_ ?_
      · simp only [register, h1]
      · simp only [register, h2]
      · simp only [register, h3]
  induction ns with
  | nil => intro g i; exact ⟨rfl, rfl, rfl⟩
  | cons n ns ih =>
    intro g i
    rw [addSequential, List.foldl_cons]
    obtain ⟨h1, h2, h3⟩ := ih (register { g with layers := pyInsert g.layers i n.layer } n) (i + 1)
    obtain ⟨k1, k2, k3⟩ := key ns (register { g with layers := pyInsert g.layers i n.layer } n)
      (register g n) rfl rfl rfl
    exact ⟨h1.trans k1, h2.trans k2, h3.trans k3⟩

/-- The effect of a replacement. -/
structure Effect (g : Graph V M) (m r : Node V M) (g' : Graph V M) : Prop where
  functional : g'.functional = g.functional
  kept : ∀ l ∈ g.layers, l.name ∉ nodeNames m → ∃ l' ∈ g'.layers, Spec.SameLayer l l'
  added : ∀ n, Spec.InTree n r → ∃ l' ∈ g'.layers, Spec.SameLayer n.layer l'
  only : ∀ l' ∈ g'.layers, (∃ l ∈ g.layers, l.name ∉ nodeNames m ∧ Spec.SameLayer l l') ∨
    ∃ n, Spec.InTree n r ∧ Spec.SameLayer n.layer l'
  info : ∀ x,
    (∃ n, Spec.InTree n r ∧ n.name = x ∧ n.info ≠ default ∧ g'.metadata x = some n.info) ∨
    ((∀ n, Spec.InTree n r → n.name = x → n.info = default) ∧
      g'.metadata x = if x ∈ nodeNames m then none else g.metadata x)
  weights : ∀ x,
    (∃ n, Spec.InTree n r ∧ n.name = x ∧ n.weights ≠ [] ∧ g'.weights x = n.weights) ∨
    ((∀ n, Spec.InTree n r → n.name = x → n.weights = []) ∧
      g'.weights x = if x ∈ nodeNames m then [] else g.weights x)
  candidates : (g.candidates = [] → g'.candidates = []) ∧ (g.candidates ≠ [] →
    g'.candidates ≠ [] ∧ ∀ x, x ∈ g'.candidates ↔ x ∈ g.candidates ∨ x ∈ nodeNames r)

theorem removeLayers_maps (g : Graph V M) (names : List String) (x : String) :
    (removeLayers g names).metadata x = (if x ∈ names then none else g.metadata x) ∧
    (removeLayers g names).weights x = (if x ∈ names then [] else g.weights x) ∧
    (removeLayers g names).candidates = g.candidates ∧
    (removeLayers g names).functional = g.functional := ⟨rfl, rfl, rfl, rfl⟩

theorem effect_functional {g : Graph V M} {m r : Node V M} {g'}
    (h : replaceFunctional g m r = .ok g') : Effect g m r g' := by
  have hl := replaceFunctional_layers h
  obtain ⟨-, hg'⟩ := replaceFunctional_ok h
  have hstrip : ∀ n, n ∈ preorder (wire r (leafInbounds m r)).1 →
      ∃ n', Spec.InTree n' r ∧ strip n = strip n' := by
    intro n hn
    have h2 : strip n ∈ (preorder r).map strip := by
      rw [← wire_strip r (leafInbounds m r)]
      exact List.mem_map_of_mem hn
    obtain ⟨n', hn', he⟩ := List.mem_map.1 h2
    exact ⟨n', (mem_preorder _ _).1 hn', he.symm⟩
  have hstrip' : ∀ n, Spec.InTree n r →
      ∃ n', n' ∈ preorder (wire r (leafInbounds m r)).1 ∧ strip n' = strip n := by
    intro n hn
    have h2 : strip n ∈ (preorder (wire r (leafInbounds m r)).1).map strip := by
      rw [wire_strip r (leafInbounds m r)]
      exact List.mem_map_of_mem ((mem_preorder _ _).2 hn)
    obtain ⟨n', hn', he⟩ := List.mem_map.1 h2
    exact ⟨n', hn', he⟩
  refine ⟨?_, ?_, ?_, ?_, ?_, ?_, ?_⟩
  · rw [hg', foldl_register_functional]; rfl
  · intro l hlm hn
    rw [hl]
    refine ⟨if m.name ∈ inboundNames l then renameLayer m.name r.name l else l, ?_, ?_⟩
    · refine List.mem_append_left _ (List.mem_filter.2 ⟨List.mem_map_of_mem hlm, ?_⟩)
      rw [Bool.not_eq_true', decide_eq_false_iff_not]
      split <;> exact hn
    · split <;> exact ⟨rfl, rfl, rfl⟩
  · intro n hn
    obtain ⟨n', hn', he⟩ := hstrip' n hn
    rw [hl]
    refine ⟨n'.layer, List.mem_append_right _ (List.mem_map_of_mem hn'), ?_⟩
    simp only [strip, Prod.mk.injEq] at he
    exact ⟨he.1.1, he.1.2.1, he.1.2.2⟩
  · intro l' hl'
    rw [hl, List.mem_append] at hl'
    rcases hl' with hl' | hl'
    · left
      obtain ⟨h1, h2⟩ := List.mem_filter.1 hl'
      obtain ⟨l, hlm, rfl⟩ := List.mem_map.1 h1
      refine ⟨l, hlm, ?_, ?_⟩
      · rw [Bool.not_eq_true', decide_eq_false_iff_not] at h2
        split at h2 <;> exact h2
      · split <;> exact ⟨rfl, rfl, rfl⟩
    · right
      obtain ⟨n, hn, rfl⟩ := List.mem_map.1 hl'
      obtain ⟨n', hn', he⟩ := hstrip n hn
      simp only [strip, Prod.mk.injEq] at he
      exact ⟨n', hn', he.1.1, he.1.2.1, he.1.2.2⟩
  · intro x
    rw [hg']
    rcases fold_metadata (fun g n => register { g with layers := g.layers ++ [n.layer] } n)
      (fun g n k => rfl) (preorder (wire r (leafInbounds m r)).1)
      (removeLayers (repointed g m.name r.name) (nodeNames m)) x with
      ⟨n, hn, h1, h2, h3⟩ | ⟨h1, h2⟩
    · left
      obtain ⟨n', hn', he⟩ := hstrip n hn
      simp only [strip, Prod.mk.injEq] at he
      refine ⟨n', hn', he.1.1.symm.trans h1, by rw [← he.2.2]; exact h2, ?_⟩
      rw [h3, he.2.2]
    · right
      refine ⟨?_, ?_⟩
      · intro n hn hx
        obtain ⟨n', hn', he⟩ := hstrip' n hn
        simp only [strip, Prod.mk.injEq] at he
        rw [← he.2.2]
        exact h1 n' hn' (he.1.1.trans hx)
      · rw [h2]; rfl
  · intro x
    rw [hg']
    rcases fold_weights (fun g n => register { g with layers := g.layers ++ [n.layer] } n)
      (fun g n k => rfl) (preorder (wire r (leafInbounds m r)).1)
      (removeLayers (repointed g m.name r.name) (nodeNames m)) x with
      ⟨n, hn, h1, h2, h3⟩ | ⟨h1, h2⟩
    · left
      obtain ⟨n', hn', he⟩ := hstrip n hn
      simp only [strip, Prod.mk.injEq] at he
      refine ⟨n', hn', he.1.1.symm.trans h1, by rw [← he.2.1]; exact h2, ?_⟩
      rw [h3, he.2.1]
    · right
      refine ⟨?_, ?_⟩
      · intro n hn hx
        obtain ⟨n', hn', he⟩ := hstrip' n hn
        simp only [strip, Prod.mk.injEq] at he
        rw [← he.2.1]
        exact h1 n' hn' (he.1.1.trans hx)
      · rw [h2]; rfl
  · have hc := fold_candidates
      (fun g n => register { g with layers := g.layers ++ [n.layer] } n)
      (fun g n => rfl) (preorder (wire r (leafInbounds m r)).1)
      (removeLayers (repointed g m.name r.name) (nodeNames m))
    rw [← hg', (removeLayers_maps _ _ "").2.2.1] at hc
    have hc' : g'.candidates = if g.candidates.isEmpty then [] else g.candidates ++ nodeNames r := by
      rw [hc, ← wire_nodeNames r (leafInbounds m r)]; rfl
    refine ⟨fun h0 => by rw [hc', h0]; rfl, fun h0 => ?_⟩
    rw [hc', if_neg (by simpa using h0)]
    exact ⟨by simp [h0], fun x => List.mem_append⟩

theorem effect_sequential {g : Graph V M} {m r : Node V M} (hm : m.layer ∈ g.layers) :
    Effect g m r (replaceSequential g m r) := by
  have hroot : m.name ∈ nodeNames m := (mem_nodeNames m _).2 ⟨m, Spec.InTree.root m, rfl⟩
  have hne : ∃ first tl, getLayers g (nodeNames m) = first :: tl := by
    cases hg : getLayers g (nodeNames m) with
    | nil =>
      have : m.layer ∈ getLayers g (nodeNames m) := List.mem_filter.2 ⟨hm, decide_eq_true hroot⟩
      rw [hg] at this
      simp at this
    | cons a b => exact ⟨a, b, rfl⟩
  obtain ⟨first, tl, hfirst⟩ := hne
  have heq : replaceSequential g m r
      = addSequential (removeLayers g (nodeNames m)) (g.layers.idxOf first) (postorder r) := by
    rw [replaceSequential, hfirst]
  obtain ⟨f1, f2, f3⟩ := addSequential_fold (postorder r) (removeLayers g (nodeNames m))
    (g.layers.idxOf first)
  rw [heq]
  have hmem : ∀ (ns : List (Node V M)) (g : Graph V M) (i : Nat), ∀ x,
      x ∈ (addSequential g i ns).layers ↔ x ∈ g.layers ∨ ∃ n ∈ ns, n.layer = x := by
    intro ns
    induction ns with
    | nil => intro g i x; simp [addSequential]
    | cons n ns ih =>
      intro g i x
      rw [addSequential, ih]
      have : x ∈ (register { g with layers := pyInsert g.layers i n.layer } n).layers ↔
          x ∈ g.layers ∨ n.layer = x := by
        simp only [register, pyInsert, List.mem_append, List.mem_cons]
        constructor
        · rintro (h | rfl | h)
          · exact Or.inl (List.mem_of_mem_take h)
          · exact Or.inr rfl
          · exact Or.inl (List.mem_of_mem_drop h)
        · rintro (h | rfl)
          · rw [← List.take_append_drop i g.layers, List.mem_append] at h
            tauto
          · tauto
      rw [this]
      simp only [List.mem_cons, exists_eq_or_imp]
      tauto
  have hrem : ∀ x, x ∈ (removeLayers g (nodeNames m)).layers ↔ x ∈ g.layers ∧ x.name ∉ nodeNames m := by
    intro x
    rw [removeLayers_layers, List.mem_filter]
    simp
  refine ⟨?_, ?_, ?_, ?_, ?_, ?_, ?_⟩
  · exact (addSequential_maps _ _ _).1
  · intro l hl hn
    exact ⟨l, (hmem _ _ _ _).2 (Or.inl ((hrem l).2 ⟨hl, hn⟩)), rfl, rfl, rfl⟩
  · intro n hn
    exact ⟨n.layer, (hmem _ _ _ _).2 (Or.inr ⟨n, (mem_postorder _ _).2 hn, rfl⟩), rfl, rfl, rfl⟩
  · intro l' hl'
    rcases (hmem _ _ _ _).1 hl' with h | ⟨n, hn, rfl⟩
    · obtain ⟨h1, h2⟩ := (hrem _).1 h
      exact Or.inl ⟨l', h1, h2, rfl, rfl, rfl⟩
    · exact Or.inr ⟨n, (mem_postorder _ _).1 hn, rfl, rfl, rfl⟩
  · intro x
    rw [f1]
    rcases fold_metadata register (fun g n k => rfl) (postorder r)
      (removeLayers g (nodeNames m)) x with ⟨n, hn, h1, h2, h3⟩ | ⟨h1, h2⟩
    · exact Or.inl ⟨n, (mem_postorder _ _).1 hn, h1, h2, h3⟩
    · exact Or.inr ⟨fun n hn => h1 n ((mem_postorder _ _).2 hn), by rw [h2]; rfl⟩
  · intro x
    rw [f2]
    rcases fold_weights register (fun g n k => rfl) (postorder r)
      (removeLayers g (nodeNames m)) x with ⟨n, hn, h1, h2, h3⟩ | ⟨h1, h2⟩
    · exact Or.inl ⟨n, (mem_postorder _ _).1 hn, h1, h2, h3⟩
    · exact Or.inr ⟨fun n hn => h1 n ((mem_postorder _ _).2 hn), by rw [h2]; rfl⟩
  · rw [f3, fold_candidates register (fun g n => rfl), (removeLayers_maps _ _ "").2.2.1]
    refine ⟨fun h0 => by rw [h0]; rfl, fun h0 => ?_⟩
    rw [if_neg (by simpa using h0)]
    refine ⟨by simp [h0], fun x => ?_⟩
    rw [List.mem_append, nodeNames]
    refine or_congr Iff.rfl ?_
    simp only [List.mem_map]
    constructor
    · rintro ⟨n, hn, he⟩
      exact ⟨n, (mem_preorder _ _).2 ((mem_postorder _ _).1 hn), he⟩
    · rintro ⟨n, hn, he⟩
      exact ⟨n, (mem_postorder _ _).2 ((mem_preorder _ _).1 hn), he⟩

/-- A successful replacement of a match has the effect described by `Effect`. -/
theorem replace_effect {g : Graph V M} {m r : Node V M} {g'} (hm : m.layer ∈ g.layers)
    (h : replace g m r = .ok g') : Effect g m r g' := by
  rw [replace] at h
  split at h
  · exact effect_functional h
  · simp only [Except.ok.injEq] at h
    rw [← h]
    exact effect_sequential hm

end

/-! ### Matched layers are candidates -/

section
variable [Inhabited M]

mutual
theorem matchTree_candidates (g : Graph V M) : ∀ (p : Pattern) (l : Layer) (h : Bool) (m : Node V M),
    matchTree g p l h = some m →
    ∀ n, Spec.InTree n m → g.candidates = [] ∨ n.name ∈ g.candidates
  | .mk cls config inputs, l, h, m => by
    intro hm n hn
    obtain ⟨hml, -, hins⟩ := matchTree_split hm
    have hl : g.candidates = [] ∨ l.name ∈ g.candidates := by
      simp only [matchLayer, Bool.and_eq_true, Bool.or_eq_true, decide_eq_true_eq,
        List.isEmpty_iff] at hml
      exact hml.1.1
    rcases hins with ⟨-, rfl⟩ | ⟨-, ns, hns, rfl⟩
    · cases hn with
      | root => exact hl
      | child hc _ => simp at hc
    · cases hn with
      | root => exact hl
      | child hc hn => exact matchTrees_candidates g inputs _ ns hns _ hc n hn
theorem matchTrees_candidates (g : Graph V M) : ∀ (ps : List Pattern) (ls : List Layer)
    (ns : List (Node V M)), matchTrees g ps ls = some ns →
    ∀ c ∈ ns, ∀ n, Spec.InTree n c → g.candidates = [] ∨ n.name ∈ g.candidates
  | [], [], ns => by
    intro h
    simp only [matchTrees, Option.some.injEq] at h
    subst h
    simp
  | [], _ :: _, ns => by intro h; simp [matchTrees] at h
  | _ :: _, [], ns => by intro h; simp [matchTrees] at h
  | p :: ps, l :: ls, ns => by
    intro h c hc n hn
    rw [matchTrees] at h
    obtain ⟨n0, h0, h1⟩ := Option.bind_eq_some_iff.1 h
    obtain ⟨ns', h2, rfl⟩ := Option.map_eq_some_iff.1 h1
    rcases List.mem_cons.1 hc with rfl | hc
    · exact matchTree_candidates g p l false c h0 n hn
    · exact matchTrees_candidates g ps ls ns' h2 c hc n hn
end

end

end Aux

end Verif.Props
