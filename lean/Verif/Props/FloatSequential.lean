import Verif.Props.FloatFunction

/-!
# C77 for Sequential models: the default 8-bit layout transforms keep what the model computes
-/

set_option linter.unusedSectionVars false

namespace Verif.Props
open Verif.Quant.Transformer Verif.Quant.Transforms8Bit

variable {V U M Val : Type}

namespace Spec

/-- What one layer of a Sequential model makes of a tensor; an `InputLayer` passes it on. -/
def layerValue (sem : Semantics V Val) (l : Layer) (w : List (String × V)) (x : Val) : Val :=
  if l.cls = "InputLayer" then x else sem l.cls l.config w [(x, [])] 0

/-- What a Sequential model computes: its layers one after the other. -/
def sequentialValue (sem : Semantics V Val) (g : Graph V M) (x : Val) : Val :=
  g.layers.foldl (fun y l => layerValue sem l (g.weights l.name) y) x

/-- Well-formed Sequential models: class names contain no line breaks, layer names are unique,
separable convolutions have as many weights as they should, and there are weights for existing
layers only. -/
structure SequentialModel (g : Graph V M) : Prop where
  sequential : g.functional = false
  unique : UniqueNames g
  names : ∀ l ∈ g.layers, '\n' ∉ l.cls.toList
  sep : ∀ l ∈ g.layers, l.cls = "SeparableConv1D" ∨ l.cls = "SeparableConv2D" →
    SepWeights l (g.weights l.name)
  weights : ∀ n, (∀ l ∈ g.layers, l.name ≠ n) → g.weights n = []

end Spec

namespace Aux

theorem layerValue_input (sem : Spec.Semantics V Val) {l : Layer} (h : l.cls = "InputLayer") (w x) :
    Spec.layerValue sem l w x = x := if_pos h

theorem layerValue_op (sem : Spec.Semantics V Val) {l : Layer} (h : l.cls ≠ "InputLayer") (w x) :
    Spec.layerValue sem l w x = sem l.cls l.config w [(x, [])] 0 := if_neg h

/-- The nodes of a list one after the other. -/
def nodesValue (sem : Spec.Semantics V Val) (ns : List (Node V M)) (x : Val) : Val :=
  ns.foldl (fun y n => Spec.layerValue sem n.layer n.weights y) x

theorem nodesValue_append (sem : Spec.Semantics V Val) (xs ys : List (Node V M)) (x : Val) :
    nodesValue sem (xs ++ ys) x = nodesValue sem ys (nodesValue sem xs x) := by
  rw [nodesValue, List.foldl_append]; rfl

theorem nodesValue_layers (sem : Spec.Semantics V Val) (w : String → List (String × V))
    (ns : List (Node V M)) (h : ∀ n ∈ ns, n.weights = w n.name) (x : Val) :
    (ns.map (·.layer)).foldl (fun y l => Spec.layerValue sem l (w l.name) y) x
      = nodesValue sem ns x := by
  induction ns generalizing x with
  | nil => rfl
  | cons n ns ih =>
    rw [List.map_cons, List.foldl_cons, ih (fun n' hn' => h n' (by simp [hn']))]
    rw [nodesValue, nodesValue, List.foldl_cons, h n (by simp)]
    rfl

theorem foldl_weights (sem : Spec.Semantics V Val) (w w' : String → List (String × V))
    (ls : List Layer) (h : ∀ l ∈ ls, w l.name = w' l.name) (x : Val) :
    ls.foldl (fun y l => Spec.layerValue sem l (w l.name) y) x
      = ls.foldl (fun y l => Spec.layerValue sem l (w' l.name) y) x := by
  induction ls generalizing x with
  | nil => rfl
  | cons l ls ih =>
    rw [List.foldl_cons, List.foldl_cons, h l (by simp), ih (fun l' hl' => h l' (by simp [hl']))]

mutual
theorem same_nodesValue (sem : Spec.Semantics V Val) : ∀ n n' : Node V M, Same sem False n n' →
    ∀ x, nodesValue sem (postorder n) x = nodesValue sem (postorder n') x
  | .mk l w i ins, .mk l' w' i' ins' => by
    intro h x
    rw [Same] at h
    obtain ⟨⟨-, h2, h3, -, -, h4⟩, h5⟩ := h
    rw [postorder, postorder, nodesValue_append, nodesValue_append,
      sameList_nodesValue sem ins ins' h5 x]
    generalize nodesValue sem (postorderList ins') x = y
    show Spec.layerValue sem l w y = Spec.layerValue sem l' w' y
    by_cases hc : l'.cls = "InputLayer"
    · rw [Spec.layerValue, Spec.layerValue, if_pos hc, if_pos (h2.trans hc)]
    · rw [Spec.layerValue, Spec.layerValue, if_neg hc, if_neg (fun hh => hc (h2.symm.trans hh)), h4]
theorem sameList_nodesValue (sem : Spec.Semantics V Val) : ∀ ns ns' : List (Node V M),
    SameList sem False ns ns' →
    ∀ x, nodesValue sem (postorderList ns) x = nodesValue sem (postorderList ns') x
  | [], [] => fun _ _ => rfl
  | [], _ :: _ => by intro h; rw [SameList] at h; exact h.elim
  | _ :: _, [] => by intro h; rw [SameList] at h; exact h.elim
  | n :: ns, n' :: ns' => by
    intro h x
    rw [SameList] at h
    rw [postorderList, postorderList, nodesValue_append, nodesValue_append,
      same_nodesValue sem n n' h.1 x, sameList_nodesValue sem ns ns' h.2]
end

mutual
theorem postorder_perm : ∀ n : Node V M, (postorder n).Perm (preorder n)
  | .mk l w i ins => by
    rw [postorder, preorder]
    exact (List.perm_append_singleton _ _).trans ((postorderList_perm ins).cons _)
theorem postorderList_perm : ∀ ns : List (Node V M), (postorderList ns).Perm (preorderList ns)
  | [] => by rw [postorderList, preorderList]
  | n :: ns => by
    rw [postorderList, preorderList]
    exact (postorder_perm n).append (postorderList_perm ns)
end

section Seq
variable [Inhabited M] [DecidableEq M]

theorem addSequential_maps (ns : List (Node V M)) : ∀ (g : Graph V M) (i : ℕ),
    (addSequential g i ns).functional = g.functional ∧
    (∀ k, k ∉ ns.map (·.name) → (addSequential g i ns).weights k = g.weights k) ∧
    ((ns.map (·.name)).Nodup → ∀ n ∈ ns, (addSequential g i ns).weights n.name
        = (if n.weights ≠ [] then n.weights else g.weights n.name)) := by
  induction ns with
  | nil => intro g i; simp [addSequential]
  | cons n ns ih =>
    intro g i
    rw [addSequential]
    obtain ⟨h1, h2, h3⟩ := ih (register { g with layers := pyInsert g.layers i n.layer } n) (i + 1)
    refine ⟨h1.trans rfl, ?_, ?_⟩
    · intro k hk
      simp only [List.map_cons, List.mem_cons, not_or] at hk
      rw [h2 k hk.2]
      simp [register, hk.1]
    · intro hnd n' hn'
      rw [List.map_cons, List.nodup_cons] at hnd
      rcases List.mem_cons.1 hn' with rfl | hn'
      · rw [h2 _ hnd.1]
        simp [register]
      · rw [h3 hnd.2 n' hn']
        have : n'.name ≠ n.name := by
          intro he
          exact hnd.1 (by rw [← he]; exact List.mem_map_of_mem hn')
        simp [register, this]

variable {g : Graph V M} (hu : Spec.UniqueNames g)
  (hwt : ∀ n, (∀ l ∈ g.layers, l.name ≠ n) → g.weights n = [])
  {m r : Node V M} {pre post : List Layer}
  (hpp : g.layers = pre ++ (postorder m).map (·.layer) ++ post)
  (hr : Spec.GoodNames g m r)
include hu hpp

theorem seq_outside : ∀ l, l ∈ pre ∨ l ∈ post → l.name ∉ nodeNames m := by
  intro l hl hn
  have hnd := hu
  rw [Spec.UniqueNames, hpp, List.map_append, List.map_append] at hnd
  have hn' : l.name ∈ ((postorder m).map (·.layer)).map (·.name) := by
    obtain ⟨c, hc, hcn⟩ := (mem_nodeNames m _).1 hn
    rw [List.map_map]
    exact List.mem_map.2 ⟨c, (mem_postorder _ _).2 hc, hcn⟩
  rcases hl with hl | hl
  · exact (List.nodup_append.1 (List.nodup_append.1 hnd).1).2.2 _ (List.mem_map_of_mem hl) _ hn' rfl
  · exact (List.nodup_append.1 hnd).2.2 _ (List.mem_append_right _ hn') _ (List.mem_map_of_mem hl) rfl

include hr in
theorem seq_outside' : ∀ l, l ∈ pre ∨ l ∈ post → l.name ∉ nodeNames r := by
  intro l hl hn
  have hlg : l ∈ g.layers := by rw [hpp]; rcases hl with h | h <;> simp [h]
  rcases hr.fresh _ hn with h | h
  · exact seq_outside hu hpp l hl h
  · exact h l hlg rfl

theorem seq_replace_eq : ∃ i, replaceSequential g m r
    = addSequential (removeLayers g (nodeNames m)) i (postorder r) := by
  rw [replaceSequential]
  split
  · rename_i h0
    exfalso
    have hmm : m.layer ∈ g.layers := by
      rw [hpp]
      have : m.layer ∈ (postorder m).map (·.layer) :=
        List.mem_map_of_mem ((mem_postorder _ _).2 (.root _))
      simp [-List.mem_map, this]
    have : m.layer ∈ getLayers g (nodeNames m) := by
      rw [getLayers, List.mem_filter]
      exact ⟨hmm, decide_eq_true ((mem_nodeNames m _).2 ⟨m, .root _, rfl⟩)⟩
    rw [h0] at this
    simp at this
  · exact ⟨_, rfl⟩

include hwt hr

theorem seq_weights_in {n : Node V M} (hn : Spec.InTree n r) :
    (replaceSequential g m r).weights n.name = n.weights := by
  obtain ⟨i, hi⟩ := seq_replace_eq (r := r) hu hpp
  rw [hi]
  have hnd : ((postorder r).map (·.name)).Nodup :=
    ((postorder_perm r).map Node.name).nodup_iff.2 hr.distinct
  rw [(addSequential_maps _ _ _).2.2 hnd n ((mem_postorder _ _).2 hn)]
  split
  · rfl
  · rename_i hw
    simp only [ne_eq, not_not] at hw
    rw [hw]
    simp only [removeLayers]
    split
    · rfl
    · rename_i hnm
      exact hwt _ ((hr.fresh _ ((mem_nodeNames r _).2 ⟨n, hn, rfl⟩)).resolve_left hnm)

theorem seq_weights_out {l : Layer} (hl : l ∈ pre ∨ l ∈ post) :
    (replaceSequential g m r).weights l.name = g.weights l.name := by
  obtain ⟨i, hi⟩ := seq_replace_eq (r := r) hu hpp
  rw [hi]
  have h1 := seq_outside hu hpp l hl
  have h2 := seq_outside' hu hpp hr l hl
  rw [(addSequential_maps _ _ _).2.1]
  · simp [removeLayers, h1]
  · intro hh
    obtain ⟨n, hn, hnn⟩ := List.mem_map.1 hh
    exact h2 ((mem_nodeNames r _).2 ⟨n, (mem_postorder _ _).1 hn, hnn⟩)

theorem seq_value (sem : Spec.Semantics V Val) (hmw : ∀ n, Spec.InTree n m → n.weights = g.weights n.name)
    (heq : ∀ x, nodesValue sem (postorder r) x = nodesValue sem (postorder m) x) (x : Val) :
    Spec.sequentialValue sem (replaceSequential g m r) x = Spec.sequentialValue sem g x := by
  rw [Spec.sequentialValue, Spec.sequentialValue, replaceSequential_layers g hu m r pre post hpp,
    hpp, List.foldl_append, List.foldl_append, List.foldl_append, List.foldl_append]
  rw [nodesValue_layers sem g.weights _ (fun n hn => hmw n ((mem_postorder _ _).1 hn)),
    nodesValue_layers sem (replaceSequential g m r).weights _
      (fun n hn => (seq_weights_in hu hwt hpp hr ((mem_postorder _ _).1 hn)).symm), heq]
  rw [foldl_weights sem _ g.weights pre (fun l hl => seq_weights_out hu hwt hpp hr (Or.inl hl)),
    foldl_weights sem _ g.weights post (fun l hl => seq_weights_out hu hwt hpp hr (Or.inr hl))]

theorem seq_unique : Spec.UniqueNames (replaceSequential g m r) := by
  rw [Spec.UniqueNames, replaceSequential_layers g hu m r pre post hpp]
  have hnd := hu
  rw [Spec.UniqueNames, hpp] at hnd
  simp only [List.map_append, List.map_map] at hnd ⊢
  have hrn : ((postorder r).map ((·.name) ∘ (·.layer))).Nodup :=
    ((postorder_perm r).map Node.name).nodup_iff.2 hr.distinct
  have hmem : ∀ s, s ∈ (postorder r).map ((fun l : Layer => l.name) ∘ fun n : Node V M => n.layer) →
      s ∈ nodeNames r := by
    intro s hs
    obtain ⟨n, hn, hnn⟩ := List.mem_map.1 hs
    exact (mem_nodeNames r _).2 ⟨n, (mem_postorder _ _).1 hn, hnn⟩
  obtain ⟨h1, h2, h3⟩ := List.nodup_append.1 hnd
  obtain ⟨h4, h5, h6⟩ := List.nodup_append.1 h1
  refine List.nodup_append.2 ⟨List.nodup_append.2 ⟨h4, hrn, ?_⟩, h2, ?_⟩
  · intro a ha b hb hab
    subst hab
    obtain ⟨l, hl, rfl⟩ := List.mem_map.1 ha
    exact seq_outside' hu hpp hr l (Or.inl hl) (hmem _ hb)
  · intro a ha b hb hab
    subst hab
    rcases List.mem_append.1 ha with ha | ha
    · exact h3 a (List.mem_append_left _ ha) a hb rfl
    · obtain ⟨l, hl, rfl⟩ := List.mem_map.1 hb
      exact seq_outside' hu hpp hr l (Or.inr hl) (hmem _ ha)

theorem seq_only : ∀ n, (∀ l ∈ (replaceSequential g m r).layers, l.name ≠ n) →
    (replaceSequential g m r).weights n = [] := by
  intro n hn
  rw [replaceSequential_layers g hu m r pre post hpp] at hn
  obtain ⟨i, hi⟩ := seq_replace_eq (r := r) hu hpp
  rw [hi, (addSequential_maps _ _ _).2.1]
  · simp only [removeLayers]
    split
    · rfl
    · rename_i hnm
      refine hwt n ?_
      intro l hl he
      rw [hpp] at hl
      simp only [List.mem_append] at hl
      rcases hl with (hl | hl) | hl
      · exact hn l (by simp [hl]) he
      · obtain ⟨c, hc, rfl⟩ := List.mem_map.1 hl
        exact hnm ((mem_nodeNames m _).2 ⟨c, (mem_postorder _ _).1 hc, he⟩)
      · exact hn l (by simp [hl]) he
  · intro hh
    obtain ⟨c, hc, hcn⟩ := List.mem_map.1 hh
    have : c.layer ∈ (postorder r).map (·.layer) := List.mem_map_of_mem hc
    exact hn c.layer (by simp [-List.mem_map, this]) hcn

theorem seq_functional (hf : g.functional = false) :
    (replaceSequential g m r).functional = false := by
  obtain ⟨i, hi⟩ := seq_replace_eq (r := r) hu hpp
  rw [hi, (addSequential_maps _ _ _).1]
  exact hf

end Seq

/-- What is kept while the transforms run on a Sequential model. -/
structure SeqOk (sem : Spec.Semantics V Val) (auto : String → ℕ → String) (names : List String)
    (g0 : Graph V M) (g : Graph V M) (k : ℕ) : Prop where
  model : Spec.SequentialModel g
  names : NamesOk auto names g k
  value : ∀ x, Spec.sequentialValue sem g x = Spec.sequentialValue sem g0 x

theorem seqOk_mono {sem : Spec.Semantics V Val} {auto : String → ℕ → String} {names : List String}
    {g0 g : Graph V M} {k k' : ℕ} (hk : k ≤ k') (h : SeqOk sem auto names g0 g k) :
    SeqOk sem auto names g0 g k' := ⟨h.model, namesOk_mono hk h.names, h.value⟩

section Core
variable [Inhabited M] [DecidableEq M]
variable {sem : Spec.Semantics V Val} {auto : String → ℕ → String} {names : List String}
  {g0 : Graph V M} {g : Graph V M} {k : ℕ}
  (hfresh : Spec.FreshNames auto names)
  (hok : SeqOk sem auto names g0 g k) {m r : Node V M}
  {pre post : List Layer} (hpp : g.layers = pre ++ (postorder m).map (·.layer) ++ post)
  (hmw : ∀ n, Spec.InTree n m → n.weights = g.weights n.name)
include hfresh hok hpp hmw

theorem seq_core {k' : ℕ} (hk : k ≤ k') (hr : Spec.GoodNames g m r)
    (hnl : ∀ n, Spec.InTree n r → '\n' ∉ n.layer.cls.toList)
    (hsep : ∀ n, Spec.InTree n r → n.layer.cls = "SeparableConv1D" ∨
      n.layer.cls = "SeparableConv2D" → Spec.SepWeights n.layer n.weights)
    (heq : ∀ x, nodesValue sem (postorder r) x = nodesValue sem (postorder m) x)
    (hnew : ∀ n, Spec.InTree n r → (∃ l ∈ g.layers, l.name = n.name ∧ l.cls = n.layer.cls) ∨
      (n.layer.cls ≠ "SeparableConv1D" ∧ ((∃ p j, j < k' ∧ n.name = auto p j) ∨
        ∃ x ∈ names, x ∈ nodeNames m ∧ n.name = x ++ "_QAT_SepConv2D" ∧ x ∉ nodeNames r))) :
    SeqOk sem auto names g0 (replaceSequential g m r) k' := by
  have hu := hok.model.unique
  have hwt := hok.model.weights
  have hlay := replaceSequential_layers g hu m r pre post hpp
  have hmem : ∀ l ∈ (replaceSequential g m r).layers, (l ∈ g.layers ∧ (l ∈ pre ∨ l ∈ post)) ∨
      ∃ n, Spec.InTree n r ∧ l = n.layer := by
    intro l hl
    rw [hlay] at hl
    simp only [List.mem_append] at hl
    rcases hl with (hl | hl) | hl
    · exact Or.inl ⟨by rw [hpp]; simp [hl], Or.inl hl⟩
    · obtain ⟨n, hn, rfl⟩ := List.mem_map.1 hl
      exact Or.inr ⟨n, (mem_postorder _ _).1 hn, rfl⟩
    · exact Or.inl ⟨by rw [hpp]; simp [hl], Or.inr hl⟩
  refine ⟨⟨seq_functional hu hwt hpp hr hok.model.sequential, seq_unique hu hwt hpp hr, ?_, ?_,
    seq_only hu hwt hpp hr⟩, ?_, fun x => (seq_value hu hwt hpp hr sem hmw heq x).trans (hok.value x)⟩
  · intro l hl
    rcases hmem l hl with ⟨hl, -⟩ | ⟨n, hn, rfl⟩
    · exact hok.model.names l hl
    · exact hnl n hn
  · intro l hl hc
    rcases hmem l hl with ⟨hl, hpq⟩ | ⟨n, hn, rfl⟩
    · rw [seq_weights_out hu hwt hpp hr hpq]
      exact hok.model.sep l hl hc
    · rw [show n.layer.name = n.name from rfl, seq_weights_in hu hwt hpp hr hn]
      exact hsep n hn hc
  · refine namesOk_step hfresh hok.names hk ?_
    intro l hl
    rcases hmem l hl with ⟨hl, -⟩ | ⟨n, hn, rfl⟩
    · exact Or.inl ⟨l, hl, rfl, rfl⟩
    · rcases hnew n hn with ⟨l', hl', h3, h4⟩ | ⟨h3, h4 | ⟨x, hx, hxm, h4, hxr⟩⟩
      · exact Or.inl ⟨l', hl', h3, h4⟩
      · exact Or.inr ⟨h3, Or.inl h4⟩
      · refine Or.inr ⟨h3, Or.inr ⟨x, hx, h4, ?_⟩⟩
        intro l'' hl'' he
        rcases hmem l'' hl'' with ⟨-, hpq⟩ | ⟨n', hn', rfl⟩
        · exact seq_outside hu hpp l'' hpq (by rw [he]; exact hxm)
        · exact hxr (by rw [← he]; exact (mem_nodeNames r _).2 ⟨n', hn', rfl⟩)

theorem seq_same (hml : ∀ n, Spec.InTree n m → n.layer ∈ g.layers) (hs : Same sem False r m) :
    SeqOk sem auto names g0 (replaceSequential g m r) k := by
  have hu := hok.model.unique
  have hkeys := same_keys _ _ hs
  have hnames := namesEq_of_keys hkeys
  refine seq_core hfresh hok hpp hmw (le_refl _) ⟨?_, ?_⟩ ?_ ?_ (same_nodesValue sem r m hs) ?_
  · rw [hnames]
    have hnd := hu
    rw [Spec.UniqueNames, hpp] at hnd
    simp only [List.map_append, List.map_map] at hnd
    exact ((postorder_perm m).map Node.name).nodup_iff.1
      (List.nodup_append.1 (List.nodup_append.1 hnd).1).2.1
  · intro n hn; rw [hnames] at hn; exact Or.inl hn
  · intro n hn
    obtain ⟨x, hx, hsx⟩ := same_mem _ _ hs n hn
    rw [(same_root hsx).2.1]
    exact hok.model.names _ (hml x hx)
  · intro n hn hc
    obtain ⟨x, hx, hsx⟩ := same_mem _ _ hs n hn
    obtain ⟨-, h2, h3, -, h5, -⟩ := same_root hsx
    rw [h2] at hc
    rw [h3, Spec.SepWeights, h5]
    have := hok.model.sep _ (hml x hx) hc
    rw [← show x.name = x.layer.name from rfl, ← hmw x hx] at this
    exact this
  · intro n hn
    obtain ⟨x, hx, hsx⟩ := same_mem _ _ hs n hn
    obtain ⟨h1, h2, -⟩ := same_root hsx
    exact Or.inl ⟨x.layer, hml x hx, h1.symm, h2.symm⟩

end Core

section Special
variable [DecidableEq U]
variable {sem : Spec.Semantics V Val} {auto : String → ℕ → String} {expand : V → V}
  {str1 str2 : String → String} (hsem : Spec.FloatOps sem auto expand str1 str2 U)
  {names : List String} {g0 : Graph V (Meta U)}
  {g : Graph V (Meta U)} {k : ℕ} (hfresh : Spec.FreshNames auto names)
  (hok : SeqOk sem auto names g0 g k)
  {l : Layer} {w : List (String × V)} {i : Meta U} {pre post : List Layer}
  (hpp : g.layers = pre ++ (postorder (.mk l w i [] : Node V (Meta U))).map (·.layer) ++ post)
  (hmw : ∀ n, Spec.InTree n (.mk l w i [] : Node V (Meta U)) → n.weights = g.weights n.name)
  {r : Node V (Meta U)}
include hsem hfresh hok hpp hmw

theorem seq_special_input {b : Bits} (hcls : l.cls = "InputLayer") {k'}
    (hr : replaceInput b auto k (.mk l w i []) = .ok (r, k')) :
    SeqOk sem auto names g0 (replaceSequential g (.mk l w i []) r) k' := by
  simp only [replaceInput, Except.ok.injEq, Prod.mk.injEq] at hr
  obtain ⟨rfl, rfl⟩ := hr
  have hl : l ∈ g.layers := by rw [hpp]; simp [postorder, postorderList, Node.layer]
  have hne := auto_fresh hfresh hok.names "quantize_layer" k (le_refl _)
  refine seq_core hfresh hok hpp hmw (k' := k + 1) (by omega) ⟨?_, ?_⟩ ?_ ?_ ?_ ?_
  · simp only [nodeNames, preorder, preorderList, Node.name, Node.layer, List.map_cons,
      List.append_nil, List.map_nil, List.nodup_cons, List.mem_singleton, List.not_mem_nil,
      not_false_eq_true, List.nodup_nil, and_true]
    exact fun hh => hne l hl hh.symm
  · intro n hn
    simp only [nodeNames, preorder, preorderList, Node.name, Node.layer, List.map_cons,
      List.append_nil, List.map_nil, List.mem_cons, List.not_mem_nil, or_false] at hn ⊢
    rcases hn with rfl | rfl
    · exact Or.inr hne
    · exact Or.inl rfl
  · intro n hn
    cases hn with
    | root => simp only [Node.layer]; decide
    | child hc hn =>
      rw [List.mem_singleton] at hc
      subst hc
      cases hn with
      | root => exact hok.model.names l hl
      | child hc _ => simp at hc
  · intro n hn hc'
    cases hn with
    | root => simp [Node.layer] at hc'
    | child hc hn =>
      rw [List.mem_singleton] at hc
      subst hc
      cases hn with
      | root => simp [Node.layer, hcls] at hc'
      | child hc _ => simp at hc
  · intro x
    show Spec.layerValue sem (⟨auto "quantize_layer" k, "QuantizeLayer",
      [("quantizer", "AllValuesQuantizer"), ("num_bits", toString (activationBits b))], []⟩ : Layer) [] (Spec.layerValue sem l w x)
        = Spec.layerValue sem l w x
    rw [layerValue_input sem hcls, layerValue_op sem (by simp)]
    exact hsem.quantize _ _ _
  · intro n hn
    cases hn with
    | root => exact Or.inr ⟨by simp [Node.layer], Or.inl ⟨_, k, by omega, rfl⟩⟩
    | child hc hn =>
      rw [List.mem_singleton] at hc
      subst hc
      cases hn with
      | root => exact Or.inl ⟨l, hl, rfl, rfl⟩
      | child hc _ => simp at hc

theorem seq_special_sep2 (hcls : l.cls = "SeparableConv2D") {k'}
    (hc0 : hasConfig (.mk l w i [] : Node V (Meta U)) = false)
    (hr : replaceSepConv auto k (.mk l w i []) = .ok (r, k')) :
    SeqOk sem auto names g0 (replaceSequential g (.mk l w i []) r) k' := by
  have hl : l ∈ g.layers := by rw [hpp]; simp [postorder, postorderList, Node.layer]
  have hw : w = g.weights l.name := hmw _ (.root _)
  have hsw : Spec.SepWeights l w := by rw [hw]; exact hok.model.sep l hl (Or.inr hcls)
  have hval := hsem.separable2D k (.mk l w i []) r k' hsw hcls hr hc0
  simp only [replaceSepConv, hc0, Bool.false_eq_true, if_false, Except.ok.injEq,
    Prod.mk.injEq] at hr
  obtain ⟨hr, rfl⟩ := hr
  obtain ⟨lc, wc, ic, ld, wd, id', hrr, hlc, hlcn, hld, hldn⟩ :
      ∃ lc wc ic ld wd id', r = (.mk lc wc ic [.mk ld wd id' []] : Node V (Meta U)) ∧
        lc.cls = "Conv2D" ∧ lc.name = auto "conv2d" (k + 1) ∧ ld.cls = "DepthwiseConv2D" ∧
        ld.name = auto "depthwise_conv2d" k := by
    exact ⟨_, _, _, _, _, _, hr.symm, rfl, rfl, rfl, rfl⟩
  subst hrr
  clear hr
  have hnec := auto_fresh hfresh hok.names "conv2d" (k + 1) (by omega)
  have hned := auto_fresh hfresh hok.names "depthwise_conv2d" k (le_refl _)
  have hR : ∀ n, Spec.InTree n (.mk lc wc ic [.mk ld wd id' []] : Node V (Meta U)) →
      n.layer = lc ∨ n.layer = ld := by
    intro n hn
    cases hn with
    | root => exact Or.inl rfl
    | child hc hn =>
      rw [List.mem_singleton] at hc
      subst hc
      cases hn with
      | root => exact Or.inr rfl
      | child hc _ => simp at hc
  refine seq_core hfresh hok hpp hmw (k' := k + 2) (by omega) ⟨?_, ?_⟩ ?_ ?_ ?_ ?_
  · simp only [nodeNames, preorder, preorderList, Node.name, Node.layer, List.map_cons,
      List.append_nil, List.map_nil, List.nodup_cons, List.mem_singleton, List.not_mem_nil,
      not_false_eq_true, List.nodup_nil, and_true]
    rw [hlcn, hldn]
    intro hh
    have := hfresh.distinct _ _ _ _ hh
    omega
  · intro n hn
    simp only [nodeNames, preorder, preorderList, Node.name, Node.layer, List.map_cons,
      List.append_nil, List.map_nil, List.mem_cons, List.not_mem_nil, or_false] at hn ⊢
    rcases hn with rfl | rfl
    · right; rw [hlcn]; exact hnec
    · right; rw [hldn]; exact hned
  · intro n hn
    rcases hR n hn with h1 | h1 <;> rw [h1]
    · rw [hlc]; decide
    · rw [hld]; decide
  · intro n hn hc
    rcases hR n hn with h1 | h1 <;> rw [h1] at hc
    · rw [hlc] at hc; simp at hc
    · rw [hld] at hc; simp at hc
  · intro x
    have e := congrFun (hval [(x, [])]) 0
    simp only [Spec.chainValue] at e
    show Spec.layerValue sem lc wc (Spec.layerValue sem ld wd x) = Spec.layerValue sem l w x
    rw [layerValue_op sem (by rw [hlc]; decide), layerValue_op sem (by rw [hld]; decide),
      layerValue_op sem (by rw [hcls]; decide)]
    exact e
  · intro n hn
    right
    rcases hR n hn with h1 | h1
    · rw [Node.name, h1]
      exact ⟨by rw [hlc]; decide, Or.inl ⟨_, k + 1, by omega, hlcn⟩⟩
    · rw [Node.name, h1]
      exact ⟨by rw [hld]; decide, Or.inl ⟨_, k, by omega, hldn⟩⟩

theorem seq_special_sep1 (hcls : l.cls = "SeparableConv1D") {k'}
    (hc0 : hasConfig (.mk l w i [] : Node V (Meta U)) = false)
    (hr : replaceSepConv1D auto expand str1 str2 k (.mk l w i []) = .ok (r, k')) :
    SeqOk sem auto names g0 (replaceSequential g (.mk l w i []) r) k' := by
  have hl : l ∈ g.layers := by rw [hpp]; simp [postorder, postorderList, Node.layer]
  have hw : w = g.weights l.name := hmw _ (.root _)
  have hsw : Spec.SepWeights l w := by rw [hw]; exact hok.model.sep l hl (Or.inl hcls)
  have hval := hsem.separable1D k (.mk l w i []) r k' hsw hcls hr hc0
  have hln := hok.names.sep l hl hcls
  simp only [replaceSepConv1D, hc0, Bool.false_eq_true, if_false] at hr
  split at hr
  · simp at hr
  simp only [Except.ok.injEq, Prod.mk.injEq] at hr
  obtain ⟨hr, rfl⟩ := hr
  obtain ⟨ls, is, lc, wc, ic, le, ie, hrr, hls, hlsn, hlc, hlcn, hlcw, hle, hlen⟩ :
      ∃ ls is lc wc ic le ie,
        r = (.mk ls [] is [.mk lc wc ic [.mk le [] ie []]] : Node V (Meta U)) ∧
        ls.cls = "Lambda" ∧ ls.name = auto "sepconv1d_squeeze" (k + 1) ∧
        lc.cls = "SeparableConv2D" ∧ lc.name = l.name ++ "_QAT_SepConv2D" ∧
        Spec.SepWeights lc wc ∧ le.cls = "Lambda" ∧ le.name = auto "sepconv1d_expand" k := by
    refine ⟨_, _, _, _, _, _, _, hr.symm, rfl, rfl, rfl, rfl, ?_, rfl, rfl⟩
    simp only [Spec.SepWeights, Node.weights, Node.layer] at hsw ⊢
    show _ = if l.get "use_bias" = "True" then 3 else 2
    by_cases hb : l.get "use_bias" = "True"
    · rw [if_pos hb] at hsw ⊢; simp [hsw, hb]
    · rw [if_neg hb] at hsw ⊢; simp [hsw, hb]
  subst hrr
  clear hr
  have hnes := auto_fresh hfresh hok.names "sepconv1d_squeeze" (k + 1) (by omega)
  have hnee := auto_fresh hfresh hok.names "sepconv1d_expand" k (le_refl _)
  have hnec := suffix_fresh hfresh hok.names hl hln
  have hR : ∀ n, Spec.InTree n (.mk ls [] is [.mk lc wc ic [.mk le [] ie []]] : Node V (Meta U)) →
      n.layer = ls ∨ (n.layer = lc ∧ n.weights = wc) ∨ n.layer = le := by
    intro n hn
    cases hn with
    | root => exact Or.inl rfl
    | child hc hn =>
      rw [List.mem_singleton] at hc
      subst hc
      cases hn with
      | root => exact Or.inr (Or.inl ⟨rfl, rfl⟩)
      | child hc hn =>
        rw [List.mem_singleton] at hc
        subst hc
        cases hn with
        | root => exact Or.inr (Or.inr rfl)
        | child hc _ => simp at hc
  have hsuf := hfresh.suffix l.name hln
  refine seq_core hfresh hok hpp hmw (k' := k + 2) (by omega) ⟨?_, ?_⟩ ?_ ?_ ?_ ?_
  · simp only [nodeNames, preorder, preorderList, Node.name, Node.layer, List.map_cons,
      List.append_nil, List.map_nil, List.nodup_cons, List.mem_cons, List.not_mem_nil,
      not_false_eq_true, List.nodup_nil, and_true, or_false]
    rw [hlsn, hlcn, hlen]
    refine ⟨?_, hsuf.2 _ _⟩
    rintro (hh | hh)
    · exact hsuf.2 _ _ hh.symm
    · have := hfresh.distinct _ _ _ _ hh
      omega
  · intro n hn
    simp only [nodeNames, preorder, preorderList, Node.name, Node.layer, List.map_cons,
      List.append_nil, List.map_nil, List.mem_cons, List.not_mem_nil, or_false] at hn ⊢
    rcases hn with rfl | rfl | rfl
    · right; rw [hlsn]; exact hnes
    · right; rw [hlcn]; exact hnec
    · right; rw [hlen]; exact hnee
  · intro n hn
    rcases hR n hn with h1 | ⟨h1, -⟩ | h1 <;> rw [h1]
    · rw [hls]; decide
    · rw [hlc]; decide
    · rw [hle]; decide
  · intro n hn hc
    rcases hR n hn with h1 | ⟨h1, h2⟩ | h1
    · rw [h1, hls] at hc; simp at hc
    · rw [h1, h2]; exact hlcw
    · rw [h1, hle] at hc; simp at hc
  · intro x
    have e := congrFun (hval [(x, [])]) 0
    simp only [Spec.chainValue] at e
    show Spec.layerValue sem ls [] (Spec.layerValue sem lc wc (Spec.layerValue sem le [] x))
      = Spec.layerValue sem l w x
    rw [layerValue_op sem (by rw [hls]; decide), layerValue_op sem (by rw [hlc]; decide),
      layerValue_op sem (by rw [hle]; decide), layerValue_op sem (by rw [hcls]; decide)]
    exact e
  · intro n hn
    right
    rcases hR n hn with h1 | ⟨h1, -⟩ | h1
    · rw [Node.name, h1]
      exact ⟨by rw [hls]; decide, Or.inl ⟨_, k + 1, by omega, hlsn⟩⟩
    · rw [Node.name, h1]
      refine ⟨by rw [hlc]; decide, Or.inr ⟨l.name, hln, ?_, hlcn, ?_⟩⟩
      · simp [nodeNames, preorder, Node.name, Node.layer]
      · simp only [nodeNames, preorder, preorderList, Node.name, Node.layer, List.map_cons,
          List.append_nil, List.map_nil, List.mem_cons, List.not_mem_nil, or_false, not_or]
        rw [hlsn, hlcn, hlen]
        exact ⟨hnes l hl, hnec l hl, hnee l hl⟩
    · rw [Node.name, h1]
      exact ⟨by rw [hle]; decide, Or.inl ⟨_, k, by omega, hlen⟩⟩

end Special

section Loop8
variable [DecidableEq U] [DecidableEq V]
variable {sem : Spec.Semantics V Val} {auto : String → ℕ → String} {expand : V → V}
  {str1 str2 : String → String} (hsem : Spec.FloatOps sem auto expand str1 str2 U)
  {names : List String} {g0 : Graph V (Meta U)}
  (hfresh : Spec.FreshNames auto names)
include hsem hfresh

theorem seq_step8 (c : Classes) {g : Graph V (Meta U)} {k k' : ℕ}
    (hok : SeqOk sem auto names g0 g k) {t} (ht : t ∈ transforms auto c expand str1 str2)
    {matched m r} (hf : findPattern g t.pattern matched = some m)
    (hr : t.replacement k m = .ok (r, k')) :
    k ≤ k' ∧ SeqOk sem auto names g0 (replaceSequential g m r) k' := by
  obtain ⟨hml, -, hmt⟩ := findPattern_some hf
  obtain ⟨pre, post, hpp, -⟩ :=
    seq_match g hok.model.sequential hok.model.unique _ _ _ _ hml hmt
  have hnodes := matchTree_nodes g _ _ _ _ hml hmt
  have hmw : ∀ n, Spec.InTree n m → n.weights = g.weights n.name := fun n hn => (hnodes n hn).2.1
  have hcls : ∀ cls ∈ ["InputLayer", "SeparableConv1D", "SeparableConv2D", "Concatenate"], ∀ cfg ps,
      t.pattern = .mk cls cfg ps → m.layer.cls = cls := by
    intro cls hc cfg ps hp
    rw [hp] at hmt
    exact (C56_single cls _ (plainName_four cls hc) (hok.model.names _ hml)).1 (match_class hmt)
  have hleaf : ∀ cls, t.pattern = .mk cls [] [] → ∃ l w i, m = .mk l w i [] := by
    intro cls hp
    rw [hp] at hmt
    exact ⟨_, _, _, leaf_match hmt⟩
  have same : Same sem False r m → SeqOk sem auto names g0 (replaceSequential g m r) k := fun hs =>
    seq_same hfresh hok hpp hmw (fun n hn => (hnodes n hn).1) hs
  rcases transforms_split auto c expand str1 str2 t ht with ⟨hp, hrep⟩ | ⟨hp, hrep⟩ | ⟨hp, hrep⟩ |
      ⟨hn, hp⟩
  · have hcl := hcls _ (by simp) _ _ hp
    obtain ⟨l, w, i, rfl⟩ := hleaf _ hp
    rw [hrep] at hr
    refine ⟨?_, seq_special_input hsem hfresh hok hpp hmw hcl hr⟩
    simp only [replaceInput, Except.ok.injEq, Prod.mk.injEq] at hr
    omega
  · have hcl := hcls _ (by simp) _ _ hp
    obtain ⟨l, w, i, rfl⟩ := hleaf _ hp
    rw [hrep] at hr
    cases hc : hasConfig (.mk l w i [] : Node V (Meta U)) with
    | true =>
      simp only [replaceSepConv1D, hc, if_true, Except.ok.injEq, Prod.mk.injEq] at hr
      obtain ⟨rfl, rfl⟩ := hr
      exact ⟨le_refl _, same (same_refl _ _ _)⟩
    | false =>
      refine ⟨?_, seq_special_sep1 hsem hfresh hok hpp hmw hcl hc hr⟩
      simp only [replaceSepConv1D, hc, Bool.false_eq_true, if_false] at hr
      split at hr
      · simp at hr
      · simp only [Except.ok.injEq, Prod.mk.injEq] at hr
        omega
  · have hcl := hcls _ (by simp) _ _ hp
    obtain ⟨l, w, i, rfl⟩ := hleaf _ hp
    rw [hrep] at hr
    cases hc : hasConfig (.mk l w i [] : Node V (Meta U)) with
    | true =>
      simp only [replaceSepConv, hc, if_true, Except.ok.injEq, Prod.mk.injEq] at hr
      obtain ⟨rfl, rfl⟩ := hr
      exact ⟨le_refl _, same (same_refl _ _ _)⟩
    | false =>
      refine ⟨?_, seq_special_sep2 hsem hfresh hok hpp hmw hcl hc hr⟩
      simp only [replaceSepConv, hc, Bool.false_eq_true, if_false, Except.ok.injEq,
        Prod.mk.injEq] at hr
      omega
  · obtain ⟨hs, rfl⟩ := pure_same hsem c t ht hn g _ _ m k r k' hmt hr
    exact ⟨le_refl _, same hs⟩

theorem seq_run8 (metaEq : Meta U → Meta U → Bool) (c : Classes) : ∀ fuel (s : Loop V (Meta U)) g',
    SeqOk sem auto names g0 s.graph s.supply →
    (∀ t ∈ s.rest, t ∈ transforms auto c expand str1 str2) →
    run metaEq (transforms auto c expand str1 str2) fuel s = some (.ok g') →
    ∃ k, SeqOk sem auto names g0 g' k := by
  intro fuel
  induction fuel with
  | zero => intro s g' _ _ h; simp [run] at h
  | succ fuel ih =>
    intro s g' hok hrest h
    rw [run] at h
    split at h
    · rename_i s' hturn
      refine ih s' g' ?_ ?_ h
      · rcases turn_next hturn with ⟨-, -, rfl⟩ | ⟨t, tl, hr, -, rfl⟩ |
          ⟨t, tl, m, r, k, hr, hfind, hrep, -, hmat, hsup, ⟨-, hg, -⟩ | ⟨-, hg, -⟩⟩
        · exact hok
        · exact hok
        · have ht : t ∈ transforms auto c expand str1 str2 := hrest t (by rw [hr]; simp)
          obtain ⟨hk, -⟩ := seq_step8 hsem hfresh c hok ht hfind hrep
          rw [hg, hsup]
          exact seqOk_mono hk hok
        · have ht : t ∈ transforms auto c expand str1 str2 := hrest t (by rw [hr]; simp)
          obtain ⟨-, hk⟩ := seq_step8 hsem hfresh c hok ht hfind hrep
          rw [hsup]
          rw [replace, hok.model.sequential] at hg
          simp only [Bool.false_eq_true, if_false, Except.ok.injEq] at hg
          rw [← hg]
          exact hk
      · rcases turn_next hturn with ⟨-, -, rfl⟩ | ⟨t, tl, hr, -, rfl⟩ |
          ⟨t, tl, m, r, k, hr, hfind, hrep, hrest', -⟩
        · exact fun t ht => ht
        · exact fun t' ht' => hrest t' (by rw [hr]; simp only [List.mem_cons]; exact Or.inr ht')
        · rw [hrest']; exact hrest
    · rename_i g hturn
      simp only [Option.some.injEq, Except.ok.injEq] at h
      subst h
      refine ⟨s.supply, ?_⟩
      rw [turn_done hturn]; exact hok
    · simp at h

end Loop8

end Aux

section Main
variable [DecidableEq U] [DecidableEq V]

/-- C77: the default 8-bit layout transforms on any Sequential model: whenever the loops end without
an exception, the transformed model is again well formed and computes the same (without fake
quantization) as the given one. -/
theorem C77_sequential (metaEq : Meta U → Meta U → Bool) (auto : String → ℕ → String)
    (c : Classes) (expand : V → V) (str1 str2 : String → String) (sem : Spec.Semantics V Val)
    (hsem : Spec.FloatOps sem auto expand str1 str2 U)
    (g g' : Graph V (Meta U)) (hg : Spec.SequentialModel g)
    (hnames : Spec.FreshNames auto (g.layers.map (·.name))) (fuel : ℕ)
    (hrun : run metaEq (transforms auto c expand str1 str2) fuel
      (start (transforms auto c expand str1 str2) g) = some (.ok g')) :
    Spec.SequentialModel g' ∧
      ∀ x, Spec.sequentialValue sem g' x = Spec.sequentialValue sem g x := by
  have hok : Aux.SeqOk sem auto (g.layers.map (·.name)) g g 0 :=
    ⟨hg, ⟨fun l hl => Or.inl (List.mem_map_of_mem hl), fun l hl _ => List.mem_map_of_mem hl⟩,
      fun _ => rfl⟩
  obtain ⟨k, hok'⟩ := Aux.seq_run8 hsem hnames metaEq c fuel _ g' hok (fun t ht => ht) hrun
  exact ⟨hok'.model, hok'.value⟩

end Main

end Verif.Props
