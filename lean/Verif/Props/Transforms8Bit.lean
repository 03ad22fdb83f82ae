import Verif.Quant.Transforms8Bit
import Verif.Props.GraphSemantics
import Verif.Props.Regex

/-!
# C57, C58, C77 for the default 8-bit layout transforms
-/

set_option linter.unusedSectionVars false

namespace Verif.Props
open Verif.Quant.Transformer Verif.Quant.Transforms8Bit
open Verif.Quant.Regex (matchPattern)

variable {V U : Type}

namespace Aux

/-- The names and classes of the layers in a tree. -/
def treeKeys {M : Type} (n : Node V M) : List (String × String) :=
  (preorder n).map fun x => (x.name, x.layer.cls)

def treeKeysList {M : Type} (ns : List (Node V M)) : List (String × String) :=
  (preorderList ns).map fun x => (x.name, x.layer.cls)

theorem treeKeys_mk {M : Type} (l w) (i : M) (ins : List (Node V M)) :
    treeKeys (.mk l w i ins) = (l.name, l.cls) :: treeKeysList ins := rfl

theorem treeKeysList_cons {M : Type} (n : Node V M) (ns) :
    treeKeysList (n :: ns) = treeKeys n ++ treeKeysList ns := by
  simp [treeKeysList, treeKeys, preorderList]

theorem treeKeysList_map {M : Type} (f : Node V M → Node V M) (hf : ∀ n, treeKeys (f n) = treeKeys n)
    (ns : List (Node V M)) : treeKeysList (ns.map f) = treeKeysList ns := by
  induction ns with
  | nil => rfl
  | cons n ns ih => rw [List.map_cons, treeKeysList_cons, treeKeysList_cons, hf, ih]

theorem keys_setNoOp (n : Node V (Meta U)) : treeKeys (setNoOp n) = treeKeys n := by
  cases n; rfl

theorem keys_setConfig (k : Kind U) (n : Node V (Meta U)) : treeKeys (setConfig k n) = treeKeys n := by
  cases n; rfl

theorem keys_disableOutput (b : Bits) (n : Node V (Meta U)) : treeKeys (disableOutput b n) = treeKeys n := by
  cases n; rfl

theorem keys_withInputs (n : Node V (Meta U)) (ins) (h : treeKeysList ins = treeKeysList n.inputs) :
    treeKeys (withInputs n ins) = treeKeys n := by
  cases n
  rw [withInputs, treeKeys_mk, treeKeys_mk, h]
  rfl

theorem keys_onInput (f : Node V (Meta U) → Node V (Meta U))
    (hf : ∀ n, treeKeys (f n) = treeKeys n) (n : Node V (Meta U)) :
    treeKeys (onInput f n) = treeKeys n := by
  rw [onInput]
  split
  · rfl
  · rename_i i is h
    exact keys_withInputs n _ (by rw [h, treeKeysList_cons, treeKeysList_cons, hf])

theorem keys_replaceBN (b : Bits) (n : Node V (Meta U)) : treeKeys (replaceBN b n) = treeKeys n := by
  rw [replaceBN]
  split
  · rfl
  · rw [keys_setConfig, keys_onInput _ keys_setNoOp]

theorem keys_replaceReshapeBN (b : Bits) (n : Node V (Meta U)) : treeKeys (replaceReshapeBN b n) = treeKeys n := by
  rw [replaceReshapeBN]
  split
  · rfl
  · rw [keys_setConfig, keys_onInput _ (keys_onInput _ keys_setNoOp)]

theorem keys_replaceBNReLU (n : Node V (Meta U)) : treeKeys (replaceBNReLU n) = treeKeys n := by
  rw [replaceBNReLU]
  split
  · rfl
  · exact keys_onInput _ (fun x => by rw [keys_setConfig, keys_onInput _ keys_setNoOp]) n

theorem keys_replaceReshapeBNReLU (n : Node V (Meta U)) :
    treeKeys (replaceReshapeBNReLU n) = treeKeys n := by
  rw [replaceReshapeBNReLU]
  split
  · rfl
  · exact keys_onInput _ (fun x => by
      rw [keys_setConfig, keys_onInput _ (keys_onInput _ keys_setNoOp)]) n

theorem keys_replaceLayerReLU (n : Node V (Meta U)) : treeKeys (replaceLayerReLU n) = treeKeys n :=
  keys_onInput _ (keys_setConfig _) n

theorem keys_feed (c : Classes) (n : Node V (Meta U)) (e) (h : feed c n = some e) :
    treeKeys e.1 = treeKeys n := by
  unfold feed at h
  split at h
  · simp only [Option.some.injEq] at h; rw [← h]
  split at h
  · cases n
    cases hb : c.params.bits with
    | none => rw [hb] at h; simp only [Option.some.injEq] at h; rw [← h]; rfl
    | some b => rw [hb] at h; simp at h
  split at h
  · simp at h
  split at h
  · simp only [Option.some.injEq] at h; rw [← h]; exact keys_setConfig _ _
  split at h
  · simp at h
  · simp only [Option.some.injEq] at h; rw [← h]; exact keys_setConfig _ _

theorem keys_feeds (c : Classes) (ns : List (Node V (Meta U))) :
    ∀ f : Node V (Meta U) × Bool → Node V (Meta U), (∀ e, treeKeys (f e) = treeKeys e.1) →
    treeKeysList ((feeds c ns).1.map f) = treeKeysList ns := by
  intro f hf
  induction ns with
  | nil => rfl
  | cons n ns ih =>
    rw [feeds]
    split
    · rw [List.map_map]
      exact treeKeysList_map _ (fun x => hf (x, false)) _
    · rename_i e he
      simp only [List.map_cons]
      rw [treeKeysList_cons, treeKeysList_cons, hf, keys_feed c n e he, ih]

theorem keys_replaceConcat (c : Classes) (n : Node V (Meta U)) :
    treeKeys (replaceConcat c n) = treeKeys n := by
  rw [replaceConcat]
  split
  · have h1 := keys_withInputs n ((feeds c n.inputs).1.map fun e =>
        if e.2 then disableOutput c.params.bits e.1 else e.1) (keys_feeds c _ _ fun e => by
          split
          · exact keys_disableOutput _ _
          · rfl)
    dsimp only
    split
    · exact h1
    · rw [keys_setConfig]; exact h1
  · exact keys_withInputs n _ (keys_feeds c _ _ fun e => rfl)

/-- The class a pattern wants its head to have. -/
def headClass : Pattern → String
  | .mk cls _ _ => cls

/-- The transforms, the class they want, and what a match costs. -/
def heads : List (String × String × ℕ) :=
  [("InputLayerQuantize", "InputLayer", 1), ("SeparableConv1DQuantize", "SeparableConv1D", 2),
   ("SeparableConvQuantize", "SeparableConv2D", 1),
   ("Conv2DReshapeBatchNormReLUQuantize", "ReLU", 1),
   ("Conv2DReshapeBatchNormActivationQuantize", "Activation", 1),
   ("Conv2DBatchNormReLUQuantize", "ReLU", 1), ("Conv2DBatchNormActivationQuantize", "Activation", 1),
   ("Conv2DReshapeBatchNormQuantize", bnClass, 1), ("Conv2DBatchNormQuantize", bnClass, 1),
   ("ConcatTransform6Inputs", "Concatenate", 1), ("ConcatTransform5Inputs", "Concatenate", 1),
   ("ConcatTransform4Inputs", "Concatenate", 1), ("ConcatTransform3Inputs", "Concatenate", 1),
   ("ConcatTransform", "Concatenate", 1),
   ("DenseBatchNormQuantize", bnClass, 1), ("DenseBatchNormReLUQuantize", "ReLU", 1),
   ("DenseBatchNormActivationQuantize", "Activation", 1), ("LayerReLUQuantize", "ReLU", 1),
   ("LayerReluActivationQuantize", "Activation", 1)]

def costOf (t c : String) : ℕ :=
  match heads.lookup t with
  | some e => if matchPattern c e.1 then e.2 else 0
  | none => 0

section
variable (auto : String → ℕ → String) (c : Classes) (expand : V → V) (str1 str2 : String → String)

/-- The transforms in the order of the 8-bit scheme. -/
def listed : List (Transform V (Meta U)) :=
  [ { name := "InputLayerQuantize", pattern := .mk "InputLayer" [] []
      replacement := replaceInput c.params.bits auto },
    { name := "SeparableConv1DQuantize", pattern := .mk "SeparableConv1D" [] []
      replacement := replaceSepConv1D auto expand str1 str2 },
    { name := "SeparableConvQuantize", pattern := .mk "SeparableConv2D" [] []
      replacement := replaceSepConv auto },
    pureTransform "Conv2DReshapeBatchNormReLUQuantize" (.mk "ReLU" [] [convReshapeBNPattern])
      replaceReshapeBNReLU,
    pureTransform "Conv2DReshapeBatchNormActivationQuantize" (reluAct convReshapeBNPattern)
      replaceReshapeBNReLU,
    pureTransform "Conv2DBatchNormReLUQuantize" (.mk "ReLU" [] [convBNPattern]) replaceBNReLU,
    pureTransform "Conv2DBatchNormActivationQuantize" (reluAct convBNPattern) replaceBNReLU,
    pureTransform "Conv2DReshapeBatchNormQuantize" convReshapeBNPattern (replaceReshapeBN c.params.bits),
    pureTransform "Conv2DBatchNormQuantize" convBNPattern (replaceBN c.params.bits),
    pureTransform "ConcatTransform6Inputs" (concatPattern 6) (replaceConcat c),
    pureTransform "ConcatTransform5Inputs" (concatPattern 5) (replaceConcat c),
    pureTransform "ConcatTransform4Inputs" (concatPattern 4) (replaceConcat c),
    pureTransform "ConcatTransform3Inputs" (concatPattern 3) (replaceConcat c),
    pureTransform "ConcatTransform" (concatPattern 2) (replaceConcat c),
    pureTransform "DenseBatchNormQuantize" denseBNPattern (replaceBN c.params.bits),
    pureTransform "DenseBatchNormReLUQuantize" (.mk "ReLU" [] [denseBNPattern]) replaceBNReLU,
    pureTransform "DenseBatchNormActivationQuantize" (reluAct denseBNPattern) replaceBNReLU,
    pureTransform "LayerReLUQuantize" (.mk "ReLU" [] [producer]) replaceLayerReLU,
    pureTransform "LayerReluActivationQuantize" (reluAct producer) replaceLayerReLU ]

/-- Both schemes have the same transforms, in different orders. -/
theorem transforms_perm :
    (transforms (U := U) auto c expand str1 str2).Perm (listed auto c expand str1 str2) := by
  unfold transforms listed
  cases hb : c.params.bits with
  | none => exact List.Perm.refl _
  | some b =>
    exact (List.perm_append_comm (l₁ := reluTransforms) (l₂ := denseTransforms (some b))).append_left _

theorem mem_transforms {t : Transform V (Meta U)} :
    t ∈ transforms auto c expand str1 str2 ↔ t ∈ listed auto c expand str1 str2 :=
  (transforms_perm auto c expand str1 str2).mem_iff

theorem transforms_names : ((transforms (U := U) auto c expand str1 str2).map (·.name)).Perm
    (heads.map (·.1)) :=
  (transforms_perm auto c expand str1 str2).map _

theorem transforms_heads : ∀ t ∈ transforms (U := U) auto c expand str1 str2,
    ∃ k, heads.lookup t.name = some (headClass t.pattern, k + 1) := by
  intro t ht
  rw [mem_transforms] at ht
  simp only [listed, pureTransform, List.mem_cons, List.not_mem_nil, or_false] at ht
  rcases ht with rfl | rfl | rfl | rfl | rfl | rfl | rfl | rfl | rfl | rfl | rfl | rfl | rfl | rfl |
    rfl | rfl | rfl | rfl | rfl
  exacts [⟨0, rfl⟩, ⟨1, rfl⟩, ⟨0, rfl⟩, ⟨0, rfl⟩, ⟨0, rfl⟩, ⟨0, rfl⟩, ⟨0, rfl⟩, ⟨0, rfl⟩, ⟨0, rfl⟩,
    ⟨0, rfl⟩, ⟨0, rfl⟩, ⟨0, rfl⟩, ⟨0, rfl⟩, ⟨0, rfl⟩, ⟨0, rfl⟩, ⟨0, rfl⟩, ⟨0, rfl⟩, ⟨0, rfl⟩, ⟨0, rfl⟩]

/-- What the transforms do to names and classes. -/
theorem transforms_keys : ∀ t ∈ transforms (U := U) auto c expand str1 str2, ∀ k m r k',
    t.replacement k m = .ok (r, k') →
    treeKeys r = treeKeys m ∨
    (t.name = "InputLayerQuantize" ∧
      treeKeys r = (auto "quantize_layer" k, "QuantizeLayer") :: treeKeys m) ∨
    (t.name = "SeparableConv1DQuantize" ∧
      treeKeys r = [(auto "sepconv1d_squeeze" (k + 1), "Lambda"),
        (m.name ++ "_QAT_SepConv2D", "SeparableConv2D"), (auto "sepconv1d_expand" k, "Lambda")]) ∨
    (t.name = "SeparableConvQuantize" ∧
      treeKeys r = [(auto "conv2d" (k + 1), "Conv2D"),
        (auto "depthwise_conv2d" k, "DepthwiseConv2D")]) := by
  intro t ht k m r k' h
  have pure : ∀ (f : Node V (Meta U) → Node V (Meta U)), (∀ n, treeKeys (f n) = treeKeys n) →
      (Except.ok (f m, k) : Except String _) = .ok (r, k') → treeKeys r = treeKeys m := by
    intro f hf h
    simp only [Except.ok.injEq, Prod.mk.injEq] at h
    rw [← h.1, hf]
  rw [mem_transforms] at ht
  simp only [listed, pureTransform, List.mem_cons, List.not_mem_nil, or_false] at ht
  rcases ht with rfl | rfl | rfl | rfl | rfl | rfl | rfl | rfl | rfl | rfl | rfl | rfl | rfl | rfl |
    rfl | rfl | rfl | rfl | rfl
  · right; left
    simp only [replaceInput, Except.ok.injEq, Prod.mk.injEq] at h
    refine ⟨rfl, ?_⟩
    rw [← h.1, treeKeys_mk, treeKeysList_cons]
    simp [treeKeysList, preorderList]
  · simp only [replaceSepConv1D] at h
    split at h
    · simp only [Except.ok.injEq, Prod.mk.injEq] at h
      exact Or.inl (by rw [h.1])
    split at h
    · simp at h
    · simp only [Except.ok.injEq, Prod.mk.injEq] at h
      right; right; left
      refine ⟨rfl, ?_⟩
      rw [← h.1]
      rfl
  · simp only [replaceSepConv] at h
    split at h
    · simp only [Except.ok.injEq, Prod.mk.injEq] at h
      exact Or.inl (by rw [h.1])
    · simp only [Except.ok.injEq, Prod.mk.injEq] at h
      right; right; right
      refine ⟨rfl, ?_⟩
      rw [← h.1]
      rfl
  · exact Or.inl (pure _ keys_replaceReshapeBNReLU h)
  · exact Or.inl (pure _ keys_replaceReshapeBNReLU h)
  · exact Or.inl (pure _ keys_replaceBNReLU h)
  · exact Or.inl (pure _ keys_replaceBNReLU h)
  · exact Or.inl (pure _ (keys_replaceReshapeBN _) h)
  · exact Or.inl (pure _ (keys_replaceBN _) h)
  · exact Or.inl (pure _ (keys_replaceConcat c) h)
  · exact Or.inl (pure _ (keys_replaceConcat c) h)
  · exact Or.inl (pure _ (keys_replaceConcat c) h)
  · exact Or.inl (pure _ (keys_replaceConcat c) h)
  · exact Or.inl (pure _ (keys_replaceConcat c) h)
  · exact Or.inl (pure _ (keys_replaceBN _) h)
  · exact Or.inl (pure _ keys_replaceBNReLU h)
  · exact Or.inl (pure _ keys_replaceBNReLU h)
  · exact Or.inl (pure _ keys_replaceLayerReLU h)
  · exact Or.inl (pure _ keys_replaceLayerReLU h)

end

theorem sum_toFinset_le (xs : List (String × String)) (f : String × String → ℕ) :
    ∑ p ∈ xs.toFinset, f p ≤ (xs.map f).sum := by
  induction xs with
  | nil => simp
  | cons x xs ih =>
    rw [List.toFinset_cons, List.map_cons, List.sum_cons]
    by_cases h : x ∈ xs.toFinset
    · rw [Finset.insert_eq_of_mem h]; omega
    · rw [Finset.sum_insert h]; omega

end Aux

section Loop
variable [DecidableEq V] [DecidableEq U]

/-- C58: the default 8-bit layout transforms, which do make up layer names, always come to an end:
for every model, whatever names Keras makes up and however metadata is compared. -/
theorem C58_default_terminates (metaEq : Meta U → Meta U → Bool) (auto : String → ℕ → String)
    (c : Classes) (expand : V → V) (str1 str2 : String → String) (g : Graph V (Meta U)) :
    ∃ fuel res, run metaEq (transforms auto c expand str1 str2) fuel
      (start (transforms auto c expand str1 str2) g) = some res := by
  refine Aux.terminates metaEq (transforms auto c expand str1 str2)
    (fun s => ∀ t ∈ s.rest, t ∈ transforms auto c expand str1 str2)
    (Aux.measure (fun n cls => (n, cls)) Aux.costOf
      ((transforms (V := V) (U := U) auto c expand str1 str2).map (·.name))) ?_ ?_ _ (fun t ht => ht)
  · intro s s' hs h
    rcases Aux.turn_next h with ⟨-, -, rfl⟩ | ⟨t, tl, hr, -, rfl⟩ |
        ⟨t, tl, m, r, k, hr, hf, hrep, hrest, hmat, hsup, hcase⟩
    · exact fun t ht => ht
    · exact fun t' ht' => hs t' (by rw [hr]; simp only [List.mem_cons]; exact Or.inr ht')
    · rw [hrest]; exact hs
  · intro s s' hs h hne
    rcases Aux.turn_next h with ⟨-, -, rfl⟩ | ⟨t, tl, hr, -, rfl⟩ |
        ⟨t, tl, m, r, k, hr, hf, hrep, hrest, hmat, hsup, hcase⟩
    · exact absurd rfl hne
    · exact absurd rfl hne
    · rw [hmat]
      obtain ⟨hml, hmn, hmt⟩ := Aux.findPattern_some hf
      have htts : t ∈ transforms auto c expand str1 str2 := hs t (by rw [hr]; simp)
      have hcls : matchPattern m.layer.cls (Aux.headClass t.pattern) = true := by
        cases hp : t.pattern with
        | mk cls config inputs =>
          rw [hp] at hmt
          have := (Aux.matchTree_split hmt).1
          simp only [matchLayer, Bool.and_eq_true] at this
          exact this.1.2
      obtain ⟨k0, hk0⟩ := Aux.transforms_heads auto c expand str1 str2 t htts
      have hcost : Aux.costOf t.name m.layer.cls = k0 + 1 := by
        simp only [Aux.costOf, hk0, hcls, if_true]
      have hmkeys : ∀ p ∈ Aux.treeKeys m, p ∈ Aux.keys (fun n cls => (n, cls)) s.graph := by
        intro p hp
        obtain ⟨x, hx, rfl⟩ := List.mem_map.1 hp
        have := (Aux.matchTree_nodes _ _ _ _ _ hml hmt x ((Aux.mem_preorder _ _).1 hx)).1
        simp only [Aux.keys, List.mem_toFinset, List.mem_map]
        exact ⟨x.layer, this, rfl⟩
      have hsub : ∀ new : Finset (String × String),
          (∀ p ∈ Aux.treeKeys r, p ∈ Aux.treeKeys m ∨ p ∈ new) →
          Aux.keys (fun n cls => (n, cls)) s'.graph
            ⊆ Aux.keys (fun n cls => (n, cls)) s.graph ∪ new := by
        intro new hnew p hp
        rw [Finset.mem_union]
        rcases hcase with ⟨-, hg, -⟩ | ⟨-, hg, -⟩
        · rw [hg] at hp; exact Or.inl hp
        · simp only [Aux.keys, List.mem_toFinset, List.mem_map] at hp
          obtain ⟨l', hl', rfl⟩ := hp
          rcases Aux.replace_keys hg l' hl' with ⟨l, hl, hn, hc⟩ | ⟨n, hn, hnn, hc⟩
          · left
            simp only [Aux.keys, List.mem_toFinset, List.mem_map]
            exact ⟨l, hl, by rw [hn, hc]⟩
          · rcases hnew (n.name, n.layer.cls)
                (List.mem_map.2 ⟨n, (Aux.mem_preorder _ _).2 hn, rfl⟩) with h1 | h1
            · left; rw [← hnn, ← hc]; exact hmkeys _ h1
            · right; rw [← hnn, ← hc]; exact h1
      have hnot : (t.name, m.name) ∉ s.matched := fun hh => hmn ((Aux.matchedBy_mem _ _ _).2 hh)
      have hin : (m.name, m.layer.cls) ∈ Aux.keys (fun n cls => (n, cls)) s.graph := by
        simp only [Aux.keys, List.mem_toFinset, List.mem_map]
        exact ⟨m.layer, hml, rfl⟩
      have step : ∀ new : List (String × String),
          (∀ p ∈ Aux.treeKeys r, p ∈ Aux.treeKeys m ∨ p ∈ new.toFinset) →
          (new.map fun p => ((Aux.heads.map (·.1)).map fun t => Aux.costOf t p.2).sum).sum < k0 + 1 →
          Aux.measure (fun n cls => (n, cls)) Aux.costOf
              ((transforms (V := V) (U := U) auto c expand str1 str2).map (·.name))
              s'.graph (s.matched ++ [(t.name, m.name)])
            < Aux.measure (fun n cls => (n, cls)) Aux.costOf
              ((transforms (V := V) (U := U) auto c expand str1 str2).map (·.name))
              s.graph s.matched := by
        intro new hnew hlt
        refine Aux.measure_lt _ _ _ s.graph _ _ t.name (List.mem_map_of_mem htts) m.name m.layer.cls
          hin hnot new.toFinset (hsub _ hnew) ?_
        rw [hcost]
        have hsum : ∀ cls : String, (((transforms (V := V) (U := U) auto c expand str1 str2).map (·.name)).map
            fun t => Aux.costOf t cls).sum = ((Aux.heads.map (·.1)).map fun t => Aux.costOf t cls).sum :=
          fun cls => ((Aux.transforms_names auto c expand str1 str2).map _).sum_eq
        simp only [hsum]
        exact lt_of_le_of_lt (Aux.sum_toFinset_le _ _) hlt
      rcases Aux.transforms_keys auto c expand str1 str2 t htts _ _ _ _ hrep with
        hk | ⟨ht, hk⟩ | ⟨ht, hk⟩ | ⟨ht, hk⟩
      · exact step [] (fun p hp => Or.inl (hk ▸ hp)) (by simp)
      · refine step [(auto "quantize_layer" s.supply, "QuantizeLayer")] ?_ ?_
        · intro p hp
          rw [hk, List.mem_cons] at hp
          rcases hp with rfl | hp
          · exact Or.inr (by simp)
          · exact Or.inl hp
        · have : ((Aux.heads.map (·.1)).map fun t => Aux.costOf t "QuantizeLayer").sum = 0 := by
            decide +kernel
          simp only [List.map_cons, List.map_nil, List.sum_cons, List.sum_nil, this]
          omega
      · have hk01 : k0 = 1 := by
          rw [ht] at hk0
          have : Aux.heads.lookup "SeparableConv1DQuantize" = some ("SeparableConv1D", 2) := rfl
          rw [this] at hk0
          simp only [Option.some.injEq, Prod.mk.injEq] at hk0
          omega
        refine step (Aux.treeKeys r) (fun p hp => Or.inr (by simpa using hp)) ?_
        rw [hk]
        have h1 : ((Aux.heads.map (·.1)).map fun t => Aux.costOf t "Lambda").sum = 0 := by
          decide +kernel
        have h2 : ((Aux.heads.map (·.1)).map fun t => Aux.costOf t "SeparableConv2D").sum = 1 := by
          decide +kernel
        simp only [List.map_cons, List.map_nil, List.sum_cons, List.sum_nil, h1, h2, hk01]
        omega
      · refine step (Aux.treeKeys r) (fun p hp => Or.inr (by simpa using hp)) ?_
        rw [hk]
        have h1 : ((Aux.heads.map (·.1)).map fun t => Aux.costOf t "Conv2D").sum = 0 := by
          decide +kernel
        have h2 : ((Aux.heads.map (·.1)).map fun t => Aux.costOf t "DepthwiseConv2D").sum = 0 := by
          decide +kernel
        simp only [List.map_cons, List.map_nil, List.sum_cons, List.sum_nil, h1, h2]
        omega

end Loop

end Verif.Props
