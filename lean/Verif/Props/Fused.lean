import Verif.Props.FusedTransforms

/-
C113: nothing is quantized between layers that are fused.
-/
set_option linter.unusedSectionVars false
set_option linter.unusedSimpArgs false

namespace Verif.Props
open Verif.Quant.Regex Verif.Quant.Transformer Verif.Quant.Transforms8Bit Verif.Quant.Apply

variable {V U M : Type}

namespace Spec

/-- The weights of a Sequential model: separable convolutions have as many as they should, and only layers of the
model have weights. -/
def SequentialWeights (m : AModel V U) : Prop :=
  (∀ a ∈ m.layers, a.layer.cls = "SeparableConv1D" ∨ a.layer.cls = "SeparableConv2D" →
    SepWeights a.layer (m.weights a.layer.name)) ∧
  ∀ n, (∀ a ∈ m.layers, a.layer.name ≠ n) → m.weights n = []

/-- The layer `x` is in the quantized model, with its class, wrapped with the config that the registry has for its
class (so its weights are quantized), and with a `NoOpActivation`, which is never quantized. -/
def WeightsOnly (c : Classes) (out : OModel V U) (x : ALayer U) : Prop :=
  (∃ e ∈ out.layers, e.layer.name = x.layer.name) ∧
  ∀ e ∈ out.layers, e.layer.name = x.layer.name → e.layer.cls = x.layer.cls ∧
    e = .quantized e.layer ⟨.default c.params x.layer.cls, false, false⟩ ∧
    e.layer.config.lookup "activation" = some "{'class_name': 'NoOpActivation', 'config': {}}"

/-- The layer `x` is in the quantized model, with its class, and nothing in it is quantized. -/
def NotQuantized (out : OModel V U) (x : ALayer U) : Prop :=
  (∃ e ∈ out.layers, e.layer.name = x.layer.name) ∧
  ∀ e ∈ out.layers, e.layer.name = x.layer.name → e.layer.cls = x.layer.cls ∧
    ∃ q, e = .quantized e.layer q ∧ q.kind = .noOp

end Spec

namespace Aux

/-- The patterns with a place for a `Dense` layer. -/
theorem dense_table (auto : String → ℕ → String) (c : Classes) (expand : V → V) (str1 str2 : String → String) :
    ∀ t ∈ transforms (U := U) auto c expand str1 str2, ∀ clsB ∈ Spec.normClasses,
      cleanPat "Dense" clsB true t.pattern = true ∨
      (∃ k, t.pattern = concatPattern k ∧ t.replacement = fun k n => .ok (replaceConcat c n, k)) ∨
      t.name ∈ ["DenseBatchNormQuantize", "DenseBatchNormReLUQuantize", "DenseBatchNormActivationQuantize"] := by
  intro t ht
  rw [mem_transforms] at ht
  simp only [listed, pureTransform, List.mem_cons, List.not_mem_nil, or_false] at ht
  suffices h : (∀ clsB ∈ Spec.normClasses, cleanPat "Dense" clsB true t.pattern = true) ∨
      ((∃ k, t.pattern = concatPattern k ∧ t.replacement = fun k n => .ok (replaceConcat c n, k)) ∨
      t.name ∈ ["DenseBatchNormQuantize", "DenseBatchNormReLUQuantize", "DenseBatchNormActivationQuantize"]) from
    fun clsB hB => h.imp (fun h => h clsB hB) id
  rcases ht with rfl | rfl | rfl | rfl | rfl | rfl | rfl | rfl | rfl | rfl | rfl | rfl | rfl | rfl |
    rfl | rfl | rfl | rfl | rfl
  all_goals
    first
      | exact Or.inr (Or.inl ⟨_, rfl, rfl⟩)
      | (refine Or.inr (Or.inr ?_); simp; done)
      | (left; dsimp only; decide +kernel)

theorem feed_same (c : Classes) {n : Node V (Meta U)} {e} (h : feed c n = some e) :
    e.1.layer = n.layer ∧ e.1.inputs = n.inputs := by
  unfold feed at h
  split at h
  · simp only [Option.some.injEq] at h; rw [← h]; exact ⟨rfl, rfl⟩
  cases n
  split at h
  · cases hb : c.params.bits with
    | some b => rw [hb] at h; cases h
    | none =>
      rw [hb] at h
      simp only [Option.some.injEq] at h; rw [← h]
      exact ⟨rfl, rfl⟩
  split at h
  · simp at h
  split at h
  · simp only [Option.some.injEq] at h; rw [← h]; exact ⟨rfl, rfl⟩
  split at h
  · simp at h
  · simp only [Option.some.injEq] at h; rw [← h]; exact ⟨rfl, rfl⟩

/-- A layer that makes the concatenation give up is not changed, and the concatenation gives up. -/
theorem feeds_stop (c : Classes) (b : String) : ∀ ns : List (Node V (Meta U)),
    (∀ n ∈ ns, n.inputs = []) → (∀ n ∈ ns, n.name = b → feed c n = none) →
    (∀ e ∈ (feeds c ns).1, e.1.inputs = [] ∧ (e.1.name = b → e.1 ∈ ns)) ∧
    ((∃ n ∈ ns, n.name = b) → (feeds c ns).2 = false)
  | [] => by intro _ _; simp [feeds]
  | n :: ns => by
    intro h1 h2
    obtain ⟨i1, i2⟩ := feeds_stop c b ns (fun x hx => h1 x (by simp [hx])) (fun x hx => h2 x (by simp [hx]))
    rw [feeds]
    cases hf : feed c n with
    | none =>
      dsimp only
      refine ⟨?_, fun _ => rfl⟩
      intro e he
      obtain ⟨x, hx, rfl⟩ := List.mem_map.1 he
      exact ⟨h1 x hx, fun _ => hx⟩
    | some e0 =>
      dsimp only
      obtain ⟨s1, s2⟩ := feed_same c hf
      have hn : n.name ≠ b := by
        intro h
        rw [h2 n (by simp) h] at hf
        cases hf
      refine ⟨?_, ?_⟩
      · intro e he
        rcases List.mem_cons.1 he with rfl | he
        · refine ⟨by rw [s2]; exact h1 n (by simp), fun h => absurd ?_ hn⟩
          rw [← h, Node.name, Node.name, s1]
        · exact ⟨(i1 e he).1, fun h => List.mem_cons_of_mem _ ((i1 e he).2 h)⟩
      · rintro ⟨x, hx, hb⟩
        rcases List.mem_cons.1 hx with rfl | hx
        · exact absurd hb hn
        · exact i2 ⟨x, hx, hb⟩

theorem concat_stop (c : Classes) (b : String) (m : Node V (Meta U)) (hm : m.name ≠ b)
    (h1 : ∀ n ∈ m.inputs, n.inputs = []) (h2 : ∀ n ∈ m.inputs, n.name = b → feed c n = none ∧ n.info.get = none) :
    ∀ n, Spec.InTree n (replaceConcat c m) → n.name = b → n.info.get = none := by
  obtain ⟨l, w, i, ins⟩ := m
  dsimp only [Node.inputs] at h1 h2
  obtain ⟨f1, f2⟩ := feeds_stop c b ins h1 fun n hn he => (h2 n hn he).1
  have leaf : ∀ {n x : Node V (Meta U)}, x.inputs = [] → Spec.InTree n x → n = x := by
    intro n x hx hn
    obtain ⟨lx, wx, ix, xs⟩ := x
    dsimp only [Node.inputs] at hx
    subst hx
    exact inTree_leaf hn
  have name_dis : ∀ x : Node V (Meta U), (disableOutput c.params.bits x).name = x.name ∧
      (disableOutput c.params.bits x).inputs = x.inputs := by
    intro x; cases x; exact ⟨rfl, rfl⟩
  intro n hn he
  have hfe : ∀ x, (.mk l w i ins : Node V (Meta U)).inputs = x → x = ins := fun x h => h.symm
  rw [replaceConcat] at hn
  generalize (.mk l w i ins : Node V (Meta U)).inputs = ins' at hn hfe
  have hee : ins' = ins := hfe ins' rfl
  rw [hee] at hn
  clear hfe hee
  by_cases hb : ∃ x ∈ ins, x.name = b
  · rw [if_neg (show ¬ (feeds c ins).2 = true by rw [f2 hb]; decide), withInputs] at hn
    cases hn with
    | root => exact absurd he hm
    | child hc hx =>
      obtain ⟨e, hem, rfl⟩ := List.mem_map.1 hc
      obtain ⟨g1, g2⟩ := f1 e hem
      rw [leaf g1 hx] at he ⊢
      exact (h2 _ (g2 he) he).2
  · exfalso
    have hno : ∀ e ∈ (feeds c ins).1, e.1.name ≠ b := fun e hem h => hb ⟨e.1, (f1 e hem).2 h, h⟩
    have fin : ∀ {j : Meta U} {f : Node V (Meta U) × Bool → Node V (Meta U)},
        (∀ e, (f e).name = e.1.name ∧ (f e).inputs = e.1.inputs) →
        Spec.InTree n (.mk l w j ((feeds c ins).1.map f)) → False := by
      intro j f hf hn
      cases hn with
      | root => exact hm he
      | child hc hx =>
        obtain ⟨e, hem, rfl⟩ := List.mem_map.1 hc
        rw [leaf ((hf e).2.trans (f1 e hem).1) hx, (hf e).1] at he
        exact hno e hem he
    have hdis : ∀ e : Node V (Meta U) × Bool,
        (if e.2 then disableOutput c.params.bits e.1 else e.1).name = e.1.name ∧
        (if e.2 then disableOutput c.params.bits e.1 else e.1).inputs = e.1.inputs := by
      intro e
      split
      · exact name_dis e.1
      · exact ⟨rfl, rfl⟩
    split at hn
    · dsimp only at hn
      split at hn
      · exact fin hdis hn
      · exact fin hdis hn
    · exact fin (fun e => ⟨rfl, rfl⟩) hn

theorem dense_classes : matchPattern "Dense" bnClass = false ∧ matchPattern "Dense" "Dense" = true ∧
    ∀ clsB ∈ Spec.normClasses, matchPattern clsB "Dense" = false := by decide +kernel

theorem norm_plain : ∀ cls ∈ Spec.normClasses, cls ≠ "QuantizeLayer" ∧ cls ≠ "Concatenate" := by decide

theorem dense_split (auto : String → ℕ → String) (c : Classes) (expand : V → V) (str1 str2 : String → String) :
    ∃ early late, transforms (U := U) auto c expand str1 str2 =
      early ++ pureTransform "DenseBatchNormQuantize" denseBNPattern (replaceBN c.params.bits) :: late ∧
      ∀ t ∈ early, t.name ∉ ["DenseBatchNormQuantize", "DenseBatchNormReLUQuantize",
        "DenseBatchNormActivationQuantize"] := by
  cases hb : c.params.bits with
  | none =>
    refine ⟨(transforms (U := U) auto c expand str1 str2).take 14, (transforms (U := U) auto c expand str1 str2).drop 15, ?_, ?_⟩
    · rw [transforms, hb]; rfl
    · rw [transforms, hb]
      intro t ht
      simp only [List.take_succ_cons, List.take_zero, List.cons_append, pureTransform, List.mem_cons,
        List.not_mem_nil, or_false] at ht
      rcases ht with rfl | rfl | rfl | rfl | rfl | rfl | rfl | rfl | rfl | rfl | rfl | rfl | rfl | rfl <;> simp
  | some b =>
    refine ⟨(transforms (U := U) auto c expand str1 str2).take 16, (transforms (U := U) auto c expand str1 str2).drop 17, ?_, ?_⟩
    · rw [transforms, hb]; rfl
    · rw [transforms, hb]
      intro t ht
      simp only [List.take_succ_cons, List.take_zero, List.cons_append, List.nil_append, pureTransform, reluTransforms,
        List.mem_cons, List.not_mem_nil, or_false] at ht
      rcases ht with rfl | rfl | rfl | rfl | rfl | rfl | rfl | rfl | rfl | rfl | rfl | rfl | rfl | rfl | rfl | rfl <;>
        simp

section
variable [DecidableEq U] [DecidableEq V] {c : Classes} {am : AModel V U}
  (hnd : (am.layers.map fun a => a.layer.name).Nodup)
  {auto : String → ℕ → String} {expand : V → V} {str1 str2 : String → String}
  {A B : ALayer U} (hA : A ∈ am.layers) (hB : B ∈ am.layers)
  (hfresh : Spec.FreshNames auto (am.layers.map fun a => a.layer.name))
include hnd hA hB hfresh

/-- The loops fuse a `Dense` layer and the batch normalization after it, if no concatenation is annotated. -/
theorem dense_run (hcA : A.layer.cls = "Dense") (hcB : B.layer.cls ∈ Spec.normClasses)
    (hsup : c.supported B.layer.cls = false) (metaEq : Meta U → Meta U → Bool) (hrefl : ∀ i, metaEq i i = true)
    (hfeeds : Spec.FeedsJust am A B) (haA : A.annotation = some none) (haB : B.annotation = some none)
    (hact : A.layer.get "activation" = "linear")
    (hseq : am.functional = false → Spec.SequentialModel (unwrap am))
    (hstart : ApplyInv c am (unwrap am)) (fuel : ℕ) (g' : Graph V (Meta U))
    (hrun : run metaEq (transforms auto c expand str1 str2) fuel
      (start (transforms auto c expand str1 str2) (unwrap am)) = some (.ok g')) :
    ApplyInv c am g' ∧ FusedAfter A.layer.name B.layer.name False g' := by
  obtain ⟨early, late, hsplit, hearly⟩ := dense_split (U := U) auto c expand str1 str2
  have hcA' : A.layer.cls ∈ Spec.fusedClasses := by rw [hcA]; decide
  obtain ⟨d1, d2, d3⟩ := dense_classes
  refine fuse_run hnd hA hB hcA' hcB hfresh metaEq hrefl _ early late hsplit B.layer.name False (fun _ => True)
    ?_ ?_ (base_start hnd hA hB hfeeds (by rw [haA]; rfl) (by rw [haB]; rfl) hseq) ?_ trivial hstart fuel g' hrun
  · intro g k hok hb hbef _
    exact pair_match hnd hA hB hcB hok hb hbef (by rw [hcA]; exact d2) (fun h => (link_feeds hb.link).head h)
  · intro g t m r k k' matched hok hb hbef _ ht hfind hrep
    have h2 := two_of (lin := true) hnd hA hB hok hb.link (fun h => by simp at h)
    obtain ⟨hml, -, hmt⟩ := findPattern_some hfind
    rcases ht with ht | rfl
    · have hmem : t ∈ transforms auto c expand str1 str2 := by rw [hsplit]; simp [ht]
      have hname := hearly t ht
      rcases dense_table auto c expand str1 str2 t hmem _ hcB with hc | ⟨n, hp, hr⟩ | hn
      · refine Or.inl ⟨clean_untouched h2 hml hmt (by rw [hcA]; exact hc), fun h => ?_, fun _ _ _ => trivial⟩
        exact absurd (by rw [h]; simp [pureTransform]) hname
      · right; right; right
        rw [hp, concatPattern] at hmt
        rw [hr] at hrep
        simp only [Except.ok.injEq, Prod.mk.injEq] at hrep
        have hleaf : ∀ q ∈ List.replicate n (Pattern.mk ".*" [] []), ∃ cls cfg, q = Pattern.mk cls cfg [] := by
          intro q hq
          rw [List.eq_of_mem_replicate hq]
          exact ⟨_, _, rfl⟩
        obtain ⟨c1, c2⟩ := concat_classes _ hcA' _ hcB
        obtain ⟨h3, h4⟩ := concat_counts h2 hb.link hml hmt hleaf c1 c2
        have hmb : m.name ≠ B.layer.name := by
          intro h
          have := (matchLayer_parts (matchTree_split hmt).1).1
          rw [h2.clsB _ hml h, c2] at this
          simp at this
        have hins : m.inputs = [] ∨ ∃ ls : List Layer, (∀ x ∈ ls, x ∈ g.layers) ∧ m.inputs = ls.map fun x => nodeOf g x [] := by
          obtain ⟨-, -, ⟨-, h⟩ | ⟨-, ns, hns, h⟩⟩ := matchTree_split hmt
          · left; rw [h]; rfl
          · right
            refine ⟨getLayers g (inputLayerNames g m.layer), fun x hx => List.mem_of_mem_filter hx, ?_⟩
            have h5 := congrArg Node.inputs h
            rw [h5]
            exact leaf_trees _ _ ns hleaf hns
        refine ⟨h3, h4, ?_, ?_, ?_, fun _ _ _ => trivial⟩
        · intro h
          exact hname (by rw [h]; simp [pureTransform])
        · rw [mem_transforms] at hmem
          simp only [listed, pureTransform, List.mem_cons, List.not_mem_nil, or_false] at hmem
          rcases hmem with rfl | rfl | rfl | rfl | rfl | rfl | rfl | rfl | rfl | rfl | rfl | rfl | rfl | rfl |
            rfl | rfl | rfl | rfl | rfl
          all_goals first | (simp; done) | (exfalso; simp [concatPattern] at hp)
        · rw [← hrep.1]
          refine concat_stop c _ m hmb ?_ ?_
          · intro x hx
            rcases hins with h | ⟨ls, -, h⟩
            · rw [h] at hx; simp at hx
            · rw [h] at hx
              obtain ⟨z, -, rfl⟩ := List.mem_map.1 hx
              rfl
          · intro x hx he
            rcases hins with h | ⟨ls, hls, h⟩
            · rw [h] at hx; simp at hx
            · rw [h] at hx
              obtain ⟨z, hz, rfl⟩ := List.mem_map.1 hx
              have he' : z.name = B.layer.name := he
              have hnone : (nodeOf g z [] : Node V (Meta U)).info.get = none := by
                have := hbef.metaB
                rw [configOf, ← he'] at this
                exact this
              refine ⟨?_, hnone⟩
              have hcz : z.cls = B.layer.cls := h2.clsB z (hls z hz) he'
              obtain ⟨q1, q2⟩ := norm_plain _ hcB
              have hcz' : (nodeOf g z [] : Node V (Meta U)).layer.cls = B.layer.cls := hcz
              unfold feed
              rw [hasConfig, hnone, if_neg (by simp), hcz', if_neg q1, if_neg q2]
              split
              · rfl
              · rw [hsup]; rfl
      · exact absurd hn hname
    · by_cases hmb : m.layer.name = B.layer.name
      · obtain ⟨y, hy, hya, hm⟩ := pair_shape h2 hml hmb hmt
        right; left
        refine ⟨?_, by simp [pureTransform]⟩
        have hne : y.name ≠ m.layer.name := by rw [hya, hmb]; exact h2.feeds.ne
        have hrr : r = replaceBN c.params.bits m := by
          simp only [pureTransform, Except.ok.injEq, Prod.mk.injEq] at hrep
          exact hrep.1.symm
        rw [hrr]
        have := fuses_bn (V := V) (bits := c.params.bits) (wa := g.weights y.name) (wb := g.weights m.layer.name) hne
          (ia := (g.metadata y.name).getD default) (ib := (g.metadata m.layer.name).getD default)
          (by rw [hya]; exact hbef.metaA) (by rw [hmb]; exact hbef.metaB)
        rw [hm, ← hmb, ← hya]
        exact this
      · left
        refine ⟨fun n hn => ?_, fun _ => hmb, fun _ _ _ => trivial⟩
        obtain ⟨e1, e2⟩ := untouched_below h2 hml (head_not h2 hml hmt (by rw [hcA]; exact d1)) hmb (by rfl) hmt n hn
        exact ⟨e1, e2 (by simp [nowheres, nowhere, leafHit, d3 _ hcB])⟩
  · refine ⟨?_, config_start hnd hA haA, config_start hnd hB haB⟩
    intro l hl he
    obtain ⟨z, hz, rfl⟩ := List.mem_map.1 hl
    rw [same_alayer hnd hz hA he]
    exact hact

end

theorem get_activation {l : Layer} (h : l.get "activation" = noOpActivation) :
    l.config.lookup "activation" = some "{'class_name': 'NoOpActivation', 'config': {}}" := by
  rw [Layer.get, if_neg (by decide)] at h
  cases hl : l.config.lookup "activation" with
  | none => rw [hl] at h; revert h; decide
  | some v => rw [hl] at h; exact congrArg some h

theorem plain_fused : ∀ cls ∈ Spec.fusedClasses ++ Spec.normClasses, cls ≠ "InputLayer" ∧ cls ≠ "QuantizeLayer" ∧
    cls ∉ ["QuantizeWrapper", "QuantizeWrapperV2"] := by decide

section Final
variable [DecidableEq U] [DecidableEq V] {metaEq : Meta U → Meta U → Bool}
  {auto : String → ℕ → String} {c : Classes} {expand : V → V} {str1 str2 : String → String}
  {fuel : ℕ} {m : AModel V U} {out : OModel V U}

/-- The result behind the loops. -/
theorem fused_result (h : quantizeApply (defaultScheme metaEq auto c expand str1 str2 fuel) (.model m) = .ok out)
    (hnl : ∀ a ∈ m.layers, '\n' ∉ a.layer.cls.toList) {A B : ALayer U} (hA : A ∈ m.layers) (hB : B ∈ m.layers)
    (hcA : A.layer.cls ∈ Spec.fusedClasses) (hcB : B.layer.cls ∈ Spec.normClasses)
    (haA : A.annotation = some none) (haB : B.annotation = some none) (noop : Prop)
    (hrun : (m.layers.map fun a => a.layer.name).Nodup → ApplyInv c m (unwrap m) → ∀ g',
      run metaEq (transforms auto c expand str1 str2) fuel
        (start (transforms auto c expand str1 str2) (unwrap m)) = some (.ok g') →
      ApplyInv c m g' ∧ FusedAfter A.layer.name B.layer.name noop g') :
    Spec.WeightsOnly c out A ∧ (noop → Spec.NotQuantized out B) := by
  obtain ⟨hann, hnd, g, hg, hw, hall⟩ := apply_split h
  simp only [defaultScheme] at hg
  obtain ⟨hok, hafter⟩ := hrun hnd (apply_start hnd hann hnl) g (by
    cases hr : run metaEq (transforms auto c expand str1 str2) fuel
        (start (transforms auto c expand str1 str2) (unwrap m)) with
    | none => rw [hr] at hg; simp at hg
    | some e => rw [hr] at hg; simp only [Option.getD_some] at hg; rw [hg])
  have hex : ∀ x ∈ m.layers, x.layer.cls ∈ Spec.fusedClasses ++ Spec.normClasses →
      ∃ e ∈ out.layers, e.layer.name = x.layer.name := by
    intro x hx hc
    rcases hok.present x hx with ⟨l, hl, hn⟩ | ⟨-, h⟩
    · obtain ⟨i, hi, rfl⟩ := List.mem_iff_getElem.1 hl
      have hi' : i < out.layers.length := by rw [← hall.length_eq]; exact hi
      exact ⟨out.layers[i], List.getElem_mem hi', (quantizeLayer_layer (List.Forall₂.get hall hi hi')).1.trans hn⟩
    · exfalso
      revert hc
      simp only [List.mem_cons, List.not_mem_nil, or_false] at h
      rcases h with h | h <;> rw [h] <;> decide
  have hback : ∀ x ∈ m.layers, x.annotation = some none → x.layer.cls ∈ Spec.fusedClasses ++ Spec.normClasses →
      ∀ e ∈ out.layers, e.layer.name = x.layer.name → e.layer.cls = x.layer.cls ∧ ∃ l ∈ g.layers, l.name = x.layer.name ∧
        e.layer = l ∧ (match configOf g x.layer.name with
          | some q => e = .quantized l q
          | none => c.supported x.layer.cls = true ∧ e = .quantized l ⟨.default c.params x.layer.cls, false, false⟩) := by
    intro x hx hax hc e he hen
    obtain ⟨i, hi, rfl⟩ := List.mem_iff_getElem.1 he
    have hi' : i < g.layers.length := by rw [hall.length_eq]; exact hi
    have hq := List.Forall₂.get hall hi' hi
    simp only [List.get_eq_getElem] at hq
    generalize out.layers[i] = e at hq hen
    have hl : g.layers[i] ∈ g.layers := List.getElem_mem hi'
    generalize g.layers[i] = l at hq hl
    have hln : l.name = x.layer.name := (quantizeLayer_layer hq).1.symm.trans hen
    have hcls := (apply_layer hnd hok hl hx hln).1
    obtain ⟨p1, p2, p3⟩ := plain_fused _ hc
    obtain ⟨i, hi, hk⟩ := (apply_layer hnd hok hl hx hln).2.2.2 (by rw [hax]; rfl)
    have hreq : l.name ∉ requiresOutput m := by
      rw [hln, mem_requires hnd, isAnnotated_eq hnd hx, hax]
      simp
    simp only [defaultScheme] at hq
    rw [quantizeLayer, ← hcls, if_neg p1, if_neg p2, if_neg, if_neg hreq] at hq
    · rw [configOf, ← hln]
      rw [hi, Option.getD_some] at hq ⊢
      cases hget : i.get with
      | some q =>
        rw [hget] at hq
        simp only [Except.ok.injEq] at hq
        subst hq
        exact ⟨hcls.symm, l, hl, rfl, rfl, rfl⟩
      | none =>
        rw [hget] at hq
        dsimp only at hq ⊢
        split at hq
        · rename_i q hsup
          simp only [Except.ok.injEq] at hq
          subst hq
          by_cases hs : c.supported x.layer.cls = true
          · rw [if_pos hs] at hsup
            rw [← Option.some.inj hsup]
            exact ⟨hcls.symm, l, hl, rfl, rfl, hs, rfl⟩
          · rw [if_neg hs] at hsup; simp at hsup
        · simp at hq
    · rw [hi]
      rintro (⟨h, -⟩ | h)
      · simp at h
      · exact p3 h
  refine ⟨⟨hex A hA (by simp [hcA]), ?_⟩, fun hno => ⟨hex B hB (by simp [hcB]), ?_⟩⟩
  · intro e he hen
    obtain ⟨h1, l, hl, hln, hel, h2⟩ := hback A hA haA (by simp [hcA]) e he hen
    rw [hafter.metaA] at h2
    refine ⟨h1, ?_, ?_⟩
    · rw [hel]; exact h2.2
    · rw [hel]; exact get_activation (hafter.act l hl hln)
  · intro e he hen
    obtain ⟨h1, l, hl, hln, hel, h2⟩ := hback B hB haB (by simp [hcB]) e he hen
    obtain ⟨q, hq, hk⟩ := hafter.metaB hno
    rw [hq] at h2
    exact ⟨h1, q, by rw [hel]; exact h2, hk⟩

theorem sequential_of {m : AModel V U} (hnd : (m.layers.map fun a => a.layer.name).Nodup)
    (hnl : ∀ a ∈ m.layers, '\n' ∉ a.layer.cls.toList) (hw : m.functional = false → Spec.SequentialWeights m) :
    m.functional = false → Spec.SequentialModel (unwrap m) := by
  intro hf
  obtain ⟨h1, h2⟩ := hw hf
  refine ⟨hf, ?_, ?_, ?_, ?_⟩
  · rw [Spec.UniqueNames]
    simpa [unwrap, List.map_map, Function.comp_def] using hnd
  · intro l hl
    obtain ⟨a, ha, rfl⟩ := List.mem_map.1 hl
    exact hnl a ha
  · intro l hl
    obtain ⟨a, ha, rfl⟩ := List.mem_map.1 hl
    exact h1 a ha
  · intro n hn
    exact h2 n fun a ha => hn a.layer (List.mem_map_of_mem ha)

end Final

end Aux

section Main113
variable [DecidableEq U] [DecidableEq V] (metaEq : Meta U → Meta U → Bool) (hrefl : ∀ i, metaEq i i = true)
  (auto : String → ℕ → String) (c : Classes) (expand : V → V) (str1 str2 : String → String)
  (fuel : ℕ) (m : AModel V U) (out : OModel V U)
  (hnl : ∀ a ∈ m.layers, '\n' ∉ a.layer.cls.toList)
  (hfresh : Spec.FreshNames auto (m.layers.map fun a => a.layer.name))
  (hseq : m.functional = false → Spec.SequentialWeights m)
  (h : quantizeApply (defaultScheme metaEq auto c expand str1 str2 fuel) (.model m) = .ok out)
  (x y : ALayer U) (hx : x ∈ m.layers) (hy : y ∈ m.layers)
  (hax : x.annotation = some none) (hay : y.annotation = some none)
  (hcy : y.layer.cls = "BatchNormalization" ∨ y.layer.cls = "SyncBatchNormalization")
  (hact : x.layer.config.lookup "activation" = some "linear") (hxy : Spec.FeedsJust m x y)
include hrefl hnl hfresh hseq h hx hy hax hay hcy hact hxy

/-- C113, a convolution in front of a batch normalization: an annotated `Conv2D` or `DepthwiseConv2D` with a linear
activation whose output goes only to an annotated batch normalization (neither with a config of its own) is quantized in
its weights only, in every model, Sequential or functional, whatever surrounds the two layers. -/
theorem C113_conv_bn (hcx : x.layer.cls = "Conv2D" ∨ x.layer.cls = "DepthwiseConv2D") : Spec.WeightsOnly c out x := by
  have hc1 : x.layer.cls ∈ ["Conv2D", "DepthwiseConv2D"] := by simpa using hcx
  have hc2 : y.layer.cls ∈ Spec.normClasses := by simpa [Spec.normClasses] using hcy
  refine (Aux.fused_result h hnl hx hy (by rcases hcx with e | e <;> rw [e] <;> decide) hc2 hax hay False ?_).1
  intro hnd hok g' hrun
  exact Aux.conv_run hnd hx hy hfresh hc1 hc2 metaEq hrefl hxy hax hay
    (by rw [Layer.get, if_neg (by decide), hact]; rfl) (Aux.sequential_of hnd hnl hseq) hok fuel g' hrun

/-- C113, with a ReLU after the batch normalization: if the output of the batch normalization goes only to an annotated
`ReLU` or `Activation('relu')` without a config of its own, then nothing is quantized in the batch normalization
either. -/
theorem C113_conv_bn_relu (hcx : x.layer.cls = "Conv2D" ∨ x.layer.cls = "DepthwiseConv2D")
    (z : ALayer U) (hz : z ∈ m.layers) (haz : z.annotation = some none)
    (hcz : z.layer.cls = "ReLU" ∨ (z.layer.cls = "Activation" ∧ z.layer.config.lookup "activation" = some "relu"))
    (hyz : Spec.FeedsJust m y z) : Spec.WeightsOnly c out x ∧ Spec.NotQuantized out y := by
  have hc1 : x.layer.cls ∈ ["Conv2D", "DepthwiseConv2D"] := by simpa using hcx
  have hc2 : y.layer.cls ∈ Spec.normClasses := by simpa [Spec.normClasses] using hcy
  have := Aux.fused_result h hnl hx hy (by rcases hcx with e | e <;> rw [e] <;> decide) hc2 hax hay True (by
    intro hnd hok g' hrun
    refine Aux.relu_run hnd hx hy hfresh hz hc1 hc2 ?_ metaEq hrefl hxy hyz hax hay haz
      (by rw [Layer.get, if_neg (by decide), hact]; rfl) (Aux.sequential_of hnd hnl hseq) hok fuel g' hrun
    rcases hcz with e | ⟨e, ea⟩
    · exact Or.inl e
    · exact Or.inr ⟨e, by rw [Layer.get, if_neg (by decide), ea]; rfl⟩)
  exact ⟨this.1, this.2 trivial⟩

/-- C113, a `Dense` layer in front of a batch normalization.  The registry must not support batch normalization (the shipped
registries do not).  With a ReLU after the batch normalization, the latter is quantized
(`C113_dense_relu_violated`). -/
theorem C113_dense_bn (hcx : x.layer.cls = "Dense")
    (hsup : c.supported y.layer.cls = false) : Spec.WeightsOnly c out x := by
  have hc2 : y.layer.cls ∈ Spec.normClasses := by simpa [Spec.normClasses] using hcy
  refine (Aux.fused_result h hnl hx hy (by rw [hcx]; decide) hc2 hax hay False ?_).1
  intro hnd hok g' hrun
  exact Aux.dense_run hnd hx hy hfresh hcx hc2 hsup metaEq hrefl hxy hax hay
    (by rw [Layer.get, if_neg (by decide), hact]; rfl) (Aux.sequential_of hnd hnl hseq) hok fuel g' hrun

end Main113

namespace Example

/-- `in -> dense -> bn -> relu`, all annotated. -/
def denseBNReLU : AModel ℕ String :=
  { functional := false
    built := true
    layers := [{ layer := ⟨"in", "InputLayer", [], []⟩ },
      { layer := ⟨"dense", "Dense", [("activation", "linear")], []⟩, annotation := some none },
      { layer := ⟨"bn", "BatchNormalization", [], []⟩, annotation := some none },
      { layer := ⟨"relu", "ReLU", [], []⟩, annotation := some none }]
    outputs := []
    weights := fun n => if n = "dense" then [("kernel", 1), ("bias", 2)] else [] }

/-- `in -> dense -> bn`, then a concatenation of the result with the input, all annotated. -/
def denseBNConcat : AModel ℕ String :=
  { functional := true
    built := true
    layers := [{ layer := ⟨"in", "InputLayer", [], []⟩ },
      { layer := ⟨"dense", "Dense", [("activation", "linear")], [[⟨"in", 0, 0, []⟩]]⟩, annotation := some none },
      { layer := ⟨"bn", "BatchNormalization", [], [[⟨"dense", 0, 0, []⟩]]⟩, annotation := some none },
      { layer := ⟨"act", "ReLU", [], [[⟨"in", 0, 0, []⟩]]⟩, annotation := some none },
      { layer := ⟨"cat", "Concatenate", [("axis", "-1")], [[⟨"bn", 0, 0, []⟩, ⟨"act", 0, 0, []⟩]]⟩,
        annotation := some none }]
    outputs := [("cat", 0, 0)]
    weights := fun n => if n = "dense" then [("kernel", 1), ("bias", 2)] else [] }

def classes8 : Classes := ⟨fun _ => true, supported8, {}⟩

def denseA : ALayer String :=
  { layer := ⟨"dense", "Dense", [("activation", "linear")], [[⟨"in", 0, 0, []⟩]]⟩, annotation := some none }

def bnA : ALayer String :=
  { layer := ⟨"bn", "BatchNormalization", [], [[⟨"dense", 0, 0, []⟩]]⟩, annotation := some none }

def convA : ALayer String :=
  { layer := ⟨"conv", "Conv2D", [("activation", "linear")], [[⟨"in", 0, 0, []⟩]]⟩, annotation := some none }

def softmaxA : ALayer String :=
  { layer := ⟨"dense", "Dense", [("activation", "softmax")], [[⟨"pool", 0, 0, []⟩]]⟩
    annotation := some (some "mine") }

def convBnA : ALayer String :=
  { layer := ⟨"bn", "BatchNormalization", [], [[⟨"conv", 0, 0, []⟩]]⟩, annotation := some none }

def convReluA : ALayer String :=
  { layer := ⟨"relu", "ReLU", [], [[⟨"bn", 0, 0, []⟩]]⟩, annotation := some none }

end Example

open Example in
/-- C113 is violated for `Dense`, batch normalization and ReLU: the transform for `Dense` and batch normalization
comes before the one with the ReLU, so the output of the batch normalization is quantized in front of the ReLU
(Sequential model, 8-bit scheme, all layers annotated without configs). -/
theorem C113_dense_relu_violated :
    ∃ (m : AModel ℕ String) (out : OModel ℕ String), m.functional = false ∧
      (∀ a ∈ m.layers, a.layer.cls = "InputLayer" ∨ a.annotation = some none) ∧
      (m.layers.map fun a => (a.layer.cls, a.layer.config)) = [("InputLayer", []), ("Dense", [("activation", "linear")]),
        ("BatchNormalization", []), ("ReLU", [])] ∧
      quantizeApply scheme8 (.model m) = .ok out ∧
      (∃ e ∈ out.layers, e.layer.cls = "BatchNormalization" ∧
        e = .quantized e.layer ⟨.output none, false, false⟩) ∧
      ∃ e ∈ out.layers, e.layer.cls = "ReLU" ∧ e = .quantized e.layer ⟨.default {} "ReLU", false, false⟩ := by
  have h : applyCheck denseBNReLU (fun out => decide (
      (∃ e ∈ out.layers, e.layer.cls = "BatchNormalization" ∧
        e = .quantized e.layer ⟨.output none, false, false⟩) ∧
      ∃ e ∈ out.layers, e.layer.cls = "ReLU" ∧ e = .quantized e.layer ⟨.default {} "ReLU", false, false⟩)) = true := by
    decide +kernel
  obtain ⟨out, h1, h2⟩ := applyCheck_spec h
  exact ⟨denseBNReLU, out, rfl, by decide +kernel, by decide +kernel, h1, of_decide_eq_true h2⟩

open Example in
/-- The hypotheses of C113_conv_bn_relu (and C113_conv_bn) are met by the functional `annotatedModel`. -/
example : (∀ i, metaEq8 i i = true) ∧
    (∀ a ∈ (annotatedModel true).layers, '\n' ∉ a.layer.cls.toList) ∧
    Spec.FreshNames autoName ((annotatedModel true).layers.map fun a => a.layer.name) ∧
    (∃ out, quantizeApply (defaultScheme metaEq8 autoName classes8 id id id 200) (.model (annotatedModel true)) = .ok out) ∧
    convA ∈ (annotatedModel true).layers ∧ convBnA ∈ (annotatedModel true).layers ∧
    convReluA ∈ (annotatedModel true).layers ∧
    Spec.FeedsJust (annotatedModel true) convA convBnA ∧ Spec.FeedsJust (annotatedModel true) convBnA convReluA := by
  refine ⟨by simp [metaEq8], by decide +kernel, Aux.freshNames_autoName _ (by decide +kernel), ?_, by decide +kernel,
    by decide +kernel, by decide +kernel, ?_, ?_⟩
  · have h : applyCheck (annotatedModel true) (fun _ => true) = true := by decide +kernel
    obtain ⟨out, h1, -⟩ := applyCheck_spec h
    exact ⟨out, h1⟩
  · rw [Spec.FeedsJust, if_pos (by decide)]
    exact ⟨⟨_, rfl, rfl⟩, by decide +kernel, by decide +kernel, by decide, by decide⟩
  · rw [Spec.FeedsJust, if_pos (by decide)]
    exact ⟨⟨_, rfl, rfl⟩, by decide +kernel, by decide +kernel, by decide, by decide⟩

open Example in
/-- The hypotheses are met by the Sequential `annotatedModel`, too. -/
example : Spec.SequentialWeights (annotatedModel false) ∧
    (∃ out, quantizeApply (defaultScheme metaEq8 autoName classes8 id id id 200) (.model (annotatedModel false)) = .ok out) ∧
    Spec.FeedsJust (annotatedModel false) convA convBnA ∧ Spec.FeedsJust (annotatedModel false) convBnA convReluA := by
  refine ⟨⟨?_, ?_⟩, ?_, ?_, ?_⟩
  · intro a ha hc
    exfalso
    revert a
    decide +kernel
  · intro n hn
    have h1 : n ≠ "conv" := fun h => hn convA (by decide +kernel) h.symm
    have h2 : n ≠ "dense" := fun h => hn softmaxA (by decide +kernel) h.symm
    simp [annotatedModel, h1, h2]
  · have h : applyCheck (annotatedModel false) (fun _ => true) = true := by decide +kernel
    obtain ⟨out, h1, -⟩ := applyCheck_spec h
    exact ⟨out, h1⟩
  · rw [Spec.FeedsJust, if_neg (by decide)]
    exact ⟨[_], _, rfl⟩
  · rw [Spec.FeedsJust, if_neg (by decide)]
    exact ⟨[_, _], _, rfl⟩

open Example in
/-- The hypotheses of C113_dense_bn are met by a model in which the batch normalization feeds a concatenation. -/
example : (∀ a ∈ denseBNConcat.layers, '\n' ∉ a.layer.cls.toList) ∧
    Spec.FreshNames autoName (denseBNConcat.layers.map fun a => a.layer.name) ∧
    (∃ out, quantizeApply (defaultScheme metaEq8 autoName classes8 id id id 200) (.model denseBNConcat) = .ok out) ∧
    denseA ∈ denseBNConcat.layers ∧ bnA ∈ denseBNConcat.layers ∧ Spec.FeedsJust denseBNConcat denseA bnA ∧
    classes8.supported "BatchNormalization" = false := by
  refine ⟨by decide +kernel, Aux.freshNames_autoName _ (by decide +kernel), ?_, by decide +kernel,
    by decide +kernel, ?_, by decide⟩
  · have h : applyCheck denseBNConcat (fun _ => true) = true := by decide +kernel
    obtain ⟨out, h1, -⟩ := applyCheck_spec h
    exact ⟨out, h1⟩
  · rw [Spec.FeedsJust, if_pos (by decide)]
    exact ⟨⟨_, rfl, rfl⟩, by decide +kernel, by decide +kernel, by decide, by decide⟩

end Verif.Props
