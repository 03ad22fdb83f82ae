import Verif.Props.OnlyFusedRun

/-
C115: outputs are left unquantized only in front of the layer they are fused with.
-/
set_option linter.unusedSectionVars false
set_option linter.unusedSimpArgs false

namespace Verif.Props
open Verif.Quant.Regex Verif.Quant.Transformer Verif.Quant.Transforms8Bit Verif.Quant.Apply

variable {V U M Val : Type}

namespace Spec

/-- The layer is wrapped, but its output is not quantized: its config is the no-op config, its config had the quantizer
of the output taken away, or its activation is `NoOpActivation`, which is never quantized. -/
def Unquantized (e : OLayer U) : Prop :=
  ∃ q, e = .quantized e.layer q ∧ (q.kind = .noOp ∨ q.outputOff = true ∨
    e.layer.config.lookup "activation" = some "{'class_name': 'NoOpActivation', 'config': {}}")

/-- A layer that absorbs and that, if it is a layer of the model, was annotated and is wrapped (so its own output is
quantized, or it is not, and then C115 is about that layer, too). -/
def AnnotatedAbsorber (m : AModel V U) (e : OLayer U) : Prop :=
  Absorbs e.layer ∧
  ∀ a ∈ m.layers, a.layer.name = e.layer.name → a.annotation.isSome = true ∧ ∃ q, e = .quantized e.layer q

/-- In the quantized model, the output of the layer `x` goes into one layer, which absorbs it, and nowhere else. -/
def OnlyInto (m : AModel V U) (out : OModel V U) (x : String) : Prop :=
  if m.functional = true then
    (∃ b, ∀ e ∈ out.layers, x ∈ inboundNames e.layer → e.layer.name = b ∧ AnnotatedAbsorber m e) ∧
    ∀ o ∈ out.outputs, o.1 ≠ x
  else
    ∃ p e b q, out.layers = p ++ e :: b :: q ∧ e.layer.name = x ∧ AnnotatedAbsorber m b

end Spec

namespace Aux

theorem quantizeLayer_inbound {reg : Layer → Option (QConfig U)} {req : List String}
    {g : Graph V (Meta U)} {l : Layer} {e : OLayer U} (h : quantizeLayer reg req g l = .ok e) :
    e.layer.inbound = l.inbound := by
  by_cases hq : l.cls = "QuantizeLayer"
  · rw [quantizeLayer, if_neg (by rw [hq]; decide), if_pos hq] at h
    split at h
    · simp only [Except.ok.injEq] at h; subst h; rfl
    · split at h
      · simp only [Except.ok.injEq] at h; subst h; rfl
      · split at h
        · simp at h
        · simp only [Except.ok.injEq] at h; subst h
          simp only [OLayer.layer]; split <;> rfl
  · rw [(quantizeLayer_layer h).2.2 hq]

theorem apply_outputs {scheme : Scheme V U} {am : AModel V U} {out : OModel V U}
    (h : quantizeApply scheme (.model am) = .ok out) {g : Graph V (Meta U)} (hg : scheme.transform (unwrap am) = .ok g) :
    out.outputs = g.outputs := by
  rw [quantizeApply] at h
  split at h
  · simp at h
  split at h
  · simp at h
  split at h
  · simp at h
  rw [hg] at h
  dsimp only at h
  split at h
  · simp at h
  · simp only [Except.ok.injEq] at h
    subst h
    rfl

theorem absorber_wrapped {c : Classes} {am : AModel V U} {g : Graph V (Meta U)}
    (hnd : (am.layers.map fun a => a.layer.name).Nodup) (hok : ApplyInv c am g) {reg : Layer → Option (QConfig U)}
    {l : Layer} {e : OLayer U} (hl : l ∈ g.layers) (hP : AbsorbP l.name l.cls)
    (hann : ∀ a ∈ am.layers, a.layer.name = l.name → a.annotation.isSome = true)
    {a : ALayer U} (ha : a ∈ am.layers) (han : a.layer.name = l.name)
    (h : quantizeLayer reg (requiresOutput am) g l = .ok e) : ∃ q, e = .quantized e.layer q := by
  have hnot := absorbP_not hP
  simp only [List.mem_cons, List.not_mem_nil, or_false, not_or] at hnot
  have hmeta : (g.metadata l.name).isNone = false := by
    rcases hok.layers l hl with ⟨a, ha, e1, -, -, -, e2⟩ | ⟨-, -, ⟨e2, -⟩ | ⟨-, i, e2, -⟩⟩
    · obtain ⟨i, hi, -⟩ := e2 (hann a ha e1)
      rw [hi]; rfl
    · exact absurd e2 hnot.2.2.2.1
    · rw [e2]; rfl
  have hreq : l.name ∉ requiresOutput am := by
    rw [mem_requires hnd]
    intro hh
    rw [← han, isAnnotated_eq hnd ha, hann a ha han] at hh
    simp at hh
  rw [quantizeLayer, if_neg hnot.1, if_neg hnot.2.2.2.1, if_neg, if_neg hreq] at h
  · split at h
    · simp only [Except.ok.injEq] at h; subst h; exact ⟨_, rfl⟩
    · split at h
      · simp only [Except.ok.injEq] at h; subst h; exact ⟨_, rfl⟩
      · simp at h
  · rw [hmeta]
    rintro (⟨h, -⟩ | h)
    · simp at h
    · revert h
      rcases hP with h | h | h | h | h | ⟨h, -⟩
      · intro h'
        simp only [List.mem_cons, List.not_mem_nil, or_false] at h'
        rcases h' with h' | h' <;> · rw [h'] at h; revert h; decide
      all_goals rw [h]; decide

end Aux

section Main115
variable [DecidableEq U] [DecidableEq V] (metaEq : Meta U → Meta U → Bool)
  (auto : String → ℕ → String) (c : Classes) (expand : V → V) (str1 str2 : String → String)
  (fuel : ℕ) (m : AModel V U) (out : OModel V U)
  (hnl : ∀ a ∈ m.layers, '\n' ∉ a.layer.cls.toList)
  (hfresh : Spec.FreshNames auto (m.layers.map fun a => a.layer.name))
  (hseq : m.functional = false → Spec.SequentialWeights m)
  (h : quantizeApply (defaultScheme metaEq auto c expand str1 str2 fuel) (.model m) = .ok out)
include hnl hfresh hseq h

/-- C115: in the quantized model, every layer of the original model that is wrapped but whose output is not quantized
already had a `NoOpActivation`, or its output goes into exactly one layer, an annotated batch normalization, ReLU,
`Activation('relu')` or concatenation (or the squeeze put in after a separable convolution), and nowhere else; it is
then not an output of the model either. -/
theorem C115_only_fused (a : ALayer U) (ha : a ∈ m.layers) (e : OLayer U) (he : e ∈ out.layers)
    (hname : e.layer.name = a.layer.name) (hun : Spec.Unquantized e) :
    a.layer.config.lookup "activation" = some "{'class_name': 'NoOpActivation', 'config': {}}" ∨
    Spec.OnlyInto m out a.layer.name := by
  obtain ⟨hann, hnd, g, hg, -, hall⟩ := Aux.apply_split h
  have houts := Aux.apply_outputs h hg
  simp only [defaultScheme] at hg
  obtain ⟨hok, k, hinv⟩ := Aux.only_run hnd hfresh metaEq (Aux.sequential_of hnd hnl hseq)
    (Aux.apply_start (c := c) hnd hann hnl) fuel g (by
    cases hr : run metaEq (transforms auto c expand str1 str2) fuel
        (start (transforms auto c expand str1 str2) (unwrap m)) with
    | none => rw [hr] at hg; simp at hg
    | some e => rw [hr] at hg; simp only [Option.getD_some] at hg; rw [hg])
  have back : ∀ e ∈ out.layers, ∃ l ∈ g.layers,
      quantizeLayer (defaultScheme metaEq auto c expand str1 str2 fuel).registry (requiresOutput m) g l = .ok e := by
    intro e he
    obtain ⟨i, hi, rfl⟩ := List.mem_iff_getElem.1 he
    have hi' : i < g.layers.length := by rw [hall.length_eq]; exact hi
    exact ⟨g.layers[i], List.getElem_mem hi', List.Forall₂.get hall hi' hi⟩
  have absorber : ∀ {b : String} {e : OLayer U} {l : Layer}, l ∈ g.layers → Aux.Absorber auto m b → l.name = b →
      Aux.AbsorbP l.name l.cls → e.layer.name = l.name → e.layer.cls = l.cls → e.layer = l ∨ l.cls = "QuantizeLayer" →
      quantizeLayer (defaultScheme metaEq auto c expand str1 str2 fuel).registry (requiresOutput m) g l = .ok e →
      Spec.AnnotatedAbsorber m e := by
    intro b e l hl hb hlb hP e1 e2 e3 hqe
    have hel : e.layer = l := by
      rcases e3 with h | h
      · exact h
      · have := Aux.absorbP_not hP
        rw [h] at this
        simp at this
    refine ⟨?_, ?_⟩
    · rw [hel]
      refine Aux.P_absorbs hP fun hc => ?_
      obtain ⟨z, hz, z1, z2, z3⟩ := hinv.act l hl hc
      have := (hb.1 z hz (z1.trans hlb)).2.2 (z2.trans hc)
      rcases this with h | h | h | h | h | h
      · rw [z2, hc] at h; exact absurd h (by decide)
      · rw [z2, hc] at h; exact absurd h (by decide)
      · rw [z2, hc] at h; exact absurd h (by decide)
      · rw [z2, hc] at h; exact absurd h (by decide)
      · rw [z2, z3] at h
        exact Or.inr (Or.inr (Or.inr (Or.inr (Or.inl h))))
      · rw [z2, hc] at h; exact absurd h.1 (by decide)
    · intro z hz hze
      exact ⟨(hb.1 z hz (hze.trans (e1.trans hlb))).1, Aux.absorber_wrapped hnd hok hl hP
        (fun z hz hze => (hb.1 z hz (hze.trans hlb)).1) hz (hze.trans e1) hqe⟩
  obtain ⟨l, hl, hq⟩ := back e he
  obtain ⟨l1, l2, l3⟩ := Aux.quantizeLayer_layer hq
  have hln : l.name = a.layer.name := l1.symm.trans hname
  obtain ⟨q, hqe, hoff⟩ := hun
  have hcls := (Aux.apply_layer hnd hok hl ha hln).1
  -- the layer is not quantized after the loops
  have hL : a.layer.cls ≠ "InputLayer" ∧ Aux.OffL g l := by
    rw [hqe] at hq
    rw [quantizeLayer] at hq
    split at hq
    · simp at hq
    rename_i hin
    split at hq
    · split at hq
      · simp at hq
      · split at hq
        · simp at hq
        · split at hq <;> simp at hq
    rename_i hql
    have hel := l3 hql
    refine ⟨by rw [hcls]; exact hin, ?_⟩
    split at hq
    · simp at hq
    split at hq
    · split at hq <;> simp at hq
    · split at hq
      · rename_i q' hget
        simp only [Except.ok.injEq, OLayer.quantized.injEq] at hq
        obtain ⟨-, rfl⟩ := hq
        rcases hoff with h | h | h
        · exact Or.inr ⟨_, hget, Or.inl h⟩
        · exact Or.inr ⟨_, hget, Or.inr h⟩
        · left
          rw [hel] at h
          rw [Layer.get, if_neg (by decide), h]; rfl
      · split at hq
        · rename_i q' hreg
          simp only [Except.ok.injEq, OLayer.quantized.injEq] at hq
          obtain ⟨-, rfl⟩ := hq
          simp only [defaultScheme] at hreg
          split at hreg
          · simp only [Option.some.injEq] at hreg
            subst hreg
            rcases hoff with h | h | h
            · simp at h
            · simp at h
            · left
              rw [hel] at h
              rw [Layer.get, if_neg (by decide), h]; rfl
          · simp at hreg
        · simp at hq
  rcases hinv.off l hl a ha hln.symm hL.1 hL.2 with h1 | ⟨b, hb, hab⟩
  · exact Or.inl (Aux.get_activation h1)
  right
  rw [Spec.OnlyInto]
  have hfun : g.functional = m.functional := hinv.functional
  rcases hb with hb | ⟨hb, y, hy, hyb, hyc⟩
  · rw [if_pos (hfun.symm.trans hb.functional)]
    refine ⟨⟨b, ?_⟩, ?_⟩
    · intro e' he' hx
      obtain ⟨l', hl', hq'⟩ := back e' he'
      obtain ⟨m1, m2, m3⟩ := Aux.quantizeLayer_layer hq'
      have hx' : l.name ∈ inboundNames l' := by
        rw [hln, inboundNames, ← Aux.quantizeLayer_inbound hq']
        exact hx
      obtain ⟨o1, o2⟩ := hb.only l' hl' hx'
      refine ⟨m1.trans o1, absorber hl' hab o1 o2 m1 m2 ?_ hq'⟩
      by_cases hc : l'.cls = "QuantizeLayer"
      · exact Or.inr hc
      · exact Or.inl (m3 hc)
    · rw [houts, ← hln]
      exact hb.outs
  · rw [if_neg (by rw [← hfun, hb.functional]; decide)]
    obtain ⟨p, q, hpq⟩ := hb.adjacent
    have hnames : out.layers.map (fun e => e.layer.name) = g.layers.map (·.name) := by
      have : ∀ {ls : List Layer} {es : List (OLayer U)}, List.Forall₂ (fun l e =>
          quantizeLayer (defaultScheme metaEq auto c expand str1 str2 fuel).registry (requiresOutput m) g l = .ok e) ls es →
          es.map (fun e => e.layer.name) = ls.map (·.name) := by
        intro ls es hh
        induction hh with
        | nil => rfl
        | cons h1 _ ih => rw [List.map_cons, List.map_cons, ih, (Aux.quantizeLayer_layer h1).1]
      exact this hall
    rw [hpq] at hnames
    obtain ⟨P, R, hout, -, hR⟩ := List.map_eq_append_iff.1 hnames
    obtain ⟨ex, R', rfl, hex, hR'⟩ := List.map_eq_cons_iff.1 hR
    obtain ⟨ey, Q, rfl, hey, -⟩ := List.map_eq_cons_iff.1 hR'
    refine ⟨P, ex, ey, Q, hout, hex.trans hln, ?_⟩
    obtain ⟨l', hl', hq'⟩ := back ey (by rw [hout]; simp)
    obtain ⟨m1, m2, m3⟩ := Aux.quantizeLayer_layer hq'
    have hl'b : l'.name = b := m1.symm.trans hey
    have hl'y : l' = y := Aux.nodup_map_inj hb.unique hl' hy (hl'b.trans hyb.symm)
    refine absorber hl' hab hl'b (by rw [hl'y, hyb]; exact hyc) m1 m2 ?_ hq'
    by_cases hc : l'.cls = "QuantizeLayer"
    · exact Or.inr hc
    · exact Or.inl (m3 hc)

end Main115

/-- C115, a concatenation that gives up: if one of the feeding layers has no config, is neither a `QuantizeLayer` nor a
concatenation, and the registry does not support it (or it is not a Keras layer), then the concatenation gets no config,
and no feeding layer loses the quantizer of its output. -/
theorem C115_concat_gives_up (c : Classes) (l : Layer) (w : List (String × V)) (i : Meta U) (ins : List (Node V (Meta U)))
    (n : Node V (Meta U)) (hn : n ∈ ins) (hget : n.info.get = none) (hq : n.layer.cls ≠ "QuantizeLayer")
    (hc : c.keras n.layer.cls = false ∨ (n.layer.cls ≠ "Concatenate" ∧ c.supported n.layer.cls = false)) :
    ∃ ins', replaceConcat c (.mk l w i ins) = .mk l w i ins' ∧
      List.Forall₂ (fun x x' => x'.layer = x.layer ∧ ∀ q', x'.info.get = some q' → q'.outputOff = true →
        ∃ q, x.info.get = some q ∧ q.outputOff = true) ins ins' := by
  have hstop : feed c n = none := by
    unfold feed
    rw [hasConfig, hget, if_neg (by simp), if_neg hq]
    rcases hc with h | ⟨h1, h2⟩
    · rw [h]; rfl
    · rw [if_neg h1, h2]
      split <;> rfl
  have hfeed : ∀ (x : Node V (Meta U)) e, feed c x = some e → e.1.layer = x.layer ∧ ∀ q', e.1.info.get = some q' →
      q'.outputOff = true → ∃ q, x.info.get = some q ∧ q.outputOff = true := by
    intro x e h
    obtain ⟨lx, wx, ix, xs⟩ := x
    unfold feed at h
    split at h
    · simp only [Option.some.injEq] at h; rw [← h]; exact ⟨rfl, fun q' h1 h2 => ⟨q', h1, h2⟩⟩
    split at h
    · cases hb : c.params.bits with
      | some b => rw [hb] at h; cases h
      | none =>
        rw [hb] at h
        simp only [Option.some.injEq] at h; rw [← h]
        exact ⟨rfl, fun q' h1 h2 => ⟨q', h1, h2⟩⟩
    have hset : ∀ k : Kind U, (setConfig k (.mk lx wx ix xs) : Node V (Meta U)).layer = lx ∧
        ∀ q', (setConfig k (.mk lx wx ix xs) : Node V (Meta U)).info.get = some q' → q'.outputOff = true →
        ∃ q, ix.get = some q ∧ q.outputOff = true := by
      intro k
      refine ⟨rfl, fun q' h1 h2 => ?_⟩
      simp only [setConfig, Node.info, Meta.set, Meta.get, Option.getD_some, Option.some.injEq] at h1
      rw [← h1] at h2
      simp at h2
    split at h
    · simp at h
    split at h
    · simp only [Option.some.injEq] at h; rw [← h]; exact hset _
    split at h
    · simp at h
    · simp only [Option.some.injEq] at h; rw [← h]; exact hset _
  have hfeeds : ∀ ns : List (Node V (Meta U)), n ∈ ns → (feeds c ns).2 = false ∧
      List.Forall₂ (fun x x' => x'.layer = x.layer ∧ ∀ q', x'.info.get = some q' → q'.outputOff = true →
        ∃ q, x.info.get = some q ∧ q.outputOff = true) ns ((feeds c ns).1.map (·.1)) := by
    intro ns
    induction ns with
    | nil => simp
    | cons x ns ih =>
      intro hx
      rw [feeds]
      cases hf : feed c x with
      | none =>
        refine ⟨rfl, ?_⟩
        dsimp only
        rw [List.map_map]
        have : ∀ ys : List (Node V (Meta U)), List.Forall₂ (fun x x' => x'.layer = x.layer ∧ ∀ q', x'.info.get = some q' →
            q'.outputOff = true → ∃ q, x.info.get = some q ∧ q.outputOff = true) ys
            (ys.map ((fun e : Node V (Meta U) × Bool => e.1) ∘ fun x => (x, false))) := by
          intro ys
          induction ys with
          | nil => exact .nil
          | cons y ys ih => exact .cons ⟨rfl, fun q' h1 h2 => ⟨q', h1, h2⟩⟩ ih
        exact this _
      | some e =>
        dsimp only
        have hne : x ≠ n := by
          rintro rfl
          rw [hstop] at hf
          cases hf
        rcases List.mem_cons.1 hx with h | h
        · exact absurd h.symm hne
        · exact ⟨(ih h).1, by rw [List.map_cons]; exact .cons (hfeed x e hf) (ih h).2⟩
  obtain ⟨h1, h2⟩ := hfeeds ins hn
  refine ⟨(feeds c ins).1.map (·.1), ?_, h2⟩
  rw [replaceConcat]
  generalize he : (.mk l w i ins : Node V (Meta U)).inputs = ins'
  have hee : ins' = ins := he.symm
  subst hee
  rw [if_neg (show ¬ (feeds c ins').2 = true by rw [h1]; decide)]
  rfl

open Example in
/-- The hypotheses of C115_only_fused are met by both `annotatedModel`s (see also the examples of C113), whose
convolution and batch normalization have unquantized outputs. -/
example : (∀ a ∈ (annotatedModel true).layers, '\n' ∉ a.layer.cls.toList) ∧
    Spec.FreshNames autoName ((annotatedModel true).layers.map fun a => a.layer.name) ∧
    ∀ functional, ∃ out, quantizeApply (defaultScheme metaEq8 autoName classes8 id id id 200)
        (.model (annotatedModel functional)) = .ok out ∧
      ∀ x ∈ [convA, convBnA], x ∈ (annotatedModel functional).layers ∧
        ∃ e ∈ out.layers, e.layer.name = x.layer.name ∧ Spec.Unquantized e := by
  refine ⟨by decide +kernel, Aux.freshNames_autoName _ (by decide +kernel), ?_⟩
  intro functional
  have h : applyCheck (annotatedModel functional) (fun out => decide (
      (∃ e ∈ out.layers, e.layer.name = "conv" ∧ e = .quantized e.layer ⟨.default {} "Conv2D", false, false⟩ ∧
        e.layer.config.lookup "activation" = some "{'class_name': 'NoOpActivation', 'config': {}}") ∧
      ∃ e ∈ out.layers, e.layer.name = "bn" ∧ e = .quantized e.layer ⟨.noOp, false, false⟩)) = true := by
    cases functional <;> decide +kernel
  obtain ⟨out, h1, h2⟩ := applyCheck_spec h
  obtain ⟨⟨e, he, e1, e2, e3⟩, e', he', e1', e2'⟩ := of_decide_eq_true h2
  refine ⟨out, h1, ?_⟩
  intro x hx
  simp only [List.mem_cons, List.not_mem_nil, or_false] at hx
  rcases hx with rfl | rfl
  · exact ⟨by cases functional <;> decide +kernel, e, he, e1, _, e2, Or.inr (Or.inr e3)⟩
  · exact ⟨by cases functional <;> decide +kernel, e', he', e1', _, e2', Or.inl rfl⟩

namespace Example

/-- A `Dense` layer and a batch normalization of another input, both in front of a concatenation. -/
def givesUp : List (Node ℕ (Meta String)) :=
  [.mk ⟨"dense", "Dense", [], []⟩ [] default [], .mk ⟨"bn", "BatchNormalization", [], []⟩ [] default []]

end Example

open Example in
/-- The hypotheses of C115_concat_gives_up are met. -/
example : ∃ n ∈ givesUp, n.info.get = none ∧ n.layer.cls ≠ "QuantizeLayer" ∧
    (classes8.keras n.layer.cls = false ∨ (n.layer.cls ≠ "Concatenate" ∧ classes8.supported n.layer.cls = false)) :=
  ⟨givesUp[1], by simp [givesUp], rfl, by decide, Or.inr ⟨by decide, by decide⟩⟩

end Verif.Props
