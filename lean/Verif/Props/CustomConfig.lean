import Verif.Props.FloatSequential
import Std.Data.String.ToNat

/-!
# C57: custom quantize configs and the layout transforms; complete runs of the 8-bit transforms
-/

set_option linter.unusedSectionVars false

namespace Verif.Props
open Verif.Quant.Transformer Verif.Quant.Transforms8Bit

variable {V U M Val : Type}

namespace Spec

/-- Every layer of the match with a quantize config is in the replacement, with the same name,
configuration and weights, and its quantize config is related to the old one by `R`. -/
def ConfigsKept (R : QConfig U → QConfig U → Prop) (m r : Node V (Meta U)) : Prop :=
  ∀ n, InTree n m → ∀ q, n.info.get = some q →
    ∃ n', InTree n' r ∧ n'.layer = n.layer ∧ n'.weights = n.weights ∧
      ∃ q', n'.info.get = some q' ∧ R q q'

/-- The quantize config is the same except, possibly, that its output quantizer is switched off. -/
def SameButOutput (q q' : QConfig U) : Prop := q'.kind = q.kind

end Spec

namespace Aux

section Kept
variable {R : QConfig U → QConfig U → Prop} (hrefl : ∀ q, R q q)
include hrefl

theorem kept_refl (m : Node V (Meta U)) : Spec.ConfigsKept R m m :=
  fun n hn q hq => ⟨n, hn, rfl, rfl, q, hq, hrefl q⟩

theorem kept_trans (htrans : ∀ a b c, R a b → R b c → R a c) {m r s : Node V (Meta U)}
    (h1 : Spec.ConfigsKept R m r) (h2 : Spec.ConfigsKept R r s) : Spec.ConfigsKept R m s := by
  intro n hn q hq
  obtain ⟨n', hn', h3, h4, q', hq', h5⟩ := h1 n hn q hq
  obtain ⟨n'', hn'', h6, h7, q'', hq'', h8⟩ := h2 n' hn' q' hq'
  exact ⟨n'', hn'', h6.trans h3, h7.trans h4, q'', hq'', htrans _ _ _ h5 h8⟩

theorem kept_root {l l' : Layer} {w w'} {i i' : Meta U} {ins : List (Node V (Meta U))}
    (h : i.get = none) : Spec.ConfigsKept R (.mk l w i ins) (.mk l' w' i' ins) := by
  intro n hn q hq
  cases hn with
  | root => simp only [Node.info] at hq; rw [h] at hq; simp at hq
  | child hc hn => exact ⟨n, .child hc hn, rfl, rfl, q, hq, hrefl q⟩

theorem kept_setConfig {n : Node V (Meta U)} (k : Kind U) (h : hasConfig n = false) :
    Spec.ConfigsKept R n (setConfig k n) := by
  cases n
  exact kept_root hrefl (by simpa [hasConfig, Node.info] using h)

theorem kept_setNoOp {n : Node V (Meta U)} (h : hasConfig n = false) :
    Spec.ConfigsKept R n (setNoOp n) := by
  cases n
  exact kept_root hrefl (by simpa [hasConfig, Node.info] using h)

theorem kept_inputs {l w} {i : Meta U} {ins ins' : List (Node V (Meta U))}
    (h : ∀ c ∈ ins, ∃ c' ∈ ins', Spec.ConfigsKept R c c') :
    Spec.ConfigsKept R (.mk l w i ins) (.mk l w i ins') := by
  intro n hn q hq
  cases hn with
  | root => exact ⟨_, .root _, rfl, rfl, q, hq, hrefl q⟩
  | child hc hn =>
    obtain ⟨c', hc', hk⟩ := h _ hc
    obtain ⟨n', hn', h1⟩ := hk n hn q hq
    exact ⟨n', .child hc' hn', h1⟩

theorem kept_onInput (f : Node V (Meta U) → Node V (Meta U)) (n : Node V (Meta U))
    (h : ∀ i is, n.inputs = i :: is → Spec.ConfigsKept R i (f i)) :
    Spec.ConfigsKept R n (onInput f n) := by
  rw [onInput]
  split
  · exact kept_refl hrefl _
  · rename_i i is hi
    cases n with
    | mk l w inf ins =>
      simp only [Node.inputs] at hi
      subst hi
      rw [withInputs]
      refine kept_inputs hrefl ?_
      intro c hc
      rcases List.mem_cons.1 hc with rfl | hc
      · exact ⟨f c, by simp, h c is rfl⟩
      · exact ⟨c, by simp [hc], kept_refl hrefl _⟩

theorem hasConfig_onInput (f : Node V (Meta U) → Node V (Meta U)) (n : Node V (Meta U)) :
    hasConfig (onInput f n) = hasConfig n := by
  rw [onInput]
  split
  · rfl
  · cases n; rfl

theorem chain_cons {look : Bool} {more : List Bool} {n : Node V (Meta U)}
    (h : ¬ chainHasConfig (look :: more) n = true) :
    (look = true → hasConfig n = false) ∧
      ∀ i is, n.inputs = i :: is → ¬ chainHasConfig more i = true := by
  rw [chainHasConfig] at h
  simp only [Bool.or_eq_true, Bool.and_eq_true, not_or, not_and] at h
  refine ⟨fun hl => by simpa using h.1 hl, ?_⟩
  intro i is hi
  have := h.2
  rw [hi] at this
  exact this

theorem kept_chain_leaf {n : Node V (Meta U)} (h : ¬ chainHasConfig [true] n = true) :
    Spec.ConfigsKept R n (setNoOp n) :=
  kept_setNoOp hrefl ((chain_cons hrefl h).1 rfl)

/-- The configs are kept by each replacement of the transforms other than those for a layer in front
of a ReLU and for `Concatenate`. -/
theorem kept_pure (b : Bits) (htrans : ∀ a b c, R a b → R b c → R a c) (n : Node V (Meta U)) :
    Spec.ConfigsKept R n (replaceBN b n) ∧ Spec.ConfigsKept R n (replaceReshapeBN b n) ∧
    Spec.ConfigsKept R n (replaceBNReLU n) ∧ Spec.ConfigsKept R n (replaceReshapeBNReLU n) := by
  have inner : ∀ n : Node V (Meta U), (∀ i is, n.inputs = i :: is → ¬ chainHasConfig [true] i = true) →
      Spec.ConfigsKept R n (onInput setNoOp n) := fun n h =>
    kept_onInput hrefl _ _ fun i is hi => kept_chain_leaf hrefl (h i is hi)
  have inner2 : ∀ n : Node V (Meta U),
      (∀ i is, n.inputs = i :: is → ¬ chainHasConfig [false, true] i = true) →
      Spec.ConfigsKept R n (onInput (onInput setNoOp) n) := fun n h =>
    kept_onInput hrefl _ _ fun i is hi => inner i (chain_cons hrefl (h i is hi)).2
  have set : ∀ (k : Kind U) (f : Node V (Meta U) → Node V (Meta U)) (n : Node V (Meta U)),
      hasConfig n = false → Spec.ConfigsKept R n (onInput f n) →
      Spec.ConfigsKept R n (setConfig k (onInput f n)) := by
    intro k f n hn hk
    refine kept_trans hrefl htrans hk (kept_setConfig hrefl k ?_)
    rw [hasConfig_onInput hrefl]; exact hn
  refine ⟨?_, ?_, ?_, ?_⟩
  · rw [replaceBN]
    split
    · exact kept_refl hrefl _
    · rename_i h
      have h := chain_cons hrefl h
      exact set _ _ _ (h.1 rfl) (inner n h.2)
  · rw [replaceReshapeBN]
    split
    · exact kept_refl hrefl _
    · rename_i h
      have h := chain_cons hrefl h
      exact set _ _ _ (h.1 rfl) (inner2 n h.2)
  · rw [replaceBNReLU]
    split
    · exact kept_refl hrefl _
    · rename_i h
      have h := chain_cons hrefl h
      refine kept_onInput hrefl _ _ ?_
      intro i is hi
      have h' := chain_cons hrefl (h.2 i is hi)
      exact set _ _ _ (h'.1 rfl) (inner i h'.2)
  · rw [replaceReshapeBNReLU]
    split
    · exact kept_refl hrefl _
    · rename_i h
      have h := chain_cons hrefl h
      refine kept_onInput hrefl _ _ ?_
      intro i is hi
      have h' := chain_cons hrefl (h.2 i is hi)
      exact set _ _ _ (h'.1 rfl) (inner2 i h'.2)

end Kept

theorem disableOutput_kept (b : Bits) (n : Node V (Meta U)) :
    Spec.ConfigsKept Spec.SameButOutput n (disableOutput b n) := by
  cases n with
  | mk l w i ins =>
    intro x hx q hq
    cases hx with
    | root =>
      refine ⟨_, .root _, rfl, rfl, { q with outputOff := true, savedOff := q.savedOff || (b.isNone && q.kind.hasQuantizeOutput) },
        ?_, rfl⟩
      simp only [Node.info, Meta.get] at hq ⊢
      cases hi : i.config with
      | none => rw [hi] at hq; simp at hq
      | some c =>
        rw [hi] at hq
        simp only [Option.getD_some] at hq
        subst hq
        simp [disableOutput, hi]
    | child hc hx => exact ⟨x, .child hc hx, rfl, rfl, q, hq, rfl⟩

theorem feed_kept (c : Classes) {n : Node V (Meta U)} {e} (h : feed c n = some e) :
    Spec.ConfigsKept Spec.SameButOutput n e.1 := by
  have hr : ∀ q : QConfig U, Spec.SameButOutput q q := fun _ => rfl
  unfold feed at h
  split at h
  · simp only [Option.some.injEq] at h; rw [← h]; exact kept_refl hr _
  rename_i hc
  have hc : hasConfig n = false := by simpa using hc
  split at h
  · cases n
    cases hb : c.params.bits with
    | some b => rw [hb] at h; cases h
    | none =>
      rw [hb] at h
      simp only [Option.some.injEq] at h; rw [← h]
      exact kept_root hr (by simpa [hasConfig, Node.info] using hc)
  split at h
  · simp at h
  split at h
  · simp only [Option.some.injEq] at h; rw [← h]; exact kept_setConfig hr _ hc
  split at h
  · simp at h
  · simp only [Option.some.injEq] at h; rw [← h]; exact kept_setConfig hr _ hc

theorem feeds_kept (c : Classes) (ns : List (Node V (Meta U))) :
    ∀ n ∈ ns, ∃ e ∈ (feeds c ns).1, Spec.ConfigsKept Spec.SameButOutput n e.1 := by
  induction ns with
  | nil => simp
  | cons x xs ih =>
    intro n hn
    rw [feeds]
    split
    · exact ⟨(n, false), List.mem_map.2 ⟨n, hn, rfl⟩, kept_refl (R := Spec.SameButOutput) (fun _ => rfl) _⟩
    · rename_i e he
      rcases List.mem_cons.1 hn with rfl | hn
      · exact ⟨e, by simp, feed_kept c he⟩
      · obtain ⟨e', he', h⟩ := ih n hn
        exact ⟨e', by simp [he'], h⟩

theorem concat_kept (c : Classes) (n : Node V (Meta U)) :
    Spec.ConfigsKept Spec.SameButOutput n (replaceConcat c n) := by
  have hr : ∀ q : QConfig U, Spec.SameButOutput q q := fun _ => rfl
  have ht : ∀ a b d : QConfig U, Spec.SameButOutput a b → Spec.SameButOutput b d →
      Spec.SameButOutput a d := fun _ _ _ h1 h2 => Eq.trans h2 h1
  cases n with
  | mk l w i ins =>
    rw [replaceConcat]
    split
    · have h1 : Spec.ConfigsKept Spec.SameButOutput (.mk l w i ins : Node V (Meta U))
          (withInputs (.mk l w i ins) ((feeds c ins).1.map fun e =>
            if e.2 then disableOutput c.params.bits e.1 else e.1)) := by
        rw [withInputs]
        refine kept_inputs hr ?_
        intro n hn
        obtain ⟨e, he, hk⟩ := feeds_kept c ins n hn
        refine ⟨_, List.mem_map_of_mem he, ?_⟩
        split
        · exact kept_trans hr ht hk (disableOutput_kept _ _)
        · exact hk
      dsimp only
      split
      · exact h1
      · rename_i hc
        exact kept_trans hr ht h1 (kept_setConfig hr _ (Bool.eq_false_iff.2 hc))
    · rw [withInputs]
      refine kept_inputs hr ?_
      intro n hn
      obtain ⟨e, he, hk⟩ := feeds_kept c ins n hn
      exact ⟨e.1, List.mem_map_of_mem he, hk⟩

end Aux

/-- The names of the transforms that do override custom configs. -/
def Spec.overriding : List String := ["LayerReLUQuantize", "LayerReluActivationQuantize"]

/-- The names of the transforms for `Concatenate`. -/
def Spec.concatTransforms : List String :=
  ["ConcatTransform6Inputs", "ConcatTransform5Inputs", "ConcatTransform4Inputs",
   "ConcatTransform3Inputs", "ConcatTransform"]

/-- C57, for all 8-bit transforms except the two that look for a layer in front of a ReLU: every
layer of the match that has a quantize config is in the replacement with the same configuration,
weights and quantize config; only the `Concatenate` transforms may switch off the output quantizer
of such a config. -/
theorem C57_custom_config_partial (auto : String → ℕ → String) (c : Classes) (expand : V → V)
    (str1 str2 : String → String) (t : Transform V (Meta U))
    (ht : t ∈ transforms auto c expand str1 str2) (hname : t.name ∉ Spec.overriding)
    (k : ℕ) (m r : Node V (Meta U)) (k' : ℕ) (g : Graph V (Meta U)) (matched : List String)
    (hm : findPattern g t.pattern matched = some m)
    (hr : t.replacement k m = .ok (r, k')) :
    Spec.ConfigsKept Spec.SameButOutput m r ∧
    (t.name ∉ Spec.concatTransforms → Spec.ConfigsKept Eq m r) := by
  have hrefl : ∀ q : QConfig U, Spec.SameButOutput q q := fun _ => rfl
  have weaken : Spec.ConfigsKept Eq m r → Spec.ConfigsKept Spec.SameButOutput m r := by
    intro h n hn q hq
    obtain ⟨n', hn', h1, h2, q', hq', h3⟩ := h n hn q hq
    exact ⟨n', hn', h1, h2, q', hq', by rw [← h3]; rfl⟩
  have both : Spec.ConfigsKept Eq m r → Spec.ConfigsKept Spec.SameButOutput m r ∧
      (t.name ∉ Spec.concatTransforms → Spec.ConfigsKept Eq m r) := fun h => ⟨weaken h, fun _ => h⟩
  have hp := Aux.kept_pure (R := Eq) (b := c.params.bits) (fun q : QConfig U => rfl)
    (fun _ _ _ h1 h2 => h1.trans h2) m
  have hmt := (Aux.findPattern_some hm).2.2
  have leaf : ∀ cls, t.pattern = .mk cls [] [] → hasConfig m = false → ∀ r, Spec.ConfigsKept Eq m r := by
    intro cls hpat hc r n hn q hq
    rw [hpat] at hmt
    rw [Aux.leaf_match hmt] at hn
    cases hn with
    | root =>
      simp only [hasConfig] at hc
      have : m.info.get = some q := hq
      rw [this] at hc
      simp at hc
    | child hc _ => simp at hc
  have ok : ∀ (f : Node V (Meta U) → Node V (Meta U)) {k k' : ℕ} {r : Node V (Meta U)},
      (Except.ok (f m, k) : Except String _) = .ok (r, k') → f m = r := by
    intro f k k' r h
    simp only [Except.ok.injEq, Prod.mk.injEq] at h
    exact h.1
  rw [Aux.mem_transforms] at ht
  simp only [Aux.listed, pureTransform, List.mem_cons, List.not_mem_nil, or_false] at ht
  rcases ht with rfl | rfl | rfl | rfl | rfl | rfl | rfl | rfl | rfl | rfl | rfl | rfl | rfl | rfl |
    rfl | rfl | rfl | rfl | rfl
  · refine both ?_
    simp only [replaceInput, Except.ok.injEq, Prod.mk.injEq] at hr
    rw [← hr.1]
    intro n hn q hq
    exact ⟨n, .child (by simp) hn, rfl, rfl, q, hq, rfl⟩
  · refine both ?_
    cases hc : hasConfig m with
    | true =>
      simp only [replaceSepConv1D, hc, if_true, Except.ok.injEq, Prod.mk.injEq] at hr
      rw [← hr.1]; exact Aux.kept_refl (fun _ => rfl) _
    | false => exact leaf _ rfl hc r
  · refine both ?_
    cases hc : hasConfig m with
    | true =>
      simp only [replaceSepConv, hc, if_true, Except.ok.injEq, Prod.mk.injEq] at hr
      rw [← hr.1]; exact Aux.kept_refl (fun _ => rfl) _
    | false => exact leaf _ rfl hc r
  · exact both (by rw [← ok _ hr]; exact hp.2.2.2)
  · exact both (by rw [← ok _ hr]; exact hp.2.2.2)
  · exact both (by rw [← ok _ hr]; exact hp.2.2.1)
  · exact both (by rw [← ok _ hr]; exact hp.2.2.1)
  · exact both (by rw [← ok _ hr]; exact hp.2.1)
  · exact both (by rw [← ok _ hr]; exact hp.1)
  · exact ⟨by rw [← ok _ hr]; exact Aux.concat_kept c m, fun h => absurd (by simp [Spec.concatTransforms]) h⟩
  · exact ⟨by rw [← ok _ hr]; exact Aux.concat_kept c m, fun h => absurd (by simp [Spec.concatTransforms]) h⟩
  · exact ⟨by rw [← ok _ hr]; exact Aux.concat_kept c m, fun h => absurd (by simp [Spec.concatTransforms]) h⟩
  · exact ⟨by rw [← ok _ hr]; exact Aux.concat_kept c m, fun h => absurd (by simp [Spec.concatTransforms]) h⟩
  · exact ⟨by rw [← ok _ hr]; exact Aux.concat_kept c m, fun h => absurd (by simp [Spec.concatTransforms]) h⟩
  · exact both (by rw [← ok _ hr]; exact hp.1)
  · exact both (by rw [← ok _ hr]; exact hp.2.2.1)
  · exact both (by rw [← ok _ hr]; exact hp.2.2.1)
  · exact absurd (by simp [Spec.overriding]) hname
  · exact absurd (by simp [Spec.overriding]) hname

end Verif.Props
