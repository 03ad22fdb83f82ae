import Verif.Quant.Config
import Verif.Props.QuantOps
import Mathlib.Data.List.Forall2

/-!
# Property C60: equality of quantizers and quantize configs
-/

set_option linter.unusedSectionVars false
namespace Verif.Props
open Verif Verif.Clustering Verif.Encoding Verif.Quant Verif.Quant.Config

/-! ## Specification -/

/-- A quantizer object that some constructor makes. -/
def Spec.Constructible (q : Quantizer) : Prop :=
  match q.cls with
  | .convWeights => ∃ bits, q.cfg = ⟨bits, true, true, true⟩
  | .convTransposeWeights => ∃ bits, q.cfg = ⟨bits, false, true, true⟩
  | _ => True

/-- A default config as the registries make them: recurrent configs have one list of names per cell,
the others have names. -/
def Spec.ShippedConfig (c : DConfig) : Prop :=
  ∃ nBit cls w a out bw ba, c = .mk' nBit cls w a out bw ba ∧
    (cls = .rnn → ∀ x ∈ w ++ a, ∃ l, x = .many l) ∧ (cls ≠ .rnn → ∀ x ∈ w ++ a, ∃ s, x = .one s)

/-- The two quantizers create the same variables for, and compute the same from, any kernel with four
axes (the kernel of a convolution). -/
def Spec.SameOnKernels (α : Type*) [Field α] [LinearOrder α] [IsStrictOrderedRing α] [FloorRing α]
    (p q : Quantizer) : Prop :=
  ∀ (v : RangeVars α) (training : Bool) (t : QTensor α), t.shape.length = 4 → Spec.ProperTensor t →
    (p.build (some t.shape) : Option (RangeVars α)) = q.build (some t.shape) ∧
    p.call v training t = q.call v training t

/-! ## Transposing twice -/

section Transpose
variable {α : Type*} [Field α] [LinearOrder α] [IsStrictOrderedRing α] [FloorRing α]

theorem Aux.t4_index (a b c d p : ℕ) (hp : p < a * b * (d * c)) :
    (p / (d * c)) * (c * d) + (p % c) * d + p % (d * c) / c < a * b * (c * d) := by
  have hpos : 0 < d * c := by
    rcases Nat.eq_zero_or_pos (d * c) with h | h
    · rw [h] at hp; simp at hp
    · exact h
  have hc : 0 < c := Nat.pos_of_ne_zero (by rintro rfl; simp at hpos)
  have hd : 0 < d := Nat.pos_of_ne_zero (by rintro rfl; simp at hpos)
  have h1 : p / (d * c) < a * b := Nat.div_lt_of_lt_mul (by rw [Nat.mul_comm]; exact hp)
  have h2 : p % c < c := Nat.mod_lt _ hc
  have h3 : p % (d * c) / c < d := Nat.div_lt_of_lt_mul (by rw [Nat.mul_comm c d]; exact Nat.mod_lt _ hpos)
  have h4 : p % c * d + p % (d * c) / c < c * d := by
    calc p % c * d + p % (d * c) / c < p % c * d + d := by omega
      _ = (p % c + 1) * d := by ring
      _ ≤ c * d := Nat.mul_le_mul_right _ h2
  calc (p / (d * c)) * (c * d) + (p % c) * d + p % (d * c) / c
      < (p / (d * c)) * (c * d) + c * d := by omega
    _ = (p / (d * c) + 1) * (c * d) := by ring
    _ ≤ a * b * (c * d) := Nat.mul_le_mul_right _ h1

theorem Aux.t4_back (c d p : ℕ) (hc : 0 < c) (hd : 0 < d) :
    let p' := (p / (c * d)) * (d * c) + (p % d) * c + p % (c * d) / d
    (p' / (d * c)) * (c * d) + (p' % c) * d + p' % (d * c) / c = p := by
  intro p'
  have hpos : 0 < d * c := Nat.mul_pos hd hc
  have h1 : p % d < d := Nat.mod_lt _ hd
  have h2 : p % (c * d) / d < c := Nat.div_lt_of_lt_mul (by rw [Nat.mul_comm d c]; exact Nat.mod_lt _ (Nat.mul_pos hc hd))
  have h3 : (p % d) * c + p % (c * d) / d < d * c := by
    calc (p % d) * c + p % (c * d) / d < (p % d) * c + c := by omega
      _ = (p % d + 1) * c := by ring
      _ ≤ d * c := Nat.mul_le_mul_right _ h1
  have e1 : p' / (d * c) = p / (c * d) := by
    show ((p / (c * d)) * (d * c) + (p % d) * c + p % (c * d) / d) / (d * c) = _
    rw [Nat.add_assoc, Nat.mul_comm (p / (c * d)), Nat.mul_add_div hpos, Nat.div_eq_of_lt h3, Nat.add_zero]
  have e2 : p' % (d * c) = (p % d) * c + p % (c * d) / d := by
    show ((p / (c * d)) * (d * c) + (p % d) * c + p % (c * d) / d) % (d * c) = _
    rw [Nat.add_assoc, Nat.mul_comm (p / (c * d)), Nat.mul_add_mod, Nat.mod_eq_of_lt h3]
  have e3 : p' % c = p % (c * d) / d := by
    have : p' % c = p' % (d * c) % c := by rw [Nat.mod_mul_left_mod]
    rw [this, e2, Nat.mul_comm, Nat.mul_add_mod, Nat.mod_eq_of_lt h2]
  have e4 : p' % (d * c) / c = p % d := by
    rw [e2, Nat.mul_comm (p % d), Nat.mul_add_div hc, Nat.div_eq_of_lt h2, Nat.add_zero]
  rw [e1, e3, e4]
  have e5 : p % d = p % (c * d) % d := by rw [Nat.mod_mul_left_mod]
  rw [e5, Nat.add_assoc, Nat.mul_comm (p % (c * d) / d) d, Nat.div_add_mod, Nat.mul_comm (p / (c * d)), Nat.div_add_mod]

/-- What transposing gives. -/
theorem Aux.t4_some (t : QTensor α) (h4 : t.shape.length = 4) (hp : t.data.length = t.shape.prod) :
    ∃ a b c d, t.shape = [a, b, c, d] ∧ t.data.length = a * b * (c * d) ∧
      transpose0132 t = some ⟨[a, b, d, c], (List.range (a * b * (d * c))).map fun p =>
        t.data.getD ((p / (d * c)) * (c * d) + (p % c) * d + p % (d * c) / c) 0⟩ := by
  obtain ⟨shape, data⟩ := t
  match shape, h4 with
  | [a, b, c, d], _ =>
    refine ⟨a, b, c, d, rfl, ?_, rfl⟩
    rw [hp]
    simp only [List.prod_cons, List.prod_nil]
    ring

/-- Transposing, applying a function to every entry and transposing again. -/
theorem Aux.t4_twice (t : QTensor α) (h4 : t.shape.length = 4) (hp : t.data.length = t.shape.prod) :
    ∃ t', transpose0132 t = some t' ∧ (∀ x, x ∈ t'.data ↔ x ∈ t.data) ∧
      ∀ f : α → α, transpose0132 ⟨t'.shape, t'.data.map f⟩ = some ⟨t.shape, t.data.map f⟩ := by
  obtain ⟨a, b, c, d, hs, hlen, ht⟩ := Aux.t4_some t h4 hp
  refine ⟨_, ht, ?_, ?_⟩
  · intro x
    simp only [List.mem_map, List.mem_range]
    constructor
    · rintro ⟨p, hp, rfl⟩
      have hi := Aux.t4_index a b c d p hp
      rw [← hlen] at hi
      rw [List.getD_eq_getElem _ _ hi]
      exact List.getElem_mem hi
    · intro hx
      obtain ⟨i, hi, rfl⟩ := List.mem_iff_getElem.1 hx
      have hi' : i < a * b * (c * d) := by rw [← hlen]; exact hi
      have hcd : 0 < c * d := by
        rcases Nat.eq_zero_or_pos (c * d) with h | h
        · rw [h] at hi'; simp at hi'
        · exact h
      have hc : 0 < c := Nat.pos_of_ne_zero (by rintro rfl; simp at hcd)
      have hd : 0 < d := Nat.pos_of_ne_zero (by rintro rfl; simp at hcd)
      refine ⟨(i / (c * d)) * (d * c) + (i % d) * c + i % (c * d) / d, Aux.t4_index a b d c i hi', ?_⟩
      rw [Aux.t4_back c d i hc hd, List.getD_eq_getElem _ _ hi]
  · intro f
    rw [transpose0132]
    simp only [Option.some.injEq, QTensor.mk.injEq, hs, true_and]
    apply List.ext_getElem
    · simp [hlen]
    · intro i h1 h2
      simp only [List.length_map, List.length_range] at h1
      simp only [List.getElem_map, List.getElem_range]
      have hcd : 0 < c * d := by
        rcases Nat.eq_zero_or_pos (c * d) with h | h
        · rw [h] at h1; simp at h1
        · exact h
      have hc : 0 < c := Nat.pos_of_ne_zero (by rintro rfl; simp at hcd)
      have hd : 0 < d := Nat.pos_of_ne_zero (by rintro rfl; simp at hcd)
      have hi := Aux.t4_index a b d c i h1
      rw [List.getD_eq_getElem _ _ (by simpa using hi)]
      simp only [List.getElem_map, List.getElem_range]
      rw [Aux.t4_back c d i hc hd, List.getD_eq_getElem _ _ (by rw [hlen]; exact h1)]

theorem Aux.extremes_congr {xs ys : List α} (h : ∀ x, x ∈ xs ↔ x ∈ ys) (hne : ys ≠ []) :
    reduceMin xs = reduceMin ys ∧ reduceMax xs = reduceMax ys := by
  have hx : xs ≠ [] := by
    obtain ⟨y, hy⟩ := List.exists_mem_of_ne_nil _ hne
    exact List.ne_nil_of_mem ((h y).2 hy)
  constructor
  · refine Aux.isMin_unique (Aux.reduceMin_isMin hx) ?_
    have := Aux.reduceMin_isMin hne
    exact ⟨(h _).2 this.1, fun w hw => this.2 w ((h w).1 hw)⟩
  · refine Aux.isMax_unique (Aux.reduceMax_isMax hx) ?_
    have := Aux.reduceMax_isMax hne
    exact ⟨(h _).2 this.1, fun w hw => this.2 w ((h w).1 hw)⟩

/-- The quantizer for transposed convolutions computes what the plain one does. -/
theorem Aux.convTranspose_call (cfg : QCfg) (hcfg : cfg.perAxis = false) (v : RangeVars α) (training : Bool)
    (t : QTensor α) (h4 : t.shape.length = 4) (hp : Spec.ProperTensor t) :
    (⟨.convTransposeWeights, cfg⟩ : Quantizer).call v training t = QKind.lastValue.call cfg v training t := by
  obtain ⟨t', ht', hmem, hback⟩ := Aux.t4_twice t h4 hp.1
  obtain ⟨hmin, hmax⟩ := Aux.extremes_congr hmem hp.2
  have hfq : ∀ v : RangeVars α, (fakeQuantVars cfg false v t').bind (fun r => (transpose0132 r).map fun o => (o, v)) =
      (fakeQuantVars cfg false v t).map fun o => (o, v) := by
    intro v
    obtain ⟨lo, hi⟩ := v
    cases lo <;> cases hi <;> simp [fakeQuantVars, hback]
  have hupd : QKind.lastValue.update cfg v t' = QKind.lastValue.update cfg v t := by
    simp only [QKind.update, hcfg, Bool.false_eq_true, if_false, hmin, hmax]
  simp only [Quantizer.call, ht', Option.bind_some, QKind.call, hcfg, Bool.false_and, hupd]
  cases training
  · simp only [Bool.false_eq_true, if_false]
    rw [← hfq v]
    cases fakeQuantVars cfg false v t' <;> simp
  · simp only [if_true]
    cases QKind.lastValue.update cfg v t with
    | none => simp
    | some v' =>
      simp only [Option.bind_some]
      rw [← hfq v']
      cases fakeQuantVars cfg false v' t' <;> simp

end Transpose

/-! ## C60 -/

section Equality
variable (α : Type*) [Field α] [LinearOrder α] [IsStrictOrderedRing α] [FloorRing α]

theorem Aux.quantizer_eq {p q : Quantizer} (h : p.eq q = true) : p.cls.kind = q.cls.kind ∧ p.cfg = q.cfg := by
  obtain ⟨pc, ⟨b, x, s, n⟩⟩ := p
  obtain ⟨qc, ⟨b', x', s', n'⟩⟩ := q
  simp only [Quantizer.eq, Bool.and_eq_true, decide_eq_true_eq] at h
  obtain ⟨⟨⟨⟨h1, h2⟩, h3⟩, h4⟩, h5⟩ := h
  exact ⟨h1, by simp [h2, h3, h4, h5]⟩

theorem Aux.quantizer_normal (q : Quantizer) (hq : Spec.Constructible q) (v : RangeVars α) (training : Bool)
    (t : QTensor α) (h4 : t.shape.length = 4) (hp : Spec.ProperTensor t) :
    (q.build (some t.shape) : Option (RangeVars α)) = some (q.cls.kind.build q.cfg (some t.shape)) ∧
    q.call v training t = q.cls.kind.call q.cfg v training t := by
  obtain ⟨cls, cfg⟩ := q
  cases cls with
  | lastValue => exact ⟨rfl, rfl⟩
  | movingAverage => exact ⟨rfl, rfl⟩
  | allValues => exact ⟨rfl, rfl⟩
  | convWeights =>
    obtain ⟨bits, hb⟩ := hq
    simp only at hb
    subst hb
    exact ⟨rfl, rfl⟩
  | convTransposeWeights =>
    obtain ⟨bits, hb⟩ := hq
    simp only at hb
    subst hb
    exact ⟨rfl, Aux.convTranspose_call _ rfl v training t h4 hp⟩

/-- C60 for quantizers: two quantizers that compare equal do the same to every convolution kernel. -/
theorem C60_quantizers (p q : Quantizer) (hp : Spec.Constructible p) (hq : Spec.Constructible q)
    (h : p.eq q = true) : Spec.SameOnKernels α p q := by
  intro v training t h4 ht
  obtain ⟨h1, h2⟩ := Aux.quantizer_eq h
  obtain ⟨p1, p2⟩ := Aux.quantizer_normal α p hp v training t h4 ht
  obtain ⟨q1, q2⟩ := Aux.quantizer_normal α q hq v training t h4 ht
  rw [p1, p2, q1, q2, h1, h2]
  exact ⟨rfl, rfl⟩

/-- Distinct quantizers of one class never compare equal. -/
theorem C60_quantizer_args (p q : Quantizer) (hc : p.cls = q.cls) : p.eq q = true ↔ p = q := by
  constructor
  · intro h
    obtain ⟨-, h2⟩ := Aux.quantizer_eq h
    obtain ⟨pc, pf⟩ := p
    obtain ⟨qc, qf⟩ := q
    simp only at hc h2
    rw [hc, h2]
  · rintro rfl
    simp [Quantizer.eq]

theorem Aux.quantizer_eq_iff {p q : Quantizer} : p.eq q = true ↔ p.cls.kind = q.cls.kind ∧ p.cfg = q.cfg := by
  refine ⟨Aux.quantizer_eq, fun ⟨h1, h2⟩ => ?_⟩
  simp [Quantizer.eq, h1, h2]

theorem Aux.config_eq_iff {c d : DConfig} : c.eq d = true ↔ c.nBit = d.nBit ∧ c.weightAttrs = d.weightAttrs ∧
    c.weightQuantizer.eq d.weightQuantizer = true ∧ c.activationQuantizer.eq d.activationQuantizer = true ∧
    c.quantizeOutput = d.quantizeOutput := by
  simp only [DConfig.eq, Bool.and_eq_true, decide_eq_true_eq]
  tauto

/-- C60: `==` on default configs is an equivalence relation. -/
theorem C60_equivalence : Equivalence fun c d : DConfig => c.eq d = true := by
  refine ⟨?_, ?_, ?_⟩
  · intro c
    rw [Aux.config_eq_iff]
    simp [Aux.quantizer_eq_iff]
  · intro c d h
    rw [Aux.config_eq_iff, Aux.quantizer_eq_iff, Aux.quantizer_eq_iff] at h ⊢
    obtain ⟨h1, h2, ⟨h3, h3'⟩, ⟨h4, h4'⟩, h5⟩ := h
    exact ⟨h1.symm, h2.symm, ⟨h3.symm, h3'.symm⟩, ⟨h4.symm, h4'.symm⟩, h5.symm⟩
  · intro c d e h h'
    rw [Aux.config_eq_iff, Aux.quantizer_eq_iff, Aux.quantizer_eq_iff] at h h' ⊢
    obtain ⟨h1, h2, ⟨h3, h3'⟩, ⟨h4, h4'⟩, h5⟩ := h
    obtain ⟨k1, k2, ⟨k3, k3'⟩, ⟨k4, k4'⟩, k5⟩ := h'
    exact ⟨h1.trans k1, h2.trans k2, ⟨h3.trans k3, h3'.trans k3'⟩, ⟨h4.trans k4, h4'.trans k4'⟩, h5.trans k5⟩

theorem Aux.shipped_quantizers {c : DConfig} (h : Spec.ShippedConfig c) :
    Spec.Constructible c.weightQuantizer ∧ Spec.Constructible c.activationQuantizer ∧
    c.activationQuantizer.cls = .movingAverage := by
  obtain ⟨nBit, cls, w, a, out, bw, ba, rfl, -⟩ := h
  refine ⟨?_, trivial, rfl⟩
  cases cls
  · trivial
  · trivial
  · exact ⟨_, rfl⟩
  · exact ⟨_, rfl⟩

theorem Aux.getAttrs_class {W A X : Type*} {c c' : CClass} {attrs : List AttrVal} (get : Cell W A → String → Option X)
    (hc : (c = .rnn → ∀ x ∈ attrs, ∃ l, x = .many l) ∧ (c ≠ .rnn → ∀ x ∈ attrs, ∃ s, x = .one s))
    (hc' : (c' = .rnn → ∀ x ∈ attrs, ∃ l, x = .many l) ∧ (c' ≠ .rnn → ∀ x ∈ attrs, ∃ s, x = .one s))
    (l : KLayer W A) {xs ys : List X} (h : getAttrs c get attrs l = .ok xs) (h' : getAttrs c' get attrs l = .ok ys) :
    xs = ys := by
  have hplain : ∀ c, c ≠ CClass.rnn → getAttrs c get attrs l = (match plainNames attrs with
      | .error e => .error e | .ok names => getAll (get l.own) names) := by
    intro c hc
    cases c <;> first | rfl | exact absurd rfl hc
  have hmixed : c = .rnn → c' ≠ .rnn → attrs = [] := by
    intro h1 h2
    rcases attrs with _ | ⟨x, rest⟩
    · rfl
    · obtain ⟨l, hl⟩ := hc.1 h1 x (by simp)
      obtain ⟨s, hs⟩ := hc'.2 h2 x (by simp)
      rw [hl] at hs; simp at hs
  have hmixed' : c ≠ .rnn → c' = .rnn → attrs = [] := by
    intro h1 h2
    rcases attrs with _ | ⟨x, rest⟩
    · rfl
    · obtain ⟨l, hl⟩ := hc'.1 h2 x (by simp)
      obtain ⟨s, hs⟩ := hc.2 h1 x (by simp)
      rw [hl] at hs; simp at hs
  have hnil : ∀ c zs, getAttrs c get [] l = .ok zs → zs = [] := by
    intro c zs hz
    by_cases hr : c = .rnn
    · subst hr
      simp only [getAttrs] at hz
      split at hz
      · simp at hz
      · simp only [getCells, Except.ok.injEq] at hz; exact hz.symm
    · cases c <;> first | exact absurd rfl hr | (simp [getAttrs, plainNames, getAll] at hz; exact hz)
  by_cases h1 : c = .rnn <;> by_cases h2 : c' = .rnn
  · rw [h1] at h; rw [h2] at h'; rw [h] at h'; simpa using h'
  · have := hmixed h1 h2; subst this
    rw [hnil _ _ h, hnil _ _ h']
  · have := hmixed' h1 h2; subst this
    rw [hnil _ _ h, hnil _ _ h']
  · rw [hplain _ h1, ← hplain _ h2, h'] at h
    simpa using h.symm

/-- C60, as far as it holds: two default configs that compare equal quantize the same weights of any
layer both can be used with, with quantizers that do the same to convolution kernels, and quantize
outputs with the same quantizers.  (In full: and the same activations; see `C60_violated`.) -/
theorem C60_config_partial (c d : DConfig) (hc : Spec.ShippedConfig c) (hd : Spec.ShippedConfig d)
    (h : c.eq d = true) {W A : Type*} (l : KLayer W A) (ws vs : List (W × Quantizer))
    (hw : c.getWeights l = .ok ws) (hv : d.getWeights l = .ok vs) :
    ws.map Prod.fst = vs.map Prod.fst ∧
    (∀ p ∈ ws, ∀ q ∈ vs, Spec.SameOnKernels α p.2 q.2) ∧ c.getOutput = d.getOutput := by
  obtain ⟨-, h2, h3, h4, h5⟩ := Aux.config_eq_iff.1 h
  obtain ⟨c1, c2, c3⟩ := Aux.shipped_quantizers hc
  obtain ⟨d1, d2, d3⟩ := Aux.shipped_quantizers hd
  have hcls : ∀ c : DConfig, Spec.ShippedConfig c →
      (c.cls = .rnn → ∀ x ∈ c.weightAttrs, ∃ l, x = .many l) ∧ (c.cls ≠ .rnn → ∀ x ∈ c.weightAttrs, ∃ s, x = .one s) := by
    rintro c ⟨nBit, cls, w, a, out, bw, ba, rfl, e1, e2⟩
    exact ⟨fun h x hx => e1 h x (List.mem_append_left _ hx), fun h x hx => e2 h x (List.mem_append_left _ hx)⟩
  simp only [DConfig.getWeights] at hw hv
  cases hx : getAttrs c.cls Cell.weight c.weightAttrs l with
  | error e => rw [hx] at hw; simp [Except.map] at hw
  | ok xs =>
    cases hy : getAttrs d.cls Cell.weight d.weightAttrs l with
    | error e => rw [hy] at hv; simp [Except.map] at hv
    | ok ys =>
      rw [hx] at hw; rw [hy] at hv
      simp only [Except.map, Except.ok.injEq] at hw hv
      subst hw; subst hv
      have hxy : xs = ys := by
        have hd' := hcls d hd
        rw [← h2] at hy hd'
        exact Aux.getAttrs_class _ (hcls c hc) hd' l hx hy
      subst hxy
      refine ⟨?_, ?_, ?_⟩
      · simp
      · intro p hp q hq
        obtain ⟨x, -, rfl⟩ := List.mem_map.1 hp
        obtain ⟨y, -, rfl⟩ := List.mem_map.1 hq
        exact C60_quantizers α _ _ c1 d1 h3
      · have := (C60_quantizer_args _ _ (c3.trans d3.symm)).1 h4
        simp only [DConfig.getOutput, h5, this]

/-- C60: configs constructed with the same arguments compare equal. -/
theorem C60_same_arguments (nBit : Bool) (cls : CClass) (w a : List AttrVal) (out : Bool) (bw ba : ℕ) :
    (DConfig.mk' nBit cls w a out bw ba).eq (.mk' nBit cls w a out bw ba) = true :=
  C60_equivalence.refl _

end Equality

namespace Example

/-- A layer with two activations. -/
def twoActivations : KLayer ℕ String :=
  ⟨⟨"Custom", fun s => if s = "kernel" then some 7 else none,
    fun s => if s = "activation" then some "relu" else if s = "recurrent_activation" then some "tanh" else none⟩, none⟩

end Example

open Example in
/-- C60 fails: two configs that quantize different activations compare equal. -/
theorem C60_violated : ∃ c d : DConfig, Spec.ShippedConfig c ∧ Spec.ShippedConfig d ∧ c.eq d = true ∧
    ∃ l : KLayer ℕ String, ∃ as bs, c.getActivations l = .ok as ∧ d.getActivations l = .ok bs ∧
      as.map Prod.fst ≠ bs.map Prod.fst := by
  refine ⟨.mk' false .plain [.one "kernel"] [.one "activation"] false 8 8,
    .mk' false .plain [.one "kernel"] [.one "recurrent_activation"] false 8 8,
    ⟨_, _, _, _, _, _, _, rfl, by simp, by simp⟩, ⟨_, _, _, _, _, _, _, rfl, by simp, by simp⟩, by decide,
    twoActivations, _, _, rfl, rfl, by decide⟩

/-- C60: the restriction to kernels with four axes in `C60_quantizers` is needed: on a matrix the
quantizer of a transposed convolution fails, the plain one it is equal to does not. -/
theorem C60_rank_violated : ∃ p q : Quantizer, Spec.Constructible p ∧ Spec.Constructible q ∧ p.eq q = true ∧
    ∃ (v : RangeVars ℚ) (t : QTensor ℚ), Spec.ProperTensor t ∧ p.call v true t = none ∧ q.call v true t ≠ none := by
  refine ⟨⟨.convTransposeWeights, ⟨8, false, true, true⟩⟩, ⟨.lastValue, ⟨8, false, true, true⟩⟩, ⟨8, rfl⟩, trivial,
    by decide, ⟨.scalar 0, .scalar 0⟩, ⟨[1, 1], [1]⟩, ⟨rfl, by simp⟩, rfl, ?_⟩
  simp [Quantizer.call, QKind.call, QClass.kind, QKind.update, fakeQuantVars]

/-- The hypotheses of `C60_config_partial` are met by the configs of `Conv2DTranspose` and of a plain
convolution without per-axis quantization, which compare equal. -/
example : ∃ c d : DConfig, Spec.ShippedConfig c ∧ Spec.ShippedConfig d ∧ c ≠ d ∧ c.eq d = true :=
  ⟨.mk' false .plain [.one "kernel"] [.one "activation"] false 8 8,
    .mk' false .convTranspose [.one "kernel"] [.one "activation"] false 8 8,
    ⟨_, _, _, _, _, _, _, rfl, by simp, by simp⟩, ⟨_, _, _, _, _, _, _, rfl, by simp, by simp⟩,
    by decide, by decide⟩

end Verif.Props
