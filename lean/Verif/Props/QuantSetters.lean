import Verif.Quant.Config
import Mathlib.Data.List.Forall2
import Mathlib.Data.List.Nodup

/-!
# Property C81: what the setters of a quantize config do to a layer
-/

set_option linter.unusedSectionVars false
namespace Verif.Props
open Verif Verif.Quant Verif.Quant.Config

/-! ## Specification -/

/-- The part of a layer an attribute belongs to: the layer itself or the `k`-th cell of an RNN. -/
def Spec.part {W A : Type*} (l : KLayer W A) : Option ℕ → Option (Cell W A)
  | none => some l.own
  | some k => l.cells.bind fun cs => cs[k]?

/-- The list of attributes of a config names attribute `n` of part `i`. -/
def Spec.Names (cls : CClass) (attrs : List AttrVal) (i : Option ℕ) (n : String) : Prop :=
  if cls = .rnn then ∃ k l, i = some k ∧ attrs[k]? = some (.many l) ∧ n ∈ l
  else i = none ∧ AttrVal.one n ∈ attrs

/-- A list of attributes that fits a layer: no attribute is named twice, and a recurrent config has one
list of names for each cell. -/
def Spec.FitsLayer {W A : Type*} (cls : CClass) (attrs : List AttrVal) (l : KLayer W A) : Prop :=
  if cls = .rnn then
    (∃ cs, l.cells = some cs ∧ cs.length = attrs.length) ∧ ∀ x ∈ attrs, ∃ ns, x = .many ns ∧ ns.Nodup
  else (∀ x ∈ attrs, ∃ s, x = .one s) ∧ attrs.Nodup

/-- Two layers agree except for the weights a config names. -/
def Spec.SameButWeights {W A : Type*} (c : DConfig) (l l' : KLayer W A) : Prop :=
  (l.cells.map List.length = l'.cells.map List.length) ∧
  ∀ i p p', Spec.part l i = some p → Spec.part l' i = some p' → p'.cls = p.cls ∧
    p'.activation = p.activation ∧ ∀ n, ¬ Spec.Names c.cls c.weightAttrs i n → p'.weight n = p.weight n

/-- Two layers agree except for the activations a config names. -/
def Spec.SameButActivations {W A : Type*} (c : DConfig) (l l' : KLayer W A) : Prop :=
  (l.cells.map List.length = l'.cells.map List.length) ∧
  ∀ i p p', Spec.part l i = some p → Spec.part l' i = some p' → p'.cls = p.cls ∧
    p'.weight = p.weight ∧ ∀ n, ¬ Spec.Names c.cls c.activationAttrs i n → p'.activation n = p.activation n

/-! ## One layer or cell -/

theorem Aux.zip_take {X Y : Type*} (xs : List X) (ys : List Y) : xs.zip (ys.take xs.length) = xs.zip ys := by
  induction xs generalizing ys with
  | nil => simp
  | cons x xs ih => cases ys <;> simp [ih]

theorem Aux.getAll_congr {X : Type*} {f g : String → Option X} {names : List String}
    (h : ∀ n ∈ names, f n = g n) : getAll f names = getAll g names := by
  induction names with
  | nil => rfl
  | cons a rest ih =>
    simp only [getAll]
    rw [h a List.mem_cons_self, ih fun n hn => h n (List.mem_cons_of_mem _ hn)]

theorem Aux.getAll_cons {X : Type*} {f : String → Option X} {a : String} {rest : List String} {xs : List X}
    (h : getAll f (a :: rest) = .ok xs) : ∃ x ys, xs = x :: ys ∧ f a = some x ∧ getAll f rest = .ok ys := by
  simp only [getAll] at h
  cases hf : f a with
  | none => rw [hf] at h; cases h
  | some x =>
    rw [hf] at h
    dsimp only at h
    cases hr : getAll f rest with
    | error e => rw [hr] at h; cases h
    | ok ys => rw [hr] at h; cases h; exact ⟨x, ys, rfl, rfl, rfl⟩

theorem Aux.getAll_length {X : Type*} {f : String → Option X} {names : List String} {xs : List X}
    (h : getAll f names = .ok xs) : xs.length = names.length := by
  induction names generalizing xs with
  | nil => cases h; rfl
  | cons a rest ih =>
    obtain ⟨x, ys, rfl, -, h⟩ := Aux.getAll_cons h
    simp [ih h]

section
variable {W A : Type*}

theorem Aux.setWeight_rest {c : Cell W A} {a : String} {w : W} {rest : List String} (ha : a ∉ rest) :
    getAll (c.setWeight a w).weight rest = getAll c.weight rest := by
  refine Aux.getAll_congr fun n hn => ?_
  simp only [Cell.setWeight]
  refine Function.update_of_ne (fun h => ha ?_) _ _
  rw [← h]; exact hn

theorem Aux.setWeightsLoop_ok (shape : W → List ℕ) (names : List String) (hnd : names.Nodup)
    (c : Cell W A) (cur ws : List W) (hget : getAll c.weight names = .ok cur)
    (hs : List.Forall₂ (fun x y => shape x = shape y) cur ws) :
    ∃ c', setWeightsLoop shape (names.zip ws) c = (none, c') ∧ getAll c'.weight names = .ok ws ∧
      c'.cls = c.cls ∧ c'.activation = c.activation ∧ ∀ n, n ∉ names → c'.weight n = c.weight n := by
  induction names generalizing c cur ws with
  | nil => cases hget; cases hs; exact ⟨c, rfl, rfl, rfl, rfl, fun _ _ => rfl⟩
  | cons a rest ih =>
    obtain ⟨x, ys, rfl, hx, hget⟩ := Aux.getAll_cons hget
    cases hs with
    | cons h1 h2 =>
      rename_i w ws
      obtain ⟨hna, hnd⟩ := List.nodup_cons.mp hnd
      obtain ⟨c', e1, e2, e3, e4, e5⟩ := ih hnd (c.setWeight a w) ys ws
        (by rw [Aux.setWeight_rest hna]; exact hget) h2
      refine ⟨c', ?_, ?_, e3, e4, ?_⟩
      · simp only [List.zip_cons_cons, setWeightsLoop]
        rw [hx]
        simp only [h1, ne_eq, not_true_eq_false, if_false]
        exact e1
      · have : c'.weight a = some w := by
          rw [e5 a hna]; simp [Cell.setWeight]
        simp only [getAll]
        rw [this, e2]
      · intro n hn
        rw [List.mem_cons, not_or] at hn
        rw [e5 n hn.2]
        simp only [Cell.setWeight]
        exact Function.update_of_ne hn.1 _ _

theorem Aux.setWeightsLoop_bad (shape : W → List ℕ) (names : List String) (hnd : names.Nodup)
    (c : Cell W A) (cur ws : List W) (hget : getAll c.weight names = .ok cur) (hl : names.length ≤ ws.length)
    (hs : ¬ List.Forall₂ (fun x y => shape x = shape y) cur (ws.take names.length)) :
    ∃ c', setWeightsLoop shape (names.zip ws) c = (some .value, c') := by
  induction names generalizing c cur ws with
  | nil => cases hget; simp at hs
  | cons a rest ih =>
    obtain ⟨x, ys, rfl, hx, hget⟩ := Aux.getAll_cons hget
    obtain ⟨hna, hnd⟩ := List.nodup_cons.mp hnd
    cases ws with
    | nil => simp at hl
    | cons w ws =>
      simp only [List.zip_cons_cons, setWeightsLoop]
      rw [hx]
      by_cases h1 : shape x = shape w
      · simp only [h1, ne_eq, not_true_eq_false, if_false]
        refine ih hnd (c.setWeight a w) ys ws (by rw [Aux.setWeight_rest hna]; exact hget)
          (by simpa using hl) fun h2 => hs ?_
        simpa using ⟨h1, h2⟩
      · simp only [ne_eq, h1, not_false_eq_true, if_true]
        exact ⟨c, rfl⟩

theorem Aux.setActivationsLoop_ok (names : List String) (hnd : names.Nodup)
    (c : Cell W A) (xs : List A) (hl : names.length = xs.length) :
    getAll (setActivationsLoop (names.zip xs) c).activation names = .ok xs ∧
      (setActivationsLoop (names.zip xs) c).cls = c.cls ∧
      (setActivationsLoop (names.zip xs) c).weight = c.weight ∧
      ∀ n, n ∉ names → (setActivationsLoop (names.zip xs) c).activation n = c.activation n := by
  induction names generalizing c xs with
  | nil => cases xs with
    | nil => exact ⟨rfl, rfl, rfl, fun _ _ => rfl⟩
    | cons => simp at hl
  | cons a rest ih =>
    cases xs with
    | nil => simp at hl
    | cons x xs =>
      obtain ⟨hna, hnd⟩ := List.nodup_cons.mp hnd
      obtain ⟨e1, e2, e3, e4⟩ := ih hnd (c.setActivation a x) xs (by simpa using hl)
      simp only [List.zip_cons_cons, setActivationsLoop]
      refine ⟨?_, e2, e3, ?_⟩
      · simp only [getAll]
        rw [e4 a hna, e1]
        simp [Cell.setActivation]
      · intro n hn
        rw [List.mem_cons, not_or] at hn
        rw [e4 n hn.2]
        simp only [Cell.setActivation]
        exact Function.update_of_ne hn.1 _ _

/-! ## The cells of an RNN -/

theorem Aux.getCells_cons {X : Type*} {get : Cell W A → String → Option X} {a : AttrVal} {as : List AttrVal}
    {c : Cell W A} {cs : List (Cell W A)} {xs : List X} (h : getCells get (a :: as) (c :: cs) = .ok xs) :
    ∃ ys zs, xs = ys ++ zs ∧ getAll (get c) a.names = .ok ys ∧ getCells get as cs = .ok zs := by
  simp only [getCells] at h
  cases hf : getAll (get c) a.names with
  | error e => rw [hf] at h; cases h
  | ok ys =>
    rw [hf] at h
    dsimp only at h
    cases hr : getCells get as cs with
    | error e => rw [hr] at h; cases h
    | ok zs => rw [hr] at h; cases h; exact ⟨ys, zs, rfl, rfl, rfl⟩

theorem Aux.getCells_length {X : Type*} {get : Cell W A → String → Option X} (attrs : List AttrVal)
    (cs : List (Cell W A)) (xs : List X) (h1 : cs.length = attrs.length)
    (h2 : getCells get attrs cs = .ok xs) : (flattenAttrs attrs).length = xs.length := by
  induction attrs generalizing cs xs with
  | nil => obtain rfl : cs = [] := List.eq_nil_of_length_eq_zero h1; cases h2; rfl
  | cons a as ih =>
    cases cs with
    | nil => simp at h1
    | cons c cs =>
      obtain ⟨ys, zs, rfl, h3, h4⟩ := Aux.getCells_cons h2
      have := ih cs zs (by simpa using h1) h4
      simp only [flattenAttrs] at this
      simp [flattenAttrs, this, Aux.getAll_length h3]

theorem Aux.setWeightsCells_ok (shape : W → List ℕ) (attrs : List AttrVal)
    (hnd : ∀ x ∈ attrs, ∃ ns, x = AttrVal.many ns ∧ ns.Nodup)
    (cs : List (Cell W A)) (hcs : cs.length = attrs.length) (cur ws : List W)
    (hget : getCells Cell.weight attrs cs = .ok cur)
    (hs : List.Forall₂ (fun x y => shape x = shape y) cur ws) :
    ∃ cs', setWeightsCells shape attrs ws cs = (none, cs') ∧ getCells Cell.weight attrs cs' = .ok ws ∧
      cs'.length = cs.length ∧ ∀ (k : ℕ) (p p' : Cell W A), cs[k]? = some p → cs'[k]? = some p' → p'.cls = p.cls ∧
        p'.activation = p.activation ∧ ∀ n, (¬ ∃ l, attrs[k]? = some (.many l) ∧ n ∈ l) → p'.weight n = p.weight n := by
  induction attrs generalizing cs cur ws with
  | nil =>
    obtain rfl : cs = [] := List.eq_nil_of_length_eq_zero hcs
    cases hget; cases hs
    exact ⟨[], rfl, rfl, rfl, fun k p p' h => by simp at h⟩
  | cons a as ih =>
    cases cs with
    | nil => simp at hcs
    | cons c cs =>
      obtain ⟨ys, zs, rfl, h1, h2⟩ := Aux.getCells_cons hget
      obtain ⟨ns, rfl, hns⟩ := hnd a List.mem_cons_self
      simp only [AttrVal.names] at h1
      have hlen := Aux.getAll_length h1
      obtain ⟨hs1, hs2⟩ : List.Forall₂ (fun x y => shape x = shape y) ys (ws.take ns.length) ∧
          List.Forall₂ (fun x y => shape x = shape y) zs (ws.drop ns.length) := by
        have a1 := List.forall₂_take_append ws ys zs hs.flip
        have a2 := List.forall₂_drop_append ws ys zs hs.flip
        rw [hlen] at a1 a2
        exact ⟨a1.flip, a2.flip⟩
      obtain ⟨c', e1, e2, e3, e4, e5⟩ := Aux.setWeightsLoop_ok shape ns hns c ys _ h1 hs1
      have hz : ns.zip (ws.take ns.length) = ns.zip ws := Aux.zip_take ns ws
      rw [hz] at e1
      obtain ⟨cs', f1, f2, f3, f4⟩ := ih (fun x hx => hnd x (List.mem_cons_of_mem _ hx)) cs
        (by simpa using hcs) zs _ h2 hs2
      refine ⟨c' :: cs', ?_, ?_, by simp [f3], ?_⟩
      · simp only [setWeightsCells, AttrVal.names]
        rw [e1]
        dsimp only
        rw [f1]
      · simp only [getCells, AttrVal.names]
        rw [e2]
        dsimp only
        rw [f2]
        simp
      · intro k p p' hp hp'
        cases k with
        | zero =>
          simp only [List.getElem?_cons_zero, Option.some.injEq] at hp hp'
          subst hp hp'
          refine ⟨e3, e4, fun n hn => e5 n fun h => hn ⟨ns, rfl, h⟩⟩
        | succ k =>
          simp only [List.getElem?_cons_succ] at hp hp' ⊢
          exact f4 k p p' hp hp'

theorem Aux.setWeightsCells_bad (shape : W → List ℕ) (attrs : List AttrVal)
    (hnd : ∀ x ∈ attrs, ∃ ns, x = AttrVal.many ns ∧ ns.Nodup)
    (cs : List (Cell W A)) (hcs : cs.length = attrs.length) (cur ws : List W)
    (hget : getCells Cell.weight attrs cs = .ok cur) (hl : (flattenAttrs attrs).length = ws.length)
    (hs : ¬ List.Forall₂ (fun x y => shape x = shape y) cur ws) :
    ∃ cs', setWeightsCells shape attrs ws cs = (some .value, cs') := by
  induction attrs generalizing cs cur ws with
  | nil =>
    obtain rfl : cs = [] := List.eq_nil_of_length_eq_zero hcs
    cases hget
    obtain rfl : ws = [] := List.eq_nil_of_length_eq_zero hl.symm
    simp at hs
  | cons a as ih =>
    cases cs with
    | nil => simp at hcs
    | cons c cs =>
      obtain ⟨ys, zs, rfl, h1, h2⟩ := Aux.getCells_cons hget
      obtain ⟨ns, rfl, hns⟩ := hnd a List.mem_cons_self
      simp only [AttrVal.names] at h1
      have hlen := Aux.getAll_length h1
      have hl' : ns.length + (flattenAttrs as).length = ws.length := by
        simpa [flattenAttrs, AttrVal.names] using hl
      by_cases hs1 : List.Forall₂ (fun x y => shape x = shape y) ys (ws.take ns.length)
      · obtain ⟨c', e1, -⟩ := Aux.setWeightsLoop_ok shape ns hns c ys _ h1 hs1
        have hz : ns.zip (ws.take ns.length) = ns.zip ws := Aux.zip_take ns ws
        rw [hz] at e1
        obtain ⟨cs', f1⟩ := ih (fun x hx => hnd x (List.mem_cons_of_mem _ hx)) cs
          (by simpa using hcs) zs (ws.drop ns.length) h2 (by simp; omega) fun h => hs (by
            have := List.rel_append hs1 h
            simpa only [List.take_append_drop] using this)
        refine ⟨c' :: cs', ?_⟩
        simp only [setWeightsCells, AttrVal.names]
        rw [e1]
        dsimp only
        rw [f1]
      · obtain ⟨c', e1⟩ := Aux.setWeightsLoop_bad shape ns hns c ys ws h1 (by omega) hs1
        refine ⟨c' :: cs, ?_⟩
        simp only [setWeightsCells, AttrVal.names]
        rw [e1]

theorem Aux.setActivationsCells_ok (attrs : List AttrVal)
    (hnd : ∀ x ∈ attrs, ∃ ns, x = AttrVal.many ns ∧ ns.Nodup)
    (cs : List (Cell W A)) (hcs : cs.length = attrs.length) (xs : List A)
    (hl : (flattenAttrs attrs).length = xs.length) :
    getCells Cell.activation attrs (setActivationsCells attrs xs cs) = .ok xs ∧
      (setActivationsCells attrs xs cs).length = cs.length ∧
      ∀ (k : ℕ) (p p' : Cell W A), cs[k]? = some p → (setActivationsCells attrs xs cs)[k]? = some p' → p'.cls = p.cls ∧
        p'.weight = p.weight ∧
        ∀ n, (¬ ∃ l, attrs[k]? = some (.many l) ∧ n ∈ l) → p'.activation n = p.activation n := by
  induction attrs generalizing cs xs with
  | nil =>
    obtain rfl : cs = [] := List.eq_nil_of_length_eq_zero hcs
    obtain rfl : xs = [] := List.eq_nil_of_length_eq_zero hl.symm
    exact ⟨rfl, rfl, fun k p p' h => by simp at h⟩
  | cons a as ih =>
    cases cs with
    | nil => simp at hcs
    | cons c cs =>
      obtain ⟨ns, rfl, hns⟩ := hnd a List.mem_cons_self
      have hl' : ns.length + (flattenAttrs as).length = xs.length := by
        simpa [flattenAttrs, AttrVal.names] using hl
      obtain ⟨e1, e2, e3, e4⟩ := Aux.setActivationsLoop_ok ns hns c (xs.take ns.length) (by simp; omega)
      have hz : ns.zip (xs.take ns.length) = ns.zip xs := Aux.zip_take ns xs
      rw [hz] at e1 e2 e3 e4
      obtain ⟨f1, f2, f3⟩ := ih (fun x hx => hnd x (List.mem_cons_of_mem _ hx)) cs
        (by simpa using hcs) (xs.drop ns.length) (by simp; omega)
      simp only [setActivationsCells, AttrVal.names]
      refine ⟨?_, by simp [f2], ?_⟩
      · simp only [getCells, AttrVal.names]
        rw [e1]
        dsimp only
        rw [f1]
        simp
      · intro k p p' hp hp'
        cases k with
        | zero =>
          simp only [List.getElem?_cons_zero, Option.some.injEq] at hp hp'
          subst hp hp'
          exact ⟨e2, e3, fun n hn => e4 n fun h => hn ⟨ns, rfl, h⟩⟩
        | succ k =>
          simp only [List.getElem?_cons_succ] at hp hp' ⊢
          exact f3 k p p' hp hp'

/-! ## Plain configs -/

theorem Aux.plainNames_ok (attrs : List AttrVal) (h : ∀ x ∈ attrs, ∃ s, x = AttrVal.one s) :
    ∃ names, plainNames attrs = .ok names ∧ attrs = names.map .one := by
  induction attrs with
  | nil => exact ⟨[], rfl, rfl⟩
  | cons a as ih =>
    obtain ⟨s, rfl⟩ := h a List.mem_cons_self
    obtain ⟨names, h1, h2⟩ := ih fun x hx => h x (List.mem_cons_of_mem _ hx)
    refine ⟨s :: names, ?_, by rw [h2]; rfl⟩
    simp only [plainNames]
    rw [h1]
    rfl

theorem Aux.map_ok {X Y : Type*} {e : Except Err X} {f : X → Y} {y : Y} (h : e.map f = .ok y) :
    ∃ x, e = .ok x ∧ f x = y := by
  cases e with
  | error e => cases h
  | ok x => cases h; exact ⟨x, rfl, rfl⟩

theorem Aux.getAttrs_rnn {X : Type*} (get : Cell W A → String → Option X) (attrs : List AttrVal)
    (l : KLayer W A) (cs : List (Cell W A)) (h : l.cells = some cs) :
    getAttrs .rnn get attrs l = getCells get attrs cs := by
  simp only [getAttrs]
  rw [h]

theorem Aux.getAttrs_plain {X : Type*} {cls : CClass} (hc : cls ≠ .rnn) (get : Cell W A → String → Option X)
    (names : List String) (attrs : List AttrVal) (hn : plainNames attrs = .ok names) (l : KLayer W A) :
    getAttrs cls get attrs l = getAll (get l.own) names := by
  cases cls with
  | rnn => exact absurd rfl hc
  | _ => simp only [getAttrs]; rw [hn]

theorem Aux.setWeights_plain {c : DConfig} (hr : c.cls ≠ .rnn) (shape : W → List ℕ) (ws : List W) (l : KLayer W A) :
    c.setWeights shape ws l = if c.weightAttrs.length ≠ ws.length then (some .value, l)
      else match plainNames c.weightAttrs with
        | .error e => (some e, l)
        | .ok names => match setWeightsLoop shape (names.zip ws) l.own with
          | (e, own') => (e, { l with own := own' }) := by
  unfold DConfig.setWeights
  cases hcc : c.cls with
  | rnn => exact absurd hcc hr
  | _ => rfl

theorem Aux.setActivations_plain {c : DConfig} (hr : c.cls ≠ .rnn) (xs : List A) (l : KLayer W A) :
    c.setActivations xs l = if c.activationAttrs.length ≠ xs.length then (some .value, l)
      else match plainNames c.activationAttrs with
        | .error e => (some e, l)
        | .ok names => (none, { l with own := setActivationsLoop (names.zip xs) l.own }) := by
  unfold DConfig.setActivations
  cases hcc : c.cls with
  | rnn => exact absurd hcc hr
  | _ => rfl

/-- **C81 (success).**  Let the attributes a config names be distinct and present.  Setting as many
weights as the getter returns, of the same shapes, succeeds; afterwards the getter returns exactly the
weights set, with the same quantizers; nothing else of the layer has changed. -/
theorem C81_weights_partial (shape : W → List ℕ) (c : DConfig) (l : KLayer W A) (cur : List (W × Quantizer))
    (hf : Spec.FitsLayer c.cls c.weightAttrs l) (hget : c.getWeights l = .ok cur) (ws : List W)
    (hs : List.Forall₂ (fun x w => shape x.1 = shape w) cur ws) :
    ∃ l', c.setWeights shape ws l = (none, l') ∧
      c.getWeights l' = .ok (ws.map fun w => (w, c.weightQuantizer)) ∧ Spec.SameButWeights c l l' := by
  obtain ⟨cur, hc, rfl⟩ := Aux.map_ok hget
  rw [List.forall₂_map_left_iff] at hs
  dsimp only at hs
  by_cases hr : c.cls = .rnn
  · simp only [Spec.FitsLayer, if_pos hr] at hf
    obtain ⟨⟨cs, hcs, hlen⟩, hnd⟩ := hf
    rw [hr, Aux.getAttrs_rnn _ _ _ cs hcs] at hc
    obtain ⟨cs', e1, e2, e3, e4⟩ := Aux.setWeightsCells_ok shape c.weightAttrs hnd cs hlen cur ws hc hs
    have hl : (flattenAttrs c.weightAttrs).length = ws.length := by
      rw [← hs.length_eq]
      exact Aux.getCells_length _ cs _ hlen hc
    refine ⟨{ l with cells := some cs' }, ?_, ?_, ?_, ?_⟩
    · simp only [DConfig.setWeights, hr]
      rw [if_neg (by simp [hl]), hcs]
      dsimp only
      rw [e1]
    · simp only [DConfig.getWeights]
      rw [hr, Aux.getAttrs_rnn _ _ _ cs' rfl, e2]
      rfl
    · simp [hcs, e3]
    · intro i p p' hp hp'
      cases i with
      | none =>
        simp only [Spec.part, Option.some.injEq] at hp hp'
        subst hp hp'
        exact ⟨rfl, rfl, fun _ _ => rfl⟩
      | some k =>
        simp only [Spec.part, hcs, Option.bind_some] at hp hp'
        obtain ⟨g1, g2, g3⟩ := e4 k p p' hp hp'
        refine ⟨g1, g2, fun n hn => g3 n fun ⟨ns, h1, h2⟩ => hn ?_⟩
        simp only [Spec.Names, if_pos hr]
        exact ⟨k, ns, rfl, h1, h2⟩
  · simp only [Spec.FitsLayer, if_neg hr] at hf
    obtain ⟨names, hn, ha⟩ := Aux.plainNames_ok _ hf.1
    rw [Aux.getAttrs_plain hr _ names _ hn] at hc
    have hnd : names.Nodup := by
      have := hf.2; rw [ha] at this; exact this.of_map _
    obtain ⟨c', e1, e2, e3, e4, e5⟩ := Aux.setWeightsLoop_ok shape names hnd l.own cur ws hc hs
    have hl : c.weightAttrs.length = ws.length := by
      rw [ha, List.length_map, ← Aux.getAll_length hc, hs.length_eq]
    refine ⟨{ l with own := c' }, ?_, ?_, rfl, ?_⟩
    · rw [Aux.setWeights_plain hr, if_neg (by simp [hl]), hn]
      dsimp only
      rw [e1]
    · simp only [DConfig.getWeights]
      rw [Aux.getAttrs_plain hr _ names _ hn]
      dsimp only
      rw [e2]
      rfl
    · intro i p p' hp hp'
      cases i with
      | none =>
        simp only [Spec.part, Option.some.injEq] at hp hp'
        subst hp hp'
        refine ⟨e3, e4, fun n hn => e5 n fun h => hn ?_⟩
        rw [Spec.Names, if_neg hr]
        refine ⟨rfl, ?_⟩
        rw [ha]
        exact List.mem_map_of_mem h
      | some k =>
        simp only [Spec.part] at hp hp'
        rw [hp] at hp'
        cases hp'
        exact ⟨rfl, rfl, fun _ _ => rfl⟩

/-- **C81 (success, activations).**  Let the attributes a config names be distinct and present.  Setting as
many activations as the getter returns succeeds; afterwards the getter returns exactly the activations set,
with the same quantizers; nothing else of the layer has changed. -/
theorem C81_activations_partial (c : DConfig) (l : KLayer W A) (cur : List (A × Quantizer))
    (hf : Spec.FitsLayer c.cls c.activationAttrs l) (hget : c.getActivations l = .ok cur) (xs : List A)
    (hl : xs.length = cur.length) :
    ∃ l', c.setActivations xs l = (none, l') ∧
      c.getActivations l' = .ok (xs.map fun w => (w, c.activationQuantizer)) ∧ Spec.SameButActivations c l l' := by
  obtain ⟨cur, hc, rfl⟩ := Aux.map_ok hget
  rw [List.length_map] at hl
  by_cases hr : c.cls = .rnn
  · simp only [Spec.FitsLayer, if_pos hr] at hf
    obtain ⟨⟨cs, hcs, hlen⟩, hnd⟩ := hf
    rw [hr, Aux.getAttrs_rnn _ _ _ cs hcs] at hc
    have hl' : (flattenAttrs c.activationAttrs).length = xs.length := by
      rw [hl]; exact Aux.getCells_length _ cs _ hlen hc
    obtain ⟨e1, e2, e3⟩ := Aux.setActivationsCells_ok c.activationAttrs hnd cs hlen xs hl'
    refine ⟨{ l with cells := some (setActivationsCells c.activationAttrs xs cs) }, ?_, ?_, ?_, ?_⟩
    · simp only [DConfig.setActivations, hr]
      rw [if_neg (by simp [hl']), hcs]
    · simp only [DConfig.getActivations]
      rw [hr, Aux.getAttrs_rnn _ _ _ _ rfl, e1]
      rfl
    · simp [hcs, e2]
    · intro i p p' hp hp'
      cases i with
      | none =>
        simp only [Spec.part, Option.some.injEq] at hp hp'
        subst hp hp'
        exact ⟨rfl, rfl, fun _ _ => rfl⟩
      | some k =>
        simp only [Spec.part, hcs, Option.bind_some] at hp hp'
        obtain ⟨g1, g2, g3⟩ := e3 k p p' hp hp'
        refine ⟨g1, g2, fun n hn => g3 n fun ⟨ns, h1, h2⟩ => hn ?_⟩
        simp only [Spec.Names, if_pos hr]
        exact ⟨k, ns, rfl, h1, h2⟩
  · simp only [Spec.FitsLayer, if_neg hr] at hf
    obtain ⟨names, hn, ha⟩ := Aux.plainNames_ok _ hf.1
    rw [Aux.getAttrs_plain hr _ names _ hn] at hc
    have hnd : names.Nodup := by
      have := hf.2; rw [ha] at this; exact this.of_map _
    have hl' : names.length = xs.length := by rw [hl]; exact (Aux.getAll_length hc).symm
    obtain ⟨e1, e2, e3, e4⟩ := Aux.setActivationsLoop_ok names hnd l.own xs hl'
    refine ⟨{ l with own := setActivationsLoop (names.zip xs) l.own }, ?_, ?_, rfl, ?_⟩
    · rw [Aux.setActivations_plain hr, if_neg (by simp [ha, hl']), hn]
    · simp only [DConfig.getActivations]
      rw [Aux.getAttrs_plain hr _ names _ hn]
      dsimp only
      rw [e1]
      rfl
    · intro i p p' hp hp'
      cases i with
      | none =>
        simp only [Spec.part, Option.some.injEq] at hp hp'
        subst hp hp'
        refine ⟨e2, e3, fun n hn => e4 n fun h => hn ?_⟩
        rw [Spec.Names, if_neg hr]
        refine ⟨rfl, ?_⟩
        rw [ha]
        exact List.mem_map_of_mem h
      | some k =>
        simp only [Spec.part] at hp hp'
        rw [hp] at hp'
        cases hp'
        exact ⟨rfl, rfl, fun _ _ => rfl⟩

/-- **C81 (wrong number).**  Setting another number of weights or activations than the getter returns is a
`ValueError` and leaves the layer as it was. -/
theorem C81_number (shape : W → List ℕ) (c : DConfig) (l : KLayer W A) :
    (∀ cur, Spec.FitsLayer c.cls c.weightAttrs l → c.getWeights l = .ok cur → ∀ ws : List W, ws.length ≠ cur.length →
      c.setWeights shape ws l = (some .value, l)) ∧
    (∀ cur, Spec.FitsLayer c.cls c.activationAttrs l → c.getActivations l = .ok cur → ∀ xs : List A,
      xs.length ≠ cur.length → c.setActivations xs l = (some .value, l)) := by
  constructor
  · intro cur hf hget ws hl
    obtain ⟨cur, hc, rfl⟩ := Aux.map_ok hget
    rw [List.length_map] at hl
    by_cases hr : c.cls = .rnn
    · simp only [Spec.FitsLayer, if_pos hr] at hf
      obtain ⟨⟨cs, hcs, hlen⟩, -⟩ := hf
      rw [hr, Aux.getAttrs_rnn _ _ _ cs hcs] at hc
      have := Aux.getCells_length _ cs _ hlen hc
      simp only [DConfig.setWeights, hr]
      rw [if_pos (by rw [this]; exact hl.symm)]
    · simp only [Spec.FitsLayer, if_neg hr] at hf
      obtain ⟨names, hn, ha⟩ := Aux.plainNames_ok _ hf.1
      rw [Aux.getAttrs_plain hr _ names _ hn] at hc
      rw [Aux.setWeights_plain hr, if_pos]
      rw [ha, List.length_map, ← Aux.getAll_length hc]
      exact hl.symm
  · intro cur hf hget ws hl
    obtain ⟨cur, hc, rfl⟩ := Aux.map_ok hget
    rw [List.length_map] at hl
    by_cases hr : c.cls = .rnn
    · simp only [Spec.FitsLayer, if_pos hr] at hf
      obtain ⟨⟨cs, hcs, hlen⟩, -⟩ := hf
      rw [hr, Aux.getAttrs_rnn _ _ _ cs hcs] at hc
      have := Aux.getCells_length _ cs _ hlen hc
      simp only [DConfig.setActivations, hr]
      rw [if_pos (by rw [this]; exact hl.symm)]
    · simp only [Spec.FitsLayer, if_neg hr] at hf
      obtain ⟨names, hn, ha⟩ := Aux.plainNames_ok _ hf.1
      rw [Aux.getAttrs_plain hr _ names _ hn] at hc
      rw [Aux.setActivations_plain hr, if_pos]
      rw [ha, List.length_map, ← Aux.getAll_length hc]
      exact hl.symm

/-- **C81 (wrong shape).**  Setting a weight of another shape than the current one is a `ValueError`. -/
theorem C81_shape (shape : W → List ℕ) (c : DConfig) (l : KLayer W A) (cur : List (W × Quantizer))
    (hf : Spec.FitsLayer c.cls c.weightAttrs l) (hget : c.getWeights l = .ok cur) (ws : List W)
    (hs : ∃ p ∈ cur.zip ws, shape p.1.1 ≠ shape p.2) : (c.setWeights shape ws l).1 = some .value := by
  by_cases hlen0 : ws.length = cur.length
  swap
  · rw [(C81_number shape c l).1 cur hf hget ws hlen0]
  obtain ⟨cur, hc, rfl⟩ := Aux.map_ok hget
  have hs' : ¬ List.Forall₂ (fun x y => shape x = shape y) cur ws := by
    intro h
    obtain ⟨p, hp, hne⟩ := hs
    rw [List.zip_map_left] at hp
    obtain ⟨q, hq, rfl⟩ := List.mem_map.1 hp
    exact hne ((List.forall₂_zip h) hq)
  rw [List.length_map] at hlen0
  by_cases hr : c.cls = .rnn
  · simp only [Spec.FitsLayer, if_pos hr] at hf
    obtain ⟨⟨cs, hcs, hlen⟩, hnd⟩ := hf
    rw [hr, Aux.getAttrs_rnn _ _ _ cs hcs] at hc
    have hl := (Aux.getCells_length _ cs _ hlen hc).trans hlen0.symm
    obtain ⟨cs', e⟩ := Aux.setWeightsCells_bad shape _ hnd cs hlen cur ws hc hl hs'
    simp only [DConfig.setWeights, hr]
    rw [if_neg (by simp [hl]), hcs]
    dsimp only
    rw [e]
  · simp only [Spec.FitsLayer, if_neg hr] at hf
    obtain ⟨names, hn, ha⟩ := Aux.plainNames_ok _ hf.1
    rw [Aux.getAttrs_plain hr _ names _ hn] at hc
    have hnd : names.Nodup := by
      have := hf.2; rw [ha] at this; exact this.of_map _
    have hl : names.length = ws.length := by rw [hlen0, Aux.getAll_length hc]
    obtain ⟨c', e⟩ := Aux.setWeightsLoop_bad shape names hnd l.own cur ws hc hl.le
      (by rw [hl, List.take_length]; exact hs')
    rw [Aux.setWeights_plain hr, if_neg (by simp [ha, hl]), hn]
    dsimp only
    rw [e]

end

namespace Example

/-- An LSTM-like layer with two cells; a weight is a list, its shape its length. -/
def twoCells : KLayer (List ℕ) String :=
  let cell := fun n => (⟨"Dense", fun s => if s = "kernel" then some [n, n] else if s = "bias" then some [n] else none,
    fun s => if s = "activation" then some "tanh" else none⟩ : Cell (List ℕ) String)
  ⟨⟨"RNN", fun _ => none, fun _ => none⟩, some [cell 1, cell 2]⟩

def twoCellsConfig : DConfig :=
  .mk' false .rnn [.many ["kernel", "bias"], .many ["kernel", "bias"]] [.many ["activation"], .many ["activation"]] false 8 8

end Example

open Example in
/-- The hypotheses of the theorems are met by an RNN with two cells. -/
example : Spec.FitsLayer twoCellsConfig.cls twoCellsConfig.weightAttrs twoCells ∧
    Spec.FitsLayer twoCellsConfig.cls twoCellsConfig.activationAttrs twoCells ∧
    ∃ cur as, twoCellsConfig.getWeights twoCells = .ok cur ∧ cur.map Prod.fst = [[1, 1], [1], [2, 2], [2]] ∧
      List.Forall₂ (fun x w => [x.1.length] = [w.length]) cur [[3, 3], [4], [5, 5], [6]] ∧
      twoCellsConfig.getActivations twoCells = .ok as ∧ as.length = 2 := by
  refine ⟨?_, ?_, _, _, rfl, rfl, ?_, rfl, rfl⟩
  · refine ⟨⟨_, rfl, rfl⟩, ?_⟩
    intro x hx
    simp [twoCellsConfig, DConfig.mk'] at hx
    exact ⟨_, hx, by decide⟩
  · refine ⟨⟨_, rfl, rfl⟩, ?_⟩
    intro x hx
    simp [twoCellsConfig, DConfig.mk'] at hx
    exact ⟨_, hx, by decide⟩
  · exact .cons rfl (.cons rfl (.cons rfl (.cons rfl .nil)))

open Example in
/-- C81: a failing call is not without effect: here the second weight has a wrong shape, and the first one
has been replaced when the `ValueError` is raised. -/
theorem C81_atomic_violated : ∃ (c : DConfig) (l : KLayer (List ℕ) String) (ws : List (List ℕ)),
    Spec.FitsLayer c.cls c.weightAttrs l ∧ (c.setWeights (fun w => [w.length]) ws l).1 = some .value ∧
    ∃ cur cur', c.getWeights l = .ok cur ∧ c.getWeights (c.setWeights (fun w => [w.length]) ws l).2 = .ok cur' ∧
      cur ≠ cur' := by
  refine ⟨twoCellsConfig, twoCells, [[3, 3], [4, 4], [5, 5], [6]], ?_, rfl, _, _, rfl, rfl, by decide⟩
  refine ⟨⟨_, rfl, rfl⟩, ?_⟩
  intro x hx
  simp [twoCellsConfig, DConfig.mk'] at hx
  exact ⟨_, hx, by decide⟩

end Verif.Props
