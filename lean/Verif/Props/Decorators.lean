import Verif.Encoding.Decorators
import Mathlib.Tactic.SplitIfs

/-!
# Property C111: decorating a stage does not change what it does

`tf_style_encoding_stage` and `tf_style_adaptive_encoding_stage` are to be applied to every implementation of a stage;
`as_adaptive_encoding_stage` promises not to modify the functionality of a stage in any way.
-/

set_option linter.unusedSectionVars false
namespace Verif.Props
open Verif.Encoding.Decorators
variable {V R : Type*}

/-- No decorator is involved in a class. -/
def Spec.Undecorated : Cls V → Prop
  | .base _ _ => True
  | .decorate _ => False
  | .sub c _ _ => Spec.Undecorated c

/-- A method that deletes only attributes with the property `ok`. -/
def Spec.DeletesOnly (ok : String → Prop) : Prog V R → Prop
  | .ret _ => True
  | .get _ k => ∀ v, Spec.DeletesOnly ok (k v)
  | .set _ _ k => Spec.DeletesOnly ok k
  | .del a k => ok a ∧ ∀ b, Spec.DeletesOnly ok (k b)

/-- The value the constructor gives to an attribute of the instance. -/
def Spec.initial : Cls V → String → Option V
  | .base _ init, a => init a
  | .decorate c, a => Spec.initial c a
  | .sub c _ init, a => (init a).orElse fun _ => Spec.initial c a

/-- The constructor gives no attribute another value than a class attribute of the same name has. -/
def Spec.NoShadow (c : Cls V) : Prop :=
  ∀ a v w, Spec.initial c a = some v → c.attrs a = some w → v = w

namespace Aux

theorem deco_plain {c : Cls V} (h : Spec.Undecorated c) : c.new = .plain c.attrs (Spec.initial c) := by
  induction c with
  | base cls init => rfl
  | decorate c _ => exact h.elim
  | sub c cls init ih =>
    simp only [Cls.new, ih h, Obj.extend, Cls.attrs]
    rfl

theorem deco_get_plain {c : Cls V} (h : Spec.Undecorated c) (a : String) :
    c.new.getAttr a = (Spec.initial c a).orElse fun _ => c.attrs a := by
  rw [deco_plain h]; rfl

theorem deco_get_deco {c : Cls V} (h : Spec.Undecorated c) (a : String) :
    (Cls.decorate c).new.getAttr a = (c.attrs a).orElse fun _ => Spec.initial c a := by
  simp only [Cls.new, Obj.getAttr, Obj.getattribute, Attrs.empty, Option.bind_some, deco_plain h]
  cases c.attrs a with
  | some v => rfl
  | none =>
    cases Spec.initial c a <;> rfl

/-- The decorated instance and the plain one, in the course of method calls. -/
inductive DecoSim (cls init : Attrs V) : Obj V → Obj V → Prop
  | mk (d : Attrs V) : DecoSim cls init (.deco cls d (some (.plain cls init)))
      (.plain cls fun a => (d a).orElse fun _ => init a)

theorem decoSim_get {cls init : Attrs V} (hs : ∀ a v w, init a = some v → cls a = some w → v = w) {o o' : Obj V}
    (h : DecoSim cls init o o') (a : String) : o.getAttr a = o'.getAttr a := by
  obtain ⟨d⟩ := h
  simp only [Obj.getAttr, Obj.getattribute, Option.bind_some]
  cases d a with
  | some v => rfl
  | none =>
    cases h1 : init a with
    | none => cases cls a <;> rfl
    | some v =>
      cases h2 : cls a with
      | none => rfl
      | some w => rw [hs a v w h1 h2]; rfl

theorem decoSim_set {cls init : Attrs V} {o o' : Obj V} (h : DecoSim cls init o o') (a : String) (v : V) :
    DecoSim cls init (o.setAttr a v) (o'.setAttr a v) := by
  obtain ⟨d⟩ := h
  simp only [Obj.setAttr]
  have : Attrs.set (fun a => (d a).orElse fun _ => init a) a v =
      fun b => ((d.set a v) b).orElse fun _ => init b := by
    funext b
    simp only [Attrs.set]
    split_ifs <;> rfl
  rw [this]
  exact .mk _

theorem decoSim_del {cls init : Attrs V} {o o' : Obj V} (h : DecoSim cls init o o') {a : String}
    (ha : init a = none) :
    (o.delAttr a = none ∧ o'.delAttr a = none) ∨
      ∃ o1 o1', o.delAttr a = some o1 ∧ o'.delAttr a = some o1' ∧ DecoSim cls init o1 o1' := by
  obtain ⟨d⟩ := h
  cases hd : d a with
  | none => left; simp [Obj.delAttr, ha, hd]
  | some v =>
    right
    refine ⟨.deco cls (d.del a) (some (.plain cls init)),
      .plain cls (Attrs.del (fun a => (d a).orElse fun _ => init a) a), by simp [Obj.delAttr, hd],
      by simp [Obj.delAttr, hd], ?_⟩
    have : Attrs.del (fun a => (d a).orElse fun _ => init a) a =
        fun b => ((d.del a) b).orElse fun _ => init b := by
      funext b
      simp only [Attrs.del]
      split_ifs with e
      · subst e; rw [ha]; rfl
      · rfl
    rw [this]
    exact .mk _

theorem prog_same {cls init : Attrs V} (hs : ∀ a v w, init a = some v → cls a = some w → v = w) {p : Prog V R}
    (hp : Spec.DeletesOnly (fun a => init a = none) p) : ∀ {o o' : Obj V}, DecoSim cls init o o' →
    (p.run o).1 = (p.run o').1 ∧ DecoSim cls init (p.run o).2 (p.run o').2 := by
  induction p with
  | ret r => intro o o' h; exact ⟨rfl, h⟩
  | get a k ih =>
    intro o o' h
    simp only [Prog.run, decoSim_get hs h a]
    exact ih _ (hp _) h
  | set a v k ih =>
    intro o o' h
    exact ih hp (decoSim_set h a v)
  | del a k ih =>
    intro o o' h
    rcases decoSim_del h hp.1 with ⟨h1, h2⟩ | ⟨o1, o1', h1, h2, h3⟩
    · simp only [Prog.run, h1, h2]
      exact ih _ (hp.2 _) h
    · simp only [Prog.run, h1, h2]
      exact ih _ (hp.2 _) h3

theorem runAll_same {cls init : Attrs V} (hs : ∀ a v w, init a = some v → cls a = some w → v = w)
    {ps : List (Prog V R)} (hp : ∀ p ∈ ps, Spec.DeletesOnly (fun a => init a = none) p) : ∀ {o o' : Obj V},
    DecoSim cls init o o' → runAll ps o = runAll ps o' := by
  induction ps with
  | nil => intro o o' _; rfl
  | cons p ps ih =>
    intro o o' h
    obtain ⟨h1, h2⟩ := prog_same hs (hp p List.mem_cons_self) h
    simp only [runAll, h1, ih (fun q hq => hp q (List.mem_cons_of_mem _ hq)) h2]

end Aux

/-- **C111** (attributes).  An instance of a decorated class has every attribute that an instance of the class has,
with the same value, exactly if no constructor gives an attribute another value than its class does. -/
theorem C111_attributes (c : Cls V) (h : Spec.Undecorated c) :
    (∀ a, (Cls.decorate c).new.getAttr a = c.new.getAttr a) ↔ Spec.NoShadow c := by
  constructor
  · intro hall a v w hv hw
    have := hall a
    rw [Aux.deco_get_deco h, Aux.deco_get_plain h, hv, hw] at this
    simpa using this.symm
  · intro hs a
    rw [Aux.deco_get_deco h, Aux.deco_get_plain h]
    cases hv : Spec.initial c a with
    | none => cases c.attrs a <;> rfl
    | some v =>
      cases hw : c.attrs a with
      | none => rfl
      | some w => rw [hs a v w hv hw]

/-- **C111** (behaviour).  Methods of the class, called one after the other, return the same results on an instance of
the decorated class as on an instance of the class, whatever attributes they read and write, if they delete only
attributes that no constructor sets.

The property claims this for every class and every method.  Proved for classes that do not override a class
attribute, for methods that delete none of the attributes a constructor sets, and for one decorator; see
`C111_default_violated`, `C111_delete_violated` and `C111_twice_violated`. -/
theorem C111_behaviour_partial (c : Cls V) (h : Spec.Undecorated c) (hs : Spec.NoShadow c) (ps : List (Prog V R))
    (hp : ∀ p ∈ ps, Spec.DeletesOnly (fun a => Spec.initial c a = none) p) :
    runAll ps (Cls.decorate c).new = runAll ps c.new := by
  refine Aux.runAll_same hs hp ?_
  rw [Cls.new, Aux.deco_plain h]
  have := Aux.DecoSim.mk (cls := c.attrs) (init := Spec.initial c) Attrs.empty
  simpa only [Attrs.empty, Option.orElse_none] using this

/-- **C111** is violated for class attributes that serve as defaults: the value that a constructor gives to such an
attribute is ignored by the decorated class. -/
theorem C111_default_violated (a : String) (default v : V) :
    let c : Cls V := .base (fun b => if b = a then some default else none) (fun b => if b = a then some v else none)
    c.new.getAttr a = some v ∧ (Cls.decorate c).new.getAttr a = some default := by
  dsimp only
  rw [Aux.deco_get_deco (by trivial), Aux.deco_get_plain (by trivial)]
  simp [Spec.initial, Cls.attrs]

/-- **C111** is violated for deletion: an attribute that a constructor has set can be deleted by a method of the class,
but not by the same method of the decorated class. -/
theorem C111_delete_violated (a : String) (v : V) :
    let c : Cls V := .base (fun _ => none) (fun b => if b = a then some v else none)
    let p : Prog V (Bool × Bool) := .del a fun ok => .get a fun x => .ret (ok, x.isSome)
    runAll [p] c.new = [(true, false)] ∧ runAll [p] (Cls.decorate c).new = [(false, true)] := by
  simp [runAll, Prog.run, Cls.new, Obj.delAttr, Obj.getAttr, Obj.getattribute, Attrs.del, Attrs.empty]

/-- **C111** is violated for a decorated subclass of a decorated class: no attribute that the constructor of the inner
class sets can be read, unless the subclass sets it too or a class has it. -/
theorem C111_twice_violated (c : Cls V) (h : Spec.Undecorated c) (cls init : Attrs V) (a : String)
    (h1 : c.attrs a = none) (h2 : cls a = none) (h3 : init a = none) :
    (Cls.sub c cls init).new.getAttr a = Spec.initial c a ∧
    (Cls.decorate (.sub (.decorate c) cls init)).new.getAttr a = none := by
  constructor
  · rw [Aux.deco_get_plain (by exact h)]
    simp [Spec.initial, Cls.attrs, h1, h2, h3]
  · simp [Cls.new, Obj.getAttr, Obj.getattribute, Attrs.empty, Obj.extend, Cls.attrs, h1, h2, h3]

/-- What a decorated subclass of a decorated class still has: the class attributes of both classes, and what the
constructor of the subclass itself sets. -/
theorem C111_twice (c : Cls V) (h : Spec.Undecorated c) (cls init : Attrs V) (a : String) :
    (Cls.decorate (.sub (.decorate c) cls init)).new.getAttr a =
      ((cls a).orElse fun _ => c.attrs a).orElse fun _ => init a := by
  cases h1 : cls a <;> cases h2 : c.attrs a <;> cases h3 : init a <;>
    simp [Cls.new, Obj.getAttr, Obj.getattribute, Attrs.empty, Obj.extend, Cls.attrs, h1, h2, h3]

/-- A subclass of a decorated class that is not decorated itself works, with the class attributes `cls` it adds, if
those and the class attributes of the decorated class are not overridden by the constructor of the latter. -/
theorem C111_undecorated_subclass (c : Cls V) (h : Spec.Undecorated c) (cls init : Attrs V)
    (hs : Spec.NoShadow (.sub c cls fun _ => none)) (a : String) :
    (Cls.sub (.decorate c) cls init).new.getAttr a = (Cls.sub c cls init).new.getAttr a := by
  have hs' := hs a
  rw [Aux.deco_get_plain (c := Cls.sub c cls init) h]
  simp only [Cls.new, Aux.deco_plain h, Obj.extend, Obj.getAttr, Obj.getattribute, Attrs.empty, Spec.initial,
    Cls.attrs] at hs' ⊢
  cases init a with
  | some v => rfl
  | none =>
    cases h1 : cls a <;> cases h2 : c.attrs a <;> cases h3 : Spec.initial c a <;> simp_all

/-- **C111** is violated for copies: `copy.copy`, `copy.deepcopy` and `pickle.loads` of an instance of a decorated class
exhaust the stack, however large it is, since its `__getattr__` needs the attribute `_wrapped_class` of an object that
has no attributes yet; those of the class itself do not. -/
theorem C111_copy_violated (c : Cls V) (h : Spec.Undecorated c) (h1 : c.attrs "__setstate__" = none)
    (h2 : c.attrs "_wrapped_class" = none) (fuel : ℕ) :
    c.new.blank.getAttrF fuel "__setstate__" = some none ∧
    (Cls.decorate c).new.blank.getAttrF fuel "__setstate__" = none := by
  constructor
  · rw [Aux.deco_plain h]
    cases fuel <;> simp [Obj.blank, Obj.getAttrF, Obj.getattribute, Attrs.empty, h1]
  · have key : ∀ fuel, (Obj.deco c.attrs Attrs.empty none).getAttrF fuel "_wrapped_class" = none := by
      intro fuel
      induction fuel with
      | zero => simp [Obj.getAttrF, Obj.getattribute, Attrs.empty, h2]
      | succ n ih =>
        unfold Obj.getAttrF
        simp [Obj.getattribute, Attrs.empty, h2, ih]
    simp only [Cls.new, Obj.blank]
    cases fuel with
    | zero => simp [Obj.getAttrF, Obj.getattribute, Attrs.empty, h1]
    | succ n =>
      unfold Obj.getAttrF
      simp [Obj.getattribute, Attrs.empty, h1, key n]

/-- **C111** (adapter).  `as_adaptive_encoding_stage` of a decorated stage computes what the stage does, with an empty
state. -/
theorem C111_adapter (s : Stage X P E) :
    adaptedGetParams (decorateStage s) = some s.getParams ∧
    (∀ x p, adaptedEncode (decorateStage s) x p = some (s.encode x p, [])) ∧
    ∀ e p, adaptedDecode (decorateStage s) e p = some (s.decode e p) :=
  ⟨rfl, fun _ _ => rfl, fun _ _ => rfl⟩

/-- **C111** is violated for stages that are not decorated: the adapter passes the argument `name`, which the methods
of the interface do not have, so every call fails. -/
theorem C111_adapter_violated (s : Stage X P E) (h : s.takesName = false) :
    adaptedGetParams s = none ∧ (∀ x p, adaptedEncode s x p = none) ∧ ∀ e p, adaptedDecode s e p = none := by
  simp [adaptedGetParams, adaptedEncode, adaptedDecode, callPositional, arity, h]

namespace Example

/-- A stage with a class constant and an attribute set by its constructor, as the shipped ones. -/
def quantizationClass : Cls ℕ :=
  .base (fun a => if a = "ENCODED_VALUES_KEY" then some 0 else none) fun a => if a = "_bits" then some 8 else none

/-- A method that counts its calls in an attribute. -/
def countingMethod : Prog ℕ (Option ℕ) :=
  .get "_bits" fun b => .get "_calls" fun n => .set "_calls" (n.getD 0 + 1) (.get "_calls" fun m =>
    .ret (b.bind fun b => m.map fun m => b + m))

example : Spec.Undecorated quantizationClass ∧ Spec.NoShadow quantizationClass ∧
    Spec.DeletesOnly (fun a => Spec.initial quantizationClass a = none) countingMethod ∧
    runAll [countingMethod, countingMethod] (Cls.decorate quantizationClass).new = [some 9, some 10] := by
  refine ⟨trivial, ?_, ?_, ?_⟩
  · intro a v w h1 h2
    simp only [quantizationClass, Spec.initial, Cls.attrs] at h1 h2
    split_ifs at h1 h2 with e1 e2
    subst e1
    simp at e2
  · intro _ _ _; trivial
  · rfl

/-- A method that deletes the attribute it has set. -/
def forgettingMethod : Prog ℕ (Bool × Option ℕ) :=
  .set "_calls" 3 (.del "_calls" fun ok => .get "_calls" fun n => .ret (ok, n))

example : Spec.DeletesOnly (fun a => Spec.initial quantizationClass a = none) forgettingMethod ∧
    runAll [forgettingMethod] (Cls.decorate quantizationClass).new = [(true, none)] := by
  refine ⟨⟨?_, fun _ _ => trivial⟩, rfl⟩
  simp [quantizationClass, Spec.initial]

example : Spec.NoShadow (.sub quantizationClass (fun a => if a = "BITS_KEY" then some 1 else none) fun _ => none) := by
  intro a v w h1 h2
  simp only [quantizationClass, Spec.initial, Cls.attrs, Option.orElse_none] at h1 h2
  split_ifs at h1 with e1
  subst e1
  simp at h2

end Example
end Verif.Props
