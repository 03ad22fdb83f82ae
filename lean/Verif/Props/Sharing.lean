import Verif.Sharing
import Mathlib.Data.List.Basic

/-!
# C121: who owns the weights

Quantization works on a copy of the model; pruning works on the layers of the model itself.
-/

set_option linter.unusedSectionVars false
namespace Verif.Props
open Verif.Sharing

variable {V : Type u}

/-! ## Specification -/

/-- All variables of the model exist. -/
def Spec.Exists (s : Store V) (m : List Obj) : Prop := ∀ o ∈ m, ∀ i ∈ o.vars, i < s.vals.length

/-- The layers without their wrappers. -/
def Spec.bareLayers (m : List Obj) : List Obj :=
  m.map fun o => match o with
    | .wrapper _ _ inner => inner
    | o => o

/-- What each layer (not its wrapper) of a model is called and which values its weights have at present. -/
def Spec.namesAndValues (s : Store V) (m : List Obj) : List (String × List (Option V)) :=
  (Spec.bareLayers m).map fun o => (o.name, o.vars.map fun i => s.vals[i]?)

/-- Training a model: any values are assigned to any of its variables, any number of times. -/
def Spec.Trains (m : List Obj) (steps : List (Nat × V)) : Prop := ∀ p ∈ steps, ∃ o ∈ m, p.1 ∈ o.vars

/-- A model of plain layers, some of them annotated. -/
def Spec.PlainLayers (m : List Obj) : Prop :=
  ∀ o ∈ m, ∃ n vs, o = .layer n vs ∨ o = .wrapper .annotate [] (.layer n vs)

/-! ## Stores -/

theorem Aux.assignAll_tail (a : List V) : ∀ (l : List (Nat × V)) (b : List V), (∀ p ∈ l, a.length ≤ p.1) →
    ∃ b', (Store.assignAll ⟨a ++ b⟩ l).vals = a ++ b' ∧ b'.length = b.length
  | [], b, _ => ⟨b, rfl, rfl⟩
  | p :: l, b, h => by
    have hp := h p List.mem_cons_self
    obtain ⟨b', h1, h2⟩ := Aux.assignAll_tail a l (b.set (p.1 - a.length) p.2) fun q hq => h q (List.mem_cons_of_mem _ hq)
    refine ⟨b', ?_, by rw [h2, List.length_set]⟩
    rw [← h1]
    simp only [Store.assignAll, List.foldl_cons, Store.assign]
    rw [List.set_append_right _ _ hp]

theorem Aux.assignAll_length : ∀ (l : List (Nat × V)) (s : Store V), (s.assignAll l).vals.length = s.vals.length
  | [], _ => rfl
  | p :: l, s => by
    have := Aux.assignAll_length l (s.assign p.1 p.2)
    simp only [Store.assignAll, List.foldl_cons] at this ⊢
    rw [this]; simp [Store.assign]

theorem Aux.assignAll_other : ∀ (l : List (Nat × V)) (s : Store V) (i : Nat), (∀ p ∈ l, p.1 ≠ i) →
    (s.assignAll l).vals[i]? = s.vals[i]?
  | [], _, _, _ => rfl
  | p :: l, s, i, h => by
    have := Aux.assignAll_other l (s.assign p.1 p.2) i fun q hq => h q (List.mem_cons_of_mem _ hq)
    simp only [Store.assignAll, List.foldl_cons] at this ⊢
    rw [this]
    simp only [Store.assign]
    rw [List.getElem?_set_ne (h p List.mem_cons_self)]

/-- Assigning a list of values to consecutive variables. -/
theorem Aux.assignAll_range (values : List V) : ∀ (a b c : List V), b.length = values.length →
    (Store.assignAll ⟨a ++ b ++ c⟩ ((List.range' a.length values.length).zip values)).vals = a ++ values ++ c := by
  induction values with
  | nil =>
    intro a b c h
    rw [List.length_eq_zero_iff.1 h]; rfl
  | cons v values ih =>
    intro a b c h
    cases b with
    | nil => cases h
    | cons x b =>
      have := ih (a ++ [v]) b c (by simpa using h)
      simp only [List.length_append, List.length_singleton] at this
      simp only [List.length_cons, List.range'_succ, List.zip_cons_cons, Store.assignAll, List.foldl_cons, Store.assign]
      simp only [Store.assignAll, Store.assign] at this
      have e : (a ++ x :: b ++ c).set a.length v = a ++ [v] ++ b ++ c := by
        rw [List.append_assoc, List.set_append_right _ _ (Nat.le_refl _)]
        simp
      rw [e, this]
      simp

/-! ## Copies -/

theorem Aux.fresh_spec (init : Nat → V) : ∀ (o : Obj) (s : Store V), ∃ ext,
    (fresh init s o).1.vals = s.vals ++ ext ∧ ext.length = o.vars.length ∧
    (fresh init s o).2.vars = List.range' s.vals.length o.vars.length
  | .layer n vs, s => ⟨_, rfl, by simp [Obj.vars], by simp [fresh, Store.alloc, Obj.vars]⟩
  | .wrapper k own inner, s => by
    obtain ⟨e, h1, h2, h3⟩ := Aux.fresh_spec init inner s
    refine ⟨e ++ (List.range' (s.vals ++ e).length own.length).map init, ?_, ?_, ?_⟩
    · simp only [fresh, Store.alloc, h1, List.append_assoc]
    · simp [Obj.vars, h2]
    · simp only [fresh, Store.alloc, Obj.vars, h3, h1, List.length_append, h2, List.length_map, List.length_range']
      have := List.range'_append (s := s.vals.length) (m := inner.vars.length) (n := own.length) (step := 1)
      rw [Nat.one_mul] at this
      rw [this]

theorem Aux.clone_spec (init : Nat → V) : ∀ (m : List Obj) (s : Store V), ∃ ext,
    (cloneModel (fresh init) s m).1.vals = s.vals ++ ext ∧ ext.length = (m.flatMap Obj.vars).length ∧
    (cloneModel (fresh init) s m).2.flatMap Obj.vars = List.range' s.vals.length (m.flatMap Obj.vars).length
  | [], s => ⟨[], by simp [cloneModel], rfl, rfl⟩
  | o :: m, s => by
    obtain ⟨e, h1, h2, h3⟩ := Aux.fresh_spec init o s
    obtain ⟨e', g1, g2, g3⟩ := Aux.clone_spec init m (fresh init s o).1
    refine ⟨e ++ e', ?_, ?_, ?_⟩
    · simp only [cloneModel, g1, h1, List.append_assoc]
    · simp [h2, g2]
    · simp only [cloneModel, List.flatMap_cons, g3, h3, h1, List.length_append, h2]
      have := List.range'_append (s := s.vals.length) (m := o.vars.length) (n := (m.flatMap Obj.vars).length) (step := 1)
      rw [Nat.one_mul] at this
      rw [this]

theorem Aux.rebuild_spec : ∀ (l : List (String × List V)) (s : Store V), ∃ ext,
    (rebuild s l).1.vals = s.vals ++ ext ∧
    ∀ o ∈ (rebuild s l).2, ∀ i ∈ o.vars, s.vals.length ≤ i ∧ i < (rebuild s l).1.vals.length
  | [], s => ⟨[], by simp [rebuild], by simp [rebuild]⟩
  | (n, vs) :: l, s => by
    obtain ⟨e, h1, h2⟩ := Aux.rebuild_spec l (s.alloc vs).1
    have h1' : (rebuild s ((n, vs) :: l)).1.vals = s.vals ++ (vs ++ e) := by
      simp only [rebuild, h1]; simp [Store.alloc]
    refine ⟨vs ++ e, h1', ?_⟩
    intro o ho i hi
    have hl := congrArg List.length h1'
    simp only [List.length_append] at hl
    simp only [rebuild, List.mem_cons] at ho
    rcases ho with rfl | ho
    · simp only [Store.alloc, Obj.vars, List.mem_range'_1] at hi
      omega
    · have := h2 o ho i hi
      simp only [Store.alloc, List.length_append] at this
      refine ⟨by omega, ?_⟩
      have e2 : (rebuild s ((n, vs) :: l)).1 = (rebuild (s.alloc vs).1 l).1 := rfl
      rw [e2]; exact this.2

theorem Aux.quantizer_spec (q : String → Option (List V)) : ∀ (m : List Obj) (s : Store V), ∃ ext,
    (cloneModel (addQuantizer q) s m).1.vals = s.vals ++ ext ∧
    ∀ o ∈ (cloneModel (addQuantizer q) s m).2, ∀ i ∈ o.vars,
      (∃ o' ∈ m, i ∈ o'.vars) ∨ s.vals.length ≤ i ∧ i < (cloneModel (addQuantizer q) s m).1.vals.length
  | [], s => ⟨[], by simp [cloneModel], by simp [cloneModel]⟩
  | o :: m, s => by
    have ho : ∃ e, (addQuantizer q s o).1.vals = s.vals ++ e ∧ ∀ i ∈ (addQuantizer q s o).2.vars,
        i ∈ o.vars ∨ s.vals.length ≤ i ∧ i < (addQuantizer q s o).1.vals.length := by
      unfold addQuantizer
      cases q o.name with
      | none => exact ⟨[], by simp, fun i hi => .inl hi⟩
      | some own =>
        refine ⟨own, rfl, fun i hi => ?_⟩
        simp only [Store.alloc, Obj.vars, List.mem_append, List.mem_range'_1, List.length_append] at hi ⊢
        exact hi
    obtain ⟨e, h1, h2⟩ := ho
    obtain ⟨e', g1, g2⟩ := Aux.quantizer_spec q m (addQuantizer q s o).1
    have h1' : (cloneModel (addQuantizer q) s (o :: m)).1.vals = s.vals ++ (e ++ e') := by
      simp only [cloneModel, g1, h1, List.append_assoc]
    have hl := congrArg List.length h1'
    have hl1 := congrArg List.length h1
    simp only [List.length_append] at hl hl1
    refine ⟨e ++ e', h1', ?_⟩
    intro o' ho' i hi
    simp only [cloneModel, List.mem_cons] at ho'
    rcases ho' with rfl | ho'
    · rcases h2 i hi with h | h
      · exact .inl ⟨o, List.mem_cons_self, h⟩
      · exact .inr ⟨h.1, by omega⟩
    · rcases g2 o' ho' i hi with ⟨o'', h, h'⟩ | h
      · exact .inl ⟨o'', List.mem_cons_of_mem _ h, h'⟩
      · have e2 : (cloneModel (addQuantizer q) s (o :: m)).1 = (cloneModel (addQuantizer q) (addQuantizer q s o).1 m).1 := rfl
        rw [e2]
        exact .inr ⟨by omega, h.2⟩

theorem Aux.apply_private (init : Nat → V) (tr : List (String × List V) → List (String × List V))
    (q : String → Option (List V)) (s : Store V) (m : List Obj) :
    ∃ ext, (quantizeApply init tr q s m).1.vals = s.vals ++ ext ∧
      ∀ o ∈ (quantizeApply init tr q s m).2, ∀ i ∈ o.vars,
        s.vals.length ≤ i ∧ i < (quantizeApply init tr q s m).1.vals.length := by
  obtain ⟨e, h1, h2, h3⟩ := Aux.clone_spec init m s
  have hset : ∃ e₁, (setWeights (cloneModel (fresh init) s m).1 (cloneModel (fresh init) s m).2 (getWeights s m)).vals =
      s.vals ++ e₁ := by
    unfold setWeights
    rw [h3]
    obtain ⟨b', g, -⟩ := Aux.assignAll_tail s.vals
      ((List.range' s.vals.length (m.flatMap Obj.vars).length).zip (getWeights s m)) e (by
        rintro ⟨i, v⟩ hp
        exact (List.mem_range'_1.1 (List.of_mem_zip hp).1).1)
    refine ⟨b', ?_⟩
    rw [← g]
    congr 2
    rw [← h1]
  obtain ⟨e₁, hs1⟩ := hset
  obtain ⟨e₂, r1, r2⟩ := Aux.rebuild_spec (tr (layerWeights
    (setWeights (cloneModel (fresh init) s m).1 (cloneModel (fresh init) s m).2 (getWeights s m))
    ((cloneModel (fresh init) s m).2.map unwrap)))
    (setWeights (cloneModel (fresh init) s m).1 (cloneModel (fresh init) s m).2 (getWeights s m))
  obtain ⟨e₃, q1, q2⟩ := Aux.quantizer_spec q (rebuild
    (setWeights (cloneModel (fresh init) s m).1 (cloneModel (fresh init) s m).2 (getWeights s m))
    (tr (layerWeights
    (setWeights (cloneModel (fresh init) s m).1 (cloneModel (fresh init) s m).2 (getWeights s m))
    ((cloneModel (fresh init) s m).2.map unwrap)))).2 (rebuild
    (setWeights (cloneModel (fresh init) s m).1 (cloneModel (fresh init) s m).2 (getWeights s m))
    (tr (layerWeights
    (setWeights (cloneModel (fresh init) s m).1 (cloneModel (fresh init) s m).2 (getWeights s m))
    ((cloneModel (fresh init) s m).2.map unwrap)))).1
  refine ⟨e₁ ++ e₂ ++ e₃, ?_, ?_⟩
  · simp only [quantizeApply]
    rw [q1, r1, hs1]
    simp only [List.append_assoc]
  · intro o ho i hi
    have l1 := congrArg List.length r1
    have l2 := congrArg List.length hs1
    have l3 := congrArg List.length q1
    simp only [List.length_append] at l1 l2 l3
    simp only [quantizeApply] at ho ⊢
    rcases q2 o ho i hi with ⟨o', ho', hi'⟩ | h
    · have := r2 o' ho' i hi'
      omega
    · exact ⟨by omega, h.2⟩

theorem Aux.annotate_store (lam : String → Bool) : ∀ (m : List Obj) (s : Store V), (annotateModel lam s m).1 = s
  | [], _ => rfl
  | o :: m, s => by
    have h : (addAnnotation lam s o).1 = s := by
      unfold addAnnotation; split
      · rfl
      · split <;> rfl
    have := Aux.annotate_store lam m s
    simp only [annotateModel, cloneModel] at this ⊢
    rw [h]; exact this

theorem Aux.bareLayers_vars (m : List Obj) : ∀ o ∈ Spec.bareLayers m, ∃ o' ∈ m, ∀ i ∈ o.vars, i ∈ o'.vars := by
  intro o ho
  obtain ⟨o', h, rfl⟩ := List.mem_map.1 ho
  refine ⟨o', h, ?_⟩
  cases o' with
  | layer n vs => exact fun i hi => hi
  | wrapper k own inner => exact fun i hi => List.mem_append_left _ hi

theorem Aux.names_congr (s s' : Store V) (m : List Obj) (h : ∀ o ∈ m, ∀ i ∈ o.vars, s.vals[i]? = s'.vals[i]?) :
    Spec.namesAndValues s m = Spec.namesAndValues s' m := by
  unfold Spec.namesAndValues
  apply List.map_congr_left
  intro o ho
  obtain ⟨o', ho', hi⟩ := Aux.bareLayers_vars m o ho
  congr 1
  exact List.map_congr_left fun i h' => h o' ho' i (hi i h')

/-! ## Quantization owns its weights -/

/-- All variables of the model which `quantize_apply` or `quantize_model` returns, in the layers and in the
wrappers, were made by this call: none of them existed before. -/
theorem C121_quantize_new_variables (lam : String → Bool) (init : Nat → V)
    (tr : List (String × List V) → List (String × List V)) (q : String → Option (List V)) (s : Store V)
    (m : List Obj) :
    (∀ o ∈ (quantizeApply init tr q s m).2, ∀ i ∈ o.vars,
      s.vals.length ≤ i ∧ i < (quantizeApply init tr q s m).1.vals.length) ∧
    (∀ o ∈ (quantizeModel lam init tr q s m).2, ∀ i ∈ o.vars,
      s.vals.length ≤ i ∧ i < (quantizeModel lam init tr q s m).1.vals.length) := by
  refine ⟨(Aux.apply_private init tr q s m).choose_spec.2, ?_⟩
  have h := (Aux.apply_private init tr q s (annotateModel lam s m).2).choose_spec.2
  simp only [quantizeModel, Aux.annotate_store]
  exact h

/-- The call changes no variable which existed before. -/
theorem C121_quantize_changes_nothing (lam : String → Bool) (init : Nat → V)
    (tr : List (String × List V) → List (String × List V)) (q : String → Option (List V)) (s : Store V)
    (m : List Obj) (i : Nat) (hi : i < s.vals.length) :
    (quantizeApply init tr q s m).1.vals[i]? = s.vals[i]? ∧
    (quantizeModel lam init tr q s m).1.vals[i]? = s.vals[i]? := by
  have key : ∀ m', (quantizeApply init tr q s m').1.vals[i]? = s.vals[i]? := fun m' => by
    rw [(Aux.apply_private init tr q s m').choose_spec.1, List.getElem?_append_left hi]
  refine ⟨key m, ?_⟩
  simp only [quantizeModel, Aux.annotate_store]
  exact key _

/-- However the quantized model is trained, every model which existed before, the original among them, has the
weights that it had before. -/
theorem C121_training_keeps_original (lam : String → Bool) (init : Nat → V)
    (tr : List (String × List V) → List (String × List V)) (q : String → Option (List V)) (s : Store V)
    (m : List Obj) (steps : List (Nat × V)) (ht : Spec.Trains (quantizeModel lam init tr q s m).2 steps)
    (old : List Obj) (ho : Spec.Exists s old) :
    Spec.namesAndValues ((quantizeModel lam init tr q s m).1.assignAll steps) old = Spec.namesAndValues s old := by
  apply Aux.names_congr
  intro o h i hi
  have hlt := ho o h i hi
  rw [Aux.assignAll_other, (C121_quantize_changes_nothing lam init tr q s m i hlt).2]
  intro p hp e
  obtain ⟨o', ho', h'⟩ := ht p hp
  have := (C121_quantize_new_variables lam init tr q s m).2 o' ho' p.1 h'
  omega

/-- And however the original, or another model which existed before, is trained, the quantized model keeps its
weights. -/
theorem C121_training_original_keeps_quantized (lam : String → Bool) (init : Nat → V)
    (tr : List (String × List V) → List (String × List V)) (q : String → Option (List V)) (s : Store V)
    (m old : List Obj) (ho : Spec.Exists s old) (steps : List (Nat × V)) (ht : Spec.Trains old steps) :
    Spec.namesAndValues ((quantizeModel lam init tr q s m).1.assignAll steps) (quantizeModel lam init tr q s m).2 =
    Spec.namesAndValues (quantizeModel lam init tr q s m).1 (quantizeModel lam init tr q s m).2 := by
  apply Aux.names_congr
  intro o h i hi
  apply Aux.assignAll_other
  intro p hp e
  obtain ⟨o', ho', h'⟩ := ht p hp
  have h1 := (C121_quantize_new_variables lam init tr q s m).2 o h i hi
  have h2 := ho o' ho' p.1 h'
  omega

/-! ## Quantization keeps the values -/

theorem Aux.filterMap_range (vs : List V) : ∀ (a c : List V),
    ((List.range' a.length vs.length).filterMap fun i => (a ++ vs ++ c)[i]?) = vs := by
  induction vs with
  | nil => intro a c; rfl
  | cons v vs ih =>
    intro a c
    have := ih (a ++ [v]) c
    simp only [List.length_append, List.length_singleton, List.append_assoc, List.singleton_append, List.cons_append, List.nil_append] at this
    simp only [List.length_cons, List.range'_succ, List.append_assoc, List.cons_append]
    rw [List.filterMap_cons_some (b := v)]
    · rw [this]
    · simp

theorem Aux.map_range (vs : List V) : ∀ (a c : List V),
    ((List.range' a.length vs.length).map fun i => (a ++ vs ++ c)[i]?) = vs.map some := by
  induction vs with
  | nil => intro a c; rfl
  | cons v vs ih =>
    intro a c
    have := ih (a ++ [v]) c
    simp only [List.length_append, List.length_singleton, List.append_assoc, List.singleton_append, List.cons_append, List.nil_append] at this
    simp only [List.length_cons, List.range'_succ, List.append_assoc, List.cons_append, List.map_cons]
    rw [this]
    simp

theorem Aux.clone_read (init : Nat → V) : ∀ (m : List Obj) (l : List (String × List V)) (s s₁ : Store V)
    (a c : List V), Spec.PlainLayers m →
    (m.map fun o => (o.name, o.vars.length)) = (l.map fun p => (p.1, p.2.length)) →
    a.length = s.vals.length → s₁.vals = a ++ (l.flatMap fun p => p.2) ++ c →
    layerWeights s₁ ((cloneModel (fresh init) s m).2.map unwrap) = l
  | [], l, _, _, _, _, _, h, _, _ => by
    cases l with
    | nil => rfl
    | cons p l => cases h
  | o :: m, [], _, _, _, _, _, h, _, _ => by cases h
  | o :: m, (n', w) :: l, s, s₁, a, c, hp, h, ha, hs => by
    simp only [List.map_cons, List.cons.injEq, Prod.mk.injEq] at h
    obtain ⟨⟨hn, hlen⟩, ht⟩ := h
    obtain ⟨e, e1, e2, -⟩ := Aux.fresh_spec init o s
    have ih := Aux.clone_read init m l (fresh init s o).1 s₁ (a ++ w) c
      (fun o' ho' => hp o' (List.mem_cons_of_mem _ ho')) ht (by simp [e1, e2, ha, hlen])
      (by rw [hs]; simp)
    have hd : (unwrap (fresh init s o).2).name = n' ∧
        (unwrap (fresh init s o).2).vars = List.range' a.length w.length := by
      obtain ⟨n, vs, rfl | rfl⟩ := hp o List.mem_cons_self
      · simp only [Obj.name, Obj.vars] at hn hlen
        simp [fresh, unwrap, Store.alloc, Obj.name, Obj.vars, hn, hlen, ha]
      · simp only [Obj.name, Obj.vars, List.append_nil] at hn hlen
        simp [fresh, unwrap, Store.alloc, Obj.name, Obj.vars, hn, hlen, ha]
    have hv := Aux.filterMap_range w a ((l.flatMap fun p => p.2) ++ c)
    unfold layerWeights at ih ⊢
    simp only [cloneModel, List.map_cons]
    rw [ih, hd.1, hd.2, hs]
    simp only [List.flatMap_cons, List.append_assoc] at hv ⊢
    rw [hv]

theorem Aux.plain_names (s : Store V) : ∀ (m : List Obj) (l : List (String × List V)), Spec.PlainLayers m →
    Spec.namesAndValues s m = (l.map fun p => (p.1, p.2.map some)) →
    (m.map fun o => (o.name, o.vars.length)) = (l.map fun p => (p.1, p.2.length)) ∧
    getWeights s m = l.flatMap fun p => p.2
  | [], l, _, h => by
    cases l with
    | nil => exact ⟨rfl, rfl⟩
    | cons p l => cases h
  | o :: m, [], _, h => by cases h
  | o :: m, (n', w) :: l, hp, h => by
    simp only [Spec.namesAndValues, Spec.bareLayers, List.map_cons, List.cons.injEq, Prod.mk.injEq] at h
    obtain ⟨⟨hn, hw⟩, ht⟩ := h
    obtain ⟨i1, i2⟩ := Aux.plain_names s m l (fun o' ho' => hp o' (List.mem_cons_of_mem _ ho')) ht
    have key : ∀ vs : List Nat, (vs.map fun i => s.vals[i]?) = w.map some →
        vs.length = w.length ∧ (vs.filterMap fun i => s.vals[i]?) = w := by
      intro vs hvs
      refine ⟨by simpa using congrArg List.length hvs, ?_⟩
      have := congrArg (List.filterMap id) hvs
      simpa [List.filterMap_map] using this
    obtain ⟨n, vs, rfl | rfl⟩ := hp o List.mem_cons_self
    · simp only [Obj.name, Obj.vars] at hn hw
      obtain ⟨k1, k2⟩ := key vs hw
      refine ⟨by simp [Obj.name, Obj.vars, hn, k1, i1], ?_⟩
      simp only [getWeights, List.flatMap_cons, List.filterMap_append, Obj.vars] at i2 ⊢
      rw [i2, k2]
    · simp only [Obj.name, Obj.vars] at hn hw
      obtain ⟨k1, k2⟩ := key vs hw
      refine ⟨by simp [Obj.name, Obj.vars, hn, k1, i1], ?_⟩
      simp only [getWeights, List.flatMap_cons, List.filterMap_append, Obj.vars, List.append_nil] at i2 ⊢
      rw [i2, k2]

theorem Aux.rebuild_read : ∀ (l : List (String × List V)) (s s' : Store V) (e : List V),
    s'.vals = (rebuild s l).1.vals ++ e →
    ((rebuild s l).2.map fun o => (o.name, o.vars.map fun i => s'.vals[i]?)) = (l.map fun p => (p.1, p.2.map some)) ∧
    ∀ o ∈ (rebuild s l).2, ∃ n vs, o = .layer n vs
  | [], s, s', e, h => ⟨rfl, by simp [rebuild]⟩
  | (n, w) :: l, s, s', e, h => by
    have ih := Aux.rebuild_read l (s.alloc w).1 s' e h
    obtain ⟨x, hx, -⟩ := Aux.rebuild_spec l (s.alloc w).1
    have hs' : s'.vals = s.vals ++ w ++ (x ++ e) := by
      rw [h]; simp only [rebuild, hx]; simp [Store.alloc]
    refine ⟨?_, ?_⟩
    · simp only [rebuild, List.map_cons]
      rw [ih.1]
      congr 2
      simp only [Store.alloc, Obj.vars, hs']
      exact Aux.map_range w s.vals (x ++ e)
    · intro o ho
      simp only [rebuild, List.mem_cons] at ho
      rcases ho with rfl | ho
      · exact ⟨_, _, rfl⟩
      · exact ih.2 o ho

theorem Aux.quantizer_layers (q : String → Option (List V)) : ∀ (m : List Obj) (s : Store V),
    (∀ o ∈ m, ∃ n vs, o = .layer n vs) → Spec.bareLayers (cloneModel (addQuantizer q) s m).2 = m
  | [], _, _ => rfl
  | o :: m, s, h => by
    have ih := Aux.quantizer_layers q m (addQuantizer q s o).1 fun o' ho' => h o' (List.mem_cons_of_mem _ ho')
    obtain ⟨n, vs, rfl⟩ := h o List.mem_cons_self
    simp only [Spec.bareLayers, cloneModel, List.map_cons] at ih ⊢
    rw [ih]
    congr 1
    unfold addQuantizer
    cases q (Obj.name (.layer n vs)) <;> rfl

theorem Aux.apply_values (init : Nat → V) (tr : List (String × List V) → List (String × List V))
    (q : String → Option (List V)) (s : Store V) (m : List Obj) (hm : Spec.PlainLayers m) (l : List (String × List V))
    (hl : Spec.namesAndValues s m = l.map fun p => (p.1, p.2.map some)) :
    Spec.namesAndValues (quantizeApply init tr q s m).1 (quantizeApply init tr q s m).2 =
      (tr l).map fun p => (p.1, p.2.map some) := by
  obtain ⟨h1, h2⟩ := Aux.plain_names s m l hm hl
  obtain ⟨e, c1, c2, c3⟩ := Aux.clone_spec init m s
  have hlen : (m.flatMap Obj.vars).length = (l.flatMap fun p => p.2).length := by
    have := congrArg (fun x => (x.map Prod.snd).sum) h1
    simpa [List.length_flatMap, Function.comp_def] using this
  have hset : (setWeights (cloneModel (fresh init) s m).1 (cloneModel (fresh init) s m).2 (getWeights s m)).vals =
      s.vals ++ (l.flatMap fun p => p.2) ++ [] := by
    unfold setWeights
    rw [c3, h2, hlen]
    have := Aux.assignAll_range (l.flatMap fun p => p.2) s.vals e [] (by rw [c2, hlen])
    rw [← this]
    congr 2
    rw [List.append_nil, ← c1]
  have hw := Aux.clone_read init m l s _ s.vals [] hm h1 rfl hset
  simp only [quantizeApply]
  rw [hw]
  generalize setWeights (cloneModel (fresh init) s m).1 (cloneModel (fresh init) s m).2 (getWeights s m) = s₁ at *
  obtain ⟨x, q1, -⟩ := Aux.quantizer_spec q (rebuild s₁ (tr l)).2 (rebuild s₁ (tr l)).1
  obtain ⟨r1, r2⟩ := Aux.rebuild_read (tr l) s₁ _ x q1
  unfold Spec.namesAndValues
  rw [Aux.quantizer_layers q _ _ r2]
  exact r1

theorem Aux.annotate_layers (lam : String → Bool) : ∀ (m : List Obj) (s : Store V), Spec.PlainLayers m →
    Spec.bareLayers (annotateModel lam s m).2 = Spec.bareLayers m ∧ Spec.PlainLayers (annotateModel lam s m).2
  | [], _, _ => ⟨rfl, fun _ h => absurd h (by simp [annotateModel, cloneModel])⟩
  | o :: m, s, hp => by
    obtain ⟨i1, i2⟩ := Aux.annotate_layers lam m (addAnnotation lam s o).1 fun o' ho' => hp o' (List.mem_cons_of_mem _ ho')
    have hd : (Spec.bareLayers [(addAnnotation lam s o).2] = Spec.bareLayers [o]) ∧
        ∃ n vs, (addAnnotation lam s o).2 = .layer n vs ∨ (addAnnotation lam s o).2 = .wrapper .annotate [] (.layer n vs) := by
      obtain ⟨n, vs, rfl | rfl⟩ := hp o List.mem_cons_self
      · unfold addAnnotation
        cases hl : lam (Obj.name (.layer n vs)) with
        | true => exact ⟨rfl, n, vs, .inl rfl⟩
        | false => exact ⟨rfl, n, vs, .inr rfl⟩
      · exact ⟨rfl, n, vs, .inr rfl⟩
    refine ⟨?_, ?_⟩
    · have h1 := hd.1
      simp only [Spec.bareLayers, annotateModel, cloneModel, List.map_cons, List.map_nil, List.cons.injEq, and_true] at h1 i1 ⊢
      exact ⟨h1, i1⟩
    · intro o' ho'
      simp only [annotateModel, cloneModel, List.mem_cons] at ho'
      rcases ho' with rfl | ho'
      · exact hd.2
      · exact i2 o' ho'

/-- **It preserves the original weights.**  Let `l` be the names and weights of the layers of the original.  The
layers in the quantized model have the names and weights which the layout transforms make of `l`: with
transforms which leave the layers alone exactly the original's, in the same order. -/
theorem C121_quantize_keeps_values (lam : String → Bool) (init : Nat → V)
    (tr : List (String × List V) → List (String × List V)) (q : String → Option (List V)) (s : Store V)
    (m : List Obj) (hm : Spec.PlainLayers m) (l : List (String × List V))
    (hl : Spec.namesAndValues s m = l.map fun p => (p.1, p.2.map some)) :
    (Spec.namesAndValues (quantizeApply init tr q s m).1 (quantizeApply init tr q s m).2 =
      (tr l).map fun p => (p.1, p.2.map some)) ∧
    (Spec.namesAndValues (quantizeModel lam init tr q s m).1 (quantizeModel lam init tr q s m).2 =
      (tr l).map fun p => (p.1, p.2.map some)) ∧
    (tr l = l → Spec.namesAndValues (quantizeModel lam init tr q s m).1 (quantizeModel lam init tr q s m).2 =
      Spec.namesAndValues s m) := by
  have key : Spec.namesAndValues (quantizeModel lam init tr q s m).1 (quantizeModel lam init tr q s m).2 =
      (tr l).map fun p => (p.1, p.2.map some) := by
    have ha := Aux.annotate_layers lam m s hm
    simp only [quantizeModel, Aux.annotate_store]
    apply Aux.apply_values init tr q s _ ha.2 l
    rw [← hl]; unfold Spec.namesAndValues; rw [ha.1]
  exact ⟨Aux.apply_values init tr q s m hm l hl, key, fun h => by rw [key, h, hl]⟩

/-- Quantizing a model again, after any training of the first quantized model, starts from the original's weights
again, and the two quantized models are independent of each other: training the one keeps the weights of the
other. -/
theorem C121_two_copies (lam : String → Bool) (init : Nat → V)
    (tr : List (String × List V) → List (String × List V)) (q : String → Option (List V)) (s : Store V)
    (m : List Obj) (hm : Spec.PlainLayers m) (he : Spec.Exists s m) (l : List (String × List V))
    (hl : Spec.namesAndValues s m = l.map fun p => (p.1, p.2.map some)) (steps : List (Nat × V))
    (ht : Spec.Trains (quantizeModel lam init tr q s m).2 steps) :
    let first := quantizeModel lam init tr q s m
    let now := first.1.assignAll steps
    let second := quantizeModel lam init tr q now m
    Spec.namesAndValues second.1 second.2 = ((tr l).map fun p => (p.1, p.2.map some)) ∧
    (∀ more, Spec.Trains second.2 more →
      Spec.namesAndValues (second.1.assignAll more) first.2 = Spec.namesAndValues now first.2) ∧
    (∀ more, Spec.Trains first.2 more →
      Spec.namesAndValues (second.1.assignAll more) second.2 = Spec.namesAndValues second.1 second.2) := by
  intro first now second
  have hex : Spec.Exists now first.2 := by
    intro o ho i hi
    have := ((C121_quantize_new_variables lam init tr q s m).2 o ho i hi).2
    simp only [now, Aux.assignAll_length]
    exact this
  refine ⟨?_, ?_, ?_⟩
  · apply (C121_quantize_keeps_values lam init tr q now m hm l _).2.1
    rw [← hl]
    exact C121_training_keeps_original lam init tr q s m steps ht m he
  · intro more hmore
    exact C121_training_keeps_original lam init tr q now m more hmore first.2 hex
  · intro more hmore
    exact C121_training_original_keeps_quantized lam init tr q now m first.2 hex more hmore

/-! ## Annotating and pruning share -/

theorem Aux.prune_spec (allow : String → Bool) (own : String → List V) : ∀ (m : List Obj) (s : Store V),
    (∃ ext, (pruneModel allow own s m).1.vals = s.vals ++ ext) ∧
    stripPruning (pruneModel allow own s m).2 = stripPruning m ∧
    (∀ o ∈ m, ∃ o' ∈ (pruneModel allow own s m).2, ∀ i ∈ o.vars, i ∈ o'.vars) ∧
    (∀ o ∈ (pruneModel allow own s m).2, ∀ i ∈ o.vars, (∃ o' ∈ m, i ∈ o'.vars) ∨ s.vals.length ≤ i)
  | [], s => ⟨⟨[], by simp [pruneModel, cloneModel]⟩, rfl, by simp, by simp [pruneModel, cloneModel]⟩
  | o :: m, s => by
    have hd : (∃ e, (addPruning allow own s o).1.vals = s.vals ++ e) ∧
        stripPruning [(addPruning allow own s o).2] = stripPruning [o] ∧
        (∀ i ∈ o.vars, i ∈ (addPruning allow own s o).2.vars) ∧
        (∀ i ∈ (addPruning allow own s o).2.vars, i ∈ o.vars ∨ s.vals.length ≤ i) := by
      have wrap : ∀ o' : Obj, (∀ w i, o' ≠ .wrapper .prune w i) → stripPruning [o'] = [o'] := by
        intro o' h
        cases o' with
        | layer n vs => rfl
        | wrapper k w i => cases k <;> first | rfl | exact absurd rfl (h w i)
      unfold addPruning
      split
      · exact ⟨⟨[], by simp⟩, rfl, fun i h => h, fun i h => .inl h⟩
      · rename_i h
        cases allow o.name with
        | false => exact ⟨⟨[], by simp⟩, rfl, fun i h => h, fun i h => .inl h⟩
        | true =>
          refine ⟨⟨_, rfl⟩, ?_, fun i hi => List.mem_append_left _ hi, ?_⟩
          · rw [wrap o fun w i e => h w i e]; rfl
          · intro i hi
            simp only [Store.alloc, Obj.vars, if_true, List.mem_append, List.mem_range'_1] at hi
            exact hi.imp_right fun h => h.1
    obtain ⟨⟨e, h1⟩, h2, h3, h4⟩ := hd
    obtain ⟨⟨e', i1⟩, i2, i3, i4⟩ := Aux.prune_spec allow own m (addPruning allow own s o).1
    refine ⟨⟨e ++ e', ?_⟩, ?_, ?_, ?_⟩
    · simp only [pruneModel, cloneModel] at i1 ⊢
      rw [i1, h1, List.append_assoc]
    · simp only [pruneModel, cloneModel, stripPruning, List.map_cons, List.map_nil, List.cons.injEq, and_true] at h2 i2 ⊢
      exact ⟨h2, i2⟩
    · intro o' ho'
      rcases List.mem_cons.1 ho' with rfl | ho'
      · exact ⟨_, List.mem_cons_self, h3⟩
      · obtain ⟨x, hx, hi⟩ := i3 o' ho'
        exact ⟨x, List.mem_cons_of_mem _ hx, hi⟩
    · intro o' ho' i hi
      simp only [pruneModel, cloneModel, List.mem_cons] at ho'
      rcases ho' with rfl | ho'
      · exact (h4 i hi).imp_left fun h => ⟨o, List.mem_cons_self, h⟩
      · rcases i4 o' ho' i hi with ⟨x, hx, hxi⟩ | h
        · exact .inl ⟨x, List.mem_cons_of_mem _ hx, hxi⟩
        · rw [h1, List.length_append] at h
          exact .inr (by omega)

/-- `prune_low_magnitude` changes no variable which existed before, and the variables which the pruned model has
besides the original's are new. -/
theorem C121_prune_changes_nothing (allow : String → Bool) (own : String → List V) (s : Store V) (m : List Obj) :
    (∀ i, i < s.vals.length → (pruneModel allow own s m).1.vals[i]? = s.vals[i]?) ∧
    (∀ o ∈ (pruneModel allow own s m).2, ∀ i ∈ o.vars, (∃ o' ∈ m, i ∈ o'.vars) ∨ s.vals.length ≤ i) := by
  obtain ⟨⟨e, h1⟩, -, -, h4⟩ := Aux.prune_spec allow own m s
  exact ⟨fun i hi => by rw [h1, List.getElem?_append_left hi], h4⟩

/-- The pruned model trains the original's own variables: every assignment to variables of the original is
training of the pruned model. -/
theorem C121_prune_shares (allow : String → Bool) (own : String → List V) (s : Store V) (m : List Obj)
    (steps : List (Nat × V)) (ht : Spec.Trains m steps) : Spec.Trains (pruneModel allow own s m).2 steps := by
  intro p hp
  obtain ⟨o, ho, hi⟩ := ht p hp
  obtain ⟨o', ho', h⟩ := (Aux.prune_spec allow own m s).2.2.1 o ho
  exact ⟨o', ho', h _ hi⟩

/-- `strip_pruning` of a pruned model gives the layers of the original themselves.  So after any training the
stripped model and the original have the same weights: the original is sparse too. -/
theorem C121_strip_is_original (allow : String → Bool) (own : String → List V) (s : Store V) (m : List Obj)
    (hm : ∀ o ∈ m, ∀ w i, o ≠ .wrapper .prune w i) :
    stripPruning (pruneModel allow own s m).2 = m ∧
    ∀ steps, getWeights ((pruneModel allow own s m).1.assignAll steps) (stripPruning (pruneModel allow own s m).2) =
      getWeights ((pruneModel allow own s m).1.assignAll steps) m := by
  have h : stripPruning m = m := by
    unfold stripPruning
    conv_rhs => rw [← List.map_id m]
    apply List.map_congr_left
    intro o ho
    cases o with
    | layer n vs => rfl
    | wrapper k w i => cases k <;> first | rfl | exact absurd rfl (hm _ ho w i)
  have h' := ((Aux.prune_spec allow own m s).2.1).trans h
  exact ⟨h', fun steps => by rw [h']⟩

/-- Annotating a model makes no variable and keeps the layers. -/
theorem C121_annotate_shares (lam : String → Bool) (s : Store V) (m : List Obj) (hm : Spec.PlainLayers m) :
    (annotateModel lam s m).1 = s ∧ Spec.bareLayers (annotateModel lam s m).2 = Spec.bareLayers m :=
  ⟨Aux.annotate_store lam m s, (Aux.annotate_layers lam m s hm).1⟩

/-! ## Examples -/

/-- Two layers, one of them annotated. -/
def Example.sharedModel : List Obj := [.layer "a" [0, 1], .wrapper .annotate [] (.layer "b" [2])]

def Example.sharedStore : Store Nat := ⟨[10, 11, 12]⟩

/-- A quantizer for "b" only, with one variable. -/
def Example.shareQuantizer (n : String) : Option (List Nat) := if n = "b" then some [7] else none

example : Spec.Exists Example.sharedStore Example.sharedModel ∧ Spec.PlainLayers Example.sharedModel ∧
    Spec.namesAndValues Example.sharedStore Example.sharedModel =
      ([("a", [10, 11]), ("b", [12])].map fun p => (p.1, p.2.map some)) := by
  refine ⟨by unfold Spec.Exists; decide +kernel, ?_, by decide +kernel⟩
  intro o ho
  simp only [Example.sharedModel, List.mem_cons, List.not_mem_nil, or_false] at ho
  rcases ho with rfl | rfl
  · exact ⟨_, _, .inl rfl⟩
  · exact ⟨_, _, .inr rfl⟩

/-- The quantized model has six new variables and one for the quantizer (the copy's three are dropped). -/
example : (quantizeApply (fun _ => 0) id Example.shareQuantizer Example.sharedStore Example.sharedModel).2 =
      [.layer "a" [6, 7], .wrapper .quantize [9] (.layer "b" [8])] ∧
    (quantizeApply (fun _ => 0) id Example.shareQuantizer Example.sharedStore Example.sharedModel).1.vals =
      [10, 11, 12, 10, 11, 12, 10, 11, 12, 7] := by decide +kernel

/-- Training the quantized model is not vacuous, and leaves the original alone. -/
example : Spec.Trains (quantizeModel (fun _ => false) (fun _ => 0) id Example.shareQuantizer Example.sharedStore
      Example.sharedModel).2 [(6, 99), (9, 5)] ∧
    getWeights ((quantizeModel (fun _ => false) (fun _ => 0) id Example.shareQuantizer Example.sharedStore
      Example.sharedModel).1.assignAll [(6, 99), (9, 5)]) Example.sharedModel = [10, 11, 12] := by
  refine ⟨?_, by decide +kernel⟩
  unfold Spec.Trains; decide +kernel

/-- Training the pruned model changes the original. -/
example : (pruneModel (fun n => n == "a") (fun _ => [1, 1]) Example.sharedStore Example.sharedModel).2 =
      [.wrapper .prune [3, 4] (.layer "a" [0, 1]), .wrapper .annotate [] (.layer "b" [2])] ∧
    getWeights ((pruneModel (fun n => n == "a") (fun _ => [1, 1]) Example.sharedStore Example.sharedModel).1.assignAll
      [(0, 0)]) Example.sharedModel = [0, 11, 12] := by decide +kernel

end Verif.Props
