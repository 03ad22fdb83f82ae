import Verif.Clustering.Objects
import Verif.Props.ClusterWrapper

/-!
# C94: clustering and stripping layers with sublayers
-/

set_option linter.unusedSectionVars false

namespace Verif.Props
open Verif.Clustering

/-! ## Specification -/

/-- All weight attributes of a layer: where each lives and which variable it holds. -/
def Spec.slots {τ : Type*} (L : KLay τ) : List ((List Key × String) × ℕ) :=
  L.flatMap fun b => b.2.filterMap fun a => a.2.var?.map fun v => ((b.1, a.1), v)

/-- What a history means for one clusterable weight: the value of its own variable and its own
centroids. -/
def Spec.ofWeight {ι α : Type*} (it : Item) : OEvent ι α → CEvent ι α
  | .call => .call
  | .assign vs cs => .assign (vs it.var) (cs it.name)

/-- The values of the variables after a history: those assigned last. -/
def Spec.lastAssigned {ι α : Type*} (vars : ℕ → ι → α) : List (OEvent ι α) → ℕ → ι → α
  | [] => vars
  | .call :: es => Spec.lastAssigned vars es
  | .assign vs _ :: es => Spec.lastAssigned vs es

/-! ## Attributes -/

variable {τ : Type*}

theorem Aux.weights_slots (L : KLay τ) : weights L = (Spec.slots L).map (·.2) := by
  simp only [weights, Spec.slots, List.map_flatMap, List.map_filterMap]
  congr 1
  funext b
  congr 1
  funext a
  cases a.2 <;> rfl

theorem Aux.slots_setTensor (L : KLay τ) (p : List Key) (a : String) (t : τ) :
    Spec.slots (setAttr L p a (.tensor t)) =
      (Spec.slots L).filter fun x => decide (x.1 ≠ (p, a)) := by
  simp only [Spec.slots, setAttr, List.flatMap_map, List.filter_flatMap]
  congr 1
  funext b
  obtain ⟨q, own⟩ := b
  by_cases h : q = p
  · subst h
    simp only [if_true, setOwn, List.filterMap_append, List.filterMap_cons, Slot.var?,
      Option.map_none, List.filterMap_nil, List.append_nil]
    induction own with
    | nil => rfl
    | cons x own ih =>
      obtain ⟨n, sl⟩ := x
      cases sl with
      | tensor t' => by_cases hn : n = a <;> simp_all [Slot.var?]
      | var v => by_cases hn : n = a <;> simp_all [Slot.var?]
  · simp only [if_neg h]
    rw [eq_comm, List.filter_eq_self]
    intro x hx
    simp only [List.mem_filterMap, Option.map_eq_some_iff] at hx
    obtain ⟨y, -, v, -, rfl⟩ := hx
    simp [h]

theorem Aux.paths_setAttr (L : KLay τ) (p : List Key) (a : String) (s : Slot τ) :
    (setAttr L p a s).map (·.1) = L.map (·.1) := by
  simp only [setAttr, List.map_map]
  congr 1
  funext b
  simp only [Function.comp]
  split_ifs <;> rfl

theorem Aux.lookup_setAttr (L : KLay τ) (p q : List Key) (a : String) (s : Slot τ) :
    (setAttr L p a s).lookup q =
      if q = p then (L.lookup q).map fun own => setOwn own a s else L.lookup q := by
  induction L with
  | nil => simp [setAttr]
  | cons b L ih =>
    obtain ⟨r, own⟩ := b
    simp only [setAttr, List.map_cons] at ih ⊢
    by_cases hr : r = p
    · subst hr
      simp only [if_true, List.lookup_cons]
      by_cases hq : q = r
      · subst hq; simp
      · have : (q == r) = false := by simpa using hq
        simp only [this]
        rw [ih]
    · simp only [if_neg hr, List.lookup_cons]
      by_cases hq : q = r
      · subst hq; simp [hr]
      · have : (q == r) = false := by simpa using hq
        simp only [this]
        rw [ih]

theorem Aux.lookup_setOwn (own : List (String × Slot τ)) (a b : String) (s : Slot τ) :
    (setOwn own a s).lookup b = if b = a then some s else own.lookup b := by
  induction own with
  | nil =>
    simp only [setOwn, List.filter_nil, List.nil_append, List.lookup_cons, List.lookup_nil]
    by_cases h : b = a
    · simp [h]
    · have : (b == a) = false := by simpa using h
      simp [h, this]
  | cons x own ih =>
    obtain ⟨n, sl⟩ := x
    simp only [setOwn] at ih ⊢
    by_cases hn : n = a
    · subst hn
      simp only [List.filter_cons, ne_eq, not_true_eq_false, decide_false, Bool.false_eq_true,
        if_false]
      rw [ih]
      by_cases hb : b = n
      · simp [hb]
      · have : (b == n) = false := by simpa using hb
        simp [hb, List.lookup_cons, this]
    · simp only [List.filter_cons, ne_eq, hn, not_false_eq_true, decide_true, if_true,
        List.cons_append, List.lookup_cons]
      by_cases hb : b = n
      · subst hb; simp [hn]
      · have : (b == n) = false := by simpa using hb
        simp only [this]
        exact ih

theorem Aux.getAttr_same (L : KLay τ) (p : List Key) (a : String) (s : Slot τ)
    (h : (getAttr L p a).isSome) : getAttr (setAttr L p a s) p a = some s := by
  simp only [getAttr] at h ⊢
  rw [Aux.lookup_setAttr, if_pos rfl]
  cases hl : L.lookup p with
  | none => simp [hl] at h
  | some own => simp [Aux.lookup_setOwn]

theorem Aux.getAttr_other (L : KLay τ) (p q : List Key) (a b : String) (s : Slot τ)
    (h : (q, b) ≠ (p, a)) : getAttr (setAttr L p a s) q b = getAttr L q b := by
  simp only [getAttr]
  rw [Aux.lookup_setAttr]
  by_cases hq : q = p
  · subst hq
    have hb : b ≠ a := fun e => h (by rw [e])
    rw [if_pos rfl]
    cases hl : L.lookup q with
    | none => rfl
    | some own => simp [Aux.lookup_setOwn, hb]
  · rw [if_neg hq]

theorem Aux.mem_of_lookup' {κ β : Type*} [BEq κ] [LawfulBEq κ] (l : List (κ × β)) (k : κ) (x : β)
    (h : l.lookup k = some x) : (k, x) ∈ l := by
  induction l with
  | nil => simp at h
  | cons y l ih =>
    obtain ⟨k', x'⟩ := y
    rw [List.lookup_cons] at h
    by_cases hk : k = k'
    · subst hk; simp at h; simp [h]
    · have : (k == k') = false := by simpa using hk
      rw [this] at h
      exact List.mem_cons_of_mem _ (ih h)

theorem Aux.slot_mem (L : KLay τ) (p : List Key) (a : String) (v : ℕ)
    (h : getAttr L p a = some (.var v)) : ((p, a), v) ∈ Spec.slots L := by
  simp only [getAttr] at h
  cases hl : L.lookup p with
  | none => simp [hl] at h
  | some own =>
    rw [hl] at h
    simp only [Option.bind_some] at h
    simp only [Spec.slots, List.mem_flatMap, List.mem_filterMap, Option.map_eq_some_iff]
    exact ⟨_, Aux.mem_of_lookup' _ _ _ hl, _, Aux.mem_of_lookup' _ _ _ h, v, rfl, rfl⟩

/-- Facts about the items of a built wrapper. -/
theorem Aux.makeItem_some (sh : Shape) (L : KLay τ) (n : WName) (it : Item)
    (h : makeItem sh L n = some it) :
    it.name = n ∧ locate sh n = some (it.path, it.attr) ∧
      getAttr L it.path it.attr = some (.var it.var) ∧ it.var ∈ weights L ∧
      it.pos = (weights L).idxOf it.var := by
  unfold makeItem at h
  cases hl : locate sh n with
  | none => rw [hl] at h; cases h
  | some loc =>
    rw [hl] at h
    dsimp only at h
    cases hg : getAttr L loc.1 loc.2 with
    | none => rw [hg] at h; cases h
    | some s =>
      rw [hg] at h
      cases s with
      | tensor t => cases h
      | var v =>
        dsimp only at h
        split_ifs at h with hv
        cases h
        exact ⟨rfl, rfl, hg, hv, rfl⟩

theorem Aux.mapM_some {β γ : Type*} (f : β → Option γ) (l : List β) (r : List γ)
    (h : l.mapM f = some r) : List.Forall₂ (fun x y => f x = some y) l r := by
  induction l generalizing r with
  | nil => simp at h; subst h; exact .nil
  | cons x l ih =>
    rw [List.mapM_cons] at h
    cases hx : f x with
    | none => simp [hx] at h
    | some y =>
      cases hl : l.mapM f with
      | none => simp [hx, hl] at h
      | some ys =>
        simp [hx, hl] at h
        subst h
        exact .cons hx (ih ys hl)

theorem Aux.mapM_of {β γ : Type*} (f : β → Option γ) (g : β → γ) (l : List β)
    (h : ∀ x ∈ l, f x = some (g x)) : l.mapM f = some (l.map g) := by
  induction l with
  | nil => rfl
  | cons x l ih =>
    rw [List.mapM_cons, h x (by simp), ih fun y hy => h y (by simp [hy])]
    rfl

theorem Aux.items_spec (sh : Shape) (L : KLay τ) (names : List WName) (items : List Item)
    (h : names.mapM (makeItem sh L) = some items) :
    ∀ it ∈ items, locate sh it.name = some (it.path, it.attr) ∧
      getAttr L it.path it.attr = some (.var it.var) ∧ it.var ∈ weights L ∧
      it.pos = (weights L).idxOf it.var := by
  have h2 := Aux.mapM_some _ _ _ h
  clear h
  induction h2 with
  | nil => simp
  | cons hx _ ih =>
    intro it hit
    rcases List.mem_cons.1 hit with rfl | hit
    · obtain ⟨h1, h2, h3⟩ := Aux.makeItem_some _ _ _ _ hx
      exact ⟨h1 ▸ h2, h3⟩
    · exact ih it hit

/-! ## Updates -/

variable {ι : Type*} {α : Type*} [Field α] [LinearOrder α] [IsStrictOrderedRing α] [FloorRing α]

theorem Aux.foldl_update (ps : Bool) (ch : WName → ι → ℕ) (its : List Item) (s : OState ι α)
    (hloc : (its.map fun it => (it.path, it.attr)).Nodup) (hname : (its.map (·.name)).Nodup)
    (hget : ∀ it ∈ its, (getAttr s.layer it.path it.attr).isSome) :
    let s' := its.foldl (OState.updateOne ps ch) s
    s'.vars = s.vars ∧ s'.built = s.built ∧ s'.items = s.items ∧
    Spec.slots s'.layer =
      (Spec.slots s.layer).filter (fun x => decide (x.1 ∉ its.map fun it => (it.path, it.attr))) ∧
    (∀ n, n ∉ its.map (·.name) → s'.st n = s.st n) ∧
    (∀ p a, (p, a) ∉ its.map (fun it => (it.path, it.attr)) →
      getAttr s'.layer p a = getAttr s.layer p a) ∧
    ∀ it ∈ its, s'.st it.name =
        CState.update ps (ch it.name) { s.st it.name with orig := s.vars it.var } ∧
      getAttr s'.layer it.path it.attr = some (.tensor (s'.st it.name).kernel) := by
  induction its generalizing s with
  | nil =>
    refine ⟨rfl, rfl, rfl, ?_, fun _ _ => rfl, fun _ _ _ => rfl, by simp⟩
    simp
  | cons it its ih =>
    simp only [List.map_cons, List.nodup_cons] at hloc hname
    have hget' : ∀ it' ∈ its,
        (getAttr (OState.updateOne ps ch s it).layer it'.path it'.attr).isSome := by
      intro it' h'
      have hne : (it'.path, it'.attr) ≠ (it.path, it.attr) := fun e =>
        hloc.1 (e ▸ List.mem_map_of_mem (f := fun it : Item => (it.path, it.attr)) h')
      simp only [OState.updateOne]
      rw [Aux.getAttr_other _ _ _ _ _ _ hne]
      exact hget it' (by simp [h'])
    obtain ⟨h1, h2, h3, h4, h5, h6, h7⟩ := ih (OState.updateOne ps ch s it) hloc.2 hname.2 hget'
    simp only [List.foldl_cons]
    refine ⟨h1, h2, h3, ?_, ?_, ?_, ?_⟩
    · rw [h4]
      simp only [OState.updateOne, Aux.slots_setTensor, List.filter_filter, List.map_cons,
        List.mem_cons, not_or]
      congr 1
      funext x
      simp only [Bool.decide_and, ne_eq]
      exact Bool.and_comm _ _
    · intro n hn
      simp only [List.map_cons, List.mem_cons, not_or] at hn
      rw [h5 n hn.2]
      simp only [OState.updateOne]
      rw [Function.update_of_ne hn.1]
    · intro p a hpa
      simp only [List.map_cons, List.mem_cons, not_or] at hpa
      rw [h6 p a hpa.2]
      simp only [OState.updateOne]
      exact Aux.getAttr_other _ _ _ _ _ _ hpa.1
    · intro it' hit'
      rcases List.mem_cons.1 hit' with rfl | hit'
      · have hst : (its.foldl (OState.updateOne ps ch) (OState.updateOne ps ch s it')).st it'.name
            = CState.update ps (ch it'.name) { s.st it'.name with orig := s.vars it'.var } := by
          rw [h5 _ hname.1]
          simp [OState.updateOne]
        refine ⟨hst, ?_⟩
        rw [h6 _ _ hloc.1, hst]
        simp only [OState.updateOne]
        exact Aux.getAttr_same _ _ _ _ (hget it' (by simp))
      · obtain ⟨e1, e2⟩ := h7 it' hit'
        refine ⟨?_, e2⟩
        rw [e1]
        have hne : it'.name ≠ it.name := fun e =>
          hname.1 (e ▸ List.mem_map_of_mem (f := fun it : Item => it.name) hit')
        simp only [OState.updateOne]
        rw [Function.update_of_ne hne]

theorem Aux.idxOf_inj {l : List ℕ} {a b : ℕ} (ha : a ∈ l) (h : l.idxOf a = l.idxOf b) (hb : b ∈ l) :
    a = b := by
  have h1 := List.getElem?_idxOf ha
  have h2 := List.getElem?_idxOf hb
  rw [h] at h1
  rw [h1] at h2
  exact Option.some.inj h2

/-- Items in the order of their positions have different variables, places and names. -/
theorem Aux.items_distinct (sh : Shape) (L : KLay τ) (items : List Item)
    (hit : ∀ it ∈ items, locate sh it.name = some (it.path, it.attr) ∧
      getAttr L it.path it.attr = some (.var it.var) ∧ it.var ∈ weights L ∧
      it.pos = (weights L).idxOf it.var)
    (hasc : (items.map (·.pos)).Pairwise (· < ·)) :
    (items.map (·.var)).Nodup ∧ (items.map fun it => (it.path, it.attr)).Nodup ∧
      (items.map (·.name)).Nodup := by
  have hne : items.Pairwise fun x y => x.pos < y.pos := List.pairwise_map.1 hasc
  have hmem := List.Pairwise.and_mem.1 hne
  refine ⟨?_, ?_, ?_⟩
  · refine List.pairwise_map.2 (hmem.imp ?_)
    rintro x y ⟨hx, hy, h⟩ e
    rw [(hit x hx).2.2.2, (hit y hy).2.2.2, e] at h
    exact lt_irrefl _ h
  · refine List.pairwise_map.2 (hmem.imp ?_)
    rintro x y ⟨hx, hy, h⟩ e
    have h1 := (hit x hx).2.1
    have h2 := (hit y hy).2.1
    simp only [Prod.mk.injEq] at e
    rw [e.1, e.2, h2] at h1
    simp only [Option.some.injEq, Slot.var.injEq] at h1
    rw [(hit x hx).2.2.2, (hit y hy).2.2.2, h1] at h
    exact lt_irrefl _ h
  · refine List.pairwise_map.2 (hmem.imp ?_)
    rintro x y ⟨hx, hy, h⟩ e
    have h0 := (hit x hx).1
    rw [e, (hit y hy).1] at h0
    simp only [Option.some.injEq, Prod.mk.injEq] at h0
    have h1 := (hit x hx).2.1
    have h2 := (hit y hy).2.1
    rw [← h0.1, ← h0.2, h2] at h1
    simp only [Option.some.injEq, Slot.var.injEq] at h1
    rw [(hit x hx).2.2.2, (hit y hy).2.2.2, h1] at h
    exact lt_irrefl _ h

/-- What is true of a wrapper after a history. -/
structure Aux.After (ps : Bool) (ch : WName → ι → ℕ) (L : KLay (ι → α)) (items : List Item)
    (vars : ℕ → ι → α) (c0 : WName → ℕ → List α) (es : List (OEvent ι α)) (s : OState ι α) :
    Prop where
  items_eq : s.items = items
  built_eq : s.built = L
  vars_eq : s.vars = Spec.lastAssigned vars es
  present : ∀ it ∈ items, (getAttr s.layer it.path it.attr).isSome
  others : ∀ p a, (p, a) ∉ items.map (fun it => (it.path, it.attr)) →
    getAttr s.layer p a = getAttr L p a
  slots_eq : Spec.slots s.layer = Spec.slots L ∨ Spec.slots s.layer =
    (Spec.slots L).filter (fun x => decide (x.1 ∉ items.map fun it => (it.path, it.attr)))
  states : ∀ it ∈ items, { s.st it.name with orig := s.vars it.var } =
    CState.run ps (ch it.name) (vars it.var) (c0 it.name) (es.map (Spec.ofWeight it))

theorem Aux.lastAssigned_append (vars : ℕ → ι → α) (es : List (OEvent ι α)) (e : OEvent ι α) :
    Spec.lastAssigned vars (es ++ [e]) = match e with
      | .call => Spec.lastAssigned vars es
      | .assign vs _ => vs := by
  induction es generalizing vars with
  | nil => cases e <;> rfl
  | cons e' es ih =>
    cases e' with
    | call => exact ih vars
    | assign vs cs => exact ih vs

theorem Aux.cstate_snoc (ps : Bool) (ch : ι → ℕ) (w0 : ι → α) (c0 : ℕ → List α)
    (es : List (CEvent ι α)) (e : CEvent ι α) :
    CState.run ps ch w0 c0 (es ++ [e]) = CState.step ps ch (CState.run ps ch w0 c0 es) e := by
  simp [CState.run, List.foldl_append]

theorem Aux.obj_call (ps : Bool) (ch : WName → ι → ℕ) (L : KLay (ι → α)) (items : List Item)
    (vars : ℕ → ι → α) (c0 : WName → ℕ → List α) (es : List (OEvent ι α)) (s : OState ι α)
    (hloc : (items.map fun it => (it.path, it.attr)).Nodup) (hname : (items.map (·.name)).Nodup)
    (h : Aux.After ps ch L items vars c0 es s) :
    Aux.After ps ch L items vars c0 (es ++ [.call]) (s.update ps ch) ∧
    Spec.slots (s.update ps ch).layer =
      (Spec.slots L).filter (fun x => decide (x.1 ∉ items.map fun it => (it.path, it.attr))) ∧
    ∀ it ∈ items, getAttr (s.update ps ch).layer it.path it.attr = some (.tensor
      (CState.run ps (ch it.name) (vars it.var) (c0 it.name)
        (es.map (Spec.ofWeight it) ++ [.call])).kernel) := by
  have hg := h.present
  rw [← h.items_eq] at hloc hname hg
  obtain ⟨h1, h2, h3, h4, h5, h6, h7⟩ := Aux.foldl_update ps ch s.items s hloc hname hg
  change (s.update ps ch).vars = _ at h1
  change (s.update ps ch).built = _ at h2
  change (s.update ps ch).items = _ at h3
  change Spec.slots (s.update ps ch).layer = _ at h4
  change ∀ p a, _ → getAttr (s.update ps ch).layer p a = _ at h6
  change ∀ it ∈ s.items, (s.update ps ch).st it.name = _ ∧
    getAttr (s.update ps ch).layer it.path it.attr = some (.tensor
      ((s.update ps ch).st it.name).kernel) at h7
  rw [h.items_eq] at h4 h6 h7
  have hslots : Spec.slots (s.update ps ch).layer =
      (Spec.slots L).filter (fun x => decide (x.1 ∉ items.map fun it => (it.path, it.attr))) := by
    rw [h4]
    rcases h.slots_eq with e | e
    · rw [e]
    · rw [e, List.filter_filter]
      congr 1
      funext x
      exact Bool.and_self _
  have hrun : ∀ it ∈ items, (s.update ps ch).st it.name =
      CState.run ps (ch it.name) (vars it.var) (c0 it.name)
        (es.map (Spec.ofWeight it) ++ [.call]) := by
    intro it hit
    rw [(h7 it hit).1, h.states it hit, Aux.cstate_snoc]
    rfl
  refine ⟨⟨h3.trans h.items_eq, h2.trans h.built_eq, ?_, ?_, ?_, .inr hslots, ?_⟩, hslots, ?_⟩
  · rw [Aux.lastAssigned_append, h1]
    exact h.vars_eq
  · intro it hit
    rw [(h7 it hit).2]
    rfl
  · intro p a hpa
    rw [h6 p a hpa]
    exact h.others p a hpa
  · intro it hit
    rw [List.map_append, List.map_singleton]
    change _ = CState.run ps (ch it.name) (vars it.var) (c0 it.name)
        (es.map (Spec.ofWeight it) ++ [.call])
    rw [← hrun it hit]
    have horig : ((s.update ps ch).st it.name).orig = (s.update ps ch).vars it.var := by
      rw [(h7 it hit).1, h1]
      rfl
    rw [← horig]
  · intro it hit
    rw [(h7 it hit).2, hrun it hit]

theorem Aux.obj_run (ps : Bool) (ch : WName → ι → ℕ) (L : KLay (ι → α)) (items : List Item)
    (vars : ℕ → ι → α) (c0 : WName → ℕ → List α) (s0 : OState ι α)
    (hloc : (items.map fun it => (it.path, it.attr)).Nodup) (hname : (items.map (·.name)).Nodup)
    (h : Aux.After ps ch L items vars c0 [] s0) (es : List (OEvent ι α)) :
    Aux.After ps ch L items vars c0 es (s0.run ps ch es) := by
  induction es using List.reverseRecOn with
  | nil => exact h
  | append_singleton es e ih =>
    have hr : s0.run ps ch (es ++ [e]) = OState.step ps ch (s0.run ps ch es) e := by
      simp [OState.run, List.foldl_append]
    rw [hr]
    cases e with
    | call => exact (Aux.obj_call ps ch L items vars c0 es _ hloc hname ih).1
    | assign vs cs =>
      refine ⟨ih.items_eq, ih.built_eq, ?_, ih.present, ih.others, ih.slots_eq, ?_⟩
      · rw [Aux.lastAssigned_append]
        rfl
      · intro it hit
        rw [List.map_append, List.map_singleton, Aux.cstate_snoc, ← ih.states it hit]
        rfl

theorem Aux.obj_built (ps : Bool) (sh : Shape) (names : List WName) (ch : WName → ι → ℕ)
    (L : KLay (ι → α)) (vars : ℕ → ι → α) (c0 : WName → ℕ → List α) (s : OState ι α)
    (h : OState.build sh names ch L vars c0 = some s)
    (hasc : (s.items.map (·.pos)).Pairwise (· < ·)) :
    names.mapM (makeItem sh L) = some s.items ∧ s.layer = L ∧
    Aux.After ps ch L s.items vars c0 [] s := by
  unfold OState.build at h
  cases hm : names.mapM (makeItem sh L) with
  | none => rw [hm] at h; cases h
  | some items =>
    rw [hm] at h
    cases h
    have hsp := Aux.items_spec _ _ _ _ hm
    have hn := (Aux.items_distinct sh L items hsp hasc).2.2
    refine ⟨rfl, rfl, ⟨rfl, rfl, rfl, ?_, fun _ _ _ => rfl, .inl rfl, ?_⟩⟩
    · intro it hit
      simp [(hsp it hit).2.1]
    · intro it hit
      have hf : items.find? (fun x => decide (x.name = it.name)) = some it := by
        clear hm hsp hasc
        induction items with
        | nil => simp at hit
        | cons x xs ih =>
          simp only [List.map_cons, List.nodup_cons] at hn
          rcases List.mem_cons.1 hit with rfl | hit
          · simp
          · have : x.name ≠ it.name := fun e =>
              hn.1 (e ▸ List.mem_map_of_mem (f := fun it : Item => it.name) hit)
            simp [this, ih hn.2 hit]
      dsimp only
      rw [hf]
      rfl

/-! ## Positions -/

theorem Aux.without_map {β γ : Type*} (f : β → γ) (ps : List ℕ) (k : ℕ) (W : List β) :
    Spec.without ps k (W.map f) = (Spec.without ps k W).map f := by
  induction W generalizing k with
  | nil => rfl
  | cons x W ih =>
    simp only [List.map_cons, Spec.without]
    split_ifs
    · exact ih _
    · rw [List.map_cons, ih]

theorem Aux.without_filter {β : Type*} (ps : List ℕ) (q : β → Bool) (k : ℕ) (W : List β)
    (h : ∀ i (x : β), W[i]? = some x → (k + i ∈ ps ↔ q x = false)) :
    Spec.without ps k W = W.filter q := by
  induction W generalizing k with
  | nil => rfl
  | cons x W ih =>
    have h0 := h 0 x rfl
    rw [Nat.add_zero] at h0
    have ht := ih (k + 1) fun i y hy => by
      have := h (i + 1) y (by simpa using hy)
      rwa [show k + 1 + i = k + (i + 1) by omega]
    simp only [Spec.without, List.filter_cons, ht]
    by_cases hk : k ∈ ps
    · simp [hk, h0.1 hk]
    · have : q x = true := by
        cases hq : q x with
        | true => rfl
        | false => exact absurd (h0.2 hq) hk
      simp [hk, this]

theorem Aux.lookup_placed {β : Type*} (items : List Item) (f : Item → β) (i : ℕ)
    (hasc : (items.map (·.pos)).Pairwise (· < ·)) :
    (∀ it ∈ items, it.pos = i → (items.map fun it => (it.pos, f it)).lookup i = some (f it)) ∧
    ((∀ it ∈ items, it.pos ≠ i) → (items.map fun it => (it.pos, f it)).lookup i = none) := by
  induction items with
  | nil => simp
  | cons x xs ih =>
    simp only [List.map_cons, List.pairwise_cons] at hasc
    obtain ⟨h1, h2⟩ := ih hasc.2
    constructor
    · intro it hit hpos
      simp only [List.map_cons, List.lookup_cons]
      rcases List.mem_cons.1 hit with rfl | hit
      · simp [hpos]
      · have hlt := hasc.1 it.pos (List.mem_map_of_mem hit)
        have : (i == x.pos) = false := by simp; omega
        rw [this]
        exact h1 it hit hpos
    · intro hne
      simp only [List.map_cons, List.lookup_cons]
      have : (i == x.pos) = false := by
        have := hne x (by simp)
        simp; omega
      rw [this]
      exact h2 fun it hit => hne it (by simp [hit])

/-- Without the clusterable attributes, the layer has the weights at the other positions left. -/
theorem Aux.remaining (sh : Shape) (L : KLay τ) (items : List Item)
    (hit : ∀ it ∈ items, locate sh it.name = some (it.path, it.attr) ∧
      getAttr L it.path it.attr = some (.var it.var) ∧ it.var ∈ weights L ∧
      it.pos = (weights L).idxOf it.var)
    (hw : (weights L).Nodup) (ha : ((Spec.slots L).map (·.1)).Nodup) :
    ((Spec.slots L).filter
      (fun x => decide (x.1 ∉ items.map fun it => (it.path, it.attr)))).map (·.2) =
      Spec.without (items.map (·.pos)) 0 (weights L) := by
  rw [Aux.weights_slots, Aux.without_map, Aux.without_filter]
  intro i x hx
  rw [Nat.zero_add]
  have hmem := List.mem_of_getElem? hx
  have hwi : (weights L)[i]? = some x.2 := by rw [Aux.weights_slots, List.getElem?_map, hx]; rfl
  simp only [List.mem_map, decide_eq_false_iff_not, not_not]
  constructor
  · rintro ⟨it, h1, rfl⟩
    refine ⟨it, h1, ?_⟩
    have h2 := List.getElem?_idxOf (hit it h1).2.2.1
    rw [← (hit it h1).2.2.2, hwi, Option.some.injEq] at h2
    have h3 := Aux.slot_mem L _ _ _ (hit it h1).2.1
    rw [Aux.weights_slots] at hw
    have := List.inj_on_of_nodup_map hw hmem h3 h2
    rw [this]
  · rintro ⟨it, h1, h2⟩
    refine ⟨it, h1, ?_⟩
    have h3 := Aux.slot_mem L _ _ _ (hit it h1).2.1
    have h4 := List.inj_on_of_nodup_map ha hmem h3 h2.symm
    rw [h4] at hwi
    rw [(hit it h1).2.2.2]
    obtain ⟨hlt, hget⟩ := List.getElem?_eq_some_iff.1 hwi
    dsimp only at hget
    rw [← hget]
    exact hw.idxOf_getElem i hlt

/-! ## C94 -/

/-- **C94 (forward pass).**  After any history that ends with a forward pass, every clusterable
attribute of the layer and its sublayers holds the clustering of its own original variable with its own
centroids; every other attribute is as it was. -/
theorem C94_forward (ps : Bool) (sh : Shape) (names : List WName) (ch : WName → ι → ℕ)
    (L : KLay (ι → α)) (vars : ℕ → ι → α) (c0 : WName → ℕ → List α) (s : OState ι α)
    (hb : OState.build sh names ch L vars c0 = some s)
    (hasc : (s.items.map (·.pos)).Pairwise (· < ·)) (es : List (OEvent ι α)) :
    (∀ it ∈ s.items, getAttr (s.run ps ch (es ++ [.call])).layer it.path it.attr = some (.tensor
      (CState.run ps (ch it.name) (vars it.var) (c0 it.name)
        (es.map (Spec.ofWeight it) ++ [.call])).kernel)) ∧
    ∀ p a, (∀ it ∈ s.items, (it.path, it.attr) ≠ (p, a)) →
      getAttr (s.run ps ch (es ++ [.call])).layer p a = getAttr L p a := by
  obtain ⟨h1, -, h2⟩ := Aux.obj_built ps sh names ch L vars c0 s hb hasc
  have hsp := Aux.items_spec _ _ _ _ h1
  obtain ⟨-, hloc, hname⟩ := Aux.items_distinct sh L s.items hsp hasc
  have h3 := Aux.obj_run ps ch L s.items vars c0 s hloc hname h2 es
  obtain ⟨h5, -, h4⟩ := Aux.obj_call ps ch L s.items vars c0 es _ hloc hname h3
  have hr : s.run ps ch (es ++ [.call]) = (s.run ps ch es).update ps ch := by
    simp [OState.run, List.foldl_append, OState.step]
  rw [hr]
  refine ⟨h4, fun p a h => h5.others p a ?_⟩
  intro hm
  obtain ⟨it, hit, e⟩ := List.mem_map.1 hm
  exact h it hit e

/-- **C94 (strip).**  After any history, `strip_clustering` of a wrapped layer (with sublayers at any
depth) gives a clean layer with as many weights; at the position of every clusterable weight stands the
clustering of that weight, at every other position the current value of the variable the layer was
built with.  The clusterable weights must be listed in the order of `layer.weights`
(`C94_registry_*` below; otherwise see `C27_unordered_violated`). -/
theorem C94_strip (ps : Bool) (sh : Shape) (names : List WName) (ch : WName → ι → ℕ)
    (L : KLay (ι → α)) (vars : ℕ → ι → α) (c0 : WName → ℕ → List α) (s : OState ι α)
    (hb : OState.build sh names ch L vars c0 = some s)
    (hw : (weights L).Nodup) (ha : ((Spec.slots L).map (·.1)).Nodup)
    (hasc : (s.items.map (·.pos)).Pairwise (· < ·)) (es : List (OEvent ι α)) :
    ∃ ws, (s.run ps ch es).strip ps ch = some ws ∧ ws.length = (weights L).length ∧
      (∀ it ∈ s.items, (weights L)[it.pos]? = some it.var ∧ ws[it.pos]? = some
        (CState.run ps (ch it.name) (vars it.var) (c0 it.name)
          (es.map (Spec.ofWeight it) ++ [.call])).kernel) ∧
      ∀ (i v : ℕ), (weights L)[i]? = some v → (∀ it ∈ s.items, it.var ≠ v) →
        ws[i]? = some (Spec.lastAssigned vars es v) := by
  obtain ⟨h1, -, h2⟩ := Aux.obj_built ps sh names ch L vars c0 s hb hasc
  have hsp := Aux.items_spec _ _ _ _ h1
  obtain ⟨-, hloc, hname⟩ := Aux.items_distinct sh L s.items hsp hasc
  have h3 := Aux.obj_run ps ch L s.items vars c0 s hloc hname h2 es
  obtain ⟨h4, h5, h6⟩ := Aux.obj_call ps ch L s.items vars c0 es _ hloc hname h3
  set s' := (s.run ps ch es).update ps ch with hs'
  set K : Item → ι → α := fun it => (CState.run ps (ch it.name) (vars it.var) (c0 it.name)
          (es.map (Spec.ofWeight it) ++ [.call])).kernel with hK
  have hplaced : (s'.items.mapM fun it => (s'.read it).map fun x => (it.pos, x)) =
      some (s.items.map fun it => (it.pos, K it)) := by
    rw [h4.items_eq]
    refine Aux.mapM_of _ (fun it => (it.pos, K it)) _ ?_
    intro it hit
    simp only [OState.read, h6 it hit, Option.map_some, Slot.value]
    rfl
  have hvars : s'.vars = Spec.lastAssigned vars es := by
    rw [h4.vars_eq, Aux.lastAssigned_append]
  have hrest : (weights s'.layer).map s'.vars =
      Spec.without (s.items.map (·.pos)) 0 ((weights L).map s'.vars) := by
    rw [Aux.weights_slots s'.layer, h5, Aux.remaining sh L s.items hsp hw ha, Aux.without_map]
  have hpos : ∀ it ∈ s.items, (weights L)[it.pos]? = some it.var := by
    intro it hit
    rw [(hsp it hit).2.2.2]
    exact List.getElem?_idxOf (hsp it hit).2.2.1
  have hrestore : restoreWeights ((weights s'.layer).map s'.vars)
      (s.items.map fun it => (it.pos, K it)) =
      Spec.replaced (s.items.map fun it => (it.pos, K it)) ((weights L).map s'.vars) := by
    rw [hrest]
    have := C27_restore_partial ((weights L).map s'.vars) (s.items.map fun it => (it.pos, K it))
      (by simpa [List.map_map, Function.comp_def] using hasc)
      (by
        intro x hx
        simp only [List.mem_map] at hx
        obtain ⟨it, hit, rfl⟩ := hx
        have := (List.getElem?_eq_some_iff.1 (hpos it hit)).1
        simpa using this)
    simpa [List.map_map, Function.comp_def] using this
  have hlen : (Spec.replaced (s.items.map fun it => (it.pos, K it))
      ((weights L).map s'.vars)).length = (weights L).length := by simp [Spec.replaced]
  refine ⟨_, ?_, hlen, ?_, ?_⟩
  · unfold OState.strip
    rw [← hs']
    dsimp only
    rw [hplaced]
    dsimp only
    rw [hrestore, if_pos (by rw [hlen, h4.built_eq])]
  · intro it hit
    refine ⟨hpos it hit, ?_⟩
    simp only [Spec.replaced, List.getElem?_mapIdx, List.getElem?_map, hpos it hit,
      Option.map_some, (Aux.lookup_placed s.items K it.pos hasc).1 it hit rfl, Option.getD_some]
    rfl
  · intro i v hi hv
    have hne : ∀ it ∈ s.items, it.pos ≠ i := by
      intro it hit e
      have := hpos it hit
      rw [e, hi, Option.some.injEq] at this
      exact hv it hit this.symm
    simp only [Spec.replaced, List.getElem?_mapIdx, List.getElem?_map, hi,
      Option.map_some, (Aux.lookup_placed s.items K i hasc).2 hne, Option.getD_none, hvars]

/-! ### The layers of the registry -/

/-- The weights of an RNN cell in the order Keras creates them: `kernel`, `recurrent_kernel`, then
others (`bias`). -/
def Spec.IsCell (own : List (String × Slot τ)) : Prop :=
  ∃ k r rest, own = ("kernel", .var k) :: ("recurrent_kernel", .var r) :: rest

/-- A layer without sublayers. -/
def Spec.plainLayer (own : List (String × Slot τ)) : KLay τ := [([], own)]

/-- An RNN layer with one cell. -/
def Spec.rnnLayer (c : List (String × Slot τ)) : KLay τ := [([], []), ([.attr "cell"], c)]

/-- An RNN layer over `StackedRNNCells`. -/
def Spec.stackedLayer (cs : List (List (String × Slot τ))) : KLay τ :=
  ([], []) :: ([.attr "cell"], []) :: cs.mapIdx fun i c => ([.attr "cell", .idx i], c)

/-- A `Bidirectional` layer. -/
def Spec.bidirectionalLayer (f b : List (String × Slot τ)) : KLay τ :=
  [([], []), ([.attr "forward_layer"], []), ([.attr "forward_layer", .attr "cell"], f),
   ([.attr "backward_layer"], []), ([.attr "backward_layer", .attr "cell"], b)]

theorem Aux.sublist_ascending (W vs : List ℕ) (hW : W.Nodup) (h : vs.Sublist W) :
    (vs.map fun v => W.idxOf v).Pairwise (· < ·) := by
  induction h with
  | slnil => simp
  | @cons l₁ l₂ x h ih =>
    have hx := List.nodup_cons.1 hW
    have := ih hx.2
    refine List.pairwise_map.2 ((List.pairwise_map.1 this).imp_of_mem ?_)
    intro a b ha hb hab
    have hax : x ≠ a := fun e => hx.1 (e ▸ h.subset ha)
    have hbx : x ≠ b := fun e => hx.1 (e ▸ h.subset hb)
    rw [List.idxOf_cons_ne _ hax, List.idxOf_cons_ne _ hbx]
    omega
  | @cons_cons l₁ l₂ x h ih =>
    have hx := List.nodup_cons.1 hW
    have := ih hx.2
    rw [List.map_cons, List.pairwise_cons]
    constructor
    · intro p hp
      obtain ⟨b, hb, rfl⟩ := List.mem_map.1 hp
      have hbx : x ≠ b := fun e => hx.1 (e ▸ h.subset hb)
      rw [List.idxOf_cons_self, List.idxOf_cons_ne _ hbx]
      omega
    · refine List.pairwise_map.2 ((List.pairwise_map.1 this).imp_of_mem ?_)
      intro a b ha hb hab
      have hax : x ≠ a := fun e => hx.1 (e ▸ h.subset ha)
      have hbx : x ≠ b := fun e => hx.1 (e ▸ h.subset hb)
      rw [List.idxOf_cons_ne _ hax, List.idxOf_cons_ne _ hbx]
      omega

theorem Aux.obj_build_ok (sh : Shape) (names : List WName) (ch : WName → ι → ℕ)
    (L : KLay (ι → α)) (vars : ℕ → ι → α) (c0 : WName → ℕ → List α) (vof : WName → ℕ)
    (hl : ∀ n ∈ names, ∃ p a, locate sh n = some (p, a) ∧ getAttr L p a = some (.var (vof n)))
    (hsub : (names.map vof).Sublist (weights L)) (hw : (weights L).Nodup) :
    ∃ s, OState.build sh names ch L vars c0 = some s ∧
      (s.items.map fun it => (it.name, it.var)) = names.map (fun n => (n, vof n)) ∧
      (s.items.map (·.pos)).Pairwise (· < ·) := by
  set g : WName → Item := fun n => ⟨n, ((locate sh n).getD ([], "")).1, ((locate sh n).getD ([], "")).2,
    vof n, (weights L).idxOf (vof n)⟩ with hg
  have hm : names.mapM (makeItem sh L) = some (names.map g) := by
    refine Aux.mapM_of _ g _ ?_
    intro n hn
    obtain ⟨p, a, h1, h2⟩ := hl n hn
    have hv : vof n ∈ weights L := hsub.subset (List.mem_map_of_mem hn)
    simp only [makeItem, h1, h2, if_pos hv, hg, Option.getD_some]
  refine ⟨_, by unfold OState.build; rw [hm], ?_, ?_⟩
  · simp [List.map_map, Function.comp_def, hg]
  · have := Aux.sublist_ascending _ _ hw hsub
    simpa [List.map_map, Function.comp_def, hg] using this

/-- The variable in an attribute of a cell. -/
def Aux.cellVar (c : List (String × Slot τ)) (a : String) : ℕ :=
  ((c.lookup a).bind Slot.var?).getD 0

theorem Aux.cell_facts (c : List (String × Slot τ)) (h : Spec.IsCell c) :
    c.lookup "kernel" = some (.var (Aux.cellVar c "kernel")) ∧
    c.lookup "recurrent_kernel" = some (.var (Aux.cellVar c "recurrent_kernel")) ∧
    [Aux.cellVar c "kernel", Aux.cellVar c "recurrent_kernel"].Sublist
      (c.filterMap fun a => a.2.var?) := by
  obtain ⟨k, r, rest, rfl⟩ := h
  refine ⟨rfl, rfl, ?_⟩
  show [k, r].Sublist _
  simp only [List.filterMap_cons, Slot.var?]
  exact .cons_cons _ (.cons_cons _ (List.nil_sublist _))

theorem Aux.range_flatMap {β γ : Type*} (cs : List β) (d : β) (f : β → List γ) :
    ((List.range cs.length).flatMap fun i => f (cs.getD i d)) = cs.flatMap f := by
  have h : (List.range cs.length).map (fun i => cs.getD i d) = cs := by
    apply List.ext_getElem
    · simp
    · intro i h1 h2
      simp [List.getD_eq_getElem?_getD, List.getElem?_eq_getElem h2]
  conv_rhs => rw [← h]
  rw [List.flatMap_map]

theorem Aux.flatMap_sublist {β γ : Type*} (l : List β) (f g : β → List γ)
    (h : ∀ x ∈ l, (f x).Sublist (g x)) : (l.flatMap f).Sublist (l.flatMap g) := by
  induction l with
  | nil => simp
  | cons x l ih =>
    simp only [List.flatMap_cons]
    exact (h x (by simp)).append (ih fun y hy => h y (by simp [hy]))

theorem Aux.lookup_stack (cs : List (List (String × Slot τ))) (k i : ℕ) (h : i < cs.length) :
    (cs.mapIdx fun j c => (([.attr "cell", .idx (j + k)], c) : List Key × List (String × Slot τ))).lookup
      [.attr "cell", .idx (i + k)] = some (cs.getD i []) := by
  induction cs generalizing k i with
  | nil => simp at h
  | cons c cs ih =>
    rw [List.mapIdx_cons, List.lookup_cons]
    cases i with
    | zero => simp
    | succ i =>
      have hne : ([Key.attr "cell", Key.idx (i + 1 + k)] == [Key.attr "cell", Key.idx (0 + k)])
          = false := by
        simp
      simp only [hne]
      have := ih (k + 1) i (by simpa using h)
      simp only [Nat.add_assoc, Nat.add_comm 1, List.getD_cons_succ] at this ⊢
      exact this

/-- **C94 (registry).**  For every layer without sublayers and the weights the registry (or a
`ClusterableLayer`) lists, if that is in the order of `layer.weights`: the wrapper is built, exactly
the listed weights are clustered, in that order. -/
theorem C94_registry_plain (ch : WName → ι → ℕ) (own : List (String × Slot (ι → α)))
    (listed : List String) (vars : ℕ → ι → α) (c0 : WName → ℕ → List α)
    (hl : ∀ a ∈ listed, ∃ v, own.lookup a = some (.var v))
    (hsub : (listed.map fun a => (own.lookup a).bind Slot.var?).Sublist
      ((weights (Spec.plainLayer own)).map some))
    (hw : (weights (Spec.plainLayer own)).Nodup) :
    ∃ s, OState.build .flat (registryNames listed 0 .flat) ch (Spec.plainLayer own) vars c0 = some s ∧
      (s.items.map fun it => (it.name, some (Slot.var (τ := ι → α) it.var))) =
        (listed.map fun a => (.plain a, own.lookup a)) ∧
      (s.items.map (·.pos)).Pairwise (· < ·) := by
  have hv : ∀ a ∈ listed, own.lookup a = some (.var (Aux.cellVar own a)) := by
    intro a ha
    obtain ⟨v, hv⟩ := hl a ha
    simp [Aux.cellVar, hv, Slot.var?]
  obtain ⟨s, hs, hn, ha⟩ := Aux.obj_build_ok .flat (registryNames listed 0 .flat) ch
    (Spec.plainLayer own) vars c0 (fun n => match n with | .plain a => Aux.cellVar own a | _ => 0)
    (by
      intro n hn
      simp only [registryNames, List.mem_map] at hn
      obtain ⟨a, h1, rfl⟩ := hn
      exact ⟨_, _, rfl, by simpa [getAttr, Spec.plainLayer] using hv a h1⟩)
    (by
      have h2 : (listed.map fun a => (own.lookup a).bind Slot.var?) =
          (listed.map (Aux.cellVar own)).map some := by
        rw [List.map_map]
        refine List.map_congr_left fun a h => ?_
        simp [hv a h, Slot.var?]
      rw [h2] at hsub
      have h3 := hsub.filterMap id
      simpa [registryNames, List.map_map, Function.comp_def, List.filterMap_map] using h3) hw
  refine ⟨s, hs, ?_, ha⟩
  have := congrArg (List.map fun x : WName × ℕ => (x.1, some (Slot.var (τ := ι → α) x.2))) hn
  rw [List.map_map, List.map_map] at this
  refine Eq.trans this ?_
  rw [registryNames, List.map_map]
  refine List.map_congr_left fun a h => ?_
  simp [hv a h]

/-- **C94 (registry).**  For every stack of cells with any further weights (`bias`): the wrapper is
built, exactly `kernel` and `recurrent_kernel` of every cell are clustered, each under its own name, in
the order of `layer.weights`. -/
theorem C94_registry_stacked (ch : WName → ι → ℕ) (cs : List (List (String × Slot (ι → α))))
    (vars : ℕ → ι → α) (c0 : WName → ℕ → List α) (hc : ∀ c ∈ cs, Spec.IsCell c)
    (hw : (weights (Spec.stackedLayer cs)).Nodup) :
    ∃ s, OState.build .stacked (registryNames [] cs.length .stacked) ch (Spec.stackedLayer cs) vars c0
        = some s ∧
      (s.items.map fun it => (it.name, some (Slot.var (τ := ι → α) it.var))) =
        (List.range cs.length).flatMap (fun i =>
          [(.indexed "kernel" i, (cs.getD i []).lookup "kernel"),
           (.indexed "recurrent_kernel" i, (cs.getD i []).lookup "recurrent_kernel")]) ∧
      (s.items.map (·.pos)).Pairwise (· < ·) := by
  have hci : ∀ i ∈ List.range cs.length, Spec.IsCell (cs.getD i []) := by
    intro i hi
    have hi := List.mem_range.1 hi
    apply hc
    rw [List.getD_eq_getElem?_getD, List.getElem?_eq_getElem hi]
    exact List.getElem_mem hi
  have hget : ∀ i a, i < cs.length →
      getAttr (Spec.stackedLayer cs) [.attr "cell", .idx i] a = (cs.getD i []).lookup a := by
    intro i a hi
    have h0 := Aux.lookup_stack cs 0 i hi
    simp only [Nat.add_zero] at h0
    simp only [getAttr, Spec.stackedLayer, List.lookup_cons]
    have e1 : ([Key.attr "cell", Key.idx i] == ([] : List Key)) = false := by simp
    have e2 : ([Key.attr "cell", Key.idx i] == [Key.attr "cell"]) = false := by simp
    simp only [e1, e2]
    rw [h0]
    rfl
  set vof : WName → ℕ := fun n => match n with
    | .indexed a i => Aux.cellVar (cs.getD i []) a
    | _ => 0 with hvof
  have hwts : weights (Spec.stackedLayer cs) = cs.flatMap fun c => c.filterMap fun a => a.2.var? := by
    simp only [weights, Spec.stackedLayer, List.flatMap_cons, List.filterMap_nil, List.nil_append]
    rw [List.mapIdx_eq_zipIdx_map, List.flatMap_map]
    conv_rhs => rw [← List.zipIdx_map_fst 0 cs]
    rw [List.flatMap_map]
  obtain ⟨s, hs, hn, ha⟩ := Aux.obj_build_ok .stacked (registryNames [] cs.length .stacked) ch
    (Spec.stackedLayer cs) vars c0 vof
    (by
      intro n hn
      simp only [registryNames, List.mem_flatMap, List.mem_cons, List.not_mem_nil, or_false] at hn
      obtain ⟨i, hi, rfl | rfl⟩ := hn
      · exact ⟨_, _, rfl, by rw [hget _ _ (List.mem_range.1 hi)]; exact (Aux.cell_facts _ (hci i hi)).1⟩
      · exact ⟨_, _, rfl, by
          rw [hget _ _ (List.mem_range.1 hi)]; exact (Aux.cell_facts _ (hci i hi)).2.1⟩)
    (by
      have h1 : (registryNames [] cs.length .stacked).map vof =
          cs.flatMap fun c => [Aux.cellVar c "kernel", Aux.cellVar c "recurrent_kernel"] := by
        rw [← Aux.range_flatMap cs [], registryNames, List.map_flatMap]
        rfl
      rw [h1, hwts]
      exact Aux.flatMap_sublist _ _ _ fun c h => (Aux.cell_facts c (hc c h)).2.2) hw
  refine ⟨s, hs, ?_, ha⟩
  have := congrArg (List.map fun x : WName × ℕ => (x.1, some (Slot.var (τ := ι → α) x.2))) hn
  rw [List.map_map, List.map_map] at this
  refine Eq.trans this ?_
  rw [registryNames, List.map_flatMap]
  refine List.flatMap_congr fun i hi => ?_
  obtain ⟨e1, e2, -⟩ := Aux.cell_facts _ (hci i hi)
  rw [e1, e2]
  rfl

/-- **C94 (registry).**  The same for an RNN layer with a single cell. -/
theorem C94_registry_rnn (ch : WName → ι → ℕ) (c : List (String × Slot (ι → α)))
    (vars : ℕ → ι → α) (c0 : WName → ℕ → List α) (hc : Spec.IsCell c)
    (hw : (weights (Spec.rnnLayer c)).Nodup) :
    ∃ s, OState.build .cell (registryNames [] 1 .cell) ch (Spec.rnnLayer c) vars c0 = some s ∧
      (s.items.map fun it => (it.name, some (Slot.var (τ := ι → α) it.var))) =
        [(.indexed "kernel" 0, c.lookup "kernel"),
         (.indexed "recurrent_kernel" 0, c.lookup "recurrent_kernel")] ∧
      (s.items.map (·.pos)).Pairwise (· < ·) := by
  obtain ⟨h1, h2, h3⟩ := Aux.cell_facts c hc
  obtain ⟨s, hs, hn, ha⟩ := Aux.obj_build_ok .cell (registryNames [] 1 .cell) ch (Spec.rnnLayer c)
    vars c0 (fun n => match n with | .indexed a _ => Aux.cellVar c a | _ => 0)
    (by
      intro n hn
      simp only [registryNames, List.mem_cons, List.not_mem_nil, or_false] at hn
      rcases hn with rfl | rfl
      · exact ⟨_, _, rfl, h1⟩
      · exact ⟨_, _, rfl, h2⟩)
    (by simpa [registryNames, weights, Spec.rnnLayer] using h3) hw
  refine ⟨s, hs, ?_, ha⟩
  have := congrArg (List.map fun x : WName × ℕ => (x.1, some (Slot.var (τ := ι → α) x.2))) hn
  rw [List.map_map, List.map_map] at this
  refine Eq.trans this ?_
  rw [h1, h2]
  rfl

/-- **C94 (registry).**  The same for a bidirectional layer: index 0 is the forward, index 1 the
backward cell. -/
theorem C94_registry_bidirectional (ch : WName → ι → ℕ) (f b : List (String × Slot (ι → α)))
    (vars : ℕ → ι → α) (c0 : WName → ℕ → List α) (hf : Spec.IsCell f) (hb : Spec.IsCell b)
    (hw : (weights (Spec.bidirectionalLayer f b)).Nodup) :
    ∃ s, OState.build .bidirectional (registryNames [] 2 .bidirectional) ch
        (Spec.bidirectionalLayer f b) vars c0 = some s ∧
      (s.items.map fun it => (it.name, some (Slot.var (τ := ι → α) it.var))) =
        [(.indexed "kernel" 0, f.lookup "kernel"),
         (.indexed "recurrent_kernel" 0, f.lookup "recurrent_kernel"),
         (.indexed "kernel" 1, b.lookup "kernel"),
         (.indexed "recurrent_kernel" 1, b.lookup "recurrent_kernel")] ∧
      (s.items.map (·.pos)).Pairwise (· < ·) := by
  obtain ⟨h1, h2, h3⟩ := Aux.cell_facts f hf
  obtain ⟨g1, g2, g3⟩ := Aux.cell_facts b hb
  obtain ⟨s, hs, hn, ha⟩ := Aux.obj_build_ok .bidirectional (registryNames [] 2 .bidirectional) ch
    (Spec.bidirectionalLayer f b)
    vars c0 (fun n => match n with
      | .indexed a i => Aux.cellVar (if i = 0 then f else b) a
      | _ => 0)
    (by
      intro n hn
      have hn' : n ∈ [WName.indexed "kernel" 0, .indexed "recurrent_kernel" 0, .indexed "kernel" 1,
        .indexed "recurrent_kernel" 1] := hn
      simp only [List.mem_cons, List.not_mem_nil, or_false] at hn'
      rcases hn' with rfl | rfl | rfl | rfl
      · exact ⟨_, _, rfl, h1⟩
      · exact ⟨_, _, rfl, h2⟩
      · exact ⟨_, _, rfl, g1⟩
      · exact ⟨_, _, rfl, g2⟩)
    (by
      have hW : weights (Spec.bidirectionalLayer f b) =
          (f.filterMap fun a => a.2.var?) ++ (b.filterMap fun a => a.2.var?) := by
        simp [weights, Spec.bidirectionalLayer]
      rw [hW]
      exact h3.append g3) hw
  refine ⟨s, hs, ?_, ha⟩
  have := congrArg (List.map fun x : WName × ℕ => (x.1, some (Slot.var (τ := ι → α) x.2))) hn
  rw [List.map_map, List.map_map] at this
  refine Eq.trans this ?_
  rw [h1, h2, g1, g2]
  rfl

/-! ### Attention layers -/

theorem Aux.foldl_stripMha (its : List Item) (s : OState ι α) (K : Item → ι → α)
    (hdot : ∀ it ∈ its, ∃ sub a, it.name = .dotted sub a ∧ it.path = [.attr sub] ∧ it.attr = a)
    (hvar : (its.map (·.var)).Nodup)
    (hget : ∀ it ∈ its, getAttr s.layer it.path it.attr = some (.tensor (K it))) :
    let s' := its.foldl OState.stripMhaOne s
    (∀ p a, p ≠ [] → getAttr s'.layer p a = getAttr s.layer p a) ∧
    (∀ it ∈ its, s'.vars it.var = K it) ∧
    ∀ v, (∀ it ∈ its, it.var ≠ v) → s'.vars v = s.vars v := by
  induction its generalizing s with
  | nil => exact ⟨fun _ _ _ => rfl, by simp, fun _ _ => rfl⟩
  | cons it its ih =>
    obtain ⟨sub, a, h1, h2, h3⟩ := hdot it (by simp)
    have hone : OState.stripMhaOne s it = { s with
        vars := Function.update s.vars it.var (K it)
        layer := setAttr s.layer [] (sub ++ "." ++ a) (.var it.var) } := by
      simp only [OState.stripMhaOne, OState.read, hget it (by simp), h1, Option.map_some, Slot.value]
    simp only [List.map_cons, List.nodup_cons] at hvar
    have hother : ∀ p b, p ≠ [] →
        getAttr (OState.stripMhaOne s it).layer p b = getAttr s.layer p b := by
      intro p b hp
      rw [hone]
      exact Aux.getAttr_other _ _ _ _ _ _ fun e => hp (Prod.mk.inj e).1
    obtain ⟨e1, e2, e3⟩ := ih (OState.stripMhaOne s it) (fun x hx => hdot x (by simp [hx])) hvar.2 (by
      intro x hx
      obtain ⟨sub', a', h1', h2', h3'⟩ := hdot x (by simp [hx])
      rw [hother _ _ (by rw [h2']; simp)]
      exact hget x (by simp [hx]))
    simp only [List.foldl_cons]
    refine ⟨fun p b hp => (e1 p b hp).trans (hother p b hp), ?_, ?_⟩
    · intro x hx
      rcases List.mem_cons.1 hx with rfl | hx
      · rw [e3 x.var fun y hy e => hvar.1 (e ▸ List.mem_map_of_mem (f := fun it : Item => it.var) hy),
          hone]
        simp
      · exact e2 x hx
    · intro v hv
      rw [e3 v fun y hy => hv y (by simp [hy]), hone]
      exact Function.update_of_ne (Ne.symm (hv it (by simp))) _ _

/-- **C94 (attention layers).**  Stripping a wrapped `MultiHeadAttention` leaves the clustered values in
the places the layer computes with, and writes them to the original variables; all other variables keep
their values.  Missing for the full claim: the variables are not put back where they belong and come in
another order, see `C94_mha_violated`. -/
theorem C94_mha_partial (ps : Bool) (names : List WName) (ch : WName → ι → ℕ)
    (L : KLay (ι → α)) (vars : ℕ → ι → α) (c0 : WName → ℕ → List α) (s : OState ι α)
    (hb : OState.build .mha names ch L vars c0 = some s)
    (hasc : (s.items.map (·.pos)).Pairwise (· < ·)) (es : List (OEvent ι α)) :
    (∀ it ∈ s.items, let K := (CState.run ps (ch it.name) (vars it.var) (c0 it.name)
          (es.map (Spec.ofWeight it) ++ [.call])).kernel
      getAttr ((s.run ps ch es).stripMha ps ch).layer it.path it.attr = some (.tensor K) ∧
      ((s.run ps ch es).stripMha ps ch).vars it.var = K) ∧
    ∀ v, (∀ it ∈ s.items, it.var ≠ v) →
      ((s.run ps ch es).stripMha ps ch).vars v = Spec.lastAssigned vars es v := by
  obtain ⟨h1, -, h2⟩ := Aux.obj_built ps .mha names ch L vars c0 s hb hasc
  have hsp := Aux.items_spec _ _ _ _ h1
  obtain ⟨hvar, hloc, hname⟩ := Aux.items_distinct .mha L s.items hsp hasc
  have h3 := Aux.obj_run ps ch L s.items vars c0 s hloc hname h2 es
  obtain ⟨h4, h5, h6⟩ := Aux.obj_call ps ch L s.items vars c0 es _ hloc hname h3
  have hdot : ∀ it ∈ s.items, ∃ sub a, it.name = .dotted sub a ∧ it.path = [.attr sub] ∧
      it.attr = a := by
    intro it hit
    have := (hsp it hit).1
    cases hn : it.name with
    | plain a => rw [hn] at this; cases this
    | indexed a i => rw [hn] at this; cases this
    | dotted sub a =>
      rw [hn] at this
      simp only [locate, Option.some.injEq, Prod.mk.injEq] at this
      exact ⟨sub, a, rfl, this.1.symm, this.2.symm⟩
  obtain ⟨e1, e2, e3⟩ := Aux.foldl_stripMha s.items ((s.run ps ch es).update ps ch)
    (fun it => (CState.run ps (ch it.name) (vars it.var) (c0 it.name)
          (es.map (Spec.ofWeight it) ++ [.call])).kernel) hdot hvar h6
  have hstrip : (s.run ps ch es).stripMha ps ch =
      s.items.foldl OState.stripMhaOne ((s.run ps ch es).update ps ch) := by
    unfold OState.stripMha
    dsimp only
    rw [h4.items_eq]
  rw [hstrip]
  refine ⟨?_, ?_⟩
  · intro it hit
    refine ⟨?_, e2 it hit⟩
    obtain ⟨sub, a, -, hp, -⟩ := hdot it hit
    rw [e1 _ _ (by rw [hp]; simp)]
    exact h6 it hit
  · intro v hv
    rw [e3 v hv, h4.vars_eq, Aux.lastAssigned_append]

/-- A `MultiHeadAttention` layer: four dense layers with kernel and bias. -/
def Example.attention : KLay (ℕ → ℚ) :=
  [([], []), ([.attr "_query_dense"], [("kernel", .var 0), ("bias", .var 1)]),
   ([.attr "_key_dense"], [("kernel", .var 2), ("bias", .var 3)]),
   ([.attr "_value_dense"], [("kernel", .var 4), ("bias", .var 5)]),
   ([.attr "_output_dense"], [("kernel", .var 6), ("bias", .var 7)])]

/-- The wrapper built for it; values and centroids do not matter. -/
def Example.attentionWrapper : Option (OState ℕ ℚ) :=
  OState.build .mha (registryNames [] 0 .mha) (fun _ _ => 0) Example.attention (fun v _ => v)
    (fun _ _ => [0, 1])

/-- `ClusterWeightsMHA.strip_clustering` sets the attribute `_query_dense.kernel` (with the dot) on
the attention layer instead of the attribute `kernel` of its sublayer: the kernels the stripped layer
computes with are constants, no longer variables, so training, `set_weights` or loading a checkpoint
has no effect on them, and `weights` lists the variables in another order than the original layer. -/
theorem C94_mha_violated :
    ∃ s, Example.attentionWrapper = some s ∧
      (let t := s.stripMha false (fun _ _ => 0)
       weights t.layer = [0, 2, 4, 6, 1, 3, 5, 7] ∧ weights Example.attention = [0, 1, 2, 3, 4, 5, 6, 7] ∧
       ∀ it ∈ s.items, ∃ x, getAttr t.layer it.path it.attr = some (.tensor x) ∧
        ∀ vars', (({ t with vars := vars' } : OState ℕ ℚ).read it) = some x) := by
  have hb : Example.attentionWrapper.isSome = true := by decide +kernel
  obtain ⟨s, hs⟩ := Option.isSome_iff_exists.1 hb
  have hw : (Example.attentionWrapper.map fun s =>
      weights (s.stripMha false (fun _ _ => 0)).layer) = some [0, 2, 4, 6, 1, 3, 5, 7] := by
    decide +kernel
  have hp : (Example.attentionWrapper.map fun s => s.items.map (·.pos)) = some [0, 2, 4, 6] := by
    decide +kernel
  rw [hs] at hw hp
  simp only [Option.map_some, Option.some.injEq] at hw hp
  refine ⟨s, hs, hw, by decide, ?_⟩
  intro it hit
  have := (C94_mha_partial false _ _ _ _ _ s hs (by rw [hp]; decide) []).1 it hit
  refine ⟨_, this.1, fun vars' => ?_⟩
  simp only [OState.read]
  erw [this.1]
  rfl

/-! ### Examples -/

namespace Example

/-- Two stacked cells, the second without bias. -/
def stack2 : KLay (ℕ → ℚ) := Spec.stackedLayer
  [[("kernel", .var 10), ("recurrent_kernel", .var 11), ("bias", .var 12)],
   [("kernel", .var 20), ("recurrent_kernel", .var 21)]]

example : weights stack2 = [10, 11, 12, 20, 21] := by decide +kernel
example : (weights stack2).Nodup ∧ ((Spec.slots stack2).map (·.1)).Nodup := by decide +kernel

/-- The stripped weights after two forward passes with an optimizer step between them, first two
entries. -/
def stack2Stripped : Option (List (List ℚ)) :=
  (OState.build .stacked (registryNames [] 2 .stacked) (fun _ _ => 0) stack2
      (fun v p => if p = 0 then v else 0) (fun _ _ => [0, 10])).bind fun s =>
    ((s.run false (fun _ _ => 0) [.call, .assign (fun v p => if p = 0 then v else -1)
      (fun n _ k => match n with | .indexed _ i => 100 * i + k | _ => 0), .call]).strip false
      (fun _ _ => 0)).map fun ws => ws.map fun w => [w 0, w 1]

example : stack2Stripped = some [[1, 0], [1, 0], [12, -1], [100, 100], [100, 100]] := by
  decide +kernel

example : Spec.IsCell ([("kernel", .var 1), ("recurrent_kernel", .var 2), ("bias", .var 3)] :
    List (String × Slot (ℕ → ℚ))) := ⟨1, 2, _, rfl⟩
example : (weights (Spec.bidirectionalLayer
    ([("kernel", .var 1), ("recurrent_kernel", .var 2), ("bias", .var 3)] :
      List (String × Slot (ℕ → ℚ)))
    [("kernel", .var 4), ("recurrent_kernel", .var 5), ("bias", .var 6)])).Nodup := by decide +kernel
/-- A `SeparableConv2D`: only the pointwise kernel is clustered. -/
example : (weights (Spec.plainLayer ([("depthwise_kernel", .var 0), ("pointwise_kernel", .var 1),
    ("bias", .var 2)] : List (String × Slot (ℕ → ℚ))))).Nodup := by decide +kernel
end Example

end Verif.Props
