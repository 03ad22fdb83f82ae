import Verif.Compression.Shared
import Mathlib.Data.List.Nodup
import Mathlib.Data.List.Induction
import Mathlib.Tactic.Ring

/-!
# C112: one compression algorithm object serves many layers

`optimize_model` gives the same algorithm object to every layer.  The specification below knows no
such object, no variables and no tensors: a layer just has its own lists of values.
-/
set_option linter.unusedSectionVars false

namespace Verif.Props
open Verif.Compression

variable {V : Type}

/-! ## Specification: a layer on its own -/

/-- The updates made in one `project_training_weights` on the training weights `vs` of one weight:
the update of the `k`-th argument replaces the `k`-th training weight, later updates come last, and
anything but an argument of this call is an error. -/
def Spec.updated : List V → List (Ref × V) → List V × Bool
  | vs, [] => (vs, true)
  | vs, (.arg k, v) :: rest => if k < vs.length then Spec.updated (vs.set k v) rest else (vs, false)
  | vs, (.other _, _) :: _ => (vs, false)

/-- Replacing the training weights kept under `name`. -/
def Spec.ownReplaced (own : List (String × List V)) (name : String) (vs : List V) : List (String × List V) :=
  own.map fun e => if e.1 = name then (e.1, vs) else e

/-- A call of a layer with training weights `own`: for every attribute that stands for a compressible
weight, project the current training weights and make the updates. -/
def Spec.callAlone (code : AlgCode V) : List (String × String) → List (String × List V) →
    List (String × List V) × Option (List (String × V))
  | [], own => (own, some [])
  | (attr, name) :: rest, own =>
    match own.lookup name with
    | none => (own, none)
    | some vs =>
      let u := Spec.updated vs (code.project vs).1
      let own' := Spec.ownReplaced own name u.1
      if u.2 then
        let r := Spec.callAlone code rest own'
        (r.1, r.2.map ((attr, (code.project vs).2) :: ·))
      else (own', none)

/-- The training weights of the `j`-th layer after a history: only its own calls and its own training
steps matter. -/
def Spec.alone (code : AlgCode V) (attrs : List (String × String)) (j : ℕ) :
    List (String × List V) → List (SEvent V) → List (String × List V)
  | own, [] => own
  | own, .call i :: es =>
    Spec.alone code attrs j (if i = j then (Spec.callAlone code attrs own).1 else own) es
  | own, .train i name k v :: es =>
    Spec.alone code attrs j
      (if i = j then own.map fun e => if e.1 = name then (e.1, e.2.set k v) else e else own) es
  | own, .create _ _ :: es => Spec.alone code attrs j own es
  | own, .add _ :: es => Spec.alone code attrs j own es

/-- No layer has two compressible weights of the same name. -/
def Spec.NamesOnce : SEvent V → Prop
  | .create ws _ => (ws.map (·.1)).Nodup
  | _ => True

/-! ## Reading variables -/

/-- The values of the variables `ids`. -/
def Aux.readVars (vars : List V) (ids : List ℕ) : List V := ids.filterMap (vars[·]?)

/-- The training weights of a layer by value. -/
def Aux.viewVars (vars : List V) (ws : List (String × List ℕ)) : List (String × List V) :=
  ws.map fun e => (e.1, Aux.readVars vars e.2)

theorem Aux.readVars_length {vars : List V} {ids : List ℕ} (h : ∀ i ∈ ids, i < vars.length) :
    (Aux.readVars vars ids).length = ids.length := by
  induction ids with
  | nil => rfl
  | cons i ids ih =>
    have hi := List.getElem?_eq_getElem (h i List.mem_cons_self)
    have := ih fun k hk => h k (List.mem_cons_of_mem _ hk)
    simp only [Aux.readVars, List.filterMap_cons, hi, List.length_cons] at this ⊢
    omega

theorem Aux.readVars_get {vars : List V} {ids : List ℕ} (h : ∀ i ∈ ids, i < vars.length) (k : ℕ) :
    (Aux.readVars vars ids)[k]? = ids[k]?.bind (vars[·]?) := by
  induction ids generalizing k with
  | nil => simp [Aux.readVars]
  | cons i ids ih =>
    have hi := List.getElem?_eq_getElem (h i List.mem_cons_self)
    have := ih fun k hk => h k (List.mem_cons_of_mem _ hk)
    cases k with
    | zero => simp [Aux.readVars, List.filterMap_cons, hi]
    | succ k => simpa [Aux.readVars, List.filterMap_cons, hi] using this k

theorem Aux.readVars_congr {vars vars' : List V} {ids : List ℕ} (h : ∀ i ∈ ids, vars'[i]? = vars[i]?) :
    Aux.readVars vars' ids = Aux.readVars vars ids := by
  induction ids with
  | nil => rfl
  | cons i ids ih =>
    have h1 := h i List.mem_cons_self
    have h2 := ih fun k hk => h k (List.mem_cons_of_mem _ hk)
    simp only [Aux.readVars, List.filterMap_cons, h1] at h2 ⊢
    rw [h2]

theorem Aux.readVars_set {vars : List V} {ids : List ℕ} (h : ∀ i ∈ ids, i < vars.length) (hd : ids.Nodup)
    {k i : ℕ} (hk : ids[k]? = some i) (v : V) :
    Aux.readVars (vars.set i v) ids = (Aux.readVars vars ids).set k v := by
  have h' : ∀ i' ∈ ids, i' < (vars.set i v).length := by simpa using h
  apply List.ext_getElem?
  intro n
  rw [Aux.readVars_get h', List.getElem?_set]
  have hkl : k < ids.length := (List.getElem?_eq_some_iff.1 hk).1
  have hki : ids[k] = i := (List.getElem?_eq_some_iff.1 hk).2
  have hil : i < vars.length := h i (hki ▸ List.getElem_mem hkl)
  by_cases hn : k = n
  · subst hn
    rw [if_pos rfl, if_pos (by rw [Aux.readVars_length h]; exact hkl), hk]
    simp [hil]
  · rw [if_neg hn, Aux.readVars_get h]
    cases hm : ids[n]? with
    | none => rfl
    | some m =>
      have hne : i ≠ m := by
        intro e
        subst e
        have hnl := (List.getElem?_eq_some_iff.1 hm).1
        have hmi := (List.getElem?_eq_some_iff.1 hm).2
        exact hn ((List.Nodup.getElem_inj_iff hd).1 (hki.trans hmi.symm))
      simp [hne]

/-! ## One weight -/

theorem Aux.find_pair {base : ℕ} {ids : List ℕ} {k i : ℕ} (hk : ids[k]? = some i) :
    (((List.range ids.length).map (base + ·)).zip ids).find? (fun p => p.1 == base + k) =
      some (base + k, i) := by
  induction ids using List.reverseRecOn with
  | nil => simp at hk
  | append_singleton ids x ih =>
    rw [List.length_append, List.length_singleton, List.range_succ, List.map_append, List.map_singleton,
      List.zip_append (by simp), List.find?_append]
    by_cases hl : k < ids.length
    · rw [List.getElem?_append_left hl] at hk
      rw [ih hk]; rfl
    · have hke : k = ids.length := by
        have := (List.getElem?_eq_some_iff.1 hk).1
        simp at this; omega
      subst hke
      have hx : x = i := by simpa using hk
      have : (((List.range ids.length).map (base + ·)).zip ids).find?
          (fun p => p.1 == base + ids.length) = none := by
        rw [List.find?_eq_none]
        intro p hp
        have h1 := (List.of_mem_zip hp).1
        simp only [List.mem_map, List.mem_range] at h1
        obtain ⟨a, ha, he⟩ := h1
        simp; omega
      rw [this]
      simp [hx]

theorem Aux.find_other {base : ℕ} {ids : List ℕ} {t : ℕ} (ht : t < base) :
    (((List.range ids.length).map (base + ·)).zip ids).find? (fun p => p.1 == t) = none := by
  rw [List.find?_eq_none]
  intro p hp
  have h1 := (List.of_mem_zip hp).1
  simp only [List.mem_map, List.mem_range] at h1
  obtain ⟨a, ha, he⟩ := h1
  simp; omega

/-- What the updates of one projection do to the variables. -/
theorem Aux.updateAll_spec {ids : List ℕ} (hd : ids.Nodup) (base : ℕ) (ups : List (Ref × V)) :
    ∀ (a : AlgObj V) (vars : List V), a.pairs = ((List.range ids.length).map (base + ·)).zip ids →
      (∀ i ∈ ids, i < vars.length) →
      let u := updateAll base ids.length ups a vars
      u.2 = (Spec.updated (Aux.readVars vars ids) ups).2 ∧
      Aux.readVars u.1.2 ids = (Spec.updated (Aux.readVars vars ids) ups).1 ∧
      u.1.2.length = vars.length ∧ ∀ i, i ∉ ids → u.1.2[i]? = vars[i]? := by
  induction ups with
  | nil => intro a vars _ _; exact ⟨rfl, rfl, rfl, fun _ _ => rfl⟩
  | cons x ups ih =>
    intro a vars hp hl
    obtain ⟨r, v⟩ := x
    cases r with
    | other t =>
      by_cases ht : t < base
      · simp only [updateAll, Ref.identity, if_pos ht, updateTrainingWeight, hp, Aux.find_other ht,
          Spec.updated]
        exact ⟨trivial, trivial, trivial, fun _ _ => trivial⟩
      · simp only [updateAll, Ref.identity, if_neg ht, Spec.updated]
        exact ⟨trivial, trivial, trivial, fun _ _ => trivial⟩
    | arg k =>
      by_cases hk : k < ids.length
      · have hk' : ids[k]? = some ids[k] := List.getElem?_eq_getElem hk
        simp only [updateAll, Ref.identity, if_pos hk, updateTrainingWeight, hp, Aux.find_pair hk',
          Spec.updated, Aux.readVars_length hl]
        have := ih { a with updateOps := a.updateOps ++ [(ids[k], v)] } (vars.set ids[k] v) hp
          (by simpa using hl)
        rw [Aux.readVars_set hl hd hk', hp] at this
        obtain ⟨h1, h2, h3, h4⟩ := this
        refine ⟨h1, h2, by rw [h3, List.length_set], fun i hi => ?_⟩
        rw [h4 i hi, List.getElem?_set_ne]
        intro e; exact hi (e ▸ List.getElem_mem hk)
      · simp only [updateAll, Ref.identity, if_neg hk, Spec.updated, Aux.readVars_length hl]
        exact ⟨trivial, trivial, trivial, fun _ _ => trivial⟩

theorem Aux.callWeight_spec (code : AlgCode V) {ids : List ℕ} (hd : ids.Nodup) (s : Shared V)
    (hl : ∀ i ∈ ids, i < s.vars.length) :
    let c := callWeight code ids s
    let vs := Aux.readVars s.vars ids
    let u := Spec.updated vs (code.project vs).1
    c.2 = (if u.2 then some (code.project vs).2 else none) ∧
    Aux.readVars c.1.vars ids = u.1 ∧ c.1.vars.length = s.vars.length ∧
    (∀ i, i ∉ ids → c.1.vars[i]? = s.vars[i]?) ∧ c.1.layers = s.layers := by
  have := Aux.updateAll_spec hd s.tensors (code.project (Aux.readVars s.vars ids)).1
    { s.alg with pairs := ((List.range ids.length).map (s.tensors + ·)).zip ids, updateOps := [] }
    s.vars rfl hl
  obtain ⟨h1, h2, h3, h4⟩ := this
  refine ⟨?_, h2, h3, h4, rfl⟩
  rw [← h1]; rfl

/-! ## One layer -/

/-- All variables of a layer. -/
def Aux.idsOf (ws : List (String × List ℕ)) : List ℕ := ws.flatMap (·.2)

theorem Aux.idsLookup_mem {ws : List (String × List ℕ)} {name : String} {ids : List ℕ}
    (h : ws.lookup name = some ids) : (name, ids) ∈ ws := by
  induction ws with
  | nil => simp at h
  | cons e ws ih =>
    obtain ⟨n, l⟩ := e
    rw [List.lookup_cons] at h
    split at h
    · next hb => simp at h hb; subst h hb; exact List.mem_cons_self
    · exact List.mem_cons_of_mem _ (ih h)

theorem Aux.view_lookup (vars : List V) (ws : List (String × List ℕ)) (name : String) :
    (Aux.viewVars vars ws).lookup name = (ws.lookup name).map (Aux.readVars vars) := by
  induction ws with
  | nil => rfl
  | cons e ws ih =>
    obtain ⟨n, l⟩ := e
    simp only [Aux.viewVars, List.map_cons, List.lookup_cons] at ih ⊢
    split
    · rfl
    · exact ih

/-- Changing the variables of one name changes only the entry of that name. -/
theorem Aux.view_replaced {vars vars' : List V} {ws : List (String × List ℕ)}
    (hn : (ws.map (·.1)).Nodup) (hd : (Aux.idsOf ws).Nodup) {name : String} {ids : List ℕ}
    (h : ws.lookup name = some ids) (hout : ∀ i, i ∉ ids → vars'[i]? = vars[i]?) :
    Aux.viewVars vars' ws = Spec.ownReplaced (Aux.viewVars vars ws) name (Aux.readVars vars' ids) := by
  induction ws with
  | nil => rfl
  | cons e ws ih =>
    obtain ⟨n, l⟩ := e
    simp only [List.map_cons, List.nodup_cons] at hn
    simp only [Aux.idsOf, List.flatMap_cons, List.nodup_append] at hd
    simp only [Aux.viewVars, Spec.ownReplaced, List.map_cons, List.map_map] at ih ⊢
    by_cases hb : name = n
    · subst hb
      simp only [List.lookup_cons, beq_self_eq_true, Option.some.injEq] at h
      subst h
      rw [if_pos rfl]
      congr 1
      apply List.map_congr_left
      intro e he
      have hne : e.1 ≠ name := fun e' => hn.1 (e' ▸ List.mem_map_of_mem he)
      simp only [Function.comp, if_neg hne]
      rw [Aux.readVars_congr fun i hi => hout i fun hi' =>
        hd.2.2 i hi' i (List.mem_flatMap.2 ⟨e, he, hi⟩) rfl]
    · rw [List.lookup_cons, beq_false_of_ne hb] at h
      rw [if_neg (Ne.symm hb)]
      congr 1
      · rw [Aux.readVars_congr fun i hi => hout i fun hi' =>
          hd.2.2 i hi i (List.mem_flatMap.2 ⟨_, Aux.idsLookup_mem h, hi'⟩) rfl]
      · have := ih hn.2 hd.2.1 h
        rw [this]

theorem Aux.nodup_of_lookup {ws : List (String × List ℕ)} (hd : (Aux.idsOf ws).Nodup) {name : String}
    {ids : List ℕ} (h : ws.lookup name = some ids) : ids.Nodup ∧ ∀ i ∈ ids, i ∈ Aux.idsOf ws := by
  have hm := Aux.idsLookup_mem h
  constructor
  · exact (List.nodup_flatMap.1 hd).1 _ hm
  · intro i hi; exact List.mem_flatMap.2 ⟨_, hm, hi⟩

theorem Aux.callAttrs_spec (code : AlgCode V) {ws : List (String × List ℕ)} (hn : (ws.map (·.1)).Nodup)
    (hd : (Aux.idsOf ws).Nodup) (attrs : List (String × String)) :
    ∀ s : Shared V, (∀ i ∈ Aux.idsOf ws, i < s.vars.length) →
      let c := callAttrs code ws attrs s
      let r := Spec.callAlone code attrs (Aux.viewVars s.vars ws)
      c.2 = r.2 ∧ Aux.viewVars c.1.vars ws = r.1 ∧ c.1.vars.length = s.vars.length ∧
      (∀ i, i ∉ Aux.idsOf ws → c.1.vars[i]? = s.vars[i]?) ∧ c.1.layers = s.layers := by
  induction attrs with
  | nil => intro s _; exact ⟨rfl, rfl, rfl, fun _ _ => rfl, rfl⟩
  | cons a attrs ih =>
    intro s hl
    obtain ⟨attr, name⟩ := a
    simp only [callAttrs, Spec.callAlone, Aux.view_lookup]
    cases hw : ws.lookup name with
    | none => exact ⟨rfl, rfl, rfl, fun _ _ => rfl, rfl⟩
    | some ids =>
      obtain ⟨hnd, hsub⟩ := Aux.nodup_of_lookup hd hw
      obtain ⟨h1, h2, h3, h4, h5⟩ := Aux.callWeight_spec code hnd s fun i hi => hl i (hsub i hi)
      have hview := Aux.view_replaced hn hd hw h4
      rw [h2] at hview
      simp only [Option.map_some]
      generalize hc : callWeight code ids s = c at *
      obtain ⟨s', o⟩ := c
      dsimp only at h1 h2 h3 h4 h5 hview ⊢
      generalize hu : Spec.updated (Aux.readVars s.vars ids) (code.project (Aux.readVars s.vars ids)).1 = u at *
      obtain ⟨vs', b⟩ := u
      dsimp only at h1 h2 hview ⊢
      cases b with
      | false =>
        simp only [Bool.false_eq_true, if_false] at h1 ⊢
        subst h1
        exact ⟨rfl, hview, h3, fun i hi => h4 i fun hi' => hi (hsub i hi'), h5⟩
      | true =>
        simp only [if_true] at h1 ⊢
        subst h1
        have hl' : ∀ i ∈ Aux.idsOf ws, i < s'.vars.length := fun i hi => h3 ▸ hl i hi
        obtain ⟨g1, g2, g3, g4, g5⟩ := ih s' hl'
        rw [hview] at g1 g2
        dsimp only
        refine ⟨by rw [g1], g2, g3.trans h3, fun i hi => ?_, g5.trans h5⟩
        rw [g4 i hi]
        exact h4 i fun hi' => hi (hsub i hi')

/-! ## All layers -/

/-- Different training weights are different variables, in all layers together. -/
def Aux.Separate (s : Shared V) : Prop :=
  (s.layers.flatMap fun l => Aux.idsOf l.weights).Nodup ∧
  (∀ l ∈ s.layers, (l.weights.map (·.1)).Nodup) ∧
  ∀ l ∈ s.layers, ∀ i ∈ Aux.idsOf l.weights, i < s.vars.length

theorem Aux.initWeights_reprs (code : AlgCode V) (a : AlgObj V) (w : V) :
    (a.initWeights code w).reprs = code.init w := by
  suffices h : ∀ (vs : List V) (b : AlgObj V), (vs.foldl AlgObj.add b).reprs = b.reprs ++ vs by
    rw [AlgObj.initWeights, h]; rfl
  intro vs
  induction vs with
  | nil => intro b; simp
  | cons v vs ih => intro b; rw [List.foldl_cons, ih]; simp [AlgObj.add]

theorem Aux.sharedBuild_spec (code : AlgCode V) (zeros : V → V) (ws : List (String × V)) :
    ∀ (a : AlgObj V) (vars : List V),
      let b := buildWeights code zeros ws a vars
      b.1.map (·.1) = ws.map (·.1) ∧
      b.1.map (·.2.length) = ws.map (fun e => (code.init (zeros e.2)).length) ∧
      b.2.2.length = vars.length + (ws.map (fun e => (code.init (zeros e.2)).length)).sum ∧
      Aux.idsOf b.1 = (List.range (ws.map (fun e => (code.init (zeros e.2)).length)).sum).map
        (vars.length + ·) := by
  induction ws with
  | nil => intro a vars; simp [buildWeights, Aux.idsOf]
  | cons e ws ih =>
    obtain ⟨name, w⟩ := e
    intro a vars
    obtain ⟨h1, h2, h3, h4⟩ := ih (a.initWeights code (zeros w))
      (vars ++ (a.initWeights code (zeros w)).reprs)
    simp only [buildWeights, List.map_cons, List.sum_cons, Aux.initWeights_reprs] at h1 h2 h3 h4 ⊢
    refine ⟨by rw [h1], by rw [h2]; simp, by rw [h3, List.length_append]; omega, ?_⟩
    rw [Aux.idsOf, List.flatMap_cons]
    show _ ++ Aux.idsOf _ = _
    rw [h4, List.range_add, List.map_append, List.map_map, List.length_append]
    congr 1
    apply List.map_congr_left
    intro x _
    simp only [Function.comp]; omega

theorem Aux.mapWeights_spec (code : AlgCode V) (ws : List (String × V)) :
    ∀ a : AlgObj V, (mapWeights code ws a).1 = ws.flatMap fun e => code.init e.2 := by
  induction ws with
  | nil => intro a; rfl
  | cons e ws ih =>
    intro a
    simp only [mapWeights, List.flatMap_cons, Aux.initWeights_reprs, ih]

/-- The new layer starts with what the algorithm makes of its weights. -/
theorem Aux.create_view (code : AlgCode V) (zeros : V → V)
    (hz : ∀ w, (code.init (zeros w)).length = (code.init w).length) (ws : List (String × V)) :
    ∀ (a : AlgObj V) (vars pre : List V), pre.length = vars.length →
      Aux.viewVars (pre ++ ws.flatMap fun e => code.init e.2) (buildWeights code zeros ws a vars).1 =
        ws.map fun e => (e.1, code.init e.2) := by
  induction ws with
  | nil => intro a vars pre _; rfl
  | cons e ws ih =>
    obtain ⟨name, w⟩ := e
    intro a vars pre hp
    have := ih (a.initWeights code (zeros w)) (vars ++ (a.initWeights code (zeros w)).reprs)
      (pre ++ code.init w) (by rw [List.length_append, List.length_append, Aux.initWeights_reprs, hp, hz])
    simp only [buildWeights, List.map_cons, List.flatMap_cons, Aux.initWeights_reprs] at this ⊢
    rw [Aux.viewVars, List.map_cons]
    congr 1
    · congr 1
      dsimp only
      have hl : ∀ i ∈ (List.range (code.init (zeros w)).length).map (vars.length + ·),
          i < (pre ++ (code.init w ++ ws.flatMap fun e => code.init e.2)).length := by
        intro i hi
        simp only [List.mem_map, List.mem_range] at hi
        obtain ⟨k, hk, rfl⟩ := hi
        rw [hz] at hk
        simp only [List.length_append, hp]; omega
      apply List.ext_getElem?
      intro k
      rw [Aux.readVars_get hl, hz, ← hp]
      by_cases hk : k < (code.init w).length
      · rw [List.getElem?_map, List.getElem?_range hk]
        simp only [Option.map_some, Option.bind_some]
        rw [List.getElem?_append_right (by omega), List.getElem?_append_left (by omega)]
        congr 1; omega
      · rw [List.getElem?_eq_none (by simpa using hk), List.getElem?_eq_none (by omega)]
        rfl
    · rw [← List.append_assoc]; exact this

theorem Aux.create_ok (code : AlgCode V) (zeros : V → V)
    (hz : ∀ w, (code.init (zeros w)).length = (code.init w).length) (ws : List (String × V))
    (attrs : List (String × String)) (s : Shared V) :
    ∃ s', s.create code zeros ws attrs = .ok s' ∧
      s'.layers = s.layers ++ [⟨(buildWeights code zeros ws s.alg s.vars).1, attrs⟩] ∧
      s'.vars = s.vars ++ ws.flatMap fun e => code.init e.2 := by
  have hlen : (mapWeights code ws (buildWeights code zeros ws s.alg s.vars).2.1).1.length + s.vars.length =
      (buildWeights code zeros ws s.alg s.vars).2.2.length := by
    rw [Aux.mapWeights_spec, (Aux.sharedBuild_spec code zeros ws s.alg s.vars).2.2.1,
      List.length_flatMap]
    simp only [hz]; omega
  refine ⟨_, by simp only [Shared.create, if_pos hlen]; rfl, rfl, ?_⟩
  rw [Aux.mapWeights_spec]

theorem Aux.create_separate (code : AlgCode V) (zeros : V → V)
    (hz : ∀ w, (code.init (zeros w)).length = (code.init w).length) {ws : List (String × V)}
    (hn : (ws.map (·.1)).Nodup) (attrs : List (String × String)) {s s' : Shared V} (hs : Aux.Separate s)
    (h : s.create code zeros ws attrs = .ok s') : Aux.Separate s' := by
  obtain ⟨t, ht, hlay, hvars⟩ := Aux.create_ok code zeros hz ws attrs s
  rw [ht] at h; cases h
  obtain ⟨b1, -, -, b4⟩ := Aux.sharedBuild_spec code zeros ws s.alg s.vars
  obtain ⟨h1, h2, h3⟩ := hs
  have hlt : ∀ i ∈ Aux.idsOf (buildWeights code zeros ws s.alg s.vars).1, s.vars.length ≤ i ∧ i < s'.vars.length := by
    intro i hi
    rw [b4] at hi
    simp only [List.mem_map, List.mem_range, hz] at hi
    obtain ⟨k, hk, rfl⟩ := hi
    rw [hvars, List.length_append, List.length_flatMap]
    exact ⟨by omega, by omega⟩
  refine ⟨?_, ?_, ?_⟩
  · rw [hlay, List.flatMap_append, List.nodup_append]
    refine ⟨h1, ?_, ?_⟩
    · simp only [List.flatMap_cons, List.flatMap_nil, List.append_nil]
      rw [b4]
      exact List.Nodup.map (fun a b hab => by simpa using hab) List.nodup_range
    · intro i hi k hk e
      subst e
      obtain ⟨l, hl, hil⟩ := List.mem_flatMap.1 hi
      have := h3 l hl i hil
      have := (hlt i (by simpa using hk)).1
      omega
  · intro l hl
    rw [hlay, List.mem_append] at hl
    rcases hl with hl | hl
    · exact h2 l hl
    · simp only [List.mem_singleton] at hl; subst hl; dsimp only; rw [b1]; exact hn
  · intro l hl i hi
    rw [hlay, List.mem_append] at hl
    rcases hl with hl | hl
    · rw [hvars, List.length_append]; have := h3 l hl i hi; omega
    · simp only [List.mem_singleton] at hl; subst hl; exact (hlt i hi).2

theorem Aux.separate_layer {s : Shared V} (hs : Aux.Separate s) {l : TLayer} (hl : l ∈ s.layers) :
    (Aux.idsOf l.weights).Nodup := (List.nodup_flatMap.1 hs.1).1 l hl

/-- Different layers have different variables. -/
theorem Aux.separate_disjoint {s : Shared V} (hs : Aux.Separate s) {i j : ℕ} {l l' : TLayer} (hij : i ≠ j)
    (hi : s.layers[i]? = some l) (hj : s.layers[j]? = some l') :
    ∀ k ∈ Aux.idsOf l.weights, k ∉ Aux.idsOf l'.weights := by
  have hp := (List.nodup_flatMap.1 hs.1).2
  obtain ⟨hil, hie⟩ := List.getElem?_eq_some_iff.1 hi
  obtain ⟨hjl, hje⟩ := List.getElem?_eq_some_iff.1 hj
  intro k hk hk'
  rw [List.pairwise_iff_getElem] at hp
  rcases Nat.lt_or_gt_of_ne hij with h | h
  · exact hp i j hil hjl h (hie ▸ hk) (hje ▸ hk')
  · exact hp j i hjl hil h (hje ▸ hk') (hie ▸ hk)

theorem Aux.separate_keep {s s' : Shared V} (hs : Aux.Separate s) (h1 : s'.layers = s.layers)
    (h2 : s'.vars.length = s.vars.length) : Aux.Separate s' := by
  unfold Aux.Separate at hs ⊢
  rw [h1, h2]; exact hs

theorem Aux.view_same {vars vars' : List V} {ws : List (String × List ℕ)}
    (h : ∀ i ∈ Aux.idsOf ws, vars'[i]? = vars[i]?) : Aux.viewVars vars' ws = Aux.viewVars vars ws := by
  apply List.map_congr_left
  intro e he
  rw [Aux.readVars_congr fun i hi => h i (List.mem_flatMap.2 ⟨e, he, hi⟩)]

/-- One event: the layers stay separate, and a layer changes as it would alone. -/
theorem Aux.step_alone (code : AlgCode V) (zeros : V → V)
    (hz : ∀ w, (code.init (zeros w)).length = (code.init w).length) {s : Shared V} (hs : Aux.Separate s)
    (e : SEvent V) (he : Spec.NamesOnce e) :
    Aux.Separate (s.step code zeros e).1 ∧
    ∀ j l, s.layers[j]? = some l → (s.step code zeros e).1.layers[j]? = some l ∧
      Aux.viewVars (s.step code zeros e).1.vars l.weights =
        Spec.alone code l.attrs j (Aux.viewVars s.vars l.weights) [e] := by
  cases e with
  | create ws attrs =>
    obtain ⟨t, ht, hlay, hvars⟩ := Aux.create_ok code zeros hz ws attrs s
    simp only [Shared.step, ht, Spec.alone]
    refine ⟨Aux.create_separate code zeros hz he attrs hs ht, fun j l hj => ?_⟩
    have hjl := (List.getElem?_eq_some_iff.1 hj).1
    refine ⟨by rw [hlay, List.getElem?_append_left hjl, hj], Aux.view_same fun i hi => ?_⟩
    rw [hvars, List.getElem?_append_left (hs.2.2 l (List.mem_of_getElem? hj) i hi)]
  | add v =>
    exact ⟨Aux.separate_keep hs rfl rfl, fun j l hj => ⟨hj, rfl⟩⟩
  | call i =>
    simp only [Shared.step]
    cases hi : s.layers[i]? with
    | none =>
      refine ⟨hs, fun j l hj => ⟨hj, ?_⟩⟩
      have : i ≠ j := by rintro rfl; rw [hi] at hj; cases hj
      simp [Spec.alone, this]
    | some li =>
      have hm := List.mem_of_getElem? hi
      obtain ⟨-, h2, h3, h4, h5⟩ := Aux.callAttrs_spec code (hs.2.1 li hm) (Aux.separate_layer hs hm)
        li.attrs s (hs.2.2 li hm)
      refine ⟨Aux.separate_keep hs h5 h3, fun j l hj => ⟨by rw [h5]; exact hj, ?_⟩⟩
      by_cases hij : i = j
      · subst hij
        rw [hi] at hj; cases hj
        simp only [Spec.alone, if_true]; exact h2
      · simp only [Spec.alone, if_neg hij]
        exact Aux.view_same fun k hk => h4 k (Aux.separate_disjoint hs (Ne.symm hij) hj hi k hk)
  | train i name k v =>
    simp only [Shared.step]
    cases hi : s.layers[i]? with
    | none =>
      refine ⟨hs, fun j l hj => ⟨hj, ?_⟩⟩
      have : i ≠ j := by rintro rfl; rw [hi] at hj; cases hj
      simp [Spec.alone, this]
    | some li =>
      have hm := List.mem_of_getElem? hi
      have hnoop : ∀ own : List (String × List V), (∀ x ∈ own, x.1 = name → x.2.length ≤ k) →
          (own.map fun e => if e.1 = name then (e.1, e.2.set k v) else e) = own := by
        intro own ho
        conv_rhs => rw [← List.map_id own]
        apply List.map_congr_left
        intro x hx
        split
        · next h => rw [List.set_eq_of_length_le (ho x hx h)]; rfl
        · rfl
      have hview : ∀ x ∈ Aux.viewVars s.vars li.weights, x.1 = name →
          ∀ ids, li.weights.lookup name = some ids → x.2 = Aux.readVars s.vars ids := by
        intro x hx hxn ids hids
        obtain ⟨y, hy, rfl⟩ := List.mem_map.1 hx
        have hmem := Aux.idsLookup_mem hids
        have : y = (name, ids) :=
          List.inj_on_of_nodup_map (hs.2.1 li hm) hy hmem hxn
        rw [this]
      dsimp only
      cases hw : li.weights.lookup name with
      | none =>
        refine ⟨hs, fun j l hj => ⟨hj, ?_⟩⟩
        by_cases hij : i = j
        · subst hij
          rw [hi] at hj; cases hj
          simp only [Spec.alone, if_true]
          rw [hnoop]
          intro x hx hxn
          obtain ⟨y, hy, rfl⟩ := List.mem_map.1 hx
          rw [List.lookup_eq_none_iff] at hw
          exact absurd hxn.symm (by simpa using hw y hy)
        · simp [Spec.alone, hij]
      | some ids =>
        obtain ⟨hnd, hsub⟩ := Aux.nodup_of_lookup (Aux.separate_layer hs hm) hw
        have hlt : ∀ i ∈ ids, i < s.vars.length := fun i hi' => hs.2.2 li hm i (hsub i hi')
        dsimp only
        cases hk : ids[k]? with
        | none =>
          refine ⟨hs, fun j l hj => ⟨hj, ?_⟩⟩
          by_cases hij : i = j
          · subst hij
            rw [hi] at hj; cases hj
            simp only [Spec.alone, if_true]
            rw [hnoop]
            intro x hx hxn
            rw [hview x hx hxn ids hw, Aux.readVars_length hlt]
            exact List.getElem?_eq_none_iff.1 hk
          · simp [Spec.alone, hij]
        | some n =>
          dsimp only
          have hnm : n ∈ ids := List.mem_of_getElem? hk
          refine ⟨Aux.separate_keep hs rfl (by simp), fun j l hj => ⟨hj, ?_⟩⟩
          by_cases hij : i = j
          · subst hij
            rw [hi] at hj; cases hj
            simp only [Spec.alone, if_true]
            rw [Aux.view_replaced (vars := s.vars) (hs.2.1 _ hm) (Aux.separate_layer hs hm) hw
              (fun m hm' => List.getElem?_set_ne (i := n) (j := m) (fun e => hm' (e ▸ hnm))), Aux.readVars_set hlt hnd hk]
            apply List.map_congr_left
            intro x hx
            split
            · next h => rw [hview x hx h ids hw]
            · rfl
          · simp only [Spec.alone, if_neg hij]
            refine Aux.view_same fun m hm' => List.getElem?_set_ne fun e => ?_
            exact Aux.separate_disjoint hs hij hi hj m (e ▸ hsub n hnm) hm'

theorem Aux.alone_cons (code : AlgCode V) (attrs : List (String × String)) (j : ℕ)
    (own : List (String × List V)) (e : SEvent V) (es : List (SEvent V)) :
    Spec.alone code attrs j own (e :: es) = Spec.alone code attrs j (Spec.alone code attrs j own [e]) es := by
  cases e <;> rfl

theorem Aux.run_alone (code : AlgCode V) (zeros : V → V)
    (hz : ∀ w, (code.init (zeros w)).length = (code.init w).length) (es : List (SEvent V)) :
    ∀ s : Shared V, Aux.Separate s → (∀ e ∈ es, Spec.NamesOnce e) →
      Aux.Separate (s.run code zeros es).1 ∧
      ∀ j l, s.layers[j]? = some l → (s.run code zeros es).1.layers[j]? = some l ∧
        Aux.viewVars (s.run code zeros es).1.vars l.weights =
          Spec.alone code l.attrs j (Aux.viewVars s.vars l.weights) es := by
  induction es with
  | nil => intro s hs _; exact ⟨hs, fun j l hj => ⟨hj, rfl⟩⟩
  | cons e es ih =>
    intro s hs he
    obtain ⟨h1, h2⟩ := Aux.step_alone code zeros hz hs e (he e List.mem_cons_self)
    obtain ⟨g1, g2⟩ := ih _ h1 fun x hx => he x (List.mem_cons_of_mem _ hx)
    refine ⟨g1, fun j l hj => ?_⟩
    obtain ⟨a1, a2⟩ := h2 j l hj
    obtain ⟨b1, b2⟩ := g2 j l a1
    refine ⟨b1, ?_⟩
    rw [Aux.alone_cons, ← a2]; exact b2

theorem Aux.separate_start : Aux.Separate (Shared.start : Shared V) := by
  simp [Aux.Separate, Shared.start]

/-! ## C112 -/

/-- **C112.** A layer wrapped at any time, with an algorithm object that any number of other layers
use too, starts with what the algorithm makes of its pretrained weights, and after any further
history - calls and training of this and the other layers, more layers being wrapped - has exactly
the training weights it would have if it were alone; so are the tensors its next call computes
with. -/
theorem C112_independent (code : AlgCode V) (zeros : V → V)
    (hz : ∀ w, (code.init (zeros w)).length = (code.init w).length)
    (before after : List (SEvent V)) (hb : ∀ e ∈ before, Spec.NamesOnce e)
    (ha : ∀ e ∈ after, Spec.NamesOnce e) (ws : List (String × V)) (hws : (ws.map (·.1)).Nodup)
    (attrs : List (String × String)) :
    let s₀ := (Shared.start.run code zeros before).1
    ∃ s₁, s₀.create code zeros ws attrs = .ok s₁ ∧
      let s := (s₁.run code zeros after).1
      let own := Spec.alone code attrs s₀.layers.length (ws.map fun e => (e.1, code.init e.2)) after
      s.weights s₀.layers.length = some own ∧
      (s.step code zeros (.call s₀.layers.length)).2 = (Spec.callAlone code attrs own).2 := by
  intro s₀
  have hs₀ : Aux.Separate s₀ := (Aux.run_alone code zeros hz before _ Aux.separate_start hb).1
  obtain ⟨s₁, h1, hlay, hvars⟩ := Aux.create_ok code zeros hz ws attrs s₀
  have hs₁ := Aux.create_separate code zeros hz hws attrs hs₀ h1
  refine ⟨s₁, h1, ?_⟩
  have hj : s₁.layers[s₀.layers.length]? =
      some ⟨(buildWeights code zeros ws s₀.alg s₀.vars).1, attrs⟩ := by
    rw [hlay]; simp
  obtain ⟨hs, hr⟩ := Aux.run_alone code zeros hz after s₁ hs₁ ha
  obtain ⟨g1, g2⟩ := hr _ _ hj
  rw [hvars, Aux.create_view code zeros hz ws s₀.alg s₀.vars s₀.vars rfl] at g2
  dsimp only at g1 g2 ⊢
  constructor
  · rw [Shared.weights, g1]
    exact congrArg some g2
  · simp only [Shared.step, g1]
    have hm := List.mem_of_getElem? g1
    have := (Aux.callAttrs_spec code (hs.2.1 _ hm) (Aux.separate_layer hs hm) attrs _ (hs.2.2 _ hm)).1
    rw [g2] at this
    exact this

/-- **C112** (rejected layers).  Wrapping a layer succeeds, at any time, exactly if the algorithm makes as many
training weights of the pretrained weights as it makes of the dummy tensors the layer is built with. -/
theorem C112_create_iff (code : AlgCode V) (zeros : V → V) (ws : List (String × V)) (attrs : List (String × String))
    (s : Shared V) :
    (∃ s', s.create code zeros ws attrs = .ok s') ↔
      (ws.map fun e => (code.init e.2).length).sum = (ws.map fun e => (code.init (zeros e.2)).length).sum := by
  have h1 : (mapWeights code ws (buildWeights code zeros ws s.alg s.vars).2.1).1.length =
      (ws.map fun e => (code.init e.2).length).sum := by
    rw [Aux.mapWeights_spec, List.length_flatMap]
  have h2 : (buildWeights code zeros ws s.alg s.vars).2.2.length =
      s.vars.length + (ws.map fun e => (code.init (zeros e.2)).length).sum :=
    (Aux.sharedBuild_spec code zeros ws s.alg s.vars).2.2.1
  simp only [Shared.create, h1, h2]
  constructor
  · rintro ⟨s', h⟩
    split at h
    · omega
    · cases h
  · intro h
    rw [if_pos (by omega)]
    exact ⟨_, rfl⟩

/-- **C112.** `update_training_weight` in a call whose algorithm only updates arguments of that call
changes the training weight the argument was read from, the last update of an argument counting, and
no other. -/
theorem C112_updates (vs : List V) (ups : List (Ref × V)) (hk : ∀ u ∈ ups, ∃ k < vs.length, u.1 = .arg k) :
    (Spec.updated vs ups).2 = true ∧ (Spec.updated vs ups).1.length = vs.length ∧
    ∀ k, ((∀ v, (Ref.arg k, v) ∉ ups) → (Spec.updated vs ups).1[k]? = vs[k]?) ∧
      ∀ pre v post, ups = pre ++ (Ref.arg k, v) :: post → (∀ v', (Ref.arg k, v') ∉ post) →
        (Spec.updated vs ups).1[k]? = some v := by
  induction ups generalizing vs with
  | nil =>
    refine ⟨rfl, rfl, fun k => ⟨fun _ => rfl, ?_⟩⟩
    intro pre v post h; simp at h
  | cons u ups ih =>
    obtain ⟨r, x⟩ := u
    obtain ⟨n, hn, hr⟩ := hk _ List.mem_cons_self
    dsimp only at hr; subst hr
    have hk' : ∀ u ∈ ups, ∃ k < (vs.set n x).length, u.1 = .arg k := by
      intro u hu; rw [List.length_set]; exact hk u (List.mem_cons_of_mem _ hu)
    obtain ⟨h1, h2, h3⟩ := ih (vs.set n x) hk'
    simp only [Spec.updated, if_pos hn]
    refine ⟨h1, by rw [h2, List.length_set], fun k => ⟨fun hno => ?_, ?_⟩⟩
    · rw [(h3 k).1 fun v hv => hno v (List.mem_cons_of_mem _ hv), List.getElem?_set_ne]
      rintro rfl; exact hno x List.mem_cons_self
    · intro pre v post h hpost
      cases pre with
      | nil =>
        simp only [List.nil_append, List.cons.injEq, Prod.mk.injEq, Ref.arg.injEq] at h
        obtain ⟨⟨rfl, rfl⟩, rfl⟩ := h
        rw [(h3 n).1 hpost, List.getElem?_set_self hn]
      | cons p pre =>
        simp only [List.cons_append, List.cons.injEq] at h
        exact (h3 k).2 pre v post h.2 hpost

/-- **C112.** Any tensor that is not an argument of the current call, even one that was an argument
in an earlier call, makes the call fail; updates made before it stay. -/
theorem C112_foreign (vs : List V) (pre post : List (Ref × V)) (id : ℕ) (v : V)
    (hk : ∀ u ∈ pre, ∃ k < vs.length, u.1 = .arg k) :
    (Spec.updated vs (pre ++ (.other id, v) :: post)) = ((Spec.updated vs pre).1, false) := by
  induction pre generalizing vs with
  | nil => rfl
  | cons u pre ih =>
    obtain ⟨r, x⟩ := u
    obtain ⟨n, hn, hr⟩ := hk _ List.mem_cons_self
    dsimp only at hr; subst hr
    simp only [List.cons_append, Spec.updated, if_pos hn]
    exact ih _ fun u hu => by rw [List.length_set]; exact hk u (List.mem_cons_of_mem _ hu)

/-- **C112.** A call of a model whose algorithm makes no updates (all shipped ones but the periodic
SVD) changes no training weight of any layer, whatever its arguments. -/
theorem C112_evaluation_partial (code : AlgCode V) (hpure : ∀ vs, (code.project vs).1 = [])
    (attrs : List (String × String)) (own : List (String × List V)) (hn : (own.map (·.1)).Nodup)
    (ha : ∀ a ∈ attrs, a.2 ∈ own.map (·.1)) :
    (Spec.callAlone code attrs own).1 = own ∧
    (Spec.callAlone code attrs own).2 =
      some (attrs.map fun a => (a.1, (code.project ((own.lookup a.2).getD [])).2)) := by
  induction attrs with
  | nil => exact ⟨rfl, rfl⟩
  | cons a attrs ih =>
    obtain ⟨attr, name⟩ := a
    obtain ⟨i1, i2⟩ := ih fun a h => ha a (List.mem_cons_of_mem _ h)
    have hin := ha _ List.mem_cons_self
    cases hl : own.lookup name with
    | none =>
      rw [List.lookup_eq_none_iff] at hl
      obtain ⟨e, he, hen⟩ := List.mem_map.1 hin
      exact absurd hen.symm (by simpa using hl e he)
    | some vs =>
      have hrep : Spec.ownReplaced own name vs = own := by
        have hmem : (name, vs) ∈ own := by
          obtain ⟨l₁, l₂, rfl, -⟩ := List.lookup_eq_some_iff.1 hl
          simp
        conv_rhs => rw [← List.map_id own]
        apply List.map_congr_left
        intro e he
        split
        · next h =>
          have := List.inj_on_of_nodup_map hn he hmem h
          rw [this]; rfl
        · rfl
      simp only [Spec.callAlone, hl, hpure, Spec.updated, if_true, hrep, i1, i2, List.map_cons,
        Option.map_some, Option.getD_some]
      exact ⟨trivial, trivial⟩

/-- The training weights of a layer whose only compressible weight is the kernel, under the periodic
SVD. -/
def Spec.svdLayer {W : Type} (w : W) (step : ℕ) : List (String × List (SvdVal W)) :=
  [("kernel", [.weight w, .counter step])]

/-- The weights after `n` calls without any training in between. -/
def Spec.evaluated {W : Type} (freq : ℕ) (reduced : ℕ → W → W) (w : W) : ℕ → W
  | 0 => w
  | n + 1 => if n % freq = 0 then reduced n (Spec.evaluated freq reduced w n)
      else Spec.evaluated freq reduced w n

/-- **C112 is violated** by the periodic SVD: calls for evaluation or prediction count as training
steps, and change the weights at every `update_freq`-th call. -/
theorem C112_evaluation_violated {W : Type} (freq : ℕ) (reduced : ℕ → W → W) (w : W) (n : ℕ) :
    Spec.alone (periodicSvd freq reduced) [("kernel", "kernel")] 0 (Spec.svdLayer w 0)
      (List.replicate n (.call 0)) = Spec.svdLayer (Spec.evaluated freq reduced w n) n := by
  have key : ∀ w k, (Spec.callAlone (periodicSvd freq reduced) [("kernel", "kernel")]
      (Spec.svdLayer w k)).1 = Spec.svdLayer (if k % freq = 0 then reduced k w else w) (k + 1) := by
    intro w k
    by_cases h : k % freq = 0
    · simp [Spec.callAlone, Spec.svdLayer, periodicSvd, Spec.updated, Spec.ownReplaced, h]
    · simp [Spec.callAlone, Spec.svdLayer, periodicSvd, Spec.updated, Spec.ownReplaced, h]
  induction n with
  | zero => rfl
  | succ n ih =>
    have happ : ∀ (own : List (String × List (SvdVal W))) (es es' : List (SEvent (SvdVal W))),
        Spec.alone (periodicSvd freq reduced) [("kernel", "kernel")] 0 own (es ++ es') =
        Spec.alone (periodicSvd freq reduced) [("kernel", "kernel")] 0
          (Spec.alone (periodicSvd freq reduced) [("kernel", "kernel")] 0 own es) es' := by
      intro own es
      induction es generalizing own with
      | nil => intro es'; rfl
      | cons e es ih' => intro es'; rw [List.cons_append, Aux.alone_cons, ih', ← Aux.alone_cons]
    rw [List.replicate_succ', happ, ih]
    simp only [Spec.alone, if_true, key, Spec.evaluated]

/-- **C112 is violated** for a layer that keeps a compressible weight under two attributes: the
algorithm runs once per attribute, so one call makes two steps, and the two attributes hold
different tensors. -/
theorem C112_alias_violated :
    Spec.callAlone (periodicSvd 1 fun _ (w : ℕ) => w / 2) [("kernel", "kernel"), ("weight", "kernel")]
      (Spec.svdLayer 12 0) =
    (Spec.svdLayer 3 2, some [("kernel", .weight 12), ("weight", .weight 6)]) := by
  decide

/-! ## Concrete cases -/

/-- A layer, a call, a second layer with two compressible weights, a call of it, a stray
`add_training_weight`, training and another call of the first layer. -/
def Example.sharedHistory : List (SEvent (SvdVal ℕ)) :=
  [.create [("kernel", .weight 12)] [("kernel", "kernel")], .call 0,
   .create [("kernel", .weight 40), ("bias", .weight 7)] [("b", "bias"), ("kernel", "kernel")],
   .call 1, .add (.counter 99), .train 0 "kernel" 0 (.weight 100), .call 0]

/-- Dummy tensors of zeros. -/
def Example.svdZeros : SvdVal ℕ → SvdVal ℕ
  | .weight _ => .weight 0
  | .counter n => .counter n

/-- Two layers wrapped with one periodic SVD, calls and training interleaved: the first layer has
made two steps, the second one. -/
example : (Shared.start.run (periodicSvd 2 fun _ w => w / 2) Example.svdZeros Example.sharedHistory).1.weights 0 =
    some [("kernel", [SvdVal.weight 100, .counter 2])] := by decide

example : (Shared.start.run (periodicSvd 2 fun _ w => w / 2) Example.svdZeros Example.sharedHistory).1.weights 1 =
    some [("kernel", [SvdVal.weight 20, .counter 1]), ("bias", [.weight 3, .counter 1])] := by decide

example : ∀ e ∈ Example.sharedHistory, Spec.NamesOnce e := by
  simp [Example.sharedHistory, Spec.NamesOnce]

example : ∀ w, ((periodicSvd 2 fun _ (w : ℕ) => w / 2).init
      (Example.svdZeros w)).length =
    ((periodicSvd 2 fun _ (w : ℕ) => w / 2).init w).length := fun _ => rfl

/-- An algorithm that updates an argument it has kept from an earlier call. -/
example : Spec.updated [1, 2, 3] [(.arg 1, 5), (.arg 1, 6), (.other 0, 7), (.arg 0, 8)] =
    ([1, 6, 3], false) := by decide

end Verif.Props
