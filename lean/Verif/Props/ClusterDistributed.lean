import Verif.Clustering.Distributed
import Verif.Props.ClusterObjects
import Mathlib.Data.List.Induction
import Mathlib.Tactic.IntervalCases

/-!
# C118: clustering on several replicas
-/

set_option linter.unusedSectionVars false

namespace Verif.Props
open Verif.Clustering

variable {ι : Type*} {α : Type*} [Field α] [LinearOrder α] [IsStrictOrderedRing α] [FloorRing α]

/-! ## Specification -/

/-- The same event on a single device. -/
def Spec.singleDevice : REvent ι α → OEvent ι α
  | .call _ => .call
  | .assign vs cs => .assign vs cs

/-- In every forward pass each of the `n` replicas gets its turn often enough to update `k` weights and
to call the layer; otherwise the schedule is arbitrary. -/
def Spec.Finishes (n k : ℕ) : REvent ι α → Prop
  | .call schedule => ∀ r < n, k + 1 ≤ schedule.count r
  | .assign _ _ => True

/-- Two layers with the same attributes, of which Keras lists the same weights. -/
def Spec.SameAttributes (L L' : KLay (ι → α)) : Prop :=
  (∀ p a, getAttr L p a = getAttr L' p a) ∧ weights L = weights L'

/-! ## One forward pass -/

namespace Aux

/-- The state of a weight after the update. -/
def fresh (ps : Bool) (ch : WName → ι → ℕ) (o : OState ι α) (it : Item) : CState ι α :=
  CState.update ps (ch it.name) { o.st it.name with orig := o.vars it.var }

/-- What is true in the middle of a forward pass that began in a state in which all replicas agreed with
`o`; `D` are the weights whose attributes have been set (by any replica). -/
structure Mid (ps : Bool) (ch : WName → ι → ℕ) (n : ℕ) (o : OState ι α) (s : RState ι α) (D : List Item) :
    Prop where
  items : s.items = o.items
  built : s.built = o.built
  sub : ∀ it ∈ D, it ∈ o.items
  vars : ∀ r < n, s.vars r = o.vars
  idle : ∀ r, ¬ r < n → s.running r = false
  split : ∀ r < n, ∃ done, o.items = done ++ s.todo r ∧ (∀ it ∈ done, it ∈ D ∧ s.st r it.name = fresh ps ch o it) ∧
    (∀ w, w ∉ done.map (·.name) → s.st r w = o.st w) ∧ (s.running r = false → s.todo r = [])
  seen : ∀ r < n, s.running r = false → s.seen r = o.items.map fun it => some (fresh ps ch o it).kernel
  slots : Spec.slots s.layer = (Spec.slots o.layer).filter
    fun x => decide (x.1 ∉ D.map fun it => (it.path, it.attr))
  attrs : ∀ p a, (∀ it ∈ D, (it.path, it.attr) ≠ (p, a)) → getAttr s.layer p a = getAttr o.layer p a
  set : ∀ it ∈ D, getAttr s.layer it.path it.attr = some (.tensor (fresh ps ch o it).kernel)

theorem mid_turn {ps : Bool} {ch : WName → ι → ℕ} {n : ℕ} {o : OState ι α} {s : RState ι α} {D : List Item}
    (hloc : (o.items.map fun it => (it.path, it.attr)).Nodup) (hname : (o.items.map (·.name)).Nodup)
    (hget : ∀ it ∈ o.items, (getAttr o.layer it.path it.attr).isSome)
    (h : Mid ps ch n o s D) (r : ℕ) : ∃ D', Mid ps ch n o (s.turn ps ch r) D' := by
  by_cases hrun : s.running r = true
  swap
  · rw [RState.turn, if_neg hrun]
    exact ⟨D, h⟩
  have hr : r < n := by
    by_contra hr
    rw [h.idle r hr] at hrun
    cases hrun
  obtain ⟨done, h1, h2, h3, h4⟩ := h.split r hr
  cases htodo : s.todo r with
  | nil =>
    rw [htodo, List.append_nil] at h1
    refine ⟨D, ?_⟩
    have e : s.turn ps ch r = { s with
        running := Function.update s.running r false
        seen := Function.update s.seen r (s.items.map (s.view r).read) } := by
      rw [RState.turn, if_pos hrun, htodo]
    rw [e]
    refine ⟨h.items, h.built, h.sub, h.vars, ?_, ?_, ?_, h.slots, h.attrs, h.set⟩
    · intro r' hr'
      dsimp only
      rw [Function.update_apply]
      split_ifs
      · rfl
      · exact h.idle r' hr'
    · intro r' hr'
      obtain ⟨done', g1, g2, g3, g4⟩ := h.split r' hr'
      refine ⟨done', g1, g2, g3, ?_⟩
      dsimp only
      rw [Function.update_apply]
      split_ifs with he
      · intro _; rw [he]; exact htodo
      · exact g4
    · intro r' hr'
      dsimp only
      rw [Function.update_apply, Function.update_apply]
      split_ifs with he
      · intro _
        rw [h.items]
        refine List.map_congr_left fun it hit => ?_
        rw [h1] at hit
        simp only [OState.read, RState.view]
        rw [h.set it (h2 it hit).1]
        rfl
      · exact h.seen r' hr'
  | cons it rest =>
    rw [htodo] at h1
    have hit : it ∈ o.items := by rw [h1]; simp
    have hnew : it.name ∉ done.map (·.name) := by
      rw [h1, List.map_append, List.map_cons, List.nodup_append] at hname
      intro hm
      exact hname.2.2 _ hm _ (List.mem_cons_self ..) rfl
    have hst : s.st r it.name = o.st it.name := h3 _ hnew
    have hcs : CState.update ps (ch it.name) { s.st r it.name with orig := s.vars r it.var } = fresh ps ch o it := by
      rw [hst, h.vars r hr]; rfl
    have e : s.turn ps ch r = { s with
        layer := setAttr s.layer it.path it.attr (.tensor (fresh ps ch o it).kernel)
        st := Function.update s.st r (Function.update (s.st r) it.name (fresh ps ch o it))
        todo := Function.update s.todo r rest } := by
      rw [RState.turn, if_pos hrun, htodo]
      simp only [OState.updateOne, RState.view, hcs]
    have hpres : (getAttr s.layer it.path it.attr).isSome := by
      by_cases hD : ∃ it' ∈ D, (it'.path, it'.attr) = (it.path, it.attr)
      · obtain ⟨it', hit', he⟩ := hD
        simp only [Prod.mk.injEq] at he
        rw [← he.1, ← he.2, h.set it' hit']
        rfl
      · rw [h.attrs _ _ fun it' hit' he => hD ⟨it', hit', he⟩]
        exact hget it hit
    refine ⟨D ++ [it], ?_⟩
    rw [e]
    refine ⟨h.items, h.built, ?_, h.vars, h.idle, ?_, h.seen, ?_, ?_, ?_⟩
    · intro x hx
      rcases List.mem_append.1 hx with hx | hx
      · exact h.sub x hx
      · rw [List.mem_singleton.1 hx]; exact hit
    · intro r' hr'
      by_cases he : r' = r
      · subst he
        refine ⟨done ++ [it], ?_, ?_, ?_, ?_⟩
        · dsimp only
          rw [Function.update_self, List.append_assoc, List.singleton_append]
          exact h1
        · intro x hx
          dsimp only
          rw [Function.update_self, Function.update_apply]
          rcases List.mem_append.1 hx with hx | hx
          · have : x.name ≠ it.name := fun e => hnew (e ▸ List.mem_map_of_mem hx)
            rw [if_neg this]
            exact ⟨List.mem_append_left _ (h2 x hx).1, (h2 x hx).2⟩
          · rw [List.mem_singleton.1 hx, if_pos rfl]
            exact ⟨by simp, rfl⟩
        · intro w hw
          dsimp only
          rw [List.map_append, List.mem_append, not_or] at hw
          rw [Function.update_self, Function.update_apply, if_neg (fun e => hw.2 (by simp [e]))]
          exact h3 w hw.1
        · intro hf
          rw [hrun] at hf
          cases hf
      · obtain ⟨done', g1, g2, g3, g4⟩ := h.split r' hr'
        refine ⟨done', ?_, ?_, ?_, ?_⟩
        · dsimp only; rw [Function.update_of_ne he]; exact g1
        · intro x hx
          dsimp only
          rw [Function.update_of_ne he]
          exact ⟨List.mem_append_left _ (g2 x hx).1, (g2 x hx).2⟩
        · intro w hw
          dsimp only
          rw [Function.update_of_ne he]
          exact g3 w hw
        · dsimp only
          rw [Function.update_of_ne he]
          exact g4
    · dsimp only
      rw [Aux.slots_setTensor, h.slots, List.filter_filter]
      congr 1
      funext x
      rw [List.map_append, List.map_cons, List.map_nil, ← Bool.decide_and]
      congr 1
      rw [List.mem_append, List.mem_singleton, not_or]
      exact propext And.comm
    · intro p a hpa
      dsimp only
      rw [Aux.getAttr_other _ _ _ _ _ _ fun e => hpa it (by simp) e.symm]
      exact h.attrs p a fun x hx => hpa x (by simp [hx])
    · intro x hx
      dsimp only
      by_cases he : (x.path, x.attr) = (it.path, it.attr)
      · have hx' : x = it := by
          refine List.inj_on_of_nodup_map hloc ?_ hit he
          rcases List.mem_append.1 hx with hx | hx
          · exact h.sub x hx
          · rw [List.mem_singleton.1 hx]; exact hit
        rw [hx']
        exact Aux.getAttr_same _ _ _ _ hpres
      · rw [Aux.getAttr_other _ _ _ _ _ _ he]
        rcases List.mem_append.1 hx with hx | hx
        · exact h.set x hx
        · rw [List.mem_singleton.1 hx] at he
          exact absurd rfl he

theorem mid_turns {ps : Bool} {ch : WName → ι → ℕ} {n : ℕ} {o : OState ι α}
    (hloc : (o.items.map fun it => (it.path, it.attr)).Nodup) (hname : (o.items.map (·.name)).Nodup)
    (hget : ∀ it ∈ o.items, (getAttr o.layer it.path it.attr).isSome) (sched : List ℕ) :
    ∀ {s : RState ι α} {D : List Item}, Mid ps ch n o s D →
      ∃ D', Mid ps ch n o (sched.foldl (RState.turn ps ch) s) D' := by
  induction sched with
  | nil => exact fun h => ⟨_, h⟩
  | cons r rs ih =>
    intro s D h
    obtain ⟨D', h'⟩ := mid_turn hloc hname hget h r
    exact ih h'

/-- The number of turns a replica still needs. -/
def needs (s : RState ι α) (r : ℕ) : ℕ := bif s.running r then (s.todo r).length + 1 else 0

theorem needs_turn (ps : Bool) (ch : WName → ι → ℕ) (s : RState ι α) (r r' : ℕ) :
    needs (s.turn ps ch r') r = needs s r - if r' = r then 1 else 0 := by
  unfold RState.turn needs
  by_cases hrun : s.running r' = true
  · rw [if_pos hrun]
    cases htodo : s.todo r' with
    | nil =>
      dsimp only
      rw [Function.update_apply]
      by_cases he : r = r'
      · subst he
        simp [hrun, htodo]
      · have he' : ¬ r' = r := fun e => he e.symm
        simp [he, he']
    | cons it rest =>
      dsimp only
      rw [Function.update_apply]
      by_cases he : r = r'
      · subst he
        simp [hrun, htodo]
      · have he' : ¬ r' = r := fun e => he e.symm
        simp [he, he']
  · rw [if_neg hrun]
    by_cases he : r' = r
    · subst he
      simp [hrun]
    · simp [he]

theorem needs_turns (ps : Bool) (ch : WName → ι → ℕ) (r : ℕ) (sched : List ℕ) : ∀ s : RState ι α,
    needs (sched.foldl (RState.turn ps ch) s) r = needs s r - sched.count r := by
  induction sched with
  | nil => intro s; simp
  | cons r' rs ih =>
    intro s
    rw [List.foldl_cons, ih, needs_turn, List.count_cons]
    by_cases he : r' = r
    · simp [he]; omega
    · simp [he]

/-- All replicas agree with the single device. -/
structure Agree (n : ℕ) (s : RState ι α) (o : OState ι α) : Prop where
  items : s.items = o.items
  built : s.built = o.built
  vars : ∀ r < n, s.vars r = o.vars
  st : ∀ r < n, s.st r = o.st
  slots : Spec.slots s.layer = Spec.slots o.layer
  attrs : ∀ p a, getAttr s.layer p a = getAttr o.layer p a

theorem agree_pass {ps : Bool} {ch : WName → ι → ℕ} {n : ℕ} {s : RState ι α} {o : OState ι α}
    (hloc : (o.items.map fun it => (it.path, it.attr)).Nodup) (hname : (o.items.map (·.name)).Nodup)
    (hget : ∀ it ∈ o.items, (getAttr o.layer it.path it.attr).isSome) (h : Agree n s o) (hn : 1 ≤ n)
    (sched : List ℕ) (hs : ∀ r < n, o.items.length + 1 ≤ sched.count r) :
    Agree n (s.pass ps ch n sched) (o.update ps ch) ∧
    ∀ r < n, (s.pass ps ch n sched).seen r = (o.update ps ch).items.map (o.update ps ch).read := by
  have hstart : Mid ps ch n o
      { s with todo := fun _ => s.items, running := fun r => decide (r < n) } [] := by
    refine ⟨h.items, h.built, by simp, h.vars, ?_, ?_, ?_, ?_, fun p a _ => h.attrs p a, by simp⟩
    · intro r hr; simp [hr]
    · intro r hr
      refine ⟨[], by simp [h.items], by simp, fun w _ => by dsimp only; rw [h.st r hr], by simp [hr]⟩
    · intro r hr hf; simp [hr] at hf
    · simp [h.slots]
  obtain ⟨D, hm⟩ := mid_turns hloc hname hget sched hstart
  have hdone : ∀ r < n, (s.pass ps ch n sched).running r = false := by
    intro r hr
    have := needs_turns ps ch r sched { s with todo := fun _ => s.items, running := fun r => decide (r < n) }
    have h0 : needs { s with todo := fun _ => s.items, running := fun r => decide (r < n) } r = o.items.length + 1 := by
      simp [needs, hr, h.items]
    rw [h0, Nat.sub_eq_zero_of_le (hs r hr)] at this
    change needs (s.pass ps ch n sched) r = 0 at this
    unfold needs at this
    cases hb : (s.pass ps ch n sched).running r with
    | false => rfl
    | true => rw [hb] at this; simp at this
  change Mid ps ch n o (s.pass ps ch n sched) D at hm
  obtain ⟨h1, h2, h3, h4, h5, h6, h7⟩ := Aux.foldl_update ps ch o.items o hloc hname hget
  change (o.update ps ch).vars = _ at h1
  change (o.update ps ch).built = _ at h2
  change (o.update ps ch).items = _ at h3
  change Spec.slots (o.update ps ch).layer = _ at h4
  change ∀ w, _ → (o.update ps ch).st w = _ at h5
  change ∀ p a, _ → getAttr (o.update ps ch).layer p a = _ at h6
  change ∀ it ∈ o.items, (o.update ps ch).st it.name = _ ∧ getAttr (o.update ps ch).layer it.path it.attr = some (.tensor
      ((o.update ps ch).st it.name).kernel) at h7
  have hall : ∀ r < n, (∀ it ∈ o.items, it ∈ D ∧ (s.pass ps ch n sched).st r it.name = fresh ps ch o it) ∧
      ∀ w, w ∉ o.items.map (·.name) → (s.pass ps ch n sched).st r w = o.st w := by
    intro r hr
    obtain ⟨done, g1, g2, g3, g4⟩ := hm.split r hr
    rw [g4 (hdone r hr), List.append_nil] at g1
    rw [g1]
    exact ⟨g2, g3⟩
  have hD : ∀ x : List Key × String, x ∈ D.map (fun it => (it.path, it.attr)) ↔
      x ∈ o.items.map fun it => (it.path, it.attr) := by
    intro x
    constructor
    · intro hx
      obtain ⟨it, hit, rfl⟩ := List.mem_map.1 hx
      exact List.mem_map_of_mem (f := fun it : Item => (it.path, it.attr)) (hm.sub it hit)
    · intro hx
      obtain ⟨it, hit, rfl⟩ := List.mem_map.1 hx
      exact List.mem_map_of_mem (f := fun it : Item => (it.path, it.attr)) (((hall 0 hn).1 it hit).1)
  refine ⟨⟨hm.items.trans h3.symm, hm.built.trans h2.symm, fun r hr => (hm.vars r hr).trans h1.symm, ?_, ?_, ?_⟩, ?_⟩
  · intro r hr
    funext w
    by_cases hw : w ∈ o.items.map (·.name)
    · obtain ⟨it, hit, rfl⟩ := List.mem_map.1 hw
      rw [((hall r hr).1 it hit).2, (h7 it hit).1]
      rfl
    · rw [(hall r hr).2 w hw, h5 w hw]
  · rw [hm.slots, h4]
    congr 1
    funext x
    congr 1
    rw [hD]
  · intro p a
    by_cases hpa : (p, a) ∈ o.items.map fun it => (it.path, it.attr)
    · obtain ⟨it, hit, he⟩ := List.mem_map.1 hpa
      simp only [Prod.mk.injEq] at he
      rw [← he.1, ← he.2, (h7 it hit).2, (h7 it hit).1, hm.set it ((hall 0 hn).1 it hit).1]
      rfl
    · rw [h6 p a hpa, hm.attrs p a]
      intro it hit he
      exact hpa ((hD _).1 (he ▸ List.mem_map_of_mem (f := fun it : Item => (it.path, it.attr)) hit))
  · intro r hr
    rw [hm.seen r hr (hdone r hr), h3]
    refine List.map_congr_left fun it hit => ?_
    simp only [OState.read]
    rw [(h7 it hit).2, (h7 it hit).1]
    rfl

theorem agree_strip {ps : Bool} {ch : WName → ι → ℕ} {n : ℕ} {s : RState ι α} {o : OState ι α}
    (hloc : (o.items.map fun it => (it.path, it.attr)).Nodup) (hname : (o.items.map (·.name)).Nodup)
    (hget : ∀ it ∈ o.items, (getAttr o.layer it.path it.attr).isSome) (h : Agree n s o) (r : ℕ) (hr : r < n) :
    (s.view r).strip ps ch = o.strip ps ch := by
  have hit : (s.view r).items = o.items := h.items
  obtain ⟨h1, h2, h3, h4, h5, h6, h7⟩ := Aux.foldl_update ps ch o.items o hloc hname hget
  obtain ⟨g1, g2, g3, g4, g5, g6, g7⟩ := Aux.foldl_update ps ch (s.view r).items (s.view r) (hit ▸ hloc) (hit ▸ hname)
    (by rw [hit]; intro it hit; rw [show (s.view r).layer = s.layer from rfl, h.attrs]; exact hget it hit)
  change (o.update ps ch).vars = _ at h1
  change (o.update ps ch).built = _ at h2
  change (o.update ps ch).items = _ at h3
  change Spec.slots (o.update ps ch).layer = _ at h4
  change ∀ it ∈ o.items, (o.update ps ch).st it.name = _ ∧ getAttr (o.update ps ch).layer it.path it.attr = some (.tensor
      ((o.update ps ch).st it.name).kernel) at h7
  change ((s.view r).update ps ch).vars = _ at g1
  change ((s.view r).update ps ch).built = _ at g2
  change ((s.view r).update ps ch).items = _ at g3
  change Spec.slots ((s.view r).update ps ch).layer = _ at g4
  change ∀ it ∈ (s.view r).items, ((s.view r).update ps ch).st it.name = _ ∧
    getAttr ((s.view r).update ps ch).layer it.path it.attr = some (.tensor
      (((s.view r).update ps ch).st it.name).kernel) at g7
  have hread : ∀ it ∈ o.items, ((s.view r).update ps ch).read it = (o.update ps ch).read it := by
    intro it hi
    simp only [OState.read]
    rw [(h7 it hi).2, (g7 it (hit ▸ hi)).2, (h7 it hi).1, (g7 it (hit ▸ hi)).1]
    have e1 : (s.view r).st = o.st := h.st r hr
    have e2 : (s.view r).vars = o.vars := h.vars r hr
    rw [e1, e2]
    rfl
  have hw : weights ((s.view r).update ps ch).layer = weights (o.update ps ch).layer := by
    rw [Aux.weights_slots, Aux.weights_slots, h4, g4, hit, show (s.view r).layer = s.layer from rfl, h.slots]
  have hv : ((s.view r).update ps ch).vars = (o.update ps ch).vars := by
    rw [h1, g1]; exact h.vars r hr
  have hmap : (((s.view r).update ps ch).items.mapM fun it =>
        (((s.view r).update ps ch).read it).map fun x => (it.pos, x)) =
      (o.update ps ch).items.mapM fun it => ((o.update ps ch).read it).map fun x => (it.pos, x) := by
    rw [g3, h3, hit]
    rw [Aux.mapM_of (γ := ℕ × (ι → α)) _ (fun it => (it.pos, ((o.update ps ch).st it.name).kernel)),
      Aux.mapM_of (γ := ℕ × (ι → α)) _ (fun it => (it.pos, ((o.update ps ch).st it.name).kernel))]
    · intro it hi
      simp only [OState.read]
      rw [(h7 it hi).2]
      rfl
    · intro it hi
      rw [hread it hi]
      simp only [OState.read]
      rw [(h7 it hi).2]
      rfl
  have hb : ((s.view r).update ps ch).built = (o.update ps ch).built := by
    rw [g2, h2]; exact h.built
  simp only [OState.strip]
  rw [hmap, hw, hv, hb]

theorem agree_run {ps : Bool} {ch : WName → ι → ℕ} {n : ℕ} (hn : 1 ≤ n) {L : KLay (ι → α)} {items : List Item}
    {vars : ℕ → ι → α} {c0 : WName → ℕ → List α} {s0 : OState ι α}
    (hloc : (items.map fun it => (it.path, it.attr)).Nodup) (hname : (items.map (·.name)).Nodup)
    (h : Aux.After ps ch L items vars c0 [] s0) (es : List (REvent ι α))
    (hes : ∀ e ∈ es, Spec.Finishes n items.length e) :
    Agree n (RState.run ps ch n (.mirrored s0) es) (s0.run ps ch (es.map Spec.singleDevice)) := by
  induction es using List.reverseRecOn with
  | nil => exact ⟨rfl, rfl, fun _ _ => rfl, fun _ _ => rfl, rfl, fun _ _ => rfl⟩
  | append_singleton es e ih =>
    have ih := ih fun e' he' => hes e' (by simp [he'])
    have ha := Aux.obj_run ps ch L items vars c0 s0 hloc hname h (es.map Spec.singleDevice)
    have e1 : RState.run ps ch n (.mirrored s0) (es ++ [e]) = (RState.run ps ch n (.mirrored s0) es).step ps ch n e := by
      simp [RState.run, List.foldl_append]
    have e2 : s0.run ps ch ((es ++ [e]).map Spec.singleDevice) = (s0.run ps ch (es.map Spec.singleDevice)).step ps ch (Spec.singleDevice e) := by
      simp [OState.run, List.foldl_append]
    rw [e1, e2]
    have he := hes e (by simp)
    cases e with
    | call sched =>
      rw [← ha.items_eq] at hloc hname he
      exact (agree_pass hloc hname (by rw [ha.items_eq]; exact ha.present) ih hn sched he).1
    | assign vs cs =>
      refine ⟨ih.items, ih.built, fun _ _ => rfl, ?_, ih.slots, ih.attrs⟩
      intro r hr
      simp only [RState.step, OState.step, Spec.singleDevice]
      rw [ih.st r hr]

end Aux

/-! ## C118 -/

section Main118
variable (ps : Bool) (sh : Shape) (names : List WName) (ch : WName → ι → ℕ) (L : KLay (ι → α))
  (vars : ℕ → ι → α) (c0 : WName → ℕ → List α) (s : OState ι α)
  (hb : OState.build sh names ch L vars c0 = some s) (hasc : (s.items.map (·.pos)).Pairwise (· < ·))
  (n : ℕ) (hn : 1 ≤ n) (es : List (REvent ι α)) (hes : ∀ e ∈ es, Spec.Finishes n s.items.length e)
include hb hasc hn hes

/-- **C118 (one device).**  A clustered layer on `n` replicas, whose threads are interleaved in any way: after every
history, all replicas have exactly the weights, centroids, cluster indices and masks that a single device would have after
the same optimizer steps, and the layer they share has the same attributes and lists the same weights. -/
theorem C118_one_device :
    Spec.SameAttributes (RState.run ps ch n (.mirrored s) es).layer (s.run ps ch (es.map Spec.singleDevice)).layer ∧
    ∀ r < n, (RState.run ps ch n (.mirrored s) es).vars r = (s.run ps ch (es.map Spec.singleDevice)).vars ∧
      (RState.run ps ch n (.mirrored s) es).st r = (s.run ps ch (es.map Spec.singleDevice)).st := by
  obtain ⟨h1, -, h2⟩ := Aux.obj_built ps sh names ch L vars c0 s hb hasc
  obtain ⟨-, hloc, hname⟩ := Aux.items_distinct sh L s.items (Aux.items_spec _ _ _ _ h1) hasc
  have h := Aux.agree_run hn hloc hname h2 es hes
  exact ⟨⟨h.attrs, by rw [Aux.weights_slots, Aux.weights_slots, h.slots]⟩, fun r hr => ⟨h.vars r hr, h.st r hr⟩⟩

/-- **C118 (what is computed).**  In every forward pass every replica calls the layer with the weights of the layer as it
would be on a single device, whichever replica has set them last. -/
theorem C118_computes (schedule : List ℕ) (hs : Spec.Finishes n s.items.length (.call schedule : REvent ι α)) :
    ∀ r < n, (RState.run ps ch n (.mirrored s) (es ++ [.call schedule])).seen r =
      s.items.map fun it => some (CState.run ps (ch it.name) (vars it.var) (c0 it.name)
        ((es.map Spec.singleDevice).map (Spec.ofWeight it) ++ [.call])).kernel := by
  obtain ⟨h1, -, h2⟩ := Aux.obj_built ps sh names ch L vars c0 s hb hasc
  obtain ⟨-, hloc, hname⟩ := Aux.items_distinct sh L s.items (Aux.items_spec _ _ _ _ h1) hasc
  have h := Aux.agree_run hn hloc hname h2 es hes
  have ha := Aux.obj_run ps ch L s.items vars c0 s hloc hname h2 (es.map Spec.singleDevice)
  obtain ⟨-, -, hk⟩ := Aux.obj_call ps ch L s.items vars c0 (es.map Spec.singleDevice) _ hloc hname ha
  have e1 : RState.run ps ch n (.mirrored s) (es ++ [.call schedule]) =
      (RState.run ps ch n (.mirrored s) es).pass ps ch n schedule := by
    simp [RState.run, List.foldl_append, RState.step]
  intro r hr
  rw [e1]
  have hi := ha.items_eq
  have := (Aux.agree_pass (ps := ps) (ch := ch) (by rw [hi]; exact hloc) (by rw [hi]; exact hname)
    (by rw [hi]; exact ha.present) h hn schedule (by rw [hi]; exact hs)).2 r hr
  rw [this]
  have hi' : ((s.run ps ch (es.map Spec.singleDevice)).update ps ch).items = s.items :=
    ((Aux.obj_call ps ch L s.items vars c0 (es.map Spec.singleDevice) _ hloc hname ha).1).items_eq
  rw [hi']
  refine List.map_congr_left fun it hit => ?_
  simp only [OState.read]
  rw [hk it hit]
  rfl

/-- **C118 (stripping).**  `strip_clustering` gives the weights it would give on a single device, from whichever replica
the variables are read. -/
theorem C118_strip : ∀ r < n, ((RState.run ps ch n (.mirrored s) es).view r).strip ps ch =
    (s.run ps ch (es.map Spec.singleDevice)).strip ps ch := by
  obtain ⟨h1, -, h2⟩ := Aux.obj_built ps sh names ch L vars c0 s hb hasc
  obtain ⟨-, hloc, hname⟩ := Aux.items_distinct sh L s.items (Aux.items_spec _ _ _ _ h1) hasc
  have h := Aux.agree_run hn hloc hname h2 es hes
  have ha := Aux.obj_run ps ch L s.items vars c0 s hloc hname h2 (es.map Spec.singleDevice)
  have hi := ha.items_eq
  exact fun r hr => Aux.agree_strip (by rw [hi]; exact hloc) (by rw [hi]; exact hname) (by rw [hi]; exact ha.present) h r hr

end Main118

namespace Example

/-- The stacked cells `stack2` on two replicas. -/
def stack2Wrapper : Option (OState ℕ ℚ) :=
  OState.build .stacked (registryNames [] 2 .stacked) (fun _ _ => 0) stack2
      (fun v p => if p = 0 then v else 0) (fun _ _ => [0, 10])

/-- Two forward passes of two replicas with an optimizer step between them; the replicas alternate in the first pass and
overtake each other in the second. -/
def replicaHistory : List (REvent ℕ ℚ) :=
  [.call [0, 1, 0, 1, 0, 1, 0, 1, 0, 1],
   .assign (fun v p => if p = 0 then v else -1) (fun n _ k => match n with | .indexed _ i => 100 * i + k | _ => 0),
   .call [1, 1, 0, 0, 0, 1, 1, 0, 7, 0, 1]]

/-- What the replicas computed with in the last pass, first two entries of each weight. -/
def replicaSeen (r : ℕ) : Option (List (Option (List ℚ))) :=
  stack2Wrapper.map fun s => ((RState.run false (fun _ _ => 0) 2 (.mirrored s) replicaHistory).seen r).map
    fun w => w.map fun w => [w 0, w 1]

end Example

open Example in
/-- The hypotheses of C118 are met by two stacked cells on two replicas, with schedules that interleave them. -/
example : ∃ s, stack2Wrapper = some s ∧ (s.items.map (·.pos)).Pairwise (· < ·) ∧ s.items.length = 4 ∧
    ∀ e ∈ replicaHistory, Spec.Finishes 2 4 e := by
  have h : (stack2Wrapper.map fun s => decide ((s.items.map (·.pos)).Pairwise (· < ·) ∧ s.items.length = 4)) = some true := by
    decide +kernel
  cases hs : stack2Wrapper with
  | none => rw [hs] at h; cases h
  | some s =>
    rw [hs] at h
    simp only [Option.map_some, Option.some.injEq, decide_eq_true_eq] at h
    refine ⟨s, rfl, h.1, h.2, ?_⟩
    intro e he
    simp only [replicaHistory, List.mem_cons, List.not_mem_nil, or_false] at he
    rcases he with rfl | rfl | rfl
    · intro r hr; interval_cases r <;> decide
    · trivial
    · intro r hr; interval_cases r <;> decide

open Example in
/-- And this is what the replicas compute with (compare `stack2Stripped`). -/
example : ∀ r : Fin 2, replicaSeen r = some [some [1, 0], some [1, 0], some [100, 100], some [100, 100]] := by decide +kernel

end Verif.Props
