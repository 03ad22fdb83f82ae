import Verif.Encoding.Composer
import Verif.Props.Encoder

/-!
# C40: EncoderComposer
-/

set_option linter.unusedSectionVars false

namespace Verif.Props
open Verif.Encoding

variable {T P S U Sh : Type}

/-- The encoder `e` mirrors the composer object `i`: same stage, and for every child reference the
encoder mirroring it, under the same key. -/
inductive Spec.Mirrors (h : Heap T P S U Sh) : Nat → Encoder T P S U Sh → Prop where
  | node {i c keys child} (hi : h[i]? = some c) (hk : keys = c.children.map (·.1))
      (hc : ∀ k j, (k, j) ∈ c.children → Spec.Mirrors h j (child k)) :
      Spec.Mirrors h i (.node c.stage keys child)

/-- The invariant of all composer objects a program can create: children only at compressible keys,
each once, and no cycles of references (`ht` is a height). -/
def Aux.HeapInv (h : Heap T P S U Sh) : Prop :=
  ∃ ht : Nat → Nat, ∀ i c, h[i]? = some c → ht i < h.length ∧
    (c.children.map (·.1)).Nodup ∧ (∀ k ∈ c.children.map (·.1), k ∈ c.stage.compressible) ∧
    ∀ k j, (k, j) ∈ c.children → j < h.length ∧ ht j < ht i

theorem Aux.heapInv_step (h : Heap T P S U Sh) (hI : Aux.HeapInv h) (op : ComposeOp T P S U Sh) :
    Aux.HeapInv (h.step op) := by
  obtain ⟨ht, hh⟩ := hI
  cases op with
  | new st =>
    refine ⟨fun i => if i = h.length then 0 else ht i, ?_⟩
    intro i c hc
    simp only [Heap.step, Heap.new] at hc ⊢
    rw [List.getElem?_append] at hc
    split at hc
    · rename_i hlt
      obtain ⟨h1, h2, h3, h4⟩ := hh i c hc
      have : i ≠ h.length := by omega
      simp only [List.length_append, List.length_singleton, this, if_false]
      refine ⟨by omega, h2, h3, fun k j hj => ?_⟩
      obtain ⟨a, b⟩ := h4 k j hj
      have : j ≠ h.length := by omega
      simp only [this, if_false]
      exact ⟨by omega, b⟩
    · rename_i hge
      have : i = h.length := by
        by_contra hne
        rw [List.getElem?_eq_none (by simp; omega)] at hc
        cases hc
      subst this
      simp only [Nat.sub_self, List.getElem?_cons_zero, Option.some.injEq] at hc
      subst hc
      simp
  | addChild i0 st key =>
    unfold Heap.step
    simp only
    cases hr : h.addChild i0 st key with
    | error e => exact ⟨ht, hh⟩
    | ok r =>
      unfold Heap.addChild at hr
      cases hi0 : h[i0]? with
      | none => rw [hi0] at hr; cases hr
      | some c0 =>
        rw [hi0] at hr
        simp only at hr
        split at hr
        · cases hr
        · rename_i hcomp
          split at hr
          · cases hr
          · rename_i hused
            simp only [Except.ok.injEq] at hr
            subst hr
            have hlt0 : i0 < h.length := by
              by_contra hge
              rw [List.getElem?_eq_none (by omega)] at hi0
              cases hi0
            refine ⟨fun i => if i = h.length then 0 else ht i + 1, ?_⟩
            intro i c hc
            simp only at hc ⊢
            rw [List.getElem?_append] at hc
            simp only [List.length_set] at hc
            split at hc
            · rename_i hlt
              have hne : i ≠ h.length := by omega
              simp only [List.length_append, List.length_set, List.length_singleton, hne, if_false]
              rw [List.getElem?_set] at hc
              split at hc
              · rename_i heq
                subst heq
                simp only [Option.some.injEq] at hc
                subst hc
                obtain ⟨h1, h2, h3, h4⟩ := hh _ _ hi0
                refine ⟨by omega, ?_, ?_, ?_⟩
                · simp only [List.map_append, List.map_cons, List.map_nil]
                  rw [List.nodup_append]
                  refine ⟨h2, by simp, ?_⟩
                  intro a ha b hb
                  simp only [List.mem_singleton] at hb
                  subst hb
                  intro hab
                  exact hused (hab ▸ ha)
                · intro k hk
                  simp only [List.map_append, List.map_cons, List.map_nil, List.mem_append,
                    List.mem_singleton] at hk
                  rcases hk with hk | rfl
                  · exact h3 k hk
                  · simpa using hcomp
                · intro k j hj
                  simp only [List.mem_append, List.mem_singleton, Prod.mk.injEq] at hj
                  rcases hj with hj | ⟨rfl, rfl⟩
                  · obtain ⟨a, b⟩ := h4 k j hj
                    have : j ≠ h.length := by omega
                    simp only [this, if_false]
                    omega
                  · simp
              · obtain ⟨h1, h2, h3, h4⟩ := hh i c hc
                refine ⟨by omega, h2, h3, fun k j hj => ?_⟩
                obtain ⟨a, b⟩ := h4 k j hj
                have : j ≠ h.length := by omega
                simp only [this, if_false]
                omega
            · rename_i hge
              have : i = h.length := by
                by_contra hne
                rw [List.getElem?_eq_none (by simp; omega)] at hc
                cases hc
              subst this
              simp only [Nat.sub_self, List.getElem?_cons_zero, Option.some.injEq] at hc
              subst hc
              simp
  | addParent i0 st key =>
    unfold Heap.step
    simp only
    cases hr : h.addParent i0 st key with
    | error e => exact ⟨ht, hh⟩
    | ok r =>
      unfold Heap.addParent at hr
      cases hi0 : h[i0]? with
      | none => rw [hi0] at hr; cases hr
      | some c0 =>
        rw [hi0] at hr
        simp only at hr
        split at hr
        · cases hr
        · rename_i hcomp
          simp only [Except.ok.injEq] at hr
          subst hr
          have hlt0 : i0 < h.length := by
            by_contra hge
            rw [List.getElem?_eq_none (by omega)] at hi0
            cases hi0
          refine ⟨fun i => if i = h.length then h.length else ht i, ?_⟩
          intro i c hc
          simp only at hc ⊢
          rw [List.getElem?_append] at hc
          split at hc
          · rename_i hlt
            obtain ⟨h1, h2, h3, h4⟩ := hh i c hc
            have : i ≠ h.length := by omega
            simp only [List.length_append, List.length_singleton, this, if_false]
            refine ⟨by omega, h2, h3, fun k j hj => ?_⟩
            obtain ⟨a, b⟩ := h4 k j hj
            have : j ≠ h.length := by omega
            simp only [this, if_false]
            exact ⟨by omega, b⟩
          · rename_i hge
            have : i = h.length := by
              by_contra hne
              rw [List.getElem?_eq_none (by simp; omega)] at hc
              cases hc
            subst this
            simp only [Nat.sub_self, List.getElem?_cons_zero, Option.some.injEq] at hc
            subst hc
            have hne : i0 ≠ h.length := by omega
            have := (hh _ _ hi0).1
            refine ⟨by simp, by simp, by simpa using hcomp, ?_⟩
            intro k j hj
            simp only [List.mem_singleton, Prod.mk.injEq] at hj
            obtain ⟨rfl, rfl⟩ := hj
            simp only [hne, if_false, if_true, List.length_append, List.length_singleton]
            omega

theorem Aux.heapInv_run (ops : List (ComposeOp T P S U Sh)) : Aux.HeapInv (Heap.run ops) := by
  unfold Heap.run
  have h0 : Aux.HeapInv ([] : Heap T P S U Sh) := ⟨fun _ => 0, by simp⟩
  generalize ([] : Heap T P S U Sh) = h at h0
  induction ops generalizing h with
  | nil => exact h0
  | cons op ops ih => exact ih _ (Aux.heapInv_step h h0 op)

theorem Aux.lookup_mem {A : Type} {l : List (String × A)} {k : String} {a : A}
    (h : l.lookup k = some a) : (k, a) ∈ l := by
  induction l with
  | nil => simp at h
  | cons x l ih =>
    rw [List.lookup_cons] at h
    split at h
    · rename_i hk
      have : k = x.1 := by simpa using hk
      simp only [Option.some.injEq] at h
      subst h
      simp [this]
    · exact List.mem_cons_of_mem _ (ih h)

theorem Aux.make_some (h : Heap T P S U Sh) (ht : Nat → Nat)
    (hh : ∀ i c, h[i]? = some c → ht i < h.length ∧
      (c.children.map (·.1)).Nodup ∧ (∀ k ∈ c.children.map (·.1), k ∈ c.stage.compressible) ∧
      ∀ k j, (k, j) ∈ c.children → j < h.length ∧ ht j < ht i)
    (fuel : Nat) (i : Nat) (hi : i < h.length) (hf : ht i < fuel) :
    ∃ e, h.make fuel i = some e ∧ Spec.Mirrors h i e ∧
      Spec.EveryNode (fun st keys => keys.Nodup ∧ ∀ k ∈ keys, k ∈ st.compressible) e := by
  induction fuel generalizing i with
  | zero => omega
  | succ fuel ih =>
    have hc : h[i]? = some h[i] := List.getElem?_eq_getElem hi
    obtain ⟨h1, h2, h3, h4⟩ := hh i _ hc
    have hex : ∀ k, k ∈ h[i].children.map (·.1) → ∃ e, ∃ j, h[i].children.lookup k = some j ∧
        h.make fuel j = some e ∧ Spec.Mirrors h j e ∧
        Spec.EveryNode (fun st keys => keys.Nodup ∧ ∀ k ∈ keys, k ∈ st.compressible) e := by
      intro k hk
      obtain ⟨j, hj⟩ := Aux.lookup_of_mem hk
      have hmem := Aux.lookup_mem hj
      obtain ⟨a, b⟩ := h4 k j hmem
      obtain ⟨e, h5⟩ := ih j a (by omega)
      exact ⟨e, j, hj, h5⟩
    haveI : Nonempty (Encoder T P S U Sh) := ⟨.missing⟩
    choose! e j he using hex
    refine ⟨.node h[i].stage (h[i].children.map (·.1))
      (fun k => if k ∈ h[i].children.map (·.1) then e k else .missing), ?_, ?_, ?_⟩
    · unfold Heap.make
      rw [hc]
      simp only
      rw [Aux.forKeys_some (g := e) (fun k hk => by
        rw [(he k hk).1]; exact (he k hk).2.1)]
      rfl
    · refine .node hc rfl fun k j' hj' => ?_
      have hk : k ∈ h[i].children.map (·.1) := List.mem_map_of_mem (f := (·.1)) hj'
      simp only [hk, if_true]
      have := (he k hk).2.2.1
      have hjj : j k = j' := by
        have hm := Aux.lookup_mem (he k hk).1
        have := List.inj_on_of_nodup_map h2 hm hj' rfl
        simpa using this
      rwa [hjj] at this
    · refine .node ⟨h2, h3⟩ fun k hk => ?_
      simp only [hk, if_true]
      exact (he k hk).2.2.2

/-- **C40 (rejection).**  `add_child` is accepted exactly when the stage of the composer declares the
key compressible and the key is not used yet. -/
theorem C40_add_child (h : Heap T P S U Sh) (i : Nat) (c : CNode T P S U Sh) (hi : h[i]? = some c)
    (st : Stage T P S U Sh) (key : String) :
    (∃ r, h.addChild i st key = .ok r) ↔
      key ∈ c.stage.compressible ∧ ∀ j, (key, j) ∉ c.children := by
  unfold Heap.addChild
  rw [hi]
  simp only
  have hm : key ∈ c.children.map (·.1) ↔ ∃ j, (key, j) ∈ c.children := by simp
  rw [← not_exists, ← hm]
  by_cases h1 : key ∈ c.stage.compressible <;>
    by_cases h2 : key ∈ c.children.map (·.1) <;> simp [h1, h2]

/-- **C40 (rejection).**  `add_parent` is accepted exactly when the new stage declares the key
compressible. -/
theorem C40_add_parent (h : Heap T P S U Sh) (i : Nat) (c : CNode T P S U Sh) (hi : h[i]? = some c)
    (st : Stage T P S U Sh) (key : String) :
    (∃ r, h.addParent i st key = .ok r) ↔ key ∈ st.compressible := by
  unfold Heap.addParent
  rw [hi]
  by_cases h1 : key ∈ st.compressible <;> simp [h1]

/-- **C40.**  After any program, `make` on any composer object terminates and gives an encoder that
mirrors the composer objects, in which every node has children only at keys its stage declares
compressible, each at most once. -/
theorem C40_make (ops : List (ComposeOp T P S U Sh)) (i : Nat)
    (hi : i < (Heap.run ops).length) :
    ∃ fuel e, (Heap.run ops).make fuel i = some e ∧ Spec.Mirrors (Heap.run ops) i e ∧
      Spec.EveryNode (fun st keys => keys.Nodup ∧ ∀ k ∈ keys, k ∈ st.compressible) e := by
  obtain ⟨ht, hh⟩ := Aux.heapInv_run ops
  obtain ⟨e, he⟩ := Aux.make_some _ ht hh (Heap.run ops).length i hi
    (hh i _ (List.getElem?_eq_getElem hi)).1
  exact ⟨_, e, he⟩

/-- The recursion of `make` never goes deeper than the number of composer objects. -/
theorem C40_make_depth (ops : List (ComposeOp T P S U Sh)) (i : Nat)
    (hi : i < (Heap.run ops).length) :
    ((Heap.run ops).make (Heap.run ops).length i).isSome := by
  obtain ⟨ht, hh⟩ := Aux.heapInv_run ops
  obtain ⟨e, he, _⟩ := Aux.make_some _ ht hh (Heap.run ops).length i hi
    (hh i _ (List.getElem?_eq_getElem hi)).1
  rw [he]; rfl

/-- More recursion depth never changes the result, so `make` is well defined. -/
theorem C40_make_unique (h : Heap T P S U Sh) (i f g : Nat) (e e' : Encoder T P S U Sh)
    (h1 : h.make f i = some e) (h2 : h.make g i = some e') : e = e' := by
  have mono : ∀ f i e, h.make f i = some e → h.make (f + 1) i = some e := by
    intro f
    induction f with
    | zero => intro i e h1; cases h1
    | succ f ih =>
      intro i e h1
      unfold Heap.make at h1 ⊢
      cases hi : h[i]? with
      | none => rw [hi] at h1; cases h1
      | some c =>
        rw [hi] at h1
        simp only at h1 ⊢
        cases hk : forKeys Encoder.missing (c.children.map (·.1)) (fun k =>
          (c.children.lookup k).bind fun j => h.make f j) with
        | none => rw [hk] at h1; cases h1
        | some ch =>
          rw [hk] at h1
          have hk' := (Aux.forKeys_eq_some hk).1
          rw [Aux.forKeys_congr (g := fun k =>
            (c.children.lookup k).bind fun j => h.make f j), hk, h1]
          intro k hkm
          have := hk' k hkm
          cases hl : c.children.lookup k with
          | none => simp
          | some j =>
            simp only [hl, Option.bind_some] at this ⊢
            rw [ih j _ this, this]
  have mono' : ∀ d f e, h.make f i = some e → h.make (f + d) i = some e := by
    intro d
    induction d with
    | zero => intro f e h; exact h
    | succ d ih => intro f e h'; exact mono _ _ _ (ih f e h')
  have a := mono' g f e h1
  have b := mono' f g e' h2
  rw [Nat.add_comm] at b
  rw [a] at b
  exact Option.some.inj b

/-- **C40 (effect of `add_child`).**  After a successful `add_child` the encoder made from the
composer has one more child, at the given key, consisting of the new stage alone. -/
theorem C40_add_child_effect (ops : List (ComposeOp T P S U Sh)) (i : Nat)
    (st : Stage T P S U Sh) (key : String) (h' : Heap T P S U Sh) (new : Nat)
    (hadd : (Heap.run ops).addChild i st key = .ok (h', new)) :
    ∃ fuel st0 keys child child', h'.make fuel i = some (.node st0 (keys ++ [key]) child) ∧
      (∃ ch, child key = .node st [] ch) ∧
      ∃ old fuel', (Heap.run ops).make fuel' i = some old ∧ old = .node st0 keys child' := by
  have hrun : Heap.run (ops ++ [.addChild i st key]) = h' := by
    unfold Heap.run at hadd ⊢
    rw [List.foldl_append]
    simp only [List.foldl_cons, List.foldl_nil]
    rw [Heap.step, hadd]
  have hinf : ∃ c0, (Heap.run ops)[i]? = some c0 ∧ key ∉ c0.children.map (·.1) ∧
      h' = ((Heap.run ops).set i ⟨c0.stage, c0.children ++ [(key, (Heap.run ops).length)]⟩)
        ++ [⟨st, []⟩] ∧ new = (Heap.run ops).length := by
    unfold Heap.addChild at hadd
    cases hi0 : (Heap.run ops)[i]? with
    | none => rw [hi0] at hadd; cases hadd
    | some c0 =>
      rw [hi0] at hadd
      simp only at hadd
      split at hadd
      · cases hadd
      · split at hadd
        · cases hadd
        · rename_i hused
          simp only [Except.ok.injEq, Prod.mk.injEq] at hadd
          exact ⟨c0, rfl, hused, hadd.1.symm, hadd.2.symm⟩
  obtain ⟨c0, hi0, hused, hh', hnew⟩ := hinf
  have hlt : i < (Heap.run ops).length := by
    by_contra hge
    rw [List.getElem?_eq_none (by omega)] at hi0
    cases hi0
  have hlt' : i < h'.length := by rw [hh']; simp; omega
  obtain ⟨fuel, e, he, hm, -⟩ := C40_make (ops ++ [.addChild i st key]) i (by rw [hrun]; exact hlt')
  rw [hrun] at he hm
  obtain ⟨fuel', old, he', hm', -⟩ := C40_make ops i hlt
  cases hm with
  | @node _ c keys child hi hk hc =>
  cases hm' with
  | @node _ c1 keys1 child1 hi1 hk1 hc1 =>
  rw [hi0] at hi1
  have hc01 : c0 = c1 := Option.some.inj hi1
  subst hc01
  have hci : c = ⟨c0.stage, c0.children ++ [(key, (Heap.run ops).length)]⟩ := by
    rw [hh', List.getElem?_append, if_pos (by simpa using hlt), List.getElem?_set_self hlt] at hi
    exact (Option.some.inj hi).symm
  subst hci
  have hkeys : keys = c0.children.map (·.1) ++ [key] := by rw [hk]; simp
  subst hk1
  subst hkeys
  refine ⟨fuel, c0.stage, _, child, child1, he, ?_, _, fuel', he', rfl⟩
  have := hc key (Heap.run ops).length (by simp)
  generalize hck : child key = ck at this
  cases this with
  | @node _ c2 keys2 child2 hi2 hk2 hc2 =>
  rw [hh', List.getElem?_append_right (by simp)] at hi2
  simp only [List.length_set, Nat.sub_self, List.getElem?_cons_zero, Option.some.injEq] at hi2
  subst hi2
  exact ⟨child2, by rw [hk2]; rfl⟩

namespace Example

/-- A stage with two compressible outputs. -/
def twoOut : Stage Int Unit Unit Unit Unit where
  compressible := ["a", "b"]
  commutes := true
  needsShape := false
  initialState := ()
  updateState := fun _ _ => ()
  getParams := fun _ => ((), ())
  encode := fun x _ => ([("a", x), ("b", 0)], ())
  decode := fun d _ _ _ => (d.lookup "a")

/-- the composer: root, child at "a", a second child at "a" (rejected), one at "zzz" (rejected),
and a parent -/
def composed : Heap Int Unit Unit Unit Unit :=
  Heap.run [.new twoOut, .addChild 0 twoOut "a", .addChild 0 twoOut "a", .addChild 1 twoOut "zzz",
    .addParent 0 twoOut "b"]

example : composed.length = 3 ∧ composed.map (·.children) = [[("a", 1)], [], [("b", 0)]] := by
  decide

example : ∃ r, (Heap.run [.new twoOut]).addChild 0 twoOut "b" = .ok r := ⟨_, rfl⟩

example : (composed.make 3 2).isSome := by decide

end Example
end Verif.Props
