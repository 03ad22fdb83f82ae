import Verif.Props.Run8Bit

/-!
# C58: the graph transformer applies what the transforms return, and stops only when nothing matches
-/

set_option linter.unusedSectionVars false

namespace Verif.Props
open Verif.Quant.Transformer Verif.Quant.Transforms8Bit

variable {V M : Type} [Inhabited M] [DecidableEq M] [DecidableEq V]

/-- The pattern matches with the layer `l` of the graph as its last layer. -/
def Spec.MatchesAt (g : Graph V M) (t : Transform V M) (l : Layer) : Prop :=
  ∃ m, matchTree g t.pattern l true = some m

namespace Aux

mutual
theorem beq_honest {metaEq : M → M → Bool} (h : ∀ i j, metaEq i j = true ↔ i = j) :
    ∀ m r : Node V M, Node.beq metaEq m r = true ↔ m = r
  | .mk l w i ins, .mk l' w' i' ins' => by
    simp only [Node.beq, Bool.and_eq_true, decide_eq_true_eq, h, beqList_honest h ins ins',
      Node.mk.injEq, and_assoc]
theorem beqList_honest {metaEq : M → M → Bool} (h : ∀ i j, metaEq i j = true ↔ i = j) :
    ∀ ms rs : List (Node V M), Node.beqList metaEq ms rs = true ↔ ms = rs
  | [], [] => by simp [Node.beqList]
  | [], _ :: _ => by simp [Node.beqList]
  | _ :: _, [] => by simp [Node.beqList]
  | m :: ms, r :: rs => by
    simp only [Node.beqList, Bool.and_eq_true, beq_honest h m r, beqList_honest h ms rs,
      List.cons.injEq]
end

end Aux

/-- **C58** (changes are applied).  With an honest equality of metadata, whenever the next transform
finds a match `m` and returns `r`: if `r` is `m`, the graph stays as it is, and otherwise the match is
replaced by `r` (and if that is not possible, the loops end with an exception). -/
theorem C58_changes_applied (metaEq : M → M → Bool) (hm : ∀ i j, metaEq i j = true ↔ i = j)
    (ts : List (Transform V M)) (s : Loop V M) (t : Transform V M) (rest : List (Transform V M))
    (hrest : s.rest = t :: rest) (m r : Node V M) (k : ℕ)
    (hfind : findPattern s.graph t.pattern (matchedBy s.matched t.name) = some m)
    (hrep : t.replacement s.supply m = .ok (r, k)) :
    (m = r → ∃ s', turn metaEq ts s = .next s' ∧ s'.graph = s.graph) ∧
    (m ≠ r → (∀ g, replace s.graph m r = .ok g →
        ∃ s', turn metaEq ts s = .next s' ∧ s'.graph = g ∧ s'.found = true) ∧
      ∀ e, replace s.graph m r = .error e → turn metaEq ts s = .error e) := by
  have hb := Aux.beq_honest hm m r
  refine ⟨fun h => ?_, fun h => ⟨fun g hg => ?_, fun e hg => ?_⟩⟩
  · have ht : turn metaEq ts s =
        .next { s with matched := s.matched ++ [(t.name, m.name)], supply := k } := by
      simp only [turn, hrest, hfind, hrep, if_pos (hb.2 h)]
    exact ⟨_, ht, rfl⟩
  · have ht : turn metaEq ts s = .next { s with
        graph := g, matched := s.matched ++ [(t.name, m.name)], supply := k, found := true } := by
      simp only [turn, hrest, hfind, hrep, if_neg (fun h' => h (hb.1 h')), hg]
    exact ⟨_, ht, rfl, rfl⟩
  · simp only [turn, hrest, hfind, hrep, if_neg (fun h' => h (hb.1 h')), hg]

namespace Aux

theorem findPattern_none {g : Graph V M} {t : Transform V M} {names : List String} :
    findPattern g t.pattern names = none ↔
      ∀ l ∈ g.layers, Spec.MatchesAt g t l → l.name ∈ names := by
  unfold findPattern Spec.MatchesAt
  rw [List.findSome?_eq_none_iff]
  refine forall₂_congr fun l _ => ?_
  by_cases h : l.name ∈ names
  · simp [h]
  · simp [h, Option.eq_none_iff_forall_ne_some]

/-- In a pass without replacements, the transforms already tried find nothing any more. -/
def Tried (ts : List (Transform V M)) (s : Loop V M) : Prop :=
  ∃ tried, ts = tried ++ s.rest ∧ (s.found = false → ∀ t ∈ tried,
    findPattern s.graph t.pattern (matchedBy s.matched t.name) = none)

theorem tried_step {metaEq : M → M → Bool} {ts : List (Transform V M)}
    (hn : (ts.map (·.name)).Nodup) {s s' : Loop V M} (h : turn metaEq ts s = .next s')
    (hs : Tried ts s) : Tried ts s' := by
  obtain ⟨tried, h1, h2⟩ := hs
  rcases Aux.turn_next h with ⟨-, -, rfl⟩ | ⟨t, tl, hr, hf, rfl⟩ |
      ⟨t, tl, m, r, k, hr, hf, hrep, hrest, hmat, hsup, hcase⟩
  · exact ⟨[], rfl, by simp⟩
  · refine ⟨tried ++ [t], by simp [h1, hr], fun hfd u hu => ?_⟩
    rcases List.mem_append.1 hu with hu | hu
    · exact h2 hfd u hu
    · rw [List.mem_singleton.1 hu]
      exact hf
  · refine ⟨tried, by rw [hrest]; exact h1, ?_⟩
    rcases hcase with ⟨-, hg, hfd⟩ | ⟨-, -, hfd⟩
    · rw [hfd, hg, hmat]
      intro hfd' u hu
      have hne : t.name ≠ u.name := by
        rw [h1, hr, List.map_append, List.nodup_append] at hn
        exact fun e => hn.2.2 u.name (List.mem_map_of_mem hu) t.name (by simp) e.symm
      have : matchedBy (s.matched ++ [(t.name, m.name)]) u.name = matchedBy s.matched u.name := by
        simp [matchedBy, List.filter_append, hne]
      rw [this]
      exact h2 hfd' u hu
    · rw [hfd]
      simp

end Aux

/-- **C58** (exhausted).  When the loops end, every layer at which a transform would still match has
been matched by that transform before (so that it returned the same layers, or has been given this
layer by its own replacement).  No match is left out. -/
theorem C58_exhausted (metaEq : M → M → Bool) (ts : List (Transform V M))
    (hn : (ts.map (·.name)).Nodup) (g g' : Graph V M) (fuel : ℕ)
    (h : run metaEq ts fuel (start ts g) = some (.ok g')) :
    ∃ s, Spec.TurnsTo metaEq ts (start ts g) s ∧ s.graph = g' ∧
      ∀ t ∈ ts, ∀ l ∈ g'.layers, Spec.MatchesAt g' t l → (t.name, l.name) ∈ s.matched := by
  have key : ∀ (fuel : ℕ) (s : Loop V M), Aux.Tried ts s → run metaEq ts fuel s = some (.ok g') →
      ∃ s', Spec.TurnsTo metaEq ts s s' ∧ s'.graph = g' ∧
        ∀ t ∈ ts, findPattern g' t.pattern (matchedBy s'.matched t.name) = none := by
    intro fuel
    induction fuel with
    | zero => intro s _ h; simp [run] at h
    | succ fuel ih =>
      intro s hs h
      rw [run] at h
      cases ht : turn metaEq ts s with
      | next s' =>
        rw [ht] at h
        obtain ⟨s'', h1, h2⟩ := ih s' (Aux.tried_step hn ht hs) h
        exact ⟨s'', .step ht h1, h2⟩
      | error e => rw [ht] at h; cases h
      | done g'' =>
        rw [ht] at h
        simp only [Option.some.injEq, Except.ok.injEq] at h
        subst h
        obtain ⟨tried, h1, h2⟩ := hs
        rw [turn] at ht
        cases hr : s.rest with
        | nil =>
          rw [hr] at ht
          dsimp only at ht
          cases hf : s.found with
          | true => rw [hf] at ht; simp at ht
          | false =>
            rw [hf] at ht
            simp only [Bool.false_eq_true, if_false, Turn.done.injEq] at ht
            rw [hr, List.append_nil] at h1
            subst h1
            exact ⟨s, .refl s, ht, fun t htt => ht ▸ h2 hf t htt⟩
        | cons t tl =>
          rw [hr] at ht
          dsimp only at ht
          split at ht
          · cases ht
          · split at ht
            · cases ht
            · split at ht
              · cases ht
              · split at ht
                · cases ht
                · cases ht
  obtain ⟨s, h1, h2, h3⟩ := key fuel (start ts g) ⟨[], rfl, by simp⟩ h
  refine ⟨s, h1, h2, fun t ht l hl hm => ?_⟩
  have := Aux.findPattern_none.1 (h3 t ht) l hl hm
  simp only [matchedBy, List.mem_map, List.mem_filter, decide_eq_true_eq] at this
  obtain ⟨⟨a, b⟩, ⟨he, rfl⟩, rfl⟩ := this
  exact he

/-- The names of the transforms of the default schemes are different, as `C58_exhausted` asks. -/
theorem C58_default_names {V U : Type} (auto : String → ℕ → String) (c : Classes) (expand : V → V)
    (str1 str2 : String → String) :
    ((transforms (V := V) (U := U) auto c expand str1 str2).map (·.name)).Nodup := by
  cases h : c.params.bits with
  | none =>
    simp only [transforms, h, List.map_append, List.map_cons, List.map_nil, pureTransform,
      denseTransforms, reluTransforms]
    decide
  | some b =>
    simp only [transforms, h, List.map_append, List.map_cons, List.map_nil, pureTransform,
      denseTransforms, reluTransforms]
    decide

open Example in
/-- The hypotheses are met: the equality is honest, and the loops end on a model that three transforms
match in, with a changed graph. -/
example : (∀ i j, metaEq8 i j = true ↔ i = j) ∧
    ∃ g', run metaEq8 transforms8 200 (start transforms8 (chainModel true)) = some (.ok g') ∧
      g'.layers ≠ (chainModel true).layers := by
  refine ⟨by simp [metaEq8], ?_⟩
  obtain ⟨g', h1, h2⟩ := runCheck_spec (g := chainModel true)
    (p := fun g' => decide (g'.layers ≠ (chainModel true).layers)) (by decide +kernel)
  exact ⟨g', h1, of_decide_eq_true h2⟩

end Verif.Props
