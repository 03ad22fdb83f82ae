import Verif.Encoding.Dict

/-!
# C41: splitting and merging nested dictionaries
-/

set_option linter.unusedSectionVars false

namespace Verif.Props
open Verif.Encoding

variable {V : Type}

namespace Spec

/-- What one finds at a path of keys. -/
inductive Found (V : Type) where
  | py (v : V)
  | tf (v : V)
  | dict
  deriving DecidableEq

/-- The value at a path of keys in a nested dictionary, if there is one.  Two dictionaries are equal
in the sense of Python's `==` iff they agree at every path. -/
def at' : PyVal V → List String → Option (Found V)
  | .py v, [] => some (.py v)
  | .tf v, [] => some (.tf v)
  | .dict _ _, [] => some .dict
  | .dict keys val, k :: path => if k ∈ keys then at' (val k) path else none
  | _, _ => none

/-- Every key of every dictionary has a value. -/
def Proper : PyVal V → Prop
  | .missing => False
  | .py _ => True
  | .tf _ => True
  | .dict keys val => ∀ k ∈ keys, Proper (val k)

/-- Corresponding structure: dictionaries are at the same paths, and no leaf is at the same path. -/
def Corresponding (a b : PyVal V) : Prop :=
  ∀ path, (at' a path = some .dict ↔ at' b path = some .dict) ∧
    (at' a path = some .dict ∨ at' a path = none ∨ at' b path = none)

end Spec

open Spec

theorem Aux.at_nil_dict {v : PyVal V} : at' v [] = some .dict ↔ v.isDict = true := by
  cases v <;> simp [at', PyVal.isDict]

theorem Aux.split_at (d : PyVal V) (hd : d.isDict = true) (path : List String) :
    at' d.split.1 path = (at' d path).filter (fun f => match f with | .tf _ => false | _ => true) ∧
    at' d.split.2 path = (at' d path).filter (fun f => match f with | .py _ => false | _ => true) := by
  induction d generalizing path with
  | missing => cases hd
  | py v => cases hd
  | tf v => cases hd
  | dict keys val ih =>
    cases path with
    | nil => exact ⟨rfl, rfl⟩
    | cons k path =>
      simp only [PyVal.split, at', List.mem_filter]
      by_cases hk : k ∈ keys
      · cases hv : val k with
        | dict ks vs =>
          have := ih k (by rw [hv]; rfl) path
          rw [hv] at this
          simpa [hk, hv, PyVal.isDict, PyVal.isTf] using this
        | missing => simp [hk, PyVal.isDict, PyVal.isTf, at']
        | py v => cases path <;> simp [hk, PyVal.isDict, PyVal.isTf, at', Option.filter]
        | tf v => cases path <;> simp [hk, PyVal.isDict, PyVal.isTf, at', Option.filter]
      · simp [hk]

/-- **C41 (splitting).**  The Python part has at every path what the dictionary has there, except
tensors, and the TensorFlow part what it has except Python values. -/
theorem C41_split (d p t : PyVal V) (h : d.splitDict = some (p, t)) (path : List String) :
    (∀ v, at' p path = some (.py v) ↔ at' d path = some (.py v)) ∧
    (∀ v, at' t path = some (.tf v) ↔ at' d path = some (.tf v)) ∧
    (∀ v, at' p path ≠ some (.tf v)) ∧ (∀ v, at' t path ≠ some (.py v)) ∧
    (at' p path = some .dict ↔ at' d path = some .dict) ∧
    (at' t path = some .dict ↔ at' d path = some .dict) := by
  unfold PyVal.splitDict at h
  split at h
  · rename_i hd
    simp only [Option.some.injEq] at h
    have := Aux.split_at d hd path
    rw [h] at this
    rw [this.1, this.2]
    cases at' d path with
    | none => simp
    | some f => cases f <;> simp [Option.filter]
  · cases h

/-- Splitting fails exactly on non-dictionaries. -/
theorem C41_split_accepts (d : PyVal V) :
    (∃ p t, d.splitDict = some (p, t)) ↔ at' d [] = some .dict := by
  rw [Aux.at_nil_dict]
  unfold PyVal.splitDict
  split
  · rename_i h; exact ⟨fun _ => h, fun _ => ⟨_, _, rfl⟩⟩
  · rename_i h; exact ⟨fun h' => (by obtain ⟨_, _, h'⟩ := h'; cases h'), fun h' => absurd h' h⟩

theorem Aux.at_of_not_dict {v : PyVal V} (h : v.isDict = false) (k : String) (path) :
    at' v (k :: path) = none := by
  cases v <;> simp_all [at', PyVal.isDict]

/-- **C41 (merging).**  `merge_dicts` succeeds exactly when the two dictionaries have corresponding
structure, and then has at every path what either has there. -/
theorem C41_merge (a b : PyVal V) (ha : at' a [] = some .dict) (hb : at' b [] = some .dict)
    (hpa : Proper a) (hpb : Proper b) :
    ((a.merge b).isSome ↔ Corresponding a b) ∧
    ∀ m, a.merge b = some m → ∀ path, at' m path = (at' a path).or (at' b path) := by
  induction a generalizing b with
  | missing => cases ha
  | py v => cases ha
  | tf v => cases ha
  | dict k1 v1 ih =>
    cases b with
    | missing => cases hb
    | py v => cases hb
    | tf v => cases hb
    | dict k2 v2 =>
    simp only [Proper] at hpa hpb
    -- the condition on one key
    have hkey : ∀ k, k ∈ k1 → k ∈ k2 → (v1 k).isDict = true → (v2 k).isDict = true →
        (((v1 k).merge (v2 k)).isSome ↔ Corresponding (v1 k) (v2 k)) ∧
        ∀ m, (v1 k).merge (v2 k) = some m →
          ∀ path, at' m path = (at' (v1 k) path).or (at' (v2 k) path) := fun k h1 h2 d1 d2 =>
      ih k (v2 k) (Aux.at_nil_dict.2 d1) (Aux.at_nil_dict.2 d2) (hpa k h1) (hpb k h2)
    have hsome : ∀ v : PyVal V, Proper v → v.isDict = false → at' v [] ≠ none ∧
        at' v [] ≠ some .dict := by
      intro v hv hd
      cases v <;> simp_all [Proper, at', PyVal.isDict]
    constructor
    · constructor
      · intro h
        simp only [PyVal.merge] at h
        split at h
        · rename_i c1
          split at h
          · rename_i c2
            rw [List.all_eq_true] at c1 c2
            intro path
            cases path with
            | nil => simp [at']
            | cons k path =>
              simp only [at']
              by_cases h1 : k ∈ k1
              · by_cases h2 : k ∈ k2
                · have c1' := c1 k h1
                  have c2' := c2 k h2
                  simp only [h1, h2, if_true, decide_true, Bool.true_and, Bool.not_true,
                    Bool.ite_eq_true_distrib] at c1' c2' ⊢
                  by_cases d2 : (v2 k).isDict = true
                  · simp only [d2, if_true] at c2'
                    simp only [c2', d2, Bool.not_true, Bool.false_or, Bool.true_and] at c1'
                    exact ((hkey k h1 h2 c2' d2).1.1 c1') path
                  · simp [d2] at c2'
                · simp only [h1, h2, if_true, if_false]
                  have c1' := c1 k h1
                  simp only [h2, decide_false, Bool.false_and, Bool.or_false,
                    Bool.not_eq_true'] at c1'
                  constructor
                  · constructor
                    · intro h'
                      cases path with
                      | nil => rw [Aux.at_nil_dict] at h'; rw [h'] at c1'; cases c1'
                      | cons k' path => rw [Aux.at_of_not_dict c1'] at h'; cases h'
                    · intro h'; cases h'
                  · simp
              · by_cases h2 : k ∈ k2
                · simp only [h1, h2, if_true, if_false]
                  have c2' := c2 k h2
                  have d2 : (v2 k).isDict = false := by
                    by_contra hd
                    simp only [Bool.not_eq_false] at hd
                    simp [hd, h1] at c2'
                  constructor
                  · constructor
                    · intro h'; cases h'
                    · intro h'
                      cases path with
                      | nil => rw [Aux.at_nil_dict] at h'; rw [h'] at d2; cases d2
                      | cons k' path => rw [Aux.at_of_not_dict d2] at h'; cases h'
                  · simp
                · simp [h1, h2]
          · cases h
        · cases h
      · intro hc
        -- correspondence of the entries
        have hc' : ∀ k, k ∈ k1 → k ∈ k2 → Corresponding (v1 k) (v2 k) := by
          intro k h1 h2 path
          have := hc (k :: path)
          simpa only [at', h1, h2, if_true] using this
        have hd12 : ∀ k, k ∈ k1 → (v1 k).isDict = true → k ∈ k2 ∧ (v2 k).isDict = true := by
          intro k h1 d1
          have h := (hc [k]).1
          simp only [at', h1, if_true] at h
          rw [Aux.at_nil_dict] at h
          have := h.1 d1
          split at this
          · rename_i h2; exact ⟨h2, Aux.at_nil_dict.1 this⟩
          · cases this
        have hd21 : ∀ k, k ∈ k2 → (v2 k).isDict = true → k ∈ k1 ∧ (v1 k).isDict = true := by
          intro k h2 d2
          have h := (hc [k]).1
          simp only [at', h2, if_true] at h
          rw [Aux.at_nil_dict] at h
          have := h.2 d2
          split at this
          · rename_i h1; exact ⟨h1, Aux.at_nil_dict.1 this⟩
          · cases this
        have c1 : (k1.all fun k => !(v1 k).isDict ||
            (decide (k ∈ k2) && (v2 k).isDict && ((v1 k).merge (v2 k)).isSome)) = true := by
          rw [List.all_eq_true]
          intro k h1
          by_cases d1 : (v1 k).isDict = true
          · obtain ⟨h2, d2⟩ := hd12 k h1 d1
            have := (hkey k h1 h2 d1 d2).1.2 (hc' k h1 h2)
            simp [d1, h2, d2, this]
          · simp [d1]
        have c2 : (k2.all fun k => if (v2 k).isDict then decide (k ∈ k1) && (v1 k).isDict
            else !decide (k ∈ k1)) = true := by
          rw [List.all_eq_true]
          intro k h2
          by_cases d2 : (v2 k).isDict = true
          · obtain ⟨h1, d1⟩ := hd21 k h2 d2
            simp [d2, h1, d1]
          · simp only [d2, Bool.false_eq_true, if_false]
            by_contra h1
            have h1 : k ∈ k1 := by simpa using h1
            have h := (hc [k])
            simp only [at', h1, h2, if_true] at h
            have h2' := hsome (v2 k) (hpb k h2) (by simpa using d2)
            rcases h.2 with h' | h' | h'
            · exact h2'.2 (h.1.1 h')
            · have d1 : (v1 k).isDict = false := by
                by_contra hd
                exact d2 (hd12 k h1 (by simpa using hd)).2
              exact (hsome (v1 k) (hpa k h1) d1).1 h'
            · exact h2'.1 h'
        simp only [PyVal.merge, c1, c2, if_true, Option.isSome_some]
    · intro m hm path
      simp only [PyVal.merge] at hm
      split at hm
      · rename_i c1
        split at hm
        · rename_i c2
          rw [List.all_eq_true] at c1 c2
          simp only [Option.some.injEq] at hm
          subst hm
          cases path with
          | nil => simp [at']
          | cons k path =>
            simp only [at', List.mem_append, List.mem_filter]
            by_cases h1 : k ∈ k1
            · have c1' := c1 k h1
              simp only [h1, true_or, if_true]
              by_cases d1 : (v1 k).isDict = true
              · simp only [d1, if_true, Bool.not_true, Bool.false_or, Bool.and_eq_true,
                  decide_eq_true_eq] at c1' ⊢
                obtain ⟨⟨h2, d2⟩, hs⟩ := c1'
                obtain ⟨m', hm'⟩ := Option.isSome_iff_exists.1 hs
                have := (hkey k h1 h2 d1 d2).2 m' hm' path
                simpa [hm', h2] using this
              · simp only [d1, if_false]
                have h2 : k ∉ k2 := by
                  intro h2
                  have c2' := c2 k h2
                  by_cases d2 : (v2 k).isDict = true
                  · simp [d2, d1] at c2'
                  · simp [d2, h1] at c2'
                simp [h2]
            · simp only [h1, false_or, if_false, Option.none_or]
              by_cases h2 : k ∈ k2
              · have c2' := c2 k h2
                have d2 : (v2 k).isDict = false := by
                  by_contra hd
                  simp only [Bool.not_eq_false] at hd
                  simp [hd, h1] at c2'
                simp [h2, d2]
              · simp [h2]
        · cases hm
      · cases hm

theorem Aux.split_proper (d : PyVal V) (h : Proper d) : Proper d.split.1 ∧ Proper d.split.2 := by
  induction d with
  | missing => exact ⟨h, h⟩
  | py v => exact ⟨h, h⟩
  | tf v => exact ⟨h, h⟩
  | dict keys val ih =>
    simp only [Proper, PyVal.split, List.mem_filter] at h ⊢
    constructor <;>
    · intro k hk
      by_cases hd : (val k).isDict = true
      · simp only [hd, if_true]
        first | exact (ih k (h k hk.1)).1 | exact (ih k (h k hk.1)).2
      · simp only [hd]
        exact h k hk.1

/-- **C41 (round trip).**  Merging the two parts of a split dictionary succeeds and returns a
dictionary that agrees with the original at every path. -/
theorem C41_roundtrip (d p t : PyVal V) (hp : Proper d) (h : d.splitDict = some (p, t)) :
    ∃ m, p.merge t = some m ∧ ∀ path, at' m path = at' d path := by
  have hs := C41_split d p t h
  have hd : d.isDict = true := by
    unfold PyVal.splitDict at h
    split at h
    · assumption
    · cases h
  have h' : d.split = (p, t) := by
    unfold PyVal.splitDict at h
    rw [if_pos hd] at h
    exact Option.some.inj h
  have hpp := Aux.split_proper d hp
  rw [h'] at hpp
  have hroot := Aux.at_nil_dict.2 hd
  obtain ⟨hc, hm⟩ := C41_merge p t ((hs []).2.2.2.2.1.2 hroot) ((hs []).2.2.2.2.2.2 hroot)
    hpp.1 hpp.2
  have hat := Aux.split_at d hd
  rw [h'] at hat
  have hcor : Corresponding p t := by
    intro path
    obtain ⟨a1, a2⟩ := hat path
    rw [a1, a2]
    cases at' d path with
    | none => simp
    | some f => cases f <;> simp [Option.filter]
  obtain ⟨m, hm'⟩ := Option.isSome_iff_exists.1 (hc.2 hcor)
  refine ⟨m, hm', fun path => ?_⟩
  rw [hm m hm' path]
  obtain ⟨a1, a2⟩ := hat path
  rw [a1, a2]
  cases at' d path with
  | none => simp
  | some f => cases f <;> simp [Option.filter]

/-- Merging the parts in the other direction: a Python-only and a TensorFlow-only dictionary that can
be merged are recovered by splitting. -/
theorem C41_merge_split (p t m : PyVal V) (hpp : Proper p) (hpt : Proper t)
    (hpd : at' p [] = some .dict) (htd : at' t [] = some .dict)
    (hpy : ∀ path v, at' p path ≠ some (.tf v)) (htf : ∀ path v, at' t path ≠ some (.py v))
    (h : p.merge t = some m) :
    ∃ p' t', m.splitDict = some (p', t') ∧
      (∀ path, at' p' path = at' p path) ∧ (∀ path, at' t' path = at' t path) := by
  obtain ⟨hc, hm⟩ := C41_merge p t hpd htd hpp hpt
  have hcor := hc.1 (by rw [h]; rfl)
  have hat := hm m h
  have hmd : m.isDict = true := by
    rw [← Aux.at_nil_dict, hat, hpd]; rfl
  refine ⟨m.split.1, m.split.2, by simp [PyVal.splitDict, hmd], ?_, ?_⟩
  · intro path
    rw [(Aux.split_at m hmd path).1, hat]
    have h1 := hcor path
    have h2 := hpy path
    have h3 := htf path
    cases hp : at' p path with
    | none =>
      cases ht : at' t path with
      | none => rfl
      | some f => cases f <;> simp_all [Option.filter]
    | some f => cases f <;> simp_all [Option.filter]
  · intro path
    rw [(Aux.split_at m hmd path).2, hat]
    have h1 := hcor path
    have h2 := hpy path
    have h3 := htf path
    cases hp : at' p path with
    | none =>
      cases ht : at' t path with
      | none => rfl
      | some f => cases f <;> simp_all [Option.filter]
    | some f => cases f <;> simp_all [Option.filter]

namespace Example

/-- `{'a': 1, 'b': {'c': tensor, 'd': 2}}`. -/
def dict1 : PyVal Nat :=
  .dict ["a", "b"] fun k => if k = "a" then .py 1 else
    if k = "b" then .dict ["c", "d"] fun k => if k = "c" then .tf 5 else .py 2 else .missing

example : Proper dict1 := by
  intro k hk
  simp only [List.mem_cons, List.not_mem_nil, or_false] at hk
  rcases hk with rfl | rfl
  · simp [Proper]
  · simp only [String.reduceEq, if_false, if_true]
    intro k hk
    simp only [List.mem_cons, List.not_mem_nil, or_false] at hk
    rcases hk with rfl | rfl <;> simp [Proper]

example : ∃ p t, dict1.splitDict = some (p, t) ∧ at' p ["b", "c"] = none ∧
    at' t ["b", "c"] = some (.tf 5) ∧ at' p ["b", "d"] = some (.py 2) ∧
    at' t ["b"] = some .dict := ⟨_, _, rfl, by decide, by decide, by decide, by decide⟩

/-- the same leaf key on both sides is rejected -/
example : (PyVal.merge (.dict ["a"] fun _ => .py 1) (.dict ["a"] fun _ => PyVal.tf 2)) = none := by
  simp [PyVal.merge, PyVal.isDict]

end Example
end Verif.Props
