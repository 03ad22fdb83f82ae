import Verif.Keras.Names
import Mathlib.Data.List.Basic
import Mathlib.Data.List.Nodup
import Mathlib.Data.List.NodupEquivFin
import Mathlib.Data.List.Range
import Mathlib.Data.Finset.Card
import Std.Data.String.ToNat

/-!
# C66: unique object names
-/

set_option linter.unusedSectionVars false

namespace Verif.Props
open Verif.Keras

/-! ## Specification -/

/-- The number of iterations granted: one more than there are names to avoid. -/
def Spec.enough (c : NameCall) : ℕ := (c.avoidNames.getD []).length + 1

/-- The call does not ask to avoid observed names without giving a set. -/
def Spec.Plain (c : NameCall) : Prop := ¬ (c.avoidNames = none ∧ c.avoidObserved = true)

/-! ## Helper lemmas -/

theorem Aux.suffix_toList (p : String) (j : ℕ) :
    (p ++ "_" ++ toString j).toList = p.toList ++ '_' :: Nat.toDigits 10 j := by
  rw [String.toList_append, String.toList_append]
  have : (toString j).toList = Nat.toDigits 10 j := Nat.toList_repr
  rw [this]
  simp

theorem Aux.toDigits_inj {i j : ℕ} (h : Nat.toDigits 10 i = Nat.toDigits 10 j) : i = j := by
  have := congrArg (fun l => Nat.ofDigitChars 10 l 0) h
  simpa [Nat.ofDigitChars_ten_toDigits] using this

theorem Aux.split_underscore {a b x y : List Char} (hx : '_' ∉ x) (hy : '_' ∉ y)
    (h : a ++ '_' :: x = b ++ '_' :: y) : a = b ∧ x = y := by
  rcases List.append_eq_append_iff.1 h with ⟨c, h1, h2⟩ | ⟨c, h1, h2⟩
  · rcases c with _ | ⟨d, c⟩
    · simp only [List.append_nil] at h1
      simp only [List.nil_append, List.cons.injEq, true_and] at h2
      exact ⟨h1.symm, h2⟩
    · simp only [List.cons_append, List.cons.injEq] at h2
      exact absurd (h2.2 ▸ by simp : '_' ∈ x) hx
  · rcases c with _ | ⟨d, c⟩
    · simp only [List.append_nil] at h1
      simp only [List.nil_append, List.cons.injEq, true_and] at h2
      exact ⟨h1, h2.symm⟩
    · simp only [List.cons_append, List.cons.injEq] at h2
      exact absurd (h2.2 ▸ by simp : '_' ∈ y) hy

theorem Aux.suffix_inj {p q : String} {i j : ℕ}
    (h : p ++ "_" ++ toString i = q ++ "_" ++ toString j) : p = q ∧ i = j := by
  have h' := congrArg String.toList h
  rw [Aux.suffix_toList, Aux.suffix_toList] at h'
  obtain ⟨h1, h2⟩ := Aux.split_underscore Nat.underscore_not_in_toDigits
    Nat.underscore_not_in_toDigits h'
  exact ⟨String.toList_inj.1 h1, Aux.toDigits_inj h2⟩

theorem Aux.propose_inj (zb : Bool) (p : String) : Function.Injective (propose zb p) := by
  intro i j h
  have hself : ∀ k : ℕ, p ≠ p ++ "_" ++ toString k := by
    intro k hk
    have := congrArg (fun s : String => s.toList.length) hk
    simp only [Aux.suffix_toList, List.length_append, List.length_cons] at this
    omega
  cases zb with
  | true =>
    unfold propose at h
    rw [if_pos rfl, if_pos rfl] at h
    split_ifs at h with hi hj hj
    · exact (Aux.suffix_inj h).2
    · exact absurd h.symm (hself i)
    · exact absurd h (hself j)
    · omega
  | false =>
    have h' : p ++ "_" ++ toString (i + 1) = p ++ "_" ++ toString (j + 1) := h
    have := (Aux.suffix_inj h').2
    omega

theorem Aux.search_spec (zb : Bool) (avoid : List String) (name : String) (fuel : ℕ) :
    ∀ count n k, search zb avoid name fuel count = some (n, k) →
      ∃ j, count ≤ j ∧ k = j + 1 ∧ n = propose zb name j ∧ n ∉ avoid := by
  induction fuel with
  | zero => intro count n k h; simp [search] at h
  | succ fuel ih =>
    intro count n k h
    rw [search] at h
    split_ifs at h with hc
    · obtain ⟨j, h1, h2, h3, h4⟩ := ih _ _ _ h
      exact ⟨j, by omega, h2, h3, h4⟩
    · obtain ⟨rfl, rfl⟩ := Prod.mk.inj (Option.some.inj h)
      exact ⟨count, le_rfl, rfl, rfl, hc⟩

theorem Aux.search_none (zb : Bool) (avoid : List String) (name : String) (fuel : ℕ) :
    ∀ count, search zb avoid name fuel count = none →
      ∀ i < fuel, propose zb name (count + i) ∈ avoid := by
  induction fuel with
  | zero => intro count _ i hi; omega
  | succ fuel ih =>
    intro count h i hi
    rw [search] at h
    split_ifs at h with hc
    rcases i with _ | i
    · exact hc
    · have := ih _ h i (by omega)
      rwa [show count + (i + 1) = count + 1 + i by omega]

theorem Aux.search_finds (zb : Bool) (avoid : List String) (name : String) (count : ℕ) :
    ∃ n k, search zb avoid name (avoid.length + 1) count = some (n, k) := by
  rcases h : search zb avoid name (avoid.length + 1) count with _ | ⟨n, k⟩
  · exfalso
    have hin := Aux.search_none zb avoid name _ _ h
    have hsub : (Finset.range (avoid.length + 1)).image (fun i => propose zb name (count + i)) ⊆
        avoid.toFinset := by
      intro x hx
      obtain ⟨i, hi, rfl⟩ := Finset.mem_image.1 hx
      exact List.mem_toFinset.2 (hin i (Finset.mem_range.1 hi))
    have hcard := Finset.card_le_card hsub
    rw [Finset.card_image_of_injective] at hcard
    · have := List.toFinset_card_le avoid
      simp at hcard
      omega
    · intro i j hij
      have := Aux.propose_inj zb name hij
      omega
  · exact ⟨n, k, rfl⟩

/-- What the names of a history can be: proposals for counters not used before for their key. -/
theorem Aux.names_counters (fuel : NameCall → ℕ) (cs : List NameCall) : ∀ m : UidMap,
    ∃ js : List ℕ, js.length = (namesOf fuel cs m).length ∧
      (∀ i (h : i < (namesOf fuel cs m).length) (h' : i < js.length),
        (namesOf fuel cs m)[i].2 =
          propose (namesOf fuel cs m)[i].1.zeroBased (namesOf fuel cs m)[i].1.name js[i] ∧
        (namesOf fuel cs m)[i].2 ∉ (namesOf fuel cs m)[i].1.avoidNames.getD [] ∧
        m ((namesOf fuel cs m)[i].1.ns, (namesOf fuel cs m)[i].1.name) ≤ js[i]) ∧
      (∀ i j (hi : i < (namesOf fuel cs m).length) (hj : j < (namesOf fuel cs m).length)
          (hi' : i < js.length) (hj' : j < js.length), i < j →
        (namesOf fuel cs m)[i].1.ns = (namesOf fuel cs m)[j].1.ns →
        (namesOf fuel cs m)[i].1.name = (namesOf fuel cs m)[j].1.name → js[i] < js[j]) := by
  induction cs with
  | nil => exact fun m => ⟨[], rfl, by simp [namesOf], by simp [namesOf]⟩
  | cons c cs ih =>
    intro m
    rcases hu : uniqueObjectName (fuel c) c m with e | ⟨n, m'⟩
    · exact ⟨[], by simp [namesOf, hu], by simp [namesOf, hu], by simp [namesOf, hu]⟩
    · have hl : namesOf fuel (c :: cs) m = (c, n) :: namesOf fuel cs m' := by
        simp only [namesOf, hu]
      obtain ⟨js, h1, h2, h3⟩ := ih m'
      -- the call itself
      have hcall : ∃ j, m (c.ns, c.name) ≤ j ∧ n = propose c.zeroBased c.name j ∧
          n ∉ c.avoidNames.getD [] ∧
          m' = fun key => if key = (c.ns, c.name) then j + 1 else m key := by
        unfold uniqueObjectName at hu
        split_ifs at hu with hobs
        rcases hs : search c.zeroBased (c.avoidNames.getD []) c.name (fuel c)
          (m (c.ns, c.name)) with _ | ⟨n', k⟩
        · rw [hs] at hu; simp at hu
        · rw [hs] at hu
          simp only [Except.ok.injEq, Prod.mk.injEq] at hu
          obtain ⟨j, g1, g2, g3, g4⟩ := Aux.search_spec _ _ _ _ _ _ _ hs
          obtain ⟨rfl, rfl⟩ := hu
          exact ⟨j, g1, g3, g4, by rw [g2]⟩
      obtain ⟨j, g1, g2, g3, rfl⟩ := hcall
      rw [hl]
      refine ⟨j :: js, by simp [h1], ?_, ?_⟩
      · intro i hi hi'
        rcases i with _ | i
        · exact ⟨g2, g3, g1⟩
        · simp only [List.getElem_cons_succ]
          obtain ⟨a1, a2, a3⟩ := h2 i (by simpa using hi) (by simpa using hi')
          refine ⟨a1, a2, ?_⟩
          dsimp only at a3
          split_ifs at a3 with hk
          · rw [hk]; omega
          · exact a3
      · intro a b ha hb ha' hb' hab hns hname
        rcases b with _ | b
        · omega
        · rcases a with _ | a
          · simp only [List.getElem_cons_zero, List.getElem_cons_succ] at hns hname ⊢
            obtain ⟨-, -, a3⟩ := h2 b (by simpa using hb) (by simpa using hb')
            dsimp only at a3
            rw [if_pos (Prod.ext hns.symm hname.symm)] at a3
            omega
          · simp only [List.getElem_cons_succ] at hns hname ⊢
            exact h3 a b (by simpa using ha) (by simpa using hb) _ _ (by omega) hns hname

theorem Aux.names_calls (fuel : NameCall → ℕ) (cs : List NameCall) : ∀ m : UidMap,
    ∀ e ∈ namesOf fuel cs m, e.1 ∈ cs := by
  induction cs with
  | nil => intro m e h; simp [namesOf] at h
  | cons c cs ih =>
    intro m e h
    rw [namesOf] at h
    split at h
    · simp at h
    · rcases List.mem_cons.1 h with rfl | h
      · simp
      · exact List.mem_cons_of_mem _ (ih _ _ h)

/-! ## C66 -/

/-- **C66 (termination).**  Every call that does not ask for observed names returns a name, however
many names are to be avoided; the loop ends after at most one more iteration than there are names to
avoid. -/
theorem C66_terminates (c : NameCall) (hc : Spec.Plain c) (m : UidMap) :
    ∃ n m', uniqueObjectName (Spec.enough c) c m = .ok (n, m') := by
  obtain ⟨n, k, h⟩ := Aux.search_finds c.zeroBased (c.avoidNames.getD []) c.name
    (m (c.ns, c.name))
  refine ⟨n, fun key => if key = (c.ns, c.name) then k else m key, ?_⟩
  unfold uniqueObjectName Spec.enough
  rw [if_neg hc, h]

/-- **C66 (avoided names).**  A name that is to be avoided is never returned. -/
theorem C66_avoids (fuel : ℕ) (c : NameCall) (m m' : UidMap) (n : String)
    (h : uniqueObjectName fuel c m = .ok (n, m')) : n ∉ c.avoidNames.getD [] := by
  unfold uniqueObjectName at h
  split_ifs at h with hobs
  rcases hs : search c.zeroBased (c.avoidNames.getD []) c.name fuel (m (c.ns, c.name)) with
    _ | ⟨n', k⟩
  · rw [hs] at h; simp at h
  · rw [hs] at h
    simp only [Except.ok.injEq, Prod.mk.injEq] at h
    obtain ⟨j, -, -, -, g⟩ := Aux.search_spec _ _ _ _ _ _ _ hs
    rwa [← h.1]

/-- **C66 (one-based names).**  In any history of one-based calls with one map, two calls in the same
namespace never return the same name, even if they were made for different prefixes. -/
theorem C66_unique (fuel : NameCall → ℕ) (cs : List NameCall) (m : UidMap)
    (i j : ℕ) (hi : i < (namesOf fuel cs m).length) (hj : j < (namesOf fuel cs m).length)
    (hij : i ≠ j) (hone : ∀ c ∈ cs, c.zeroBased = false)
    (hns : (namesOf fuel cs m)[i].1.ns = (namesOf fuel cs m)[j].1.ns) :
    (namesOf fuel cs m)[i].2 ≠ (namesOf fuel cs m)[j].2 := by
  obtain ⟨js, h1, h2, h3⟩ := Aux.names_counters fuel cs m
  have key : ∀ a b (ha : a < (namesOf fuel cs m).length) (hb : b < (namesOf fuel cs m).length),
      a < b → (namesOf fuel cs m)[a].1.ns = (namesOf fuel cs m)[b].1.ns →
      (namesOf fuel cs m)[a].2 ≠ (namesOf fuel cs m)[b].2 := by
    intro a b ha hb hab hns' heq
    have za := hone _ (Aux.names_calls fuel cs m _ (List.getElem_mem ha))
    have zb := hone _ (Aux.names_calls fuel cs m _ (List.getElem_mem hb))
    rw [(h2 a ha (h1 ▸ ha)).1, (h2 b hb (h1 ▸ hb)).1, za, zb] at heq
    obtain ⟨e1, e2⟩ := Aux.suffix_inj
      (show (namesOf fuel cs m)[a].1.name ++ "_" ++ toString (js[a]'(h1 ▸ ha) + 1) =
        (namesOf fuel cs m)[b].1.name ++ "_" ++ toString (js[b]'(h1 ▸ hb) + 1) from heq)
    have := h3 a b ha hb (h1 ▸ ha) (h1 ▸ hb) hab hns' e1
    omega
  rcases Nat.lt_or_gt_of_ne hij with h | h
  · exact key i j hi hj h hns
  · exact fun e => key j i hj hi h hns.symm e.symm

/-- **C66 (one sequence).**  In any history with one map, two calls with the same namespace, prefix
and numbering never return the same name, whatever other calls there are in between. -/
theorem C66_sequence_partial (fuel : NameCall → ℕ) (cs : List NameCall) (m : UidMap)
    (i j : ℕ) (hi : i < (namesOf fuel cs m).length) (hj : j < (namesOf fuel cs m).length)
    (hij : i ≠ j) (hns : (namesOf fuel cs m)[i].1.ns = (namesOf fuel cs m)[j].1.ns)
    (hname : (namesOf fuel cs m)[i].1.name = (namesOf fuel cs m)[j].1.name)
    (hzero : (namesOf fuel cs m)[i].1.zeroBased = (namesOf fuel cs m)[j].1.zeroBased) :
    (namesOf fuel cs m)[i].2 ≠ (namesOf fuel cs m)[j].2 := by
  obtain ⟨js, h1, h2, h3⟩ := Aux.names_counters fuel cs m
  intro heq
  rw [(h2 i hi (h1 ▸ hi)).1, (h2 j hj (h1 ▸ hj)).1, hzero, hname] at heq
  have heq' := Aux.propose_inj _ _ heq
  rcases Nat.lt_or_gt_of_ne hij with h | h
  · have := h3 i j hi hj (h1 ▸ hi) (h1 ▸ hj) h hns hname
    omega
  · have := h3 j i hj hi (h1 ▸ hj) (h1 ▸ hi) h hns.symm hname.symm
    omega

/-- **C66 (prefix).**  Every name starts with the prefix asked for. -/
theorem C66_prefix (fuel : ℕ) (c : NameCall) (m m' : UidMap) (n : String)
    (h : uniqueObjectName fuel c m = .ok (n, m')) : c.name.toList <+: n.toList := by
  unfold uniqueObjectName at h
  split_ifs at h with hobs
  rcases hs : search c.zeroBased (c.avoidNames.getD []) c.name fuel (m (c.ns, c.name)) with
    _ | ⟨n', k⟩
  · rw [hs] at h; simp at h
  · rw [hs] at h
    simp only [Except.ok.injEq, Prod.mk.injEq] at h
    obtain ⟨j, -, -, g, -⟩ := Aux.search_spec _ _ _ _ _ _ _ hs
    rw [← h.1, g]
    unfold propose
    split_ifs
    · rw [Aux.suffix_toList]; exact List.prefix_append _ _
    · exact List.prefix_rfl
    · rw [Aux.suffix_toList]; exact List.prefix_append _ _

/-- **C66 (first names).**  Without names to avoid, a new map gives the documented sequences:
`dense_1, dense_2, ...` one-based and `dense, dense_1, dense_2, ...` zero-based. -/
theorem C66_documented (name : String) (k : ℕ) (m : UidMap) (hm : m ("", name) = k) :
    (∃ m', uniqueObjectName 1 { name := name } m = .ok (name ++ "_" ++ toString (k + 1), m') ∧
      m' ("", name) = k + 1) ∧
    (∃ m', uniqueObjectName 1 { name := name, zeroBased := true } m =
        .ok (if k = 0 then name else name ++ "_" ++ toString k, m') ∧ m' ("", name) = k + 1) := by
  constructor
  · refine ⟨_, by simp [uniqueObjectName, search, propose, hm]; rfl, by simp⟩
  · refine ⟨fun key => if key = ("", name) then k + 1 else m key, ?_, by simp⟩
    by_cases hk : k = 0
    · simp [uniqueObjectName, search, propose, hm, hk]
    · simp [uniqueObjectName, search, propose, hm, hk]

/-- **C66 (violated: zero-based names).**  Zero-based names of different prefixes can coincide: the
second `dense` and the first `dense_1` are both called `dense_1`. -/
theorem C66_zero_based_violated :
    (namesOf (fun _ => 1) [⟨"dense", none, "", true, false⟩, ⟨"dense", none, "", true, false⟩,
      ⟨"dense_1", none, "", true, false⟩] fun _ => 0).map (·.2) =
    ["dense", "dense_1", "dense_1"] := by
  decide +kernel

/-- **C66 (violated: mixed numbering).**  One-based and zero-based calls share the counter, and can
return the same name for the same prefix. -/
theorem C66_mixed_violated :
    (namesOf (fun _ => 1) [⟨"dense", none, "", false, false⟩, ⟨"dense", none, "", true, false⟩]
      fun _ => 0).map (·.2) = ["dense_1", "dense_1"] := by
  decide +kernel

/-- **C66 (violated: observed names).**  `avoid_observed_names` without `avoid_names` always fails:
the set of observed names does not exist. -/
theorem C66_observed_violated (fuel : ℕ) (c : NameCall) (m : UidMap) (h : ¬ Spec.Plain c) :
    ∃ e, uniqueObjectName fuel c m = .error e := by
  unfold Spec.Plain at h
  rw [not_not] at h
  exact ⟨_, by rw [uniqueObjectName, if_pos h]⟩

/-- A history that meets the hypotheses of C66: five one-based calls, one of which has to avoid
names. -/
example : (namesOf Spec.enough [{ name := "dense" }, { name := "dense_1" }, { name := "dense" },
      { name := "dense", avoidNames := some ["dense_3", "dense_4"] }, { name := "dense" }]
      fun _ => 0).map (·.2) = ["dense_1", "dense_1_1", "dense_2", "dense_5", "dense_6"] := by
  decide +kernel

end Verif.Props
