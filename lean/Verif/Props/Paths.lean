import Verif.Encoding.Paths
import Verif.Props.Dict

/-!
# C90: flat dictionaries and back
-/

set_option linter.unusedSectionVars false

namespace Verif.Props
open Verif.Encoding Verif.Encoding.PyVal

variable {V : Type}

/-! ## Specification -/

/-- Every dictionary has distinct keys, all of them `good`. -/
def Spec.Keys (good : String → Prop) : PyVal V → Prop
  | .dict keys val => keys.Nodup ∧ ∀ k ∈ keys, good k ∧ Spec.Keys good (val k)
  | _ => True

/-- All characters come after `/` in the order of code points; so do all letters, digits and the underscore. -/
def Spec.AfterSlash (k : String) : Prop := ∀ c ∈ k.toList, '/' < c

/-- Equality of nested dictionaries in Python. -/
def Spec.Same (a b : PyVal V) : Prop := ∀ path, Spec.at' a path = Spec.at' b path

/-! ## Joined paths -/

theorem Aux.join_toList (k : String) (p : List String) :
    (joinPath (k :: p)).toList = k.toList ++ (if p = [] then [] else '/' :: (joinPath p).toList) := by
  cases p with
  | nil => simp [joinPath]
  | cons k' ks => simp [joinPath, String.toList_append]

theorem Aux.lex_head {a b : List Char} (hb : ∀ c ∈ b, '/' < c) (h : a < b) (r s : List Char)
    (hr : r = [] ∨ ∃ r', r = '/' :: r') : a ++ r < b ++ s := by
  induction a generalizing b with
  | nil =>
    cases b with
    | nil => exact absurd h (lt_irrefl _)
    | cons c b =>
      rcases hr with rfl | ⟨r', rfl⟩
      · exact List.nil_lt_cons _ _
      · exact List.Lex.rel (hb c List.mem_cons_self)
  | cons x a ih =>
    cases b with
    | nil => exact absurd h (List.not_lt_nil _)
    | cons y b =>
      rcases List.cons_lt_cons_iff.1 h with h1 | ⟨rfl, h2⟩
      · exact List.Lex.rel h1
      · exact List.Lex.cons (ih (fun c hc => hb c (List.mem_cons_of_mem _ hc)) h2)

theorem Aux.join_head {k k' : String} (hk : Spec.AfterSlash k') (h : k < k') (p q : List String) :
    joinPath (k :: p) < joinPath (k' :: q) := by
  rw [String.lt_iff_toList_lt, Aux.join_toList, Aux.join_toList]
  refine Aux.lex_head hk (String.lt_iff_toList_lt.1 h) _ _ ?_
  by_cases hp : p = []
  · simp [hp]
  · exact .inr ⟨_, by rw [if_neg hp]⟩

theorem Aux.join_tail (k : String) {p q : List String} (hp : p ≠ []) (hq : q ≠ []) (h : joinPath p < joinPath q) :
    joinPath (k :: p) < joinPath (k :: q) := by
  rw [String.lt_iff_toList_lt, Aux.join_toList, Aux.join_toList, if_neg hp, if_neg hq]
  rw [String.lt_iff_toList_lt] at h
  induction k.toList with
  | nil => exact List.Lex.cons h
  | cons c cs ih => exact List.Lex.cons ih

/-! ## Flattening -/

theorem Aux.sortKeys_mem {keys : List String} {k : String} : k ∈ sortKeys keys ↔ k ∈ keys :=
  List.mem_insertionSort _

theorem Aux.sortKeys_lt {keys : List String} (h : keys.Nodup) : (sortKeys keys).Pairwise (· < ·) := by
  have h1 : (sortKeys keys).Pairwise (· ≤ ·) := List.pairwise_insertionSort _ _
  have h2 : (sortKeys keys).Nodup := (List.perm_insertionSort _ _).nodup_iff.2 h
  exact (h1.and h2).imp fun hab => lt_of_le_of_ne hab.1 hab.2

theorem Aux.sortKeys_eq {keys keys' : List String} (h : keys.Perm keys') (hs : keys'.Pairwise (· < ·)) :
    sortKeys keys = keys' := by
  have h1 : (sortKeys keys).Pairwise (· ≤ ·) := List.pairwise_insertionSort _ _
  have h2 : (sortKeys keys).Perm keys' := (List.perm_insertionSort _ _).trans h
  exact h2.eq_of_pairwise (fun a b _ _ h1 h2 => le_antisymm h1 h2) h1 (hs.imp le_of_lt)

theorem Aux.paths_ne {d : PyVal V} (hd : d.isDict = true) : ∀ p ∈ d.flattenWithPath, p.1 ≠ [] := by
  cases d with
  | dict keys val =>
    intro p hp
    simp only [flattenWithPath, List.mem_flatMap, List.mem_map] at hp
    obtain ⟨k, -, q, -, rfl⟩ := hp
    simp
  | _ => cases hd

/-- The joined paths come in increasing order. -/
theorem Aux.paths_sorted (d : PyVal V) (h : Spec.Keys Spec.AfterSlash d) :
    d.flattenWithPath.Pairwise fun p q => joinPath p.1 < joinPath q.1 := by
  induction d with
  | dict keys val ih =>
    obtain ⟨hn, hk⟩ := h
    rw [flattenWithPath, List.pairwise_flatMap]
    constructor
    · intro k hmem
      rw [List.pairwise_map]
      have hkm := Aux.sortKeys_mem.1 hmem
      have := ih k (hk k hkm).2
      by_cases hd : (val k).isDict = true
      · refine List.Pairwise.imp_of_mem (fun {a b} ha hb hab => ?_) this
        exact Aux.join_tail k (Aux.paths_ne hd a ha) (Aux.paths_ne hd b hb) hab
      · cases hv : val k with
        | dict ks vs => rw [hv] at hd; exact absurd rfl hd
        | _ => simp [flattenWithPath]
    · refine List.Pairwise.imp_of_mem (fun {a b} _ hb hab => ?_) (Aux.sortKeys_lt hn)
      intro x hx y hy
      simp only [List.mem_map] at hx hy
      obtain ⟨x', -, rfl⟩ := hx
      obtain ⟨y', -, rfl⟩ := hy
      exact Aux.join_head (hk b (Aux.sortKeys_mem.1 hb)).1 hab _ _
  | _ => simp [flattenWithPath]

theorem Aux.flatten_leaf (d : PyVal V) : ∀ p ∈ d.flattenWithPath, p.2.isDict = false := by
  induction d with
  | dict keys val ih =>
    intro p hp
    simp only [flattenWithPath, List.mem_flatMap, List.mem_map] at hp
    obtain ⟨k, -, q, hq, rfl⟩ := hp
    exact ih k q hq
  | _ => intro p hp; simp only [flattenWithPath, List.mem_singleton] at hp; subst hp; rfl

theorem Aux.flatten_proper (d : PyVal V) (h : Spec.Proper d) : ∀ p ∈ d.flattenWithPath, Spec.Proper p.2 := by
  induction d with
  | dict keys val ih =>
    intro p hp
    simp only [flattenWithPath, List.mem_flatMap, List.mem_map] at hp
    obtain ⟨k, hk, q, hq, rfl⟩ := hp
    exact ih k (h k (Aux.sortKeys_mem.1 hk)) q hq
  | _ => intro p hp; simp only [flattenWithPath, List.mem_singleton] at hp; subst hp; exact h

/-- What is found at the paths of the flattened structure. -/
theorem Aux.flatten_at (d : PyVal V) (h : Spec.Proper d) (path : List String) (f : Spec.Found V) (hf : f ≠ .dict) :
    Spec.at' d path = some f ↔ ∃ v, (path, v) ∈ d.flattenWithPath ∧ Spec.at' v [] = some f := by
  induction d generalizing path with
  | missing => exact absurd h id
  | py v =>
    cases path with
    | nil => simp [flattenWithPath, Spec.at']
    | cons k p => simp [flattenWithPath, Spec.at']
  | tf v =>
    cases path with
    | nil => simp [flattenWithPath, Spec.at']
    | cons k p => simp [flattenWithPath, Spec.at']
  | dict keys val ih =>
    cases path with
    | nil =>
      simp only [Spec.at', Option.some.injEq, flattenWithPath, List.mem_flatMap, List.mem_map, Prod.mk.injEq,
        reduceCtorEq, false_and, and_false, exists_false, iff_false]
      exact fun h => hf h.symm
    | cons k p =>
      simp only [Spec.at', flattenWithPath, List.mem_flatMap, List.mem_map, Prod.mk.injEq, List.cons.injEq]
      by_cases hk : k ∈ keys
      · rw [if_pos hk, ih k (h k hk) p]
        constructor
        · rintro ⟨v, h1, h2⟩
          exact ⟨v, ⟨k, Aux.sortKeys_mem.2 hk, (p, v), h1, ⟨rfl, rfl⟩, rfl⟩, h2⟩
        · rintro ⟨v, ⟨k', -, q, h1, ⟨rfl, h3⟩, h4⟩, h2⟩
          refine ⟨v, ?_, h2⟩
          rw [← h3, ← h4]
          exact h1
      · rw [if_neg hk]
        constructor
        · intro h; cases h
        · rintro ⟨v, ⟨k', h0, q, h1, ⟨rfl, h3⟩, h4⟩, h2⟩
          exact absurd (Aux.sortKeys_mem.1 h0) hk

/-! ## The flat dictionary -/

theorem Aux.setKey_all {A : Type} (l acc : List (String × A)) (h : ((acc ++ l).map Prod.fst).Nodup) :
    l.foldl setKey acc = acc ++ l := by
  induction l generalizing acc with
  | nil => simp
  | cons x xs ih =>
    have hx : x.1 ∉ acc.map Prod.fst := by
      intro hm
      rw [List.map_append, List.map_cons, List.nodup_append] at h
      exact h.2.2 _ hm _ List.mem_cons_self rfl
    rw [List.foldl_cons, setKey, if_neg hx, ih]
    · simp
    · simpa using h

theorem Aux.lookup_nodup {A : Type} {l : List (String × A)} (h : (l.map Prod.fst).Nodup) {p : String × A} (hp : p ∈ l) :
    l.lookup p.1 = some p.2 := by
  induction l with
  | nil => cases hp
  | cons x xs ih =>
    rw [List.map_cons, List.nodup_cons] at h
    rw [List.lookup_cons]
    rcases List.mem_cons.1 hp with rfl | hp
    · simp
    · have hne : p.1 ≠ x.1 := fun he => h.1 (by rw [← he]; exact List.mem_map_of_mem hp)
      rw [(beq_eq_false_iff_ne).2 hne]
      exact ih h.2 hp

/-- The items of the flat dictionary. -/
def Aux.items (d : PyVal V) : List (String × PyVal V) := d.flattenWithPath.map fun p => (joinPath p.1, p.2)

theorem Aux.items_lt {d : PyVal V} (h : Spec.Keys Spec.AfterSlash d) : ((Aux.items d).map Prod.fst).Pairwise (· < ·) := by
  rw [Aux.items, List.map_map, List.pairwise_map]
  exact Aux.paths_sorted d h

theorem Aux.items_nodup {d : PyVal V} (h : Spec.Keys Spec.AfterSlash d) : ((Aux.items d).map Prod.fst).Nodup :=
  (Aux.items_lt h).imp ne_of_lt

theorem Aux.flatDict_eq {d : PyVal V} (h : Spec.Keys Spec.AfterSlash d) : d.flatDict = ofItems (Aux.items d) := by
  unfold flatDict
  rw [Aux.setKey_all _ [] (Aux.items_nodup h)]
  rfl

/-- The leaves of a dictionary without nested dictionaries whose keys are, in some order, those of `items`. -/
theorem Aux.leaves_flat {items : List (String × PyVal V)} (hs : (items.map Prod.fst).Pairwise (· < ·))
    (hl : ∀ p ∈ items, p.2.isDict = false) {keys : List String} (hp : keys.Perm (items.map Prod.fst))
    {val : String → PyVal V} (hv : ∀ p ∈ items, val p.1 = p.2) :
    (PyVal.dict keys val).leaves = items.map Prod.snd := by
  unfold leaves
  rw [flattenWithPath, Aux.sortKeys_eq hp hs]
  clear hs hp
  induction items with
  | nil => rfl
  | cons x xs ih =>
    rw [List.map_cons, List.flatMap_cons, List.map_append, ih (fun p hp => hl p (List.mem_cons_of_mem _ hp))
      (fun p hp => hv p (List.mem_cons_of_mem _ hp)), hv x List.mem_cons_self]
    have := hl x List.mem_cons_self
    cases hx : x.2 with
    | dict k v => rw [hx] at this; cases this
    | _ => simp [flattenWithPath, hx]

theorem Aux.ofItems_val {items : List (String × PyVal V)} (h : (items.map Prod.fst).Nodup) :
    ∀ p ∈ items, (items.lookup p.1).getD .missing = p.2 := by
  intro p hp
  rw [Aux.lookup_nodup h hp]
  rfl

theorem Aux.items_leaf {d : PyVal V} : ∀ p ∈ Aux.items d, p.2.isDict = false := by
  intro p hp
  obtain ⟨q, hq, rfl⟩ := List.mem_map.1 hp
  exact Aux.flatten_leaf d q hq

theorem Aux.leaves_flatDict {d : PyVal V} (h : Spec.Keys Spec.AfterSlash d) : d.flatDict.leaves = d.leaves := by
  rw [Aux.flatDict_eq h]
  unfold ofItems
  rw [Aux.leaves_flat (Aux.items_lt h) Aux.items_leaf (List.Perm.refl _) (Aux.ofItems_val (Aux.items_nodup h))]
  simp [Aux.items, leaves]

/-! ## Packing -/

theorem Aux.packKeys_all {A : Type} (ks : List String) (f : String → List A → Option (A × List A)) (lv : String → List A)
    (g : String → A) (h : ∀ k ∈ ks, ∀ rest, f k (lv k ++ rest) = some (g k, rest)) (rest : List A) :
    packKeys ks f (ks.flatMap lv ++ rest) = some (ks.map fun k => (k, g k), rest) := by
  induction ks with
  | nil => rfl
  | cons k ks ih =>
    rw [packKeys, List.flatMap_cons, List.append_assoc, h k List.mem_cons_self]
    dsimp only
    rw [ih fun k hk => h k (List.mem_cons_of_mem _ hk)]
    rfl

theorem Aux.pack_leaves (d : PyVal V) (hp : Spec.Proper d) (hn : Spec.Keys (fun _ => True) d) :
    ∃ r, (∀ rest, d.packFrom (d.leaves ++ rest) = some (r, rest)) ∧ Spec.Same r d ∧ Spec.Proper r := by
  induction d with
  | missing => exact absurd hp id
  | py v => exact ⟨.py v, fun rest => rfl, fun _ => rfl, trivial⟩
  | tf v => exact ⟨.tf v, fun rest => rfl, fun _ => rfl, trivial⟩
  | dict keys val ih =>
    have hex : ∀ k, ∃ r, k ∈ keys → (∀ rest, (val k).packFrom ((val k).leaves ++ rest) = some (r, rest)) ∧
        Spec.Same r (val k) ∧ Spec.Proper r := by
      intro k
      by_cases hk : k ∈ keys
      · obtain ⟨r, hr⟩ := ih k (hp k hk) (hn.2 k hk).2
        exact ⟨r, fun _ => hr⟩
      · exact ⟨.missing, fun h => absurd h hk⟩
    choose g hg using hex
    have hl : (PyVal.dict keys val).leaves = (sortKeys keys).flatMap fun k => (val k).leaves := by
      unfold leaves
      rw [flattenWithPath, List.map_flatMap]
      congr 1
      funext k
      rw [List.map_map]
      rfl
    have hval : ∀ k ∈ keys, (((sortKeys keys).map fun k => (k, g k)).lookup k).getD .missing = g k := by
      intro k hk
      have hnd : (((sortKeys keys).map fun k => (k, g k)).map Prod.fst).Nodup := by
        rw [List.map_map]
        have : (Prod.fst ∘ fun k => (k, g k)) = id := rfl
        rw [this, List.map_id]
        exact (List.perm_insertionSort _ _).nodup_iff.2 hn.1
      have := Aux.lookup_nodup hnd (p := (k, g k)) (List.mem_map.2 ⟨k, Aux.sortKeys_mem.2 hk, rfl⟩)
      rw [this]
      rfl
    refine ⟨.dict keys fun k => (((sortKeys keys).map fun k => (k, g k)).lookup k).getD .missing, ?_, ?_, ?_⟩
    · intro rest
      rw [hl, packFrom, Aux.packKeys_all (sortKeys keys) (fun k => (val k).packFrom) (fun k => (val k).leaves) g
        (fun k hk => (hg k (Aux.sortKeys_mem.1 hk)).1) rest]
      rfl
    · intro path
      cases path with
      | nil => rfl
      | cons k p =>
        simp only [Spec.at']
        by_cases hk : k ∈ keys
        · rw [if_pos hk, if_pos hk, hval k hk]
          exact (hg k hk).2.1 p
        · rw [if_neg hk, if_neg hk]
    · intro k hk
      dsimp only
      rw [hval k hk]
      exact (hg k hk).2.2

theorem Aux.packSequence (d : PyVal V) (hp : Spec.Proper d) (hn : Spec.Keys (fun _ => True) d) :
    ∃ r, d.packSequenceAs d.leaves = some r ∧ Spec.Same r d ∧ Spec.Proper r := by
  obtain ⟨r, h1, h2, h3⟩ := Aux.pack_leaves d hp hn
  have := h1 []
  rw [List.append_nil] at this
  refine ⟨r, ?_, h2, h3⟩
  unfold packSequenceAs
  rw [this]

theorem Aux.keys_true {good : String → Prop} {d : PyVal V} (h : Spec.Keys good d) : Spec.Keys (fun _ => True) d := by
  induction d with
  | dict keys val ih => exact ⟨h.1, fun k hk => ⟨trivial, ih k (h.2 k hk).2⟩⟩
  | _ => trivial

/-! ## C90 -/

/-- **C90 (the flat dictionary).** If all characters of all keys come after `/`, the flat dictionary has exactly one entry for
each leaf: the leaf at a path, under the joined path. -/
theorem C90_flat_partial (d : PyVal V) (hp : Spec.Proper d) (hk : Spec.Keys Spec.AfterSlash d) :
    (∀ path f, f ≠ Spec.Found.dict → Spec.at' d path = some f → Spec.at' d.flatDict [joinPath path] = some f) ∧
    (∀ key f, Spec.at' d.flatDict [key] = some f →
      f ≠ .dict ∧ ∃ path, key = joinPath path ∧ Spec.at' d path = some f) ∧
    ∀ k k' path, Spec.at' d.flatDict (k :: k' :: path) = none := by
  rw [Aux.flatDict_eq hk]
  have hnd := Aux.items_nodup hk
  have hval := Aux.ofItems_val hnd
  have hin : ∀ key : String, key ∈ (Aux.items d).map Prod.fst → ∃ path v, (path, v) ∈ d.flattenWithPath ∧
      key = joinPath path ∧ ((Aux.items d).lookup key).getD .missing = v := by
    intro key hkey
    obtain ⟨q, hq, rfl⟩ := List.mem_map.1 hkey
    obtain ⟨p, hpm, rfl⟩ := List.mem_map.1 hq
    exact ⟨p.1, p.2, hpm, rfl, hval _ hq⟩
  refine ⟨?_, ?_, ?_⟩
  · intro path f hf h
    obtain ⟨v, h1, h2⟩ := (Aux.flatten_at d hp path f hf).1 h
    have hq : (joinPath path, v) ∈ Aux.items d := List.mem_map.2 ⟨(path, v), h1, rfl⟩
    simp only [ofItems, Spec.at']
    rw [if_pos (List.mem_map_of_mem hq), hval _ hq]
    exact h2
  · intro key f h
    simp only [ofItems, Spec.at'] at h
    split_ifs at h with hm
    obtain ⟨path, v, h1, h2, h3⟩ := hin key hm
    rw [h3] at h
    have hf : f ≠ .dict := by
      have hvd := Aux.flatten_leaf d _ h1
      rintro rfl
      rw [Aux.at_nil_dict] at h
      rw [h] at hvd
      cases hvd
    exact ⟨hf, path, h2, (Aux.flatten_at d hp path f hf).2 ⟨v, h1, h⟩⟩
  · intro k k' path
    simp only [ofItems, Spec.at']
    split_ifs with hm
    · obtain ⟨p, v, h1, h2, h3⟩ := hin k hm
      rw [h3]
      exact Aux.at_of_not_dict (Aux.flatten_leaf d _ h1) _ _
    · rfl

/-- **C90 (partly decoded values).** What `decode_before_sum` returns is restored by `decode_after_sum`. -/
theorem C90_part_partial (d : PyVal V) (hp : Spec.Proper d) (hk : Spec.Keys Spec.AfterSlash d) :
    ∃ r, partReceive d (partSend d) = some r ∧ Spec.Same r d := by
  obtain ⟨r, h1, h2, -⟩ := Aux.packSequence d hp (Aux.keys_true hk)
  refine ⟨r, ?_, h2⟩
  unfold partReceive partSend
  split_ifs
  · rw [Aux.leaves_flatDict hk, h1]
  · exact h1

/-- **C90 (SimpleEncoder).** The user sees only the tensors, each under its joined path, and decoding restores the nested
dictionary of tensors and Python values. -/
theorem C90_simple_partial (d : PyVal V) (hp : Spec.Proper d) (hk : Spec.Keys Spec.AfterSlash d) :
    ∃ sent py r, simpleSend d = some (sent, py) ∧ simpleReceive d py sent = some r ∧ Spec.Same r d ∧
      ∀ key f, Spec.at' sent [key] = some f ↔ (∃ v, f = .tf v) ∧ Spec.at' d.flatDict [key] = some f := by
  have hitems := Aux.flatDict_eq hk
  have hnd := Aux.items_nodup hk
  have hval := Aux.ofItems_val hnd
  set items := Aux.items d with hi
  set keys := items.map Prod.fst with hkeys
  set val : String → PyVal V := fun k => (items.lookup k).getD .missing with hv
  have hflat : d.flatDict = .dict keys val := hitems
  have hleaf : ∀ k ∈ keys, (val k).isDict = false := by
    intro k hkm
    obtain ⟨p, hpm, rfl⟩ := List.mem_map.1 hkm
    rw [hv]
    dsimp only
    rw [hval p hpm]
    exact Aux.items_leaf p hpm
  have hsplit : d.flatDict.splitDict = some d.flatDict.split := by
    rw [hflat]; rfl
  obtain ⟨r, h1, h2, -⟩ := Aux.packSequence d hp (Aux.keys_true hk)
  refine ⟨d.flatDict.split.2, d.flatDict.split.1, r, ?_, ?_, h2, ?_⟩
  · unfold simpleSend
    rw [hsplit]
    rfl
  · unfold simpleReceive
    -- the merged dictionary
    have hm : ∃ mk mv, d.flatDict.split.2.merge d.flatDict.split.1 = some (.dict mk mv) ∧ mk.Perm keys ∧
        ∀ k ∈ keys, mv k = val k := by
      rw [hflat]
      simp only [split]
      have f1 : keys.filter (fun k => (val k).isDict || !(val k).isTf) = keys.filter fun k => !(val k).isTf := by
        apply List.filter_congr
        intro k hkm
        rw [hleaf k hkm, Bool.false_or]
      have f2 : keys.filter (fun k => (val k).isDict || (val k).isTf) = keys.filter fun k => (val k).isTf := by
        apply List.filter_congr
        intro k hkm
        rw [hleaf k hkm, Bool.false_or]
      have g1 : ∀ k ∈ keys, (if (val k).isDict = true then (val k).split.1 else val k) = val k := by
        intro k hkm; rw [hleaf k hkm]; rfl
      have g2 : ∀ k ∈ keys, (if (val k).isDict = true then (val k).split.2 else val k) = val k := by
        intro k hkm; rw [hleaf k hkm]; rfl
      rw [f1, f2, merge, if_pos, if_pos]
      · refine ⟨_, _, rfl, ?_, ?_⟩
        · have : (keys.filter fun k => !(val k).isTf).filter
              (fun k => !(if (val k).isDict = true then (val k).split.1 else val k).isDict) =
              keys.filter fun k => !(val k).isTf := by
            rw [List.filter_eq_self]
            intro k hkm
            have hkm := (List.mem_filter.1 hkm).1
            rw [g1 k hkm, hleaf k hkm]
            rfl
          rw [this]
          exact List.filter_append_perm _ _
        · intro k hkm
          simp only [g1 k hkm, g2 k hkm, hleaf k hkm, Bool.false_eq_true, if_false, ite_self]
      · rw [List.all_eq_true]
        intro k hkm
        obtain ⟨hkm, hb⟩ := List.mem_filter.1 hkm
        rw [g1 k hkm, hleaf k hkm]
        simp only [Bool.false_eq_true, if_false, Bool.not_eq_true', decide_eq_false_iff_not]
        intro hc
        rw [(List.mem_filter.1 hc).2] at hb
        cases hb
      · rw [List.all_eq_true]
        intro k hkm
        have hkm := (List.mem_filter.1 hkm).1
        rw [g2 k hkm, hleaf k hkm]
        rfl
    obtain ⟨mk, mv, e1, e2, e3⟩ := hm
    rw [e1, Option.bind_some]
    rw [Aux.leaves_flat (Aux.items_lt hk) Aux.items_leaf e2
      (fun p hpm => (e3 p.1 (List.mem_map_of_mem hpm)).trans (hval p hpm))]
    have : (Aux.items d).map Prod.snd = d.leaves := by simp [Aux.items, leaves]
    rw [this, h1]
  · intro key f
    have hsp := (C41_split d.flatDict d.flatDict.split.1 d.flatDict.split.2 hsplit [key])
    have hfl := (C90_flat_partial d hp hk).2.1 key
    constructor
    · intro h
      cases f with
      | py v => exact absurd h (hsp.2.2.2.1 v)
      | tf v => exact ⟨⟨v, rfl⟩, (hsp.2.1 v).1 h⟩
      | dict => exact absurd rfl (hfl _ (hsp.2.2.2.2.2.1 h)).1
    · rintro ⟨⟨v, rfl⟩, h⟩
      exact (hsp.2.1 v).2 h

theorem Aux.split_keys {good : String → Prop} (d : PyVal V) (h : Spec.Keys good d) :
    Spec.Keys good d.split.1 ∧ Spec.Keys good d.split.2 := by
  induction d with
  | dict keys val ih =>
    obtain ⟨hn, hk⟩ := h
    constructor <;>
    · refine ⟨hn.filter _, fun k hkm => ?_⟩
      have hkm := (List.mem_filter.1 hkm).1
      refine ⟨(hk k hkm).1, ?_⟩
      dsimp only
      split_ifs
      · first | exact (ih k (hk k hkm).2).1 | exact (ih k (hk k hkm).2).2
      · exact (hk k hkm).2
  | _ => exact ⟨h, h⟩

/-- **C90 (GatherEncoder).** What `encode` returns is restored by `decode_before_sum`, together with the Python values. -/
theorem C90_gather_partial (d : PyVal V) (hroot : Spec.at' d [] = some .dict) (hp : Spec.Proper d)
    (hk : Spec.Keys Spec.AfterSlash d) :
    ∃ sent str py r, gatherSend d = some (sent, str, py) ∧ gatherReceive str py sent = some r ∧ Spec.Same r d := by
  have hd := Aux.at_nil_dict.1 hroot
  have hsplit : d.splitDict = some d.split := if_pos hd
  obtain ⟨hk1, hk2⟩ := Aux.split_keys d hk
  obtain ⟨hp1, hp2⟩ := Aux.split_proper d hp
  obtain ⟨t, h1, h2, h3⟩ := Aux.packSequence d.split.2 hp2 (Aux.keys_true hk2)
  have hs := C41_split d d.split.1 d.split.2 hsplit
  have hat := Aux.split_at d hd
  obtain ⟨hc, hm⟩ := C41_merge t d.split.1 (by rw [h2]; exact (hs []).2.2.2.2.2.2 hroot) ((hs []).2.2.2.2.1.2 hroot) h3 hp1
  have hcor : Spec.Corresponding t d.split.1 := by
    intro path
    obtain ⟨a1, a2⟩ := hat path
    rw [h2 path, a1, a2]
    cases Spec.at' d path with
    | none => simp
    | some f => cases f <;> simp [Option.filter]
  obtain ⟨m, hm'⟩ := Option.isSome_iff_exists.1 (hc.2 hcor)
  refine ⟨d.split.2.flatDict, d.split.2, d.split.1, m, ?_, ?_, ?_⟩
  · unfold gatherSend
    rw [hsplit]
    rfl
  · unfold gatherReceive
    rw [Aux.leaves_flatDict hk2, h1, Option.bind_some]
    exact hm'
  · intro path
    rw [hm m hm' path, h2 path, (hat path).1, (hat path).2]
    cases Spec.at' d path with
    | none => simp
    | some f => cases f <;> simp [Option.filter]

/-- **C90 (identifiers).** Keys made of letters, digits and underscores are fine; those of all shipped stages are such. -/
theorem C90_identifiers (k : String) (h : ∀ c ∈ k.toList, c.isAlphanum = true ∨ c = '_') : Spec.AfterSlash k := by
  intro c hc
  rcases h c hc with h | rfl
  · simp only [Char.isAlphanum, Char.isAlpha, Char.isUpper, Char.isLower, Char.isDigit, Bool.or_eq_true,
      Bool.and_eq_true, decide_eq_true_eq] at h
    rw [Char.lt_def]
    rcases h with (h | h) | h
    all_goals
      have := h.1
      simp only [ge_iff_le, UInt32.le_iff_toNat_le, UInt32.lt_iff_toNat_lt] at this ⊢
      refine lt_of_lt_of_le ?_ this
      decide
  · decide

/-! ### Keys with other characters -/

/-- A dictionary with two tensors: one at `x`, `y` and one at the key `k`. -/
def Example.twoTensors (k : String) (a b : V) : PyVal V :=
  ofItems [("x", ofItems [("y", .tf a)]), (k, .tf b)]

theorem Aux.exchanged (k : String) (h1 : "x" < k) (h2 : k < "x/y") (a b : V) :
    let d := Example.twoTensors k a b
    (∃ sent py r, simpleSend d = some (sent, py) ∧ simpleReceive d py sent = some r ∧
      Spec.at' r ["x", "y"] = some (.tf b) ∧ Spec.at' r [k] = some (.tf a)) ∧
    ∃ sent str py r, gatherSend d = some (sent, str, py) ∧ gatherReceive str py sent = some r ∧
      Spec.at' r ["x", "y"] = some (.tf b) ∧ Spec.at' r [k] = some (.tf a) := by
  intro d
  have n1 : k ≠ "x" := h1.ne'
  have n2 : k ≠ "x/y" := h2.ne
  have n3 : "x" ≠ k := h1.ne
  have n4 : "x/y" ≠ k := h2.ne'
  have b1 : (k == "x") = false := (beq_eq_false_iff_ne).2 n1
  have b2 : (k == "x/y") = false := (beq_eq_false_iff_ne).2 n2
  have b3 : ("x" == k) = false := (beq_eq_false_iff_ne).2 n3
  have b4 : ("x/y" == k) = false := (beq_eq_false_iff_ne).2 n4
  have hj : joinPath ["x", "y"] = "x/y" := rfl
  have hj1 : joinPath [k] = k := rfl
  have hs : sortKeys ["x", k] = ["x", k] := by simp [sortKeys, List.orderedInsert, h1.le]
  have hs' : sortKeys ["x/y", k] = [k, "x/y"] := by simp [sortKeys, List.orderedInsert, not_le.2 h2]
  have hs1 : sortKeys ["y"] = ["y"] := rfl
  have hfl : d.flattenWithPath = [(["x", "y"], .tf a), ([k], .tf b)] := by
    simp [d, Example.twoTensors, ofItems, flattenWithPath, hs, hs1, b1, List.lookup]
  have hflat : d.flatDict = ofItems [("x/y", .tf a), (k, .tf b)] := by
    simp [flatDict, hfl, hj, hj1, setKey, n2]
  refine ⟨?_, ?_⟩
  · have hsend : simpleSend d = some (d.flatDict.split.2, d.flatDict.split.1) := by
      unfold simpleSend
      rw [hflat]; rfl
    refine ⟨_, _, Example.twoTensors k b a, hsend, ?_, ?_, ?_⟩
    · unfold simpleReceive
      rw [hflat]
      simp [ofItems, split, List.lookup, isDict, isTf, b2, merge, leaves, flattenWithPath, hs', d, Example.twoTensors,
        packSequenceAs, packFrom, hs, hs1, packKeys, b1]
    · simp [Spec.at', Example.twoTensors, ofItems]
    · simp [Spec.at', Example.twoTensors, ofItems, List.lookup, b1]
  · have hsp : d.split.2 = d := by
      simp only [d, Example.twoTensors, ofItems, split, List.map_cons, List.map_nil]
      congr 1
      · simp [List.lookup, b1, isDict, isTf]
      · funext q
        by_cases q1 : q = "x"
        · subst q1
          simp only [List.lookup, BEq.rfl, Option.getD_some, isDict, if_true, split]
          congr 1
          funext q
          by_cases q2 : q = "y"
          · subst q2; simp [isDict]
          · simp [List.lookup, (beq_eq_false_iff_ne).2 q2, isDict]
        · by_cases q2 : q = k
          · subst q2; simp [List.lookup, b1, isDict]
          · simp [List.lookup, (beq_eq_false_iff_ne).2 q1, (beq_eq_false_iff_ne).2 q2, isDict]
    have hsend : gatherSend d = some (d.flatDict, d, d.split.1) := by
      have : d.splitDict = some (d.split.1, d.split.2) := rfl
      unfold gatherSend
      rw [this, Option.map_some, hsp]
    have hlv : d.flatDict.leaves = [.tf b, .tf a] := by
      rw [hflat]
      simp [ofItems, List.lookup, b2, leaves, flattenWithPath, hs']
    have hpk : d.packSequenceAs d.flatDict.leaves = some (Example.twoTensors k b a) := by
      rw [hlv]
      simp [ofItems, List.lookup, d, Example.twoTensors, packSequenceAs, packFrom, hs, hs1, packKeys, b1]
    have hmerge : ∃ r, (Example.twoTensors k b a).merge d.split.1 = some r ∧
        Spec.at' r ["x", "y"] = some (.tf b) ∧ Spec.at' r [k] = some (.tf a) := by
      simp [d, Example.twoTensors, ofItems, split, merge, List.lookup, b1, isDict, isTf, Spec.at', n1]
    obtain ⟨r, hr, hat⟩ := hmerge
    refine ⟨_, _, _, r, hsend, ?_, hat⟩
    unfold gatherReceive
    rw [hpk]
    exact hr

/-- C90 fails for every character before `/`, such as `-`, `.` or a space: with the keys `x` and `xc`, the tensors at
`x`, `y` and at `xc` are exchanged, without any error. -/
theorem C90_order_violated (c : Char) (hc : c < '/') (a b : V) :
    let d := Example.twoTensors (String.ofList ['x', c]) a b
    (∃ sent py r, simpleSend d = some (sent, py) ∧ simpleReceive d py sent = some r ∧
      Spec.at' r ["x", "y"] = some (.tf b) ∧ Spec.at' r [String.ofList ['x', c]] = some (.tf a)) ∧
    ∃ sent str py r, gatherSend d = some (sent, str, py) ∧ gatherReceive str py sent = some r ∧
      Spec.at' r ["x", "y"] = some (.tf b) ∧ Spec.at' r [String.ofList ['x', c]] = some (.tf a) := by
  apply Aux.exchanged
  · rw [String.lt_iff_toList_lt, String.toList_ofList (l := ['x', c])]
    exact List.Lex.cons List.Lex.nil
  · rw [String.lt_iff_toList_lt, String.toList_ofList]
    exact List.Lex.cons (List.Lex.rel hc)

/-- C90 fails for keys with `/`: two tensors get the same joined path, and decoding is a `ValueError`. -/
theorem C90_slash_violated (a b : V) :
    let d := Example.twoTensors "x/y" a b
    (∃ sent py, simpleSend d = some (sent, py) ∧ simpleReceive d py sent = none) ∧
    ∃ sent str py, gatherSend d = some (sent, str, py) ∧ gatherReceive str py sent = none := by
  intro d
  have hj : joinPath ["x", "y"] = "x/y" := rfl
  have hj1 : joinPath ["x/y"] = "x/y" := rfl
  have hs : sortKeys ["x", "x/y"] = ["x", "x/y"] := by decide +kernel
  have hs1 : sortKeys ["y"] = ["y"] := rfl
  have hs2 : sortKeys ["x/y"] = ["x/y"] := rfl
  have hfl : d.flattenWithPath = [(["x", "y"], .tf a), (["x/y"], .tf b)] := by
    simp [d, Example.twoTensors, ofItems, flattenWithPath, hs, hs1, List.lookup]
  have hflat : d.flatDict = ofItems [("x/y", .tf b)] := by
    simp [flatDict, hfl, hj, hj1, setKey]
  refine ⟨⟨_, _, rfl, ?_⟩, _, _, _, rfl, ?_⟩
  · change simpleReceive d d.flatDict.split.1 d.flatDict.split.2 = none
    unfold simpleReceive
    rw [hflat]
    simp [ofItems, split, List.lookup, isDict, isTf, merge, leaves, flattenWithPath, d, Example.twoTensors,
        packSequenceAs, packFrom, hs, hs1, hs2, packKeys]
  · change gatherReceive d.split.2 d.split.1 d.split.2.flatDict = none
    have hsp : d.split.2 = d := by
      simp only [d, Example.twoTensors, ofItems, split, List.map_cons, List.map_nil]
      congr 1
      · funext q
        by_cases q1 : q = "x"
        · subst q1
          simp only [List.lookup, BEq.rfl, Option.getD_some, isDict, if_true, split]
          congr 1
          funext q
          by_cases q2 : q = "y"
          · subst q2; simp [isDict]
          · simp [List.lookup, (beq_eq_false_iff_ne).2 q2, isDict]
        · by_cases q2 : q = "x/y"
          · subst q2; simp [List.lookup, isDict]
          · simp [List.lookup, (beq_eq_false_iff_ne).2 q1, (beq_eq_false_iff_ne).2 q2, isDict]
    unfold gatherReceive
    rw [hsp, hflat]
    simp [ofItems, List.lookup, leaves, flattenWithPath, d, Example.twoTensors, packSequenceAs, packFrom, hs, hs1, hs2,
      packKeys]

/-- The hypotheses are met: an encoding made of a tensor, a nested tensor and a Python value. -/
example : ∃ d : PyVal ℕ, Spec.at' d [] = some .dict ∧ Spec.Proper d ∧ Spec.Keys Spec.AfterSlash d ∧
    Spec.at' d ["tensors", "values"] = some (.tf 1) ∧ Spec.at' d ["params"] = some (.py 2) := by
  refine ⟨.dict ["tensors", "params"] fun k => if k = "tensors" then .dict ["values"] fun _ => .tf 1 else .py 2, rfl, ?_,
    ?_, by simp [Spec.at'], by simp [Spec.at']⟩
  · intro k hk
    simp only [List.mem_cons, List.not_mem_nil, or_false] at hk
    rcases hk with rfl | rfl
    · intro k hk; trivial
    · trivial
  · refine ⟨by decide, ?_⟩
    intro k hk
    simp only [List.mem_cons, List.not_mem_nil, or_false] at hk
    rcases hk with rfl | rfl
    · refine ⟨C90_identifiers _ (by decide), by decide, ?_⟩
      intro k hk
      rw [List.mem_singleton] at hk
      subst hk
      exact ⟨C90_identifiers _ (by decide), trivial⟩
    · exact ⟨C90_identifiers _ (by decide), trivial⟩

end Verif.Props
