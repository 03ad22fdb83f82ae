import Verif.Compression.Attributes

/-!
# C105: a compressed layer computes with the projected weights, and only its weights are replaced

Where the English property fails in the code, the theorems named `..._violated` say how.
-/
set_option linter.unusedSectionVars false
namespace Verif.Props
open Verif.Compression

variable {V : Type}

namespace Spec

/-- The layer without any wrapper: every statement of `build` stores a variable. -/
def attrPlainLayer (src : LayerSrc V) : Attrs V :=
  src.assigns.zipIdx.map (fun e => (e.1.1, .stored (.variable e.2))) ++ src.others

/-- In the original layer the attribute `attr` is the compressible weight `n`. -/
def IsWeight (src : LayerSrc V) (compressible : List String) (attr n : String) : Prop :=
  ∃ c, (attr, c) ∈ src.assigns ∧ c.name = some n ∧ n ∈ compressible

/-- An ordinary layer: attributes are different, compressible weights have different names, a shape,
and are all there. -/
structure Ordinary (src : LayerSrc V) (compressible : List String) : Prop where
  attrs : ((attrPlainLayer src).map (·.1)).Nodup
  names : ∀ i j : Nat, ∀ a b n, src.assigns[i]? = some a → src.assigns[j]? = some b →
    n ∈ compressible → a.2.name = some n → b.2.name = some n → i = j
  shapes : ∀ e ∈ src.assigns, ∀ n ∈ compressible, e.2.name = some n → e.2.shape ≠ none
  all : ∀ n ∈ compressible, ∃ attr, IsWeight src compressible attr n
  others : ∀ a v, (a, Attr.stored v) ∈ src.others → v = .other

/-- Whenever an attribute cannot be read, the attribute that was last read before it, in the order of
`dir`, is not a compressible weight. -/
def NoStale (src : LayerSrc V) (compressible : List String) : Prop :=
  ∀ pre b post, dirNames (attrPlainLayer src) = pre ++ b :: post → getAttr (attrPlainLayer src) b = none →
    ∃ a, (pre.filter fun x => (getAttr (attrPlainLayer src) x).isSome).getLast? = some a ∧
      ∀ n, ¬ IsWeight src compressible a n

/-- No property returns a compressible weight. -/
def NoAlias (src : LayerSrc V) (compressible : List String) : Prop :=
  ∀ p t, (p, Attr.property (some t)) ∈ src.others → ∀ n, ¬ IsWeight src compressible t n

/-- The attributes that the layer computes with: compressible weights are replaced, everything else
is as in the layer without a wrapper. -/
def Substituted (src : LayerSrc V) (compressible : List String) (value : String → V)
    (as : Attrs V) : Prop :=
  ∀ attr, (∀ n, IsWeight src compressible attr n →
      getAttr as attr = some (.computed (value n))) ∧
    ((∀ n, ¬ IsWeight src compressible attr n) →
      getAttr as attr = getAttr (attrPlainLayer src) attr)

/-- Any number of calls, one after the other: the layer object keeps its attributes. -/
def trainingCalls : List (String → V) → TrainingLayer V → Except AttrErr (TrainingLayer V)
  | [], l => .ok l
  | v :: vs, l =>
    match callTraining v l with
    | .error e => .error e
    | .ok as => trainingCalls vs { l with attrs := as }

/-- The same for the inference wrapper. -/
def inferenceCalls (names : List String) : List (String → V) → Attrs V → Except AttrErr (Attrs V)
  | [], as => .ok as
  | v :: vs, as =>
    match callInference v names as with
    | .error e => .error e
    | .ok as' => inferenceCalls names vs as'

end Spec

namespace Aux

theorem lookup_setmap (as : Attrs V) (name : String) (x : Attr V) (a : String)
    (h : (as.lookup name).isSome) :
    (as.map fun e => if e.1 = name then (name, x) else e).lookup a =
      if a = name then some x else as.lookup a := by
  induction as with
  | nil => simp at h
  | cons e rest ih =>
    obtain ⟨k, v⟩ := e
    by_cases hk : k = name
    · subst hk
      by_cases ha : a = k
      · subst ha; simp [List.lookup_cons]
      · have hb : (a == k) = false := by simpa using ha
        simp only [List.map_cons, if_true, List.lookup_cons, hb, if_neg ha]
        by_cases hr : (rest.lookup k).isSome
        · rw [ih hr, if_neg ha]
        · clear ih
          have hnone : ∀ e ∈ rest, e.1 ≠ k := by
            intro e he hek
            apply hr
            rw [← hek]
            exact List.lookup_isSome_iff.2 ⟨e, he, by simp⟩
          congr 1
          conv_rhs => rw [← List.map_id rest]
          apply List.map_congr_left
          intro e he
          simp [hnone e he]
    · have hb : (name == k) = false := by simpa using Ne.symm hk
      rw [List.lookup_cons, hb] at h
      simp only [List.map_cons, if_neg hk, List.lookup_cons]
      rw [ih h]
      by_cases ha : a = name
      · subst ha; simp [hb]
      · simp [ha]

theorem setAll_spec (value : String → V) (m : List (String × String)) :
    ∀ as : Attrs V, (m.map (·.1)).Nodup →
      (∀ e ∈ m, ∃ v, as.lookup e.1 = some (.stored v)) →
      ∃ as', setAll value m as = .ok as' ∧
        ∀ a, (∀ n, (a, n) ∈ m → as'.lookup a = some (.stored (.computed (value n)))) ∧
          (a ∉ m.map (·.1) → as'.lookup a = as.lookup a) := by
  induction m with
  | nil =>
    intro as _ _
    exact ⟨as, rfl, fun a => ⟨by simp, fun _ => rfl⟩⟩
  | cons e rest ih =>
    intro as hnd hst
    obtain ⟨attr, n⟩ := e
    obtain ⟨v, hv⟩ := hst (attr, n) (by simp)
    dsimp only at hv
    simp only [List.map_cons, List.nodup_cons] at hnd
    have hs : setStored as attr (.computed (value n)) =
        .ok (as.map fun e => if e.1 = attr then (attr, .stored (.computed (value n))) else e) := by
      unfold setStored; rw [hv]
    have hl := fun a => lookup_setmap as attr (.stored (.computed (value n))) a (by simp [hv])
    obtain ⟨as', h1, h2⟩ := ih
      (as.map fun e => if e.1 = attr then (attr, .stored (.computed (value n))) else e) hnd.2 (by
        intro e he
        rw [hl]
        have hne : e.1 ≠ attr := fun h => hnd.1 (h ▸ List.mem_map_of_mem he)
        rw [if_neg hne]
        exact hst e (by simp [he]))
    refine ⟨as', ?_, fun a => ⟨fun n' hmem => ?_, fun hnot => ?_⟩⟩
    · simp only [setAll, hs, h1]
    · rcases List.mem_cons.1 hmem with h | h
      · cases h
        rw [(h2 attr).2 hnd.1, hl, if_pos rfl]
      · exact (h2 a).1 n' h
    · simp only [List.map_cons, List.mem_cons, not_or] at hnot
      rw [(h2 a).2 hnot.2, hl, if_neg hnot.1]

/-- Whether the call is intercepted. -/
def hit (compressible : List String) (c : AddWeight) : Bool :=
  match c.name with
  | some n => decide (n ∈ compressible)
  | none => false

theorem hit_iff (comp : List String) (c : AddWeight) :
    hit comp c = true ↔ ∃ n, c.name = some n ∧ n ∈ comp := by
  unfold hit
  cases h : c.name with
  | none => simp
  | some n => simp

theorem runBuild_spec (comp : List String) (assigns : List (String × AddWeight)) :
    ∀ (k : Nat) (d : List (String × Nat)),
      (∀ i j : Nat, ∀ a b n, assigns[i]? = some a → assigns[j]? = some b →
        n ∈ comp → a.2.name = some n → b.2.name = some n → i = j) →
      (∀ e ∈ assigns, ∀ n ∈ comp, e.2.name = some n → e.2.shape ≠ none) →
      (∀ e ∈ d, ∀ a ∈ assigns, a.2.name ≠ some e.1) →
      ∃ d', runBuild (V := V) comp assigns k d = .ok
          ((assigns.zipIdx k).map (fun e => (e.1.1, .stored
            (if hit comp e.1.2 then .zeros e.2 else .variable e.2))), d') ∧
        ∀ n j, (n, j) ∈ d' ↔ (n, j) ∈ d ∨ ∃ (i : Nat) (a : String × AddWeight),
          assigns[i]? = some a ∧ a.2.name = some n ∧ n ∈ comp ∧ j = k + i := by
  induction assigns with
  | nil =>
    intro k d _ _ _
    exact ⟨d, rfl, fun n j => by simp⟩
  | cons e rest ih =>
    intro k d huniq hshape hdis
    obtain ⟨attr, c⟩ := e
    have hur : ∀ i j : Nat, ∀ a b n, rest[i]? = some a → rest[j]? = some b →
        n ∈ comp → a.2.name = some n → b.2.name = some n → i = j := by
      intro i j a b n h1 h2 h3 h4 h5
      have := huniq (i+1) (j+1) a b n (by simpa using h1) (by simpa using h2) h3 h4 h5
      omega
    have hsr : ∀ e ∈ rest, ∀ n ∈ comp, e.2.name = some n → e.2.shape ≠ none :=
      fun e he => hshape e (by simp [he])
    have hdr : ∀ e ∈ d, ∀ a ∈ rest, a.2.name ≠ some e.1 :=
      fun e he a ha => hdis e he a (by simp [ha])
    by_cases hh : hit comp c = true
    · obtain ⟨n, hn, hc⟩ := (hit_iff comp c).1 hh
      have hsh := hshape (attr, c) (by simp) n hc hn
      obtain ⟨s, hs⟩ := Option.ne_none_iff_exists'.1 hsh
      dsimp only at hs
      have hfil : d.filter (fun e => decide (e.1 ≠ n)) = d := by
        apply List.filter_eq_self.2
        intro e he
        have := hdis e he (attr, c) (by simp)
        dsimp only at this
        rw [hn] at this
        simpa using fun h => this (by rw [h])
      have hsk : skipWeight (V := V) comp d k c = .ok (.zeros k, (n, k) :: d) := by
        unfold skipWeight
        rw [hn]
        dsimp only
        rw [if_pos hc, hs]
        dsimp only [setDummy]
        rw [hfil]
      obtain ⟨d', h1, h2⟩ := ih (k+1) ((n, k) :: d) hur hsr (by
        intro e he a ha
        rcases List.mem_cons.1 he with h | h
        · subst h
          intro h3
          obtain ⟨i, hi⟩ := List.mem_iff_getElem?.1 ha
          have := huniq 0 (i+1) (attr, c) a n (by simp) (by simpa using hi) hc hn h3
          omega
        · exact hdr e h a ha)
      refine ⟨d', ?_, ?_⟩
      · simp only [runBuild, hsk, h1, List.zipIdx_cons, List.map_cons, hh, if_true]
      · intro n' j
        rw [h2]
        constructor
        · rintro (h | ⟨i, a, hi, ha, hcm, rfl⟩)
          · rcases List.mem_cons.1 h with h | h
            · cases h
              exact Or.inr ⟨0, (attr, c), by simp, hn, hc, by simp⟩
            · exact Or.inl h
          · exact Or.inr ⟨i+1, a, by simpa using hi, ha, hcm, by omega⟩
        · rintro (h | ⟨i, a, hi, ha, hcm, rfl⟩)
          · exact Or.inl (by simp [h])
          · cases i with
            | zero =>
              simp only [List.getElem?_cons_zero, Option.some.injEq] at hi
              subst hi
              rw [hn] at ha
              cases ha
              exact Or.inl (by simp)
            | succ i =>
              exact Or.inr ⟨i, a, by simpa using hi, ha, hcm, by omega⟩
    · have hno : ∀ n, c.name = some n → n ∉ comp := fun n hn hc => hh ((hit_iff comp c).2 ⟨n, hn, hc⟩)
      have hsk : skipWeight (V := V) comp d k c = .ok (.variable k, d) := by
        unfold skipWeight
        cases hn : c.name with
        | none => rfl
        | some n => dsimp only; rw [if_neg (hno n hn)]
      obtain ⟨d', h1, h2⟩ := ih (k+1) d hur hsr hdr
      refine ⟨d', ?_, ?_⟩
      · simp only [runBuild, hsk, h1, List.zipIdx_cons, List.map_cons, if_neg hh]
      · intro n' j
        rw [h2]
        constructor
        · rintro (h | ⟨i, a, hi, ha, hcm, rfl⟩)
          · exact Or.inl h
          · exact Or.inr ⟨i+1, a, by simpa using hi, ha, hcm, by omega⟩
        · rintro (h | ⟨i, a, hi, ha, hcm, rfl⟩)
          · exact Or.inl h
          · cases i with
            | zero =>
              simp only [List.getElem?_cons_zero, Option.some.injEq] at hi
              subst hi
              exact absurd hcm (hno n' ha)
            | succ i =>
              exact Or.inr ⟨i, a, by simpa using hi, ha, hcm, by omega⟩

theorem attrNameMap_spec (B : Attrs V) (d : List (String × Nat)) (init : Option (Option String))
    (list : List String) : ∀ (done : List String) (stale : Option (Option String)),
      (∀ a, (done.filter fun x => (getAttr B x).isSome).getLast? = some a →
        stale = some ((getAttr B a).bind (nameByTensor d))) →
      (∀ pre b post, done ++ list = pre ++ b :: post → getAttr B b = none →
        ∃ a, (pre.filter fun x => (getAttr B x).isSome).getLast? = some a ∧
          (getAttr B a).bind (nameByTensor d) = none) →
      ∃ m, attrNameMap B d list stale = .ok m ∧
        (∀ a n, (a, n) ∈ m ↔ a ∈ list ∧ (getAttr B a).bind (nameByTensor d) = some n) ∧
        (m.map (·.1)).Sublist list := by
  induction list with
  | nil =>
    intro done stale _ _
    exact ⟨[], rfl, by simp, by simp⟩
  | cons attr rest ih =>
    intro done stale hst H
    cases hg : getAttr B attr with
    | some v =>
      obtain ⟨m, h1, h2, h3⟩ := ih (done ++ [attr]) (some (nameByTensor d v)) (by
        intro a ha
        rw [List.filter_append] at ha
        simp only [List.filter_cons, hg, Option.isSome_some, if_true, List.filter_nil,
          List.getLast?_append, List.getLast?_singleton, Option.some_or, Option.some.injEq] at ha
        subst ha
        rw [hg]; rfl) (by
        intro pre b post h
        exact H pre b post (by simpa using h))
      cases hn : nameByTensor d v with
      | none =>
        refine ⟨m, ?_, ?_, h3.trans (List.sublist_cons_self _ _)⟩
        · simp only [attrNameMap, hg, hn]
          rw [hn] at h1
          exact h1
        · intro a n
          rw [h2]
          constructor
          · rintro ⟨h, h'⟩; exact ⟨by simp [h], h'⟩
          · rintro ⟨h, h'⟩
            rcases List.mem_cons.1 h with h | h
            · subst h; rw [hg] at h'; simp [hn] at h'
            · exact ⟨h, h'⟩
      | some n =>
        refine ⟨(attr, n) :: m, ?_, ?_, ?_⟩
        · rw [hn] at h1
          simp only [attrNameMap, hg, hn, h1]
        · intro a n'
          rw [List.mem_cons, h2]
          constructor
          · rintro (h | ⟨h, h'⟩)
            · cases h
              exact ⟨by simp, by rw [hg]; exact hn⟩
            · exact ⟨by simp [h], h'⟩
          · rintro ⟨h, h'⟩
            rcases List.mem_cons.1 h with h | h
            · subst h
              rw [hg] at h'
              have : n = n' := by
                have h'' : nameByTensor d v = some n' := h'
                rw [hn] at h''
                exact Option.some.inj h''
              exact Or.inl (by rw [this])
            · exact Or.inr ⟨h, h'⟩
        · simpa using h3
    | none =>
      obtain ⟨a, ha, hna⟩ := H done attr rest rfl hg
      have hs : stale = some none := by rw [hst a ha, hna]
      obtain ⟨m, h1, h2, h3⟩ := ih (done ++ [attr]) (some none) (by
        intro a' ha'
        rw [List.filter_append] at ha'
        simp only [List.filter_cons, hg, Option.isSome_none, Bool.false_eq_true, if_false,
          List.filter_nil, List.append_nil] at ha'
        rw [ha] at ha'
        cases ha'
        rw [hna]) (by
        intro pre b post h
        exact H pre b post (by simpa using h))
      refine ⟨m, ?_, ?_, h3.trans (List.sublist_cons_self _ _)⟩
      · simp only [attrNameMap, hg, hs]
        exact h1
      · intro a' n
        rw [h2]
        constructor
        · rintro ⟨h, h'⟩; exact ⟨by simp [h], h'⟩
        · rintro ⟨h, h'⟩
          rcases List.mem_cons.1 h with h | h
          · subst h; rw [hg] at h'; simp at h'
          · exact ⟨h, h'⟩

theorem lookup_mem_nodup {β : Type} {l : List (String × β)} (h : (l.map (·.1)).Nodup) {a : String}
    {x : β} (hm : (a, x) ∈ l) : l.lookup a = some x := by
  induction l with
  | nil => simp at hm
  | cons e rest ih =>
    obtain ⟨k, v⟩ := e
    simp only [List.map_cons, List.nodup_cons] at h
    rcases List.mem_cons.1 hm with h' | h'
    · cases h'; simp
    · have hne : a ≠ k := by
        rintro rfl
        exact h.1 (List.mem_map_of_mem (f := (·.1)) h')
      have hb : (a == k) = false := by simpa using hne
      rw [List.lookup_cons, hb]
      exact ih h.2 h'

theorem lookup_none_keys {β : Type} {l : List (String × β)} {a : String} (h : a ∉ l.map (·.1)) :
    l.lookup a = none := by
  cases hl : l.lookup a with
  | none => rfl
  | some x =>
    exfalso
    have : (l.lookup a).isSome := by simp [hl]
    obtain ⟨e, he, hk⟩ := List.lookup_isSome_iff.1 this
    apply h
    have : a = e.1 := by simpa using hk
    rw [this]
    exact List.mem_map_of_mem he

/-- The attributes after the build in a wrapper. -/
def builtAttrs (comp : List String) (src : LayerSrc V) : Attrs V :=
  (src.assigns.zipIdx.map fun e => (e.1.1, .stored
    (if hit comp e.1.2 then .zeros e.2 else .variable e.2))) ++ src.others

theorem builtAttrs_keys (comp : List String) (src : LayerSrc V) :
    (builtAttrs comp src).map (·.1) = (Spec.attrPlainLayer src).map (·.1) := by
  simp [builtAttrs, Spec.attrPlainLayer, Function.comp_def]

/-- `d` names the dummy tensors correctly. -/
def Named (comp : List String) (src : LayerSrc V) (d : List (String × Nat)) : Prop :=
  ∀ n j, (n, j) ∈ d ↔ ∃ a : String × AddWeight,
    src.assigns[j]? = some a ∧ a.2.name = some n ∧ n ∈ comp

theorem built_weight {comp : List String} {src : LayerSrc V} {d : List (String × Nat)}
    (ho : Spec.Ordinary src comp) (hd : Named comp src d) {attr n : String}
    (h : Spec.IsWeight src comp attr n) :
    ∃ k, (builtAttrs comp src).lookup attr = some (.stored (.zeros k)) ∧
      nameByTensor (V := V) d (.zeros k) = some n ∧
      (Spec.attrPlainLayer src).lookup attr = some (.stored (.variable k)) := by
  obtain ⟨c, hc, hn, hcm⟩ := h
  obtain ⟨k, hk⟩ := List.mem_iff_getElem?.1 hc
  have hz : ((attr, c), k) ∈ src.assigns.zipIdx := List.mem_zipIdx_iff_getElem?.2 hk
  have hh : hit comp c = true := (hit_iff comp c).2 ⟨n, hn, hcm⟩
  refine ⟨k, ?_, ?_, ?_⟩
  · apply lookup_mem_nodup
    · rw [builtAttrs_keys]; exact ho.attrs
    · refine List.mem_append_left _ (List.mem_map.2 ⟨_, hz, ?_⟩)
      simp [hh]
  · unfold nameByTensor
    cases hf : d.find? (fun e => decide (e.2 = k)) with
    | none =>
      exfalso
      have := List.find?_eq_none.1 hf (n, k) ((hd n k).2 ⟨_, hk, hn, hcm⟩)
      simp at this
    | some e =>
      obtain ⟨n', j⟩ := e
      have hj := List.find?_some hf
      simp only [decide_eq_true_eq] at hj
      subst hj
      obtain ⟨a, ha, han, _⟩ := (hd n' j).1 (List.mem_of_find?_eq_some hf)
      rw [hk] at ha
      cases ha
      dsimp only at han
      rw [hn] at han
      cases han
      dsimp only
      rw [hf]
      rfl
  · apply lookup_mem_nodup ho.attrs
    exact List.mem_append_left _ (List.mem_map.2 ⟨_, hz, rfl⟩)

theorem built_other {comp : List String} {src : LayerSrc V} {d : List (String × Nat)}
    (ho : Spec.Ordinary src comp) {attr : String}
    (h : ∀ n, ¬ Spec.IsWeight src comp attr n) :
    (builtAttrs comp src).lookup attr = (Spec.attrPlainLayer src).lookup attr ∧
      ∀ v, (builtAttrs comp src).lookup attr = some (.stored v) →
        nameByTensor (V := V) d v = none := by
  by_cases hk : attr ∈ (Spec.attrPlainLayer src).map (·.1)
  · obtain ⟨⟨a, x⟩, hmem, ha⟩ := List.mem_map.1 hk
    dsimp only at ha
    subst ha
    have hp := lookup_mem_nodup ho.attrs hmem
    rcases List.mem_append.1 hmem with hm | hm
    · obtain ⟨⟨⟨a', c⟩, k⟩, hz, he⟩ := List.mem_map.1 hm
      cases he
      have hk := List.mem_zipIdx_iff_getElem?.1 hz
      dsimp only at hk
      have hnh : ¬ hit comp c = true := by
        intro hh
        obtain ⟨n, hn, hc⟩ := (hit_iff comp c).1 hh
        exact h n ⟨c, List.mem_of_getElem? hk, hn, hc⟩
      have hb : (builtAttrs comp src).lookup a' = some (.stored (.variable k)) := by
        apply lookup_mem_nodup
        · rw [builtAttrs_keys]; exact ho.attrs
        · refine List.mem_append_left _ (List.mem_map.2 ⟨_, hz, ?_⟩)
          simp [hnh]
      refine ⟨by rw [hb, hp], fun v hv => ?_⟩
      rw [hb] at hv
      cases hv
      rfl
    · have hb : (builtAttrs comp src).lookup a = some x := by
        apply lookup_mem_nodup
        · rw [builtAttrs_keys]; exact ho.attrs
        · exact List.mem_append_right _ hm
      refine ⟨by rw [hb, hp], fun v hv => ?_⟩
      rw [hb] at hv
      cases hv
      rw [ho.others a v hm]
      rfl
  · have h1 : (builtAttrs comp src).lookup attr = none :=
      lookup_none_keys (by rw [builtAttrs_keys]; exact hk)
    refine ⟨by rw [h1, lookup_none_keys hk], fun v hv => ?_⟩
    rw [h1] at hv
    cases hv

/-- Attributes in which only compressible weights may differ from the plain layer. -/
def Kept (comp : List String) (src : LayerSrc V) (as : Attrs V) : Prop :=
  ∀ attr, ((∃ n, Spec.IsWeight src comp attr n) → ∃ v, as.lookup attr = some (.stored v)) ∧
    ((∀ n, ¬ Spec.IsWeight src comp attr n) →
      as.lookup attr = (Spec.attrPlainLayer src).lookup attr)

theorem lookup_mem {β : Type} {l : List (String × β)} {a : String} {x : β}
    (h : l.lookup a = some x) : (a, x) ∈ l := by
  induction l with
  | nil => simp at h
  | cons e rest ih =>
    obtain ⟨k, v⟩ := e
    rw [List.lookup_cons] at h
    cases hb : a == k with
    | true =>
      rw [hb] at h
      cases h
      have : a = k := by simpa using hb
      simp [this]
    | false =>
      rw [hb] at h
      exact List.mem_cons_of_mem _ (ih h)

theorem plain_property {src : LayerSrc V} {a : String} {t : Option String}
    (h : (Spec.attrPlainLayer src).lookup a = some (.property t)) :
    (a, Attr.property t) ∈ src.others := by
  rcases List.mem_append.1 (lookup_mem h) with hm | hm
  · obtain ⟨e, _, he⟩ := List.mem_map.1 hm
    cases he
  · exact hm

theorem kept_getAttr {comp : List String} {src : LayerSrc V} {as : Attrs V}
    (hal : Spec.NoAlias src comp) (hk : Kept comp src as) {attr : String}
    (h : ∀ n, ¬ Spec.IsWeight src comp attr n) :
    getAttr as attr = getAttr (Spec.attrPlainLayer src) attr := by
  have h1 := (hk attr).2 h
  unfold getAttr
  rw [h1]
  cases hp : (Spec.attrPlainLayer src).lookup attr with
  | none => rfl
  | some x =>
    cases x with
    | stored v => rfl
    | property t =>
      cases t with
      | none => rfl
      | some t =>
        dsimp only
        rw [(hk t).2 (hal attr t (plain_property hp))]

theorem built_kept {comp : List String} {src : LayerSrc V} {d : List (String × Nat)}
    (ho : Spec.Ordinary src comp) (hd : Named comp src d) : Kept comp src (builtAttrs comp src) := by
  intro attr
  constructor
  · rintro ⟨n, hn⟩
    obtain ⟨k, hk, _⟩ := built_weight ho hd hn
    exact ⟨_, hk⟩
  · intro h
    exact (built_other (d := d) ho h).1

theorem built_name {comp : List String} {src : LayerSrc V} {d : List (String × Nat)}
    (ho : Spec.Ordinary src comp) (hd : Named comp src d) (hal : Spec.NoAlias src comp)
    (attr : String) :
    ((getAttr (builtAttrs comp src) attr).isSome = (getAttr (Spec.attrPlainLayer src) attr).isSome) ∧
    ∀ n, ((getAttr (builtAttrs comp src) attr).bind (nameByTensor d) = some n ↔
      Spec.IsWeight src comp attr n) := by
  by_cases hw : ∃ n, Spec.IsWeight src comp attr n
  · obtain ⟨n, hn⟩ := hw
    obtain ⟨k, hk, hnm, hp⟩ := built_weight ho hd hn
    have hg : getAttr (builtAttrs comp src) attr = some (.zeros k) := by unfold getAttr; rw [hk]
    have hg' : getAttr (Spec.attrPlainLayer src) attr = some (.variable k) := by
      unfold getAttr; rw [hp]
    refine ⟨by rw [hg, hg']; rfl, fun n' => ?_⟩
    rw [hg]
    change nameByTensor (V := V) d (.zeros k) = some n' ↔ _
    constructor
    · intro h
      rw [hnm] at h
      cases h
      exact hn
    · intro h
      obtain ⟨k', hk', hnm', _⟩ := built_weight ho hd h
      rw [hk] at hk'
      cases hk'
      exact hnm'
  · have hw' : ∀ n, ¬ Spec.IsWeight src comp attr n := fun n hn => hw ⟨n, hn⟩
    have hkk := built_kept ho hd
    have hg := kept_getAttr hal hkk hw'
    refine ⟨by rw [hg], fun n => ⟨fun h => ?_, fun h => absurd h (hw' n)⟩⟩
    exfalso
    have hnone : ∀ v, getAttr (builtAttrs comp src) attr = some v → nameByTensor d v = none := by
      intro v hv
      unfold getAttr at hv
      cases hl : (builtAttrs comp src).lookup attr with
      | none => rw [hl] at hv; cases hv
      | some x =>
        cases x with
        | stored w =>
          rw [hl] at hv
          cases hv
          exact (built_other ho hw').2 _ hl
        | property t =>
          cases t with
          | none => rw [hl] at hv; cases hv
          | some t =>
            rw [hl] at hv
            dsimp only at hv
            rw [(built_other (d := d) ho hw').1] at hl
            have ht := hal attr t (plain_property hl)
            cases hl2 : (builtAttrs comp src).lookup t with
            | none => rw [hl2] at hv; cases hv
            | some y =>
              cases y with
              | stored w =>
                rw [hl2] at hv
                cases hv
                exact (built_other ho ht).2 _ hl2
              | property u => rw [hl2] at hv; cases hv
    cases hv : getAttr (builtAttrs comp src) attr with
    | none => rw [hv] at h; cases h
    | some v =>
      rw [hv] at h
      have h2 : nameByTensor d v = some n := h
      rw [hnone v hv] at h2
      cases h2

/-- One substitution. -/
theorem setAll_kept {comp : List String} {src : LayerSrc V} (hal : Spec.NoAlias src comp)
    {m : List (String × String)} (hm : (m.map (·.1)).Nodup)
    (hmw : ∀ a n, (a, n) ∈ m ↔ Spec.IsWeight src comp a n) (value : String → V) {as : Attrs V}
    (hk : Kept comp src as) :
    ∃ as', setAll value m as = .ok as' ∧ Kept comp src as' ∧
      Spec.Substituted src comp value as' := by
  obtain ⟨as', h1, h2⟩ := setAll_spec value m as hm (by
    rintro ⟨a, n⟩ he
    exact (hk a).1 ⟨n, (hmw a n).1 he⟩)
  have hkeys : ∀ a, a ∈ m.map (·.1) ↔ ∃ n, Spec.IsWeight src comp a n := by
    intro a
    constructor
    · intro h
      obtain ⟨⟨a', n⟩, he, ha⟩ := List.mem_map.1 h
      dsimp only at ha
      subst ha
      exact ⟨n, (hmw a' n).1 he⟩
    · rintro ⟨n, h⟩
      exact List.mem_map.2 ⟨(a, n), (hmw a n).2 h, rfl⟩
  have hk' : Kept comp src as' := by
    intro a
    constructor
    · rintro ⟨n, h⟩
      exact ⟨_, (h2 a).1 n ((hmw a n).2 h)⟩
    · intro h
      rw [(h2 a).2 (by rw [hkeys]; rintro ⟨n, hn⟩; exact h n hn)]
      exact (hk a).2 h
  refine ⟨as', h1, hk', fun a => ⟨fun n h => ?_, fun h => kept_getAttr hal hk' h⟩⟩
  unfold getAttr
  rw [(h2 a).1 n ((hmw a n).2 h)]

theorem runBuild_named {comp : List String} {src : LayerSrc V} (ho : Spec.Ordinary src comp) :
    ∃ d, runBuild (V := V) comp src.assigns 0 [] = .ok
      ((src.assigns.zipIdx.map fun e => (e.1.1, .stored
        (if hit comp e.1.2 then .zeros e.2 else .variable e.2))), d) ∧ Named comp src d := by
  obtain ⟨d, h1, h2⟩ := runBuild_spec (V := V) comp src.assigns 0 [] ho.names ho.shapes (by simp)
  refine ⟨d, h1, fun n j => ?_⟩
  rw [h2]
  constructor
  · rintro (h | ⟨i, a, hi, ha, hc, rfl⟩)
    · simp at h
    · exact ⟨a, by simpa using hi, ha, hc⟩
  · rintro ⟨a, hi, ha, hc⟩
    exact Or.inr ⟨j, a, hi, ha, hc, by simp⟩

end Aux

/-- **C105** (training).  The build of the wrapper succeeds, and whatever the values of the training
weights are in each of any number of calls, all calls succeed; in each call the layer computes with
the projected value of that call in every attribute that was a compressible weight, and with what
the original layer has there in every other attribute.

Partial: this needs `NoStale` and `NoAlias`; see `C105_stale_violated`, `C105_alias_violated`. -/
theorem C105_training_partial (src : LayerSrc V) (compressible : List String)
    (ho : Spec.Ordinary src compressible) (hs : Spec.NoStale src compressible)
    (hal : Spec.NoAlias src compressible) :
    ∃ l, buildTraining compressible src = .ok l ∧
      ∀ (earlier : List (String → V)), ∃ l', Spec.trainingCalls earlier l = .ok l' ∧
        ∀ value : String → V, ∃ as, callTraining value l' = .ok as ∧
          Spec.Substituted src compressible value as := by
  obtain ⟨d, hb, hd⟩ := Aux.runBuild_named ho
  have hname := Aux.built_name ho hd hal
  have hdir : dirNames (Aux.builtAttrs compressible src) = dirNames (Spec.attrPlainLayer src) := by
    unfold dirNames; rw [Aux.builtAttrs_keys]
  have hnone : ∀ a, (∀ n, ¬ Spec.IsWeight src compressible a n) →
      (getAttr (Aux.builtAttrs compressible src) a).bind (nameByTensor d) = none := by
    intro a h
    cases hv : (getAttr (Aux.builtAttrs compressible src) a).bind (nameByTensor d) with
    | none => rfl
    | some n => exact absurd (((hname a).2 n).1 hv) (h n)
  obtain ⟨m, hm1, hm2, hm3⟩ := Aux.attrNameMap_spec (Aux.builtAttrs compressible src) d none
    (dirNames (Aux.builtAttrs compressible src)) [] (compressible.getLast?.map some) (by simp) (by
      intro pre b post h hg
      have hg' : getAttr (Spec.attrPlainLayer src) b = none := by
        have := (hname b).1
        rw [hg] at this
        exact Option.isNone_iff_eq_none.1 (by simpa using this.symm)
      rw [List.nil_append, hdir] at h
      obtain ⟨a, ha, hna⟩ := hs pre b post h hg'
      refine ⟨a, ?_, hnone a hna⟩
      rw [← ha]
      congr 1
      apply List.filter_congr
      intro x _
      exact (hname x).1)
  have hmw : ∀ a n, (a, n) ∈ m ↔ Spec.IsWeight src compressible a n := by
    intro a n
    rw [hm2, (hname a).2]
    constructor
    · exact fun h => h.2
    · intro h
      refine ⟨?_, h⟩
      obtain ⟨k, hk, _⟩ := Aux.built_weight ho hd h
      unfold dirNames
      rw [List.mem_insertionSort]
      exact List.mem_map_of_mem (f := (·.1)) (Aux.lookup_mem hk)
  have hnd : (m.map (·.1)).Nodup := by
    refine hm3.nodup ?_
    unfold dirNames
    rw [(List.perm_insertionSort _ _).nodup_iff, Aux.builtAttrs_keys]
    exact ho.attrs
  refine ⟨⟨Aux.builtAttrs compressible src, m⟩, ?_, ?_⟩
  · unfold buildTraining
    rw [hb]
    dsimp only
    rw [if_pos]
    · change (match attrNameMap (Aux.builtAttrs compressible src) d
        (dirNames (Aux.builtAttrs compressible src)) (compressible.getLast?.map some) with
        | .error e => Except.error e
        | .ok m => Except.ok (TrainingLayer.mk (Aux.builtAttrs compressible src) m)) = _
      rw [hm1]
    · rw [List.all_eq_true]
      intro n hn
      obtain ⟨attr, c, hc, hcn, _⟩ := ho.all n hn
      obtain ⟨i, hi⟩ := List.mem_iff_getElem?.1 hc
      exact List.lookup_isSome_iff.2 ⟨(n, i), (hd n i).2 ⟨_, hi, hcn, hn⟩, by simp⟩
  · have hrun : ∀ (earlier : List (String → V)) (l : TrainingLayer V), l.map = m →
        Aux.Kept compressible src l.attrs → ∃ l', Spec.trainingCalls earlier l = .ok l' ∧
          l'.map = m ∧ Aux.Kept compressible src l'.attrs := by
      intro earlier
      induction earlier with
      | nil => exact fun l h1 h2 => ⟨l, rfl, h1, h2⟩
      | cons v vs ih =>
        intro l h1 h2
        obtain ⟨as', h3, h4, _⟩ := Aux.setAll_kept hal hnd hmw v h2
        obtain ⟨l', h5⟩ := ih { l with attrs := as' } h1 h4
        refine ⟨l', ?_, h5.2⟩
        have : callTraining v l = .ok as' := by unfold callTraining; rw [h1]; exact h3
        unfold Spec.trainingCalls
        rw [this]
        exact h5.1
    intro earlier
    obtain ⟨l', h1, h2, h3⟩ := hrun earlier ⟨Aux.builtAttrs compressible src, m⟩ rfl
      (Aux.built_kept ho hd)
    refine ⟨l', h1, fun value => ?_⟩
    obtain ⟨as', h4, _, h5⟩ := Aux.setAll_kept hal hnd hmw value h3
    exact ⟨as', by unfold callTraining; rw [h2]; exact h4, h5⟩

/-- **C105** (inference).  The same for the inference wrapper, with the decompressed values.

Partial: a compressible weight must be stored in the attribute of its own name; see
`C105_inference_violated`. -/
theorem C105_inference_partial (src : LayerSrc V) (compressible : List String)
    (hn : compressible.Nodup) (ho : Spec.Ordinary src compressible)
    (hal : Spec.NoAlias src compressible)
    (hsame : ∀ attr n, Spec.IsWeight src compressible attr n → attr = n) :
    ∃ as, buildInference compressible src = .ok as ∧
      ∀ (earlier : List (String → V)), ∃ as', Spec.inferenceCalls compressible earlier as = .ok as' ∧
        ∀ value : String → V, ∃ as'', callInference value compressible as' = .ok as'' ∧
          Spec.Substituted src compressible value as'' := by
  obtain ⟨d, hb, hd⟩ := Aux.runBuild_named ho
  have hmw : ∀ a n, (a, n) ∈ compressible.map (fun n => (n, n)) ↔
      Spec.IsWeight src compressible a n := by
    intro a n
    rw [List.mem_map]
    constructor
    · rintro ⟨n', h, he⟩
      cases he
      obtain ⟨attr, hw⟩ := ho.all a h
      have := hsame attr a hw
      subst this
      exact hw
    · intro h
      have := hsame a n h
      subst this
      obtain ⟨_, _, _, hc⟩ := h
      exact ⟨a, hc, rfl⟩
  have hnd : ((compressible.map fun n => (n, n)).map (·.1)).Nodup := by
    simpa [Function.comp_def] using hn
  refine ⟨Aux.builtAttrs compressible src, ?_, ?_⟩
  · unfold buildInference
    rw [hb]
    rfl
  · have hrun : ∀ (earlier : List (String → V)) (as : Attrs V), Aux.Kept compressible src as →
        ∃ as', Spec.inferenceCalls compressible earlier as = .ok as' ∧
          Aux.Kept compressible src as' := by
      intro earlier
      induction earlier with
      | nil => exact fun as h => ⟨as, rfl, h⟩
      | cons v vs ih =>
        intro as h2
        obtain ⟨as', h3, h4, _⟩ := Aux.setAll_kept hal hnd hmw v h2
        obtain ⟨l', h5, h6⟩ := ih as' h4
        refine ⟨l', ?_, h6⟩
        have : callInference v compressible as = .ok as' := h3
        unfold Spec.inferenceCalls
        rw [this]
        exact h5
    intro earlier
    obtain ⟨as', h1, h2⟩ := hrun earlier _ (Aux.built_kept ho hd)
    refine ⟨as', h1, fun value => ?_⟩
    obtain ⟨as'', h3, _, h4⟩ := Aux.setAll_kept hal hnd hmw value h2
    exact ⟨as'', h3, h4⟩

/-- **C105** (training and inference agree).  If decompressing what was compressed gives the
projected weight, the layer computes at inference with the same weights as in training. -/
theorem C105_same_weights_partial (src : LayerSrc V) (compressible : List String)
    (hn : compressible.Nodup) (ho : Spec.Ordinary src compressible)
    (hs : Spec.NoStale src compressible) (hal : Spec.NoAlias src compressible)
    (hsame : ∀ attr n, Spec.IsWeight src compressible attr n → attr = n)
    (projected decompressed : String → V) (hv : ∀ n ∈ compressible, decompressed n = projected n) :
    ∃ l t as i, buildTraining compressible src = .ok l ∧ callTraining projected l = .ok t ∧
      buildInference compressible src = .ok as ∧
      callInference decompressed compressible as = .ok i ∧ ∀ attr, getAttr i attr = getAttr t attr := by
  obtain ⟨l, hl, ht⟩ := C105_training_partial src compressible ho hs hal
  obtain ⟨as, has, hi⟩ := C105_inference_partial src compressible hn ho hal hsame
  obtain ⟨l', e1, ht⟩ := ht []
  cases e1
  obtain ⟨as', e2, hi⟩ := hi []
  cases e2
  obtain ⟨t, ht1, ht2⟩ := ht projected
  obtain ⟨i, hi1, hi2⟩ := hi decompressed
  refine ⟨l, t, as, i, hl, ht1, has, hi1, fun attr => ?_⟩
  by_cases hw : ∃ n, Spec.IsWeight src compressible attr n
  · obtain ⟨n, hn⟩ := hw
    rw [(hi2 attr).1 n hn, (ht2 attr).1 n hn]
    obtain ⟨_, _, _, hc⟩ := hn
    rw [hv n hc]
  · have hw' : ∀ n, ¬ Spec.IsWeight src compressible attr n := fun n h => hw ⟨n, h⟩
    rw [(hi2 attr).2 hw', (ht2 attr).2 hw']

/-- **C105** (names).  A variable that Keras named `layer/weight:0` is found under the name `weight`
that the layer gave it. -/
theorem C105_names (layer weight index : String) (h : ':' ∉ weight.toList) :
    compressibleName layer (layer ++ "/" ++ weight ++ ":" ++ index) = weight := by
  have hl : layer.length = layer.toList.length := (String.length_toList (s := layer)).symm
  unfold compressibleName
  simp only [String.toList_append, List.append_assoc, hl]
  rw [if_pos (by rw [List.take_left' rfl])]
  rw [← List.append_assoc layer.toList, List.drop_left' (by simp)]
  rw [List.takeWhile_append_of_pos (by
    intro c hc
    simp only [decide_eq_true_eq]
    rintro rfl
    exact h hc)]
  simp

/-- A layer that is not its variable's first scope, or a name with a colon, is not found: the build
of the wrapper then raises a `KeyError`. -/
theorem C105_names_unknown (src : LayerSrc V) (compressible : List String) (n : String)
    (hn : n ∈ compressible) (hno : ∀ e ∈ src.assigns, e.2.name ≠ some n)
    (hshape : ∀ e ∈ src.assigns, e.2.shape ≠ none) :
    buildTraining compressible src = .error .key := by
  have key : ∀ (as : List (String × AddWeight)) (k : Nat) (d : List (String × Nat)),
      (∀ e ∈ as, e.2.name ≠ some n) → (∀ e ∈ as, e.2.shape ≠ none) → (∀ e ∈ d, e.1 ≠ n) →
      ∃ r d', runBuild (V := V) compressible as k d = .ok (r, d') ∧ ∀ e ∈ d', e.1 ≠ n := by
    intro as
    induction as with
    | nil => exact fun k d _ _ h => ⟨[], d, rfl, h⟩
    | cons e rest ih =>
      intro k d h1 h2 h3
      obtain ⟨attr, c⟩ := e
      obtain ⟨v, d', hsk, hd'⟩ : ∃ v d', skipWeight (V := V) compressible d k c = .ok (v, d') ∧
          ∀ e ∈ d', e.1 ≠ n := by
        unfold skipWeight
        cases hc : c.name with
        | none => exact ⟨_, _, rfl, h3⟩
        | some n' =>
          dsimp only
          by_cases hm : n' ∈ compressible
          · rw [if_pos hm]
            obtain ⟨s, hs⟩ := Option.ne_none_iff_exists'.1 (h2 (attr, c) (by simp))
            dsimp only at hs
            rw [hs]
            refine ⟨_, _, rfl, ?_⟩
            intro e he
            unfold setDummy at he
            rcases List.mem_cons.1 he with h | h
            · subst h
              intro h
              dsimp only at h
              subst h
              exact h1 (attr, c) (by simp) hc
            · exact h3 e (List.mem_filter.1 h).1
          · rw [if_neg hm]
            exact ⟨_, _, rfl, h3⟩
      obtain ⟨r, d'', hr, hd''⟩ := ih (k+1) d' (fun e he => h1 e (by simp [he]))
        (fun e he => h2 e (by simp [he])) hd'
      refine ⟨(attr, .stored v) :: r, d'', ?_, hd''⟩
      simp only [runBuild, hsk, hr]
  obtain ⟨r, d', hr, hd'⟩ := key src.assigns 0 [] hno hshape (by simp)
  unfold buildTraining
  rw [hr]
  dsimp only
  rw [if_neg]
  intro h
  have := List.all_eq_true.1 h n hn
  obtain ⟨e, he, hk⟩ := List.lookup_isSome_iff.1 this
  exact hd' e he (by simpa using (show n = e.1 by simpa using hk).symm)

namespace Example

/-- `Dense`: `build` adds `kernel` and `bias`; `input` and `output` cannot be read before the first
call, `units` is an ordinary attribute. -/
def attrDense : LayerSrc Nat :=
  { assigns := [("kernel", { argName := some "kernel", kwShape := some [4, 3] }),
      ("bias", { argName := some "bias", kwShape := some [3] })]
    others := [("input", .property none), ("output", .property none), ("name", .stored .other),
      ("build", .stored .other), ("units", .stored .other)] }

/-- A subclass of `Dense` that stores the weight named `kernel` in an attribute `w`. -/
def attrRenamed : LayerSrc Nat :=
  { assigns := [("w", { kwName := some "kernel", kwShape := some [4, 3] })]
    others := [("build", .stored .other)] }

/-- A layer with a compressible weight `out_kernel`, which is followed by `output` in `dir`. -/
def attrStale : LayerSrc Nat :=
  { assigns := [("out_kernel", { kwName := some "out_kernel", kwShape := some [4, 3] })]
    others := [("build", .stored .other), ("output", .property none)] }

/-- A layer with a property that returns its kernel. -/
def attrAlias : LayerSrc Nat :=
  { assigns := [("kernel", { kwName := some "kernel", kwShape := some [4, 3] })]
    others := [("weight", .property (some "kernel"))] }

/-- Two weights of the same name. -/
def attrTwice : LayerSrc Nat :=
  { assigns := [("k1", { kwName := some "kernel", kwShape := some [4, 3] }),
      ("k2", { kwName := some "kernel", kwShape := some [4, 3] })]
    others := [("build", .stored .other)] }

theorem attrDense_ordinary : Spec.Ordinary attrDense ["kernel"] where
  attrs := by decide
  names := by
    intro i j a b n ha hb hn hna hnb
    simp only [List.mem_singleton] at hn
    subst hn
    have h0 : ∀ (i : Nat) (a : String × AddWeight), attrDense.assigns[i]? = some a →
        a.2.name = some "kernel" → i = 0 := by
      intro i a h h'
      match i, h with
      | 0, _ => rfl
      | 1, h =>
        simp only [attrDense, List.getElem?_cons_succ, List.getElem?_cons_zero,
          Option.some.injEq] at h
        subst h
        revert h'
        decide
      | i + 2, h => simp [attrDense] at h
    rw [h0 i a ha hna, h0 j b hb hnb]
  shapes := by decide
  all := by
    intro n hn
    simp only [List.mem_singleton] at hn
    subst hn
    exact ⟨"kernel", _, List.mem_cons_self, by decide, by simp⟩
  others := by
    intro a v h
    simp only [attrDense, List.mem_cons, Prod.mk.injEq, reduceCtorEq, and_false, Attr.stored.injEq,
      List.not_mem_nil, or_false, false_or] at h
    rcases h with h | h | h <;> exact h.2

theorem attrDense_noStale : Spec.NoStale attrDense ["kernel"] := by
  have key : ∀ pre b post, ["bias", "build", "input", "kernel", "name", "output", "units"] =
      pre ++ b :: post → getAttr (Spec.attrPlainLayer attrDense) b = none →
      (pre.filter fun x => (getAttr (Spec.attrPlainLayer attrDense) x).isSome).getLast? = some "build" ∨
      (pre.filter fun x => (getAttr (Spec.attrPlainLayer attrDense) x).isSome).getLast? =
        some "name" := by
    intro pre b post h hb
    match pre, h with
    | [], h => cases h; revert hb; decide
    | [_], h => cases h; revert hb; decide
    | [_, _], h => cases h; decide
    | [_, _, _], h => cases h; revert hb; decide
    | [_, _, _, _], h => cases h; revert hb; decide
    | [_, _, _, _, _], h => cases h; decide
    | [_, _, _, _, _, _], h => cases h; revert hb; decide
    | _ :: _ :: _ :: _ :: _ :: _ :: _ :: _, h => simp at h
  have hdir : dirNames (Spec.attrPlainLayer attrDense) =
      ["bias", "build", "input", "kernel", "name", "output", "units"] := by decide
  intro pre b post h hb
  rw [hdir] at h
  have hw : ∀ a, a = "build" ∨ a = "name" → ∀ n, ¬ Spec.IsWeight attrDense ["kernel"] a n := by
    rintro a ha n ⟨c, hc, _⟩
    simp only [attrDense, List.mem_cons, Prod.mk.injEq, List.not_mem_nil, or_false] at hc
    rcases ha with rfl | rfl <;> rcases hc with hc | hc <;> exact absurd hc.1 (by decide)
  rcases key pre b post h hb with h | h
  · exact ⟨_, h, hw _ (Or.inl rfl)⟩
  · exact ⟨_, h, hw _ (Or.inr rfl)⟩

theorem attrDense_noAlias : Spec.NoAlias attrDense ["kernel"] := by
  intro p t h
  simp [attrDense] at h

theorem attrDense_same : ∀ attr n, Spec.IsWeight attrDense ["kernel"] attr n → attr = n := by
  rintro attr n ⟨c, hc, hn, hk⟩
  simp only [List.mem_singleton] at hk
  subst hk
  simp only [attrDense, List.mem_cons, Prod.mk.injEq, List.not_mem_nil, or_false] at hc
  rcases hc with ⟨rfl, rfl⟩ | ⟨rfl, rfl⟩
  · rfl
  · revert hn; decide

example : Spec.Ordinary attrDense ["kernel"] ∧ Spec.NoStale attrDense ["kernel"] ∧
    Spec.NoAlias attrDense ["kernel"] ∧
    (∀ attr n, Spec.IsWeight attrDense ["kernel"] attr n → attr = n) ∧
    Spec.IsWeight attrDense ["kernel"] "kernel" "kernel" :=
  ⟨attrDense_ordinary, attrDense_noStale, attrDense_noAlias, attrDense_same,
    _, List.mem_cons_self, by decide, by simp⟩

example : compressibleName "dense" "dense/kernel:0" = "kernel" := by decide
example : compressibleName "dense" "block/dense/kernel:0" = "block/dense/kernel" := by decide

end Example

/-- **C105** is violated: the inference wrapper writes the decompressed weight to an attribute with
the name of the weight.  A layer that stores it elsewhere computes with zeros, silently, although it
was trained with the right weight. -/
theorem C105_inference_violated :
    ∃ l t as i, buildTraining ["kernel"] Example.attrRenamed = .ok l ∧
      callTraining (fun _ => 7) l = .ok t ∧ getAttr t "w" = some (.computed 7) ∧
      buildInference ["kernel"] Example.attrRenamed = .ok as ∧
      callInference (fun _ => 7) ["kernel"] as = .ok i ∧ getAttr i "w" = some (.zeros 0) :=
  ⟨⟨[("w", .stored (.zeros 0)), ("build", .stored .other)], [("w", "kernel")]⟩,
    [("w", .stored (.computed 7)), ("build", .stored .other)],
    [("w", .stored (.zeros 0)), ("build", .stored .other)],
    [("w", .stored (.zeros 0)), ("build", .stored .other), ("kernel", .stored (.computed 7))],
    by decide, by decide, by decide, by decide, by decide, by decide⟩

/-- **C105** is violated: the name found for `out_kernel` is still in the local variable when
`output` cannot be read, so the wrapper tries to set `output`, and no call succeeds. -/
theorem C105_stale_violated :
    ∃ l, buildTraining ["out_kernel"] Example.attrStale = .ok l ∧
      ∀ value, callTraining value l = .error .attribute := by
  refine ⟨⟨[("out_kernel", .stored (.zeros 0)), ("build", .stored .other),
    ("output", .property none)], [("out_kernel", "out_kernel"), ("output", "out_kernel")]⟩,
    by decide, fun value => rfl⟩

/-- **C105** is violated: a property that returns a compressible weight makes every call fail. -/
theorem C105_alias_violated :
    ∃ l, buildTraining ["kernel"] Example.attrAlias = .ok l ∧
      ∀ value, callTraining value l = .error .attribute := by
  refine ⟨⟨[("kernel", .stored (.zeros 0)), ("weight", .property (some "kernel"))],
    [("kernel", "kernel"), ("weight", "kernel")]⟩, by decide, fun value => rfl⟩

/-- **C105** is violated: with two weights of one name only the second is replaced, and the layer
computes with zeros in place of the first. -/
theorem C105_twice_violated :
    ∃ l t, buildTraining ["kernel"] Example.attrTwice = .ok l ∧
      callTraining (fun _ => 7) l = .ok t ∧ getAttr t "k1" = some (.zeros 0) ∧
      getAttr t "k2" = some (.computed 7) :=
  ⟨⟨[("k1", .stored (.zeros 0)), ("k2", .stored (.zeros 1)), ("build", .stored .other)],
      [("k2", "kernel")]⟩,
    [("k1", .stored (.zeros 0)), ("k2", .stored (.computed 7)), ("build", .stored .other)],
    by decide, by decide, by decide, by decide⟩

end Verif.Props
