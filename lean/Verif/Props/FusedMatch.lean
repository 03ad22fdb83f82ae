import Verif.Props.FusedGraph

set_option linter.unusedSectionVars false

namespace Verif.Props
open Verif.Quant.Regex Verif.Quant.Transformer Verif.Quant.Transforms8Bit Verif.Quant.Apply

variable {V U M Val : Type}

namespace Aux

/-! ### Which matches contain one of two connected layers -/

/-- A pattern that the first layer can match; `lin`: its activation may be linear. -/
def okA (clsA : String) (lin : Bool) : Pattern → Bool
  | .mk cls cfg _ => matchPattern clsA cls && (lin || !cfg.contains ("activation", "linear"))

/-- A pattern that the second layer can match together with the first one. -/
def patHit (clsA clsB : String) (lin : Bool) : Pattern → Bool
  | .mk cls _ [q] => matchPattern clsB cls && okA clsA lin q
  | _ => false

/-- A pattern that the second layer can match alone. -/
def leafHit (clsB : String) : Pattern → Bool
  | .mk cls _ [] => matchPattern clsB cls
  | _ => false

mutual
/-- No part of the pattern satisfies the test. -/
def nowhere (f : Pattern → Bool) : Pattern → Bool
  | .mk cls cfg ins => !f (.mk cls cfg ins) && nowheres f ins
def nowheres (f : Pattern → Bool) : List Pattern → Bool
  | [] => true
  | p :: ps => nowhere f p && nowheres f ps
end

section
variable [Inhabited M]

/-- What is known of the two layers. -/
structure Two (g : Graph V M) (a b clsA clsB : String) (lin : Bool) : Prop where
  feeds : Feeds g a b
  clsA : ∀ l ∈ g.layers, l.name = a → l.cls = clsA
  clsB : ∀ l ∈ g.layers, l.name = b → l.cls = clsB
  act : lin = false → ∀ l ∈ g.layers, l.name = a → l.get "activation" = noOpActivation

variable {g : Graph V M} {a b clsA clsB : String} {lin : Bool}

theorem matchLayer_parts {l : Layer} {cls cfg} (h : matchLayer g l cls cfg = true) :
    matchPattern l.cls cls = true ∧
      ∀ e ∈ cfg, matchPattern (l.get e.1) e.2 = true ∨ l.get e.1 = e.2 := by
  simp only [matchLayer, Bool.and_eq_true, List.all_eq_true, Bool.or_eq_true, decide_eq_true_eq] at h
  exact ⟨h.1.2, h.2⟩

theorem okA_of_match (h2 : Two g a b clsA clsB lin) {q : Pattern} {x : Layer} {m : Node V M} {hd}
    (hx : x ∈ g.layers) (hxa : x.name = a) (hm : matchTree g q x hd = some m) : okA clsA lin q = true := by
  obtain ⟨cls, cfg, ins⟩ := q
  obtain ⟨h1, h3⟩ := matchLayer_parts (matchTree_split hm).1
  rw [h2.clsA x hx hxa] at h1
  rw [okA, h1]
  cases lin with
  | true => rfl
  | false =>
    simp only [Bool.true_and, Bool.false_or, Bool.not_eq_true', List.contains_eq_mem, decide_eq_false_iff_not]
    intro hc
    have := h3 _ hc
    rw [h2.act rfl x hx hxa] at this
    revert this
    decide +kernel

/-- The second layer at the head of a match. -/
theorem match_at_b (h2 : Two g a b clsA clsB lin) {p : Pattern} {y : Layer} {m : Node V M} {hd}
    (hy : y ∈ g.layers) (hyb : y.name = b) (hm : matchTree g p y hd = some m) :
    patHit clsA clsB lin p = true ∨ leafHit clsB p = true := by
  obtain ⟨cls, cfg, ins⟩ := p
  obtain ⟨h1, -, h4⟩ := matchTree_split hm
  have hc := (matchLayer_parts h1).1
  rw [h2.clsB y hy hyb] at hc
  rcases h4 with ⟨rfl, -⟩ | ⟨hne, ns, hns, -⟩
  · right; exact hc
  · left
    obtain ⟨x, hx, hxa, he⟩ := h2.feeds.input y hy hyb
    rw [he] at hns
    cases ins with
    | nil => exact absurd rfl hne
    | cons q qs =>
      rw [matchTrees] at hns
      obtain ⟨i, hi, h1⟩ := Option.bind_eq_some_iff.1 hns
      obtain ⟨is, his, rfl⟩ := Option.map_eq_some_iff.1 h1
      cases qs with
      | cons _ _ => simp [matchTrees] at his
      | nil => rw [patHit, hc, okA_of_match h2 hx hxa hi]; rfl

mutual
/-- A match of a pattern in which the first layer has no place. -/
theorem no_first (h2 : Two g a b clsA clsB lin) : ∀ (p : Pattern) (l : Layer) hd (m : Node V M), l ∈ g.layers →
    l.name ≠ a → nowhere (patHit clsA clsB lin) p = true → matchTree g p l hd = some m →
    ∀ n, Spec.InTree n m → n.name ≠ a
  | .mk cls cfg ins, l, hd, m => by
    intro hl hla hno hm n hn
    rw [nowhere, Bool.and_eq_true, Bool.not_eq_true'] at hno
    have hkids : ∀ x ∈ getLayers g (inputLayerNames g l), ins ≠ [] → x.name ≠ a := by
      intro x hx hins hxa
      have hlb := h2.feeds.only l hl x hx hxa
      rcases match_at_b h2 hl hlb hm with h | h
      · rw [hno.1] at h; simp at h
      · cases ins with
        | nil => exact hins rfl
        | cons _ _ => simp [leafHit] at h
    obtain ⟨-, -, ⟨-, rfl⟩ | ⟨hne, ns, hns, rfl⟩⟩ := matchTree_split hm
    · cases hn with
      | root => exact hla
      | child hc _ => simp at hc
    · cases hn with
      | root => exact hla
      | child hc hn =>
        exact no_firsts h2 ins _ ns (getLayers_subset g _) (fun x hx => hkids x hx hne) hno.2 hns _ hc n hn
theorem no_firsts (h2 : Two g a b clsA clsB lin) : ∀ (ps : List Pattern) (ls : List Layer) (ns : List (Node V M)),
    (∀ l ∈ ls, l ∈ g.layers) → (∀ l ∈ ls, l.name ≠ a) → nowheres (patHit clsA clsB lin) ps = true →
    matchTrees g ps ls = some ns → ∀ c ∈ ns, ∀ n, Spec.InTree n c → n.name ≠ a
  | [], [], ns => by
    intro _ _ _ h
    simp only [matchTrees, Option.some.injEq] at h
    subst h; simp
  | [], _ :: _, ns => by intro _ _ _ h; simp [matchTrees] at h
  | _ :: _, [], ns => by intro _ _ _ h; simp [matchTrees] at h
  | p :: ps, l :: ls, ns => by
    intro hls hla hno h c hc n hn
    rw [matchTrees] at h
    rw [nowheres, Bool.and_eq_true] at hno
    obtain ⟨n0, h0, h1⟩ := Option.bind_eq_some_iff.1 h
    obtain ⟨ns', h2', rfl⟩ := Option.map_eq_some_iff.1 h1
    rcases List.mem_cons.1 hc with rfl | hc
    · exact no_first h2 p l false c (hls l (by simp)) (hla l (by simp)) hno.1 h0 n hn
    · exact no_firsts h2 ps ls ns' (fun x hx => hls x (by simp [hx])) (fun x hx => hla x (by simp [hx])) hno.2 h2'
        c hc n hn
end

mutual
/-- A match of a pattern in which neither layer has a place. -/
theorem no_second (h2 : Two g a b clsA clsB lin) : ∀ (p : Pattern) (l : Layer) hd (m : Node V M), l ∈ g.layers →
    nowhere (patHit clsA clsB lin) p = true → nowhere (leafHit clsB) p = true → matchTree g p l hd = some m →
    ∀ n, Spec.InTree n m → n.name ≠ b
  | .mk cls cfg ins, l, hd, m => by
    intro hl hno hno' hm n hn
    rw [nowhere, Bool.and_eq_true, Bool.not_eq_true'] at hno hno'
    have hlb : l.name ≠ b := by
      intro hlb
      rcases match_at_b h2 hl hlb hm with h | h
      · rw [hno.1] at h; simp at h
      · rw [hno'.1] at h; simp at h
    obtain ⟨-, -, ⟨-, rfl⟩ | ⟨hne, ns, hns, rfl⟩⟩ := matchTree_split hm
    · cases hn with
      | root => exact hlb
      | child hc _ => simp at hc
    · cases hn with
      | root => exact hlb
      | child hc hn =>
        exact no_seconds h2 ins _ ns (getLayers_subset g _) hno.2 hno'.2 hns _ hc n hn
theorem no_seconds (h2 : Two g a b clsA clsB lin) : ∀ (ps : List Pattern) (ls : List Layer) (ns : List (Node V M)),
    (∀ l ∈ ls, l ∈ g.layers) → nowheres (patHit clsA clsB lin) ps = true → nowheres (leafHit clsB) ps = true →
    matchTrees g ps ls = some ns → ∀ c ∈ ns, ∀ n, Spec.InTree n c → n.name ≠ b
  | [], [], ns => by
    intro _ _ _ h
    simp only [matchTrees, Option.some.injEq] at h
    subst h; simp
  | [], _ :: _, ns => by intro _ _ _ h; simp [matchTrees] at h
  | _ :: _, [], ns => by intro _ _ _ h; simp [matchTrees] at h
  | p :: ps, l :: ls, ns => by
    intro hls hno hno' h c hc n hn
    rw [matchTrees] at h
    rw [nowheres, Bool.and_eq_true] at hno hno'
    obtain ⟨n0, h0, h1⟩ := Option.bind_eq_some_iff.1 h
    obtain ⟨ns', h2', rfl⟩ := Option.map_eq_some_iff.1 h1
    rcases List.mem_cons.1 hc with rfl | hc
    · exact no_second h2 p l false c (hls l (by simp)) hno.1 hno'.1 h0 n hn
    · exact no_seconds h2 ps ls ns' (fun x hx => hls x (by simp [hx])) hno.2 hno'.2 h2' c hc n hn
end

/-- Neither layer is in a match whose head is another layer and whose further layers have no place for them. -/
theorem untouched_below (h2 : Two g a b clsA clsB lin) {cls cfg ins} {l : Layer} {hd} {m : Node V M} (hl : l ∈ g.layers)
    (hla : l.name ≠ a) (hlb : l.name ≠ b) (hno : nowheres (patHit clsA clsB lin) ins = true)
    (hm : matchTree g (.mk cls cfg ins) l hd = some m) (n) (hn : Spec.InTree n m) :
    n.name ≠ a ∧ (nowheres (leafHit clsB) ins = true → n.name ≠ b) := by
  obtain ⟨-, -, ⟨-, rfl⟩ | ⟨hne, ns, hns, rfl⟩⟩ := matchTree_split hm
  · cases hn with
    | root => exact ⟨hla, fun _ => hlb⟩
    | child hc _ => simp at hc
  · cases hn with
    | root => exact ⟨hla, fun _ => hlb⟩
    | child hc hn =>
      refine ⟨no_firsts h2 ins _ ns (getLayers_subset g _) ?_ hno hns _ hc n hn,
        fun h => no_seconds h2 ins _ ns (getLayers_subset g _) hno h hns _ hc n hn⟩
      intro x hx hxa
      exact hlb (h2.feeds.only l hl x hx hxa)

/-- The match whose head is the second layer. -/
theorem match_pair (h2 : Two g a b clsA clsB lin) {cls cfg q} {l : Layer} {hd} {m : Node V M} (hl : l ∈ g.layers)
    (hlb : l.name = b) (hm : matchTree g (.mk cls cfg [q]) l hd = some m) :
    ∃ x n, x ∈ g.layers ∧ x.name = a ∧ matchTree g q x false = some n ∧ m = nodeOf g l [n] := by
  obtain ⟨-, -, ⟨h, -⟩ | ⟨-, ns, hns, rfl⟩⟩ := matchTree_split hm
  · simp at h
  obtain ⟨x, hx, hxa, he⟩ := h2.feeds.input l hl hlb
  rw [he, matchTrees] at hns
  obtain ⟨i, hi, h1⟩ := Option.bind_eq_some_iff.1 hns
  obtain ⟨is, his, rfl⟩ := Option.map_eq_some_iff.1 h1
  simp only [matchTrees, Option.some.injEq] at his
  subst his
  exact ⟨x, i, hx, hxa, hi, rfl⟩

end

end Aux
end Verif.Props
