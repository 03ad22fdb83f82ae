import Verif.Quant.Regex

/-!
# C56: which class names a transform pattern matches
-/

set_option linter.unusedSectionVars false

namespace Verif.Props
open Verif.Quant.Regex

namespace Spec

/-- A name without characters that have a meaning in regular expressions. -/
def PlainName (s : String) : Prop :=
  ∀ c ∈ s.toList, c ∉ ['.', '^', '$', '*', '|', '\\', '(', ')', '[', ']', '{', '}', '+', '?']

instance (s : String) : Decidable (PlainName s) := by unfold PlainName; infer_instance

/-- The pattern `name1|name2|...`. -/
def alternation (names : List String) : String := "|".intercalate names

end Spec

namespace Aux

theorem branches_noBar (b : List Char) (h : '|' ∉ b) : branches b = [b] := by
  induction b with
  | nil => rfl
  | cons c b ih =>
    simp only [List.mem_cons, not_or] at h
    rw [branches, if_neg (fun hh => h.1 hh.symm), ih h.2]

theorem branches_bar (b rest : List Char) (h : '|' ∉ b) :
    branches (b ++ '|' :: rest) = b :: branches rest := by
  induction b with
  | nil => simp [branches]
  | cons c b ih =>
    simp only [List.mem_cons, not_or] at h
    rw [List.cons_append, branches, if_neg (fun hh => h.1 hh.symm), ih h.2]

def PlainChars (b : List Char) : Prop :=
  ∀ c ∈ b, c ∉ ['.', '^', '$', '*', '|', '\\', '(', ')', '[', ']', '{', '}', '+', '?']

theorem atomOf_plain (c : Char)
    (h : c ∉ ['.', '^', '$', '*', '|', '\\', '(', ')', '[', ']', '{', '}', '+', '?']) :
    atomOf c = some (.lit c) := by
  simp only [List.mem_cons, List.not_mem_nil, or_false, not_or] at h
  simp [atomOf, special, h]

theorem parse_step (c : Char) (rest : List Char) (h : ∀ r, rest ≠ '*' :: r) :
    parseBranch (c :: rest) = (atomOf c).bind fun a => (parseBranch rest).map (a :: ·) := by
  cases rest with
  | nil => simp [parseBranch]
  | cons d r => rw [parseBranch]; exact h

theorem parse_plain (b tail : List Char) (hb : PlainChars b) (ht : ∀ r, tail ≠ '*' :: r)
    (as : List Atom) (h : parseBranch tail = some as) :
    parseBranch (b ++ tail) = some (b.map .lit ++ as) := by
  induction b with
  | nil => simpa using h
  | cons c b ih =>
    have hb' : PlainChars b := fun d hd => hb d (List.mem_cons_of_mem _ hd)
    have hc := hb c (List.mem_cons_self ..)
    rw [List.cons_append, parse_step, atomOf_plain c hc, ih hb']
    · rfl
    · intro r hr
      cases b with
      | nil => exact ht r hr
      | cons d b =>
        simp only [List.cons_append, List.cons.injEq] at hr
        have := hb d (by simp)
        rw [hr.1] at this
        simp at this

theorem match_lits (b : List Char) (as : List Atom) (start : Bool) (text : List Char)
    (hk : ∀ t, matchBranch as start t = matchBranch as false t) :
    matchBranch (b.map .lit ++ as) start text = true ↔
      ∃ rest, text = b ++ rest ∧ matchBranch as start rest = true := by
  induction b generalizing start text with
  | nil => simp
  | cons c b ih =>
    simp only [List.map_cons, List.cons_append, matchBranch]
    cases text with
    | nil => simp [matchOne]
    | cons d text =>
      simp only [matchOne, decide_eq_true_eq, Bool.and_eq_true, List.cons.injEq]
      rw [ih false text (fun _ => rfl)]
      constructor
      · rintro ⟨rfl, rest, rfl, h⟩
        exact ⟨rest, ⟨rfl, rfl⟩, by rw [hk]; exact h⟩
      · rintro ⟨rest, ⟨rfl, rfl⟩, h⟩
        exact ⟨rfl, rest, rfl, by rw [← hk]; exact h⟩

/-- The items `^` (if it is the first branch), then the characters of a name, then the end. -/
theorem match_pre (pre : List Char) (hpre : pre = [] ∨ pre = ['^']) (b : List Char)
    (hb : PlainChars b) (tail : List Char) (htail : tail = [] ∨ tail = ['$']) (text : List Char) :
    ((parseBranch (pre ++ b ++ tail)).map fun as => matchBranch as true text).getD false = true ↔
      ∃ rest, text = b ++ rest ∧ (tail = [] ∨ rest = [] ∨ rest = ['\n']) := by
  obtain ⟨as, has, hm⟩ : ∃ as, parseBranch tail = some as ∧ ∀ st t,
      (matchBranch as st t = true ↔ (tail = [] ∨ t = [] ∨ t = ['\n'])) := by
    rcases htail with rfl | rfl
    · exact ⟨[], rfl, by simp [matchBranch]⟩
    · refine ⟨[.eol], by decide, ?_⟩
      intro st t
      simp [matchBranch]
  have ht : ∀ r, tail ≠ '*' :: r := by rcases htail with rfl | rfl <;> simp
  have hbt := parse_plain b tail hb ht as has
  have hfin : matchBranch (b.map .lit ++ as) true text = true ↔
      ∃ rest, text = b ++ rest ∧ (tail = [] ∨ rest = [] ∨ rest = ['\n']) := by
    rw [match_lits b as true text (fun t => by
      rw [Bool.eq_iff_iff, hm, hm])]
    simp [hm]
  rcases hpre with rfl | rfl
  · rw [List.nil_append, hbt]
    simpa using hfin
  · have hstar : ∀ r, b ++ tail ≠ '*' :: r := by
      intro r hr
      cases b with
      | nil => exact ht r hr
      | cons d b =>
        simp only [List.cons_append, List.cons.injEq] at hr
        have := hb d (by simp)
        rw [hr.1] at this
        simp at this
    rw [show ['^'] ++ b ++ tail = '^' :: (b ++ tail) by simp, parse_step _ _ hstar, hbt]
    simpa [atomOf, matchBranch] using hfin

theorem plain_noBar (b : List Char) (hb : PlainChars b) : '|' ∉ b := by
  intro h
  have := hb _ h
  simp at this

theorem plainName_chars (s : String) : Spec.PlainName s ↔ PlainChars s.toList := Iff.rfl

theorem reMatch_alternation (init : List String) (last : String)
    (hinit : ∀ a ∈ init, Spec.PlainName a) (hlast : Spec.PlainName last)
    (pre : List Char) (hpre : pre = [] ∨ pre = ['^']) (text : List Char) :
    reMatch (pre ++ (Spec.alternation (init ++ [last])).toList ++ ['$']) text = true ↔
      (∃ a ∈ init, a.toList <+: text) ∨ text = last.toList ∨ text = last.toList ++ ['\n'] := by
  induction init generalizing pre with
  | nil =>
    have hnb : '|' ∉ pre ++ last.toList ++ ['$'] := by
      have := plain_noBar _ hlast
      rcases hpre with rfl | rfl <;> simp [this]
    simp only [Spec.alternation, List.nil_append, String.intercalate_singleton, reMatch]
    rw [branches_noBar _ hnb]
    simp only [List.any_cons, List.any_nil, Bool.or_false]
    rw [match_pre pre hpre _ hlast ['$'] (Or.inr rfl)]
    constructor
    · rintro ⟨rest, rfl, h | h | h⟩
      · simp at h
      · subst h; right; left; simp
      · subst h; right; right; rfl
    · rintro (⟨a, h, _⟩ | h | h)
      · simp at h
      · exact ⟨[], by simp [h], by simp⟩
      · exact ⟨['\n'], by simp [h], by simp⟩
  | cons a init ih =>
    have ha : Spec.PlainName a := hinit a (List.mem_cons_self ..)
    have hne : init ++ [last] ≠ [] := by simp
    have hstr : (Spec.alternation (a :: init ++ [last])).toList
        = a.toList ++ '|' :: (Spec.alternation (init ++ [last])).toList := by
      simp only [Spec.alternation, List.cons_append]
      rw [String.intercalate_cons_of_ne_nil hne]
      simp
    have hnb : '|' ∉ pre ++ a.toList := by
      have := plain_noBar _ ha
      rcases hpre with rfl | rfl <;> simp [this]
    have hsplit : pre ++ (Spec.alternation (a :: init ++ [last])).toList ++ ['$']
        = (pre ++ a.toList) ++ '|' :: ((Spec.alternation (init ++ [last])).toList ++ ['$']) := by
      rw [hstr]; simp
    have hih := ih (fun b hb => hinit b (List.mem_cons_of_mem _ hb)) [] (Or.inl rfl)
    simp only [reMatch, List.nil_append] at hih ⊢
    rw [hsplit, branches_bar _ _ hnb, List.any_cons, Bool.or_eq_true, hih]
    have := match_pre pre hpre a.toList ha [] (Or.inl rfl) text
    rw [List.append_nil] at this
    rw [this]
    constructor
    · rintro (⟨rest, rfl, _⟩ | ⟨b, hb, hp⟩ | h)
      · exact Or.inl ⟨a, List.mem_cons_self .., List.prefix_append _ _⟩
      · exact Or.inl ⟨b, List.mem_cons_of_mem _ hb, hp⟩
      · exact Or.inr h
    · rintro (⟨b, hb, hp⟩ | h)
      · rcases List.mem_cons.1 hb with rfl | hb
        · obtain ⟨rest, rfl⟩ := hp
          exact Or.inl ⟨rest, rfl, Or.inl rfl⟩
        · exact Or.inr (Or.inl ⟨b, hb, hp⟩)
      · exact Or.inr (Or.inr h)

end Aux

/-- C56: what `_match_pattern` accepts for the pattern `name1|...|nameK|last`: every text that
*begins* with one of the names but the last, and the last name itself (possibly followed by a
newline). -/
theorem C56_alternation (init : List String) (last target : String)
    (hinit : ∀ a ∈ init, Spec.PlainName a) (hlast : Spec.PlainName last) :
    matchPattern target (Spec.alternation (init ++ [last])) = true ↔
      (∃ a ∈ init, a.toList <+: target.toList) ∨ target = last ∨ target = last ++ "\n" := by
  have h := Aux.reMatch_alternation init last hinit hlast ['^'] (Or.inr rfl) target.toList
  rw [matchPattern]
  rw [show '^' :: (Spec.alternation (init ++ [last])).toList ++ ['$']
    = ['^'] ++ (Spec.alternation (init ++ [last])).toList ++ ['$'] by simp, h]
  have e1 : target.toList = last.toList ↔ target = last := String.toList_inj
  have e2 : target.toList = last.toList ++ ['\n'] ↔ target = last ++ "\n" := by
    rw [← String.toList_inj]; simp
  rw [e1, e2]

/-- C56: a pattern that names a single class matches exactly this class. -/
theorem C56_single (name target : String) (hname : Spec.PlainName name)
    (hnl : '\n' ∉ target.toList) :
    matchPattern target name = true ↔ target = name := by
  have h := C56_alternation [] name target (by simp) hname
  rw [show Spec.alternation ([] ++ [name]) = name by simp [Spec.alternation]] at h
  rw [h]
  constructor
  · rintro (⟨a, h, _⟩ | h | h)
    · simp at h
    · exact h
    · subst h; simp at hnl
  · exact fun h => Or.inr (Or.inl h)

/-- C56 for alternations.  Missing: class names that properly extend one of the names but the
last; those are matched although they are not named, see `C56_violated`. -/
theorem C56_partial (init : List String) (last target : String)
    (hinit : ∀ a ∈ init, Spec.PlainName a) (hlast : Spec.PlainName last)
    (hnl : '\n' ∉ target.toList)
    (hext : ∀ a ∈ init, a.toList <+: target.toList → a = target) :
    matchPattern target (Spec.alternation (init ++ [last])) = true ↔ target ∈ init ++ [last] := by
  rw [C56_alternation init last target hinit hlast]
  simp only [List.mem_append, List.mem_singleton]
  constructor
  · rintro (⟨a, ha, hp⟩ | h | h)
    · exact Or.inl (hext a ha hp ▸ ha)
    · exact Or.inr h
    · subst h; simp at hnl
  · rintro (h | h)
    · exact Or.inl ⟨target, h, List.prefix_rfl⟩
    · exact Or.inr (Or.inl h)

/-- C56 is violated: every class whose name extends a name of the pattern that is not the last
one is matched, whether it is named or not. -/
theorem C56_violated (init : List String) (last a suffix : String)
    (hinit : ∀ a ∈ init, Spec.PlainName a) (hlast : Spec.PlainName last) (ha : a ∈ init) :
    matchPattern (a ++ suffix) (Spec.alternation (init ++ [last])) = true := by
  rw [C56_alternation init last _ hinit hlast]
  exact Or.inl ⟨a, ha, by simp⟩

/-- C56: the pattern `.*` matches every class name. -/
theorem C56_any (target : String) (hnl : '\n' ∉ target.toList) :
    matchPattern target ".*" = true := by
  have key : ∀ (text : List Char) (st : Bool), '\n' ∉ text →
      matchStar (fun d => d ≠ '\n') (matchBranch [.eol]) st text = true := by
    intro text
    induction text with
    | nil => intro st _; simp [matchStar, matchBranch]
    | cons c t ih =>
      intro st hn
      simp only [List.mem_cons, not_or] at hn
      have hc : c ≠ '\n' := fun h => hn.1 h.symm
      simp only [matchStar, Bool.or_eq_true, Bool.and_eq_true]
      exact Or.inr ⟨by simpa using hc, ih false hn.2⟩
  have hp : (branches ('^' :: ".*".toList ++ ['$'])) = [['^', '.', '*', '$']] := by decide +kernel
  have hq : parseBranch ['^', '.', '*', '$'] = some [.bol, .starAny, .eol] := by decide +kernel
  rw [matchPattern, reMatch, hp]
  simp only [List.any_cons, List.any_nil, Bool.or_false, hq, Option.map_some, Option.getD_some,
    matchBranch, Bool.true_and]
  exact key _ _ hnl

/-- The shipped patterns: `Conv2D|DepthwiseConv2D` matches `Conv2DTranspose` and
`Add|Conv2D|DepthwiseConv2D|Dense` matches `AdditiveAttention`, but not `DenseFeatures`. -/
theorem C56_shipped_violated :
    matchPattern "Conv2DTranspose" "Conv2D|DepthwiseConv2D" = true ∧
    matchPattern "AdditiveAttention" "Add|Conv2D|DepthwiseConv2D|Dense" = true ∧
    matchPattern "DenseFeatures" "Add|Conv2D|DepthwiseConv2D|Dense" = false ∧
    matchPattern "XDense" "Add|Conv2D|DepthwiseConv2D|Dense" = false := by
  decide +kernel

namespace Example

/-- The hypotheses of the theorems hold of the shipped patterns. -/
example : (∀ a ∈ ["Add", "Conv2D", "DepthwiseConv2D"], Spec.PlainName a) ∧
    Spec.PlainName "Dense" ∧
    Spec.alternation (["Add", "Conv2D", "DepthwiseConv2D"] ++ ["Dense"])
      = "Add|Conv2D|DepthwiseConv2D|Dense" ∧
    (∀ a ∈ ["Add", "Conv2D", "DepthwiseConv2D"],
      a.toList <+: "DepthwiseConv2D".toList → a = "DepthwiseConv2D") ∧
    '\n' ∉ "DepthwiseConv2D".toList := by
  decide +kernel

end Example

end Verif.Props
