/-
Model of the regular-expression test used by the graph transformer:

  /repo/tensorflow_model_optimization/python/core/quantization/keras/graph_transformations/
    model_transformer.py  lines 135-136   `ModelTransformer._match_pattern`

  re.match('^' + pattern + '$', target) is not None

The part of Python's `re` syntax that is modelled is the part the shipped patterns use:
ordinary characters, `.`, `*` after an ordinary character or `.`, `^`, `$` and `|`, with
Python's precedences (`|` binds weakest, so `'^' + 'A|B' + '$'` has the branches `^A` and `B$`).
Patterns using any other special character are outside the model (`parse` gives `none`, and
the match is then modelled as a failure).
-/
namespace Verif.Quant.Regex

/-- One item of a branch of a regular expression. -/
inductive Atom where
  /-- an ordinary character -/
  | lit (c : Char)
  /-- `.`: any character except a newline -/
  | any
  /-- `^`: the beginning of the text -/
  | bol
  /-- `$`: the end of the text, or just before a newline that ends the text -/
  | eol
  /-- `c*` -/
  | starLit (c : Char)
  /-- `.*` -/
  | starAny
deriving DecidableEq, Repr

/-- The characters with a special meaning that the model does not cover, and `*` and `|`,
which cannot stand for themselves. -/
def special : List Char := ['*', '|', '\\', '(', ')', '[', ']', '{', '}', '+', '?']

/-- The item a single character stands for. -/
def atomOf (c : Char) : Option Atom :=
  if c = '.' then some .any
  else if c = '^' then some .bol
  else if c = '$' then some .eol
  else if c ∈ special then none
  else some (.lit c)

/-- The item followed by `*`. -/
def starOf : Atom → Option Atom
  | .lit c => some (.starLit c)
  | .any => some .starAny
  | _ => none

/-- Parsing a branch (a pattern without `|`). -/
def parseBranch : List Char → Option (List Atom)
  | [] => some []
  | c :: '*' :: rest =>
    ((atomOf c).bind starOf).bind fun a => (parseBranch rest).map (a :: ·)
  | c :: rest => (atomOf c).bind fun a => (parseBranch rest).map (a :: ·)

/-- The branches of a pattern: the parts between the bars. -/
def branches : List Char → List (List Char)
  | [] => [[]]
  | c :: rest =>
    if c = '|' then [] :: branches rest
    else
      match branches rest with
      | [] => [[c]]
      | b :: bs => (c :: b) :: bs

/-- A starred item followed by the rest of the branch (`k`): take no character, or one that
satisfies `p` and try again. -/
def matchStar (p : Char → Bool) (k : Bool → List Char → Bool) : Bool → List Char → Bool
  | start, [] => k start []
  | start, d :: text => k start (d :: text) || (p d && matchStar p k false text)

/-- A single character that satisfies `p`, followed by the rest of the branch (`k`). -/
def matchOne (p : Char → Bool) (k : Bool → List Char → Bool) : List Char → Bool
  | [] => false
  | d :: text => p d && k false text

/-- Whether a branch matches a prefix of the text that is left; `start` says whether we are
still at the beginning of the text. -/
def matchBranch : List Atom → Bool → List Char → Bool
  | [], _, _ => true
  | .bol :: as, start, text => start && matchBranch as start text
  | .eol :: as, start, text => (text = [] || text = ['\n']) && matchBranch as start text
  | .lit c :: as, _, text => matchOne (fun d => c = d) (matchBranch as) text
  | .any :: as, _, text => matchOne (fun d => d ≠ '\n') (matchBranch as) text
  | .starLit c :: as, start, text => matchStar (fun d => c = d) (matchBranch as) start text
  | .starAny :: as, start, text => matchStar (fun d => d ≠ '\n') (matchBranch as) start text

/-- `re.match(pattern, text) is not None`: some branch matches at the beginning of the text. -/
def reMatch (pattern text : List Char) : Bool :=
  (branches pattern).any fun b =>
    ((parseBranch b).map fun as => matchBranch as true text).getD false

/-- `_match_pattern`, model_transformer.py lines 135-136. -/
def matchPattern (target pattern : String) : Bool :=
  reMatch ('^' :: pattern.toList ++ ['$']) target.toList

end Verif.Quant.Regex
