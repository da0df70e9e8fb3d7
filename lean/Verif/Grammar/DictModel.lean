import Verif.Grammar.Model
import Mathlib.Data.List.DropRight

/-!
# Model of the structure of an architecture parameter

`_dict_structure_to_str` and `ArchitectureParameter` (neps/search_spaces/architecture/api.py):
the dictionary by which a user describes an architecture space is turned into the text of a
grammar, and `Grammar.fromstring` (of `nltk.CFG`) reads it.  The simplifications of
`Verif.Grammar.Model` apply.
-/

namespace Verif.Gram

/-- `str.replace(old, new)` (used at neps/search_spaces/architecture/api.py:21,27-29): the
occurrences of a non-empty `old` are replaced from left to right.  `skip` counts the characters
of the current occurrence that are still to be left out. -/
def pyReplace (old new : Str) : ℕ → Str → Str
  | _, [] => []
  | 0, c :: cs =>
    if old.isPrefixOf (c :: cs) then new ++ pyReplace old new (old.length - 1) cs
    else c :: pyReplace old new 0 cs
  | skip + 1, _ :: cs => pyReplace old new skip cs

/-- `string.count(old) > 0` (neps/search_spaces/architecture/api.py:20). -/
def occurs (old : Str) : Str → Bool
  | [] => old.isPrefixOf []
  | c :: cs => old.isPrefixOf (c :: cs) || occurs old cs

/-- `_save_replace` (neps/search_spaces/architecture/api.py:19-22): `none` if the loop has not
ended after `fuel` rounds. -/
def saveReplace (old new : Str) : ℕ → Str → Option Str
  | 0, _ => none
  | fuel + 1, s =>
    if occurs old s then saveReplace old new fuel (pyReplace old new 0 s) else some s

/-- A name in quotes, `"name"` (neps/search_spaces/architecture/api.py:31-36). -/
def quote (p : Str) : Str := '"' :: p ++ ['"']

/-- One round of the loops over the primitives and the placeholders
(neps/search_spaces/architecture/api.py:30-36): the name is quoted where it stands between two
spaces, and where it stands between a space and the end of the line. -/
def quoteName (fuel : ℕ) (s : Str) (p : Str) : Option Str :=
  (saveReplace (' ' :: p ++ [' ']) (' ' :: quote p ++ [' ']) fuel s).bind
    (saveReplace (' ' :: p ++ ['\n']) (' ' :: quote p ++ ['\n']) fuel)

/-- `" | ".join(productions)` (neps/search_spaces/architecture/api.py:26). -/
def joinBar : List Str → Str
  | [] => []
  | [p] => p
  | p :: q :: ps => p ++ " | ".toList ++ joinBar (q :: ps)

/-- The loop that writes the rules, one per line
(neps/search_spaces/architecture/api.py:24-26). -/
def rulesText (structure_ : List (Str × List Str)) : Str :=
  structure_.flatMap fun r => r.1 ++ " -> ".toList ++ joinBar r.2 ++ ['\n']

/-- `grammar.replace("(", " ")` and so on (neps/search_spaces/architecture/api.py:27-29). -/
def dropBrackets (s : Str) : Str :=
  pyReplace [','] [] 0 (pyReplace [')'] [] 0 (pyReplace ['('] [' '] 0 s))

/-- `_dict_structure_to_str` (neps/search_spaces/architecture/api.py:16-37).  `terminals` holds
the names of the primitives, followed by the placeholders of `repetitive_mapping`. -/
def structureText (fuel : ℕ) (structure_ : List (Str × List Str)) (terminals : List Str) :
    Option Str :=
  terminals.foldlM (quoteName fuel) (dropBrackets (rulesText structure_))

/-! ### `Grammar.fromstring` -/

/-- White space of Python's `\s` and `strip`.  Simplification: only the ASCII blanks that Lean
knows. -/
def isBlank (c : Char) : Bool := c.isWhitespace

/-- The first character of a nonterminal, `[\w/]` in `nltk.grammar.standard_nonterm_parser`.
Simplification: ASCII letters only. -/
def isNameStart (c : Char) : Bool := c.isAlphanum || c == '_' || c == '/'

/-- The other characters of a nonterminal, `[\w/^<>-]`. -/
def isNameChar (c : Char) : Bool :=
  isNameStart c || c == '^' || c == '<' || c == '>' || c == '-'

/-- `nltk.grammar.standard_nonterm_parser`: a nonterminal and the blanks behind it. -/
def readName : Str → Option (Str × Str)
  | [] => none
  | c :: cs =>
    if isNameStart c then
      some (c :: cs.takeWhile isNameChar, (cs.dropWhile isNameChar).dropWhile isBlank)
    else none

/-- The arrow between the two sides of a rule. -/
def readArrow (s : Str) : Option Str :=
  match s.dropWhile isBlank with
  | '-' :: '>' :: rest => some (rest.dropWhile isBlank)
  | _ => none

/-- A symbol in front of the first alternative. -/
def addFront (x : Sym) : List (List Sym) → List (List Sym)
  | [] => [[x]]
  | a :: as => (x :: a) :: as

/-- The loop of `nltk.grammar._read_production` over the right hand side: a text in quotes is a
terminal, a bar begins the next alternative, everything else is a nonterminal.  Every round
consumes a character, `fuel` is the length of the text. -/
def readSides : ℕ → Str → Option (List (List Sym))
  | _, [] => some [[]]
  | 0, _ :: _ => none
  | fuel + 1, c :: cs =>
    if c = '"' ∨ c = '\'' then
      match cs.dropWhile (· ≠ c) with
      | [] => none
      | _ :: rest =>
        (readSides fuel (rest.dropWhile isBlank)).map (addFront (.t (cs.takeWhile (· ≠ c))))
    else if c = '|' then (readSides fuel (cs.dropWhile isBlank)).map ([] :: ·)
    else
      match readName (c :: cs) with
      | none => none
      | some (w, rest) => (readSides fuel rest).map (addFront (.nt w))

/-- `nltk.grammar._read_production`. -/
def readRule (s : Str) : Option (List Production) :=
  (readName s).bind fun (lhs, rest) =>
    (readArrow rest).bind fun rhs =>
      (readSides rhs.length rhs).map fun sides => sides.map (⟨lhs, ·⟩)

/-- `input.split("\n")`. -/
def splitLines : Str → List Str
  | [] => [[]]
  | c :: cs =>
    if c = '\n' then [] :: splitLines cs
    else
      match splitLines cs with
      | [] => [[c]]
      | l :: ls => (c :: l) :: ls

/-- `line.strip()`. -/
def pyStrip (s : Str) : Str := (s.dropWhile isBlank).rdropWhile isBlank

/-- The loop of `nltk.grammar.read_grammar` over the lines: empty lines and comments are skipped.
Not modelled: a directive `%start`, and a line that is continued after a backslash (both give
`none`). -/
def readRules : List Str → Option (List Production)
  | [] => some []
  | l :: ls =>
    match pyStrip l with
    | [] => readRules ls
    | c :: cs =>
      if c = '#' then readRules ls
      else if c = '%' ∨ (c :: cs).getLast? = some '\\' then none
      else (readRule (c :: cs)).bind fun ps => (readRules ls).map (ps ++ ·)

/-- `Grammar.fromstring` (used at neps/search_spaces/architecture/api.py:105,124), which is
`nltk.CFG.fromstring` followed by `Grammar.__init__`: the left hand side of the first rule is the
start symbol. -/
def fromString (s : Str) : Option Grammar :=
  match readRules (splitLines s) with
  | some (p :: ps) => Grammar.init ⟨p.lhs, p :: ps, none⟩
  | _ => none

/-- What a user passes as `structure` (neps/search_spaces/architecture/api.py:64-71). -/
inductive Structure where
  | dict (rules : List (Str × List Str))
  | text (s : Str)
  | list (parts : List Structure)

/-- The grammar of an `ArchitectureParameter` without constraints
(neps/search_spaces/architecture/api.py:54-61,88-134).  For a list with one element
`GraphGrammar.__init__` is called without its argument `grammar` (lines 112-117): `TypeError`; for
any other list `base` is not bound (lines 58-61). -/
def architectureGrammar (fuel : ℕ) (primitives : List Str) : Structure → Option Grammar
  | .dict rules => (structureText fuel rules primitives).bind fromString
  | .text s => fromString s
  | .list _ => none

end Verif.Gram
