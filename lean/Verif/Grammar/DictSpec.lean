import Verif.Grammar.DictModel

/-!
# What a structure describes

The specification of C116, independent of the texts that are built.
-/

namespace Verif.Gram

/-- Blanks, brackets and commas stand between the names of a production. -/
def isPunct (c : Char) : Bool := c = ' ' || c = '(' || c = ')' || c = ','

/-- The names in a production, such as `"Seq(conv, OPS)"`, from left to right. -/
def namesOf (t : Str) : List Str := (t.splitOnP isPunct).filter (· ≠ [])

/-- A comma or closing bracket is never directly followed by a name. -/
def WellSpaced (t : Str) : Prop :=
  ∀ before x y after, t = before ++ x :: y :: after → x = ',' ∨ x = ')' → isPunct y = true

/-- A name that can stand for a nonterminal: letters, digits, `_`, `/`, and inside also `^`, `<`,
`>`, `-`. -/
def IsName (s : Str) : Prop :=
  ∃ c cs, s = c :: cs ∧ isNameStart c = true ∧ ∀ x ∈ cs, isNameChar x = true

/-- A name that can stand for a primitive. -/
def IsPrimitive (s : Str) : Prop :=
  s ≠ [] ∧ s ≠ "|".toList ∧ s ≠ "->".toList ∧ ' ' ∉ s ∧ '\n' ∉ s ∧ '"' ∉ s

/-- The structure is written as the documentation writes structures. -/
structure WellWritten (rules : List (Str × List Str)) (primitives : List Str) : Prop where
  rule : rules ≠ []
  key : ∀ r ∈ rules, IsName r.1
  production : ∀ r ∈ rules, r.2 ≠ []
  spaced : ∀ r ∈ rules, ∀ t ∈ r.2, WellSpaced t ∧ '\n' ∉ t
  name : ∀ r ∈ rules, ∀ t ∈ r.2, ∀ n ∈ namesOf t, n ∈ primitives ∨ IsName n
  primitive : ∀ p ∈ primitives, IsPrimitive p

/-- A name is a terminal exactly if it is a primitive. -/
def symbolOf (primitives : List Str) (n : Str) : Sym := if n ∈ primitives then .t n else .nt n

/-- The productions a structure describes: for every key and every production of it, in order,
the names of the production, in order. -/
def described (rules : List (Str × List Str)) (primitives : List Str) : List Production :=
  rules.flatMap fun r => r.2.map fun t => ⟨r.1, (namesOf t).map (symbolOf primitives)⟩

end Verif.Gram
