import Verif.Grammar.Model

/-!
# Parse trees of a grammar and their text

A small specification, independent of how the code handles trees.
-/

namespace Verif.Gram

/-- A sequence of parse trees: `leaf` puts a terminal in front of a sequence, `node` a nonterminal
together with the sequence of its children. -/
inductive Forest where
  | nil
  | leaf (s : Str) (rest : Forest)
  | node (A : Str) (kids : Forest) (rest : Forest)

namespace Forest

/-- The text of a sequence of trees: every terminal and every bracketed tree after a space. -/
def text : Forest → Str
  | nil => []
  | leaf s rest => ' ' :: s ++ text rest
  | node A kids rest => ' ' :: '(' :: A ++ text kids ++ [')'] ++ text rest

/-- The symbols at the roots of the trees of a sequence. -/
def heads : Forest → List Sym
  | nil => []
  | leaf s rest => .t s :: heads rest
  | node A _ rest => .nt A :: heads rest

/-- The trees of a sequence that are rooted in a nonterminal. -/
def items : Forest → List (Str × Forest)
  | nil => []
  | leaf _ rest => items rest
  | node A kids rest => (A, kids) :: items rest

/-- All trees, at any depth, that are rooted in a nonterminal. -/
def nodes : Forest → List (Str × Forest)
  | nil => []
  | leaf _ rest => nodes rest
  | node A kids rest => (A, kids) :: nodes kids ++ nodes rest

/-- Trees rooted in the same nonterminal are equal, unless one is inside the other. -/
def Uniform : Forest → Prop
  | nil => True
  | leaf _ rest => Uniform rest
  | node A kids rest =>
    (∀ B k k', ((B, k) = (A, kids) ∨ (B, k) ∈ nodes kids) → (B, k') ∈ nodes rest → k' = k) ∧
      Uniform kids ∧ Uniform rest

/-- In every production used, equal nonterminals have equal subtrees. -/
def SiblingsAgree : Forest → Prop
  | nil => True
  | leaf _ rest => SiblingsAgree rest
  | node A kids rest =>
    SiblingsAgree kids ∧ (∀ k, (A, k) ∈ items rest → k = kids) ∧ SiblingsAgree rest

end Forest

/-- `Derives ok syms f`: the trees `f` are rooted in the symbols `syms`, and every inner node `A`
with the children `rhs` uses an allowed production: `ok A rhs`. -/
inductive Derives (ok : Str → List Sym → Prop) : List Sym → Forest → Prop
  | nil : Derives ok [] .nil
  | leaf {s syms f} : Derives ok syms f → Derives ok (.t s :: syms) (.leaf s f)
  | node {A rhs kids syms f} : ok A rhs → Derives ok rhs kids → Derives ok syms f →
      Derives ok (.nt A :: syms) (.node A kids f)

/-- The text of the tree with the root `A` and the children `kids`: `(A child ... child)`. -/
def treeText (A : Str) (kids : Forest) : Str := '(' :: A ++ kids.text ++ [')']

/-- `A -> rhs` is a production of the grammar. -/
def Grammar.Legal (g : Grammar) (A : Str) (rhs : List Sym) : Prop := ⟨A, rhs⟩ ∈ g.prods

/-- The productions with a probability other than zero: `p` gives the probabilities of the
productions of every nonterminal, in the order of the grammar. -/
def Grammar.Possible (g : Grammar) (p : List (Str × List ℚ)) (A : Str) (rhs : List Sym) : Prop :=
  ∃ (ps : List ℚ) (i : ℕ) (q : ℚ), lookup A p = some ps ∧ (g.productions A)[i]? = some ⟨A, rhs⟩ ∧
    ps[i]? = some q ∧ q ≠ 0

/-- `s` is the text of a parse tree with the root `A` in which only allowed productions are
used. -/
def IsTreeOf (ok : Str → List Sym → Prop) (A s : Str) : Prop :=
  ∃ rhs kids, ok A rhs ∧ Derives ok rhs kids ∧ s = treeText A kids

/-- `s` is the text of a parse tree of the grammar with the root `A`. -/
def IsTree (g : Grammar) (A s : Str) : Prop := IsTreeOf g.Legal A s

/-- The text `s'` is the text `s` with one subtree, rooted in a nonterminal `A`, replaced by
another tree with the same root. -/
def ReplacesOne (g : Grammar) (A s s' : Str) : Prop :=
  ∃ pre post sub sub', s = pre ++ sub ++ post ∧ s' = pre ++ sub' ++ post ∧
    IsTree g A sub ∧ IsTree g A sub'

/-- Symbols that the textual form keeps apart: no symbol contains a space or a bracket,
nonterminals are not empty, and no terminal is one character followed by the name of a
nonterminal that has several productions. -/
structure Grammar.Clean (g : Grammar) : Prop where
  lhs : ∀ p ∈ g.prods, ' ' ∉ p.lhs ∧ '(' ∉ p.lhs ∧ ')' ∉ p.lhs ∧ p.lhs ≠ []
  rhs : ∀ p ∈ g.prods, ∀ s, .t s ∈ p.rhs → ' ' ∉ s ∧ '(' ∉ s ∧ ')' ∉ s
  apart : ∀ p ∈ g.prods, ∀ c A, A ∈ g.swappable → .t (c :: A) ∉ p.rhs

end Verif.Gram
