import Verif.Grammar.ContextModel
import Verif.Grammar.SampleLemmas

/-!
# Specification of mutation in constrained grammars
-/

namespace Verif.Gram

/-- Grammars and constraint functions for which arguments can be told from the text of a tree: every
production begins with the name of an operation, no two productions of a nonterminal begin with the
same one, terminals are not empty and not nonterminals, and the constraint function knows how many
arguments an operation has. -/
structure CGrammar.Tidy (g : CGrammar) (c : FunConstraint) : Prop where
  clean : g.toGrammar.Clean
  nodup : g.prods.Nodup
  names : ∀ p ∈ g.prods, p.lhs ∉ [[' '], ['\t'], ['\n'], ['['], [']']]
  terminals : ∀ p ∈ g.prods, ∀ s, .t s ∈ p.rhs → s ≠ [] ∧ s ∉ g.nonterminals
  operation : ∀ p ∈ g.prods, ∃ o rest, p.rhs = .t o :: rest
  one : ∀ p ∈ g.prods, ∀ q ∈ g.prods, p.lhs = q.lhs → p.rhs.head? = q.rhs.head? → p = q
  arity : ∀ p ∈ g.prods, ∀ o rest, p.rhs = .t o :: rest → p.nts ≠ [] →
    ∃ d, c.start (.t o) = some d ∧ d.length = p.nts.length

/-- The texts of the trees of a sequence that are rooted in a nonterminal. -/
def Forest.texts (f : Forest) : List Str := f.items.map fun x => treeText x.1 x.2

/-- One argument of one operation of a tree is changed: `good op before A k k' after` is about the
old and the new argument, with root `A` and children `k` and `k'`, of the operation `op`, whose
arguments before and after it have the texts `before` and `after`. -/
inductive ChangesArgument (good : Str → List Str → Str → Forest → Forest → List Str → Prop) :
    Forest → Forest → Prop
  | here {o A : Str} {before k k' after : Forest} : good o before.texts A k k' after.texts →
      ChangesArgument good (.leaf o (before.append (.node A k after)))
        (.leaf o (before.append (.node A k' after)))
  | deeper {B : Str} {f k k' r : Forest} : ChangesArgument good k k' →
      ChangesArgument good (f.append (.node B k r)) (f.append (.node B k' r))

/-- The answer of a constraint function about an argument of which it is told all others. -/
def FunConstraint.Answers (c : FunConstraint) (op : Str) (before after : List Str) (b : Bool) :
    Prop :=
  c.ask (.t op) (before.map some ++ none :: after.map some) = some (.bool b) ∨
    ∃ l, c.ask (.t op) (before.map some ++ none :: after.map some) = some (.list l) ∧
      l[before.length]? = some b

/-- Closing brackets behind the text of an argument make no difference to the constraint
function. -/
def FunConstraint.Lenient (c : FunConstraint) : Prop :=
  ∀ (op : Sym) (before after after' : List Str), List.Forall₂ (fun t t' => ∃ n, t' = t ++ List.replicate n ')')
    after after' →
      c.ask op (before.map some ++ none :: after.map some) =
        c.ask op (before.map some ++ none :: after'.map some)

/-- An argument with the children `k` is not the none operation if the constraint function, told the
other arguments, says no. -/
def FunConstraint.Accepts (c : FunConstraint) (noneOp : Option Str) (op : Str)
    (before : List Str) (k : Forest) (after : List Str) : Prop :=
  ∃ b, c.Answers op before after b ∧ (b = false → ∀ s, noneOp = some s → k.heads ≠ [.t s])

/-- The new argument is a parse tree whose operations satisfy the constraint, and the constraint
function, told the other arguments, accepts it. -/
def GoodArgument (g : CGrammar) (c : FunConstraint) (op : Str) (before : List Str) (A : Str)
    (_ k' : Forest) (after : List Str) : Prop :=
  g.Legal A k'.heads ∧ Derives g.Legal k'.heads k' ∧ EveryArgument (c.Permits g.noneOp) A k' ∧
    c.Accepts g.noneOp op before k' after

/-- The name of a nonterminal does not occur in the text of the arguments of its operation. -/
def NamesApart (root : Str) (kids : Forest) : Prop :=
  ∀ P ks, (P, ks) = (root, kids) ∨ (P, ks) ∈ kids.nodes → ¬ P <:+: ks.text

end Verif.Gram
