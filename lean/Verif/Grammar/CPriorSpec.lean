import Verif.Grammar.CPriorModel

/-!
# How probable a parse tree of a constrained grammar is

A small specification: the sampler chooses a production for every node, so the probability of a
tree is the product of the probabilities of these choices.
-/

namespace Verif.Gram

/-- What the constraint function answers about the next argument of `op`, when it is given the texts
of the arguments before it. -/
def FunConstraint.answer (c : FunConstraint) (op : Sym) (before : List Str) : Option Bool :=
  match c.start op with
  | none => none
  | some d =>
    match c.ask op (before.map some ++ d.drop before.length) with
    | none => none
    | some (.list l) => l[before.length]?
    | some (.bool b) => some b

/-- The productions of `B` that are excluded for the next argument of `op`: the none operation, if
the constraint function says no. -/
def CGrammar.excluded (g : CGrammar) (c : FunConstraint) (op : Sym) (before : List Str) (B : Str) :
    List Production :=
  if c.answer op before = some false then
    (g.productions B).filter fun p => g.noneOp.any fun s => p.rhs = [.t s]
  else []

/-- The probability of choosing `B -> rhs` when the productions `na` are excluded. -/
def condProb (g : Grammar) (prob : Str → List Sym → ℚ) (na : List Production) (B : Str)
    (rhs : List Sym) : ℚ :=
  if na = [] then prob B rhs
  else if ⟨B, rhs⟩ ∈ na then 0
  else prob B rhs / (((g.productions B).filter (· ∉ na)).map fun p => prob B p.rhs).sum

/-- The probabilities of the choices below a node: `P op before B rhs` is the probability that the
argument `B` of the operation `op`, which comes after arguments with the texts `before`, is
expanded to `rhs`. -/
def Forest.choices (P : Sym → List Str → Str → List Sym → ℚ) : Sym → List Str → Forest → List ℚ
  | _, _, .nil => []
  | op, before, .leaf _ rest => rest.choices P op before
  | op, before, .node B kids rest =>
    (match kids.heads with
      | [] => []
      | op' :: _ => kids.choices P op' []) ++
    P op before B kids.heads :: rest.choices P op (before ++ [treeText B kids])

/-- The probabilities of all choices in the tree with the root `A`, in which nothing is excluded,
and the children `kids`. -/
def treeChoices (g : CGrammar) (c : FunConstraint) (prob : Str → List Sym → ℚ) (A : Str)
    (kids : Forest) : List ℚ :=
  (match kids.heads with
    | [] => []
    | op :: _ => kids.choices (fun op before B rhs =>
        condProb g.toGrammar prob (g.excluded c op before B) B rhs) op []) ++
  [prob A kids.heads]

/-- The probability of the tree. -/
def constrainedProb (g : CGrammar) (c : FunConstraint) (prob : Str → List Sym → ℚ) (A : Str)
    (kids : Forest) : ℚ := (treeChoices g c prob A kids).prod

/-- `prob` gives the probabilities that the prior `v` lists in the order of the productions. -/
def Grammar.PriorLists (g : Grammar) (v : List (Str × List ℚ)) (prob : Str → List Sym → ℚ) : Prop :=
  ∀ p ∈ g.prods, lookup p.lhs v = some ((g.productions p.lhs).map fun q => prob p.lhs q.rhs)

/-- Nonterminals with a production that begins with the none operation. -/
def CGrammar.NoneAble (g : CGrammar) (B : Str) : Prop :=
  ∃ rhs s, g.Legal B rhs ∧ g.noneOp = some s ∧ rhs.head? = some (.t s)

/-- Without the none operation something is left to choose: the other productions do not have the
sum zero. -/
def CGrammar.Remaining (g : CGrammar) (prob : Str → List Sym → ℚ) : Prop :=
  ∀ B s, g.noneOp = some s → g.Legal B [.t s] →
    (((g.productions B).filter (·.rhs ≠ [.t s])).map fun p => prob B p.rhs).sum ≠ 0

/-- The first symbol of a tree: the operation. -/
def Forest.opName (k : Forest) : Str := (k.heads.head?.map Sym.str).getD []

/-- The nonterminals of a right hand side. -/
def argSyms : List Sym → List Str
  | [] => []
  | .t _ :: l => argSyms l
  | .nt A :: l => A :: argSyms l

/-- Constraint functions for which the computation works: called with an operation alone, the
function gives an empty place for each of its arguments; the answers depend only on the operations
at the roots of the arguments; and the arguments of one operation are all of the kind that can be
the none operation or all of the other kind. -/
structure FunConstraint.Plain (c : FunConstraint) (g : CGrammar) : Prop where
  places : ∀ A op rhs, g.Legal A (op :: rhs) →
    c.start op = some (List.replicate (argSyms (op :: rhs)).length none)
  roots : ∀ A op rhs, g.Legal A (op :: rhs) → ∀ l : List (Str × Forest),
    (∀ x ∈ l, g.Legal x.1 x.2.heads ∧ Derives g.Legal x.2.heads x.2) → ∀ n,
    c.ask op ((l.map fun x => some x.2.opName) ++ List.replicate n none) =
      c.ask op ((l.map fun x => some (treeText x.1 x.2)) ++ List.replicate n none)
  same : ∀ A rhs, g.Legal A rhs → ∀ B ∈ argSyms rhs, ∀ C ∈ argSyms rhs,
    g.NoneAble B → g.NoneAble C

end Verif.Gram
