import Verif.Grammar.Spec

/-!
# Model of composing the functions of an architecture

`CoreGraphGrammar._compose_functions` (neps/search_spaces/architecture/core_graph_grammar.py:878-960):
from the text of a parse tree to the composition of topologies and primitive operations. The text is
read character by character, with three stacks.

Simplification: a topology applied to arguments, and a primitive operation, are kept as terms
(`Func`); the graph that the constructor of a topology builds is the subject of the model of
topologies, and the flattening of nested graphs of the model of flattening.
-/

namespace Verif.Gram

/-- What the stack `q_primitives` holds: a primitive operation, or a topology with its arguments
(neps/search_spaces/architecture/core_graph_grammar.py:918,943). -/
inductive Func where
  | op (name : Str)
  | comp (topology : Str) (args : List Func)

/-- The mapping of terminals: which of them are topologies
(neps/search_spaces/architecture/core_graph_grammar.py:929-938). -/
abbrev IsTopology := Str → Bool

/-- The variables of the loop (neps/search_spaces/architecture/core_graph_grammar.py:903-905): the
three stacks (the top is the head), and `composed_function`. -/
structure Compose where
  nts : List Str
  topos : List (Str × ℕ)
  prims : List Func
  composed : Option Func

/-- `q_topologies.queue[-1][1] += 1`, `IndexError` on an empty stack
(neps/search_spaces/architecture/core_graph_grammar.py:921,944). -/
def Compose.count (s : Compose) : Option Compose :=
  match s.topos with
  | [] => none
  | (t, n) :: ts => some { s with topos := (t, n + 1) :: ts }

/-- `topology(*primitives)` for the topology on top of its stack, and what follows
(neps/search_spaces/architecture/core_graph_grammar.py:914-921); `queue.Empty` is `none`. -/
def Compose.apply (s : Compose) : Option Compose :=
  match s.topos with
  | [] => none
  | (t, n) :: ts =>
    if s.prims.length < n then none
    else
      let f := Func.comp t (s.prims.take n).reverse
      let s := { s with topos := ts, prims := s.prims.drop n, composed := some f }
      if ts = [] then some s else { s with prims := f :: s.prims }.count

/-- A closing bracket (neps/search_spaces/architecture/core_graph_grammar.py:911-922). -/
def Compose.close (s : Compose) : Option Compose :=
  match (if s.nts.length = s.topos.length then s.apply else some s) with
  | none => none
  | some s =>
    match s.nts with
    | [] => none
    | _ :: nts => some { s with nts := nts }

/-- A symbol (neps/search_spaces/architecture/core_graph_grammar.py:928-948). `afterBracket` is the
outcome of `descriptor[i - 1] != "("`, negated. -/
def Compose.symbol (g : Grammar) (topo : IsTopology) (sym : Str) (afterBracket : Bool)
    (s : Compose) : Option Compose :=
  if sym ∈ g.terminals ∧ ¬ afterBracket then
    if topo sym then some { s with topos := (sym, 0) :: s.topos }
    else { s with prims := .op sym :: s.prims }.count
  else if sym ∈ g.nonterminals then some { s with nts := sym :: s.nts }
  else none

/-- The loop of `find_longest_match` (neps/search_spaces/architecture/core_graph_grammar.py:992-998):
the length of the longest prefix, of at most `k` characters, that is a symbol. -/
def findLongest (symbols : List Str) (rest : Str) : ℕ → Option ℕ
  | 0 => none
  | k + 1 => if rest.take (k + 1) ∈ symbols then some (k + 1) else findLongest symbols rest k

/-- `max(map(len, symbols))` (neps/search_spaces/architecture/core_graph_grammar.py:895). -/
def maxMatch (symbols : List Str) : ℕ := (symbols.map List.length).foldl max 0

/-- `skip_char` (neps/search_spaces/architecture/core_graph_grammar.py:977-983); `none` is the
`IndexError` of `descriptor[i + 1]`. -/
def skipChar (before : Str) (c : Char) (rest : Str) : Option Bool :=
  if c = ' ' ∨ c = '\t' ∨ c = '\n' then some true
  else if c = '(' ∧ before.head? = some ' ' then
    match rest with
    | [] => none
    | d :: _ => some (d ≠ ' ')
  else some (c = '(')

/-- One round of the loop (neps/search_spaces/architecture/core_graph_grammar.py:907-950). The
position in the descriptor is given by the characters before it, last first, and those from it on.
Simplification: a descriptor that begins with a closing bracket is not compared with its own last
character. -/
def composeStep (g : Grammar) (topo : IsTopology) (before rest : Str) (s : Compose) :
    Option (Str × Str × Compose) :=
  match rest with
  | [] => none
  | c :: tail =>
    match skipChar before c tail with
    | none => none
    | some true => some (c :: before, tail, s)
    | some false =>
      if c = ')' ∧ before.head? ≠ some ' ' then
        match s.close with
        | none => none
        | some s => some (c :: before, tail, s)
      else
        let symbols := g.nonterminals ++ g.terminals
        match findLongest symbols rest (min (maxMatch symbols) (rest.length - 1)) with
        | none => none
        | some k =>
          let sym := rest.take k
          let before := sym.reverse ++ before
          match s.symbol g topo sym (before[1]? = some '(') with
          | none => none
          | some s => some (before, rest.drop k, s)

/-- The loop, with a bound on the number of rounds. -/
def composeLoop (g : Grammar) (topo : IsTopology) : ℕ → Str → Str → Compose → Option Compose
  | _, _, [], s => some s
  | 0, _, _ :: _, _ => none
  | n + 1, before, c :: rest, s =>
    match composeStep g topo before (c :: rest) s with
    | none => none
    | some (before', rest', s') => composeLoop g topo n before' rest' s'

/-- `_compose_functions` without flattening
(neps/search_spaces/architecture/core_graph_grammar.py:878-960). Every round reads at least one
character. Simplification: the check that the graph has an edge (line 955) is left out. -/
def compose (g : Grammar) (topo : IsTopology) (descriptor : Str) : Option Func :=
  match composeLoop g topo descriptor.length [] descriptor ⟨[], [], [], none⟩ with
  | none => none
  | some s => if s.topos ≠ [] then none else s.composed

/-! ## Specification -/

/-- The functions that the trees of a sequence describe, one after the other: a topology takes the
functions after it, in the same production, as its arguments; a nonterminal stands for what its
children describe. -/
def Forest.functions (topo : IsTopology) : Forest → List Func
  | .nil => []
  | .leaf s rest =>
    if topo s then [.comp s (functions topo rest)] else .op s :: functions topo rest
  | .node _ kids rest => functions topo kids ++ functions topo rest

/-- No topology occurs, at any depth. -/
def Forest.NoTopology (topo : IsTopology) : Forest → Prop
  | .nil => True
  | .leaf s rest => topo s = false ∧ NoTopology topo rest
  | .node _ kids rest => NoTopology topo kids ∧ NoTopology topo rest

/-- A topology with primitive arguments only, possibly below productions with a single nonterminal on
their right hand side. -/
inductive Forest.Single (topo : IsTopology) : Forest → Prop
  | app {t rest} : topo t = true → rest.NoTopology topo → Single topo (.leaf t rest)
  | chain {A kids} : Single topo kids → Single topo (.node A kids .nil)

/-- Arguments of a topology: primitive operations, subtrees without topologies, subtrees whose
production is a topology with such arguments, and subtrees as in `Single`. -/
inductive Forest.Args (topo : IsTopology) : Forest → Prop
  | nil : Args topo .nil
  | leaf {s rest} : topo s = false → Args topo rest → Args topo (.leaf s rest)
  | plain {A kids rest} : kids.NoTopology topo → Args topo rest → Args topo (.node A kids rest)
  | app {A t args rest} : topo t = true → Args topo args → Args topo rest →
      Args topo (.node A (.leaf t args) rest)
  | single {A kids rest} : kids.Single topo → Args topo rest → Args topo (.node A kids rest)

end Verif.Gram
