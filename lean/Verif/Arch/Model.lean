import Mathlib.Data.List.Basic

/-!
# Model of pruning architecture graphs

`CoreGraphGrammar.prune_unconnected_parts`
(`neps/search_spaces/architecture/core_graph_grammar.py:797-825`).

Simplifications, for the whole file: nodes are natural numbers; the attributes of nodes and edges,
which pruning does not touch, are left out.
-/

namespace Verif.Arch

/-- `nx.DiGraph`: the nodes and the edges, in the order of insertion
(neps/search_spaces/architecture/core_graph_grammar.py:268). -/
structure Graph where
  nodes : List ℕ
  edges : List (ℕ × ℕ)
deriving DecidableEq, Repr

namespace Graph

/-- `graph.predecessors(n)` (neps/search_spaces/architecture/core_graph_grammar.py:800,819). -/
def preds (g : Graph) (n : ℕ) : List ℕ := (g.edges.filter (·.2 = n)).map (·.1)

/-- `graph.successors(n)` (neps/search_spaces/architecture/core_graph_grammar.py:807,820). -/
def succs (g : Graph) (n : ℕ) : List ℕ := (g.edges.filter (·.1 = n)).map (·.2)

/-- `graph.remove_node(n)`: the node and all its edges
(neps/search_spaces/architecture/core_graph_grammar.py:801,822). -/
def removeNode (g : Graph) (n : ℕ) : Graph where
  nodes := g.nodes.filter (· ≠ n)
  edges := g.edges.filter (fun e => e.1 ≠ n ∧ e.2 ≠ n)

end Graph

/-- The `while` loop of `_backtrack_remove` over the predecessors, last one first
(neps/search_spaces/architecture/core_graph_grammar.py:802-810); `rec` is the recursive call, `none`
a raised exception. -/
def backtrackLoop (rec : Graph → ℕ → Option Graph) : List ℕ → Graph → Option Graph
  | [], g => some g
  | u :: us, g =>
    if u ∉ g.nodes then backtrackLoop rec us g
    else if 0 < (g.succs u).length then backtrackLoop rec us g
    else
      match rec g u with
      | none => none
      | some g' => backtrackLoop rec us g'

/-- `_backtrack_remove` (neps/search_spaces/architecture/core_graph_grammar.py:799-811).  `none`
stands for Python's `RecursionError`, when the recursion is deeper than `fuel`. -/
def backtrack : ℕ → Graph → ℕ → Option Graph
  | 0, _, _ => none
  | fuel + 1, g, n => backtrackLoop (backtrack fuel) (g.preds n).reverse (g.removeNode n)

/-- The loop of `prune_unconnected_parts` over the nodes
(neps/search_spaces/architecture/core_graph_grammar.py:816-824). -/
def pruneLoop (fuel src tgt : ℕ) : List ℕ → Graph → Option Graph
  | [], g => some g
  | n :: ns, g =>
    if n ∈ g.nodes then
      if n ≠ src ∧ (g.preds n).length = 0 then pruneLoop fuel src tgt ns (g.removeNode n)
      else if n ≠ tgt ∧ (g.succs n).length = 0 then
        match backtrack fuel g n with
        | none => none
        | some g' => pruneLoop fuel src tgt ns g'
      else pruneLoop fuel src tgt ns g
    else pruneLoop fuel src tgt ns g

/-- `prune_unconnected_parts` (neps/search_spaces/architecture/core_graph_grammar.py:797-825).
`order` is what `nx.topological_sort(graph)` returns. -/
def prune (fuel : ℕ) (order : List ℕ) (g : Graph) (src tgt : ℕ) : Option Graph :=
  pruneLoop fuel src tgt order g

end Verif.Arch
