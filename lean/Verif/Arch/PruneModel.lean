import Verif.Arch.FlattenModel
import Verif.Arch.Spec

/-!
# Model of pruning the graph of an architecture

`CoreGraphGrammar.prune_graph` (neps/search_spaces/architecture/core_graph_grammar.py:726-795) for a
graph with operations on the edges: edges with a zero operation are removed, then the parts that are
not on a path from the input to the output.

Simplification: which edges of the flat graph have a zero operation is given by `zero`; the test itself
is `isZeroOp`.
-/

namespace Verif.Arch

variable {α : Type}

/-- `part in name` for strings (neps/search_spaces/architecture/core_graph_grammar.py:755). -/
def partOf (part : List Char) : List Char → Bool
  | [] => part.isEmpty
  | c :: name => part.isPrefixOf (c :: name) || partOf part name

/-- `any(zero_op in edge_data.op_name for zero_op in self.zero_op)`
(neps/search_spaces/architecture/core_graph_grammar.py:755): one of the names is part of the name of
the operation. -/
def isZeroOp (zeroOps : List (List Char)) (name : List Char) : Bool := zeroOps.any fun z => partOf z name

/-- `graph.remove_edges_from(remove_edge_list)`
(neps/search_spaces/architecture/core_graph_grammar.py:774). -/
def Flat.dropZero (zero : ℕ × ℕ × (α → α) → Bool) (G : Flat α) : Flat α :=
  { G with edges := G.edges.filter fun e => !zero e }

/-- The graph without the operations. -/
def Flat.graph (G : Flat α) : Graph := ⟨G.nodes, G.edges.map fun e => (e.1, e.2.1)⟩

/-- `prune_graph()` (neps/search_spaces/architecture/core_graph_grammar.py:726-795); `none` is a raised
exception, for a graph with several inputs or outputs. `order` is what `nx.topological_sort` returns for
the graph after the removal of edges. -/
def pruneFlat (zero : ℕ × ℕ × (α → α) → Bool) (order : List ℕ) (G : Flat α) : Option (Flat α) :=
  match G.nodes.filter (noInput (G.edges.map fun e => (e.1, e.2.1))),
      G.nodes.filter (noOutput (G.edges.map fun e => (e.1, e.2.1))) with
  | [src], [tgt] =>
    let H := G.dropZero zero
    match prune H.nodes.length order H.graph src tgt with
    | none => none
    | some g => some ⟨g.nodes, H.edges.filter fun e => g.edges.contains (e.1, e.2.1)⟩
  | _, _ => none

end Verif.Arch
