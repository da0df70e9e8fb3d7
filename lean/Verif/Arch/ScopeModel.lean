import Mathlib.Data.Nat.Notation
import Mathlib.Data.List.Basic

/-!
# Model of `set_scope` and `_get_child_graphs`

`neps/search_spaces/architecture/graph.py:156-174,409-471`, as the constructors of the topologies call
them (`neps/search_spaces/architecture/topologies.py:58-73,108-180`).

Simplifications: an operation is a graph or something else (a class or a primitive operation without
embedded graphs); subgraphs at nodes, which no topology has, are left out; exceptions are `none`.
-/

namespace Verif.Arch.Scope

mutual
/-- A graph: name, scope, nodes and the operations of its edges (`graph.py:131-132`). -/
inductive Net
  | mk (name : ℕ) (scope : Option ℕ) (nodes : List ℕ) (ops : Ops)
/-- The operations at the edges, in order. -/
inductive Ops
  | nil
  | other (rest : Ops)
  | graph (g : Net) (rest : Ops)
end

/-- The nodes: what iterating over a graph gives (a `DiGraph`). -/
def Net.nodes : Net → List ℕ
  | .mk _ _ nodes _ => nodes

/-- The name. -/
def Net.name : Net → ℕ
  | .mk name _ _ _ => name

/-- The scope. -/
def Net.scope : Net → Option ℕ
  | .mk _ scope _ _ => scope

/-- The operations at the edges. -/
def Net.ops : Net → Ops
  | .mk _ _ _ ops => ops

/-- The entries of the list `graphs`: graphs and lists of graphs, `graph.py:428-430`. -/
inductive Obj
  | one (g : Net)
  | many (l : List Net)

/-- `more_itertools.collapse`, `graph.py:462`: whatever can be iterated over is replaced by what it
contains, over and over; a graph can be iterated over, and contains its nodes. -/
def collapse (l : List Obj) : List ℕ :=
  l.flatMap fun o => match o with
    | .one g => g.nodes
    | .many gs => gs.flatMap Net.nodes

/-- `sorted(graphs, key=lambda g: g.name)`, `graph.py:471`: a number has no name. -/
def sortedByName : List ℕ → Option (List Net)
  | [] => some []
  | _ :: _ => none

mutual
/-- `_get_child_graphs`, `graph.py:409-471`. -/
def childGraphs : Net → Option (List Net)
  | .mk _ _ _ ops => (childObjs ops).bind fun l => sortedByName (collapse l)
/-- The loop over the edges, `graph.py:427-460`. -/
def childObjs : Ops → Option (List Obj)
  | .nil => some []
  | .other rest => childObjs rest
  | .graph g rest => match childGraphs g with
    | none => none
    | some l => (childObjs rest).map fun r => .one g :: .many l :: r
end

/-- `set_scope`, `graph.py:156-174`: what is listed as a child is given the scope too (only the graph
itself is returned here). -/
def setScope (g : Net) (scope : ℕ) : Option Net :=
  (childGraphs g).map fun _ => .mk g.name (some scope) g.nodes g.ops

/-- The first operations, as many as there are edges: `dict(zip(self.edge_list, edge_vals))`,
`topologies.py:117`. -/
def Ops.take : ℕ → Ops → Ops
  | 0, _ => .nil
  | _ + 1, .nil => .nil
  | n + 1, .other rest => .other (rest.take n)
  | n + 1, .graph g rest => .graph g (rest.take n)

/-- How many operations there are. -/
def Ops.length : Ops → ℕ
  | .nil => 0
  | .other rest => rest.length + 1
  | .graph _ rest => rest.length + 1

/-- The constructor of a topology, `topologies.py:108-180` with `create_graph`, `topologies.py:58-73`: an
edge is added for each pair of the edge list and the operations, and the scope is set. -/
def build (name : ℕ) (edges : List (ℕ × ℕ)) (vals : Ops) : Option Net :=
  setScope (.mk name none (((edges.take vals.length).flatMap fun e => [e.1, e.2]).dedup)
    (vals.take edges.length)) name

mutual
/-- What an architecture describes: a primitive operation, or a topology with its name and edge list
applied to parts. -/
inductive Term
  | prim
  | topo (name : ℕ) (edges : List (ℕ × ℕ)) (args : Terms)
/-- A list of parts. -/
inductive Terms
  | nil
  | cons (t : Term) (rest : Terms)
end

mutual
/-- The composition of the functions, bottom up, as `_compose_functions` calls the topologies
(`neps/search_spaces/architecture/core_graph_grammar.py:910-921`; that it calls them like this is C109).
The result is a primitive operation, `some none`, or a graph. -/
def compose : Term → Option (Option Net)
  | .prim => some none
  | .topo name edges args => (composeAll args).bind fun vals => (build name edges vals).map some
/-- The parts. -/
def composeAll : Terms → Option Ops
  | .nil => some .nil
  | .cons t rest => match compose t with
    | none => none
    | some none => (composeAll rest).map .other
    | some (some g) => (composeAll rest).map (.graph g)
end

/-- `compile`, `graph.py:473-505`, whose first step lists the child graphs: whether it gets past it. -/
def compiles (g : Net) : Bool := (childGraphs g).isSome

end Verif.Arch.Scope
