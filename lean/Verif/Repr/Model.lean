import Verif.Arch.Model
import Verif.Grammar.ComposeModel
import Mathlib.Data.List.Dedup

/-!
# Model of the graph of an architecture

`CoreGraphGrammar.from_stringTree_to_graph_repr`
(neps/search_spaces/architecture/core_graph_grammar.py:123-596), which gives the value of an
architecture parameter: from the text of a parse tree to a graph whose nodes are operations.

Modelled for the arguments with which an `ArchitectureParameter` calls it
(neps/search_spaces/architecture/api.py:112-131, graph_grammar.py:258-263): `edge_attr=False`,
`prune=True`, and no subgraphs.
-/

namespace Verif.Repr

open Verif.Gram (Str splitSp)
open Verif.Arch (Graph prune)

/-- `(a,) = first_nodes - second_nodes` and `(b,) = second_nodes - first_nodes`
(neps/search_spaces/architecture/core_graph_grammar.py:252-253,314-315,372-373); `none` is the
`ValueError` of the assignment. -/
def endpoints (es : List (ℕ × ℕ)) : Option (ℕ × ℕ) :=
  match ((es.map (·.1)).filter (· ∉ es.map (·.2))).dedup,
    ((es.map (·.2)).filter (· ∉ es.map (·.1))).dedup with
  | [a], [b] => some (a, b)
  | _, _ => none

/-- `edge_to_node_map[e]` (neps/search_spaces/architecture/core_graph_grammar.py:249): the last of
equal edges counts. -/
def edgeNode (es : List (ℕ × ℕ)) (e : ℕ × ℕ) : ℕ := (es.length - 1 - es.reverse.idxOf e) + 2

/-- The loop of `to_node_attributed_edge_list`
(neps/search_spaces/architecture/core_graph_grammar.py:250-266). -/
def nodeEdges (es : List (ℕ × ℕ)) (src tgt : ℕ) : List (ℕ × ℕ) :=
  es.flatMap fun e =>
    (if e.1 = src then [(0, edgeNode es e)] else []) ++
    (if e.2 = tgt then [(edgeNode es e, 1)] else []) ++
    (es.filter (fun e' => e'.2 = e.1)).map fun e' => (edgeNode es e', edgeNode es e)

/-- What is computed for a topology before the text is read: the edges between its operations, the
nodes of the operations in the order of the edges, and the two ends
(neps/search_spaces/architecture/core_graph_grammar.py:295-318). -/
structure Cell where
  edges : List (ℕ × ℕ)
  nodes : List ℕ
  ends : ℕ × ℕ

/-- The computation for one topology; `some none` stands for a topology without edges
(neps/search_spaces/architecture/core_graph_grammar.py:245-266,295-318). -/
def Cell.make (es : List (ℕ × ℕ)) : Option (Option Cell) :=
  if es = [] then some none
  else
    match endpoints es with
    | none => none
    | some (src, tgt) =>
      match endpoints (nodeEdges es src tgt) with
      | none => none
      | some ends => some (some ⟨nodeEdges es src tgt, es.map (edgeNode es), ends⟩)

/-- The same for all topologies, a dictionary
(neps/search_spaces/architecture/core_graph_grammar.py:295-318). -/
def cells : List (Str × List (ℕ × ℕ)) → Option (List (Str × Option Cell))
  | [] => some []
  | (t, es) :: ts =>
    match Cell.make es, cells ts with
    | some c, some cs => some ((t, c) :: cs)
    | _, _ => none

/-- `graph.add_edge` (neps/search_spaces/architecture/core_graph_grammar.py:415,469). -/
def addEdge (g : Graph) (e : ℕ × ℕ) : Graph :=
  let ns := if e.1 ∈ g.nodes then g.nodes else g.nodes ++ [e.1]
  ⟨if e.2 ∈ ns then ns else ns ++ [e.2], if e ∈ g.edges then g.edges else g.edges ++ [e]⟩

/-- `graph.add_edges_from` (neps/search_spaces/architecture/core_graph_grammar.py:415,469). -/
def addEdges (g : Graph) (es : List (ℕ × ℕ)) : Graph := es.foldl addEdge g

/-- The variables of the loop (neps/search_spaces/architecture/core_graph_grammar.py:280-306): the
graph, the attribute `op_name` of its nodes, `q_el` (the top is the head), `node_offset`, and
`src_node` and `sink_node`. -/
structure Draw where
  g : Graph
  label : ℕ → Option Str
  stack : List ℕ
  offset : ℕ
  ends : Option (ℕ × ℕ)

/-- Before the loop (neps/search_spaces/architecture/core_graph_grammar.py:291-306). -/
def Draw.start : Draw where
  g := ⟨[0, 1], []⟩
  label := fun n => if n = 0 then some "input".toList else if n = 1 then some "output".toList else none
  stack := []
  offset := 2
  ends := none

/-- A topology (neps/search_spaces/architecture/core_graph_grammar.py:352-444). -/
def Draw.topology (c : Cell) (s : Draw) : Option Draw :=
  match s.stack with
  | [] =>
    match endpoints c.edges with
    | none => none
    | some ends => some { s with
        g := addEdges s.g c.edges
        stack := c.nodes
        offset := s.offset + c.nodes.foldl max 0
        ends := some ends }
  | n :: stack =>
    if n ∈ s.g.nodes then
      let edges := c.edges.flatMap fun e =>
        if ¬ (e.1 = c.ends.1 ∨ e.2 = c.ends.2) then [(e.1 + s.offset, e.2 + s.offset)]
        else if e.1 = c.ends.1 then (s.g.preds n).map fun a => (a, e.2 + s.offset)
        else (s.g.succs n).map fun b => (e.1 + s.offset, b)
      some { s with
        g := addEdges (s.g.removeNode n) edges
        stack := c.nodes.map (· + s.offset) ++ stack
        offset := s.offset + c.nodes.foldl max 0 }
    else none

/-- A primitive operation (neps/search_spaces/architecture/core_graph_grammar.py:445-446,461-492). -/
def Draw.primitive (zero ident : List Str) (sym : Str) (s : Draw) : Option Draw :=
  match s.stack with
  | [] => none
  | n :: stack =>
    if n ∈ s.g.nodes then
      if sym ∈ zero then some { s with g := s.g.removeNode n, stack := stack }
      else if sym ∈ ident then
        let edges := (s.g.preds n).flatMap fun a => (s.g.succs n).map fun b => (a, b)
        some { s with g := (addEdges s.g edges).removeNode n, stack := stack }
      else some { s with label := fun m => if m = n then some sym else s.label m, stack := stack }
    else none

/-- What the constructor of an architecture parameter determines
(neps/search_spaces/architecture/core_graph_grammar.py:44-88): the names of all primitives and
topologies, the edges of the topologies, and the names of the operations that stand for no connection
and for a plain connection (neps/search_spaces/architecture/graph_grammar.py:206-209). -/
structure Setup where
  valid : List Str
  topos : List (Str × List (ℕ × ℕ))
  zero : List Str := ["Zero".toList, "zero".toList]
  ident : List Str := ["Identity".toList, "id".toList]

/-- A terminal of the tree (neps/search_spaces/architecture/core_graph_grammar.py:351-492). A topology
without edges raises `IndexError` (line 362 or 401). -/
def Draw.symbol (S : Setup) (cs : List (Str × Option Cell)) (sym : Str) (s : Draw) : Option Draw :=
  match cs.lookup sym with
  | some (some c) => s.topology c
  | some none => none
  | none => s.primitive S.zero S.ident sym

/-- `while sym[-1] == ")" and sym not in valid_terminals: sym = sym[:-1]`, for the characters in
reverse order; `none` is the `IndexError` of an empty `sym`
(neps/search_spaces/architecture/core_graph_grammar.py:330-337). -/
def stripClosing (valid : List Str) : Str → Option Str
  | [] => none
  | c :: cs =>
    if c = ')' ∧ (c :: cs).reverse ∉ valid then stripClosing valid cs else some (c :: cs).reverse

/-- One round of the loop (neps/search_spaces/architecture/core_graph_grammar.py:320-492). -/
def Draw.token (S : Setup) (cs : List (Str × Option Cell)) (s : Draw) (w : Str) : Option Draw :=
  match w with
  | [] => some s
  | c :: rest =>
    let sym := if c = '(' then rest else c :: rest
    match stripClosing S.valid sym.reverse with
    | none => none
    | some sym =>
      if sym ∈ [[' '], ['\t'], ['\n'], ['['], [']']] then some s
      else if sym ∈ S.valid ∧ c ≠ '(' then s.symbol S cs sym
      else some s

/-- The graph before pruning (neps/search_spaces/architecture/core_graph_grammar.py:280-569). -/
def drawTree (S : Setup) (tree : Str) : Option Draw :=
  match cells S.topos with
  | none => none
  | some cs =>
    match (splitSp tree).foldlM (Draw.token S cs) Draw.start with
    | none => none
    | some s => if s.stack ≠ [] then none else some s

/-- `from_stringTree_to_graph_repr` (neps/search_spaces/architecture/core_graph_grammar.py:123-596):
the graph and the attribute `op_name` of its nodes. `order` is what `nx.topological_sort` returns.
`none` is an exception; without a topology `src_node` is not bound. -/
def graphRepr (S : Setup) (order : Graph → List ℕ) (tree : Str) :
    Option (Graph × (ℕ → Option Str)) :=
  match drawTree S tree with
  | none => none
  | some s =>
    match s.ends with
    | none => none
    | some (src, sink) =>
      match prune s.g.nodes.length (order s.g) s.g src sink with
      | none => none
      | some g => if g.nodes.length = 0 ∨ g.edges.length = 0 then none else some (g, s.label)

end Verif.Repr
