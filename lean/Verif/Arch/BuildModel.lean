import Verif.Arch.PruneModel

/-!
# Model of the creation of the operations of an architecture

`_build` (neps/search_spaces/architecture/api.py:40-51) gives the attributes that
`set_recursive_attribute` computes to the edges of the flat, pruned graph, `Graph.compile`
(neps/search_spaces/architecture/graph.py:473-505) creates the operations from the attributes.

Attributes are a map from names to values (`EdgeData`, graph.py:516-690, of which only private items
occur; the order of the items does not matter as they are handed over by name).

Simplifications: operations given as lists, as plain functions or as objects, and child graphs, which
do not occur in a flat graph, are left out.  The names are those of operations declared with a
dictionary (`create_graph`, topologies.py:62-64); for a class without one the code stores the property
`get_op_name` itself as the name (line 68).
-/

namespace Verif.Arch

/-- The items of an edge (neps/search_spaces/architecture/graph.py:516-561). -/
abbrev Attrs (V : Type) := String → Option V

/-- `update` with a dictionary (neps/search_spaces/architecture/graph.py:590-592, 642-663). -/
def Attrs.update {V : Type} (a d : Attrs V) : Attrs V := fun k => (d k).or (a k)

/-- The flat graph: nodes and edges in the order of insertion, and the items of the edges. -/
structure OpGraph (V : Type) where
  nodes : List ℕ
  edges : List (ℕ × ℕ)
  attrs : ℕ × ℕ → Attrs V

/-- What can go wrong. -/
inductive BuildErr
  /-- an edge without `op_name` or `op`, `AttributeError` -/
  | missing
  /-- a second node without inputs, `StopIteration` -/
  | noPredecessor
  /-- `set_recursive_attribute` raises -/
  | user
  /-- the class cannot be created with these arguments, `TypeError` -/
  | arguments
  /-- the operation is not a class of operations, `ValueError` -/
  | format
deriving DecidableEq, Repr

variable {V : Type}

/-- `graph.predecessors(n)` (neps/search_spaces/architecture/api.py:43,49). -/
def OpGraph.predecessors (G : OpGraph V) (n : ℕ) : List ℕ :=
  (G.edges.filter (·.2 = n)).map (·.1)

/-- Setting the items of one edge. -/
def OpGraph.put (G : OpGraph V) (e : ℕ × ℕ) (a : Attrs V) : OpGraph V :=
  { G with attrs := fun e' => if e' = e then a else G.attrs e' }

/-- The body of the loops of `_build` for one edge (neps/search_spaces/architecture/api.py:44-51).
`rule` is `set_recursive_attribute`, which is given the name of the operation and `None` or the items of
another edge; `none` is an exception. -/
def OpGraph.buildEdge (rule : V → Option (Attrs V) → Option (Attrs V)) (source : ℕ)
    (G : OpGraph V) (e : ℕ × ℕ) : Except BuildErr (OpGraph V) :=
  match G.attrs e "op_name" with
  | none => .error .missing
  | some name =>
    if e.1 = source then
      match rule name none with
      | none => .error .user
      | some d => .ok (G.put e ((G.attrs e).update d))
    else
      match (G.predecessors e.1).head? with
      | none => .error .noPredecessor
      | some p =>
        match rule name (some (G.attrs (p, e.1))) with
        | none => .error .user
        | some d => .ok (G.put e ((G.attrs e).update d))

/-- The loop over some edges. -/
def OpGraph.buildEdges (rule : V → Option (Attrs V) → Option (Attrs V)) (source : ℕ) :
    List (ℕ × ℕ) → OpGraph V → Except BuildErr (OpGraph V)
  | [], G => .ok G
  | e :: es, G =>
    match G.buildEdge rule source e with
    | .error r => .error r
    | .ok G => OpGraph.buildEdges rule source es G

/-- `_build` (neps/search_spaces/architecture/api.py:40-51), with the order of `nx.topological_sort`
given: the edges are visited node by node, and for each node in the order of its predecessors. -/
def OpGraph.build (rule : V → Option (Attrs V) → Option (Attrs V)) (order : List ℕ) (G : OpGraph V) :
    Except BuildErr (OpGraph V) :=
  match G.nodes.find? fun n => G.predecessors n = [] with
  | none => .error .noPredecessor
  | some source =>
    G.buildEdges rule source (order.flatMap fun n => (G.predecessors n).map fun p => (p, n))

/-- An operation that was created: the class and the arguments. -/
structure Created (C V : Type) where
  cls : C
  args : Attrs V

/-- One edge in `compile` (neps/search_spaces/architecture/graph.py:478-502): `op` and `op_name` are no
arguments.  `isClass` gives the class of operations a value is, `accepts` says whether the class can be
created with the arguments. -/
def compileEdge {C : Type} (isClass : V → Option C) (accepts : C → Attrs V → Bool) (a : Attrs V) :
    Except BuildErr (Created C V) :=
  match a "op" with
  | none => .error .missing
  | some op =>
    match isClass op with
    | none => .error .format
    | some c =>
      let args : Attrs V := fun k => if k = "op" ∨ k = "op_name" then none else a k
      if accepts c args then .ok ⟨c, args⟩ else .error .arguments

/-- `compile` (neps/search_spaces/architecture/graph.py:473-505): the operations of all edges. -/
def OpGraph.compile {C : Type} (isClass : V → Option C) (accepts : C → Attrs V → Bool)
    (G : OpGraph V) : Except BuildErr (List ((ℕ × ℕ) × Created C V)) :=
  G.edges.mapM fun e =>
    match compileEdge isClass accepts (G.attrs e) with
    | .error r => .error r
    | .ok c => .ok (e, c)

/-- Both steps of `to_pytorch` (neps/search_spaces/architecture/api.py:145-153). -/
def OpGraph.operations {C : Type} (isClass : V → Option C) (accepts : C → Attrs V → Bool)
    (rule : V → Option (Attrs V) → Option (Attrs V)) (order : List ℕ) (G : OpGraph V) :
    Except BuildErr (List ((ℕ × ℕ) × Created C V)) :=
  match G.build rule order with
  | .error r => .error r
  | .ok G => G.compile isClass accepts

/-! ## The name of an operation -/

/-- The loop over the parameters of an operation
(neps/search_spaces/architecture/topologies.py:39-49): `sig` are their names and defaults, the declared
values are used where there are some, and 42 for what is missing. -/
def plainArgs (sig : List (String × Option V)) (fortyTwo : V) (declared : Attrs V) : Attrs V :=
  fun k =>
    if k = "self" ∨ k = "kwargs" then none
    else match sig.find? (·.1 = k) with
      | none => none
      | some p => (declared k).or (p.2.or (some fortyTwo))

/-- The arguments with which `create_graph` creates an operation to ask for its name
(neps/search_spaces/architecture/topologies.py:30-56). -/
def nameArgs [DecidableEq V] (sig : List (String × Option V)) (fortyTwo one : V)
    (declared : Attrs V) : Attrs V :=
  match plainArgs sig fortyTwo declared "groups" with
  | none => plainArgs sig fortyTwo declared
  | some g => if g = one then plainArgs sig fortyTwo declared
    else fun k => if k = "c_in" ∨ k = "c_out" then some g else plainArgs sig fortyTwo declared k

end Verif.Arch
