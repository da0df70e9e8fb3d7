import Mathlib.Data.List.Basic
import Mathlib.Data.List.Dedup

/-!
# Model of calling a topology

`AbstractTopology.__call__` and the topologies of
`neps/search_spaces/architecture/topologies.py`.

Simplifications, for the whole file: the nodes are natural numbers; what flows along the edges are
values of some type `α`, an operation is a function `α → α`.  The names and scopes that
`create_graph` and `set_scope` store are left out, and with them the exception `set_scope` raises for
topologies nested in topologies, which is in `ScopeModel.lean`.
-/

namespace Verif.Arch

variable {α : Type}

/-- A topology after `create_graph` (neps/search_spaces/architecture/topologies.py:30-73): the edges
in the order of their insertion, the operation of each edge, and `merge_fn`
(topologies.py:20). -/
structure Topology (α : Type) where
  edges : List (ℕ × ℕ)
  op : ℕ × ℕ → α → α
  merge : List α → α

namespace Topology

/-- `self.nodes`: the end points of the edges in the order in which `add_edge` meets them
(neps/search_spaces/architecture/topologies.py:60-61). -/
def nodes (T : Topology α) : List ℕ :=
  T.edges.foldl (fun ns e =>
    let ns := if e.1 ∈ ns then ns else ns ++ [e.1]
    if e.2 ∈ ns then ns else ns ++ [e.2]) []

/-- `self.in_degree(node)` (neps/search_spaces/architecture/topologies.py:80). -/
def inDegree (T : Topology α) (v : ℕ) : ℕ := (T.edges.filter (·.2 = v)).length

/-- `self.successors(node)` (neps/search_spaces/architecture/topologies.py:99). -/
def successors (T : Topology α) (u : ℕ) : List ℕ := (T.edges.filter (·.1 = u)).map (·.2)

end Topology

/-- The variables of `__call__` (neps/search_spaces/architecture/topologies.py:80-85): `cur` is
`cur_node_idx`, `curs` and `nexts` are the two queues, `pins` is `predecessor_inputs`. -/
structure CallState (α : Type) where
  cur : ℕ
  curs : List ℕ
  nexts : List ℕ
  inputs : Option α
  pins : ℕ → Option (List α)

/-- What a node hands on, from what arrived there
(neps/search_spaces/architecture/topologies.py:102-105). -/
def mergeInputs (merge : List α → α) : List α → α
  | [a] => a
  | l => merge l

/-- One round of the loop (neps/search_spaces/architecture/topologies.py:86-105) when one of the
queues is not empty; `none` is a raised exception (no such key).  The code calls
`out_degree` before it looks at the successors, which makes no difference. -/
def callStep (T : Topology α) (s : CallState α) : Option (CallState α) :=
  match s.curs with
  | v :: curs =>
    match s.inputs with
    | none => none
    | some x =>
      some { s with
        curs := curs
        nexts := if v ∈ s.nexts then s.nexts else s.nexts ++ [v]
        pins := fun w =>
          if w = v then some (((s.pins v).getD []) ++ [T.op (s.cur, v) x]) else s.pins w }
  | [] =>
    match s.nexts with
    | [] => none
    | c :: nexts =>
      match s.pins c with
      | none => none
      | some l =>
        some { s with
          cur := c
          curs := T.successors c
          nexts := nexts
          inputs := some (mergeInputs T.merge l) }

/-- The loop (neps/search_spaces/architecture/topologies.py:86-106).  Simplification: `none` also if
the loop takes more than `fuel` rounds. -/
def callLoop (T : Topology α) : ℕ → CallState α → Option α
  | fuel, s =>
    if s.curs = [] ∧ s.nexts = [] then s.inputs
    else
      match fuel with
      | 0 => none
      | fuel + 1 =>
        match callStep T s with
        | none => none
        | some s' => callLoop T fuel s'

/-- `AbstractTopology.__call__` (neps/search_spaces/architecture/topologies.py:79-106). -/
def call (T : Topology α) (fuel : ℕ) (x : α) : Option α :=
  match T.nodes.find? (fun v => T.inDegree v = 0) with
  | none => none
  | some src => callLoop T fuel ⟨src, [], [src], none, fun v => if v = src then some [x] else none⟩

/-- `create_graph(dict(zip(edge_list, edge_vals)))`
(neps/search_spaces/architecture/topologies.py:117,143,154,165,178): the edges for which there is an
operation.  Simplification: the edges of the list are pairwise different, as they are in all lists
below. -/
def mkTopology (edges : List (ℕ × ℕ)) (ops : List (α → α)) (merge : List α → α) : Topology α where
  edges := ((edges.zip ops).map (·.1))
  op := fun e => (((edges.zip ops).find? (·.1 = e)).map (·.2)).getD id
  merge := merge

/-- `_SequentialNEdge.get_edge_list` (neps/search_spaces/architecture/topologies.py:120-122). -/
def sequentialEdges (n : ℕ) : List (ℕ × ℕ) := (List.range n).map fun i => (i + 1, i + 2)

/-- `Residual.edge_list` (neps/search_spaces/architecture/topologies.py:133-137). -/
def residualEdges : List (ℕ × ℕ) := [(1, 2), (1, 3), (2, 3)]

/-- `Diamond.edge_list` (neps/search_spaces/architecture/topologies.py:148). -/
def diamondEdges : List (ℕ × ℕ) := [(1, 2), (1, 3), (2, 4), (3, 4)]

/-- `DiamondMid.edge_list` (neps/search_spaces/architecture/topologies.py:159). -/
def diamondMidEdges : List (ℕ × ℕ) := [(1, 2), (1, 3), (2, 3), (2, 4), (3, 4)]

/-- `_DenseNNodeDAG.get_edge_list` (neps/search_spaces/architecture/topologies.py:181-183). -/
def denseEdges (n : ℕ) : List (ℕ × ℕ) :=
  (List.range n).flatMap fun j => (List.range j).map fun i => (i + 1, j + 1)

/-! ## Specification -/

/-- `val` is what flows through the nodes when `x` enters at node 1: a node with one incoming edge
holds what that edge makes of the value it comes from, and a node with several incoming edges merges
what these make of theirs. -/
def Flow (edges : List (ℕ × ℕ)) (op : ℕ × ℕ → α → α) (merge : List α → α) (x : α)
    (val : ℕ → α) : Prop :=
  val 1 = x ∧
  (∀ u v, edges.filter (·.2 = v) = [(u, v)] → val v = op (u, v) (val u)) ∧
  (∀ v, 2 ≤ (edges.filter (·.2 = v)).length →
    val v = merge ((edges.filter (·.2 = v)).map fun e => op e (val e.1)))

/-- The edges of a graph on the nodes `1, ..., n` numbered breadth first from the only source 1:
edges go up, every node but 1 has an incoming edge, both the outgoing and the incoming edges of a
node are listed by number, and a node is met no later than those with higher numbers. -/
structure BreadthFirst (n : ℕ) (edges : List (ℕ × ℕ)) : Prop where
  up : ∀ e ∈ edges, 1 ≤ e.1 ∧ e.1 < e.2 ∧ e.2 ≤ n
  met : ∀ v, 2 ≤ v → v ≤ n → ∃ u, (u, v) ∈ edges
  out : ∀ u, ((edges.filter (·.1 = u)).map (·.2)).Pairwise (· < ·)
  inc : ∀ v, ((edges.filter (·.2 = v)).map (·.1)).Pairwise (· < ·)
  first : ∀ u v w, (u, v) ∈ edges → 2 ≤ w → w ≤ v → ∃ t ≤ u, (t, w) ∈ edges

/-- The five topologies of the module, with the number of their nodes. -/
inductive Builtin : ℕ → List (ℕ × ℕ) → Prop
  | sequential (n : ℕ) : Builtin (n + 2) (sequentialEdges (n + 1))
  | residual : Builtin 3 residualEdges
  | diamond : Builtin 4 diamondEdges
  | diamondMid : Builtin 4 diamondMidEdges
  | dense (n : ℕ) : Builtin (n + 2) (denseEdges (n + 2))

end Verif.Arch
