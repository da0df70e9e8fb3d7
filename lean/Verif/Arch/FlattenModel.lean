import Verif.Arch.TopoModel
import Mathlib.Algebra.BigOperators.Group.List.Basic

/-!
# Model of flattening nested topologies

`CoreGraphGrammar.flatten_graph` (neps/search_spaces/architecture/core_graph_grammar.py:827-876): the
topologies that are the operations of edges are inserted in place of these edges, so that all
operations of the result are primitive.

Simplifications: values and operations as in the model of calling a topology. Of the attributes of nodes
only the combination of inputs is of interest: `comb_op` is `sum` for all nodes
(neps/search_spaces/architecture/graph.py:126), also for those of a topology with another `merge_fn`.
-/

namespace Verif.Arch

variable {α : Type}

/-- The edges of a composed function in the order of `graph.edges(data=True)`: the operation of an edge
is primitive, or a topology with its own `merge_fn`
(neps/search_spaces/architecture/core_graph_grammar.py:837,868). -/
inductive Net (α : Type) where
  | nil
  | prim (u v : ℕ) (f : α → α) (rest : Net α)
  | sub (u v : ℕ) (merge : List α → α) (inner : Net α) (rest : Net α)

/-- The edges without their operations (neps/search_spaces/architecture/core_graph_grammar.py:837). -/
def Net.pairs : Net α → List (ℕ × ℕ)
  | .nil => []
  | .prim u v _ rest => (u, v) :: pairs rest
  | .sub u v _ _ rest => (u, v) :: pairs rest

/-- A graph whose operations are all primitive
(neps/search_spaces/architecture/core_graph_grammar.py:835). -/
structure Flat (α : Type) where
  nodes : List ℕ
  edges : List (ℕ × ℕ × (α → α))

/-- `add_node` of a node that may be there already
(neps/search_spaces/architecture/core_graph_grammar.py:853-855,862-863). -/
def Flat.addNode (G : Flat α) (n : ℕ) : Flat α :=
  if n ∈ G.nodes then G else { G with nodes := G.nodes ++ [n] }

/-- `add_edge` and the update of its data, which replaces the operation of an edge that is there
(neps/search_spaces/architecture/core_graph_grammar.py:873-874). -/
def Flat.addEdge (G : Flat α) (a b : ℕ) (f : α → α) : Flat α :=
  if G.edges.any (fun e => e.1 = a ∧ e.2.1 = b) then
    { G with edges := G.edges.map fun e => if e.1 = a ∧ e.2.1 = b then (a, b, f) else e }
  else { G with edges := G.edges ++ [(a, b, f)] }

/-- The next number for a node (neps/search_spaces/architecture/core_graph_grammar.py:841-845,859). -/
def Flat.fresh (G : Flat α) : ℕ := if G.nodes = [] then 1 else G.nodes.foldl max 0 + 1

/-- `in_degree(n) == 0` (neps/search_spaces/architecture/core_graph_grammar.py:848). -/
def noInput (all : List (ℕ × ℕ)) (n : ℕ) : Bool := all.all fun e => e.2 ≠ n

/-- `out_degree(n) == 0` (neps/search_spaces/architecture/core_graph_grammar.py:860). -/
def noOutput (all : List (ℕ × ℕ)) (n : ℕ) : Bool := all.all fun e => e.1 ≠ n

/-- The node of the flat graph for a node of the graph: the one it got before, or the wanted one, or a
new one (neps/search_spaces/architecture/core_graph_grammar.py:838-855 and 857-866). -/
def place (wanted : Option ℕ) (n : ℕ) (m : List (ℕ × ℕ)) (G : Flat α) :
    ℕ × List (ℕ × ℕ) × Flat α :=
  match m.lookup n with
  | some a => (a, m, G)
  | none =>
    let a := wanted.getD G.fresh
    (a, (n, a) :: m, G.addNode a)

/-- The loop over the edges (neps/search_spaces/architecture/core_graph_grammar.py:837-874), for a graph
with the edges `all`; `m` is the dictionary `nodes`. -/
def flattenLoop (all : List (ℕ × ℕ)) (start stop : Option ℕ) :
    Net α → List (ℕ × ℕ) → Flat α → Flat α
  | .nil, _, G => G
  | .prim u v f rest, m, G =>
    let p := place (if noInput all u then start else none) u m G
    let q := place (if noOutput all v then stop else none) v p.2.1 p.2.2
    flattenLoop all start stop rest q.2.1 (q.2.2.addEdge p.1 q.1 f)
  | .sub u v _ inner rest, m, G =>
    let p := place (if noInput all u then start else none) u m G
    let q := place (if noOutput all v then stop else none) v p.2.1 p.2.2
    flattenLoop all start stop rest q.2.1
      (flattenLoop inner.pairs (some p.1) (some q.1) inner [] q.2.2)

/-- `flatten_graph(graph)` (neps/search_spaces/architecture/core_graph_grammar.py:827-876). -/
def flatten (N : Net α) : Flat α := flattenLoop N.pairs none none N [] ⟨[], []⟩

/-! ## Specification -/

/-- What arrives at a node. -/
def inputsAt (es : List (ℕ × ℕ × (α → α))) (val : ℕ → α) (v : ℕ) : List α :=
  (es.filter (·.2.1 = v)).map fun e => e.2.2 (val e.1)

/-- The function of a graph, given as a list of edges with the functions of their operations: the
values `val` of the nodes are the input at nodes without incoming edges, and what arrives, merged if it
is more than one, at the others; the output is the value of the nodes without outgoing edges. -/
def Computes (merge : List α → α) (es : List (ℕ × ℕ × (α → α))) (F : α → α) : Prop :=
  ∀ x, ∃ val : ℕ → α,
    (∀ e ∈ es, (∀ e' ∈ es, e'.2.1 ≠ e.1) → val e.1 = x) ∧
    (∀ e ∈ es, val e.2.1 = mergeInputs merge (inputsAt es val e.2.1)) ∧
    (∀ e ∈ es, (∀ e' ∈ es, e'.1 ≠ e.2.1) → val e.2.1 = F x)

/-- The edges of a composed function with the functions of their operations, where an operation that is
a topology is the function which that topology computes. -/
inductive Net.Ops : Net α → List (ℕ × ℕ × (α → α)) → Prop
  | nil : Ops .nil []
  | prim {u v f rest es} : Ops rest es → Ops (.prim u v f rest) ((u, v, f) :: es)
  | sub {u v merge inner rest is F es} : Ops inner is → Computes merge is F → Ops rest es →
      Ops (.sub u v merge inner rest) ((u, v, F) :: es)

/-- The function of a composed function whose outermost topology merges by `merge`. -/
def Net.Function (merge : List α → α) (N : Net α) (F : α → α) : Prop :=
  ∃ es, N.Ops es ∧ Computes merge es F

/-- The edges of a topology: no edge twice, no cycle, one input `s` and one output `t`. -/
structure Level (ps : List (ℕ × ℕ)) (s t : ℕ) : Prop where
  nodup : ps.Nodup
  rank : ∃ ρ : ℕ → ℕ, ∀ e ∈ ps, ρ e.1 < ρ e.2
  source : (∃ v, (s, v) ∈ ps) ∧ ∀ u, (u, s) ∉ ps
  sourceOnly : ∀ e ∈ ps, e.1 = s ∨ ∃ w, (w, e.1) ∈ ps
  sink : (∃ u, (u, t) ∈ ps) ∧ ∀ v, (t, v) ∉ ps
  sinkOnly : ∀ e ∈ ps, e.2 = t ∨ ∃ w, (e.2, w) ∈ ps

/-- All topologies inside are as in `Level` and merge by adding. -/
def Net.Nested [AddCommMonoid α] : Net α → Prop
  | .nil => True
  | .prim _ _ _ rest => Nested rest
  | .sub _ _ merge inner rest =>
    merge = List.sum ∧ (∃ s t, Level inner.pairs s t) ∧ Nested inner ∧ Nested rest

end Verif.Arch
