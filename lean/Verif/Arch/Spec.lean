import Verif.Arch.Model

/-!
# Graphs with one input and one output
-/

namespace Verif.Arch

/-- `g` has an edge from `u` to `v`. -/
def Graph.Edge (g : Graph) (u v : ℕ) : Prop := (u, v) ∈ g.edges

/-- A path, possibly empty, from `u` to `v`. -/
inductive Graph.Path (g : Graph) : ℕ → ℕ → Prop
  | here (u) : Path g u u
  | step {u v w} : g.Edge u v → Path g v w → Path g u w

/-- The node is on a path from the input to the output. -/
def Graph.Useful (g : Graph) (src tgt n : ℕ) : Prop :=
  n ∈ g.nodes ∧ g.Path src n ∧ g.Path n tgt

/-- Both ends of an edge are nodes. -/
def Graph.WF (g : Graph) : Prop := ∀ u v, g.Edge u v → u ∈ g.nodes ∧ v ∈ g.nodes

/-- `order` lists all nodes, each once, and all edges lead from earlier to later ones. -/
structure Topological (g : Graph) (order : List ℕ) : Prop where
  nodup : order.Nodup
  mem : ∀ n, n ∈ order ↔ n ∈ g.nodes
  forward : ∀ u v, g.Edge u v → order.idxOf u < order.idxOf v

end Verif.Arch
