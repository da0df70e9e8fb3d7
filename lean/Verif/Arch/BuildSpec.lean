import Verif.Arch.BuildModel

/-!
# What a user expects of the operations of an architecture
-/

namespace Verif.Arch

variable {V : Type}

/-- A graph to build: one node without inputs, no edge twice, every edge with the name of its
operation, and `order` lists the nodes such that edges lead from earlier to later ones. -/
structure OpGraph.Ready (G : OpGraph V) (source : ℕ) (order : List ℕ) : Prop where
  nodup : G.edges.Nodup
  source_mem : source ∈ G.nodes
  only : ∀ n ∈ G.nodes, (∀ e ∈ G.edges, e.2 ≠ n) ↔ n = source
  ends : ∀ e ∈ G.edges, e.1 ∈ G.nodes ∧ e.2 ∈ G.nodes
  named : ∀ e ∈ G.edges, (G.attrs e "op_name").isSome
  listed : ∀ n ∈ G.nodes, n ∈ order
  sorted : order.Pairwise fun n m => m ≠ n ∧ (m, n) ∉ G.edges
  loopless : ∀ e ∈ G.edges, e.1 ≠ e.2

/-- `result` are the final items of the edges: what was declared, overwritten by what the rule of the
user says for the name of the operation and the *final* items of the first operation that leads to
it, or `None` for the operations at the input. -/
def OpGraph.Follows (G : OpGraph V) (rule : V → Option (Attrs V) → Option (Attrs V)) (source : ℕ)
    (result : ℕ × ℕ → Attrs V) : Prop :=
  ∀ e ∈ G.edges, ∃ name d,
    G.attrs e "op_name" = some name ∧
    ((e.1 = source ∧ rule name none = some d) ∨
      ∃ before w after, e.1 ≠ source ∧ G.edges = before ++ (w, e.1) :: after ∧
        (∀ e' ∈ before, e'.2 ≠ e.1) ∧ rule name (some (result (w, e.1))) = some d) ∧
    ∀ k, result e k = (match d k with | some v => some v | none => G.attrs e k)

/-- A rule that hands a number (of channels, say) from operation to operation: operations at the input
get `first`, the others what the operation before gives as `outKey`; each operation gives `gives
name` of what it gets. -/
structure Passes (rule : V → Option (Attrs V) → Option (Attrs V)) (inKey outKey : String) (first : V)
    (gives : V → V → V) : Prop where
  input : ∀ name d, rule name none = some d →
    d inKey = some first ∧ d outKey = some (gives name first)
  next : ∀ name a d x, rule name (some a) = some d → a outKey = some x →
    d inKey = some x ∧ d outKey = some (gives name x)

end Verif.Arch
