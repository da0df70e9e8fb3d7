import Verif.Arch.PruneModel

/-!
# Model of the module that is generated from an architecture

`Graph._to_pytorch` (neps/search_spaces/architecture/graph.py:221-336): from a graph to the lines of the
method `forward` of a module and the list of its submodules, and what running these lines does.

Simplifications: the lines are kept as data, and the text that is made of them and given to `exec`
(graph.py:311-328) is left out. All nodes combine their inputs by `sum`, which is what flattening leaves,
and no node holds a subgraph. An operation that is a graph itself (graph.py:288-293), which does not occur
in a flat graph, would be one submodule more.
-/

namespace Verif.Arch

variable {α : Type}

/-- A line of the method: `x{t}=sum([x{a},...])` or `x{t}=self.module_list[{k}](x{a})`
(neps/search_spaces/architecture/graph.py:258,265-267,300). -/
inductive Line where
  | sum (t : ℕ) (args : List ℕ)
  | call (t k a : ℕ)

/-- The variables of the loop (neps/search_spaces/architecture/graph.py:231-236): the attribute `input` of
the nodes, `forward_f`, `used_input_names`, `submodule_list` and `x`. -/
structure Gen (α : Type) where
  input : ℕ → List (ℕ × ℕ)
  lines : List Line
  used : List ℕ
  modules : List (α → α)
  x : ℕ

/-- `max(used_input_names)` (neps/search_spaces/architecture/graph.py:253,284). -/
def Gen.top (g : Gen α) : ℕ := g.used.foldl max 0

/-- `update({key: value})` of a dictionary (neps/search_spaces/architecture/graph.py:307). -/
def dictSet (k v : ℕ) : List (ℕ × ℕ) → List (ℕ × ℕ)
  | [] => [(k, v)]
  | p :: d => if p.1 = k then (k, v) :: d else p :: dictSet k v d

/-- The name of the value of a node, with a line that adds its inputs if they are several
(neps/search_spaces/architecture/graph.py:249-272). A node without inputs gives a line that is no
Python: `none`. -/
def Gen.enter (g : Gen α) (node : ℕ) : Option (Gen α) :=
  match g.input node with
  | [] => none
  | [p] => some { g with
      x := p.2
      used := if p.2 ∈ g.used then g.used else g.used ++ [p.2]
      input := fun w => if w = node then [] else g.input w }
  | d => some { g with
      lines := g.lines ++ [.sum (g.top + 1) (d.map (·.2))]
      x := g.top + 1
      used := if g.top + 1 ∈ g.used then g.used else g.used ++ [g.top + 1]
      input := fun w => if w = node then [] else g.input w }

/-- One outgoing edge (neps/search_spaces/architecture/graph.py:284-307). -/
def Gen.edge (g : Gen α) (e : ℕ × ℕ × (α → α)) : Gen α :=
  { g with
    modules := g.modules ++ [e.2.2]
    lines := g.lines ++ [.call (g.top + 1) g.modules.length g.x]
    used := g.used ++ [g.top + 1]
    input := fun w => if w = e.2.1 then dictSet e.1 (g.top + 1) (g.input w) else g.input w }

/-- One node (neps/search_spaces/architecture/graph.py:237-307); `none` is `NotImplementedError` for a second
output. -/
def Gen.node (G : Flat α) (last : ℕ) (g : Gen α) (n : ℕ) : Option (Gen α) :=
  match g.enter n with
  | none => none
  | some g =>
    let out := G.edges.filter (·.1 = n)
    if out.length = 0 ∧ n < last then none else some (out.foldl Gen.edge g)

/-- The loop over the nodes (neps/search_spaces/architecture/graph.py:237). -/
def Gen.loop (G : Flat α) (last : ℕ) : List ℕ → Gen α → Option (Gen α)
  | [], g => some g
  | n :: ns, g =>
    match g.node G last n with
    | none => none
    | some g => Gen.loop G last ns g

/-- `_to_pytorch` (neps/search_spaces/architecture/graph.py:221-309), with the order of
`lexicographical_topological_sort` given. -/
def generate (G : Flat α) (order : List ℕ) : Option (Gen α) :=
  match G.nodes.find? (fun n => noInput (G.edges.map fun e => (e.1, e.2.1)) n) with
  | none => none
  | some src =>
    Gen.loop G (order.getLast?.getD 0) order
      ⟨fun w => if w = src then [(0, 0)] else [], [], [0], [], 0⟩

/-! ## Running the generated module -/

/-- The values of the names `x{i}`; `none` is a name without a value. -/
abbrev Env (α : Type) := ℕ → Option α

/-- The values of several names. -/
def Env.values (env : Env α) : List ℕ → Option (List α)
  | [] => some []
  | i :: is =>
    match env i, env.values is with
    | some a, some as => some (a :: as)
    | _, _ => none

/-- Running a line (neps/search_spaces/architecture/graph.py:316-322). -/
def Line.run [AddCommMonoid α] (modules : List (α → α)) (env : Env α) : Line → Option (Env α)
  | .sum t args =>
    match env.values args with
    | none => none
    | some as => some fun i => if i = t then some as.sum else env i
  | .call t k a =>
    match modules[k]?, env a with
    | some f, some v => some fun i => if i = t then some (f v) else env i
    | _, _ => none

/-- Running the lines one after the other. -/
def runLines [AddCommMonoid α] (modules : List (α → α)) : List Line → Env α → Option (Env α)
  | [], env => some env
  | l :: ls, env =>
    match l.run modules env with
    | none => none
    | some env => runLines modules ls env

/-- `forward(x0)` of the generated module (neps/search_spaces/architecture/graph.py:309,316). -/
def forward [AddCommMonoid α] (g : Gen α) (x : α) : Option α :=
  match runLines g.modules g.lines fun i => if i = 0 then some x else none with
  | none => none
  | some env => env g.x

/-- `ArchitectureParameter(...).to_pytorch()` for a composed function
(neps/search_spaces/architecture/api.py:137-155): the function is flattened, pruned, and made into a
module. Without `set_recursive_attribute` the variable `m` is read before it is assigned,
`UnboundLocalError`. `orders` are the topological orders of the graph while pruning and when generating
code. Simplification: what `set_recursive_attribute` adds to the operations is part of them from the
beginning. -/
def toPytorch (setRecursive : Bool) (zero : ℕ × ℕ × (α → α) → Bool) (N : Net α)
    (orders : List ℕ × List ℕ) : Option (Gen α) :=
  match pruneFlat zero orders.1 (flatten N) with
  | none => none
  | some G => if setRecursive then generate G orders.2 else none

end Verif.Arch
