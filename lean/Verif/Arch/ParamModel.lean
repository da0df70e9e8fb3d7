import Verif.Basic.PyVal

/-!
# An architecture as a parameter

`GraphParameter` and `GraphGrammar` (`neps/search_spaces/architecture/graph_grammar.py`): the string,
the identifier and the graph that an architecture parameter holds, how they are set, copied and
compared, and what a configuration with an architecture becomes in a file.
-/

namespace Verif.Arch

open Neps (PyVal PyErr)

/-- What the arguments of the constructor determine (`input_kwargs`,
`neps/search_spaces/architecture/api.py:80-86`): the graph of a string, `Invalid` strings raise. `repr`
stands for `from_stringTree_to_graph_repr`, or for `get_graph_representation` if
`new_graph_repr_func` is set (`neps/search_spaces/architecture/graph_grammar.py:246-268`). Both begin
with `.split(" ")` or with indexing characters and raise for what is not a string. -/
structure Kind (G : Type) where
  newRepr : Bool := false
  repr : String → Except PyErr G

/-- The graph of an identifier that was handed over, which need not be a string. -/
def Kind.reprVal {G : Type} (K : Kind G) : PyVal → Except PyErr G
  | .str s => K.repr s
  | _ => .error .attributeError

/-- The attributes of a `GraphGrammar` (`neps/search_spaces/architecture/graph_grammar.py:226-234`,
`neps/search_spaces/parameter.py:60-74`). `nodes` are the nodes of the graph that the parameter itself
is, in order; they are there only after `to_pytorch`. -/
structure Param (G : Type) where
  stringTree : PyVal := .str ""
  functionId : PyVal := .str ""
  value : Option G := none
  nodes : List Nat := []
  normalized : Option String := none
  default : Option String := none

variable {G : Type}

/-- `reset` (`neps/search_spaces/architecture/graph_grammar.py:352-356`) and `clear_graph`
(`neps/search_spaces/architecture/core_graph_grammar.py:90-92`). -/
def Param.reset (p : Param G) : Param G :=
  { p with nodes := [], stringTree := .str "", value := none, functionId := .str "" }

/-- The property `id` (`neps/search_spaces/architecture/graph_grammar.py:321-327`) and what it
remembers. -/
def Param.getId (p : Param G) : Except PyErr PyVal × Param G :=
  if p.functionId = .none ∨ p.functionId = .str "" then
    if p.stringTree = .str "" then (.error .valueError, p)
    else (.ok p.stringTree, { p with functionId := p.stringTree })
  else (.ok p.functionId, p)

/-- The property `value` (`neps/search_spaces/architecture/graph_grammar.py:246-268`). -/
def Param.getValue (K : Kind G) (p : Param G) : Except PyErr G × Param G :=
  match p.value with
  | some g => (.ok g, p)
  | none =>
    if K.newRepr then
      match p.getId with
      | (.error e, p) => (.error e, p)
      | (.ok i, p) =>
        match K.reprVal i with
        | .error e => (.error e, p)
        | .ok g => (.ok g, { p with value := some g })
    else
      match K.reprVal p.stringTree with
      | .error e => (.error e, p)
      | .ok g => (.ok g, { p with value := some g })

/-- `create_from_id` (`neps/search_spaces/architecture/graph_grammar.py:333-338`). -/
def Param.createFromId (K : Kind G) (i : PyVal) (p : Param G) : Except PyErr Unit × Param G :=
  let p := { p.reset with functionId := i }
  match p.getId with
  | (.error e, p) => (.error e, p)
  | (.ok j, p) =>
    match Param.getValue K { p with stringTree := j } with
    | (.error e, p) => (.error e, p)
    | (.ok _, p) => (.ok (), p)

/-- `set_value` (`neps/search_spaces/architecture/graph_grammar.py:80-96`). -/
def Param.setValue (K : Kind G) (v : PyVal) (p : Param G) : Except PyErr Unit × Param G :=
  match v with
  | .str s => Param.createFromId K (.str s) { p.reset with normalized := some s }
  | _ => (.error .valueError, p)

/-- `set_default` (`neps/search_spaces/architecture/graph_grammar.py:98-102`). -/
def Param.setDefault (d : Option String) (p : Param G) : Param G := { p with default := d }

/-- `load_from` a value (`neps/search_spaces/architecture/graph_grammar.py:137-141`). -/
def Param.loadFrom (K : Kind G) (v : PyVal) (p : Param G) : Except PyErr Unit × Param G :=
  Param.createFromId K v p

/-- `load_from` another parameter (`neps/search_spaces/architecture/graph_grammar.py:137-141`). -/
def Param.loadFromParam (K : Kind G) (q p : Param G) : Except PyErr Unit × Param G :=
  match q.getId with
  | (.error e, _) => (.error e, p)
  | (.ok i, _) => Param.createFromId K i p

/-- `clone` (`neps/search_spaces/architecture/graph_grammar.py:162-185`): a new parameter; the
attributes are copied only if there is a graph. -/
def Param.clone (p : Param G) : Param G :=
  if p.value.isSome then
    { stringTree := p.stringTree, functionId := p.functionId, value := p.value }
  else {}

/-- `sample` (`neps/search_spaces/architecture/graph_grammar.py:236-244`); `tree` is what the grammar
samples. -/
def Param.sample (K : Kind G) (tree : String) (p : Param G) : Except PyErr (Param G) :=
  match Param.getValue K { p.clone.reset with stringTree := .str tree } with
  | (.error e, _) => .error e
  | (.ok _, q) => .ok q

/-- `create_new_instance_from_id` (`neps/search_spaces/architecture/api.py:157-160`), which ends
`mutate` and `crossover` (`neps/search_spaces/architecture/graph_grammar.py:296-298, 312-315`). -/
def newInstance (K : Kind G) (i : String) : Except PyErr (Param G) :=
  match Param.loadFrom K (.str i) ({} : Param G) with
  | (.error e, _) => .error e
  | (.ok _, q) => .ok q

/-- `__eq__` for two architecture parameters
(`neps/search_spaces/architecture/graph_grammar.py:70-75`). -/
def Param.eq (p q : Param G) : Except PyErr Bool :=
  match p.getId.1, q.getId.1 with
  | .error e, _ => .error e
  | .ok _, .error e => .error e
  | .ok i, .ok j => .ok (decide (i = j))

/-- Giving a parameter its nodes, the part of `to_pytorch` that changes it
(`neps/search_spaces/architecture/api.py:139-153`): the identifier is read and the graph is filled. -/
def Param.build (ns : List Nat) (p : Param G) : Param G :=
  { p.getId.2 with nodes := ns }

/-! ## Configurations with architectures -/

/-- A value of a configuration: `hp_values` hands over the parameter itself if it is an architecture
(`neps/search_spaces/search_space.py:553-558`). -/
inductive HpVal (G : Type)
  | plain (v : PyVal)
  | arch (p : Param G)

/-- A configuration as an optimizer proposes it (`neps/optimizers/random_search/optimizer.py:60-62`,
`neps/optimizers/multi_fidelity/successive_halving.py:454`). -/
abbrev Config (G : Type) := List (String × HpVal G)

/-- What is written for a value (`neps/utils/files.py:14-41`). An architecture parameter has no method
`serialize`, it is no dataclass, no exception, no enumeration and no mapping, but it is a graph and so
an iterable over its nodes (lines 31-32). Plain values are taken as they are, which is right for
values that YAML can represent. -/
def HpVal.stored : HpVal G → PyVal
  | .plain v => v
  | .arch p => .list (p.nodes.map (fun n => .int n))

/-- The configuration in the file (`neps/state/filebased.py:247`). -/
def storedConfig (c : Config G) : List (String × PyVal) := c.map (fun e => (e.1, e.2.stored))

/-- The architecture parameters of a space that is filled from a configuration,
`from_dict` (`neps/search_spaces/search_space.py:660-670`), for the entries that name one of them. -/
def loadArchs (K : String → Option (Kind G)) : List (String × PyVal) →
    Except PyErr (List (String × Param G))
  | [] => .ok []
  | (name, v) :: c =>
    match K name with
    | none => loadArchs K c
    | some k =>
      match Param.loadFrom k v ({} : Param G) with
      | (.error e, _) => .error e
      | (.ok _, p) =>
        match loadArchs K c with
        | .error e => .error e
        | .ok ps => .ok ((name, p) :: ps)

end Verif.Arch
