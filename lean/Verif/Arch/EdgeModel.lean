import Mathlib.Logic.Function.Basic
import Mathlib.Data.Nat.Notation

/-!
# Model of `EdgeData`

The items of the edges of an architecture, `neps/search_spaces/architecture/graph.py:516-690`. An edge
holds two dictionaries, of private and of shared items; dictionaries are objects that several edges can
hold, so the model has a heap of dictionaries and an edge is a pair of references.

Simplifications: values are numbers, so that a deep copy of a value is the value; the order of the items
in a dictionary is left out; exceptions are `none`.
-/

namespace Verif.Arch.Edge

/-- The name of an item. -/
abbrev Key := List Char

/-- A dictionary. -/
abbrev Dict := Key → Option ℕ

/-- All dictionaries, the number of dictionaries, and for each edge its private and its shared one. -/
structure St where
  heap : ℕ → Dict
  next : ℕ
  edges : List (ℕ × ℕ)

/-- `key.startswith("_")` -/
def internal (k : Key) : Bool := k.head? = some '_'

/-- `"_final"`, `graph.py:541`. -/
def kFinal : Key := ['_', 'f', 'i', 'n', 'a', 'l']

/-- `"_deleted"`, `graph.py:540`. -/
def kDeleted : Key := ['_', 'd', 'e', 'l', 'e', 't', 'e', 'd']

/-- `"op"`, `graph.py:544`. -/
def kOp : Key := ['o', 'p']

/-- `Identity()`, `graph.py:544`. -/
def identity : ℕ := 1

/-- An assignment to an item of a dictionary, or its deletion. -/
def put (h : ℕ → Dict) (r : ℕ) (k : Key) (v : Option ℕ) : ℕ → Dict :=
  Function.update h r (Function.update (h r) k v)

/-- `set`, `graph.py:642-663`, with `is_final`, `graph.py:674-678`. -/
def setItem (s : St) (i : ℕ) (k : Key) (v : ℕ) (shared : Bool) : Option St :=
  match s.edges[i]? with
  | none => none
  | some (p, q) =>
    if internal k then none
    else match s.heap p kFinal with
      | none => none
      | some (_ + 1) => none
      | some 0 =>
        if shared then
          if (s.heap p k).isSome then none else some { s with heap := put s.heap q k (some v) }
        else if (s.heap q k).isSome then none
        else some { s with heap := put s.heap p k (some v) }

/-- The loop of `update` with a dictionary, `graph.py:590-592`: an exception leaves what was set before. -/
def setAll (s : St) (i : ℕ) : List (Key × ℕ) → St × Bool
  | [] => (s, true)
  | (k, v) :: d => match setItem s i k v false with
    | none => (s, false)
    | some s' => setAll s' i d

/-- `__init__` without data, `graph.py:528-544`. -/
def fresh (s : St) : St where
  heap := put (put (put (Function.update (Function.update s.heap s.next fun _ => none) (s.next + 1)
    fun _ => none) (s.next + 1) kDeleted (some 0)) s.next kFinal (some 0)) s.next kOp (some identity)
  next := s.next + 2
  edges := s.edges ++ [(s.next, s.next + 1)]

/-- The operations on edges; edges are numbered in the order in which they are created. -/
inductive Op
  | new (data : List (Key × ℕ))
  | set (i : ℕ) (k : Key) (v : ℕ) (shared : Bool)
  | update (i : ℕ) (data : List (Key × ℕ))
  | updateEdge (i j : ℕ)
  | remove (i : ℕ) (k : Key)
  | copy (i : ℕ)
  | clone (i : ℕ)

/-- One operation; the flag is whether it returned without exception. -/
def step (s : St) : Op → St × Bool
  -- `__init__` with data, `graph.py:528-547`; with an exception there is no new edge
  | .new data => match setAll (fresh s) s.edges.length data with
    | (s', true) => (s', true)
    | (_, false) => (s, false)
  | .set i k v shared => match setItem s i k v shared with
    | some s' => (s', true)
    | none => (s, false)
  | .update i data => match s.edges[i]? with
    | some _ => setAll s i data
    | none => (s, false)
  -- `update` with an edge, `graph.py:593-595`: the references are taken over
  | .updateEdge i j => match s.edges[i]?, s.edges[j]? with
    | some _, some e => ({ s with edges := s.edges.set i e }, true)
    | _, _ => (s, false)
  -- `remove`, `graph.py:599-610`
  | .remove i k => match s.edges[i]? with
    | none => (s, false)
    | some (p, q) =>
      if (s.heap p k).isSome then ({ s with heap := put s.heap p k none }, true)
      else if (s.heap q k).isSome then ({ s with heap := put s.heap q k none }, true)
      else (s, false)
  -- `copy`, `graph.py:612-640`: a new private dictionary, the same shared one
  | .copy i => match s.edges[i]? with
    | none => (s, false)
    | some (p, q) =>
      ({ heap := Function.update s.heap s.next (s.heap p), next := s.next + 1,
         edges := s.edges ++ [(s.next, q)] }, true)
  -- `clone`, `graph.py:665-672`: two new dictionaries
  | .clone i => match s.edges[i]? with
    | none => (s, false)
    | some (p, q) =>
      ({ heap := Function.update (Function.update s.heap s.next (s.heap p)) (s.next + 1) (s.heap q),
         next := s.next + 2, edges := s.edges ++ [(s.next, s.next + 1)] }, true)

/-- The state before any operation. -/
def start : St := ⟨fun _ _ => none, 0, []⟩

/-- A history of operations; a refused one is skipped. -/
def run (l : List Op) : St := l.foldl (fun s o => (step s o).1) start

/-- `edge[key]` and `edge.key`, `graph.py:549-568`. -/
def read (s : St) (i : ℕ) (k : Key) : Option ℕ :=
  if internal k then none
  else match s.edges[i]? with
    | none => none
    | some (p, q) => match s.heap p k with
      | some v => some v
      | none => s.heap q k

/-- `to_dict("private")`, `graph.py:683-684`, as a function of the name. -/
def privates (s : St) (i : ℕ) (k : Key) : Option ℕ :=
  if internal k then none else (s.edges[i]?).bind fun e => s.heap e.1 k

/-- `to_dict("shared")`, `graph.py:681-682`. -/
def shareds (s : St) (i : ℕ) (k : Key) : Option ℕ :=
  if internal k then none else (s.edges[i]?).bind fun e => s.heap e.2 k

/-- `to_dict("all")`, `graph.py:685-688`: the shared items are written over the private ones. -/
def allItems (s : St) (i : ℕ) (k : Key) : Option ℕ :=
  match shareds s i k with
  | some v => some v
  | none => privates s i k

end Verif.Arch.Edge
