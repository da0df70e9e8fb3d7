import Verif.Repr.Model
import Verif.Arch.Spec
import Mathlib.Logic.Relation

/-!
# What the text of an architecture describes

A composition of topologies and operations, seen as a picture: between the point where the input
enters and the point where the output leaves, a topology puts its edges, and every edge is in turn the
picture of the function that is its argument. What is left are the operations, each leading from one
point to another. Operations that stand for a plain connection pass on what arrives, operations that
stand for no connection pass on nothing.
-/

namespace Verif.Repr

open Verif.Gram (Str Func Forest)
open Verif.Arch (Graph)

/-- A point of the picture: the input, the output, or a vertex inside the topology that is found by
following the arguments of the given numbers. -/
inductive Point
  | source
  | sink
  | inner (path : List ℕ) (vertex : ℕ)
deriving DecidableEq

/-- An operation in the picture. -/
structure Leaf where
  path : List ℕ
  op : Str
  tail : Point
  head : Point
deriving DecidableEq

/-- Where the vertices of a topology are, if it leads from `u` to `v`. -/
def spot (es : List (ℕ × ℕ)) (path : List ℕ) (u v : Point) (x : ℕ) : Point :=
  if x ∉ es.map (·.2) then u else if x ∉ es.map (·.1) then v else .inner path x

mutual
/-- The operations of a function that leads from `u` to `v`; `T` gives the edges of topologies. -/
def leaves (T : Str → List (ℕ × ℕ)) : Func → List ℕ → Point → Point → List Leaf
  | .op x, p, u, v => [⟨p, x, u, v⟩]
  | .comp t args, p, u, v => leavesAll T args (T t) 0 (spot (T t) p u v) p
/-- The operations of the arguments of a topology, one argument for every edge. -/
def leavesAll (T : Str → List (ℕ × ℕ)) : List Func → List (ℕ × ℕ) → ℕ → (ℕ → Point) → List ℕ →
    List Leaf
  | f :: fs, e :: es, i, at_, p =>
    leaves T f (p ++ [i]) (at_ e.1) (at_ e.2) ++ leavesAll T fs es (i + 1) at_ p
  | _, _, _, _, _ => []
end

mutual
/-- Every topology has as many arguments as edges, and only topologies have arguments. -/
def Fits (S : Setup) : Func → Prop
  | .op x => x ∈ S.valid ∧ S.topos.lookup x = none
  | .comp t args => t ∈ S.valid ∧ (∃ es, S.topos.lookup t = some es ∧ args.length = es.length) ∧
      FitsAll S args
/-- The same for a list. -/
def FitsAll (S : Setup) : List Func → Prop
  | [] => True
  | f :: fs => Fits S f ∧ FitsAll S fs
end

/-- The edges of a topology make sense: there are some, none is listed twice, there is exactly one
vertex where nothing arrives and exactly one that nothing leaves, there are no cycles, and no edge is listed before one that ends where
it begins. -/
structure Sensible (es : List (ℕ × ℕ)) : Prop where
  nodup : es.Nodup
  source : ∃! a, a ∈ es.map (·.1) ∧ a ∉ es.map (·.2)
  sink : ∃! b, b ∈ es.map (·.2) ∧ b ∉ es.map (·.1)
  acyclic : ∃ r : ℕ → ℕ, ∀ e ∈ es, r e.1 < r e.2
  forward : es.Pairwise fun e e' => e'.2 ≠ e.1

/-- The edges of a topology. -/
def Setup.edges (S : Setup) (t : Str) : List (ℕ × ℕ) := (S.topos.lookup t).getD []

/-- The operation stands for a plain connection. -/
def Setup.Plain (S : Setup) (op : Str) : Prop := op ∉ S.zero ∧ op ∈ S.ident

/-- The operation stands for itself. -/
def Setup.Proper (S : Setup) (op : Str) : Prop := op ∉ S.zero ∧ op ∉ S.ident

/-- From `P` to `Q` through plain connections only. -/
def Link (S : Setup) (L : List Leaf) : Point → Point → Prop :=
  Relation.ReflTransGen fun P Q => ∃ l ∈ L, S.Plain l.op ∧ l.tail = P ∧ l.head = Q

/-- From `P` to `Q` through any operations that are a connection. -/
def Flow (S : Setup) (L : List Leaf) : Point → Point → Prop :=
  Relation.ReflTransGen fun P Q => ∃ l ∈ L, l.op ∉ S.zero ∧ l.tail = P ∧ l.head = Q

/-- A proper operation on some way from the input to the output. -/
def Used (S : Setup) (L : List Leaf) (l : Leaf) : Prop :=
  l ∈ L ∧ S.Proper l.op ∧ Flow S L .source l.tail ∧ Flow S L l.head .sink

/-- Where a node of the graph hands on its result: the input is node 0, operations have the numbers
`num`. -/
def Exit (S : Setup) (L : List Leaf) (num : List ℕ → ℕ) (a : ℕ) (P : Point) : Prop :=
  (a = 0 ∧ P = .source) ∨ ∃ l, Used S L l ∧ a = num l.path ∧ P = l.head

/-- Where a node of the graph takes what it works on: the output is node 1. -/
def Entry (S : Setup) (L : List Leaf) (num : List ℕ → ℕ) (b : ℕ) (Q : Point) : Prop :=
  (b = 1 ∧ Q = .sink) ∨ ∃ l, Used S L l ∧ b = num l.path ∧ Q = l.tail

/-- The graph shows the used operations of the picture and the connections between them: the input,
the output and every used operation have a node of their own, labelled with its name; there is an edge
exactly where a plain connection leads from the one to the other. -/
structure Shows (S : Setup) (L : List Leaf) (g : Graph) (label : ℕ → Option Str)
    (num : List ℕ → ℕ) : Prop where
  distinct : ∀ l l', Used S L l → Used S L l' → num l.path = num l'.path → l = l'
  apart : ∀ l, Used S L l → num l.path ≠ 0 ∧ num l.path ≠ 1
  nodes : ∀ n, n ∈ g.nodes ↔ n = 0 ∨ n = 1 ∨ ∃ l, Used S L l ∧ n = num l.path
  input : label 0 = some "input".toList
  output : label 1 = some "output".toList
  labels : ∀ l, Used S L l → label (num l.path) = some l.op
  edges : ∀ a b, g.Edge a b ↔
    ∃ P Q, Exit S L num a P ∧ Entry S L num b Q ∧ Link S L P Q

/-! ## Texts -/

/-- A name that can be told apart from the rest of a text: it is not empty, and contains no blanks and
no brackets. -/
def Name (s : Str) : Prop := s ≠ [] ∧ ' ' ∉ s ∧ '(' ∉ s ∧ ')' ∉ s

/-- All symbols of the trees are names, and every nonterminal has children. -/
def Clean : Forest → Prop
  | .nil => True
  | .leaf s rest => Name s ∧ Clean rest
  | .node A kids rest => Name A ∧ kids ≠ .nil ∧ Clean kids ∧ Clean rest

/-- The names of the primitives and topologies can be told apart in a text; a few names of one
character are passed over. -/
def Setup.Lexical (S : Setup) : Prop :=
  ∀ s ∈ S.valid, Name s ∧ s ∉ [[' '], ['\t'], ['\n'], ['['], [']']]

/-- Which terminals are topologies. -/
def Setup.isTopology (S : Setup) (s : Str) : Bool := (S.topos.lookup s).isSome

/-- The function gives a topological order of every graph that has one. -/
def Sorts (order : Graph → List ℕ) : Prop :=
  ∀ g, (∃ o, Arch.Topological g o) → Arch.Topological g (order g)

end Verif.Repr
