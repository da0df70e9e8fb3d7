import Verif.Grammar.Spec
import Mathlib.Data.List.Sort

/-!
# Model of `Grammar.compute_prior`

`neps/search_spaces/architecture/cfg.py:130-210`: the probability of a parse tree, computed from
its text.  The simplifications of `Verif.Grammar.Model` apply.
-/

namespace Verif.Gram

/-- `symbols` (neps/search_spaces/architecture/cfg.py:133). -/
def Grammar.symbols (g : Grammar) : List Str := g.nonterminals ++ g.terminals

/-- The loop over `_symbols_by_size` (neps/search_spaces/architecture/cfg.py:139-140,173-180): the
longest symbol the text begins with.  Simplification: the text is not cut to `_longest`
characters, no symbol is longer. -/
def longestMatch (g : Grammar) (s : Str) : Option Str :=
  (g.symbols.insertionSort (fun a b => b.length ≤ a.length)).find? (·.isPrefixOf s)

/-- The list comprehensions that keep the productions with a given symbol at position `n`
(neps/search_spaces/architecture/cfg.py:186-190,195-199): `IndexError` if one of them is too
short. -/
def keepAt (ps : List Production) (n : ℕ) (ok : Sym → Bool) : Option (List Production) :=
  if ps.all (fun p => n < p.rhs.length) then
    some (ps.filter (fun p => match p.rhs[n]? with
      | some x => ok x
      | none => false))
  else none

/-- The factor of a production that is closed (neps/search_spaces/architecture/cfg.py:162-170).
With `log` the prior is indexed by the `Nonterminal` instead of its name: `KeyError`. -/
def factor (g : Grammar) (log : Bool) (p : Production) : Option ℚ :=
  if log then none
  else
    match g.prior with
    | none => none
    | some v =>
      match lookup p.lhs v with
      | none => none
      | some ps => ps[(g.productions p.lhs).idxOf p]?

/-- The variables of the loop: `first` says that `i` is 0, `prev` is `string_tree[i - 1]`, `rest`
the text from `i` on, `prob` is `prior_prob` and `stack` is `q_production_rules` with its last
element first (neps/search_spaces/architecture/cfg.py:131-143). -/
structure PSt where
  first : Bool
  prev : Option Char
  rest : Str
  prob : ℚ
  stack : List (List Production × ℕ)

/-- The text behind a symbol (neps/search_spaces/architecture/cfg.py:182,204). -/
def PSt.skip (st : PSt) (sym : Str) (stack : List (List Production × ℕ)) : PSt where
  first := st.first && sym.isEmpty
  prev := if sym = [] then st.prev else sym.getLast?
  rest := st.rest.drop sym.length
  prob := st.prob
  stack := stack

/-- The part of the loop for a symbol (neps/search_spaces/architecture/cfg.py:172-204). -/
def symStep (g : Grammar) (st : PSt) : Option PSt :=
  match longestMatch g st.rest with
  | none => none
  | some sym =>
    if sym ∈ g.terminals then
      match st.stack with
      | [] => none
      | (ps, n) :: stack =>
        (keepAt ps n (· = .t sym)).map fun ps' => st.skip sym ((ps', n + 1) :: stack)
    else
      match st.stack with
      | [] => some (st.skip sym [(g.productions sym, 0)])
      | (ps, n) :: stack =>
        (keepAt ps n (fun x => x.str = sym)).map fun ps' =>
          st.skip sym ((g.productions sym, 0) :: (ps', n + 1) :: stack)

/-- The part of the loop for a closing bracket (neps/search_spaces/architecture/cfg.py:159-171). -/
def closeStep (g : Grammar) (log : Bool) (st : PSt) (c : Char) (cs : Str) : Option PSt :=
  match st.stack with
  | (p :: _, _) :: stack =>
    (factor g log p).map fun q => ⟨false, some c, cs, st.prob * q, stack⟩
  | _ => none

/-- One round of the loop, at the character `c` (neps/search_spaces/architecture/cfg.py:144-204). -/
def priorStep (g : Grammar) (log : Bool) (st : PSt) (c : Char) (cs : Str) : Option PSt :=
  if c = ' ' ∨ c = '\t' ∨ c = '\n' then some ⟨false, some c, cs, st.prob, st.stack⟩
  else if c = '(' ∧ (st.first = true ∨ ¬ (st.prev = some ' ' ∧ cs.head? = some ' ')) then
    some ⟨false, some c, cs, st.prob, st.stack⟩
  else if c = ')' ∧ st.prev ≠ some ' ' then closeStep g log st c cs
  else symStep g st

/-- The loop of `compute_prior` (neps/search_spaces/architecture/cfg.py:142-210).  Every round takes
one unit of `fuel`; without progress (an empty symbol) the code goes on until it raises. -/
def priorGo (g : Grammar) (log : Bool) : ℕ → PSt → Option ℚ
  | 0, _ => none
  | fuel + 1, st =>
    match st.rest with
    | [] => if st.stack.isEmpty then some st.prob else none
    | c :: cs =>
      match priorStep g log st c cs with
      | none => none
      | some st' => priorGo g log fuel st'

/-- `Grammar.compute_prior` (neps/search_spaces/architecture/cfg.py:130-210), which
`GraphGrammar.compute_prior` (neps/search_spaces/architecture/graph_grammar.py:318-319) calls. -/
def computePrior (g : Grammar) (tree : Str) (log : Bool) : Option ℚ :=
  priorGo g log (tree.length + 1) ⟨true, tree.getLast?, tree, if log then 0 else 1, []⟩

/-! ## Specification -/

/-- The product of the probabilities of the productions used in a sequence of trees. -/
def Forest.prob (prob : Str → List Sym → ℚ) : Forest → ℚ
  | .nil => 1
  | .leaf _ rest => rest.prob prob
  | .node A kids rest => prob A kids.heads * kids.prob prob * rest.prob prob

/-- The probability of a tree: that of the production at its root times those below. -/
def treeProb (prob : Str → List Sym → ℚ) (A : Str) (kids : Forest) : ℚ :=
  prob A kids.heads * kids.prob prob

/-- `prob` gives the probabilities that the prior `v` lists in the order of the productions. -/
def Grammar.PriorIs (g : Grammar) (v : List (Str × List ℚ)) (prob : Str → List Sym → ℚ) : Prop :=
  ∀ (A : Str) (i : ℕ) (rhs : List Sym), (g.productions A)[i]? = some ⟨A, rhs⟩ →
    ∃ ps : List ℚ, lookup A v = some ps ∧ ps[i]? = some (prob A rhs)

/-- Grammars whose texts can be read back symbol by symbol: symbols are not empty and hold no white
space or brackets, no terminal is also a nonterminal, nonterminals have productions, and no right
hand side of a nonterminal is a proper prefix of another one. -/
structure Grammar.Readable (g : Grammar) : Prop where
  lhs : ∀ p ∈ g.prods, ' ' ∉ p.lhs ∧ '(' ∉ p.lhs ∧ ')' ∉ p.lhs ∧ '\t' ∉ p.lhs ∧ '\n' ∉ p.lhs ∧
    p.lhs ≠ []
  rhs : ∀ p ∈ g.prods, ∀ s, .t s ∈ p.rhs → ' ' ∉ s ∧ '(' ∉ s ∧ ')' ∉ s ∧ '\t' ∉ s ∧ '\n' ∉ s ∧
    s ≠ []
  apart : ∀ p ∈ g.prods, ∀ q ∈ g.prods, .t q.lhs ∉ p.rhs
  defined : ∀ p ∈ g.prods, ∀ B, .nt B ∈ p.rhs → ∃ q ∈ g.prods, q.lhs = B
  prefixFree : ∀ p ∈ g.prods, ∀ q ∈ g.prods, p.lhs = q.lhs → p.rhs <+: q.rhs → p.rhs = q.rhs

end Verif.Gram
