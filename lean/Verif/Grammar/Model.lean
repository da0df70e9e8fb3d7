import Mathlib.Data.Rat.Defs
import Mathlib.Algebra.Order.Ring.Unbundled.Rat
import Mathlib.Data.List.Dedup

/-!
# Model of architecture grammars

`neps/search_spaces/architecture/cfg.py`, `mutations.py`, `crossover.py`: context free grammars
of architectures, sampling of parse trees, and the genetic operations on their text.

Simplifications, for the whole file: a string is its list of characters; the probabilities of a
prior are exact rational numbers; `none` is a raised exception (also Python's `RecursionError`,
when the recursion is deeper than `fuel`).  The random generators are the lists of the numbers
they return, in the order in which the code asks for them: a list that is too short, or that holds
a number the generator cannot return, also gives `none`.
-/

namespace Verif.Gram

/-- A Python string. -/
abbrev Str := List Char

/-- A symbol of the right hand side of a production: `nltk`'s `Nonterminal` or a string
(neps/search_spaces/architecture/cfg.py:116-120). -/
inductive Sym where
  | nt (s : Str)
  | t (s : Str)
deriving DecidableEq, Repr

/-- `str(sym)` (neps/search_spaces/architecture/cfg.py:24,198). -/
def Sym.str : Sym → Str
  | .nt s => s
  | .t s => s

/-- `nltk.Production` (imported at neps/search_spaces/architecture/cfg.py:7). -/
structure Production where
  lhs : Str
  rhs : List Sym
deriving DecidableEq, Repr

/-- `Grammar` (neps/search_spaces/architecture/cfg.py:11-44): the productions, the start symbol
and `_prior`, the probabilities of the productions of each nonterminal.  Simplification: the
lists derived from the productions in `__init__` are functions below. -/
structure Grammar where
  start : Str
  prods : List Production
  prior : Option (List (Str × List ℚ))

namespace Grammar

/-- `self.productions(lhs=...)` of `nltk.CFG` (used at
neps/search_spaces/architecture/cfg.py:55,107,136,165). -/
def productions (g : Grammar) (A : Str) : List Production := g.prods.filter (·.lhs = A)

/-- `non_unique_nonterminals` (neps/search_spaces/architecture/cfg.py:21). -/
def lhss (g : Grammar) : List Str := g.prods.map (·.lhs)

/-- `self.nonterminals` (neps/search_spaces/architecture/cfg.py:22).  Simplification: the order
of `list(set(...))` is the order of the last occurrences. -/
def nonterminals (g : Grammar) : List Str := g.lhss.dedup

/-- `self.terminals` (neps/search_spaces/architecture/cfg.py:23-26): every symbol of a right hand
side, without the nonterminals. -/
def terminals (g : Grammar) : List Str :=
  ((g.prods.flatMap (·.rhs)).map Sym.str).dedup.filter (· ∉ g.nonterminals)

/-- `self.swappable_nonterminals` (neps/search_spaces/architecture/cfg.py:28-30). -/
def swappable (g : Grammar) : List Str := (g.lhss.filter (1 < g.lhss.count ·)).dedup

/-- The two checks at the end of `__init__` (neps/search_spaces/architecture/cfg.py:34-40). -/
def init (g : Grammar) : Option Grammar :=
  if 0 < (g.terminals.filter (· ∈ g.nonterminals)).length then none
  else if g.nonterminals.any (fun A => (g.productions A).length == 0) then none
  else some { g with prior := none }

end Grammar

/-- Look-up in a dict (the first entry of a key counts: keys of a dict are unique). -/
def lookup (A : Str) : List (Str × β) → Option β
  | [] => none
  | (k, v) :: rest => if k = A then some v else lookup A rest

/-- `math.isclose(a, 1.0)` with the default tolerances
(neps/search_spaces/architecture/cfg.py:60). -/
def isCloseOne (a : ℚ) : Bool := decide (|a - 1| ≤ 1 / 1000000000 * max |a| 1)

/-- `_check_prior` for one nonterminal (neps/search_spaces/architecture/cfg.py:49-63). -/
def checkPrior (g : Grammar) (value : List (Str × List ℚ)) (A : Str) : Bool :=
  match lookup A value with
  | none => false
  | some ps => ps.length == (g.productions A).length && isCloseOne ps.sum

/-- The setter of `prior` (neps/search_spaces/architecture/cfg.py:46-67). -/
def setPrior (g : Grammar) (value : Option (List (Str × List ℚ))) : Option Grammar :=
  match value with
  | none => some { g with prior := none }
  | some v => if g.nonterminals.all (checkPrior g v) then some { g with prior := some v } else none

/-- `np.random.choice` of one of `n` elements, with probabilities `p` if they are given
(neps/search_spaces/architecture/cfg.py:112,114): an element with probability zero is never
chosen, and probabilities of the wrong number or below zero raise.  Simplification: the check of `numpy` that
the probabilities sum to one is left out (the setter of `prior` has made it). -/
def choice (n : ℕ) (p : Option (List ℚ)) : List ℕ → Option (ℕ × List ℕ)
  | [] => none
  | d :: ds =>
    match p with
    | none => if d < n then some (d, ds) else none
    | some ps =>
      if ps.length = n ∧ ps.all (0 ≤ ·) then
        match ps[d]? with
        | some q => if q = 0 then none else some (d, ds)
        | none => none
      else none

/-- `_cache` (neps/search_spaces/architecture/cfg.py:96,101-102). -/
abbrev Cache := List (Str × Str)

/-- The loop of `_sampler` over the right hand side (neps/search_spaces/architecture/cfg.py:116-128).
`rec` is the recursive call; the shared dict `_cache` and the random numbers are passed on. -/
def expand (rec : Str → Cache → List ℕ → Option (Str × Cache × List ℕ)) :
    List Sym → Str → Cache → List ℕ → Option (Str × Cache × List ℕ)
  | [], tree, c, ds => some (tree, c, ds)
  | .t s :: rhs, tree, c, ds => expand rec rhs (tree ++ [' '] ++ s) c ds
  | .nt A :: rhs, tree, c, ds =>
    match lookup A c with
    | some cached => expand rec rhs (tree ++ [' '] ++ cached ++ [')']) c ds
    | none =>
      match rec A c ds with
      | none => none
      | some (s, c', ds') => expand rec rhs (tree ++ [' '] ++ s ++ [')']) ((A, s) :: c') ds'

/-- The probabilities given to `np.random.choice`
(neps/search_spaces/architecture/cfg.py:111-114); the outer `none` is a `KeyError`. -/
def probsFor (g : Grammar) (userPriors : Bool) (A : Str) : Option (Option (List ℚ)) :=
  if userPriors then
    match g.prior with
    | some p => (lookup A p).map some
    | none => some none
  else some none

/-- `_sampler` (neps/search_spaces/architecture/cfg.py:91-128).  The result has no closing
bracket: the callers add it. -/
def samplerRec (g : Grammar) (userPriors : Bool) :
    ℕ → Str → Cache → List ℕ → Option (Str × Cache × List ℕ)
  | 0, _, _, _ => none
  | fuel + 1, A, c, ds =>
    let productions := g.productions A
    if productions.length = 0 then none
    else
      match probsFor g userPriors A with
      | none => none
      | some p =>
        match choice productions.length p ds with
        | none => none
        | some (i, ds) =>
          match productions[i]? with
          | none => none
          | some production =>
            expand (samplerRec g userPriors fuel) production.rhs ('(' :: A) c ds

/-- One element of the list of `sampler` (neps/search_spaces/architecture/cfg.py:86-89): every
element starts with an empty cache. -/
def sampleOne (g : Grammar) (userPriors : Bool) (fuel : ℕ) (A : Str) (ds : List ℕ) :
    Option (Str × List ℕ) :=
  match samplerRec g userPriors fuel A [] ds with
  | none => none
  | some (s, _, ds) => some (s ++ [')'], ds)

/-- The list comprehension of `sampler` (neps/search_spaces/architecture/cfg.py:86-89). -/
def samplerList (g : Grammar) (userPriors : Bool) (fuel : ℕ) (A : Str) :
    ℕ → List ℕ → Option (List Str × List ℕ)
  | 0, ds => some ([], ds)
  | n + 1, ds =>
    match sampleOne g userPriors fuel A ds with
    | none => none
    | some (s, ds) =>
      match samplerList g userPriors fuel A n ds with
      | none => none
      | some (ss, ds) => some (s :: ss, ds)

/-- `sampler` (neps/search_spaces/architecture/cfg.py:69-89). -/
def sampler (g : Grammar) (fuel n : ℕ) (startSymbol : Option Str) (userPriors : Bool)
    (ds : List ℕ) : Option (List Str × List ℕ) :=
  samplerList g userPriors fuel (startSymbol.getD g.start) n ds

/-! ### Text -/

/-- `str.split(" ")` (neps/search_spaces/architecture/cfg.py:292,312,344). -/
def splitSp : Str → List Str
  | [] => [[]]
  | c :: cs =>
    if c = ' ' then [] :: splitSp cs
    else
      match splitSp cs with
      | [] => [[c]]
      | w :: ws => (c :: w) :: ws

/-- `" ".join` (neps/search_spaces/architecture/cfg.py:345,347). -/
def joinSp : List Str → Str
  | [] => []
  | [w] => w
  | w :: ws => w ++ ' ' :: joinSp ws

/-- `str.strip()` (neps/search_spaces/architecture/cfg.py:238,267-268). -/
def strip (s : Str) : Str :=
  ((s.dropWhile Char.isWhitespace).reverse.dropWhile Char.isWhitespace).reverse

/-- The loop of `remove_subtree` over the characters to the right
(neps/search_spaces/architecture/cfg.py:350-358): the final `current_index`. -/
def scan : Str → ℤ → ℕ
  | [], _ => 0
  | c :: cs, counter =>
    let counter := if c = '(' then counter + 1 else if c = ')' then counter - 1 else counter
    if counter = 0 then 0 else scan cs counter + 1

/-- `remove_subtree` (neps/search_spaces/architecture/cfg.py:330-361). -/
def removeSubtree (tree : Str) (index : ℕ) : Option (Str × Str × Str) :=
  let split := splitSp tree
  let pre := joinSp (split.take index) ++ [' ']
  let right := joinSp (split.drop (index + 1))
  let cur := scan right 1
  match split[index]? with
  | none => none
  | some w => some (pre, w ++ [' '] ++ right.take (cur + 1), right.drop (cur + 1))

/-- The indices of the tokens whose text after the first character satisfies `p`
(neps/search_spaces/architecture/cfg.py:293-297,313-315, mutations.py:34-38,57-61). -/
def indicesOf (tree : Str) (p : Str → Bool) : List ℕ :=
  let split := splitSp tree
  (List.range split.length).filter fun i =>
    match split[i]? with
    | some w => p (w.drop 1)
    | none => false

/-- `np.random.randint(lo, hi)` (neps/search_spaces/architecture/cfg.py:298,324). -/
def randint (lo hi : ℕ) : List ℕ → Option (ℕ × List ℕ)
  | [] => none
  | d :: ds => if lo ≤ d ∧ d < hi then some (d, ds) else none

/-- `rand_subtree` (neps/search_spaces/architecture/cfg.py:281-301). -/
def randSubtree (g : Grammar) (tree : Str) (ds : List ℕ) : Option (Str × ℕ × List ℕ) :=
  let split := splitSp tree
  let idx := indicesOf tree (· ∈ g.swappable)
  match randint 1 idx.length ds with
  | none => none
  | some (r, ds) =>
    match idx[r]? with
    | none => none
    | some i =>
      match split[i]? with
      | none => none
      | some w => some (w.drop 1, i, ds)

/-- `rand_subtree_fixed_head` without `swappable_indices`
(neps/search_spaces/architecture/cfg.py:303-328).  `False` and the index 0 are the same for the
only caller, which tests `not donor_subtree_index`: both are `0` here. -/
def randSubtreeFixedHead (tree head : Str) (ds : List ℕ) : Option (ℕ × List ℕ) :=
  let idx := indicesOf tree (· = head)
  if idx.length = 0 then some (0, ds)
  else if 1 < idx.length then
    match randint 1 idx.length ds with
    | none => none
    | some (r, ds) => idx[r]?.map (·, ds)
  else idx[0]?.map (·, ds)

/-- The loop of `mutate` (neps/search_spaces/architecture/cfg.py:229-238); `child` is unbound
before the first round. -/
def mutateLoop (g : Grammar) (fuel : ℕ) (parent pre post node : Str) :
    ℕ → Option Str → List ℕ → Option (Str × List ℕ)
  | 0, child, ds => child.map fun c => (strip c, ds)
  | patience + 1, _, ds =>
    match sampleOne g false fuel node ds with
    | none => none
    | some (new, ds) =>
      let child := pre ++ new ++ post
      if parent ≠ child then some (strip child, ds)
      else mutateLoop g fuel parent pre post node patience (some child) ds

/-- `mutate` (neps/search_spaces/architecture/cfg.py:212-238). -/
def mutate (g : Grammar) (fuel : ℕ) (parent : Str) (index : ℕ) (node : Str) (patience : ℕ)
    (ds : List ℕ) : Option (Str × List ℕ) :=
  match removeSubtree parent index with
  | none => none
  | some (pre, _, post) => mutateLoop g fuel parent pre post node patience none ds

/-- `simple_mutate` (neps/search_spaces/architecture/mutations.py:10-23). -/
def simpleMutate (g : Grammar) (fuel : ℕ) (parent : Str) (ds : List ℕ) : Option (Str × Bool) :=
  match randSubtree g parent ds with
  | none => none
  | some (node, i, ds) =>
    match mutate g fuel parent i node 50 ds with
    | none => none
    | some (child, _) => some (child, parent = child)

/-- `_mutation_prob` (neps/search_spaces/architecture/mutations.py:39-41,62-66); `none` is the
`ZeroDivisionError`. -/
def mutationProb (rate : ℚ) (prob : Option ℚ) (n : ℕ) : Option ℚ :=
  match prob with
  | some p => some p
  | none => if n = 0 then none else some (rate / n)

/-- The loop of `bananas_mutate` (neps/search_spaces/architecture/mutations.py:44-68); `us` are
the results of `random.random()`, one for every round. -/
def bananasLoop (g : Grammar) (fuel : ℕ) (rate : ℚ) (prob : Option ℚ) (patience : ℕ) :
    List ℚ → ℕ → ℚ → Str → List ℕ → Option Str
  | us, idx, p, child, ds =>
    let sw := indicesOf child (· ∈ g.swappable)
    match sw[idx]? with
    | none => some child
    | some i =>
      match us with
      | [] => none
      | u :: us =>
        if u < p then
          match (splitSp child)[i]? with
          | none => none
          | some w =>
            match mutate g fuel child i (w.drop 1) patience ds with
            | none => none
            | some (child, ds) =>
              match mutationProb rate prob (indicesOf child (· ∈ g.swappable)).length with
              | none => none
              | some p => bananasLoop g fuel rate prob patience us (idx + 1) p child ds
        else bananasLoop g fuel rate prob patience us (idx + 1) p child ds

/-- `bananas_mutate` (neps/search_spaces/architecture/mutations.py:26-70). -/
def bananasMutate (g : Grammar) (fuel : ℕ) (parent : Str) (rate : ℚ) (prob : Option ℚ)
    (patience : ℕ) (us : List ℚ) (ds : List ℕ) : Option (Str × Bool) :=
  match mutationProb rate prob (indicesOf parent (· ∈ g.swappable)).length with
  | none => none
  | some p =>
    match bananasLoop g fuel rate prob patience us 0 p parent ds with
    | none => none
    | some child => some (child, child = parent)

/-- `GraphGrammar.mutate` (neps/search_spaces/architecture/graph_grammar.py:270-298) up to the
text of the child: `bananas` is the default strategy, and an unchanged tree raises. -/
def paramMutate (g : Grammar) (fuel : ℕ) (parent : Str) (rate : ℚ) (bananas : Bool)
    (us : List ℚ) (ds : List ℕ) : Option Str :=
  match (if bananas then bananasMutate g fuel parent rate none 50 us ds
      else simpleMutate g fuel parent ds) with
  | none => none
  | some (child, isSame) => if isSame then none else some child

/-- The loop of `crossover` (neps/search_spaces/architecture/cfg.py:252-279); the inner `none` is
`(False, False)`. -/
def crossoverLoop (parent2 node pre sub post : Str) :
    ℕ → List ℕ → Option (Option (Str × Str))
  | 0, _ => some none
  | patience + 1, ds =>
    match randSubtreeFixedHead parent2 node ds with
    | none => none
    | some (i, ds) =>
      if i = 0 then crossoverLoop parent2 node pre sub post patience ds
      else
        match removeSubtree parent2 i with
        | none => none
        | some (dpre, dsub, dpost) =>
          some (some (strip (pre ++ dsub ++ post), strip (dpre ++ sub ++ dpost)))

/-- `crossover` (neps/search_spaces/architecture/cfg.py:240-279, crossover.py:12-30). -/
def crossover (g : Grammar) (parent1 parent2 : Str) (patience : ℕ) (ds : List ℕ) :
    Option (Option (Str × Str)) :=
  match randSubtree g parent1 ds with
  | none => none
  | some (node, i, ds) =>
    match removeSubtree parent1 i with
    | none => none
    | some (pre, sub, post) => crossoverLoop parent2 node pre sub post patience ds

/-- `GraphGrammar.crossover` (neps/search_spaces/architecture/graph_grammar.py:300-315) up to the
texts of the children: `(False, False)` raises.  A child is falsy only if it is the empty
string. -/
def paramCrossover (g : Grammar) (parent1 parent2 : Str) (ds : List ℕ) : Option (Str × Str) :=
  match crossover g parent1 parent2 50 ds with
  | none => none
  | some none => none
  | some (some (c1, c2)) => if c1 = [] ∧ c2 = [] then none else some (c1, c2)

end Verif.Gram
