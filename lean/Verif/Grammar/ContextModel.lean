import Verif.Grammar.ConstrainedModel

/-!
# Model of constrained grammars: mutation and crossover

`neps/search_spaces/architecture/cfg_variants/constrained_cfg.py:330-611`.  The simplifications of
`Verif.Grammar.Model` apply.
-/

namespace Verif.Gram

/-- `while s[-1] == ")": s = s[:-1]`
(neps/search_spaces/architecture/cfg_variants/constrained_cfg.py:340-341,383-385,424-427): the text
before the closing brackets and their number; `IndexError` if nothing is left. -/
def dropClosing (s : Str) : Option (Str × ℕ) :=
  let rest := (s.reverse.dropWhile (· = ')')).reverse
  if rest = [] then none else some (rest, s.length - rest.length)

/-- One round of the loop that collects the nonterminals that are open
(neps/search_spaces/architecture/cfg_variants/constrained_cfg.py:332-345); the last element of the
deque is the first of the list. -/
def openStep (g : Grammar) (q : List Str) (tok : Str) : Option (List Str) :=
  if tok = [] then some q
  else
    let sym := if tok.head? = some '(' then tok.drop 1 else tok
    match sym.getLast? with
    | none => none
    | some l =>
      if l = ')' then
        if sym.count ')' ≤ q.length then
          match dropClosing sym with
          | none => none
          | some (sym', _) =>
            let q := q.drop (sym.count ')')
            some (if sym' ∈ g.nonterminals ∧ sym' ∉ [[' '], ['\t'], ['\n'], ['['], [']']] then
              sym' :: q else q)
        else none
      else
        some (if sym ∈ g.nonterminals ∧ sym ∉ [[' '], ['\t'], ['\n'], ['['], [']']] then
          sym :: q else q)

/-- `s[s.rfind(w):]` (neps/search_spaces/architecture/cfg_variants/constrained_cfg.py:347-348): the
text from the last occurrence of `w` on.  Simplification: `none` if there is no occurrence (`w` is
taken from the text, so there is one). -/
def fromLast (w : Str) : Str → Option Str
  | [] => if w = [] then some [] else none
  | c :: cs =>
    match fromLast w cs with
    | some r => some r
    | none => if w.isPrefixOf (c :: cs) then some (c :: cs) else none

/-- The variables of the two loops over the tokens of an operation
(neps/search_spaces/architecture/cfg_variants/constrained_cfg.py:359-362,398): `depth` is the length
of `q_context`. -/
structure Collect where
  depth : ℕ
  prods : List Production
  counter : ℕ
  tmp : Str
  args : List (Option Str)

/-- `[str(prod_sym) for prod_sym in production.rhs() if isinstance(prod_sym, Nonterminal)]`
(neps/search_spaces/architecture/cfg_variants/constrained_cfg.py:371-375,412-416). -/
def Production.nts (p : Production) : List Str :=
  p.rhs.filterMap fun s => match s with
    | .nt A => some A
    | .t _ => none

/-- The productions whose nonterminal number `n` is `A`
(neps/search_spaces/architecture/cfg_variants/constrained_cfg.py:368-377,409-418): `IndexError` if
one has fewer nonterminals. -/
def keepArg (ps : List Production) (n : ℕ) (A : Str) : Option (List Production) :=
  if ps.all (fun p => n < p.nts.length) then some (ps.filter fun p => p.nts[n]? = some A) else none

/-- `len(productions) == 1 and len(current_derivation) == len(self.constraints(...))`
(neps/search_spaces/architecture/cfg_variants/constrained_cfg.py:389-391,399-401,431-433). -/
def Collect.full (c : FunConstraint) (st : Collect) : Option Bool :=
  match st.prods with
  | [p] =>
    match p.rhs.head? with
    | none => none
    | some op => (c.start op).map fun d => st.args.length = d.length
  | _ => some false

/-- The two loops over tokens
(neps/search_spaces/architecture/cfg_variants/constrained_cfg.py:363-395,404-437).  In the first
one (`strict`) a closing bracket without an opening one raises, in the second it is ignored. -/
def collect (c : FunConstraint) (strict : Bool) : List Str → Collect → Option Collect
  | [], st => some st
  | s :: toks, st =>
    if s = [] then collect c strict toks st
    else if s.head? = some '(' then
      match (if st.depth = 0 ∧ 1 < s.length then
          (keepArg st.prods st.counter (s.drop 1)).map fun ps => (ps, st.counter + 1)
        else some (st.prods, st.counter)) with
      | none => none
      | some (ps, n) =>
        collect c strict toks
          { st with depth := st.depth + 1, prods := ps, counter := n, tmp := st.tmp ++ [' '] ++ s }
    else if s.getLast? = some ')' then
      match dropClosing s with
      | none => none
      | some (_, n) =>
        if strict ∧ st.depth < n then none
        else
          let st := { st with depth := st.depth - n, tmp := st.tmp ++ [' '] ++ s }
          if st.depth = 0 then
            let st := { st with tmp := strip st.tmp, args := st.args ++ [some (strip st.tmp)] }
            match st.full c with
            | none => none
            | some true => some st
            | some false => collect c strict toks { st with tmp := [] }
          else collect c strict toks st
    else if 0 < st.depth then collect c strict toks { st with tmp := st.tmp ++ [' '] ++ s }
    else collect c strict toks st

/-- `_compute_current_context`
(neps/search_spaces/architecture/cfg_variants/constrained_cfg.py:330-439). -/
def computeContext (g : CGrammar) (c : FunConstraint) (pre post : Str) :
    Option (Str × List (Option Str)) :=
  match (splitSp pre).foldlM (openStep g.toGrammar) [] with
  | none => none
  | some [] => none
  | some (P :: _) =>
    match fromLast P pre with
    | none => none
    | some context =>
      let tokens := splitSp (context.drop (P.length + 1))
      let topology := tokens.headD []
      let ofP := g.productions (context.take P.length)
      if ofP.any (fun p => p.rhs.isEmpty) then none
      else
        let prods := ofP.filter fun p => p.rhs.head? = some (.t topology)
        if prods.length = 0 then none
        else
          match collect c true tokens ⟨0, prods, 0, [], []⟩ with
          | none => none
          | some st =>
            let st := { st with depth := 0, counter := st.counter + 1, args := st.args ++ [none] }
            match st.full c with
            | none => none
            | some true => some (topology, st.args)
            | some false =>
              (collect c false (splitSp post) st).map fun st => (topology, st.args)

/-- The productions that are not allowed in the place of a subtree
(neps/search_spaces/architecture/cfg_variants/constrained_cfg.py:455-475,512-529,545-573): the
constraint function is asked about the other arguments, the place itself is `None`. -/
def contextNotAllowed (g : CGrammar) (c : FunConstraint) (pre post node : Str) :
    Option (List Production) :=
  match computeContext g c pre post with
  | none => none
  | some (op, args) =>
    match c.ask (.t op) args with
    | none => none
    | some (.bool b) => some (notAllowedProds g.noneOp (g.productions node) b)
    | some (.list l) =>
      match args.findIdx? (· = none) with
      | none => none
      | some i => (l[i]?).map (notAllowedProds g.noneOp (g.productions node))

/-- The loop of `ConstrainedGrammar.mutate`
(neps/search_spaces/architecture/cfg_variants/constrained_cfg.py:478-496). -/
def cMutateLoop (g : CGrammar) (fuel : ℕ) (parent pre post node : Str) (na : List Production) :
    ℕ → Option Str → List ℕ → Option (Str × List ℕ)
  | 0, child, ds => child.map fun c => (strip c, ds)
  | patience + 1, _, ds =>
    match cSampler g fuel 1 (some node) na false ds with
    | some ([new], ds) =>
      let child := pre ++ new ++ post
      if parent ≠ child then some (strip child, ds)
      else if (g.productions node).length = na.length + 1 then some (strip child, ds)
      else cMutateLoop g fuel parent pre post node na patience (some child) ds
    | _ => none

/-- `ConstrainedGrammar.mutate`
(neps/search_spaces/architecture/cfg_variants/constrained_cfg.py:441-496), for constraint
functions.  Simplification: a constraint object has a method of its own for this purpose, which is
not modelled. -/
def cMutate (g : CGrammar) (c : FunConstraint) (fuel : ℕ) (parent : Str) (index : ℕ) (node : Str)
    (patience : ℕ) (ds : List ℕ) : Option (Str × List ℕ) :=
  match removeSubtree parent index with
  | none => none
  | some (pre, _, post) =>
    match (if pre ≠ [' '] ∧ post ≠ [] then contextNotAllowed g c pre post node else some []) with
    | none => none
    | some na => cMutateLoop g fuel parent pre post node na patience none ds

/-- `"zero" in s` (neps/search_spaces/architecture/cfg_variants/constrained_cfg.py:579,590). -/
def contains (w : Str) : Str → Bool
  | [] => w.isEmpty
  | c :: cs => w.isPrefixOf (c :: cs) || contains w cs

/-- The test before two subtrees are exchanged
(neps/search_spaces/architecture/cfg_variants/constrained_cfg.py:574-595): the operation is always
called `zero` here. -/
def refuses (na : List Production) (sub : Str) : Bool :=
  na.any (fun p => p.rhs.head? = some (.t "zero".toList)) && contains "zero".toList sub &&
    sub.count '(' == 1 && sub.count ')' == 1

/-- `ConstrainedGrammar.crossover`
(neps/search_spaces/architecture/cfg_variants/constrained_cfg.py:498-611), for constraint functions
(with a constraint object it raises): the number is `_patience`, `cur` the subtree of the first
parent, which is chosen anew whenever `_patience` is a multiple of ten. -/
def cCrossover (g : CGrammar) (c : FunConstraint) (parent1 parent2 : Str) :
    ℕ → Option (Str × Str × Str × Str × List Production) → List ℕ → Option (Str × Str)
  | 0, _, _ => none
  | patience + 1, cur, ds =>
    match (match cur with
      | some x => some (x, ds)
      | none =>
        match randSubtree g.toGrammar parent1 ds with
        | none => none
        | some (node, i, ds) =>
          match removeSubtree parent1 i with
          | none => none
          | some (pre, sub, post) =>
            (contextNotAllowed g c pre post node).map fun na => ((node, pre, sub, post, na), ds)) with
    | none => none
    | some ((node, pre, sub, post, na1), ds) =>
      let again := if patience % 10 = 0 then none else some (node, pre, sub, post, na1)
      match randSubtreeFixedHead parent2 node ds with
      | none => none
      | some (i, ds) =>
        if i = 0 then cCrossover g c parent1 parent2 patience again ds
        else
          match removeSubtree parent2 i with
          | none => none
          | some (dpre, dsub, dpost) =>
            if sub = dsub then cCrossover g c parent1 parent2 patience again ds
            else
              match contextNotAllowed g c dpre dpost node with
              | none => none
              | some na2 =>
                if refuses na1 dsub || refuses na2 sub then
                  cCrossover g c parent1 parent2 patience again ds
                else some (strip (pre ++ dsub ++ post), strip (dpre ++ sub ++ dpost))

end Verif.Gram
