import Verif.Grammar.ConstrainedModel
import Verif.Grammar.PriorModel
import Mathlib.Analysis.SpecialFunctions.Log.Basic

/-!
# Model of `ConstrainedGrammar.compute_prior`

`neps/search_spaces/architecture/cfg_variants/constrained_cfg.py:194-326`: the probability of a
parse tree of a constrained grammar, computed from its text.  The simplifications of
`Verif.Grammar.Model` and `Verif.Grammar.ConstrainedModel` apply.
-/

namespace Verif.Gram

/-- `max(map(len, symbols))`
(neps/search_spaces/architecture/cfg_variants/constrained_cfg.py:224-225).  Simplification: 0 for a
grammar without symbols, where the code raises. -/
def Grammar.longest (g : Grammar) : ℕ := (g.symbols.map List.length).foldr max 0

/-- `find_longest_match`
(neps/search_spaces/architecture/cfg_variants/constrained_cfg.py:208-220), on the text from `i` on:
the lengths from `max_match` down to 1 are tried, but never the whole text. -/
def cLongestMatch (g : Grammar) (s : Str) : Option Str :=
  ((((List.range (min g.longest (s.length - 1))).map (· + 1)).reverse).find?
    (fun j => s.take j ∈ g.symbols)).map s.take

/-- `any(prod.rhs()[0] == self.none_operation for prod in ...)`
(neps/search_spaces/architecture/cfg_variants/constrained_cfg.py:246-249): an `IndexError` at an
empty right hand side. -/
def anyNone (noneOp : Option Str) : List Production → Option Bool
  | [] => some false
  | p :: ps =>
    match p.rhs with
    | [] => none
    | .t s :: _ => if some s = noneOp then some true else anyNone noneOp ps
    | .nt _ :: _ => anyNone noneOp ps

/-- `current_derivations`
(neps/search_spaces/architecture/cfg_variants/constrained_cfg.py:234): a dict whose keys are
lengths of the stack.  Simplification: a `Nonterminal` that is recorded is its name. -/
abbrev Derivs := ℕ → Option (List (Option Str))

/-- What an answer says about the argument number `i`
(neps/search_spaces/architecture/cfg_variants/constrained_cfg.py:259-273). -/
def Answer.at (i : ℕ) : Answer → Option Bool
  | .list l => l[i]?
  | .bool b => some b

/-- Lines 250-279 of `compute_prior`
(neps/search_spaces/architecture/cfg_variants/constrained_cfg.py:250-279): the constraint is asked
about the production `p` that is closed, an argument of the operation `op` at the top of the stack,
which has the length `depth`, and the operation is recorded.  The results are
`not_allowed_productions` and the new `current_derivations`.  A constraint object cannot be
called. -/
def askConstraint (g : CGrammar) (p : Production) (op : Sym) (depth : ℕ) (D : Derivs) :
    Option (List Production × Derivs) :=
  match g.constraints with
  | .unset => none
  | .obj _ => none
  | .fn c =>
    match (D depth).or (c.start op) with
    | none => none
    | some d =>
      if none ∈ d then
        let i := d.idxOf none
        match (c.ask op d).bind (Answer.at i) with
        | none => none
        | some b =>
          match p.rhs.head? with
          | none => none
          | some x =>
            let d' := d.set i (some x.str)
            some (notAllowedProds g.noneOp (g.productions p.lhs) b,
              Function.update D depth (if none ∈ d' then some d' else none))
      else none

/-- Lines 280-294 of `compute_prior`
(neps/search_spaces/architecture/cfg_variants/constrained_cfg.py:280-294): the probabilities of the
productions that are not allowed are left out, the others are rescaled, and the index is moved.
`none` is a `ZeroDivisionError` or an `IndexError`. -/
def pickPrior (ps : List Production) (prior : List ℚ) (p : Production) (na : List Production) :
    Option ℚ :=
  let idx := ps.idxOf p
  if 0 < na.length then
    let notAllowedIndices := na.map ps.idxOf
    let kept := ((List.range prior.length).filter (· ∉ notAllowedIndices)).filterMap (prior[·]?)
    if kept.sum = 0 then none
    else (kept.map (· / kept.sum))[idx - notAllowedIndices.countP (· < idx)]?
  else prior[idx]?

/-- The factor of a production that is closed
(neps/search_spaces/architecture/cfg_variants/constrained_cfg.py:243-294), with the rest of the stack
and the derivations known so far. -/
def cFactor (g : CGrammar) (p : Production) (stack : List (List Production × ℕ)) (D : Derivs) :
    Option (ℚ × Derivs) :=
  match g.prior with
  | none => none
  | some v =>
    match lookup p.lhs v with
    | none => none
    | some prior =>
      match anyNone g.noneOp (g.productions p.lhs) with
      | none => none
      | some false => (pickPrior (g.productions p.lhs) prior p []).map (·, D)
      | some true =>
        match stack with
        | (outer :: _, _) :: _ =>
          match outer.rhs.head? with
          | none => none
          | some op =>
            match askConstraint g p op stack.length D with
            | none => none
            | some (na, D') => (pickPrior (g.productions p.lhs) prior p na).map (·, D')
        | _ => none

/-- The variables of the loop
(neps/search_spaces/architecture/cfg_variants/constrained_cfg.py:222,233-237): `first` says that `i`
is 0, `prev` is `string_tree[i - 1]`, `rest` the text from `i` on, `stack` is `q_production_rules`
with its last element first.  Simplification: instead of their product, or the sum of their
logarithms, the factors are collected. -/
structure CSt where
  first : Bool
  prev : Option Char
  rest : Str
  factors : List ℚ
  stack : List (List Production × ℕ)
  derivs : Derivs

/-- The text behind a symbol
(neps/search_spaces/architecture/cfg_variants/constrained_cfg.py:300-302,323). -/
def CSt.skip (st : CSt) (sym : Str) (stack : List (List Production × ℕ)) : CSt where
  first := st.first && sym.isEmpty
  prev := if sym = [] then st.prev else sym.getLast?
  rest := st.rest.drop sym.length
  factors := st.factors
  stack := stack
  derivs := st.derivs

/-- The part of the loop for a symbol
(neps/search_spaces/architecture/cfg_variants/constrained_cfg.py:299-322). -/
def cSymStep (g : Grammar) (st : CSt) : Option CSt :=
  match cLongestMatch g st.rest with
  | none => none
  | some sym =>
    if sym ∈ g.terminals then
      match st.stack with
      | [] => none
      | (ps, n) :: stack =>
        (keepAt ps n (· = .t sym)).map fun ps' => st.skip sym ((ps', n + 1) :: stack)
    else
      match st.stack with
      | [] => some (st.skip sym [(g.productions sym, 0)])
      | (ps, n) :: stack =>
        (keepAt ps n (fun x => x.str = sym)).map fun ps' =>
          st.skip sym ((g.productions sym, 0) :: (ps', n + 1) :: stack)

/-- The part of the loop for a closing bracket
(neps/search_spaces/architecture/cfg_variants/constrained_cfg.py:241-298). -/
def cCloseStep (g : CGrammar) (st : CSt) (c : Char) (cs : Str) : Option CSt :=
  match st.stack with
  | (p :: _, _) :: stack =>
    (cFactor g p stack st.derivs).map fun x => ⟨false, some c, cs, st.factors ++ [x.1], stack, x.2⟩
  | _ => none

/-- One round of the loop, at the character `c`
(neps/search_spaces/architecture/cfg_variants/constrained_cfg.py:195-206,237-323). -/
def cPriorStep (g : CGrammar) (st : CSt) (c : Char) (cs : Str) : Option CSt :=
  if c = ' ' ∨ c = '\t' ∨ c = '\n' then some ⟨false, some c, cs, st.factors, st.stack, st.derivs⟩
  else if c = '(' ∧ st.first = false ∧ st.prev = some ' ' ∧ cs = [] then none
  else if c = '(' ∧ (st.first = true ∨ ¬ (st.prev = some ' ' ∧ cs.head? = some ' ')) then
    some ⟨false, some c, cs, st.factors, st.stack, st.derivs⟩
  else if c = ')' ∧ st.prev ≠ some ' ' then cCloseStep g st c cs
  else cSymStep g.toGrammar st

/-- The loop of `compute_prior`
(neps/search_spaces/architecture/cfg_variants/constrained_cfg.py:236-326).  Every round takes one
unit of `fuel`. -/
def cPriorGo (g : CGrammar) : ℕ → CSt → Option (List ℚ)
  | 0, _ => none
  | fuel + 1, st =>
    match st.rest with
    | [] => if st.stack.isEmpty then some st.factors else none
    | c :: cs =>
      match cPriorStep g st c cs with
      | none => none
      | some st' => cPriorGo g fuel st'

/-- The factors that `compute_prior` multiplies
(neps/search_spaces/architecture/cfg_variants/constrained_cfg.py:194-326). -/
def cPriorFactors (g : CGrammar) (tree : Str) : Option (List ℚ) :=
  cPriorGo g (tree.length + 1) ⟨true, tree.getLast?, tree, [], [], fun _ => none⟩

/-- `ConstrainedGrammar.compute_prior(..., log=False)`
(neps/search_spaces/architecture/cfg_variants/constrained_cfg.py:194-326, the product at 222 and
298). -/
def cComputePrior (g : CGrammar) (tree : Str) : Option ℚ := (cPriorFactors g tree).map List.prod

/-- `ConstrainedGrammar.compute_prior(..., log=True)`
(neps/search_spaces/architecture/cfg_variants/constrained_cfg.py:194-326, the sum at 222 and
295-296).  Exact for factors that are not negative; `np.log` of a negative number is `nan`. -/
noncomputable def cComputeLogPrior (g : CGrammar) (tree : Str) : Option ℝ :=
  (cPriorFactors g tree).map fun fs : List ℚ =>
    (fs.map fun q : ℚ => Real.log ((q : ℝ) + 1 / 1000000000000)).sum

end Verif.Gram
