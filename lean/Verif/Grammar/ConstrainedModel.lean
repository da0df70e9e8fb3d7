import Verif.Grammar.Spec

/-!
# Model of constrained grammars: sampling

`neps/search_spaces/architecture/cfg_variants/constrained_cfg.py`: a grammar whose sampler asks a
constraint, written by the user, which productions it may use for the next argument of an
operation.  The simplifications of `Verif.Grammar.Model` apply.
-/

namespace Verif.Gram

/-- What the user's constraint function answers: a list with one entry for every argument, or one
truth value for all (neps/search_spaces/architecture/cfg_variants/constrained_cfg.py:173-182). -/
inductive Answer where
  | list (l : List Bool)
  | bool (b : Bool)

/-- The constraint is a function (neps/search_spaces/architecture/cfg_variants/constrained_cfg.py:154,169-172):
`start` is the call with the operation alone, which gives the list of the arguments to fill, and
`ask` the call with the arguments found so far.  `none`: the function raises, or returns something
of another type.  Simplification: it returns a new list on every call. -/
structure FunConstraint where
  start : Sym → Option (List (Option Str))
  ask : Sym → List (Option Str) → Option Answer

/-- The constraint is an object of a subclass of `Constraint`
(neps/search_spaces/architecture/cfg_variants/constrained_cfg.py:14-31): `start` is
`initialize_constraints`, whose result may be `None` (the inner option), `notAllowed` is
`get_not_allowed_productions` and `update` is `update_context`. -/
structure ObjConstraint where
  State : Type
  start : Sym → Option (Option State)
  notAllowed : State → List Production → Option (List Production)
  update : State → Str → Option State

/-- `self.constraints` with `self.constraint_is_class`
(neps/search_spaces/architecture/cfg_variants/constrained_cfg.py:35-38,41-44).  `unset` is the
`None` of `__init__`, which cannot be called. -/
inductive Constraints where
  | unset
  | fn (c : FunConstraint)
  | obj (c : ObjConstraint)

/-- `ConstrainedGrammar` (neps/search_spaces/architecture/cfg_variants/constrained_cfg.py:34-46). -/
structure CGrammar extends Grammar where
  constraints : Constraints
  noneOp : Option Str

/-- `_get_not_allowed_productions`
(neps/search_spaces/architecture/cfg_variants/constrained_cfg.py:94-104). -/
def notAllowedProds (noneOp : Option Str) (ps : List Production) (anyAllowed : Bool) :
    List Production :=
  ps.filter fun p =>
    !anyAllowed && (p.rhs.length == 1) &&
      (match p.rhs with
      | .t s :: _ => some s == noneOp
      | _ => false)

/-- The probabilities given to `np.random.choice`
(neps/search_spaces/architecture/cfg_variants/constrained_cfg.py:133-149): those of the productions
that are not allowed are left out and the others are rescaled.  The outer `none` is an exception: a
`KeyError`, a `ValueError` of `index` or a `ZeroDivisionError`.  The `assert` on the number of
probabilities is in `choice`. -/
def constrainedProbs (g : Grammar) (userPriors : Bool) (A : Str) (na : List Production) :
    Option (Option (List ℚ)) :=
  if userPriors then
    match g.prior with
    | none => some none
    | some v =>
      match lookup A v with
      | none => none
      | some ps =>
        if na = [] then some (some ps)
        else if na.all (· ∈ g.productions A) then
          let notAllowedIndices := na.map (g.productions A).idxOf
          let kept := ((List.range ps.length).filter (· ∉ notAllowedIndices)).filterMap (ps[·]?)
          if kept.sum = 0 then none else some (some (kept.map (· / kept.sum)))
        else none
  else some none

/-- The loop of `_constrained_sampler` over the right hand side
(neps/search_spaces/architecture/cfg_variants/constrained_cfg.py:155-191), for a state `σ` of the
constraint: `na` gives the productions that are not allowed for the next symbol, `upd` takes the
text of the new subtree. -/
def cexpand {σ : Type} (rec : Str → List Production → List ℕ → Option (Str × List ℕ))
    (na : σ → Str → Option (List Production)) (upd : σ → Str → Option σ) :
    List Sym → Str → σ → List ℕ → Option (Str × List ℕ)
  | [], tree, _, ds => some (tree, ds)
  | .t s :: rhs, tree, st, ds => cexpand rec na upd rhs (tree ++ [' '] ++ s) st ds
  | .nt A :: rhs, tree, st, ds =>
    match na st A with
    | none => none
    | some notAllowed =>
      match rec A notAllowed ds with
      | none => none
      | some (s, ds) =>
        match upd st (s ++ [')']) with
        | none => none
        | some st => cexpand rec na upd rhs (tree ++ [' '] ++ s ++ [')']) st ds

/-- Lines 169-182 of `_constrained_sampler`
(neps/search_spaces/architecture/cfg_variants/constrained_cfg.py:169-182): the state is
`current_derivation` with `counter`. -/
def funNotAllowed (g : CGrammar) (c : FunConstraint) (topology : Sym)
    (st : List (Option Str) × ℕ) (A : Str) : Option (List Production) :=
  match c.ask topology st.1 with
  | none => none
  | some (.list l) => (l[st.2]?).map (notAllowedProds g.noneOp (g.productions A))
  | some (.bool b) => some (notAllowedProds g.noneOp (g.productions A) b)

/-- `current_derivation[counter] = ...` and `counter += 1`
(neps/search_spaces/architecture/cfg_variants/constrained_cfg.py:190-191). -/
def funUpdate (st : List (Option Str) × ℕ) (s : Str) : Option (List (Option Str) × ℕ) :=
  if st.2 < st.1.length then some (st.1.set st.2 (some s), st.2 + 1) else none

/-- `get_not_allowed_productions` unless the constraint is `None`
(neps/search_spaces/architecture/cfg_variants/constrained_cfg.py:161-167). -/
def objNotAllowed (g : CGrammar) (c : ObjConstraint) (st : Option c.State) (A : Str) :
    Option (List Production) :=
  match st with
  | none => some []
  | some x => c.notAllowed x (g.productions A)

/-- `constraints.update_context(...)`
(neps/search_spaces/architecture/cfg_variants/constrained_cfg.py:188): an `AttributeError` if the
constraint is `None`. -/
def objUpdate (c : ObjConstraint) (st : Option c.State) (s : Str) : Option (Option c.State) :=
  match st with
  | none => none
  | some x => (c.update x s).map some

/-- `_constrained_sampler`
(neps/search_spaces/architecture/cfg_variants/constrained_cfg.py:106-192).  No list and the empty
list of productions that are not allowed are the same here. -/
def cSamplerRec (g : CGrammar) (userPriors : Bool) :
    ℕ → Str → List Production → List ℕ → Option (Str × List ℕ)
  | 0, _, _, _ => none
  | fuel + 1, A, notAllowed, ds =>
    let productions := (g.productions A).filter (· ∉ notAllowed)
    if productions.length = 0 then none
    else
      match constrainedProbs g.toGrammar userPriors A notAllowed with
      | none => none
      | some p =>
        match choice productions.length p ds with
        | none => none
        | some (i, ds) =>
          match productions[i]? with
          | none => none
          | some production =>
            match production.rhs.head? with
            | none => none
            | some topology =>
              match g.constraints with
              | .unset => none
              | .fn c =>
                match c.start topology with
                | none => none
                | some derivation =>
                  cexpand (cSamplerRec g userPriors fuel) (funNotAllowed g c topology) funUpdate
                    production.rhs ('(' :: A) (derivation, 0) ds
              | .obj c =>
                match c.start topology with
                | none => none
                | some constraint =>
                  cexpand (cSamplerRec g userPriors fuel) (objNotAllowed g c) (objUpdate c)
                    production.rhs ('(' :: A) constraint ds

/-- The list comprehension of `sampler`
(neps/search_spaces/architecture/cfg_variants/constrained_cfg.py:84-92). -/
def cSamplerList (g : CGrammar) (userPriors : Bool) (fuel : ℕ) (A : Str)
    (notAllowed : List Production) : ℕ → List ℕ → Option (List Str × List ℕ)
  | 0, ds => some ([], ds)
  | n + 1, ds =>
    match cSamplerRec g userPriors fuel A notAllowed ds with
    | none => none
    | some (s, ds) =>
      match cSamplerList g userPriors fuel A notAllowed n ds with
      | none => none
      | some (ss, ds) => some ((s ++ [')']) :: ss, ds)

/-- `ConstrainedGrammar.sampler`
(neps/search_spaces/architecture/cfg_variants/constrained_cfg.py:75-92). -/
def cSampler (g : CGrammar) (fuel n : ℕ) (startSymbol : Option Str)
    (notAllowed : List Production) (userPriors : Bool) (ds : List ℕ) :
    Option (List Str × List ℕ) :=
  cSamplerList g userPriors fuel (startSymbol.getD g.start) notAllowed n ds

/-! ## Specification -/

/-- The texts of the first `j` arguments of an operation with the children `kids`. -/
def Forest.argTexts (kids : Forest) (j : ℕ) : List Str :=
  (kids.items.take j).map fun x => treeText x.1 x.2

/-- `good` holds for every argument of every operation in a tree with the children `kids`: `good
op before B k` is about an argument with root `B` and children `k` of the operation `op` (the first
symbol of the production), whose earlier arguments have the texts `before`. -/
def EveryArgument (good : Sym → List Str → Str → Forest → Prop) (A : Str) (kids : Forest) : Prop :=
  ∀ C ks, (C, ks) = (A, kids) ∨ (C, ks) ∈ kids.nodes →
    ∃ op, ks.heads.head? = some op ∧
      ∀ j B k, ks.items[j]? = some (B, k) → good op (ks.argTexts j) B k

/-- The answer of a constraint function about the argument number `before.length`, when it is
given the texts of the arguments before it, and for the other arguments what it has asked for
itself. -/
def FunConstraint.Says (c : FunConstraint) (op : Sym) (before : List Str) (b : Bool) : Prop :=
  ∃ d, c.start op = some d ∧ before.length < d.length ∧
    (c.ask op (before.map some ++ d.drop before.length) = some (.bool b) ∨
      ∃ l, c.ask op (before.map some ++ d.drop before.length) = some (.list l) ∧
        l[before.length]? = some b)

/-- An argument may be the operation `none` alone only if the constraint function says so. -/
def FunConstraint.Permits (c : FunConstraint) (noneOp : Option Str) (op : Sym)
    (before : List Str) (_ : Str) (k : Forest) : Prop :=
  ∃ b, c.Says op before b ∧ (b = false → ∀ s, noneOp = some s → k.heads ≠ [.t s])

/-- An argument may not use a production that the constraint object, told of the arguments before,
rules out. -/
def ObjConstraint.Permits (c : ObjConstraint) (g : Grammar) (op : Sym) (before : List Str)
    (B : Str) (k : Forest) : Prop :=
  ∃ x na, (∃ x₀, c.start op = some (some x₀) ∧ before.foldlM c.update x₀ = some x) ∧
    c.notAllowed x (g.productions B) = some na ∧ ⟨B, k.heads⟩ ∉ na ∧
    (c.update x (treeText B k)).isSome

end Verif.Gram
