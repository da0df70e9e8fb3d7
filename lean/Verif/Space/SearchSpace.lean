import Verif.Space.Param
import Verif.Space.Encode

/-!
# Model of `SearchSpace`

`neps/search_spaces/search_space.py`, class `SearchSpace`.

Simplifications, for the whole file: graph parameters and tabular spaces are left out; floats are
exact real numbers; random draws are parameters; an exception is `none`, except in
`setFromDict`, whose effect before the exception matters and is kept.
-/

namespace Verif.Space

/-- A hyperparameter of a space (neps/search_spaces/search_space.py:172-190). -/
inductive Hp where
  | float (p : FloatParam)
  | int (p : IntParam)
  | cat (p : CatParam Val)
  | const (p : ConstParam Val)

/-- The random numbers one call of `sample` may consume: a uniform and a normal number for
numerical parameters, an index for categorical ones. -/
structure Draw where
  uniform : ℝ
  normal : ℝ
  index : ℕ

namespace Hp

/-- `is_fidelity`: constants and categoricals are never fidelities
(neps/search_spaces/hyperparameters/constant.py:49, categorical.py:75). -/
def isFidelity : Hp → Bool
  | float p => p.isFidelity
  | int p => p.isFidelity
  | cat _ => false
  | const _ => false

/-- `value` -/
noncomputable def value : Hp → Option Val
  | float p => p.value.map .num
  | int p => p.value.map fun (n : ℤ) => .num (n : ℝ)
  | cat p => p.value
  | const p => some p.value

/-- `default` -/
noncomputable def dflt : Hp → Option Val
  | float p => p.dflt.map .num
  | int p => p.dflt.map fun (n : ℤ) => .num (n : ℝ)
  | cat p => p.dflt
  | const p => some p.dflt

/-- `has_prior` of one parameter (neps/search_spaces/search_space.py:221, 312-316): constants have
none. -/
def hasPrior : Hp → Bool
  | float p => p.hasPrior
  | int p => p.hasPrior
  | cat p => p.hasPrior
  | const _ => false

/-- `clone` (float.py:79-91, integer.py:99-111, categorical.py:110-119, constant.py:52-54; all in
neps/search_spaces/hyperparameters). -/
noncomputable def clone : Hp → Option Hp
  | float p => p.clone.map float
  | int p => p.clone.map int
  | cat p => p.clone.map cat
  | const p => some (const ⟨p.value, p.value⟩)

/-- `sample` (neps/search_spaces/parameter.py:103-115, 271-289).  A constant copies itself and sets
its own value. -/
noncomputable def sample (userPriors : Bool) (d : Draw) : Hp → Option Hp
  | float p => (p.sample userPriors d.uniform d.normal).map float
  | int p => (p.sample userPriors d.uniform d.normal).map int
  | cat p => (p.sample d.index).map cat
  | const p => some (const ⟨p.value, p.value⟩)

/-- Lifts a call on a kind of parameter to parameters. -/
def _root_.Verif.Space.Call.lift {σ : Type*} (f : σ → Hp) (c : Call σ) : Call Hp :=
  ⟨f c.st, c.raised⟩

/-- `set_value` of a value; comparing a text with the bounds raises. -/
noncomputable def setValue (h : Hp) (v : Val) : Call Hp :=
  match h, v with
  | float p, .num x => (p.setValue (some x)).lift float
  | float p, .str _ => ⟨float p, true⟩
  | int p, .num x => (p.setValue (some x)).lift int
  | int p, .str _ => ⟨int p, true⟩
  | cat p, v => (p.setValue (some v)).lift cat
  | const p, v => (p.setValue (some v)).lift const

/-- `set_value(None)`; raises for a constant. -/
noncomputable def unsetValue (h : Hp) : Call Hp :=
  match h with
  | float p => (p.setValue none).lift float
  | int p => (p.setValue none).lift int
  | cat p => (p.setValue none).lift cat
  | const p => (p.setValue none).lift const

/-- `set_default` of a value (neps/search_spaces/hyperparameters/float.py:93-112,
integer.py:118-127, categorical.py:247-261, constant.py:76-100). -/
noncomputable def setDefault (h : Hp) (v : Val) : Call Hp :=
  match h, v with
  | float p, .num x => (p.setDefault (some x)).lift float
  | float p, .str _ => ⟨float p, true⟩
  | int p, .num x => (p.setDefault (some x)).lift int
  | int p, .str _ => ⟨int p, true⟩
  | cat p, v => (p.setDefault (some v)).lift cat
  | const p, v => ⟨const p, decide (v ≠ p.dflt)⟩

/-- `set_default(None)` -/
noncomputable def unsetDefault (h : Hp) : Call Hp :=
  match h with
  | float p => (p.setDefault none).lift float
  | int p => (p.setDefault none).lift int
  | cat p => (p.setDefault none).lift cat
  | const p => ⟨const p, true⟩

/-- `load_from` (neps/search_spaces/parameter.py:198-206 and, for integers,
neps/search_spaces/hyperparameters/integer.py:114-115). -/
noncomputable def loadFrom (h : Hp) (v : Val) : Call Hp :=
  match h, v with
  | int p, .num x => (p.loadFrom x).lift int
  | h, v => h.setValue v

/-- `isinstance(hp, MutatableParameter)`: everything but a constant. -/
def mutatable : Hp → Bool
  | const _ => false
  | _ => true

/-- `hp.mutate(parent=None, mutation_rate=…, mutation_strategy="local_search")`
(neps/search_spaces/search_space.py:424): `normals` are the draws for a numerical parameter,
`index` the one for a categorical parameter. -/
noncomputable def mutate (normals : List ℝ) (index : ℕ) : Hp → Option Hp
  | float p => (p.mutate none .localSearch normals).map float
  | int p => (p.mutate none .localSearch normals).map int
  | cat p => (p.mutate none .localSearch index).map cat
  | const _ => none

/-- `hp.crossover(other_hp)` (neps/search_spaces/search_space.py:493): the other parameter is
`parent1`, the parameter itself `parent2`.  Simplification: two kinds of parameters under one name
raise. -/
noncomputable def crossover (normals : List ℝ) (h other : Hp) : Option (Hp × Hp) :=
  match h, other with
  | float p, float q => (p.crossover q none normals).map fun c => (float c.1, float c.2)
  | int p, int q => (p.crossover q none normals).map fun c => (int c.1, int c.2)
  | cat p, cat q => (p.crossover q none).map fun c => (cat c.1, cat c.2)
  | _, _ => none

/-- The values a parameter contributes to the grid
(neps/search_spaces/search_space.py:606-631).  The clipped and de-duplicated list of lines 625-629
is not the one that is appended in line 630. -/
noncomputable def range (size : ℕ) (endpoint : Bool) : Hp → List Val
  | cat p => p.choices
  | const p => [p.value]
  | float p => (p.grid size endpoint).map .num
  | int p => (p.grid size endpoint).map fun (n : ℤ) => .num (n : ℝ)

end Hp

/-- A search space or configuration: the parameters by name
(neps/search_spaces/search_space.py:192-254). -/
abbrev SearchSpace := Dict Hp

namespace SearchSpace

/-- `SearchSpace.__init__` (neps/search_spaces/search_space.py:192-228): sorted by name; more than
one fidelity raises. -/
def make (hps : Dict Hp) : Option SearchSpace :=
  let s := hps.sorted
  if 1 < (s.filter fun p => p.2.isFidelity).length then none else some s

/-- `fidelity` (neps/search_spaces/search_space.py:221-222, 226-227). -/
def fidelity (s : SearchSpace) : Option (String × Hp) := s.find? fun p => p.2.isFidelity

/-- `sample`, one parameter (neps/search_spaces/search_space.py:348-372): the first attempt, of
`patience` many, that does not raise. -/
noncomputable def sampleHp (userPriors ignoreFidelity : Bool) (patience : ℕ) (draws : List Draw)
    (h : Hp) : Option Hp :=
  if h.isFidelity = true ∧ ignoreFidelity = true then h.clone
  else (draws.take patience).findSome? fun d => h.sample userPriors d

/-- `sample` (neps/search_spaces/search_space.py:328-374). -/
noncomputable def sample (s : SearchSpace) (userPriors ignoreFidelity : Bool) (patience : ℕ)
    (draws : String → List Draw) : Option SearchSpace := do
  let hps ← s.mapM fun p => (sampleHp userPriors ignoreFidelity patience (draws p.1) p.2).map
    fun q => (p.1, q)
  make hps

/-- `clone` (neps/search_spaces/search_space.py:672-685). -/
noncomputable def clone (s : SearchSpace) : Option SearchSpace := do
  let hps ← s.mapM fun p => p.2.clone.map fun q => (p.1, q)
  make hps

/-- `serialize` (neps/search_spaces/search_space.py:649-658): a missing value raises. -/
noncomputable def serialize (s : SearchSpace) : Option (Dict Val) :=
  s.mapM fun p => p.2.value.map fun v => (p.1, v)

/-- `new.hyperparameters[name].load_from(val)` (neps/search_spaces/search_space.py:667-668): an
unknown name raises. -/
noncomputable def loadOne (s : SearchSpace) (kv : String × Val) : Option SearchSpace := do
  let h ← s.get? kv.1
  let c := h.loadFrom kv.2
  if c.raised then none else return s.set kv.1 c.st

/-- `from_dict` (neps/search_spaces/search_space.py:660-670). -/
noncomputable def fromDict (s : SearchSpace) (config : Dict Val) : Option SearchSpace := do
  let new ← s.clone
  config.foldlM loadOne new

/-- `config[hp_name].set_value(hp.default)` (neps/search_spaces/search_space.py:711-722). -/
noncomputable def defaultOne (ignoreFidelity ignoreMissing : Bool) (config : SearchSpace)
    (p : String × Hp) : Option SearchSpace :=
  if p.2.isFidelity = true ∧ ignoreFidelity = true then some config
  else
    match p.2.dflt with
    | none => if ignoreMissing then some config else none
    | some v => do
      let h ← config.get? p.1
      let c := h.setValue v
      if c.raised then none else return config.set p.1 c.st

/-- `sample_default_configuration` (neps/search_spaces/search_space.py:687-724). -/
noncomputable def defaultConfiguration (s : SearchSpace) (ignoreFidelity ignoreMissing : Bool)
    (patience : ℕ) (draws : String → List Draw) : Option SearchSpace := do
  let config ← s.sample false ignoreFidelity patience draws
  s.foldlM (defaultOne ignoreFidelity ignoreMissing) config

/-- The names `_smbo_mutation` chooses from (neps/search_spaces/search_space.py:414-418). -/
def mutatableNames (s : SearchSpace) : List String :=
  (s.filter fun p => !p.2.isFidelity && p.2.mutatable).map (·.1)

/-- One attempt of `_smbo_mutation` (neps/search_spaces/search_space.py:420-434): `a.1` is the
position of the chosen name, the others are the draws of the mutation.  `none`: the next attempt;
`some none`: an exception. -/
noncomputable def mutateOnce (s : SearchSpace) (a : ℕ × List ℝ × ℕ) : Option (Option SearchSpace) :=
  match s.mutatableNames[a.1]? with
  | none => some none
  | some name =>
    match (s.get? name).bind (Hp.mutate a.2.1 a.2.2) with
    | none => none
    | some h => some do
      let hps ← s.mapM fun p => if p.1 = name then some (p.1, h) else p.2.clone.map fun q => (p.1, q)
      make hps

/-- `mutate` (neps/search_spaces/search_space.py:376-438).  A parent, which is a
`SearchSpace`, is passed on to the parameter, which asks for its `value`: every attempt raises. -/
noncomputable def mutate (s : SearchSpace) (parent : Option SearchSpace) (patience : ℕ)
    (attempts : List (ℕ × List ℝ × ℕ)) : Option SearchSpace :=
  match parent with
  | some _ => none
  | none => ((attempts.take patience).findSome? s.mutateOnce).bind fun r => r.bind make

/-- One parameter of `_simple_crossover` (neps/search_spaces/search_space.py:484-501): `coin` tells
whether the random number is below the probability, `tries` are the draws of the attempts.
`some none`: no attempt succeeded and the name is missing in both children. -/
noncomputable def crossoverHp (patience : ℕ) (coin : Bool) (tries : List (List ℝ)) (h other : Hp) :
    Option (Option (Hp × Hp)) :=
  if h.mutatable = true ∧ h.isFidelity = false ∧ coin = true then
    some ((tries.take patience).findSome? fun normals => h.crossover normals other)
  else do
    let a ← h.clone
    let b ← other.clone
    return some (a, b)

/-- `crossover` (neps/search_spaces/search_space.py:440-472). -/
noncomputable def crossover (s other : SearchSpace) (patience : ℕ) (coin : String → Bool)
    (tries : String → List (List ℝ)) : Option (SearchSpace × SearchSpace) := do
  let cs ← s.mapM fun p => do
    let q ← other.get? p.1
    let c ← crossoverHp patience (coin p.1) (tries p.1) p.2 q
    return (p.1, c)
  let one : Dict Hp := cs.filterMap fun p => p.2.map fun c => (p.1, c.1)
  let two : Dict Hp := cs.filterMap fun p => p.2.map fun c => (p.1, c.2)
  if s.length ≠ one.length then none
  else do
    let a ← make one
    let b ← make two
    return (a, b)

/-- `itertools.product`: the last list runs fastest. -/
def product {α : Type*} : List (List α) → List (List α)
  | [] => [[]]
  | l :: ls => l.flatMap fun a => (product ls).map (a :: ·)

/-- `get_search_space_grid` (neps/search_spaces/search_space.py:567-647): every configuration is a
space of constants. -/
noncomputable def grid (s : SearchSpace) (size : ℕ) (endpoint : Bool) : List SearchSpace :=
  (product (s.map fun p => p.2.range size endpoint)).map fun vs =>
    (List.zip s.keys vs).map fun kv => (kv.1, Hp.const ⟨kv.2, kv.2⟩)

/-- `set_to_max_fidelity` (neps/search_spaces/search_space.py:560-565). -/
noncomputable def setToMaxFidelity (s : SearchSpace) : Option SearchSpace := do
  let (name, h) ← s.fidelity
  let u : Val ← match h with
    | .float p => some (.num p.upper)
    | .int p => some (.num p.upper)
    | _ => none
  let c := h.setValue u
  if c.raised then none else return s.set name c.st

/-- The switches of `set_hyperparameters_from_dict`
(neps/search_spaces/search_space.py:732-744). -/
structure SetOpts where
  defaults : Bool
  values : Bool
  deleteDefaults : Bool
  deleteValues : Bool
  overwriteConstants : Bool
  /-- the confidence, `none` for a name that is not a confidence; numerical score and score of
  categoricals -/
  confidence : Option (ℝ × ℕ)

/-- Runs the next statement unless the last one raised. -/
def _root_.Verif.Space.Call.andThen {σ : Type*} (c : Call σ) (f : σ → Call σ) : Call σ :=
  if c.raised then c else f c.st

/-- `set_default_confidence_score`, for parameters with a prior. -/
noncomputable def _root_.Verif.Space.Hp.setConfidence (h : Hp) (s : Option (ℝ × ℕ)) : Call Hp :=
  match h with
  | .float p => (p.setConfidence (s.map (·.1))).lift .float
  | .int p => (p.setConfidence (s.map (·.1))).lift .int
  | .cat p => (p.setConfidence (s.map (·.2))).lift .cat
  | .const p => ⟨.const p, false⟩

/-- The body of the loop of `set_hyperparameters_from_dict` for one named parameter
(neps/search_spaces/search_space.py:781-810). -/
noncomputable def setHp (o : SetOpts) (h : Hp) (v : Val) : Call Hp :=
  match h with
  | .const p =>
    if o.overwriteConstants = false then ⟨.const p, false⟩
    else if ¬ (o.defaults = true ∧ o.values = true) then ⟨.const p, true⟩
    else ⟨.const ⟨v, v⟩, false⟩
  | h =>
    (((((⟨h, false⟩ : Call Hp)
      |>.andThen fun h => if o.deleteDefaults then h.unsetDefault else ⟨h, false⟩)
      |>.andThen fun h => if o.deleteValues then h.unsetValue else ⟨h, false⟩)
      |>.andThen fun h => if o.defaults then h.setDefault v else ⟨h, false⟩)
      |>.andThen fun h => if o.defaults then h.setConfidence o.confidence else ⟨h, false⟩)
      |>.andThen fun h => if o.values then h.setValue v else ⟨h, false⟩

/-- The loop of `set_hyperparameters_from_dict` (neps/search_spaces/search_space.py:776-810): the
parameters are changed one after the other, in place. -/
noncomputable def setLoop (o : SetOpts) (new : Dict Val) : SearchSpace → Call SearchSpace
  | [] => ⟨[], false⟩
  | (k, h) :: s =>
    match new.get? k with
    | none => let r := setLoop o new s; ⟨(k, h) :: r.st, r.raised⟩
    | some v =>
      let c := setHp o h v
      if c.raised then ⟨(k, c.st) :: s, true⟩
      else let r := setLoop o new s; ⟨(k, c.st) :: r.st, r.raised⟩

/-- `set_hyperparameters_from_dict` (neps/search_spaces/search_space.py:732-810). -/
noncomputable def setFromDict (s : SearchSpace) (o : SetOpts) (new : Dict Val) : Call SearchSpace :=
  if o.values = false ∧ o.defaults = false then ⟨s, true⟩ else setLoop o new s

/-- `np.round(x, 8) != 0` on exact numbers. -/
noncomputable def roundsToNonzero (x : ℝ) (decimals : ℕ) : Bool := decide (rnd (x * 10 ^ decimals) ≠ 0)

/-- One parameter of `is_equal_value` (neps/search_spaces/search_space.py:849-863): float values
are compared on the normalised scale to `decimals` digits, everything else exactly; `none` if the
normalisation raises.  `isFloat` tells which values of categorical and constant parameters are
Python floats; for those the normalised value is the index of the choice
(neps/search_spaces/hyperparameters/categorical.py:239-240) and, for a constant, always 1
(constant.py:143-144). -/
noncomputable def sameHp (isFloat : Val → Bool) (decimals : ℕ) (h other : Hp) : Option Bool :=
  match h, other with
  | .float p, .float q =>
    match p.value, q.value with
    | some x, some y =>
        some (!roundsToNonzero (p.valueToNormalized x - q.valueToNormalized y) decimals)
    | some _, none => none
    | none, some _ => some false
    | none, none => some true
  | .int p, .int q => some (decide (p.value = q.value))
  | .cat p, .cat q =>
    if p.value.any isFloat then do
      let i ← p.value.bind (CatParam.index p.choices)
      let j ← q.value.bind (CatParam.index q.choices)
      return !roundsToNonzero ((i : ℝ) - (j : ℝ)) decimals
    else some (decide (p.value = q.value))
  | .const p, .const q =>
    if isFloat p.value then
      some (!roundsToNonzero ((if p.value = p.value then 1 else 0) -
        (if q.value = q.value then 1 else 0)) decimals)
    else some (decide (p.value = q.value))
  | _, _ => some false

/-- `is_equal_value` (neps/search_spaces/search_space.py:824-865); the loop stops at the first
difference. -/
noncomputable def sameLoop (isFloat : Val → Bool) (includeFidelity : Bool) (decimals : ℕ)
    (other : SearchSpace) :
    SearchSpace → Option Bool
  | [] => some true
  | (k, h) :: s =>
    if h.isFidelity = true ∧ includeFidelity = false then sameLoop isFloat includeFidelity decimals other s
    else do
      let q ← other.get? k
      let b ← sameHp isFloat decimals h q
      if b then sameLoop isFloat includeFidelity decimals other s else return false

/-- See `sameLoop`: the names are compared first, as sets
(neps/search_spaces/search_space.py:846-847). -/
noncomputable def isEqualValue (isFloat : Val → Bool) (s other : SearchSpace) (includeFidelity : Bool) (decimals : ℕ) :
    Option Bool :=
  if (∀ k ∈ s.keys, k ∈ other.keys) ∧ (∀ k ∈ other.keys, k ∈ s.keys) then
    sameLoop isFloat includeFidelity decimals other s
  else some false

end SearchSpace

end Verif.Space
