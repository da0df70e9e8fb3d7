import Verif.Space.Domain

/-!
# Model of the hyperparameters

`neps/search_spaces/hyperparameters/{numerical,float,integer,categorical,constant}.py`.

Simplifications, for the whole file: floats are exact real numbers; every random draw is a
parameter of the model (so the theorems hold for all draws); the confidence and the `domain`
attribute are left out where they are not used; constructing a parameter is modelled by
`FloatParam.make` / `IntParam.make` / `CatParam.make`, with `none` for an exception.
-/

namespace Verif.Space

/-- A method call that may raise: the object after the call, and whether the call raised. -/
structure Call (σ : Type*) where
  st : σ
  raised : Bool

/-! ## Float parameters -/

/-- `FloatParameter` (neps/search_spaces/hyperparameters/float.py:18-77 and
numerical.py:58-153). -/
structure FloatParam where
  lower : ℝ
  upper : ℝ
  log : Bool
  isFidelity : Bool
  dflt : Option ℝ
  hasPrior : Bool
  /-- `default_confidence_choice`, given by its score -/
  choice : ℝ
  /-- `default_confidence_score` -/
  score : ℝ
  value : Option ℝ
  normalized : Option ℝ

namespace FloatParam

/-- The constructor (neps/search_spaces/hyperparameters/float.py:47-76, numerical.py:75-153):
bounds in the wrong order, a log scale with non-positive bounds and a default out of bounds
raise. -/
noncomputable def make (lower upper : ℝ) (log isFidelity : Bool) (dflt : Option ℝ) (score : ℝ) :
    Option FloatParam :=
  if upper ≤ lower then none
  else if log = true ∧ (lower ≤ 0 ∨ upper ≤ 0) then none
  else
    match dflt with
    | some x => if ¬ (lower ≤ x ∧ x ≤ upper) then none
        else some ⟨lower, upper, log, isFidelity, dflt, true, score, score, none, none⟩
    | none => some ⟨lower, upper, log, isFidelity, dflt, false, score, score, none, none⟩

/-- The bounds on the scale of the parameter (`log_bounds` for log parameters,
neps/search_spaces/hyperparameters/numerical.py:140-141, float.py:155-159). -/
noncomputable def low (p : FloatParam) : ℝ := if p.log then Real.log p.lower else p.lower

/-- See `low`. -/
noncomputable def high (p : FloatParam) : ℝ := if p.log then Real.log p.upper else p.upper

/-- `value_to_normalized` (neps/search_spaces/hyperparameters/float.py:154-162). -/
noncomputable def valueToNormalized (p : FloatParam) (v : ℝ) : ℝ :=
  ((if p.log then Real.log v else v) - p.low) / (p.high - p.low)

/-- `normalized_to_value` (neps/search_spaces/hyperparameters/float.py:165-174). -/
noncomputable def normalizedToValue (p : FloatParam) (n : ℝ) : ℝ :=
  let x := n * (p.high - p.low) + p.low
  if p.log then Real.exp x else x

/-- `set_value` (neps/search_spaces/hyperparameters/float.py:115-131). -/
noncomputable def setValue (p : FloatParam) (v : Option ℝ) : Call FloatParam :=
  match v with
  | none => ⟨{ p with value := none, normalized := none }, false⟩
  | some v =>
    if ¬ (p.lower ≤ v ∧ v ≤ p.upper) then ⟨p, true⟩
    else ⟨{ p with value := some v, normalized := some (p.valueToNormalized v) }, false⟩

/-- `set_default` (neps/search_spaces/hyperparameters/float.py:94-112). -/
noncomputable def setDefault (p : FloatParam) (v : Option ℝ) : Call FloatParam :=
  match v with
  | none => ⟨{ p with dflt := none, hasPrior := false }, false⟩
  | some v =>
    if ¬ (p.lower ≤ v ∧ v ≤ p.upper) then ⟨p, true⟩
    else ⟨{ p with dflt := some v, hasPrior := true }, false⟩

/-- `set_default_confidence_score` (neps/search_spaces/parameter.py:251-269): `none` is a name
that is not among the confidence scores.  The choice the constructor was given is not changed. -/
noncomputable def setConfidence (p : FloatParam) (s : Option ℝ) : Call FloatParam :=
  match s with
  | none => ⟨p, true⟩
  | some s => ⟨{ p with score := s }, false⟩

/-- `clone` (neps/search_spaces/hyperparameters/float.py:79-91): a new parameter with the same
declaration and, if there is one, the same value.  The confidence is the one the constructor was
given (line 86). -/
noncomputable def clone (p : FloatParam) : Option FloatParam := do
  let q ← make p.lower p.upper p.log p.isFidelity p.dflt p.choice
  match p.value with
  | none => return q
  | some v =>
    let c := q.setValue (some v)
    if c.raised then none else return c.st

/-- `load_from` (neps/search_spaces/parameter.py:195-202): `set_value`. -/
noncomputable def loadFrom (p : FloatParam) (v : ℝ) : Call FloatParam := p.setValue (some v)

/-- `sample_value` (neps/search_spaces/hyperparameters/float.py:134-151): `uniform` is the draw
of `np.random.uniform`, `normal` the draw of the truncated normal distribution. -/
noncomputable def sampleValue (p : FloatParam) (userPriors : Bool) (uniform normal : ℝ) : ℝ :=
  let dflt : ℝ := match p.dflt with
    | some x => if p.log then Real.log x else x
    | none => 0
  let v := if userPriors = true ∧ p.hasPrior = true then
      normal * ((p.high - p.low) * p.score) + dflt else uniform
  let v := if p.log then Real.exp v else v
  min p.upper (max p.lower v)

/-- `sample` (neps/search_spaces/parameter.py:271-289): a copy holding a sampled value. -/
noncomputable def sample (p : FloatParam) (userPriors : Bool) (uniform normal : ℝ) :
    Option FloatParam := do
  let q ← p.clone
  let c := q.setValue (some (p.sampleValue userPriors uniform normal))
  if c.raised then none else return c.st

/-- `_get_non_unique_neighbors` (neps/search_spaces/hyperparameters/float.py:177-201): the draws
of `np.random.normal` are consumed one by one, those outside of the unit interval are skipped;
`none` if the draws run out (the loop has not ended yet) or an exception is raised. -/
noncomputable def neighbours (p : FloatParam) : ℕ → List ℝ → Option (List FloatParam)
  | 0, _ => some []
  | _ + 1, [] => none
  | k + 1, n :: draws =>
    if n < 0 ∨ n > 1 then neighbours p (k + 1) draws
    else do
      let q ← p.clone
      let c := q.setValue (some (p.normalizedToValue n))
      if c.raised then none
      else do
        let rest ← neighbours p k draws
        return c.st :: rest

end FloatParam

/-- The mutation strategies of `mutate`
(neps/search_spaces/hyperparameters/numerical.py:197-205). -/
inductive Strategy where
  | simple
  | localSearch
  | other
  deriving DecidableEq

namespace FloatParam

/-- The child made by `mutate` (neps/search_spaces/hyperparameters/numerical.py:197-206).  In the
simple strategy the sampled copy is thrown away and the child is a plain copy of the parameter
(lines 197-199). -/
noncomputable def mutant (p : FloatParam) (s : Strategy) (draws : List ℝ) : Option FloatParam :=
  match s with
  | .simple => p.clone
  | .localSearch => if p.value = none then none else (p.neighbours 1 draws).bind List.head?
  | .other => none

/-- `NumericalParameter.mutate` (neps/search_spaces/hyperparameters/numerical.py:185-211). -/
noncomputable def mutate (p : FloatParam) (parent : Option FloatParam) (s : Strategy)
    (draws : List ℝ) : Option FloatParam :=
  if p.isFidelity then none
  else do
    let child ← p.mutant s draws
    if (parent.getD p).value = child.value then none else return child

/-- `NumericalParameter.crossover` (neps/search_spaces/hyperparameters/numerical.py:214-231). -/
noncomputable def crossover (p : FloatParam) (parent1 : FloatParam) (parent2 : Option FloatParam)
    (draws : List ℝ) : Option (FloatParam × FloatParam) :=
  if p.isFidelity then none
  else do
    let par2 := parent2.getD p
    let v1 ← parent1.value
    let v2 ← par2.value
    let q ← p.clone
    let c := q.setValue (some ((v1 + v2) / 2))
    if c.raised then none
    else do
      let ns ← c.st.neighbours 2 draws
      match ns with
      | [a, b] => return (a, b)
      | _ => none

end FloatParam

/-- `np.linspace(0, 1, num=size, endpoint=include_endpoint)`
(neps/search_spaces/hyperparameters/numerical.py:268). -/
noncomputable def linspace01 (size : ℕ) (endpoint : Bool) : List ℝ :=
  (List.range size).map fun (i : ℕ) =>
    if endpoint then (if size = 1 then 0 else (i : ℝ) / ((size : ℝ) - 1)) else (i : ℝ) / (size : ℝ)

/-- `NumericalParameter.grid` of a float parameter
(neps/search_spaces/hyperparameters/numerical.py:250-269). -/
noncomputable def FloatParam.grid (p : FloatParam) (size : ℕ) (endpoint : Bool) : List ℝ :=
  (linspace01 size endpoint).map p.normalizedToValue

/-! ## Integer parameters -/

/-- `IntegerParameter` (neps/search_spaces/hyperparameters/integer.py:18-93): it holds a float
parameter widened by `0.499999` on both sides. -/
structure IntParam where
  lower : ℤ
  upper : ℤ
  log : Bool
  isFidelity : Bool
  dflt : Option ℤ
  hasPrior : Bool
  /-- `default_confidence_choice`, given by its score -/
  choice : ℝ
  score : ℝ
  floatHp : FloatParam
  /-- `_value` -/
  value : Option ℤ
  normalized : Option ℝ
  /-- `log_default` (numerical.py:139-144) -/
  logDflt : Option ℝ

namespace IntParam

/-- The amount by which the float range is widened
(neps/search_spaces/hyperparameters/integer.py:84-87). -/
noncomputable def margin : ℝ := 0.499999

/-- The `log_default` the constructor sets
(neps/search_spaces/hyperparameters/numerical.py:139-144). -/
noncomputable def logOf (log : Bool) (d : Option ℤ) : Option ℝ :=
  if log then d.map fun (d : ℤ) => Real.log (d : ℝ) else none

/-- The constructor (neps/search_spaces/hyperparameters/integer.py:43-93 and
numerical.py:75-153): the bounds and the default are rounded, fewer than two values raise. -/
noncomputable def make (lower upper : ℝ) (log isFidelity : Bool) (dflt : Option ℝ) (score : ℝ) :
    Option IntParam :=
  let l := rnd lower
  let u := rnd upper
  if u - l + 1 ≤ 1 then none
  else if log = true ∧ (l ≤ 0 ∨ u ≤ 0) then none
  else if (dflt.map rnd).any (fun d => ¬ (l ≤ d ∧ d ≤ u)) then none
  else do
    let f ← FloatParam.make ((l : ℝ) - margin) ((u : ℝ) + margin) log isFidelity dflt score
    return ⟨l, u, log, isFidelity, dflt.map rnd, (dflt.map rnd).isSome, score, score, f, none, none,
      logOf log (dflt.map rnd)⟩

/-- `value_to_normalized` (neps/search_spaces/hyperparameters/integer.py:157-158). -/
noncomputable def valueToNormalized (p : IntParam) (v : ℤ) : ℝ := p.floatHp.valueToNormalized v

/-- `normalized_to_value` (neps/search_spaces/hyperparameters/integer.py:161-162). -/
noncomputable def normalizedToValue (p : IntParam) (n : ℝ) : ℤ := rnd (p.floatHp.normalizedToValue n)

/-- `set_value` (neps/search_spaces/hyperparameters/integer.py:130-149): the bounds are checked
before the value is rounded. -/
noncomputable def setValue (p : IntParam) (v : Option ℝ) : Call IntParam :=
  match v with
  | none =>
    ⟨{ p with value := none, normalized := none, floatHp := (p.floatHp.setValue none).st }, false⟩
  | some v =>
    if ¬ ((p.lower : ℝ) ≤ v ∧ v ≤ (p.upper : ℝ)) then ⟨p, true⟩
    else
      let n := rnd v
      let c := p.floatHp.setValue (some (n : ℝ))
      if c.raised then ⟨{ p with floatHp := c.st }, true⟩
      else
        ⟨{ p with floatHp := c.st, value := some n, normalized := some (p.valueToNormalized n) },
          false⟩

/-- `set_default` (neps/search_spaces/hyperparameters/integer.py:118-127): the default is stored
before the float parameter checks it, and `log_default` is not changed. -/
noncomputable def setDefault (p : IntParam) (v : Option ℝ) : Call IntParam :=
  match v with
  | none => ⟨{ p with dflt := none, hasPrior := false, floatHp := (p.floatHp.setDefault none).st },
      false⟩
  | some v =>
    let d := rnd v
    let c := p.floatHp.setDefault (some (d : ℝ))
    ⟨{ p with dflt := some d, hasPrior := true, floatHp := c.st }, c.raised⟩

/-- `load_from` (neps/search_spaces/hyperparameters/integer.py:114-115): the rounded value is
stored without any check. -/
noncomputable def loadFrom (p : IntParam) (v : ℝ) : Call IntParam :=
  ⟨{ p with value := some (rnd v) }, false⟩

/-- `set_default_confidence_score` (neps/search_spaces/hyperparameters/integer.py:165-167). -/
noncomputable def setConfidence (p : IntParam) (s : Option ℝ) : Call IntParam :=
  match s with
  | none => ⟨p, true⟩
  | some s => ⟨{ p with score := s, floatHp := (p.floatHp.setConfidence (some s)).st }, false⟩

/-- `clone` (neps/search_spaces/hyperparameters/integer.py:99-111). -/
noncomputable def clone (p : IntParam) : Option IntParam := do
  let q ← make p.lower p.upper p.log p.isFidelity (p.dflt.map (fun (d : ℤ) => (d : ℝ))) p.choice
  match p.value with
  | none => return q
  | some v =>
    let c := q.setValue (some (v : ℝ))
    if c.raised then none else return c.st

/-- `sample_value` (neps/search_spaces/hyperparameters/integer.py:152-154). -/
noncomputable def sampleValue (p : IntParam) (userPriors : Bool) (uniform normal : ℝ) : ℤ :=
  rnd (p.floatHp.sampleValue userPriors uniform normal)

/-- `sample` (neps/search_spaces/parameter.py:271-289). -/
noncomputable def sample (p : IntParam) (userPriors : Bool) (uniform normal : ℝ) :
    Option IntParam := do
  let q ← p.clone
  let c := q.setValue (some ((p.sampleValue userPriors uniform normal : ℤ) : ℝ))
  if c.raised then none else return c.st

/-- `_get_non_unique_neighbors` (neps/search_spaces/hyperparameters/integer.py:169-196): as for
floats, and the parameter's own value is skipped too. -/
noncomputable def neighbours (p : IntParam) : ℕ → List ℝ → Option (List IntParam)
  | 0, _ => some []
  | _ + 1, [] => none
  | k + 1, n :: draws =>
    if n < 0 ∨ n > 1 then neighbours p (k + 1) draws
    else if some (p.normalizedToValue n) = p.value then neighbours p (k + 1) draws
    else do
      let q ← p.clone
      let c := q.setValue (some ((p.normalizedToValue n : ℤ) : ℝ))
      if c.raised then none
      else do
        let rest ← neighbours p k draws
        return c.st :: rest

/-- The child made by `mutate` (neps/search_spaces/hyperparameters/numerical.py:197-206).  In the
simple strategy the sampled copy is thrown away and the child is a plain copy of the parameter
(lines 197-199). -/
noncomputable def mutant (p : IntParam) (s : Strategy) (draws : List ℝ) : Option IntParam :=
  match s with
  | .simple => p.clone
  | .localSearch => if p.value = none then none else (p.neighbours 1 draws).bind List.head?
  | .other => none

/-- `NumericalParameter.mutate` (neps/search_spaces/hyperparameters/numerical.py:185-211). -/
noncomputable def mutate (p : IntParam) (parent : Option IntParam) (s : Strategy)
    (draws : List ℝ) : Option IntParam :=
  if p.isFidelity then none
  else do
    let child ← p.mutant s draws
    if (parent.getD p).value = child.value then none else return child

/-- `NumericalParameter.crossover` (neps/search_spaces/hyperparameters/numerical.py:214-231). -/
noncomputable def crossover (p : IntParam) (parent1 : IntParam) (parent2 : Option IntParam)
    (draws : List ℝ) : Option (IntParam × IntParam) :=
  if p.isFidelity then none
  else do
    let par2 := parent2.getD p
    let v1 ← parent1.value
    let v2 ← par2.value
    let q ← p.clone
    let c := q.setValue (some (((v1 : ℝ) + (v2 : ℝ)) / 2))
    if c.raised then none
    else do
      let ns ← c.st.neighbours 2 draws
      match ns with
      | [a, b] => return (a, b)
      | _ => none

/-- `NumericalParameter.grid` of an integer parameter
(neps/search_spaces/hyperparameters/numerical.py:250-269). -/
noncomputable def grid (p : IntParam) (size : ℕ) (endpoint : Bool) : List ℤ :=
  (linspace01 size endpoint).map p.normalizedToValue

end IntParam

/-! ## Categorical parameters -/

/-- `CategoricalParameter` (neps/search_spaces/hyperparameters/categorical.py:22-107). -/
structure CatParam (α : Type*) where
  choices : List α
  dflt : Option α
  dfltIndex : Option ℕ
  hasPrior : Bool
  /-- `default_confidence_choice`, given by its score -/
  choice : ℕ
  /-- `default_confidence_score` -/
  score : ℕ
  value : Option α
  valueIndex : Option ℕ

namespace CatParam

variable {α : Type*} [DecidableEq α]

/-- `self.choices.index(value)`, which raises for an unknown value. -/
def index (choices : List α) (v : α) : Option ℕ := choices.findIdx? (fun c => c = v)

/-- The constructor (neps/search_spaces/hyperparameters/categorical.py:55-107): fewer than two
choices, duplicates and an unknown default raise. -/
def make (choices : List α) (dflt : Option α) (score : ℕ) : Option (CatParam α) :=
  if choices.length ≤ 1 then none
  else if ¬ choices.Nodup then none
  else
    match dflt with
    | none => some ⟨choices, none, none, false, score, score, none, none⟩
    | some d =>
      if d ∉ choices then none
      else some ⟨choices, some d, index choices d, true, score, score, none, none⟩

/-- `set_value` (neps/search_spaces/hyperparameters/categorical.py:264-273): the value is stored
before its index is looked up. -/
def setValue (p : CatParam α) (v : Option α) : Call (CatParam α) :=
  match v with
  | none => ⟨{ p with value := none, valueIndex := none }, false⟩
  | some v =>
    let p' := { p with value := some v }
    match index p.choices v with
    | none => ⟨p', true⟩
    | some i => ⟨{ p' with valueIndex := some i }, false⟩

/-- `set_default` (neps/search_spaces/hyperparameters/categorical.py:247-261). -/
def setDefault (p : CatParam α) (v : Option α) : Call (CatParam α) :=
  match v with
  | none => ⟨{ p with dflt := none, dfltIndex := none, hasPrior := false }, false⟩
  | some v =>
    if v ∉ p.choices then ⟨p, true⟩
    else ⟨{ p with dflt := some v, dfltIndex := index p.choices v, hasPrior := true }, false⟩

/-- `set_default_confidence_score` (neps/search_spaces/parameter.py:251-269). -/
def setConfidence (p : CatParam α) (s : Option ℕ) : Call (CatParam α) :=
  match s with
  | none => ⟨p, true⟩
  | some s => ⟨{ p with score := s }, false⟩

/-- `clone` (neps/search_spaces/hyperparameters/categorical.py:110-119). -/
def clone (p : CatParam α) : Option (CatParam α) := do
  let q ← make p.choices p.dflt p.choice
  match p.value with
  | none => return q
  | some v =>
    let c := q.setValue (some v)
    if c.raised then none else return c.st

/-- `_compute_user_prior_probabilities`
(neps/search_spaces/hyperparameters/categorical.py:137-143): weight `score` for the default, one
for every other choice, divided by the sum. -/
noncomputable def priorProbabilities (p : CatParam α) : Option (List ℝ) :=
  p.dfltIndex.map fun d =>
    let w : List ℝ := (List.replicate p.choices.length (1 : ℝ)).set d p.score
    w.map (· / w.sum)

/-- `sample_value` (neps/search_spaces/hyperparameters/categorical.py:157-163): `draw` is the
index returned by `np.random.choice`. -/
def sampleValue (p : CatParam α) (draw : ℕ) : Option α := p.choices[draw]?

/-- `sample` (neps/search_spaces/parameter.py:271-289). -/
def sample (p : CatParam α) (draw : ℕ) : Option (CatParam α) := do
  let v ← p.sampleValue draw
  let q ← p.clone
  let c := q.setValue (some v)
  if c.raised then none else return c.st

/-- The indices offered to `np.random.choice` by `_get_non_unique_neighbors`
(neps/search_spaces/hyperparameters/categorical.py:219-222). -/
def available (p : CatParam α) : List ℕ :=
  match p.valueIndex with
  | none => []
  | some i => (List.range p.choices.length).take i ++ (List.range p.choices.length).drop (i + 1)

/-- One neighbour (neps/search_spaces/hyperparameters/categorical.py:231-234): `d` is the position
drawn in the list of available indices. -/
def neighbour (p : CatParam α) (d : ℕ) : Option (CatParam α) := do
  let v ← (p.available[d]?).bind fun i => p.choices[i]?
  let q ← p.clone
  let c := q.setValue (some v)
  if c.raised then none else return c.st

/-- `_get_non_unique_neighbors` (neps/search_spaces/hyperparameters/categorical.py:211-236). -/
def neighbours (p : CatParam α) (draws : List ℕ) : Option (List (CatParam α)) :=
  if p.valueIndex = none then none else draws.mapM p.neighbour

/-- The child made by `mutate` (neps/search_spaces/hyperparameters/categorical.py:176-184). -/
def mutant (p par : CatParam α) (s : Strategy) (draw : ℕ) : Option (CatParam α) :=
  match s with
  | .simple => par.sample draw
  | .localSearch => (p.neighbours [draw]).bind List.head?
  | .other => none

/-- `mutate` (neps/search_spaces/hyperparameters/categorical.py:166-189). -/
def mutate (p : CatParam α) (parent : Option (CatParam α)) (s : Strategy) (draw : ℕ) :
    Option (CatParam α) := do
  let child ← p.mutant (parent.getD p) s draw
  if (parent.getD p).value = child.value then none else return child

/-- `crossover` (neps/search_spaces/hyperparameters/categorical.py:192-208): the children swap
the values of the parents. -/
def crossover (p parent1 : CatParam α) (parent2 : Option (CatParam α)) :
    Option (CatParam α × CatParam α) := do
  let par2 := parent2.getD p
  let v1 ← parent1.value
  let v2 ← par2.value
  let q1 ← parent1.clone
  let c1 := q1.setValue (some v2)
  if c1.raised then none
  else do
    let q2 ← par2.clone
    let c2 := q2.setValue (some v1)
    if c2.raised then none else return (c1.st, c2.st)

end CatParam

/-! ## Constants -/

/-- `ConstantParameter` (neps/search_spaces/hyperparameters/constant.py:13-50). -/
structure ConstParam (α : Type*) where
  value : α
  dflt : α

namespace ConstParam

variable {α : Type*} [DecidableEq α]

/-- `set_value` (neps/search_spaces/hyperparameters/constant.py:103-127). -/
def setValue (p : ConstParam α) (v : Option α) : Call (ConstParam α) :=
  if v ≠ some p.value then ⟨p, true⟩ else ⟨p, false⟩

end ConstParam

end Verif.Space
