import Verif.Space.SearchSpace
import Mathlib.Analysis.SpecialFunctions.Sqrt

/-!
# PriorBand: configurations around the incumbent

Model of `local_mutation`, `custom_crossover`, `compute_config_dist`
(neps/optimizers/multi_fidelity_prior/utils.py), `sample_neighbour`
(neps/optimizers/multi_fidelity/sampling_policy.py) and `find_1nn_distance_from_incumbent`
(neps/optimizers/multi_fidelity_prior/priorband.py).

Simplifications, for the whole file: graph parameters are left out; floats are exact real numbers;
random draws are parameters; an exception is `none`.
-/

namespace Verif.PriorBand

open Verif.Space

/-- The random numbers `local_mutation` may consume for one parameter in one attempt: whether the
uniform number is at most `mutation_rate`, and the draws of `mutate`. -/
structure MutDraw where
  coin : Bool
  normals : List ℝ
  index : ℕ

/-- One parameter of `local_mutation` (neps/optimizers/multi_fidelity_prior/utils.py:41-66). -/
noncomputable def localMutateHp (mutateCategoricals : Bool) (d : MutDraw) (h : Hp) : Option Hp :=
  if h.isFidelity = true ∨ d.coin = false then h.clone
  else
    match h with
    | .cat p => if mutateCategoricals then (Hp.cat p).mutate d.normals d.index else (Hp.cat p).clone
    | .const p => (Hp.const p).clone
    | h => h.mutate d.normals d.index

/-- One attempt of `local_mutation` (utils.py:39-69). -/
noncomputable def localAttempt (mutateCategoricals : Bool) (s : SearchSpace)
    (d : String → MutDraw) : Option SearchSpace := do
  let hps ← s.mapM fun p => (localMutateHp mutateCategoricals (d p.1) p.2).map fun q => (p.1, q)
  SearchSpace.make hps

/-- The loop of `local_mutation` (utils.py:38-73), `n` more attempts, the next one is number
`i`. -/
noncomputable def localMutationGo (isFloat : Val → Bool) (mutateCategoricals : Bool)
    (s : SearchSpace) (d : ℕ → String → MutDraw) : ℕ → ℕ → Option SearchSpace
  | 0, _ => s.clone
  | n + 1, i => do
    let new ← localAttempt mutateCategoricals s (d i)
    let same ← s.isEqualValue isFloat new false 8
    if same then localMutationGo isFloat mutateCategoricals s d n (i + 1) else return new

/-- `local_mutation` (utils.py:29-73). -/
noncomputable def localMutation (isFloat : Val → Bool) (s : SearchSpace) (patience : ℕ)
    (mutateCategoricals : Bool) (d : ℕ → String → MutDraw) : Option SearchSpace :=
  localMutationGo isFloat mutateCategoricals s d patience 0

/-- `child_config[key].set_value(config2[key].value)` (utils.py:91). -/
noncomputable def takeOver (q other : Hp) : Option Hp :=
  let c := match other.value with
    | some v => q.setValue v
    | none => q.unsetValue
  if c.raised then none else some c.st

/-- One attempt of `custom_crossover` (utils.py:88-91). -/
noncomputable def crossAttempt (s t : SearchSpace) (coin : String → Bool) : Option SearchSpace := do
  let child ← s.clone
  s.mapM fun p => do
    let q ← child.get? p.1
    if p.2.isFidelity = false ∧ coin p.1 = true then do
      let other ← t.get? p.1
      let q' ← takeOver q other
      return (p.1, q')
    else return (p.1, q)

/-- The loop of `custom_crossover` (utils.py:87-103): `coin i name` tells whether in attempt `i`
the random number for the parameter is below `crossover_prob`. -/
noncomputable def crossGo (isFloat : Val → Bool) (s t : SearchSpace) (patience : ℕ)
    (coin : ℕ → String → Bool) (draws : String → List Draw) : ℕ → ℕ → Option SearchSpace
  | 0, _ => s.sample false true patience draws
  | n + 1, i => do
    let child ← crossAttempt s t (coin i)
    let same ← child.isEqualValue isFloat s true 8
    if same then crossGo isFloat s t patience coin draws n (i + 1) else SearchSpace.make child

/-- `custom_crossover` (utils.py:76-103); `draws` are those of the fresh sample in the end. -/
noncomputable def customCrossover (isFloat : Val → Bool) (s t : SearchSpace) (patience : ℕ)
    (coin : ℕ → String → Bool) (draws : String → List Draw) : Option SearchSpace :=
  crossGo isFloat s t patience coin draws patience 0

/-- `set_defaults_to_current_values` for one parameter (neps/search_spaces/search_space.py:726-730):
only numerical parameters. -/
noncomputable def defaultToValue (h : Hp) : Option Hp :=
  let c : Call Hp := match h with
    | .float p => (p.setDefault p.value).lift .float
    | .int p => (p.setDefault (p.value.map fun (n : ℤ) => (n : ℝ))).lift .int
    | h => ⟨h, false⟩
  if c.raised then none else some c.st

/-- The centre of the Gaussian sampling around the incumbent
(neps/optimizers/multi_fidelity/sampling_policy.py:207-216): a copy of the incumbent in which the
current values are the defaults, from which `sample` then draws with these as the prior. -/
noncomputable def gaussianCentre (inc : SearchSpace) : Option SearchSpace := do
  let c ← inc.clone
  c.mapM fun p => (defaultToValue p.2).map fun q => (p.1, q)

/-! ## Distances -/

/-- `get_normalized_hp_categories(ignore_fidelity=True)["continuous"]`
(neps/search_spaces/search_space.py:505-551): a missing value raises. -/
noncomputable def continuous (s : SearchSpace) : Option (List ℝ) :=
  (s.filter fun p => !p.2.isFidelity).foldr (fun p acc =>
    match p.2 with
    | .float q => do return (q.valueToNormalized (← q.value)) :: (← acc)
    | .int q => do return (q.valueToNormalized (← q.value)) :: (← acc)
    | _ => acc) (some [])

/-- `get_normalized_hp_categories(ignore_fidelity=True)["categorical"]`: the index of the choice
(neps/search_spaces/hyperparameters/categorical.py:239-240). -/
noncomputable def categorical (s : SearchSpace) : Option (List ℕ) :=
  (s.filter fun p => !p.2.isFidelity).foldr (fun p acc =>
    match p.2 with
    | .cat q => do return (← CatParam.index q.choices (← q.value)) :: (← acc)
    | _ => acc) (some [])

/-- `np.linalg.norm(diff, ord=2)`. -/
noncomputable def euclid (xs ys : List ℝ) : ℝ :=
  Real.sqrt ((List.zipWith (fun x y => (x - y) ^ 2) xs ys).sum)

/-- `scipy.spatial.distance.hamming` of two lists to which one equal entry has been appended: the
share of positions that differ. -/
noncomputable def hamming (is js : List ℕ) : ℝ :=
  ((List.zipWith (fun i j => if i = j then 0 else 1) is js).sum : ℕ) / ((is.length : ℝ) + 1)

/-- `compute_config_dist` (neps/optimizers/multi_fidelity_prior/utils.py:106-129): lists of
different lengths raise (simplification: a list of length one would be broadcast). -/
noncomputable def configDist (s t : SearchSpace) : Option ℝ := do
  let xs ← continuous s
  let ys ← continuous t
  let is ← categorical s
  let js ← categorical t
  if xs.length = ys.length ∧ is.length = js.length then some (euclid xs ys + hamming is js)
  else none

open Classical in
/-- `find_1nn_distance_from_incumbent` (neps/optimizers/multi_fidelity_prior/priorband.py:67-70):
the smallest positive distance of an observed configuration; the minimum of no numbers raises. -/
noncomputable def nearest (inc : SearchSpace) (observed : List SearchSpace) : Option ℝ := do
  let ds ← observed.mapM fun c => configDist inc c
  match ds.filter fun d => decide (0 < d) with
  | [] => none
  | d :: rest => some (rest.foldl min d)

/-- The loop of `sample_neighbour` (neps/optimizers/multi_fidelity/sampling_policy.py:128-161) on
the distances of the configurations sampled one after the other: the number of the accepted one.
`radius` is the variable `distance`, `counter` is `sample_counter`, `i` the number of the next
sample; `none`: none of the samples is accepted. -/
noncomputable def neighbourGo (tolerance : ℝ) : List ℝ → ℝ → ℕ → ℕ → Option ℕ
  | [], _, _, _ => none
  | d :: ds, radius, counter, i =>
    if d < max radius tolerance then some i
    else if counter + 1 > 1000 then neighbourGo tolerance ds (radius + radius * (1 / 100)) 0 (i + 1)
    else neighbourGo tolerance ds radius (counter + 1) (i + 1)

end Verif.PriorBand
