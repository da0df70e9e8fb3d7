import Verif.Space.Encode
import Mathlib.Analysis.SpecialFunctions.Pow.Real
import Mathlib.Data.Finset.Sort
import Mathlib.Data.List.Lex

/-!
# Model of Bayesian optimization around the Gaussian process

`neps/optimizers/initial_design.py`, `neps/optimizers/bayesian_optimization/models/gp.py`,
`neps/optimizers/bayesian_optimization/optimizer.py` and the weights of the acquisition functions
in `neps/optimizers/bayesian_optimization/acquisition_functions/`.

Simplifications, for the whole file: tensors are lists of exact real numbers, `none` is NaN where
the code can meet it; every random draw is a parameter; an exception is `none` of the outermost
`Option`.  The Gaussian process, the acquisition function itself and botorch's optimizers are not
modelled.
-/

namespace Verif.Bo

open Verif.Space

/-! ## The initial design -/

/-- The argument `sample_fidelity` (neps/optimizers/initial_design.py:23-25). -/
inductive FidSpec where
  | min
  | max
  | sampled
  | number (x : ℝ)
  | mapping (m : Dict Val)
  | other

/-- What the design uses of a fidelity parameter: the bounds and what `sample_value()` returns. -/
structure Fidelity where
  lower : ℝ
  upper : ℝ
  draw : ℝ

/-- The fidelities of the design (neps/optimizers/initial_design.py:63-93). `any(missing_keys)`
does not see an empty name. -/
noncomputable def targetFids (fids : Dict Fidelity) : FidSpec → Option (Dict Val)
  | .min => some (fids.map fun p => (p.1, .num p.2.lower))
  | .max => some (fids.map fun p => (p.1, .num p.2.upper))
  | .sampled => some (fids.map fun p => (p.1, .num p.2.draw))
  | .number x =>
    match fids with
    | [p] => some [(p.1, .num x)]
    | _ => none
  | .mapping m =>
    if fids.keys.any (fun k => k ∉ m.keys ∧ k ≠ "") then none else some m
  | .other => none

/-- What the design uses of a hyperparameter: its default and what `sample_value()` returns. -/
structure DesignHp where
  dflt : Option Val
  draw : Val

/-- The default configuration (neps/optimizers/initial_design.py:97-101). -/
def defaultConfig (hps : Dict DesignHp) (fids : Dict Val) : Dict Val :=
  Dict.update (hps.map fun p => (p.1, p.2.dflt.getD p.2.draw)) fids

/-- The argument `sample_size` (neps/optimizers/initial_design.py:21). -/
inductive SampleSize where
  | ndim
  | count (n : ℤ)
  | nothing

/-- The number of configurations to sample (neps/optimizers/initial_design.py:103-113): the inner
`none` means that nothing is sampled. -/
def sampleSize (ndims : ℕ) : SampleSize → Option (Option ℕ)
  | .ndim => some (some ndims)
  | .count n => if 0 < n then some (some n.toNat) else none
  | .nothing => some none

/-- `torch.unique(x, dim=0)`: the distinct rows in lexicographic order. -/
noncomputable def uniqueRows (rows : List (List ℝ)) : List (List ℝ) :=
  rows.toFinset.sort (· ≤ ·)

/-- `make_initial_design` (neps/optimizers/initial_design.py:16-129): `ndims` is the number of
encoded parameters, `sample n` what the sampler returns for `n` points. -/
noncomputable def initialDesign (hps : Dict DesignHp) (fids : Dict Fidelity) (ndims : ℕ)
    (encoder : Encoder) (sample : ℕ → Option (List (List ℝ))) (size : SampleSize)
    (defaultFirst : Bool) (fidSpec : FidSpec) : Option (List (Dict Val)) := do
  let target ← targetFids fids fidSpec
  let first := if defaultFirst then [defaultConfig hps target] else []
  match ← sampleSize ndims size with
  | none => some first
  | some n =>
    let rows ← sample (n * 2)
    let configs ← encoder.decode ((uniqueRows rows).take n)
    some (first ++ configs.map fun c => Dict.update c target)

/-! ## The training data -/

/-- The report of a trial, as far as it is used: a loss or cost that is missing or NaN is `none`. -/
structure Report where
  loss : Option ℝ
  cost : Option ℝ

/-- A trial, as far as it is used. -/
structure Trial where
  config : Dict Val
  report : Option Report

/-- `torch.nanmedian`: the lower one of the two medians of the numbers, NaN without numbers. -/
noncomputable def nanmedian (ys : List (Option ℝ)) : Option ℝ :=
  let vs := (ys.filterMap id).mergeSort (fun a b => decide (a ≤ b))
  vs[(vs.length - 1) / 2]?

/-- `GPEncodedData` (neps/optimizers/bayesian_optimization/models/gp.py:44-51). -/
structure GPData where
  x : List (List ℝ)
  y : List (Option ℝ)
  cost : List (Option ℝ)
  pending : Option (List (List ℝ))

/-- The loop over the trials (neps/optimizers/bayesian_optimization/models/gp.py:239-250): the
training configurations with losses and costs, and the pending configurations. -/
def splitTrials : List Trial → List (Dict Val × Option ℝ × Option ℝ) × List (Dict Val)
  | [] => ([], [])
  | t :: ts =>
    let r := splitTrials ts
    match t.report with
    | none => (r.1, t.config :: r.2)
    | some rep => ((t.config, rep.loss, rep.cost) :: r.1, r.2)

/-- `encode_trials_for_gp` (neps/optimizers/bayesian_optimization/models/gp.py:221-273).
`init n` are the contents of the uninitialised buffer of `n` rows of `encode`. -/
noncomputable def encodeTrials (encoder : Encoder) (init : ℕ → List (List ℝ))
    (trials : List Trial) : Option GPData := do
  let (train, pendingConfigs) := splitTrials trials
  let x ← encoder.encode (train.map (·.1)) (init train.length)
  let losses := train.map (·.2.1)
  let fill := nanmedian losses
  let y := losses.map fun l => match l with
    | some l => some l
    | none => fill
  let pending ← if pendingConfigs.length > 0 then
      (encoder.encode pendingConfigs (init pendingConfigs.length)).map some
    else some none
  return ⟨x, y, train.map (·.2.2), pending⟩

/-! ## Weights of the acquisition function -/

/-- `_pibo_exp_term` (neps/optimizers/bayesian_optimization/optimizer.py:30-57). -/
noncomputable def piboExpTerm (sampled ndims initial : ℕ) : ℝ :=
  Real.exp (-((sampled : ℝ) - initial) / ndims)

/-- Whether the prior is used in this round, and with which exponent
(neps/optimizers/bayesian_optimization/optimizer.py:186-193). -/
noncomputable def priorRound (hasPrior : Bool) (sampled ndims initial : ℕ) : Option ℝ :=
  if hasPrior then
    let e := piboExpTerm sampled ndims initial
    if e < 1 / 10000 then none else some e
  else none

/-- `apply_pibo_acquisition_weight`
(neps/optimizers/bayesian_optimization/acquisition_functions/pibo.py:32-48) of one value:
`logAcq` is `acq._log`, `logp` the log density of the prior at the point. -/
noncomputable def piboWeight (logAcq : Bool) (acq logp expo : ℝ) : ℝ :=
  if logAcq then
    let weightedLogProbs := logp + expo
    acq + weightedLogProbs
  else
    let weightedProbs := Real.rpow (Real.exp logp) expo
    acq * weightedProbs

/-- The acquisition function of `BayesianOptimization.ask`
(neps/optimizers/bayesian_optimization/optimizer.py:196-215, models/gp.py:347-358): the base
acquisition function works on a log scale. -/
noncomputable def boAcquisition (hasPrior : Bool) (sampled ndims initial : ℕ) (acq logp : ℝ) : ℝ :=
  match priorRound hasPrior sampled ndims initial with
  | some e => piboWeight true acq logp e
  | none => acq

/-- `apply_cost_cooling`
(neps/optimizers/bayesian_optimization/acquisition_functions/cost_cooling.py:18-40) of one value;
`cost` is the mean predicted cost. -/
noncomputable def costCooling (logAcq : Bool) (acq cost alpha : ℝ) : ℝ :=
  if logAcq then
    let w := alpha * Real.log cost
    acq - w
  else
    let w := Real.rpow cost alpha
    if acq > 0 then acq / w else acq * w

/-- `cost_cooled_acq`
(neps/optimizers/bayesian_optimization/acquisition_functions/cost_cooling.py:41-54): the exponent,
or an assertion error. -/
noncomputable def coolingAlpha (used : ℝ) : Option ℝ :=
  if 0 ≤ used ∧ used ≤ 1 then some (1 - used) else none

/-- The costs part of `BayesianOptimization.ask` and `fit_and_acquire_from_gp`
(neps/optimizers/bayesian_optimization/optimizer.py:173-182, models/gp.py:360-403): the exponent of
the cost cooling and the data of the cost model. `budget` is what the worker passes: the used and
the maximal cost. -/
noncomputable def costRound (budget : Option (ℝ × Option ℝ)) (x : List (List ℝ))
    (costs : List (Option ℝ)) : Option (ℝ × List (List ℝ) × List (Option ℝ)) :=
  match budget with
  | none => none
  | some (_, none) => none
  | some (used, some maxCost) => do
    let percent ← fdiv used maxCost
    if costs.any (·.isNone) then none
    else do
      let alpha ← coolingAlpha percent
      return (alpha, x, costs)

/-! ## Optimizing the acquisition function -/

/-- A column of the encoder as `optimize_acq` sees it: the number of choices of a categorical
column (neps/optimizers/bayesian_optimization/models/gp.py:148-150). -/
structure Col where
  name : String
  choices : Option ℕ

/-- The arguments of botorch's optimizers that `optimize_acq` chooses. -/
inductive AcqCall where
  | continuous (restarts rawSamples : ℕ)
  | mixed (restarts : ℕ) (rawSamples : Option ℕ) (fixed : List (List (ℕ × ℝ)))

/-- The categorical columns with their positions (neps/optimizers/bayesian_optimization/models/gp.py:148-150,189-195). -/
def catColumns (cols : List Col) : List (ℕ × Col × ℕ) :=
  cols.zipIdx.filterMap fun p => p.1.choices.map fun k => (p.2, p.1, k)

/-- `product(*cats.values())` -/
def product {α : Type*} : List (List α) → List (List α)
  | [] => [[]]
  | l :: ls => l.flatMap fun a => (product ls).map fun c => a :: c

/-- All combinations of the choices (neps/optimizers/bayesian_optimization/models/gp.py:197-206). -/
def fixedCats (cats : List (ℕ × List ℝ)) : List (List (ℕ × ℝ)) :=
  match cats with
  | [(col, vals)] => vals.map fun i => [(col, i)]
  | _ => (product (cats.map (·.2))).map fun combo => (cats.map (·.1)).zip combo

/-- `optimize_acq` (neps/optimizers/bayesian_optimization/models/gp.py:131-218). `len(bounds)` is
always two.  `any(cat_transformers)` asks for a categorical column with a name. -/
noncomputable def optimizeAcq (cols : List Col) (restarts : ℕ) (startPoints : Option ℕ)
    (maxCombos : ℕ) : Option AcqCall :=
  let cats := catColumns cols
  if ¬ cats.any (fun c => c.2.1.name ≠ "") then
    some (.continuous restarts (startPoints.getD (Nat.min (64 * 2 ^ 2) 4096)))
  else
    let combos := (cats.map (·.2.2)).foldl (· * ·) 1
    if combos > maxCombos then none
    -- division by zero
    else if combos = 0 then none
    else
      let fixed := fixedCats (cats.map fun c =>
        (c.1, (List.range c.2.2).map fun (i : ℕ) => (i : ℝ)))
      some (.mixed (Nat.min (restarts / combos) 2) startPoints fixed)

end Verif.Bo
