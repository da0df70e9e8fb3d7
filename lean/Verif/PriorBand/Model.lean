import Verif.MF.Model
import Mathlib.Data.Real.Basic
import Mathlib.Algebra.Order.Archimedean.Real.Basic
import Mathlib.Algebra.Order.Floor.Semiring

/-!
# PriorBand: which sampling policy gets which weight

Model of `PriorBandBase` (neps/optimizers/multi_fidelity_prior/priorband.py) and of the random
choices made with the weights (neps/optimizers/multi_fidelity/sampling_policy.py,
neps/optimizers/multi_fidelity_prior/async_priorband.py).

Simplifications, for the whole file: floats are exact real numbers; a value that would be NaN or an
exception is `none`; the scores of a configuration under the prior and under the incumbent
(`compute_scores`, neps/optimizers/multi_fidelity_prior/utils.py:132-150, modelled in
`Verif.Space.Prior`) are an arbitrary function;
`np.argsort` is an arbitrary function.
-/

namespace Verif.PriorBand

open Neps Neps.MF

/-- `prior_weight_type` (priorband.py:51).  The constructor does not check it; any other text raises
when the weights are computed (priorband.py:197-198). -/
inductive WeightType
  | geometric
  | linear
  | fiftyFifty
  | other
deriving DecidableEq

/-- `inc_style` (priorband.py:56), not checked either (priorband.py:231). -/
inductive IncStyle
  | constant
  | decay
  | dynamic
  | other
deriving DecidableEq

/-- The weights of the three sampling policies (priorband.py:209-213). -/
structure Weights where
  prior : ℝ
  inc : ℝ
  random : ℝ

/-- `np.linspace(start, stop, num=num, endpoint=True)[i]`; an index out of range raises. -/
noncomputable def linspaceAt (start stop : ℝ) (num i : ℕ) : Option ℝ :=
  if i < num then
    (if num = 1 then some start else some (start + (i : ℝ) * ((stop - start) / ((num : ℝ) - 1))))
  else none

/-- The weight of the prior relative to the random policy, `_w_prior`
(priorband.py:174-198). -/
noncomputable def rawPrior (w : WeightType) (eta numRungs rung : ℕ) : Option ℝ :=
  match w with
  | .geometric => some ((eta : ℝ) ^ rung)
  | .linear => linspaceAt 1 (eta : ℝ) numRungs rung
  | .fiftyFifty => some 1
  | .other => none

/-- `_prior_to_incumbent_ratio_constant` (priorband.py:241-248). -/
noncomputable def ratioConstant (eta : ℕ) : ℝ × ℝ :=
  ((eta : ℝ) / ((eta : ℝ) + 1), 1 / ((eta : ℝ) + 1))

/-- `get_prior_weight_for_decay` (neps/optimizers/multi_fidelity_prior/utils.py:153-166); `//` of
non-negative numbers. -/
noncomputable def priorWeightForDecay (resources : ℝ) (eta : ℕ) (maxBudget : ℝ) : ℝ :=
  1 / 2 ^ ⌊resources / ((eta : ℝ) * maxBudget)⌋₊

/-- `_prior_to_incumbent_ratio_decay` (priorband.py:233-239). -/
noncomputable def ratioDecay (resources : ℝ) (eta : ℕ) (maxBudget : ℝ) : ℝ × ℝ :=
  (priorWeightForDecay resources eta maxBudget, 1 - priorWeightForDecay resources eta maxBudget)

/-- `np.sum(scores * np.flip(np.arange(1, n + 1)))`: the first of `n` scores counts `n` times, the
last once (priorband.py:284-286). -/
noncomputable def rankedSum : List ℝ → ℝ
  | [] => 0
  | x :: xs => x * ((xs.length : ℝ) + 1) + rankedSum xs

/-- The best configurations of a rung (priorband.py:269-273): configuration numbers and losses as
recorded in `rung_histories`. -/
def topConfigs (eta : ℕ) (sort : Argsort) (hist : List (ℕ × PyFloat)) : List ℕ :=
  pick (hist.map (·.1)) ((sort (hist.map (·.2))).take (max (hist.length / eta) eta))

/-- `prior_score / sum`, `inc_score / sum` (priorband.py:284-291); NaN if the sum is zero. -/
noncomputable def ratioOfScores (scores : List (ℝ × ℝ)) : Option (ℝ × ℝ) :=
  let p := rankedSum (scores.map (·.1))
  let i := rankedSum (scores.map (·.2))
  if p + i = 0 then none else some (p / (p + i), i / (p + i))

/-- `_prior_to_incumbent_ratio_dynamic` (priorband.py:250-299).  `hist r` is
`rung_histories[r]`.  Below rung 0 there is no entry and the call raises. -/
noncomputable def ratioDynamic (eta minR : ℕ) (sort : Argsort) (score : ℕ → ℝ × ℝ)
    (hist : ℕ → List (ℕ × PyFloat)) : ℕ → Option (ℝ × ℝ)
  | 0 =>
    if eta ≤ (hist 0).length then ratioOfScores ((topConfigs eta sort (hist 0)).map score)
    else if 0 = minR then some ((eta : ℝ) / (1 + (eta : ℝ)), 1 / (1 + (eta : ℝ)))
    else none
  | r + 1 =>
    if eta ≤ (hist (r + 1)).length then
      ratioOfScores ((topConfigs eta sort (hist (r + 1))).map score)
    else if r + 1 = minR then some ((eta : ℝ) / (1 + (eta : ℝ)), 1 / (1 + (eta : ℝ)))
    else ratioDynamic eta minR sort score hist r

/-- What the weights are computed from: the constants of the optimizer and its view of the
trials. -/
structure View where
  /-- `prior_weight_type` -/
  weightType : WeightType
  /-- `inc_style` -/
  incStyle : IncStyle
  /-- the optimizer's own rungs: `min_rung`, `max_rung`, `eta`, `rung_map` -/
  self : Bracket ℝ
  /-- `max_budget` -/
  maxBudget : ℝ
  sort : Argsort
  score : ℕ → ℝ × ℝ
  /-- `rung_histories` -/
  hist : ℕ → List (ℕ × PyFloat)
  /-- the rungs of the rows of `observed_configs` whose `perf` is not missing -/
  rungs : List ℕ

/-- `len(self.rung_map)`. -/
def numRungs (b : Bracket ℝ) : ℕ := b.maxR + 1 - b.minR

/-- `sum(self.rung_map[r] for r in rungs)` (priorband.py:152-155, 223-225). -/
noncomputable def resourcesUsed (b : Bracket ℝ) (rungs : List ℕ) : ℝ := (rungs.map b.budget).sum

/-- `prior_to_incumbent_ratio` (priorband.py:215-231). -/
noncomputable def ratio (v : View) : Option (ℝ × ℝ) :=
  match v.incStyle with
  | .constant => some (ratioConstant v.self.eta)
  | .decay => some (ratioDecay (resourcesUsed v.self v.rungs) v.self.eta v.maxBudget)
  | .dynamic => ratioDynamic v.self.eta v.self.minR v.sort v.score v.hist v.self.maxR
  | .other => none

/-- `calc_sampling_args` (priorband.py:172-213). -/
noncomputable def calcSamplingArgs (v : View) (rung : ℕ) : Option Weights := do
  let p ← rawPrior v.weightType v.self.eta (numRungs v.self) rung
  let r ← ratio v
  return { prior := r.1 * (p / (p + 1)), inc := r.2 * (p / (p + 1)), random := 1 / (p + 1) }

/-- The resources of one bracket, with continuations (priorband.py:145-150). -/
noncomputable def bracketResources (b : Bracket ℝ) : ℝ :=
  ((List.range' b.minR (numRungs b)).tail).foldl
    (fun acc r => acc + (b.cap r : ℝ) * (b.budget r - b.budget (r - 1)))
    ((b.cap b.minR : ℝ) * b.budget b.minR)

/-- `is_activate_inc` (priorband.py:128-170): `first` is the bracket whose resources are
compared. -/
noncomputable def activateInc (first : Bracket ℝ) (v : View) : Prop :=
  bracketResources first ≤ resourcesUsed v.self v.rungs ∧ v.hist v.self.maxR ≠ []

open Classical in
/-- `_set_sampling_weights_and_inc`, the weights (priorband.py:104-126). -/
noncomputable def samplingWeights (first : Bracket ℝ) (v : View) (rung : ℕ) : Option Weights := do
  let w ← calcSamplingArgs v rung
  if activateInc first v then return w
  else return { w with prior := w.prior + w.inc, inc := 0 }

/-! ## What the optimizer sees of the trials -/

variable {P F : Type}

/-- `rung_histories[r]` after `_load_previous_observations`
(neps/optimizers/multi_fidelity/successive_halving.py:222-256): every trial with a report, in the
order of the mapping.  A loss of `"error"` is entered as NaN; losses only order the
configurations. -/
def history (st : Settings) (ts : List (Rec P F)) (r : ℕ) : List (ℕ × PyFloat) :=
  (ts.filter fun t => !t.isPending && t.key.rung == r).map fun t =>
    (t.key.cfg, match getLoss st t.res with
      | .ok (.val x) => x
      | _ => .nan)

/-- `observed_configs.loc[observed_configs["perf"].notna(), "rung"]` (priorband.py:153-154). -/
def finishedRungs (rows : List (Row P F)) : List ℕ :=
  (dropna rows).map (·.rung)

/-- The view of an optimizer with the given constants of the trials `ts`. -/
def viewOf (wt : WeightType) (is : IncStyle) (self : Bracket ℝ) (maxBudget : ℝ) (sort : Argsort)
    (score : ℕ → ℝ × ℝ) (st : Settings) (ts : List (Rec P F)) : Except Err View :=
  match observe st ts with
  | .error e => .error e
  | .ok T => .ok ⟨wt, is, self, maxBudget, sort, score, history st ts, finishedRungs T.rows⟩

/-- `np.nanargmin`: the position of the first smallest number; `none`: nothing but NaN, which
raises.  `best` is the position and number found so far, `i` the current position. -/
def nanargminGo : List PyFloat → ℕ → Option (ℕ × PyFloat) → Option (ℕ × PyFloat)
  | [], _, best => best
  | x :: xs, i, best =>
    nanargminGo xs (i + 1) <|
      if x.isNan then best
      else match best with
        | none => some (i, x)
        | some b => if PyFloat.lt x b.2 then some (i, x) else some b

/-- `find_incumbent` without a rung (priorband.py:76-102): the configuration with the smallest loss
in `observed_configs`.  A loss of `"error"` raises a `TypeError`, nothing but NaN a `ValueError`;
an empty frame is not modelled (the default configuration is used then).  With a rung the loop of
lines 80-91 does not end. -/
def findIncumbent (rows : List (Row P F)) : Except Err (Row P F) :=
  if hasError rows then .error .typeError
  else match nanargminGo (floats rows) 0 none with
    | none => .error .valueError
    | some (i, _) =>
      match rows[i]? with
      | some r => .ok r
      | none => .error .indexError

/-! ## Random choices with weights -/

/-- `np.random.choice(range(len(p)), p=p)` for the uniform number `u`: the position of the first
partial sum above `u` (NumPy: `cdf.searchsorted(u, side="right")`).  NumPy rejects weights that are
negative or do not add up to one; here `none`. -/
noncomputable def choiceGo (u acc : ℝ) : List ℝ → ℕ → ℕ
  | [], i => i
  | p :: ps, i => if u < acc + p then i else choiceGo u (acc + p) ps (i + 1)

open Classical in
/-- See `choiceGo`. -/
noncomputable def choice (p : List ℝ) (u : ℝ) : Option ℕ :=
  if (∀ x ∈ p, 0 ≤ x) ∧ p.sum = 1 then some (choiceGo u 0 p 0) else none

/-- The sampling policies of `EnsemblePolicy`
(neps/optimizers/multi_fidelity/sampling_policy.py:126). -/
inductive Policy
  | inc
  | prior
  | random
deriving DecidableEq

/-- The choice of the policy (sampling_policy.py:176-183): the weights sorted by name are those of
`inc`, `prior` and `random`, and so are the names. -/
noncomputable def choosePolicy (w : Weights) (u : ℝ) : Option Policy := do
  let i ← choice [w.inc, w.prior, w.random] u
  [Policy.inc, .prior, .random][i]?

/-- `np.clip(x, 0, 1)`. -/
noncomputable def clip01 (x : ℝ) : ℝ := min (max x 0) 1

/-- The probabilities with which the partner of a crossover comes from the prior or from the random
policy (sampling_policy.py:222-234). -/
noncomputable def crossoverProbs (w : Weights) : List ℝ :=
  let rest := 1 - w.random
  let d := |clip01 (w.prior / rest) - clip01 (w.inc / rest)|
  [1 - d, d]

/-- `_get_bracket_to_run`: the probabilities of the brackets `0, ..., K`
(neps/optimizers/multi_fidelity_prior/async_priorband.py:300-306). -/
noncomputable def bracketProbs (eta K : ℕ) : List ℝ :=
  let raw := (List.range (K + 1)).map fun s =>
    (eta : ℝ) ^ (K - s) * ((K : ℝ) + 1) / (((K - s : ℕ) : ℝ) + 1)
  raw.map (· / raw.sum)

/-! ## Model-based search -/

/-- `_active_rung` (neps/optimizers/multi_fidelity/mf_bo.py:133-141): `n` more rungs to look at, the
next one is `minR + n`. -/
def activeRungGo (minR initSize : ℕ) (size : ℕ → ℕ) : ℕ → Option ℕ
  | 0 => none
  | n + 1 => if initSize ≤ size (minR + n) then some (minR + n) else activeRungGo minR initSize size n

/-- `_active_rung` (neps/optimizers/multi_fidelity/mf_bo.py:133-141). -/
def activeRung (b : Bracket ℝ) (initSize : ℕ) (hist : ℕ → List (ℕ × PyFloat)) : Option ℕ :=
  activeRungGo b.minR initSize (fun r => (hist r).length) (numRungs b)

/-- `modelling_type` -/
inductive Modelling
  | rung
  | joint
deriving DecidableEq

open Classical in
/-- `is_init_phase` (mf_bo.py:143-163). -/
noncomputable def isInitPhase (m : Modelling) (v : View) (initSize : ℕ) : Bool :=
  match m with
  | .rung => (activeRung v.self initSize v.hist).isNone
  | .joint => decide (resourcesUsed v.self v.rungs / v.maxBudget < (initSize : ℝ))

open Classical in
/-- Does `ModelPolicy.update_model` weigh the acquisition function by the prior, and with which
exponent (sampling_policy.py:334-347)?  `none`: division by zero. -/
noncomputable def modelPriorExponent (decayT : ℝ) : Option (Option ℝ) :=
  if decayT = 0 then none
  else if 10 / decayT < 1 / 10000 then some (some (10 / decayT)) else some none

end Verif.PriorBand
