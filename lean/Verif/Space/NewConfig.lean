import Verif.Space.SearchSpace

/-!
# Model of sampling new configurations in successive halving and its relatives

`SuccessiveHalvingBase.get_config_and_ids` without promotions, `sample_new_config`
(`neps/optimizers/multi_fidelity/successive_halving.py`), `RandomUniformPolicy` and `FixedPriorPolicy`
(`neps/optimizers/multi_fidelity/sampling_policy.py`).

Simplifications: the random numbers are parameters; `EnsemblePolicy` and the model policies are modelled in
`Verif.PriorBand`; an exception is `none`.
-/

namespace Verif.Space

/-- The sampling policies (`neps/optimizers/multi_fidelity/sampling_policy.py:57-98`); `absent` is `None`
(`successive_halving.py:373`). -/
inductive Policy where
  | absent
  | uniform
  | fixedPrior (fraction : ℝ)

/-- The arguments of the constructor that decide about new configurations
(`neps/optimizers/multi_fidelity/successive_halving.py:62-67`) and the attribute `patience`. -/
structure NewOpts where
  usePriors : Bool
  interleave : ℝ
  sampleDefaultFirst : Bool
  sampleDefaultAtTarget : Bool
  policy : Policy
  patience : ℕ

/-- The checks of the constructors (`neps/optimizers/multi_fidelity/successive_halving.py:105-106`,
`sampling_policy.py:82`, `neps/optimizers/base_optimizer.py:97-98`). -/
noncomputable def NewOpts.make (o : NewOpts) : Option NewOpts :=
  if o.interleave < 0 ∨ o.interleave > 1 then none
  else if o.patience < 1 then none
  else match o.policy with
    | .fixedPrior f => if 0 ≤ f ∧ f ≤ 1 then some o else none
    | _ => some o

/-- The patience of a sampling policy (`neps/optimizers/multi_fidelity/sampling_policy.py:49`). -/
def policyPatience : ℕ := 100

/-- The arguments `user_priors` and `patience` with which `pipeline_space.sample` is called when a new
configuration is not the default (`neps/optimizers/multi_fidelity/successive_halving.py:366-384, 434-441`,
`sampling_policy.py:67-70, 91-98`): `coin` is the draw of `rng.random()`, `coin'` the one of
`np.random.uniform()`. -/
noncomputable def NewOpts.call (o : NewOpts) (coin coin' : ℝ) : Bool × ℕ :=
  if coin < o.interleave then (false, o.patience)
  else match o.policy with
    | .absent => (o.usePriors, o.patience)
    | .uniform => (false, policyPatience)
    | .fixedPrior f => (decide (coin' < f), policyPatience)

/-- Is the default configuration next?
(`neps/optimizers/multi_fidelity/successive_halving.py:422-426`) -/
def NewOpts.defaultNext (o : NewOpts) (nObserved : ℕ) : Bool :=
  o.usePriors && o.sampleDefaultFirst && nObserved == 0

/-- A new configuration before its budget is set
(`neps/optimizers/multi_fidelity/successive_halving.py:422-441`). -/
noncomputable def SearchSpace.newBase (s : SearchSpace) (o : NewOpts) (nObserved : ℕ) (coin coin' : ℝ)
    (draws : String → List Draw) : Option SearchSpace :=
  if o.defaultNext nObserved then s.defaultConfiguration true false 1 draws
  else s.sample (o.call coin coin').1 true (o.call coin coin').2 draws

/-- A new configuration (`neps/optimizers/multi_fidelity/successive_halving.py:417-447`): `minBudget` and
`maxBudget` are `rung_map[min_rung]` and `rung_map[max_rung]`. -/
noncomputable def SearchSpace.newConfig (s : SearchSpace) (o : NewOpts) (minBudget maxBudget : ℝ)
    (nObserved : ℕ) (coin coin' : ℝ) (draws : String → List Draw) : Option SearchSpace := do
  let config ← s.newBase o nObserved coin coin' draws
  let budget := if o.defaultNext nObserved && o.sampleDefaultAtTarget then maxBudget else minBudget
  let f ← config.fidelity
  let c := f.2.setValue (.num budget)
  if c.raised then none else return config.set f.1 c.st

end Verif.Space
