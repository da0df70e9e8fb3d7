import Verif.Space.SearchSpace
import Mathlib.MeasureTheory.Integral.IntervalIntegral.Basic
import Mathlib.Analysis.SpecialFunctions.ExpDeriv

/-!
# The prior of a configuration

Model of `compute_prior` of parameters and search spaces
(`neps/search_spaces/hyperparameters/numerical.py:43-55, 171-183, 233-248`, `categorical.py:137-154`,
`neps/search_spaces/search_space.py:295-326`), of `set_defaults_to_current_values` (lines 726-730 there) and
of `compute_scores` (`neps/optimizers/multi_fidelity_prior/utils.py:132-150`).

Simplifications, for the whole file: floats are exact real numbers; `scipy.stats.truncnorm` is the
truncated standard normal distribution; an exception is `none`.
-/

namespace Verif.Space

/-- `scipy.stats.truncnorm(a, b).pdf(x)`: the density of the standard normal distribution restricted to
`[a, b]` (`neps/search_spaces/hyperparameters/numerical.py:53-55, 182`). -/
noncomputable def truncnormPdf (a b x : ℝ) : ℝ :=
  if a ≤ x ∧ x ≤ b then Real.exp (-x ^ 2 / 2) / ∫ t in a..b, Real.exp (-t ^ 2 / 2) else 0

/-- `NumericalParameter.compute_prior` and `_get_truncnorm_prior_and_std` on the scale of the parameter
(`neps/search_spaces/hyperparameters/numerical.py:47-55, 178-182`). -/
noncomputable def truncPrior (low high center score v : ℝ) : ℝ :=
  let std := (high - low) * score
  truncnormPdf ((low - center) / std) ((high - center) / std) ((v - center) / std)

/-- `compute_prior` of a float parameter (`neps/search_spaces/hyperparameters/numerical.py:171-183`). -/
noncomputable def FloatParam.computePrior (p : FloatParam) : Option ℝ := do
  let v ← p.value
  let d ← p.dflt
  return truncPrior p.low p.high (if p.log then Real.log d else d) p.score
    (if p.log then Real.log v else v)

/-- The `default` used by `compute_prior` of an integer parameter
(`neps/search_spaces/hyperparameters/numerical.py:172`): on a log scale it is `log_default`. -/
noncomputable def IntParam.priorCenter (p : IntParam) : Option ℝ :=
  if p.log then p.logDflt else p.dflt.map fun (d : ℤ) => (d : ℝ)

/-- `compute_prior` of an integer parameter (`neps/search_spaces/hyperparameters/numerical.py:171-183,
233-248`). -/
noncomputable def IntParam.computePrior (p : IntParam) : Option ℝ := do
  let v ← p.value
  let c ← p.priorCenter
  return truncPrior (if p.log then Real.log p.lower else p.lower)
    (if p.log then Real.log p.upper else p.upper) c p.score (if p.log then Real.log v else v)

/-- `compute_prior` of a categorical parameter
(`neps/search_spaces/hyperparameters/categorical.py:145-154`). -/
noncomputable def CatParam.computePrior {α : Type*} [DecidableEq α] (p : CatParam α) : Option ℝ := do
  let i ← p.valueIndex
  let ws ← p.priorProbabilities
  ws[i]?

/-- `hp.compute_prior()`; constants have none. -/
noncomputable def Hp.computePrior : Hp → Option ℝ
  | .float p => p.computePrior
  | .int p => p.computePrior
  | .cat p => p.computePrior
  | .const _ => none

namespace SearchSpace

/-- `hp.compute_prior(log=...)` (`neps/search_spaces/hyperparameters/numerical.py:182`,
`categorical.py:150-154`). -/
noncomputable def hpPrior (log : Bool) (h : Hp) : Option ℝ :=
  h.computePrior.map fun x => if log then Real.log (x + 1e-12) else x

/-- The loop of `compute_prior` (`neps/search_spaces/search_space.py:318-326`). -/
noncomputable def priorLoop (log ignoreFidelity : Bool) : SearchSpace → ℝ → Option ℝ
  | [], acc => some acc
  | (_, h) :: s, acc =>
    if h.hasPrior = false then priorLoop log ignoreFidelity s acc
    else if ignoreFidelity = true ∧ h.isFidelity = true then priorLoop log ignoreFidelity s acc
    else
      match hpPrior log h with
      | none => none
      | some x => priorLoop log ignoreFidelity s (if log then acc + x else acc * x)

/-- `compute_prior` (`neps/search_spaces/search_space.py:295-326`). -/
noncomputable def computePrior (s : SearchSpace) (log ignoreFidelity : Bool) : Option ℝ :=
  priorLoop log ignoreFidelity s (if log then 0 else 1)

/-- `hp.set_default(hp.value)` for numerical parameters
(`neps/search_spaces/search_space.py:729-730`). -/
noncomputable def defaultToValue (h : Hp) : Call Hp :=
  match h with
  | .float p => (p.setDefault p.value).lift .float
  | .int p => (p.setDefault (p.value.map fun (n : ℤ) => (n : ℝ))).lift .int
  | h => ⟨h, false⟩

/-- `set_defaults_to_current_values` (`neps/search_spaces/search_space.py:726-730`). -/
noncomputable def setDefaultsToValues (s : SearchSpace) : Option SearchSpace :=
  s.mapM fun p =>
    let c := defaultToValue p.2
    if c.raised then none else some (p.1, c.st)

/-- The switches of `set_hyperparameters_from_dict(..., defaults=False)`. -/
def valuesOnly : SetOpts := ⟨false, true, false, false, false, none⟩

/-- `compute_scores` (`neps/optimizers/multi_fidelity_prior/utils.py:132-150`). `hp_values` is modelled for
configurations in which every parameter has a value. -/
noncomputable def computeScores (config prior inc : SearchSpace) : Option (ℝ × ℝ) := do
  let vals ← config.serialize
  let p ← prior.clone
  let c := p.setFromDict valuesOnly vals
  if c.raised then none else
    let priorScore ← c.st.computePrior false false
    let i ← inc.clone
    let i ← i.setDefaultsToValues
    let c := i.setFromDict valuesOnly vals
    if c.raised then none else
      let incScore ← c.st.computePrior false false
      return (priorScore, incScore)

end SearchSpace

end Verif.Space
