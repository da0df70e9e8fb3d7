import Verif.Space.SearchSpace

/-!
# Continuing a run with another search space

The searchers that use several budgets read all stored configurations with the search space they are given
(`neps/optimizers/multi_fidelity/successive_halving.py:327-336`,
`neps/optimizers/multi_fidelity/hyperband.py:133-142`,
`neps/optimizers/multi_fidelity_prior/async_priorband.py:258-267`) and hand out promoted ones. Nothing
compares the search space with the one of the run: the stored optimizer info
(`neps/state/filebased.py:615-622`) does not have it.

Simplifications, for the whole file: those of `Verif.Space.SearchSpace`; which configuration is promoted and
to which budget is left to the caller (`Verif.MF.Model`).
-/

namespace Verif.Space.SearchSpace

/-- `trial.into_config_result(self.pipeline_space.from_dict)` and
`self.pipeline_space.from_dict(trial.config)` for all stored configurations
(`neps/optimizers/multi_fidelity/successive_halving.py:327-336`). -/
noncomputable def readRun (s : SearchSpace) (stored : List (Dict Val)) : Option (List SearchSpace) :=
  stored.mapM s.fromDict

/-- `hp_values` (`neps/search_spaces/search_space.py:553-558`): `none` is `None`. -/
noncomputable def hpValues (c : SearchSpace) : Dict (Option Val) := c.map fun p => (p.1, p.2.value)

/-- The configuration that is handed out when `c` is promoted to the budget `b`
(`neps/optimizers/multi_fidelity/successive_halving.py:414-417, 454`). Simplification: without a fidelity,
which the constructor of these searchers refuses, it raises. -/
noncomputable def promote (c : SearchSpace) (b : Val) : Option (Dict (Option Val)) := do
  let copy ← c.clone
  let f ← copy.fidelity
  let r := f.2.setValue b
  if r.raised then none else some (hpValues (Dict.set copy f.1 r.st))

end Verif.Space.SearchSpace
