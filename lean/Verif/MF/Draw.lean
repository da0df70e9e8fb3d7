import Mathlib.Data.Rat.Defs
import Mathlib.Algebra.Order.Ring.Rat
import Mathlib.Algebra.Field.Rat

/-!
# The bracket that asynchronous Hyperband draws

Model of `_get_bracket_to_run` (`neps/optimizers/multi_fidelity/hyperband.py:421-437` for
`AsynchronousHyperband`, on which MOBSTER is built, and the copy of it in
`neps/optimizers/multi_fidelity_prior/async_priorband.py:300-316` for `PriorBandAshaHB`).

Simplifications, for the whole file: rational arithmetic instead of floating-point numbers; the number
that `numpy` draws is given.
-/

namespace Neps.MF

/-- One entry of `bracket_probs` before they are normalised, with `K = max_rung`
(`hyperband.py:432-435`, `async_priorband.py:311-314`). -/
def bracketWeight (eta K s : ℕ) : ℚ := (eta : ℚ) ^ (K - s) * (K + 1) / ((K : ℚ) - s + 1)

/-- `bracket_probs` (`hyperband.py:433-436`, `async_priorband.py:312-315`). -/
def bracketProbs (eta K : ℕ) : List ℚ :=
  let w := (List.range (K + 1)).map (bracketWeight eta K)
  w.map (· / w.sum)

/-- `np.random.choice(range(len(p)), p=p)` for the number `u` from `[0, 1)` that it draws: the cumulated
and normalised probabilities, and the number of those that are at most `u`
(`cdf.searchsorted(u, side="right")`). `hyperband.py:437`, `async_priorband.py:316`. -/
def choice (p : List ℚ) (u : ℚ) : ℕ :=
  let cdf := (List.range p.length).map fun i => (p.take (i + 1)).sum / p.sum
  cdf.countP fun c => decide (c ≤ u)

/-- `_get_bracket_to_run` (`hyperband.py:421-437`, `async_priorband.py:300-316`). -/
def bracketToRun (eta K : ℕ) (u : ℚ) : ℕ := choice (bracketProbs eta K) u

end Neps.MF
