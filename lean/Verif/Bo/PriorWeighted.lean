import Mathlib.Analysis.SpecialFunctions.Pow.Real

/-!
# Model of `DecayingPriorWeightedAcquisition`

`neps/optimizers/bayesian_optimization/acquisition_functions/prior_weighted.py`.

Simplifications: real numbers; the values of the base acquisition function and the results of
`compute_prior` (C74, `Space/Prior.lean`) are given with the candidates. A `decay_t` of zero divides by
zero and is left out of the theorems.
-/

namespace Verif.Bo.Weigh

/-- A candidate: the value of the base acquisition function and what `compute_prior(log=self.log)`
gives, `prior_weighted.py:35,41`. -/
structure Cand where
  acq : ℝ
  prior : ℝ

/-- `min(acquisition)`, `prior_weighted.py:38`. -/
noncomputable def least : List Cand → ℝ
  | [] => 0
  | c :: l => (l.map Cand.acq).foldl min c.acq

/-- `min_acq_val`, `prior_weighted.py:37-38`. -/
noncomputable def shift (l : List Cand) : ℝ :=
  open Classical in if least l < 0 then |least l| else 0

/-- The body of the loop, `prior_weighted.py:41-54`. -/
noncomputable def weigh (log : Bool) (beta t s : ℝ) (c : Cand) : ℝ :=
  open Classical in
  if c.prior ≠ 1 then
    if log then Real.log (c.acq + s + 1e-12) + beta / t * c.prior
    else c.acq * (c.prior + 1e-12) ^ (beta / t)
  else c.acq

/-- `eval`, `prior_weighted.py:30-55`. -/
noncomputable def eval (log : Bool) (beta t : ℝ) (l : List Cand) : List ℝ :=
  l.map (weigh log beta t (shift l))

/-- An observed configuration: its fidelity and the upper bound, if the space has a fidelity. -/
structure Seen where
  fidelity : Option (ℝ × ℝ)

/-- `set_state`, `prior_weighted.py:57-69`: `decay_t`; without observations `train_x[0]` raises, a
configuration without the fidelity of the first one raises too. -/
noncomputable def decay (given : Option ℝ) (x : List Seen) : Option ℝ :=
  open Classical in
  match given, x with
  | some t, _ => some t
  | none, [] => none
  | none, c :: l =>
    if c.fidelity.isSome then
      ((c :: l).mapM fun e : Seen => e.fidelity.map fun f => if f.1 ≥ f.2 then (1 : ℝ) else 0).map List.sum
    else some (c :: l).length

end Verif.Bo.Weigh
