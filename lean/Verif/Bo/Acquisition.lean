import Mathlib.Probability.Distributions.Gaussian.Real

/-!
# Model of the acquisition functions

`ComprehensiveExpectedImprovement`, `neps/optimizers/bayesian_optimization/acquisition_functions/ei.py`,
and `UpperConfidenceBound`, `.../ucb.py`.

Simplifications: real numbers; the surrogate model is a function that gives the mean and the variance of
each configuration (of the covariances only the diagonal is used); what is returned is the list of the
values; exceptions are `none`.
-/

namespace Verif.Bo.Acq

open MeasureTheory ProbabilityTheory

/-- `gauss.cdf`, the distribution function of the standard normal distribution, `ei.py:80,87-89,93`. -/
noncomputable def cdf (u : ℝ) : ℝ := ∫ z in Set.Iic u, gaussianPDFReal 0 1 z

/-- `torch.exp(gauss.log_prob(u))`, `ei.py:80,101`. -/
noncomputable def pdf (u : ℝ) : ℝ := Real.exp (Real.log (gaussianPDFReal 0 1 u))

/-- The settings, `ei.py:18-56`. -/
structure Settings where
  augmented : Bool
  xi : ℝ
  log : Bool
  onMaxFidelity : Bool

/-- The incumbent is a Python number or a tensor, `ei.py:121-127`. -/
inductive Incumbent
  | number (y : ℝ)
  | tensor (y : ℝ)

/-- Its value. -/
def Incumbent.val : Incumbent → ℝ
  | .number y => y
  | .tensor y => y

/-- `std * updf + (mu_star - mu - self.xi) * ucdf`, `ei.py:91-102`, for one configuration. With the
variance zero `u` is infinite, the density is zero and the distribution function one or zero; with
`0 / 0`, and with a negative variance, `u` is not a number, which `gauss.cdf` refuses (`ei.py:94-100`). -/
noncomputable def plain (xi best mu var : ℝ) : Option ℝ :=
  open Classical in
  if var < 0 then none
  else if var = 0 then
    if best - mu - xi = 0 then none
    else some (if 0 < best - mu - xi then (best - mu - xi) * 1 else (best - mu - xi) * 0)
  else
    let std := Real.sqrt var
    let u := (best - mu - xi) / std
    some (std * pdf u + (best - mu - xi) * cdf u)

/-- The value with `log_ei`, `ei.py:83-89`, for one configuration; the variance zero as above.
`torch.exp(f_min)` needs a tensor. -/
noncomputable def logged (xi : ℝ) (best : Incumbent) (mu var : ℝ) : Option ℝ :=
  open Classical in
  match best with
  | .number _ => none
  | .tensor b =>
    let fmin := b - xi
    if var < 0 then none
    else if var = 0 then
      if fmin - mu = 0 then none
      else some (if 0 < fmin - mu then Real.exp fmin * 1 - Real.exp (0.5 * var + mu) * 1
        else Real.exp fmin * 0 - Real.exp (0.5 * var + mu) * 0)
    else
      let std := Real.sqrt var
      let v := (fmin - mu) / std
      some (Real.exp fmin * cdf v - Real.exp (0.5 * var + mu) * cdf (v - std))

/-- The factor of the augmented criterion, `ei.py:103-107`; `noise` is the likelihood of the model. -/
noncomputable def augment (noise var : ℝ) : ℝ := 1 - Real.sqrt noise / Real.sqrt (noise + var)

variable {X : Type}

/-- `eval`, `ei.py:58-114`, for the configurations `x`: `model` gives mean and variance, `toMax` sets the
fidelity of a copy to its maximum, `hasFidelity` says whether a configuration has one (the first one is
asked). -/
noncomputable def eval (S : Settings) (best : Incumbent) (noise : ℝ) (model : X → ℝ × ℝ)
    (hasFidelity : X → Bool) (toMax : X → X) (x : List X) : Option (List ℝ) :=
  match x with
  | [] => none
  | c :: _ =>
    (if hasFidelity c && S.onMaxFidelity then x.map toMax else x).mapM fun e =>
      (if S.log then logged S.xi best (model e).1 (model e).2
        else plain S.xi best.val (model e).1 (model e).2).map fun ei =>
          if S.augmented then ei * augment noise (model e).2 else ei

/-- `in_fill`, `ei.py:49-50`. -/
inductive InFill
  | best
  | posterior
deriving DecidableEq, Repr

/-- The place of the least value so far and the value there, for `torch.argmin`. -/
noncomputable def argminFrom : ℕ → ℝ × ℕ → List ℝ → ℕ
  | _, b, [] => b.2
  | i, b, a :: l => open Classical in if a < b.1 then argminFrom (i + 1) (a, i) l
      else argminFrom (i + 1) b l

/-- `torch.argmin`, `ei.py:126` (of several places of the least value, the first). -/
noncomputable def argmin : List ℝ → Option ℕ
  | [] => none
  | a :: l => some (argminFrom 1 (a, 0) l)

/-- `set_state`, `ei.py:116-127`: the incumbent, from the losses and the predicted means of the
configurations the model was fitted to. -/
noncomputable def incumbent (f : InFill) (losses means : List ℝ) : Option Incumbent :=
  match f with
  | .best => match losses with
    | [] => none
    | a :: l => some (.number (l.foldl min a))
  | .posterior => (argmin means).bind fun i => losses[i]?.map .tensor

/-- `UpperConfidenceBound.eval`, `ucb.py:42-57`, for one configuration. -/
noncomputable def ucb (beta : ℝ) (maximize : Bool) (mu var : ℝ) : ℝ :=
  let sign : ℝ := if maximize then 1 else -1
  (mu + sign * Real.sqrt beta * Real.sqrt var) * sign

/-- `UpperConfidenceBound.set_state`, `ucb.py:33-40`: the new `beta`. If one is given,
`list | np.array` is evaluated, the union of a type and a function, which is a `TypeError`. -/
noncomputable def ucbState (beta : ℝ) (given : Option ℝ) : Option ℝ :=
  match given with
  | none => some beta
  | some _ => none

end Verif.Bo.Acq
