import Verif.Bo.Model

/-!
# Model of weighted acquisition functions with pending configurations

`neps/optimizers/bayesian_optimization/acquisition_functions/weighted_acquisition.py`, the two
weights in `pibo.py` and `cost_cooling.py`, and the nesting in
`neps/optimizers/bayesian_optimization/models/gp.py`.

Simplifications: one candidate of the batch at a time (every operation is independent along the
batch dimension); botorch's acquisition function is a parameter that gives, for every Monte Carlo
sample, one number per configuration, together with its two reductions; the predicted cost and the
log density of the prior are parameters; an exception is `none`.
-/

namespace Verif.Bo

/-- What is used of a `SampleReducingMCAcquisitionFunction` of botorch: `_non_reduced_forward`,
`_q_reduction`, `_sample_reduction` and `_log`
(neps/optimizers/bayesian_optimization/acquisition_functions/weighted_acquisition.py:126,142-148). -/
structure BaseAcq (P : Type) where
  log : Bool
  samples : ℕ
  value : ℕ → List P → List ℝ
  shape : ∀ s xs, (value s xs).length = xs.length
  qRed : List ℝ → ℝ
  sRed : List ℝ → ℝ

/-- Acquisition functions with their attribute `X_pending`
(neps/optimizers/bayesian_optimization/acquisition_functions/weighted_acquisition.py:90-126). The
weight takes `acq._log`, a configuration and the value there. -/
inductive Acq (P : Type) where
  | base (b : BaseAcq P) (pending : Option (List P))
  | weighted (inner : Acq P) (w : Bool → P → ℝ → ℝ) (pending : Option (List P))

namespace Acq

variable {P : Type}

/-- The attribute `X_pending`. -/
def pending : Acq P → Option (List P)
  | base _ p => p
  | weighted _ _ p => p

/-- `set_X_pending` of botorch. -/
def setPending (p : Option (List P)) : Acq P → Acq P
  | base b _ => base b p
  | weighted i w _ => weighted i w p

/-- The attribute `_log`
(neps/optimizers/bayesian_optimization/acquisition_functions/weighted_acquisition.py:126). -/
def log : Acq P → Bool
  | base b _ => b.log
  | weighted i _ _ => i.log

/-- `WeightedAcquisition.__init__`
(neps/optimizers/bayesian_optimization/acquisition_functions/weighted_acquisition.py:96-126). -/
def weight (acq : Acq P) (w : Bool → P → ℝ → ℝ) : Acq P :=
  match acq.pending with
  | some p => weighted (acq.setPending none) w (some p)
  | none => weighted (acq.setPending none) w none

/-- `concatenate_pending_points` of botorch: the pending configurations join every group of
candidates. -/
def withPending (xs : List P) (p : Option (List P)) : List P := xs ++ p.getD []

/-- An elementwise operation between values and the weights of the configurations: torch's
broadcasting along the last dimension. -/
def broadcast (w : P → ℝ → ℝ) (xs : List P) (vals : List ℝ) : Option (List ℝ) :=
  if xs.length = vals.length then some (List.zipWith w xs vals)
  else match xs, vals with
    | _, [v] => some (xs.map fun x => w x v)
    | [x], _ => some (vals.map (w x))
    | _, _ => none

/-- All Monte Carlo samples, or nothing if one of them raises. -/
def allSamples (f : ℕ → Option ℝ) : List ℕ → Option (List ℝ)
  | [] => some []
  | s :: ss => do
    let v ← f s
    let vs ← allSamples f ss
    return v :: vs

/-- `forward` of an acquisition function on one group of candidates: the numbers that are left
for the group when the last dimension is squeezed
(neps/optimizers/bayesian_optimization/acquisition_functions/weighted_acquisition.py:128-153). A
single number is what the callers ask for; botorch's `t_batch_mode_transform` rejects any other
shape, which is modelled where the inner acquisition function is called. -/
def forward : Acq P → List P → Option (List ℝ)
  | base b p, xs =>
    let all := withPending xs p
    some [b.sRed ((List.range b.samples).map fun s => b.qRed (b.value s all))]
  | weighted (base b _) w p, xs => do
    let all := withPending xs p
    let reduced ← allSamples
      (fun s => (broadcast (w b.log) all (b.value s all)).map b.qRed) (List.range b.samples)
    return [b.sRed reduced]
  | weighted (weighted i w' p') w p, xs => do
    let all := withPending xs p
    let inner ← forward (weighted i w' p') all
    match inner with
    | [v] => broadcast (w i.log) all [v]
    | _ => none

end Acq

/-- The weight of the prior (neps/optimizers/bayesian_optimization/acquisition_functions/pibo.py:33-47). -/
noncomputable def piboW {P : Type} (logp : P → ℝ) (expo : ℝ) (log : Bool) (x : P) (v : ℝ) : ℝ :=
  piboWeight log v (logp x) expo

/-- The weight of the predicted cost
(neps/optimizers/bayesian_optimization/acquisition_functions/cost_cooling.py:18-38). -/
noncomputable def costW {P : Type} (cost : P → ℝ) (alpha : ℝ) (log : Bool) (x : P) (v : ℝ) : ℝ :=
  costCooling log v (cost x) alpha

/-- The acquisition function that `fit_and_acquire_from_gp` optimizes
(neps/optimizers/bayesian_optimization/models/gp.py:347-403): `prior` is the log density with its
exponent, `cost` the predicted cost with the share of the budget that is used. `none` is the
assertion of `cost_cooled_acq`
(neps/optimizers/bayesian_optimization/acquisition_functions/cost_cooling.py:41-54). -/
noncomputable def acquireFrom {P : Type} (b : BaseAcq P) (pending : Option (List P))
    (prior : Option ((P → ℝ) × ℝ)) (cost : Option ((P → ℝ) × ℝ)) : Option (Acq P) :=
  let acq := Acq.base b pending
  let acq := match prior with
    | some (logp, e) => acq.weight (piboW logp e)
    | none => acq
  match cost with
  | some (c, used) => (coolingAlpha used).map fun alpha => acq.weight (costW c alpha)
  | none => some acq

end Verif.Bo
