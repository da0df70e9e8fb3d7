import Verif.PriorBand.Model

/-!
# Model-based search of the multi-fidelity optimizers

Model of `MFBOBase` (neps/optimizers/multi_fidelity/mf_bo.py), used by PriorBand with
`model_based` and by MOBSTER, and of the parts of `ModelPolicy`
(neps/optimizers/multi_fidelity/sampling_policy.py:275-405) that do not depend on the surrogate.

Simplifications: the surrogate and the acquisition function are left out; a configuration is its
number, and setting its fidelity is pairing it with the budget.
-/

namespace Verif.PriorBand

open Neps Neps.MF

variable {P F : Type}

/-- A data point of the surrogate: the configuration, the value its fidelity is set to, the loss. -/
abbrev Point := ℕ × ℝ × PyFloat

/-- `train_x` and `train_y` for one rung (mf_bo.py:82-92): the losses come from the history of the
rung, whatever the configurations did later. -/
def trainRung (b : Bracket ℝ) (hist : ℕ → List (ℕ × PyFloat)) (r : ℕ) : List Point :=
  (hist r).map fun c => (c.1, b.budget r, c.2)

/-- `pending_x` for one rung (mf_bo.py:93-98). -/
def pendingRung (b : Bracket ℝ) (rows : List (Row P F)) (r : ℕ) : List (ℕ × ℝ) :=
  ((rows.filter fun w => w.perf.isNan).filter fun w => w.rung == r).map fun w => (w.cfg, b.budget r)

/-- `train_x` and `train_y` over all rungs (mf_bo.py:107-118). -/
def trainJoint (b : Bracket ℝ) (hist : ℕ → List (ℕ × PyFloat)) : List Point :=
  ((List.range' b.minR (numRungs b)).map (trainRung b hist)).flatten

/-- `pending_x` over all rungs (mf_bo.py:119-125). -/
def pendingJoint (b : Bracket ℝ) (rows : List (Row P F)) : List (ℕ × ℝ) :=
  (rows.filter fun w => w.perf.isNan).map fun w => (w.cfg, b.budget w.rung)

/-- The exceptions of `sample_new_config`. -/
inductive SampleErr
  | valueError      -- the minimum of no numbers
  | attributeError  -- `self.acquisition` is not set
deriving DecidableEq

/-- Where a new configuration comes from. -/
inductive Source
  | model
  | policy
  | space
deriving DecidableEq

/-- `ModelPolicy.sample` (sampling_policy.py:349-406): every path reads `self.acquisition`, which no
method of the class and of its base classes sets (`update_model` sets `self._acq`,
sampling_policy.py:346-347). -/
def modelPolicySample (_fidelity _activeMaxFidelity : Option ℝ) : Except SampleErr Source :=
  .error .attributeError

/-- `sample_new_config` (mf_bo.py:165-204): where the configuration comes from.  `hasPolicy`:
`sampling_policy` is not `None`. -/
noncomputable def sampleNew (modelBased hasPolicy : Bool) (m : Modelling) (v : View) (initSize rung : ℕ) :
    Except SampleErr Source :=
  if modelBased && !isInitPhase m v initSize then
    match m with
    | .rung => modelPolicySample none ((activeRung v.self initSize v.hist).map v.self.budget)
    | .joint =>
      if v.hist rung = [] then .error .valueError
      else modelPolicySample (some (v.self.budget rung)) none
  else if hasPolicy then .ok .policy
  else .ok .space

end Verif.PriorBand
