import Verif.Space.Param
import Verif.Space.Domain
import Mathlib.Data.List.Sort

/-!
# Model of ifBO

`neps/optimizers/multi_fidelity/ifbo.py` and `neps/optimizers/bayesian_optimization/models/ftpfn.py`:
freeze-thaw optimization, which evaluates configurations one step of the fidelity at a time.

Simplifications, for the whole file: exact real numbers instead of 32 bit floats; a configuration
without its fidelity is an opaque value of type `α` that is not changed by encoding and decoding
(the properties of the encoder are proved in `Verif/Space`); the surrogate network is an arbitrary
function from candidates to scores; `none` is a raised exception or, for a single number, NaN.
-/

namespace Verif.Ifbo

open Verif.Space

/-- A fidelity parameter: `FloatParameter | IntegerParameter`
(neps/optimizers/multi_fidelity/ifbo.py:51). -/
inductive Fid where
  | float (p : FloatParam)
  | int (p : IntParam)

namespace Fid

/-- `fidelity.lower` (neps/search_spaces/hyperparameters/numerical.py:134). -/
noncomputable def lower : Fid → ℝ
  | float p => p.lower
  | int p => p.lower

/-- `fidelity.upper` (neps/search_spaces/hyperparameters/numerical.py:135). -/
noncomputable def upper : Fid → ℝ
  | float p => p.upper
  | int p => p.upper

/-- `fidelity.log` (neps/search_spaces/hyperparameters/numerical.py:136). -/
def log : Fid → Bool
  | float p => p.log
  | int p => p.log

/-- `fidelity.domain` (neps/search_spaces/hyperparameters/numerical.py:137, float.py:75,
integer.py:80). -/
noncomputable def domain : Fid → Option Domain
  | float p => Domain.floating p.lower p.upper p.log
  | int p => Domain.integer p.lower p.upper p.log

/-- `fidelity.__class__(lower=..., upper=..., log=..., default=..., is_fidelity=True,
default_confidence=...)` (neps/optimizers/multi_fidelity/ifbo.py:72-79). -/
noncomputable def withLower : Fid → ℝ → Option Fid
  | float p, l => (FloatParam.make l p.upper p.log true p.dflt p.choice).map .float
  | int p, l =>
      (IntParam.make l p.upper p.log true (p.dflt.map fun d => (d : ℝ)) p.choice).map .int

end Fid

/-- `_adjust_pipeline_space_to_match_stepsize` (neps/optimizers/multi_fidelity/ifbo.py:32-83),
the new fidelity and the number of bins.  A step size of zero is a `ZeroDivisionError`. -/
noncomputable def adjust (fid : Fid) (step : ℝ) : Option (Fid × ℕ) :=
  if fid.log = true then none
  else if step = 0 then none
  else
    let x := fid.upper - fid.lower
    let n := ⌊x / step⌋
    if n ≤ 0 then none
    else
      let r := x - n * step
      let newLower := fid.lower + r
      (fid.withLower newLower).map fun f => (f, n.toNat)

/-- The parts of an `IFBO` object used by `ask` (neps/optimizers/multi_fidelity/ifbo.py:138-164).
The initial design is given; how it is made is modelled in `Verif/Bo`. -/
structure Optimizer (α : Type) where
  /-- `_min_budget` -/
  minFid : ℝ
  /-- `_fid_domain` -/
  fidDom : Domain
  /-- `_budget_domain` -/
  budgetDom : Domain
  /-- `_budget_ix_domain` -/
  ixDom : Domain
  /-- `_initial_design` -/
  design : List α

/-- `IFBO.__init__` (neps/optimizers/multi_fidelity/ifbo.py:89-164). -/
noncomputable def init {α : Type} (fid : Fid) (step : ℝ) (design : List α) : Option (Optimizer α) := do
  let (f, n) ← adjust fid step
  let fd ← f.domain
  let lo ← fdiv 1 f.upper
  let bd ← Domain.floating lo 1
  let ixd ← Domain.indices n
  return ⟨f.lower, fd, bd, ixd, design⟩

/-- What is known about a trial: `report is None`, `report.loss is None`, or a loss; `none` is a
NaN loss (neps/optimizers/bayesian_optimization/models/ftpfn.py:172-181). -/
inductive Report where
  | pending
  | crashed
  | loss (y : Option ℝ)

/-- A trial of an ifBO run.  Its id is `"{cfg}_{label}"`
(neps/optimizers/multi_fidelity/ifbo.py:190,275,283). -/
structure Tr (α : Type) where
  cfg : ℕ
  label : ℤ
  config : α
  fid : ℝ
  report : Report

/-- The entry of `minimize_ys` of a trial
(neps/optimizers/bayesian_optimization/models/ftpfn.py:172-181 with `error_value = 0.0` and
`pending_value = nan`); `none` is NaN. -/
def minimizeY : Report → Option ℝ
  | .pending => none
  | .crashed => some 0
  | .loss y => y

/-- An operation on numbers that may be NaN (`torch.max`, `torch.min` propagate NaN,
neps/optimizers/bayesian_optimization/models/ftpfn.py:182). -/
def liftNan (f : ℝ → ℝ → ℝ) : Option ℝ → Option ℝ → Option ℝ
  | some a, some b => some (f a b)
  | _, _ => none

/-- The maximum of a tensor (neps/optimizers/bayesian_optimization/models/ftpfn.py:182,
ifbo.py:230): NaN (`some none`) as soon as one entry is NaN; an empty tensor raises (`none`). -/
noncomputable def tensorMax : List (Option ℝ) → Option (Option ℝ)
  | [] => none
  | y :: ys => some (ys.foldl (liftNan max) y)

/-- The minimum of a tensor (neps/optimizers/bayesian_optimization/models/ftpfn.py:182). -/
noncomputable def tensorMin : List (Option ℝ) → Option (Option ℝ)
  | [] => none
  | y :: ys => some (ys.foldl (liftNan min) y)

/-- `minimize_ys.max() > 1 or minimize_ys.min() < 0`
(neps/optimizers/bayesian_optimization/models/ftpfn.py:182): comparisons with NaN are false. -/
noncomputable def outOfRange (ys : List (Option ℝ)) : Option Bool := do
  let mx ← tensorMax ys
  let mn ← tensorMin ys
  return mx.any (fun m => decide (1 < m)) || mn.any (fun m => decide (m < 0))

/-- A row of the table given to the surrogate: shifted configuration number (0 for new
configurations), budget and encoded configuration
(neps/optimizers/bayesian_optimization/models/ftpfn.py:153-168,189-191). -/
structure Row (α : Type) where
  id : ℕ
  budget : ℝ
  x : α

/-- The row and the score of a trial
(neps/optimizers/bayesian_optimization/models/ftpfn.py:144-192). -/
noncomputable def encodeTrial {α : Type} (s : Optimizer α) (t : Tr α) :
    Option (Row α × Option ℝ) := do
  let b ← s.budgetDom.cast t.fid s.fidDom
  return (⟨t.cfg + 1, b, t.config⟩, (minimizeY t.report).map (1 - ·))

/-- `encode_ftpfn` (neps/optimizers/bayesian_optimization/models/ftpfn.py:109-192). -/
noncomputable def encode {α : Type} (s : Optimizer α) (ts : List (Tr α)) :
    Option (List (Row α × Option ℝ)) := do
  let rows ← ts.mapM (encodeTrial s)
  if ← outOfRange (ts.map fun t => minimizeY t.report) then none
  return rows

/-- The order of the lexsort of `_keep_highest_budget_evaluation`
(neps/optimizers/bayesian_optimization/models/ftpfn.py:24-29): by configuration, then by budget. -/
noncomputable def rowLe {α : Type} (a b : Row α) : Bool :=
  decide (a.id < b.id ∨ a.id = b.id ∧ a.budget ≤ b.budget)

/-- The last row of every group of consecutive rows with the same configuration
(neps/optimizers/bayesian_optimization/models/ftpfn.py:31-37). -/
def lastOfGroups {α : Type} : List (Row α) → List (Row α)
  | [] => []
  | [a] => [a]
  | a :: b :: l => if a.id = b.id then lastOfGroups (b :: l) else a :: lastOfGroups (b :: l)

/-- `_keep_highest_budget_evaluation`
(neps/optimizers/bayesian_optimization/models/ftpfn.py:19-37).  Simplification: rows with the
same configuration and the same budget keep their order (`torch.argsort` may swap them). -/
noncomputable def keepHighest {α : Type} (rows : List (Row α)) : List (Row α) :=
  lastOfGroups (rows.mergeSort rowLe)

/-- `acq_scores.argmax()`: the first row with the highest score; an empty tensor raises
(neps/optimizers/bayesian_optimization/models/ftpfn.py:235-239,263-268,288-291). -/
noncomputable def argmax {α : Type} (score : Row α → ℝ) : List (Row α) → Option (Row α)
  | [] => none
  | r :: rs => some (rs.foldl (fun b c => if score b < score c then c else b) r)

/-- `if sample_best_score > best_score`: `none` is the initial score `-inf`
(neps/optimizers/bayesian_optimization/models/ftpfn.py:243-244,269-271,292-294). -/
noncomputable def better {α : Type} (score : Row α → ℝ) (best : Option (Row α)) (r : Row α) :
    Option (Row α) :=
  match best with
  | none => some r
  | some b => if score b < score r then some r else some b

/-- One sampler: the samples it returns, and the samples drawn around a point
(neps/optimizers/bayesian_optimization/models/ftpfn.py:256-287). -/
structure Batch (α : Type) where
  samples : List α
  around : α → List α

/-- The body of the loop over the samplers
(neps/optimizers/bayesian_optimization/models/ftpfn.py:256-294). -/
noncomputable def tryBatch {α : Type} (score : Row α → ℝ) (minBudget : ℝ)
    (best : Option (Row α)) (b : Batch α) : Option (Option (Row α)) := do
  let r ← argmax score (b.samples.map fun x => ⟨0, minBudget, x⟩)
  let best := better score best r
  let r' ← argmax score ((b.around r.x).map fun x => ⟨0, minBudget, x⟩)
  return better score best r'

/-- `acquire_next_from_ftpfn` (neps/optimizers/bayesian_optimization/models/ftpfn.py:212-297).
The outer `none` is an exception, the inner one the empty tensor of line 244. -/
noncomputable def acquire {α : Type} (score : Row α → ℝ) (budgetDom : Domain)
    (continuation : List (Row α)) (batches : List (Batch α)) : Option (Option (Row α)) :=
  let existing := (keepHighest continuation).filter fun r => decide (r.budget < budgetDom.upper)
  let best := argmax score existing
  batches.foldlM (tryBatch score budgetDom.lower) best

/-- What `ask` returns: the id `"{cfg}_{label}"`, the configuration and its fidelity (`none` is
NaN), and the id of the predecessor (neps/optimizers/multi_fidelity/ifbo.py:190,275,282-286). -/
structure Proposal (α : Type) where
  cfg : ℕ
  label : ℤ
  config : α
  fid : Option ℝ
  prev : Option (ℕ × ℤ)

/-- `max(ids) + 1 if len(ids) > 0 else 0` (neps/optimizers/multi_fidelity/ifbo.py:172-173). -/
def newId {α : Type} (ts : List (Tr α)) : ℕ :=
  match ts with
  | [] => 0
  | t :: ts => (ts.foldl (fun m u => max m u.cfg) t.cfg) + 1

/-- What is done with the row chosen by the surrogate
(neps/optimizers/multi_fidelity/ifbo.py:266-286). -/
noncomputable def decide' {α : Type} (s : Optimizer α) (new : ℕ) (row : Row α) : Option (Proposal α) :=
  let fid := s.fidDom.cast row.budget s.budgetDom
  if row.id = 0 then some ⟨new, 0, row.x, fid, none⟩
  else do
    let f ← fid
    let ix ← s.ixDom.cast f s.fidDom
    let next := ⌊ix⌋ + 1
    return ⟨row.id - 1, next, row.x, s.fidDom.cast next s.ixDom, some (row.id - 1, ⌊ix⌋)⟩

/-- `IFBO.ask` (neps/optimizers/multi_fidelity/ifbo.py:166-286).  `rng.randint(*bounds)` (line 227)
raises when the bounds are not in strict order.  The scores and the samples are arguments. -/
noncomputable def ask {α : Type} (s : Optimizer α) (score : Row α → ℝ) (batches : List (Batch α))
    (ts : List (Tr α)) : Option (Proposal α) :=
  let new := newId ts
  match s.design[new]? with
  | some c => some ⟨new, 0, c, some s.minFid, none⟩
  | none => do
    let data ← encode s ts
    if s.ixDom.upper ≤ s.ixDom.lower then none
    let notPending := (data.filter fun r => r.2.isSome).map (·.1)
    let row ← acquire score s.budgetDom notPending batches
    let row ← row
    decide' s new row

/-- Whether the state accepts a proposal: the trial named as predecessor must exist
(neps/state/neps_state.py:117-122), and no trial may have the id already
(neps/state/filebased.py:167-172). -/
def Accepted {α : Type} (ts : List (Tr α)) (p : Proposal α) : Prop :=
  (∀ c i, p.prev = some (c, i) → ∃ t ∈ ts, t.cfg = c ∧ t.label = i) ∧
  ¬ ∃ t ∈ ts, t.cfg = p.cfg ∧ t.label = p.label

/-- The histories of ifBO: trials are added as they are proposed and accepted
(neps/state/neps_state.py:105-140), trials without a report get one
(neps/state/neps_state.py:146-166), and they are read back in any order. -/
inductive Reach {α : Type} (s : Optimizer α) : List (Tr α) → Prop
  | start : Reach s []
  | ask {ts : List (Tr α)} {p : Proposal α} (score : Row α → ℝ) (batches : List (Batch α)) (f : ℝ) :
      Reach s ts → ask s score batches ts = some p → p.fid = some f → Accepted ts p →
      Reach s (⟨p.cfg, p.label, p.config, f, .pending⟩ :: ts)
  | report {ts : List (Tr α)} {t : Tr α} (r : Report) :
      Reach s (t :: ts) → t.report = .pending → Reach s ({ t with report := r } :: ts)
  | perm {ts ts' : List (Tr α)} : Reach s ts → ts.Perm ts' → Reach s ts'

/-- `threshold = f_best + (10 ** rng.uniform(-4, -1)) * (1 - f_best)`
(neps/optimizers/multi_fidelity/ifbo.py:230-231): the score a candidate must exceed; `c` is the
random factor. -/
noncomputable def threshold (c best : ℝ) : ℝ := best + c * (1 - best)

end Verif.Ifbo
