import Verif.Trial.Model

/-!
# Stopping criteria

Model of `WorkerSettings` (`neps/state/settings.py`), the shared error list
(`neps/state/err_dump.py`) and `DefaultWorker._check_if_should_stop`
(`neps/runtime.py:196-366`).
-/

namespace Neps.Run

/-- `OnErrorPossibilities`, `neps/state/settings.py:35-53`. -/
inductive OnError
  | raiseWorker | stopWorker | raiseAny | stopAny | ignore
deriving DecidableEq, Repr

/-- `WorkerSettings`, `neps/state/settings.py:58-170`. -/
structure Settings where
  onError : OnError
  dv : DefaultReportValues := {}
  maxEvalsTotal : Option Nat := none
  includeInProgress : Bool := true
  maxCostTotal : Option PyFloat := none
  maxEvalTimeTotal : Option PyFloat := none
  maxEvalsWorker : Option Nat := none
  maxCostWorker : Option PyFloat := none
  maxWallclockWorker : Option PyFloat := none
  maxEvalTimeWorker : Option PyFloat := none
deriving Repr

/-- `SerializableTrialError`, `neps/state/err_dump.py:19-36`. -/
structure ErrEntry where
  trialId : String
  workerId : String
  errType : String
  err : String
  tb : Option String
deriving DecidableEq, Repr

/-- Why `_check_if_should_stop` ends the loop: it returns a message (`stop`) or raises
`WorkerRaiseError` (`raise`), because of the worker's own error, an error in the shared log, or
one of the limits. -/
inductive Halt
  | stopOwnError | raiseOwnError
  | stopSharedError | raiseSharedError (e : ErrEntry)
  | evalsWorker | costWorker | wallclock | evalTimeWorker
  | evalsTotal | costTotal | evalTimeTotal
deriving DecidableEq, Repr

/-- The halt raises (rather than returns). -/
def Halt.raises : Halt → Bool
  | .raiseOwnError | .raiseSharedError _ => true
  | _ => false

/-- `limit is not None and value >= limit`. -/
def reached (limit : Option PyFloat) (value : PyFloat) : Bool :=
  match limit with
  | none => false
  | some l => value.ge l

/-- The same for counts. -/
def reachedN (limit : Option Nat) (value : Nat) : Bool :=
  match limit with
  | none => false
  | some l => decide (l ≤ value)

/-- The checks that need nothing from the shared state, `neps/runtime.py:209-277`. `err` is the last
error of this worker, `count`, `cost`, `evalTime` its running totals, `wall` the elapsed time. -/
def localCheck (s : Settings) (err : Option Exc) (count : Nat) (cost wall evalTime : PyFloat) :
    Option Halt :=
  match err, s.onError with
  | some _, .raiseWorker => some .raiseOwnError
  | some _, .raiseAny => some .raiseOwnError
  | some _, .stopWorker => some .stopOwnError
  | some _, .stopAny => some .stopOwnError
  | _, _ =>
    if reachedN s.maxEvalsWorker count then some .evalsWorker
    else if reached s.maxCostWorker cost then some .costWorker
    else if reached s.maxWallclockWorker wall then some .wallclock
    else if reached s.maxEvalTimeWorker evalTime then some .evalTimeWorker
    else none

/-- `latest_err_as_raisable`, `neps/state/err_dump.py:73-77`. -/
def latestErr (errs : List ErrEntry) : Option ErrEntry := errs.getLast?

/-- The shared error check, `neps/runtime.py:281-303`. -/
def sharedErrCheck (s : Settings) (errs : List ErrEntry) : Option Halt :=
  match s.onError with
  | .raiseAny =>
    match latestErr errs with
    | some e => some (.raiseSharedError e)
    | none => none
  | .stopAny =>
    match latestErr errs with
    | some _ => some .stopSharedError
    | none => none
  | _ => none

/-- Whether the shared error log is read at all, `neps/runtime.py:281-284`. -/
def Settings.readsErrors (s : Settings) : Bool :=
  match s.onError with
  | .raiseAny | .stopAny => true
  | _ => false

/-- Whether there is a global limit, `neps/runtime.py:306-311`. -/
def Settings.hasGlobalLimit (s : Settings) : Bool :=
  s.maxEvalsTotal.isSome || s.maxCostTotal.isSome || s.maxEvalTimeTotal.isSome

/-- A trial that counts as evaluated or in progress, `neps/runtime.py:324-325`. -/
def counted (t : Trial) : Bool :=
  t.report.isSome || t.state == .evaluating || t.state == .submitted

/-- The number compared with `max_evaluations_total`, `neps/runtime.py:320-328`. -/
def evalCount (s : Settings) (trials : List Trial) : Nat :=
  if s.includeInProgress then trials.countP counted
  else trials.countP (fun t => t.report.isSome)

/-- The cost a trial contributes, `neps/runtime.py:340-342`. -/
def trialCost (t : Trial) : PyFloat :=
  match t.report with
  | none => 0
  | some r => r.cost.getD 0

/-- The total cost, `neps/runtime.py:339-343`. Trials without cost are skipped by the code; adding
zero is the same. -/
def costSum (trials : List Trial) : PyFloat := (trials.map trialCost).sum

/-- The evaluation time a trial contributes, `neps/runtime.py:353-356`. -/
def trialTime (t : Trial) : PyFloat :=
  match t.report with
  | none => 0
  | some r => r.evaluationDuration.getD 0

/-- The checks on a sweep of all trials, `neps/runtime.py:318-366`. -/
def globalCheck (s : Settings) (trials : List Trial) : Option Halt :=
  if reachedN s.maxEvalsTotal (evalCount s trials) then some .evalsTotal
  else if reached s.maxCostTotal (costSum trials) then some .costTotal
  else if reached s.maxEvalTimeTotal ((trials.map trialTime).sum) then some .evalTimeTotal
  else none

/-- `_check_if_should_stop`, `neps/runtime.py:196-366`, when the shared error log is `errs` and the
trials on disk are `trials`; `none` = `False`, go on. -/
def checkStop (s : Settings) (err : Option Exc) (count : Nat) (cost wall evalTime : PyFloat)
    (errs : List ErrEntry) (trials : List Trial) : Option Halt :=
  match localCheck s err count cost wall evalTime with
  | some h => some h
  | none =>
    match sharedErrCheck s errs with
    | some h => some h
    | none => if s.hasGlobalLimit then globalCheck s trials else none

/-- The settings built by `_launch_runtime`, `neps/runtime.py:532-555`. -/
def launchSettings (ignoreErrors : Bool) (lossOnError costOnError : Option PyFloat)
    (continueUntilCompleted : Bool) (maxCostTotal : Option PyFloat)
    (maxEvalsTotal maxEvalsWorker : Option Nat) : Settings where
  onError := if ignoreErrors then .ignore else .raiseAny
  dv := { lossValueOnError := lossOnError, costValueOnError := costOnError,
          costIfNotProvided := none, learningCurveOnError := none,
          learningCurveIfNotProvided := .loss }
  maxEvalsTotal := maxEvalsTotal
  includeInProgress := !continueUntilCompleted
  maxCostTotal := maxCostTotal
  maxEvalsWorker := maxEvalsWorker

end Neps.Run
