import Verif.Basic.PyVal

/-!
# Trials

Model of `neps/state/trial.py`, of the evaluation code `neps/state/_eval.py`, and of the trial
directory reader/writer `neps/state/filebased.py:213-257`.
-/

namespace Neps

/-- `State`, `neps/state/trial.py:27-37`. -/
inductive TState
  | pending | submitted | evaluating | success | failed | crashed | corrupted | unknown
deriving DecidableEq, Repr

/-- `State.pending`, `neps/state/trial.py:39-41`. -/
def TState.isPending : TState → Bool
  | .pending | .submitted | .evaluating => true
  | _ => false

/-- `MetaData`, `neps/state/trial.py:44-60`. -/
structure MetaData where
  id : String
  location : String
  previousTrialId : Option String
  previousTrialLocation : Option String
  samplingWorkerId : String
  timeSampled : PyFloat
  evaluatingWorkerId : Option String := none
  evaluationDuration : Option PyFloat := none
  timeSubmitted : Option PyFloat := none
  timeStarted : Option PyFloat := none
  timeEnd : Option PyFloat := none
deriving DecidableEq, Repr

/-- An exception object: its class name, `str(e)`, and whether `copy.deepcopy(e)` works (it
raises `TypeError` for exception classes whose constructor needs other arguments than the ones
stored in `args`). -/
structure Exc where
  cls : String
  msg : String
  copyable : Bool := true
deriving DecidableEq, Repr

/-- `reported_as`, `neps/state/trial.py:74`. -/
inductive ReportedAs
  | success | failed | crashed
deriving DecidableEq, Repr

/-- `Report`, `neps/state/trial.py:63-75`. -/
structure Report where
  trialId : String
  loss : Option PyFloat
  cost : Option PyFloat
  learningCurve : Option (List PyFloat)
  extra : List (String × PyVal)
  err : Option Exc
  tb : Option String
  reportedAs : ReportedAs
  evaluationDuration : Option PyFloat
deriving DecidableEq, Repr

/-- `Trial`, `neps/state/trial.py:125-137`. -/
structure Trial where
  config : List (String × PyVal)
  metadata : MetaData
  state : TState
  report : Option Report
deriving DecidableEq, Repr

/-- `Trial.id`, `neps/state/trial.py:167-170`. -/
def Trial.id (t : Trial) : String := t.metadata.id

/-- `Trial.new`, `neps/state/trial.py:139-165`. -/
def Trial.new (trialId : String) (config : List (String × PyVal)) (location : String)
    (previousTrial previousTrialLocation : Option String) (timeSampled : PyFloat)
    (workerId : String) : Trial where
  state := .pending
  config := config
  metadata :=
    { id := trialId, location := location, timeSampled := timeSampled,
      previousTrialId := previousTrial, previousTrialLocation := previousTrialLocation,
      samplingWorkerId := workerId }
  report := none

/-- `set_submitted`, `neps/state/trial.py:198-201`. -/
def Trial.setSubmitted (t : Trial) (time : PyFloat) : Trial :=
  { t with metadata := { t.metadata with timeSubmitted := some time }, state := .submitted }

/-- `set_evaluating`, `neps/state/trial.py:203-207`. -/
def Trial.setEvaluating (t : Trial) (time : PyFloat) (workerId : String) : Trial :=
  { t with
    metadata := { t.metadata with timeStarted := some time, evaluatingWorkerId := some workerId }
    state := .evaluating }

/-- The state that belongs to a way of reporting, `neps/state/trial.py:223-230` (the `ValueError`
branch is excluded by the type `ReportedAs`). -/
def ReportedAs.state : ReportedAs → TState
  | .success => .success
  | .failed => .failed
  | .crashed => .crashed

/-- `set_complete`, `neps/state/trial.py:209-252`. The trial is changed in place and a report is
returned; the report is not attached to the trial here. The conversions to `float` are no-ops on
values that are floats already (its callers have converted them). -/
def Trial.setComplete (t : Trial) (reportAs : ReportedAs) (timeEnd : PyFloat)
    (loss cost : Option PyFloat) (learningCurve : Option (List PyFloat)) (err : Option Exc)
    (tb : Option String) (extra : Option (List (String × PyVal)))
    (evaluationDuration : Option PyFloat) : Trial × Report :=
  ({ t with
      state := reportAs.state
      metadata := { t.metadata with
        timeEnd := some timeEnd, evaluationDuration := evaluationDuration } },
   { trialId := t.metadata.id, reportedAs := reportAs, evaluationDuration := evaluationDuration,
     loss := loss, cost := cost, learningCurve := learningCurve, extra := extra.getD [],
     err := err, tb := tb })

/-- `set_corrupted`, `neps/state/trial.py:254-256`. -/
def Trial.setCorrupted (t : Trial) : Trial := { t with state := .corrupted }

/-- `reset`, `neps/state/trial.py:258-268`: note that the report is kept. -/
def Trial.reset (t : Trial) : Trial :=
  { t with
    state := .pending
    metadata :=
      { id := t.metadata.id, location := t.metadata.location,
        previousTrialId := t.metadata.previousTrialId,
        previousTrialLocation := t.metadata.previousTrialLocation,
        timeSampled := t.metadata.timeSampled,
        samplingWorkerId := t.metadata.samplingWorkerId } }

/-- The `result` of `into_config_result`, `neps/state/trial.py:172-196`: `.error ()` is
`NotReportedYetError`, `none` is the string `"error"`, `some` the result mapping. -/
def Trial.configResult (t : Trial) : Except Unit (Option (List (String × PyVal))) :=
  match t.report with
  | none => .error ()
  | some r =>
    match r.reportedAs with
    | .success =>
      .ok (some (Dict.set (Dict.set r.extra "loss" ((r.loss.map PyVal.float).getD .none))
        "cost" ((r.cost.map PyVal.float).getD .none)))
    | _ => .ok none

/-- Comparison of two optional floats inside `Report.__eq__`, `neps/state/trial.py:113-118`
(`v` belongs to the left report): NaN on the left equals NaN on the right only. -/
def eqLossField (v w : Option PyFloat) : Bool :=
  match v with
  | some x =>
    if x.isNan then
      match w with
      | none => false
      | some y => y.isNan
    else decide (v = w)
  | none => decide (w = none)

/-- `Report.__eq__`, `neps/state/trial.py:96-122`. Exceptions are compared by `str` only, i.e. by
message, `str(None) = "None"`; the other fields by Python equality, modelled as structural
equality (so a NaN in the learning curve is compared by identity, as Python lists do when the
object is the same one). -/
def Report.pyEq (a b : Report) : Bool :=
  decide (a.trialId = b.trialId) && eqLossField a.loss b.loss && eqLossField a.cost b.cost &&
  decide (a.learningCurve = b.learningCurve) && decide (a.extra = b.extra) &&
  decide ((a.err.map Exc.msg).getD "None" = (b.err.map Exc.msg).getD "None") &&
  decide (a.tb = b.tb) && decide (a.reportedAs = b.reportedAs) &&
  decide (a.evaluationDuration = b.evaluationDuration)

/-! ## Evaluation, `neps/state/_eval.py` -/

/-- `learning_curve_if_not_provided`, `neps/state/settings.py:30`. -/
inductive DefaultLC
  | none
  | loss
  | list (l : List PyFloat)
deriving DecidableEq, Repr

/-- `DefaultReportValues`, `neps/state/settings.py:10-32`. -/
structure DefaultReportValues where
  lossValueOnError : Option PyFloat := none
  costValueOnError : Option PyFloat := none
  costIfNotProvided : Option PyFloat := none
  learningCurveOnError : Option (List PyFloat) := none
  learningCurveIfNotProvided : DefaultLC := .none
deriving DecidableEq, Repr

/-- What `extracted_learning_curve` holds after the default was substituted. -/
def DefaultLC.toVal : DefaultLC → PyVal
  | .none => .none
  | .loss => .str "loss"
  | .list l => .list (l.map .float)

/-- The parsed result: loss, cost, learning curve, extra. -/
structure Parsed where
  loss : PyFloat
  cost : Option PyFloat
  learningCurve : Option (List PyFloat)
  extra : List (String × PyVal)
deriving DecidableEq, Repr

/-- `[float(v) for v in l]`. -/
def floats (fs : String → Option PyFloat) : List PyVal → Except PyErr (List PyFloat)
  | [] => .ok []
  | v :: vs =>
    match v.toFloat fs, floats fs vs with
    | .error e, _ => .error e
    | _, .error e => .error e
    | .ok x, .ok xs => .ok (x :: xs)

/-- `_check_float`, `neps/state/_eval.py:21-28`: `TypeError` becomes `ValueError`. -/
def checkFloat (fs : String → Option PyFloat) (v : PyVal) : Except PyErr PyFloat :=
  match v.toFloat fs with
  | .ok x => .ok x
  | .error _ => .error .valueError

/-- `_check_float(cost, "cost") if cost is not None else None`, `neps/state/_eval.py:76`. -/
def parseCost (fs : String → Option PyFloat) : PyVal → Except PyErr (Option PyFloat)
  | .none => .ok none
  | v => (checkFloat fs v).map some

/-- `[float(v) for v in lc] if lc is not None else None`, `neps/state/_eval.py:77-81`. -/
def parseCurve (fs : String → Option PyFloat) : PyVal → Except PyErr (Option (List PyFloat))
  | .none => .ok none
  | v =>
    match v.iter with
    | .error e => .error e
    | .ok vs => (floats fs vs).map some

/-- The conversions at the end of `parse_user_result`, `neps/state/_eval.py:75-82`. -/
def parseFinish (fs : String → Option PyFloat) (loss cost lc : PyVal)
    (extra : List (String × PyVal)) : Except PyErr Parsed :=
  match checkFloat fs loss with
  | .error e => .error e
  | .ok l =>
    match parseCost fs cost with
    | .error e => .error e
    | .ok c =>
      match parseCurve fs lc with
      | .error e => .error e
      | .ok k => .ok ⟨l, c, k, extra⟩

/-- The `cost` after `user_result.pop("cost", default)`. -/
def optFloatVal : Option PyFloat → PyVal
  | none => .none
  | some x => .float x

/-- `parse_user_result`, `neps/state/_eval.py:31-82`. -/
def parseUserResult (fs : String → Option PyFloat) (userResult : PyVal)
    (defaultCost : Option PyFloat) (defaultLC : DefaultLC) : Except PyErr Parsed :=
  match userResult with
  | .dict d =>
    match Dict.get d "loss" with
    | none => .error .keyError
    | some loss =>
      let d := Dict.erase d "loss"
      let cost := (Dict.get d "cost").getD (optFloatVal defaultCost)
      let d := Dict.erase d "cost"
      let r : Except PyErr (PyVal × List (String × PyVal)) :=
        match Dict.get d "learning_curve" with
        | some lc => .ok (lc, Dict.erase d "learning_curve")
        | none =>
          match Dict.get d "info_dict" with
          | none => .ok (defaultLC.toVal, d)
          | some (.dict info) =>
            .ok ((Dict.get info "learning_curve").getD defaultLC.toVal,
              Dict.set d "info_dict" (.dict (Dict.erase info "learning_curve")))
          | some (.list _) => .error .typeError      -- `list.pop` takes one argument
          | some _ => .error .attributeError         -- no `.pop`
      match r with
      | .error e => .error e
      | .ok (lc, extra) =>
        let lc := if lc = .str "loss" then .list [loss] else lc
        parseFinish fs loss cost lc extra
  | v =>
    let lc : PyVal :=
      match defaultLC with
      | .none => .none
      | .loss => .list [v]
      | .list l => .list (l.map .float)
    parseFinish fs v (optFloatVal defaultCost) lc []

/-- What calling the objective does: it returns a value or raises an `Exception`. -/
inductive Outcome
  | returned (v : PyVal)
  | raised (e : Exc) (tb : String)
deriving DecidableEq, Repr

/-- `_eval_trial` and `evaluate_trial`, `neps/state/_eval.py:85-164`. The objective is represented by
its outcome; `timeEnd` and `duration` are the clock readings. An error here is an exception that
escapes to the caller. -/
def evalTrial (fs : String → Option PyFloat) (t : Trial) (dv : DefaultReportValues)
    (o : Outcome) (timeEnd duration : PyFloat) : Except PyErr (Trial × Report) :=
  match o with
  | .raised e tb =>
    .ok (t.setComplete .crashed timeEnd dv.lossValueOnError dv.costValueOnError
      dv.learningCurveOnError (some e) (some tb) none (some duration))
  | .returned v =>
    match parseUserResult fs v dv.costIfNotProvided dv.learningCurveIfNotProvided with
    | .error e => .error e
    | .ok p =>
      .ok (t.setComplete .success timeEnd (some p.loss) p.cost p.learningCurve none none
        (some p.extra) (some duration))

/-! ## The trial directory, `neps/state/filebased.py:213-257` -/

/-- The content of a YAML file: a mapping, or nothing (opened for writing, then the dump
failed, `neps/utils/files.py:44-55`). -/
inductive YFile (A : Type)
  | full (a : A)
  | empty
deriving DecidableEq, Repr

/-- What `asdict(report)` looks like in the file: the exception is its message
(`neps/utils/files.py:22-23`). -/
structure ReportFile where
  trialId : String
  loss : Option PyFloat
  cost : Option PyFloat
  learningCurve : Option (List PyFloat)
  extra : List (String × PyVal)
  err : Option String
  tb : Option String
  reportedAs : ReportedAs
  evaluationDuration : Option PyFloat
deriving DecidableEq, Repr

/-- The files of a trial directory, `neps/state/filebased.py:217-221`. -/
structure TrialDir where
  config : Option (YFile (List (String × PyVal))) := none
  metadata : Option (YFile MetaData) := none
  stateTxt : Option TState := none
  prevId : Option String := none
  report : Option (YFile ReportFile) := none
deriving DecidableEq, Repr

mutual
/-- `yaml.safe_dump` can represent the value (`neps/utils/files.py:50-55`). -/
def dumpable : PyVal → Bool
  | .obj _ => false
  | .list l => dumpableList l
  | .dict d => dumpableDict d
  | _ => true
/-- All elements are representable. -/
def dumpableList : List PyVal → Bool
  | [] => true
  | v :: vs => dumpable v && dumpableList vs
/-- All values are representable. -/
def dumpableDict : List (String × PyVal) → Bool
  | [] => true
  | (_, v) :: vs => dumpable v && dumpableDict vs
end

/-- `asdict(report)` followed by `serializable_format`; `none` if `asdict`, which deep-copies the
exception, raises. -/
def Report.toFile? (r : Report) : Option ReportFile :=
  if (r.err.map Exc.copyable).getD true then
    some { trialId := r.trialId, loss := r.loss, cost := r.cost, learningCurve := r.learningCurve,
           extra := r.extra, err := r.err.map Exc.msg, tb := r.tb, reportedAs := r.reportedAs,
           evaluationDuration := r.evaluationDuration }
  else none

/-- `Trial.Report(**deserialize(path))` with `__post_init__`, `neps/state/trial.py:77-79`: a string
error becomes a plain `Exception`. -/
def ReportFile.toReport (f : ReportFile) : Report :=
  { trialId := f.trialId, loss := f.loss, cost := f.cost, learningCurve := f.learningCurve,
    extra := f.extra, err := f.err.map (fun m => { cls := "Exception", msg := m }), tb := f.tb,
    reportedAs := f.reportedAs, evaluationDuration := f.evaluationDuration }

/-- One file operation of `ReaderWriterTrial.write`: the directory afterwards, and the exception it
raises, if any. -/
abbrev FileOp := TrialDir → TrialDir × Option PyErr

/-- `serialize(trial.config, config_path)`, `neps/state/filebased.py:247`. -/
def opConfig (t : Trial) : FileOp := fun d =>
  if dumpableDict t.config then ({ d with config := some (.full t.config) }, none)
  else ({ d with config := some .empty }, some .typeError)

/-- `serialize(asdict(trial.metadata), metadata_path)`, `neps/state/filebased.py:248`. -/
def opMetadata (t : Trial) : FileOp := fun d =>
  ({ d with metadata := some (.full t.metadata) }, none)

/-- `state_path.write_text(trial.state.value)`, `neps/state/filebased.py:249`. -/
def opState (t : Trial) : FileOp := fun d => ({ d with stateTxt := some t.state }, none)

/-- `previous_trial_path.write_text(...)`, `neps/state/filebased.py:251-253`. -/
def opPrev (p : String) : FileOp := fun d => ({ d with prevId := some p }, none)

/-- `serialize(asdict(trial.report), report_path)`, `neps/state/filebased.py:255-257`. -/
def opReport (r : Report) : FileOp := fun d =>
  match r.toFile? with
  | none => (d, some .typeError)
  | some f =>
    if dumpableDict r.extra then ({ d with report := some (.full f) }, none)
    else ({ d with report := some .empty }, some .typeError)

/-- The file operations of `ReaderWriterTrial.write`, in order, `neps/state/filebased.py:242-257`. -/
def writeOps (t : Trial) : List FileOp :=
  [opConfig t, opMetadata t, opState t] ++
  (match t.metadata.previousTrialId with
    | none => []
    | some p => [opPrev p]) ++
  (match t.report with
    | none => []
    | some r => [opReport r])

/-- Run file operations until one raises. -/
def runOps : List FileOp → TrialDir → TrialDir × Option PyErr
  | [], d => (d, none)
  | op :: ops, d =>
    match op d with
    | (d', some e) => (d', some e)
    | (d', none) => runOps ops d'

/-- `ReaderWriterTrial.write`. -/
def writeTrial (t : Trial) (d : TrialDir) : TrialDir × Option PyErr := runOps (writeOps t) d

/-- `write` killed after `k` file operations. -/
def writeTrialKilled (k : Nat) (t : Trial) (d : TrialDir) : TrialDir :=
  (runOps ((writeOps t).take k) d).1

/-- `ReaderWriterTrial.read`, `neps/state/filebased.py:225-238`. `none` = some exception
(`FileNotFoundError`, or `TypeError` for an empty YAML file). -/
def readTrial (d : TrialDir) : Option Trial :=
  match d.config, d.metadata, d.stateTxt with
  | some (.full c), some (.full m), some s =>
    match d.report with
    | none => some ⟨c, m, s, none⟩
    | some (.full r) => some ⟨c, m, s, some r.toReport⟩
    | some .empty => none
  | _, _, _ => none

end Neps
