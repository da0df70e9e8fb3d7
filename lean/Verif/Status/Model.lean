import Verif.Trial.Model

/-!
# The status of a run

Model of `get_summary_dict` (`neps/status/status.py:21-95`), of the result mapping it uses
(`neps/state/trial.py:81-95`, `neps/utils/types.py:63-74`), and of the CSV files written after a run
(`neps/status/status.py:193-378`).
-/

namespace Neps.Status

/-- `d | e` for dictionaries: `{**d, **e}`. -/
def update (d e : List (String × PyVal)) : List (String × PyVal) :=
  e.foldl (fun d p => Dict.set d p.1 p.2) d

/-- A learning curve as a value. -/
def curveVal : Option (List PyFloat) → PyVal
  | none => .none
  | some l => .list (l.map .float)

/-- `k in v` for a string `k`: a key of a mapping, an element of a list, a substring of a string;
`TypeError` for anything else. -/
def contains (k : String) : PyVal → Except PyErr Bool
  | .dict d => .ok (Dict.has d k)
  | .list l => .ok (l.contains (.str k))
  | .str s => .ok (decide (k.toList <:+: s.toList))
  | _ => .error .typeError

/-- `Report.to_deprecate_result_dict`, `neps/state/trial.py:81-95`: `none` is the string `"error"`.
Simplification: the assignment into `info_dict` also changes the dictionary inside `extra`, which
nobody reads afterwards. -/
def resultDict (r : Report) : Except PyErr (Option (List (String × PyVal))) :=
  match r.reportedAs with
  | .success =>
    let d := update [("loss", optFloatVal r.loss), ("cost", optFloatVal r.cost)] r.extra
    match Dict.get d "info_dict" with
    | none =>
      .ok (some (Dict.set d "info_dict" (.dict [("learning_curve", curveVal r.learningCurve)])))
    | some v =>
      match contains "learning_curve" v with
      | .error e => .error e
      | .ok true => .ok (some d)
      | .ok false =>
        match v with
        | .dict i =>
          .ok (some (Dict.set d "info_dict"
            (.dict (Dict.set i "learning_curve" (curveVal r.learningCurve)))))
        | _ => .error .typeError
  | _ => .ok none

/-- `_ConfigResultForStats`, `neps/utils/types.py:67-72`. -/
structure Stat where
  id : String
  config : List (String × PyVal)
  result : Option (List (String × PyVal))
  metadata : MetaData
deriving DecidableEq, Repr

/-- `_ConfigResultForStats.loss`, `neps/utils/types.py:70-74`: `none` is the string `"error"`. -/
def Stat.loss (fs : String → Option PyFloat) (s : Stat) : Except PyErr (Option PyFloat) :=
  match s.result with
  | none => .ok none
  | some d =>
    match Dict.get d "loss" with
    | none => .error .keyError
    | some v =>
      match v.toFloat fs with
      | .ok x => .ok (some x)
      | .error e => .error e

/-- The loop that collects the trials with a report, `neps/status/status.py:42-55`. -/
def collect : List (String × Trial) → List (String × Stat) → Except PyErr (List (String × Stat))
  | [], acc => .ok acc
  | (_, t) :: ts, acc =>
    match t.report with
    | none => collect ts acc
    | some r =>
      match resultDict r with
      | .error e => .error e
      | .ok res => collect ts (Dict.set acc t.id ⟨t.id, t.config, res, t.metadata⟩)

/-- `trial.State == Trial.State.X`, `neps/status/status.py:60, 65`. `State` (capitalised) is the
enumeration class itself, a class variable of `Trial` (`neps/state/trial.py:129`), not the state of
the trial; a class is never equal to one of its members. -/
def classEquals (_ : Trial) (_ : TState) : Bool := false

/-- `{trial.id: trial.config for trial in trials.values() if trial.State == s}`,
`neps/status/status.py:57-66`. -/
def inState (s : TState) (ts : List (String × Trial)) : List (String × List (String × PyVal)) :=
  ts.foldl (fun d p => if classEquals p.2 s then Dict.set d p.2.id p.2.config else d) []

/-- The best evaluation so far and the number of errors, `neps/status/status.py:79-83`. -/
structure Best where
  loss : PyFloat := .pinf
  id : Option String := none
  metadata : Option MetaData := none
  config : Option (List (String × PyVal)) := none
  errors : Nat := 0
deriving DecidableEq, Repr

/-- The body of the loop over the evaluations, `neps/status/status.py:84-93`. -/
def Best.step (fs : String → Option PyFloat) (b : Best) (e : Stat) : Except PyErr Best :=
  let b := if e.result = none then { b with errors := b.errors + 1 } else b
  match e.loss fs with
  | .error er => .error er
  | .ok none => .ok b
  | .ok (some x) =>
    if PyFloat.lt x b.loss then
      .ok { b with loss := x, config := some e.config, id := some e.id, metadata := some e.metadata }
    else .ok b

/-- The loop, `neps/status/status.py:84-93`. -/
def Best.loop (fs : String → Option PyFloat) : List (String × Stat) → Best → Except PyErr Best
  | [], b => .ok b
  | (_, e) :: es, b =>
    match b.step fs e with
    | .error er => .error er
    | .ok b => Best.loop fs es b

/-- The summary, `neps/status/status.py:68-93`. -/
structure Summary where
  previousResults : List (String × Stat)
  pendingConfigs : List (String × List (String × PyVal))
  pendingConfigsFree : List (String × List (String × PyVal))
  numEvaluated : Nat
  numPending : Nat
  numPendingWithWorker : Nat
  bestLoss : PyFloat
  bestId : Option String
  bestMetadata : Option MetaData
  bestConfig : Option (List (String × PyVal))
  numError : Nat
deriving DecidableEq, Repr

/-- `get_summary_dict`, `neps/status/status.py:21-95`, applied to what `get_all_trials()` returns
(`neps/state/neps_state.py:221-223`: trials by id). -/
def summarize (fs : String → Option PyFloat) (trials : List (String × Trial)) :
    Except PyErr Summary :=
  match collect trials [] with
  | .error e => .error e
  | .ok evaluated =>
    let inProgress := inState .evaluating trials
    let pending := inState .pending trials
    match Best.loop fs evaluated {} with
    | .error e => .error e
    | .ok b =>
      .ok
        { previousResults := evaluated
          pendingConfigs := pending.foldl (fun d p => Dict.set d p.1 p.2) inProgress
          pendingConfigsFree := pending
          numEvaluated := evaluated.length
          numPending := inProgress.length + pending.length
          numPendingWithWorker := inProgress.length
          bestLoss := b.loss, bestId := b.id, bestMetadata := b.metadata, bestConfig := b.config
          numError := b.errors }

/-! ## The CSV files -/

/-- One row of `config_data.csv`: id, status column, and the column `result.loss` (empty for trials
without a loss). The other columns are not modelled. -/
structure Row where
  id : String
  status : String
  loss : Option PyFloat
deriving DecidableEq, Repr

/-- `run_status.csv`, `neps/status/status.py:266-282`. -/
structure RunData where
  numEvaluated : Nat
  numPending : Nat
  numPendingWithWorker : Nat
  bestLoss : PyFloat
  bestId : Option String
  numError : Nat
deriving DecidableEq, Repr

/-- The two files, `none` before the first time they are written. -/
abbrev Csv := Option (List Row × RunData)

/-- The loss column of a result mapping, if there is one. The file holds the text of the number. -/
def lossColumn (s : Stat) : Option PyFloat :=
  match s.result with
  | none => none
  | some d =>
    match Dict.get d "loss" with
    | some (.float x) => some x
    | _ => none

/-- The rows of the data frame, `neps/status/status.py:219-263`: evaluated trials, then pending ones.
-/
def rowsOf (s : Summary) : List Row :=
  s.previousResults.map (fun p => ⟨p.1, "complete", lossColumn p.2⟩) ++
  s.pendingConfigs.map (fun p => ⟨p.1, "pending", none⟩)

/-- `neps/status/status.py:266-273`. -/
def runDataOf (s : Summary) : RunData :=
  ⟨s.numEvaluated, s.numPending, s.numPendingWithWorker, s.bestLoss, s.bestId, s.numError⟩

/-- `df.sort_values(by="result.loss")`: `KeyError` if no result is a mapping, because then the
column does not exist (`pandas.json_normalize`); `sort` is pandas' sorting algorithm. -/
def sortValues (sort : List Row → List Row) (s : Summary) : Except PyErr (List Row) :=
  if s.previousResults.any (fun p => p.2.result.isSome) then .ok (sort (rowsOf s))
  else .error .keyError

/-- The body of the `try` in `_save_data_to_csv`, `neps/status/status.py:307-345`. The outer result is
the exception (which is re-raised as `RuntimeError`, line 347), the state is that of the files when
it is raised. -/
def saveCsv (sort : List Row → List Row) (s : Summary) (csv : Csv) : Csv × Option PyErr :=
  let new (c : Csv) : Csv × Option PyErr :=
    match sortValues sort s with
    | .error e => (c, some e)
    | .ok rows => (some (rows, runDataOf s), none)
  let first : Csv × Option PyErr :=
    if s.numPending = 0 ∧ s.numPendingWithWorker = 0 then new csv else (csv, none)
  match first with
  | (csv, some e) => (csv, some e)
  | (some (rows, d), none) =>
    if d.numEvaluated < s.numEvaluated then new (some (rows, d)) else (some (rows, d), none)
  | (none, none) => new none

/-- `post_run_csv`, `neps/status/status.py:350-378`: the files afterwards, and the exception. -/
def postRunCsv (fs : String → Option PyFloat) (sort : List Row → List Row)
    (trials : List (String × Trial)) (csv : Csv) : Csv × Option PyErr :=
  match summarize fs trials with
  | .error e => (csv, some e)
  | .ok s => saveCsv sort s csv

end Neps.Status
