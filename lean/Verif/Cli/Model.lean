import Verif.Status.Model
import Verif.Opt.Ids
import Mathlib.Data.List.Sort

/-!
# The command line

Model of the commands of `neps/utils/cli.py` that show a run: `neps results`, `neps status`,
`neps info-config`, and of the arguments of `neps run --searcher-kwargs`.
-/

namespace Neps.Cli

open Neps.Ids

/-! ## Numbers in texts -/

/-- The digits of `int(s)`: single underscores are allowed between digits. `prev` says whether the
character before was a digit. -/
def intDigits : Nat → Bool → List Char → Option Nat
  | acc, prev, [] => if prev then some acc else none
  | acc, prev, c :: cs =>
    if c = '_' then
      if prev then intDigits acc false cs else none
    else
      match digitVal c with
      | none => none
      | some d => intDigits (10 * acc + d) true cs

/-- `s.strip()`. Simplification: blanks, tabs and line ends only. -/
def strip (s : List Char) : List Char :=
  ((s.dropWhile Char.isWhitespace).reverse.dropWhile Char.isWhitespace).reverse

/-- `int(s)` of a text, `none` for `ValueError`. Simplification: ASCII digits only. -/
def pyInt (s : List Char) : Option Int :=
  match strip s with
  | '-' :: r => (intDigits 0 false r).map (fun n => -(n : Int))
  | '+' :: r => (intDigits 0 false r).map (fun n => (n : Int))
  | r => (intDigits 0 false r).map (fun n => (n : Int))

/-! ## `neps results` -/

/-- The keys of `sorted(trials.values(), key=lambda x: int(x.id))`, `neps/utils/cli.py:541`: all keys
are computed first. -/
def keyed : List Trial → Except PyErr (List (Int × Trial))
  | [] => .ok []
  | t :: ts =>
    match pyInt t.id.toList with
    | none => .error .valueError
    | some k =>
      match keyed ts with
      | .error e => .error e
      | .ok l => .ok ((k, t) :: l)

/-- `sorted` by key, which is stable, `neps/utils/cli.py:541`. -/
def sortKeyed (l : List (Int × Trial)) : List (Int × Trial) :=
  l.insertionSort (fun a b => a.1 ≤ b.1)

/-- The loop that computes the incumbents, `neps/utils/cli.py:543-549`. Comparing the loss `None` with
a number raises `TypeError`. -/
def incumbents : PyFloat → List Trial → Except PyErr (List Trial)
  | _, [] => .ok []
  | best, t :: ts =>
    match t.report with
    | none => incumbents best ts
    | some r =>
      match r.loss with
      | none => .error .typeError
      | some x =>
        if PyFloat.lt x best then
          match incumbents x ts with
          | .error e => .error e
          | .ok l => .ok (t :: l)
        else incumbents best ts

/-- `results`, `neps/utils/cli.py:520-569`, without `--plot`: the trials in the printed table from top
to bottom. -/
def results (trials : List (String × Trial)) : Except PyErr (List Trial) :=
  match keyed (trials.map Prod.snd) with
  | .error e => .error e
  | .ok l =>
    match incumbents .pinf ((sortKeyed l).map Prod.snd) with
    | .error e => .error e
    | .ok l => .ok l.reverse

/-- `plot_incumbents`, `neps/utils/cli.py:467-487`: the points of the curve, from the sorted trials
and the incumbents. Simplification: ids are distinct, so `id_to_index` maps an id to the only position
at which it occurs; incumbents have a loss, so the two lists of coordinates match. -/
def plotPoints (all inc : List Trial) : List (Nat × PyFloat) :=
  inc.filterMap (fun t =>
    match t.report with
    | none => none
    | some r => r.loss.map (fun x => (all.findIdx (fun s => s.id = t.id) + 1, x)))

/-- `results --plot`, `neps/utils/cli.py:570-572`. -/
def resultsPlot (trials : List (String × Trial)) : Except PyErr (List (Nat × PyFloat)) :=
  match keyed (trials.map Prod.snd) with
  | .error e => .error e
  | .ok l =>
    match incumbents .pinf ((sortKeyed l).map Prod.snd) with
    | .error e => .error e
    | .ok inc => .ok (plotPoints ((sortKeyed l).map Prod.snd) inc)

/-! ## `neps status` -/

/-- The flags of `neps status`, `neps/utils/cli.py:951-959`. -/
structure Flags where
  pending : Bool := false
  evaluating : Bool := false
  succeeded : Bool := false
deriving DecidableEq, Repr

/-- `sorted(..., key=time_sampled, reverse=True)`, `neps/utils/cli.py:376-379`: newest first. Trials
sampled at the same time keep their order. -/
def newestFirst (ts : List Trial) : List Trial :=
  ts.insertionSort (fun a b => PyFloat.lt a.metadata.timeSampled b.metadata.timeSampled = false)

/-- The trials in the table, `neps/utils/cli.py:381-395`. -/
def tableTrials (f : Flags) (ts : List Trial) : List Trial :=
  if f.pending then (newestFirst ts).filter (fun t => t.state = .pending)
  else if f.evaluating then (newestFirst ts).filter (fun t => t.state = .evaluating)
  else if f.succeeded then (newestFirst ts).filter (fun t => t.state = .success)
  else (newestFirst ts).take 7

/-- What `neps status` prints above the table, `neps/utils/cli.py:350-370`. `succeeded` is a
difference of two numbers. -/
structure Counts where
  succeeded : Int
  failed : Nat
  active : Nat
  pending : Nat
  pendingWithWorker : Nat
  bestLoss : PyFloat
deriving DecidableEq, Repr

/-- One line of the table, `neps/utils/cli.py:409-428`: `duration` and `loss` are `none` for `N/A`. -/
structure Line where
  timeSampled : PyFloat
  duration : Option PyFloat
  id : String
  worker : String
  state : TState
  loss : Option PyFloat
deriving DecidableEq, Repr

/-- A line of the table, `neps/utils/cli.py:409-428`. `elapsed` is `compute_duration`: the time passed
since a moment. A duration of `0.0` counts as missing. -/
def lineOf (elapsed : PyFloat → PyFloat) (t : Trial) : Line where
  timeSampled := t.metadata.timeSampled
  duration :=
    if t.state = .pending ∨ t.state = .evaluating then some (elapsed t.metadata.timeSampled)
    else
      match t.metadata.evaluationDuration with
      | none => none
      | some d => if d = .num 0 then none else some d
  id := t.id
  worker := t.metadata.samplingWorkerId
  state := t.state
  loss :=
    match t.report with
    | none => none
    | some r => r.loss

/-- What `neps status` prints. -/
structure StatusOut where
  counts : Counts
  lines : List Line
  best : Option (String × PyFloat × List (String × PyVal))
deriving DecidableEq, Repr

/-- `status`, `neps/utils/cli.py:330-455`, without the lines about the optimizer. The best trial is
printed when no flag is given (lines 430-448). -/
def statusCmd (fs : String → Option PyFloat) (elapsed : PyFloat → PyFloat) (f : Flags)
    (trials : List (String × Trial)) : Except PyErr StatusOut :=
  match Status.summarize fs trials with
  | .error e => .error e
  | .ok s =>
    .ok
      { counts :=
          { succeeded := (s.numEvaluated : Int) - (s.numError : Int)
            failed := s.numError
            active := ((trials.map Prod.snd).filter (fun t => t.state = .evaluating)).length
            pending := s.numPending
            pendingWithWorker := s.numPendingWithWorker
            bestLoss := s.bestLoss }
        lines := (tableTrials f (trials.map Prod.snd)).map (lineOf elapsed)
        best :=
          if f.pending || f.evaluating || f.succeeded then none
          else
            match s.bestId, s.bestConfig with
            | some i, some c => some (i, s.bestLoss, c)
            | _, _ => none }

/-! ## `neps info-config` -/

/-- What `neps info-config` prints, `neps/utils/cli.py:240-263`. -/
structure Info where
  id : String
  state : TState
  config : List (String × PyVal)
  location : String
  previousTrialId : Option String
  samplingWorkerId : String
  timeSampled : PyFloat
  evaluatingWorkerId : Option String
  duration : PyFloat
  timeStarted : PyFloat
  timeEnd : PyFloat
  report : Option (Option PyFloat × Option PyFloat × ReportedAs)
deriving DecidableEq, Repr

/-- `info_config` from the trial on, `neps/utils/cli.py:240-263`. `format_duration(None)` and
`convert_timestamp(None)` raise `TypeError`. Simplification: times are numbers that `datetime` can
represent; the lines printed before an exception are not part of the result. -/
def infoOf (t : Trial) : Except PyErr Info :=
  match t.metadata.evaluationDuration with
  | none => .error .typeError
  | some d =>
    match t.metadata.timeStarted with
    | none => .error .typeError
    | some b =>
      match t.metadata.timeEnd with
      | none => .error .typeError
      | some e =>
        .ok
          { id := t.metadata.id, state := t.state, config := t.config
            location := t.metadata.location
            previousTrialId := t.metadata.previousTrialId
            samplingWorkerId := t.metadata.samplingWorkerId
            timeSampled := t.metadata.timeSampled
            evaluatingWorkerId := t.metadata.evaluatingWorkerId
            duration := d, timeStarted := b, timeEnd := e
            report := t.report.map (fun r => (r.loss, r.cost, r.reportedAs)) }

/-- `info_config`, `neps/utils/cli.py:217-263`: `none` is the message that there is no such trial. -/
def infoConfig (trials : List (String × Trial)) (id : String) : Except PyErr (Option Info) :=
  match trials.find? (fun p => p.1 = id) with
  | none => .ok none
  | some p =>
    match infoOf p.2 with
    | .error e => .error e
    | .ok i => .ok (some i)

/-! ## Durations -/

/-- `f"{n:02d}"`. -/
def pad2 (n : Nat) : List Char := if n < 10 then '0' :: natStr n else natStr n

/-- `f"{n:06d}"`. -/
def pad6 (n : Nat) : List Char := List.replicate (6 - (natStr n).length) '0' ++ natStr n

/-- `str(timedelta(microseconds=us))` for a duration that is not negative (Python's `datetime`):
`[D day[s], ][H]H:MM:SS[.UUUUUU]`. -/
def timedeltaStr (us : Nat) : List Char :=
  let days := us / 86400000000
  let secs := us / 1000000 % 86400
  let micro := us % 1000000
  let hms := natStr (secs / 3600) ++ ':' :: pad2 (secs / 60 % 60) ++ ':' :: pad2 (secs % 60)
  (if days = 0 then []
    else natStr days ++ (if days = 1 then " day, ".toList else " days, ".toList)) ++
  hms ++ (if micro = 0 then [] else '.' :: pad6 micro)

/-- `format_duration`, `neps/utils/cli.py:316-322`, of a number of microseconds (`timedelta` rounds
the seconds to microseconds). -/
def formatDuration (us : Nat) : List Char :=
  let s := timedeltaStr us
  if '.' ∈ s then (split '.' s).headD [] else s

/-! ## `--searcher-kwargs` -/

/-- `s.lower()`. Simplification: ASCII letters only. -/
def lower (s : List Char) : List Char := s.map Char.toLower

/-- `convert_value`, `neps/utils/cli.py:146-163`. `fs` is `float(s)` for texts. -/
def convertValue (fs : String → Option PyFloat) (v : List Char) : PyVal :=
  if lower v = "true".toList then .bool true
  else if lower v = "false".toList then .bool false
  else if '.' ∈ v ∨ 'e' ∈ lower v then
    match fs (String.ofList v) with
    | some x => .float x
    | none => .str (String.ofList v)
  else
    match pyInt v with
    | some n => .int n
    | none => .str (String.ofList v)

/-- `item.split("=", 1)`, an error without `=`. -/
def splitEq : List Char → Option (List Char × List Char)
  | [] => none
  | c :: cs =>
    if c = '=' then some ([], cs)
    else (splitEq cs).map (fun p => (c :: p.1, p.2))

/-- `parse_kv_pairs`, `neps/utils/cli.py:143-172`. -/
def parseKv (fs : String → Option PyFloat) :
    List String → List (String × PyVal) → Except PyErr (List (String × PyVal))
  | [], acc => .ok acc
  | item :: items, acc =>
    match splitEq item.toList with
    | none => .error .valueError
    | some (k, v) => parseKv fs items (Dict.set acc (String.ofList k) (convertValue fs v))

end Neps.Cli
