import Verif.Status.Spec

/-!
# Several processes that summarise a run while it goes on

A worker that comes back from `neps.run` reads all trials and writes the CSV files
(`neps/api.py:241-243`). Nothing keeps other workers from evaluating, reading and writing meanwhile:
only the writing of the files is under a lock. Here every read of a trial and the locked write are
steps of their own, interleaved with the steps of the workers.
-/

namespace Neps.Status

open Neps.Run (World)

/-- Where a process is in `post_run_csv`, `neps/status/status.py:350-377`. -/
inductive Writer
  | idle
  | reading (todo : List String) (seen : List (String × Trial))   -- inside `get_all_trials`, line 219
  | failed                                                        -- an exception of a read
deriving Repr

/-- The run directory, the CSV files and the processes that write them. -/
structure Board where
  W : World := {}
  csv : Csv := none
  writer : Nat → Writer := fun _ => .idle

/-- What happens next. -/
inductive Ev
  | work (a : Run.Act)                      -- a worker goes on (or is killed)
  | begin (p : Nat) (order : List String)   -- process `p` calls `post_run_csv` and lists the trials
  | read (p : Nat)                          -- `p` reads the next trial
  | save (p : Nat)                          -- `p`, having read all, gets the lock, writes, releases it

/-- Move process `p`. -/
def Board.setP (B : Board) (p : Nat) (x : Writer) : Board :=
  { B with writer := fun q => if q = p then x else B.writer q }

/-- One step. The listing is any order of the trial directories (`neps/state/filebased.py:190-203`);
a trial is read as in `neps/state/protocols.py:209-222`; the locked part is
`neps/status/status.py:302-347` (`postRunCsv`). A killed writer is one that takes no further step. -/
def Board.step (fs : String → Option PyFloat) (st : Nat → Run.Settings)
    (sort : List Row → List Row) (B : Board) : Ev → Board
  | .work a => { B with W := Run.act fs st B.W a }
  | .begin p order =>
    B.setP p (.reading (if order.isPerm B.W.ids then order else B.W.ids) [])
  | .read p =>
    match B.writer p with
    | .reading (id :: todo) seen =>
      match Store.load (B.W.disk id) with
      | .ok h => B.setP p (.reading todo (seen ++ [(id, h.cur)]))
      | .error _ => B.setP p .failed
    | _ => B
  | .save p =>
    match B.writer p with
    | .reading [] seen => { (B.setP p .idle) with csv := (postRunCsv fs sort seen B.csv).1 }
    | _ => B

/-- Any history. -/
def Board.play (fs : String → Option PyFloat) (st : Nat → Run.Settings)
    (sort : List Row → List Row) (B : Board) (es : List Ev) : Board :=
  es.foldl (Board.step fs st sort) B

/-! ## `neps.status` -/

/-- What is printed. -/
inductive Line
  | evaluated (n : Nat)
  | pending (n : Nat)
  | pendingWithWorker (n : Nat)
  | crashed (n : Nat)
  | bestLoss (x : PyFloat)
  | bestId (id : Option String)
  | bestConfig (c : Option (List (String × PyVal)))
  | text (s : String)
deriving DecidableEq, Repr

/-- Exceptions of `status`. -/
inductive StatusErr
  | summary (e : PyErr)
  | fileNotFound (name : String)
deriving DecidableEq, Repr

/-- What `status` returns: the results and the pending configurations. -/
abbrev StatusResult := List (String × Stat) × List (String × List (String × PyVal))

/-- Print the text of a file of the run directory, `neps/status/status.py:144, 151, 158`. -/
def printFile (files : String → Option String) (wanted : Bool) (name : String)
    (out : List Line) : List Line × Option StatusErr :=
  if wanted then
    match files name with
    | some s => (out ++ [.text s], none)
    | none => (out, some (.fileNotFound name))
  else (out, none)

/-- `status`, `neps/status/status.py:98-160`: what was printed, and the result or the exception.
`files` are the text files at the top of the run directory. Headings and empty lines are left out. -/
def status (fs : String → Option PyFloat) (trials : List (String × Trial))
    (files : String → Option String) (bestLosses bestConfigs allConfigs printSummary : Bool) :
    List Line × Except StatusErr StatusResult :=
  match summarize fs trials with
  | .error e => ([], .error (.summary e))
  | .ok s =>
    let result : StatusResult := (s.previousResults, s.pendingConfigs)
    if printSummary then
      let out := [Line.evaluated s.numEvaluated, .pending s.numPending,
        .pendingWithWorker s.numPendingWithWorker, .crashed s.numError]
      if s.previousResults.length = 0 then (out, .ok result)
      else
        let out := out ++ [.bestLoss s.bestLoss, .bestId s.bestId, .bestConfig s.bestConfig]
        match printFile files bestLosses "best_loss_trajectory.txt" out with
        | (out, some e) => (out, .error e)
        | (out, none) =>
          match printFile files bestConfigs "best_loss_with_config_trajectory.txt" out with
          | (out, some e) => (out, .error e)
          | (out, none) =>
            match printFile files allConfigs "all_losses_and_configs.txt" out with
            | (out, some e) => (out, .error e)
            | (out, none) => (out, .ok result)
    else ([], .ok result)

end Neps.Status
