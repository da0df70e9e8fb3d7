import Mathlib.Data.List.Basic

/-!
# Locks

Which locks the processes of a run take, in which order, and what they do while they hold them.

Every shared file has a lock file. Taking a lock that another file handle has, also one of the same
process, waits (`portalocker.Lock` opens the lock file anew, so that nothing is reentrant); after a
timeout it raises. Leaving the `with` block, also by an exception, releases the lock, and the
operating system releases the locks of a process that ends.

Simplification: what the operations read and write is the subject of the other models; here only the
locks matter, and two pieces of code of the user: the objective and the optimizer with its hooks.
-/

namespace Neps.Locks

/-- The lock files: `neps/state/filebased.py:627-670` (`.optimizer_info/.lock`, `.seed_state/.lock`,
`.errors/.all.lock`, `.optimizer_state/.lock`), `filebased.py:137-141,182-186` (one per trial) and
`neps/status/status.py:184` (`summary_csv/.csv_lock`). -/
inductive Lock
  | info
  | seed
  | errors
  | optState
  | trial (id : String)
  | csv
deriving DecidableEq, Repr

/-- The code of the user. -/
inductive Work
  | objective
  | ask
deriving DecidableEq, Repr

/-- What a process does next. -/
inductive Instr
  /-- Enter `with locker.lock()`, `neps/state/filebased.py:460-476`. -/
  | acq (l : Lock)
  /-- Leave it. -/
  | rel (l : Lock)
  /-- Code of the user. -/
  | work (w : Work)
deriving DecidableEq, Repr

/-- `with locker.lock(): ...` around code that takes no lock: `Synced.new`, `load`, `synced` and
`put`, `neps/state/protocols.py:390-397, 431-439, 493-494, 502-503`. -/
def locked (l : Lock) : List Instr := [.acq l, .rel l]

/-- `Synced.new_or_load`, `neps/state/protocols.py:475-489`: the lock is released before `load`
takes it again. `there` says that the resource exists already. -/
def newOrLoad (l : Lock) (there : Bool) : List Instr :=
  if there then locked l ++ locked l else locked l

/-- `TrialRepoInDirectory.get_by_id`, `neps/state/filebased.py:127-145`: a trial that was opened
before is in the cache. -/
def getById (t : String × Bool) : List Instr := if t.2 then [] else locked (.trial t.1)

/-- `TrialRepoInDirectory.all`, `neps/state/filebased.py:194-201`: the trials of the directory, each
with the information whether it is in the cache. -/
def allTrials (ts : List (String × Bool)) : List Instr := ts.flatMap getById

/-- `synced()` of every trial, one after the other (`neps/state/neps_state.py:93-95, 223`,
`neps/state/filebased.py:206-208`). -/
def syncAll (ts : List (String × Bool)) : List Instr := ts.flatMap fun t => locked (.trial t.1)

/-- `get_all_trials`, `neps/state/neps_state.py:221-223`. -/
def getAllTrials (ts : List (String × Bool)) : List Instr := allTrials ts ++ syncAll ts

/-- `load_filebased_neps_state`, `neps/state/filebased.py:515-560`. -/
def loadState : List Instr :=
  locked .info ++ locked .seed ++ locked .errors ++ locked .optState

/-- What processes do with a run directory. -/
inductive Operation
  /-- `create_or_load_filebased_neps_state`; for every resource whether it exists. -/
  | create (info seed errors optState : Bool)
  /-- Read the error log, `neps/runtime.py:285`, `neps_state.py:191-193`. -/
  | readErrors
  /-- Count the trials, `neps/runtime.py:318`. -/
  | sweep (ts : List (String × Bool))
  /-- `get_next_pending_trial`; `found` are the pending trials that are fetched. -/
  | nextPending (ts : List (String × Bool)) (found : List String)
  /-- `sample_trial`, until the trial `new` is stored; `none` if the optimizer raises. `look` says
  that the optimizer or a hook (`neps/state/neps_state.py:101-103`) calls `get_summary_dict` for
  this directory, and the trials it sees. -/
  | sample (ts : List (String × Bool)) (look : Option (List (String × Bool))) (new : Option String)
  /-- `put_updated_trial`. -/
  | putUpdated (t : String × Bool)
  /-- The evaluation of a trial, `neps/runtime.py:447-452`. -/
  | evaluate
  /-- `report_trial_evaluation`; `err` says that the evaluation failed. -/
  | report (t : String × Bool) (err : Bool)
  /-- `get_trial_by_id`. -/
  | getTrial (t : String × Bool)
  /-- `get_summary_dict` and `neps.status`. -/
  | status (ts : List (String × Bool))
  /-- The CSV files, `post_run_csv`. -/
  | csv (ts : List (String × Bool))
deriving Repr

/-- The locks of an operation, in order. -/
def program : Operation → List Instr
  -- `neps/state/filebased.py:624-670`
  | .create i s e o =>
    newOrLoad .info i ++ newOrLoad .seed s ++ newOrLoad .errors e ++ newOrLoad .optState o
  | .readErrors => locked .errors
  | .sweep ts => getAllTrials ts
  -- `neps/state/filebased.py:203-210`, `neps/state/neps_state.py:210-215`
  | .nextPending ts found => getAllTrials ts ++ found.flatMap fun id => locked (.trial id)
  -- `neps/state/neps_state.py:85-142`
  | .sample ts look new =>
    [.acq .optState, .acq .seed] ++ getAllTrials ts ++ [.work .ask] ++
      (match look with | some ts => loadState ++ getAllTrials ts | none => []) ++
      (match new with | some id => locked (.trial id) | none => []) ++
      [.rel .seed, .rel .optState]
  -- `neps/state/neps_state.py:61-62`
  | .putUpdated t => getById t ++ locked (.trial t.1)
  | .evaluate => [.work .objective]
  -- `neps/state/neps_state.py:162-189`
  | .report t err =>
    getById t ++ locked (.trial t.1) ++ locked .optState ++ if err then locked .errors else []
  -- `neps/state/neps_state.py:64-66`
  | .getTrial t => getById t ++ locked (.trial t.1)
  -- `neps/status/status.py:40-42`
  | .status ts => loadState ++ getAllTrials ts
  -- `neps/status/status.py:193-240, 302, 359-376`: the lock is taken after the summary was read
  | .csv ts => loadState ++ getAllTrials ts ++ locked .csv

/-- A process: what it still has to do, and the locks it has, newest first. -/
structure Proc where
  alive : Bool := true
  todo : List Instr := []
  held : List Lock := []
deriving DecidableEq, Repr

/-- All processes. -/
abbrev World := Nat → Proc

/-- Update one process. -/
def set (W : World) (p : Nat) (x : Proc) : World := fun q => if q = p then x else W q

/-- No process has the lock. -/
def Free (W : World) (l : Lock) : Prop := ∀ q, l ∉ (W q).held

/-- What can happen next. -/
inductive Act
  /-- A process that is idle begins an operation. -/
  | start (p : Nat) (op : Operation)
  /-- A process takes its next step. If it has to wait for a lock, nothing happens. -/
  | step (p : Nat)
  /-- An exception, also a timeout of a lock: all `with` blocks are left. -/
  | raise (p : Nat)
  /-- The process ends. -/
  | kill (p : Nat)

open Classical in
/-- One step of process `p`. -/
noncomputable def stepP (W : World) (p : Nat) : World :=
  match (W p).todo with
  | [] => W
  | .acq l :: is =>
    if Free W l then set W p { W p with todo := is, held := l :: (W p).held } else W
  | .rel l :: is => set W p { W p with todo := is, held := (W p).held.erase l }
  | .work _ :: is => set W p { W p with todo := is }

open Classical in
/-- Perform an action. -/
noncomputable def act (W : World) : Act → World
  | .start p op =>
    if (W p).alive = true ∧ (W p).todo = [] then set W p { W p with todo := program op } else W
  | .step p => if (W p).alive = true then stepP W p else W
  | .raise p => set W p { W p with todo := [], held := [] }
  | .kill p => set W p ⟨false, [], []⟩

/-- Perform actions, from a state in which nobody does anything. -/
noncomputable def run (as : List Act) : World := as.foldl act fun _ => {}

end Neps.Locks
